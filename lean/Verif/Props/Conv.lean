import Verif.Lemmas.Conv
import Mathlib.Algebra.BigOperators.Group.List.Lemmas
import Mathlib.Algebra.Ring.Basic
import Mathlib.Tactic.Ring
import Mathlib.Tactic.IntervalCases

/-!
# C59: convolution is the zero-padded cross-correlation

`y[b, oc, o] = Σ x[b, ic, i] * w[oc, ic, k]` over all input channels `ic`, kernel positions `k` and the
input position `i` with `i + padding = o * stride + k * dilation`, positions outside the input
contributing nothing.
-/

namespace Hodu
open Spec

/-! ## Specification -/

/-- The output size in every spatial dimension. -/
def Spec.convOuts (s p d : Nat) (ns ks : List Nat) : List Nat :=
  List.zipWith (fun n k => (n + 2 * p - d * (k - 1) - 1) / s + 1) ns ks

/-- The dilated kernel is not empty and fits into the padded input. -/
def Spec.KernelFits (p d : Nat) (ns ks : List Nat) : Prop :=
  List.Forall₂ (fun n k => 0 < k ∧ d * (k - 1) < n + 2 * p) ns ks

/-- The products that make up output element `(b, oc, o)`, in the order channel, then kernel
position. -/
def Spec.convTerms (mul : α → α → α) (s p d Ci : Nat) (ns ks : List Nat) (X W : List Nat → α)
    (b oc : Nat) (o : List Nat) : List α :=
  (List.range Ci).flatMap fun ic => (indices ks).filterMap fun k =>
    (tapIndex s p d ns o k).map fun i => mul (X (b :: ic :: i)) (W (oc :: ic :: k))

/-- `y` is the convolution of `x` (with elements `X`) and `w` (with elements `W`). -/
def Spec.IsConv (zero : α) (add mul : α → α → α) (s p d B Ci Co : Nat) (ns ks os : List Nat)
    (X W : List Nat → α) (y : Tensor α) : Prop :=
  y.dims = B :: Co :: os ∧ ∀ b oc o, b < B → oc < Co → InRange o os →
    y.elem (b :: oc :: o) = some ((convTerms mul s p d Ci ns ks X W b oc o).foldl add zero)

/-- The full claim: for all well-formed operands of matching shapes. -/
def Spec.ConvCorrect (α : Type) : Prop :=
  ∀ (nsp : Nat) (x w : Tensor α) (X W : List Nat → α) (zero : α) (add mul : α → α → α)
    (s p d B Ci Co : Nat) (ns ks : List Nat), nsp = 1 ∨ nsp = 2 ∨ nsp = 3 →
    x.WF → w.WF → Reads x X → Reads w W → x.dims = B :: Ci :: ns → w.dims = Co :: Ci :: ks →
    ns.length = nsp → ks.length = nsp → 0 < s → KernelFits p d ns ks → (∀ n ∈ ns, n + 2 * p < 2 ^ 31) →
    ∃ y, x.conv zero add mul nsp w s p d = .ok y ∧
      IsConv zero add mul s p d B Ci Co ns ks (convOuts s p d ns ks) X W y

/-! ## Sizes -/

theorem convOutSize_eq {n k s p d : Nat} (hs : 0 < s) (hk : 0 < k) (h : d * (k - 1) < n + 2 * p) :
    convOutSize n k s p d = .ok ((n + 2 * p - d * (k - 1) - 1) / s + 1) := by
  unfold convOutSize subUsize
  rw [if_neg (by omega), Res.ok_bind, if_neg (by omega), Res.ok_bind, if_neg (by omega), Res.ok_bind,
    if_neg (by omega)]

theorem convSizes_eq {s p d : Nat} {ns ks : List Nat} (hs : 0 < s) (h : KernelFits p d ns ks) :
    convSizes (convOutSize · · s p d) ns ks = .ok (convOuts s p d ns ks) := by
  induction h with
  | nil => rfl
  | cons hd _ ih =>
    simp only [convSizes]
    rw [convOutSize_eq hs hd.1 hd.2, Res.ok_bind, ih, Res.ok_bind]
    rfl

theorem convOuts_length {s p d : Nat} {ns ks : List Nat} (h : KernelFits p d ns ks) :
    (convOuts s p d ns ks).length = ns.length := by
  have := h.length_eq
  simp [convOuts, this]

theorem fits_conv {s p d : Nat} {ns ks : List Nat} (h : KernelFits p d ns ks)
    (hb : ∀ n ∈ ns, n + 2 * p < 2 ^ 31) : Fits s d (convOuts s p d ns ks) ks ns := by
  induction h with
  | nil => trivial
  | @cons n k ns ks hd _ ih =>
    refine ⟨?_, ?_, ih fun n hn => hb n (by simp [hn])⟩
    · intro x j hx hj
      have hn := hb n (by simp)
      have h1 : x * s ≤ n + 2 * p - d * (k - 1) - 1 :=
        le_trans (Nat.mul_le_mul_right s (Nat.le_of_lt_succ hx)) (Nat.div_mul_le_self _ _)
      have h2 : j * d ≤ d * (k - 1) := by
        rw [Nat.mul_comm]; exact Nat.mul_le_mul_left d (by omega)
      have := hd.2
      omega
    · have := hb n (by simp)
      omega

theorem padding_small {p : Nat} {ns : List Nat} (hn : ns ≠ []) (hb : ∀ n ∈ ns, n + 2 * p < 2 ^ 31) :
    p < 2 ^ 31 := by
  cases ns with
  | nil => exact absurd rfl hn
  | cons n ns =>
    have := hb n (by simp)
    omega

/-! ## One output element -/

theorem filterMap_indices_cons (d : Nat) (ds : List Nat) (g : List Nat → Option γ) :
    (indices (d :: ds)).filterMap g =
      (List.range d).flatMap fun i => (indices ds).filterMap fun k => g (i :: k) := by
  rw [indices_cons, List.filterMap_flatMap]
  congr 1
  funext i
  rw [List.filterMap_map]
  rfl

/-- The term of one tap, as a function of the loop variables. -/
def convTerm (mul : α → α → α) (s p d : Nat) (ns : List Nat) (X W : List Nat → α) (b oc : Nat)
    (o : List Nat) : List Nat → Option α
  | ic :: k => (tapIndex s p d ns o k).map fun i => mul (X (b :: ic :: i)) (W (oc :: ic :: k))
  | [] => none

theorem convCell_ok {x w : Tensor α} {X W : List Nat → α} {zero : α} {add mul : α → α → α}
    {s p d B Ci Co N : Nat} {ns ks os : List Nat} (hx : Reads x X) (hw : Reads w W) (px : Packed x)
    (pw : Packed w) (dx : x.dims = B :: Ci :: ns) (dw : w.dims = Co :: Ci :: ks)
    (hk : ks.length = ns.length) (ho : os.length = ns.length) (hp : p < 2 ^ 31)
    (hf : Fits s d os ks ns) {b oc : Nat} {o : List Nat} (hb : b < B) (hoc : oc < Co)
    (hoi : InRange o os) :
    convCell zero add mul x.storage w.storage
      ⟨N, B, Ci, Co, mkAxes s p d ns ks os, x.layout.offset, w.layout.offset⟩
      (rowMajor (B :: Co :: os) (b :: oc :: o)) =
      .ok ((convTerms mul s p d Ci ns ks X W b oc o).foldl add zero) := by
  have hr : InRange (oc :: o) (Co :: os) := ⟨hoc, hoi⟩
  have hu : cUnravel (Co :: os) (rowMajor (B :: Co :: os) (b :: oc :: o)) = (oc :: o, b) := by
    rw [cUnravel_eq, rowMajor]
    have hlt := rowMajor_lt hr
    rw [Nat.add_comm, Nat.add_mul_mod_self_right, Nat.mod_eq_of_lt hlt,
      Nat.add_mul_div_right _ _ (by omega), Nat.div_eq_of_lt hlt, unravel_rowMajor hr]
    simp
  unfold convCell
  dsimp only
  rw [mkAxes_o hk ho, hu]
  dsimp only
  rw [mkAxes_k hk ho, loops_eq, foldL_skip (add := add) (g := convTerm mul s p d ns X W b oc o)]
  · rw [filterMap_indices_cons]
    rfl
  · intro a ick hm
    have hm := mem_indices.mp hm
    cases ick with
    | nil => exact hm.elim
    | cons ic k =>
      obtain ⟨hic, hki⟩ := hm
      simp only [convStep, convTerm]
      rw [cTaps_n hp hf ho.symm hoi hki (by omega), Res.ok_bind]
      cases ht : tapIndex s p d ns o k with
      | none => rfl
      | some i =>
        have hi := tapIndex_inRange ht
        simp only [Option.map_some]
        rw [mkAxes_n hk ho, mkAxes_k hk ho]
        unfold readBoth
        rw [packed_read hx px dx (by rw [dx]; exact ⟨hb, hic, hi⟩), Res.ok_bind,
          packed_read hw pw dw (by rw [dw]; exact ⟨hoc, hic, hki⟩)]
        rfl

/-! ## C59 -/

theorem inRange_cons2 {idx : List Nat} {B C : Nat} {os : List Nat} (h : InRange idx (B :: C :: os)) :
    ∃ b c o, idx = b :: c :: o ∧ b < B ∧ c < C ∧ InRange o os := by
  match idx, h with
  | b :: c :: o, h => exact ⟨b, c, o, rfl, h.1, h.2.1, h.2.2⟩

theorem fresh_length (st : List α) (dims : List Nat) :
    (⟨st, Layout.fromShape dims⟩ : Tensor α).layout.strides.length = dims.length :=
  computeStrides_length dims

/-- **C59** for operands stored in row-major order (at any offset): convolution in one, two or three
dimensions, for every element type and any arithmetic, computes the cross-correlation with zero
padding, summed in the order channel, then kernel position.  Missing: operands that are strided views
(`C59_view_wrong`), for which the claim is false, and sizes for which the kernel's `int` computations
overflow. -/
theorem C59_conv_partial {nsp : Nat} (h3 : nsp = 1 ∨ nsp = 2 ∨ nsp = 3) {x w : Tensor α}
    {X W : List Nat → α} (zero : α) (add mul : α → α → α) {s p d B Ci Co : Nat} {ns ks : List Nat}
    (hx : Reads x X) (hw : Reads w W) (px : Packed x) (pw : Packed w) (dx : x.dims = B :: Ci :: ns)
    (dw : w.dims = Co :: Ci :: ks) (hn : ns.length = nsp) (hk : ks.length = nsp) (hs : 0 < s)
    (hv : KernelFits p d ns ks) (hb : ∀ n ∈ ns, n + 2 * p < 2 ^ 31) :
    ∃ y, x.conv zero add mul nsp w s p d = .ok y ∧ y.WF ∧ Packed y ∧
      IsConv zero add mul s p d B Ci Co ns ks (convOuts s p d ns ks) X W y := by
  have hol := convOuts_length (s := s) hv
  have hf := fits_conv (s := s) hv hb
  have hp : p < 2 ^ 31 :=
    padding_small (by rintro rfl; simp at hn; omega) hb
  have hcell : ∀ b oc o, b < B → oc < Co → InRange o (convOuts s p d ns ks) → _ := fun b oc o h1 h2 h3 =>
    convCell_ok (zero := zero) (add := add) (mul := mul) (N := numel (B :: Co :: convOuts s p d ns ks))
      hx hw px pw dx dw (by omega) hol hp hf h1 h2 h3
  obtain ⟨zs, e1, e2, e3⟩ := runLoop_elem (out := B :: Co :: convOuts s p d ns ks)
    (val := convCell zero add mul x.storage w.storage
      ⟨numel (B :: Co :: convOuts s p d ns ks), B, Ci, Co, mkAxes s p d ns ks (convOuts s p d ns ks),
        x.layout.offset, w.layout.offset⟩) (by
      intro idx hi
      obtain ⟨b, oc, o, rfl, h1, h2, h3⟩ := inRange_cons2 hi
      exact ⟨_, hcell b oc o h1 h2 h3⟩)
  have hconv : x.conv zero add mul nsp w s p d =
      .ok ⟨zs, Layout.fromShape (B :: Co :: convOuts s p d ns ks)⟩ := by
    unfold Tensor.conv callOpsConv
    rw [if_neg (by rw [dx, dw]; simp; omega), if_neg (by rw [dx, dw]; simp),
      show x.dims.drop 2 = ns by rw [dx]; rfl, show w.dims.drop 2 = ks by rw [dw]; rfl,
      convSizes_eq hs hv, Res.ok_bind, if_neg (by rw [dx, dw]; simp; omega),
      if_neg (by rw [dx, dw]; simp), Res.ok_bind,
      show x.dims.getD 0 0 = B by rw [dx]; rfl, show w.dims.getD 0 0 = Co by rw [dw]; rfl]
    unfold convKernel
    rw [show [B, Co] ++ convOuts s p d ns ks = B :: Co :: convOuts s p d ns ks from rfl,
      decodeConv_convMetadata h3 dx (by rw [show w.layout.dims = Co :: Ci :: ks from dw]; rfl) hn hk
        (by omega), Res.ok_bind, e1, Res.ok_bind]
  have hel : ∀ b oc o, b < B → oc < Co → InRange o (convOuts s p d ns ks) →
      Tensor.elem ⟨zs, Layout.fromShape (B :: Co :: convOuts s p d ns ks)⟩ (b :: oc :: o) =
        some ((convTerms mul s p d Ci ns ks X W b oc o).foldl add zero) :=
    fun b oc o h1 h2 h3 => e3 (b :: oc :: o) ⟨h1, h2, h3⟩ _ (hcell b oc o h1 h2 h3)
  refine ⟨_, hconv, ⟨fresh_length _ _, ?_⟩, ?_, rfl, hel⟩
  · intro idx hi
    obtain ⟨b, oc, o, rfl, h1, h2, h3⟩ := inRange_cons2 hi
    rw [hel b oc o h1 h2 h3]
    rfl
  · intro idx _
    exact dot_computeStrides _ idx

/-! ### As a sum -/

/-- `i` is the input position that output position `o` reads through kernel position `k`. -/
def Spec.IsTap (s p d : Nat) (i o k : List Nat) : Prop :=
  ∀ j, j < i.length → i.getD j 0 + p = o.getD j 0 * s + k.getD j 0 * d

instance (s p d : Nat) (i o k : List Nat) : Decidable (IsTap s p d i o k) :=
  inferInstanceAs (Decidable (∀ j, j < i.length → _))

/-- Sum over the indices of a shape. -/
def Spec.sumOver [AddCommMonoid α] (dims : List Nat) (f : List Nat → α) : α :=
  ((indices dims).map f).sum

theorem sum_map_unique [AddCommMonoid α] {l : List β} (hl : l.Nodup) {a : β} (ha : a ∈ l) {f : β → α}
    (h : ∀ b ∈ l, b ≠ a → f b = 0) : (l.map f).sum = f a := by
  induction l with
  | nil => cases ha
  | cons c l ih =>
    obtain ⟨hc, hl⟩ := List.nodup_cons.mp hl
    rw [List.map_cons, List.sum_cons]
    rcases List.mem_cons.mp ha with rfl | ha
    · have : (l.map f).sum = 0 := by
        apply List.sum_eq_zero
        intro v hv
        obtain ⟨b, hb, rfl⟩ := List.mem_map.mp hv
        exact h b (by simp [hb]) (by rintro rfl; exact hc hb)
      rw [this, add_zero]
    · rw [ih hl ha fun b hb hne => h b (by simp [hb]) hne,
        h c (by simp) (by rintro rfl; exact hc ha), zero_add]

/-- The contribution of the tap, whether or not it falls into the padding. -/
theorem tap_sum [AddCommMonoid α] {s p d : Nat} {ns o k : List Nat} (ho : o.length = ns.length)
    (hk : k.length = ns.length) (f : List Nat → α) :
    ((tapIndex s p d ns o k).map f).getD 0 =
      sumOver ns fun i => if IsTap s p d i o k then f i else 0 := by
  have hiff : ∀ i, InRange i ns → (IsTap s p d i o k ↔ tapIndex s p d ns o k = some i) := by
    intro i hi
    rw [tapIndex_eq_some ho hk]
    unfold IsTap
    rw [hi.length]
    exact ⟨fun h => ⟨hi, h⟩, fun h => h.2⟩
  unfold sumOver
  cases ht : tapIndex s p d ns o k with
  | none =>
    symm
    apply List.sum_eq_zero
    intro v hv
    obtain ⟨i, hi, rfl⟩ := List.mem_map.mp hv
    rw [if_neg]
    rw [hiff i (mem_indices.mp hi), ht]
    simp
  | some i =>
    have hi := tapIndex_inRange ht
    rw [sum_map_unique (indices_nodup ns) (mem_indices.mpr hi)]
    · rw [if_pos ((hiff i hi).mpr ht)]
      rfl
    · intro j hj hne
      rw [if_neg]
      rw [hiff j (mem_indices.mp hj), ht]
      simpa using fun h => hne h.symm

theorem foldl_filterMap_sum [AddCommMonoid α] (l : List β) (g : β → Option α) (a : α) :
    (l.filterMap g).foldl (· + ·) a = a + (l.map fun x => (g x).getD 0).sum := by
  induction l generalizing a with
  | nil => simp
  | cons x l ih =>
    cases hg : g x with
    | none => simp [hg, ih]
    | some v => simp [hg, ih, add_assoc]

theorem convTerms_eq (mul : α → α → α) (s p d Ci : Nat) (ns ks : List Nat) (X W : List Nat → α)
    (b oc : Nat) (o : List Nat) : convTerms mul s p d Ci ns ks X W b oc o =
      (indices (Ci :: ks)).filterMap (convTerm mul s p d ns X W b oc o) := by
  rw [filterMap_indices_cons]
  rfl

theorem sumOver_cons [AddCommMonoid α] (n : Nat) (ns : List Nat) (f : List Nat → α) :
    sumOver (n :: ns) f = ((List.range n).map fun i => sumOver ns fun k => f (i :: k)).sum := by
  unfold sumOver
  rw [indices_cons, List.map_flatMap]
  induction List.range n with
  | nil => rfl
  | cons a l ih =>
    rw [List.flatMap_cons, List.sum_append, ih, List.map_cons, List.sum_cons, List.map_map]
    rfl

theorem sumOver_congr [AddCommMonoid α] {dims : List Nat} {f g : List Nat → α}
    (h : ∀ i, InRange i dims → f i = g i) : sumOver dims f = sumOver dims g := by
  unfold sumOver
  rw [List.map_congr_left fun i hi => h i (mem_indices.mp hi)]

/-- The cross-correlation as a sum over channels, kernel positions and input positions. -/
def Spec.crossCorr [CommSemiring α] (s p d Ci : Nat) (ns ks : List Nat) (X W : List Nat → α)
    (b oc : Nat) (o : List Nat) : α :=
  ((List.range Ci).map fun ic => sumOver ks fun k => sumOver ns fun i =>
    if IsTap s p d i o k then X (b :: ic :: i) * W (oc :: ic :: k) else 0).sum

theorem convTerms_sum [CommSemiring α] {s p d Ci : Nat} {ns ks o : List Nat} (X W : List Nat → α)
    (b oc : Nat) (ho : o.length = ns.length) (hk : ks.length = ns.length) :
    (convTerms (· * ·) s p d Ci ns ks X W b oc o).foldl (· + ·) 0 = crossCorr s p d Ci ns ks X W b oc o := by
  rw [convTerms_eq, foldl_filterMap_sum, zero_add]
  have := sumOver_cons Ci ks fun ick => (convTerm (· * ·) s p d ns X W b oc o ick).getD 0
  unfold sumOver at this
  rw [this]
  unfold crossCorr
  congr 1
  apply List.map_congr_left
  intro ic _
  unfold sumOver
  congr 1
  apply List.map_congr_left
  intro k hki
  have hl := (mem_indices.mp hki).length
  simp only [convTerm]
  exact tap_sum ho (by omega) fun i => X (b :: ic :: i) * W (oc :: ic :: k)

/-- **C59 in a commutative semiring** (row-major operands): the mathematical cross-correlation.  Missing
as in `C59_conv_partial`. -/
theorem C59_conv_sum_partial [CommSemiring α] {nsp : Nat} (h3 : nsp = 1 ∨ nsp = 2 ∨ nsp = 3)
    {x w : Tensor α} {X W : List Nat → α} {s p d B Ci Co : Nat} {ns ks : List Nat}
    (hx : Reads x X) (hw : Reads w W) (px : Packed x) (pw : Packed w) (dx : x.dims = B :: Ci :: ns)
    (dw : w.dims = Co :: Ci :: ks) (hn : ns.length = nsp) (hk : ks.length = nsp) (hs : 0 < s)
    (hv : KernelFits p d ns ks) (hb : ∀ n ∈ ns, n + 2 * p < 2 ^ 31) :
    ∃ y, x.conv 0 (· + ·) (· * ·) nsp w s p d = .ok y ∧ y.dims = B :: Co :: convOuts s p d ns ks ∧
      ∀ b oc o, b < B → oc < Co → InRange o (convOuts s p d ns ks) →
        y.elem (b :: oc :: o) = some (crossCorr s p d Ci ns ks X W b oc o) := by
  obtain ⟨y, h1, _, _, h2, h3⟩ := C59_conv_partial h3 0 (· + ·) (· * ·) hx hw px pw dx dw hn hk hs hv hb
  refine ⟨y, h1, h2, fun b oc o hb hoc ho => ?_⟩
  rw [h3 b oc o hb hoc ho, convTerms_sum X W b oc _ (by omega)]
  rw [ho.length, convOuts_length hv]

/-- Errors: wrong ranks and different channel counts are reported, whatever the other sizes. -/
theorem C59_errors {nsp : Nat} (x w : Tensor α) (zero : α) (add mul : α → α → α) (s p d : Nat)
    (h : x.dims.length ≠ 2 + nsp ∨ w.dims.length ≠ 2 + nsp ∨ x.dims[1]? ≠ w.dims[1]?) :
    x.conv zero add mul nsp w s p d = .err := by
  unfold Tensor.conv
  by_cases h1 : x.dims.length ≠ 2 + nsp ∨ w.dims.length ≠ 2 + nsp
  · rw [if_pos h1]
  · rw [if_neg h1, if_pos]
    simp only [not_or, not_not] at h1
    rcases h with h | h | h
    · omega
    · omega
    · intro hc
      apply h
      have hx : 1 < x.dims.length := by omega
      have hw : 1 < w.dims.length := by omega
      simp only [List.getD_eq_getElem?_getD, List.getElem?_eq_getElem hx,
        List.getElem?_eq_getElem hw, Option.getD_some] at hc
      simp [List.getElem?_eq_getElem hx, List.getElem?_eq_getElem hw, hc]

/-! ### Concrete cases -/

/-- The integers from 1 in row-major order. -/
def countUp (dims : List Nat) (off : Nat) : Tensor Nat :=
  ⟨List.range (off + numel dims), ⟨dims, Layout.computeStrides dims, off⟩⟩

theorem countUp_reads (dims : List Nat) (off : Nat) :
    Reads (countUp dims off) fun idx => off + rowMajor dims idx := by
  intro idx hi
  have := rowMajor_lt hi
  have hlt : rowMajor dims idx < numel dims := this
  simp only [countUp, elem_rowMajor]
  simp [hlt]

theorem countUp_packed (dims : List Nat) (off : Nat) : Packed (countUp dims off) := fun idx _ =>
  dot_computeStrides dims idx

/-- The hypotheses of `C59_conv_partial` hold for a two-dimensional case with stride 2, padding 1 and
dilation 2, and the result is what one computes by hand. -/
example : KernelFits 1 2 [4, 5] [2, 2] ∧ (∀ n ∈ [4, 5], n + 2 * 1 < 2 ^ 31) ∧
    convOuts 2 1 2 [4, 5] [2, 2] = [2, 3] ∧
    ((countUp [2, 3, 4, 5] 7).conv 0 (· + ·) (· * ·) 2 (countUp [2, 3, 2, 2] 1) 2 1 2).map (·.dims) =
      .ok [2, 2, 2, 3] ∧
    ((countUp [1, 1, 4] 1).conv 0 (· + ·) (· * ·) 1 (countUp [1, 1, 3] 1) 1 1 1).map (·.storage) =
      .ok [1 * 2 + 2 * 3, 1 * 1 + 2 * 2 + 3 * 3, 2 * 1 + 3 * 2 + 4 * 3, 3 * 1 + 4 * 2] := by
  refine ⟨?_, ?_, ?_, ?_, ?_⟩
  · exact .cons (by decide) (.cons (by decide) .nil)
  · decide
  · decide
  · decide +kernel
  · decide +kernel

/-! ## The full claim is false -/

/-- A transposed view of a `[1, 2, 2]` tensor: memory `1 2 3 4`, values `1 3 / 2 4`. -/
def transposedInput : Tensor Nat := ⟨[1, 2, 3, 4], ⟨[1, 2, 2], [4, 1, 2], 0⟩⟩

/-- The kernel ignores strides: convolving a transposed view with the one-tap kernel that selects the
first channel returns the first row of the memory instead of the first row of the view. -/
theorem C59_view_wrong : transposedInput.WF ∧
    transposedInput.elem [0, 0, 0] = some 1 ∧ transposedInput.elem [0, 0, 1] = some 3 ∧
    (transposedInput.conv 0 (· + ·) (· * ·) 1 ⟨[1, 0], Layout.fromShape [1, 2, 1]⟩ 1 0 1).map (·.storage) =
      .ok [1, 2] := by
  refine ⟨⟨rfl, ?_⟩, by decide, by decide, by decide⟩
  intro idx hi
  match idx, hi with
  | [a, b, c], ⟨ha, hb, hc, _⟩ =>
    interval_cases a <;> interval_cases b <;> interval_cases c <;> decide

/-- A broadcast (stride 0) operand is read outside its storage. -/
theorem C59_broadcast_ub :
    (⟨[5], ⟨[1, 1, 2], [0, 0, 0], 0⟩⟩ : Tensor Nat).conv 0 (· + ·) (· * ·) 1
      ⟨[1], Layout.fromShape [1, 1, 1]⟩ 1 0 1 = .ub := by decide

/-- A kernel larger than the padded input is not reported as an error: the size computation panics. -/
theorem C59_large_kernel_panics :
    (countUp [1, 1, 2] 0).conv 0 (· + ·) (· * ·) 1 (countUp [1, 1, 4] 0) 1 0 1 = .panic := by decide

theorem C59_full_false : ¬ Spec.ConvCorrect Nat := by
  intro h
  have hx : Reads transposedInput fun idx => 1 + idx.getD 1 0 + 2 * idx.getD 2 0 := by
    intro idx hi
    match idx, hi with
    | [a, b, c], ⟨ha, hb, hc, _⟩ =>
      interval_cases a <;> interval_cases b <;> interval_cases c <;> decide
  have hw : Reads (⟨[1, 0], Layout.fromShape [1, 2, 1]⟩ : Tensor Nat) fun idx => 1 - idx.getD 1 0 := by
    intro idx hi
    match idx, hi with
    | [a, b, c], ⟨ha, hb, hc, _⟩ =>
      interval_cases a <;> interval_cases b <;> interval_cases c <;> decide
  obtain ⟨y, h1, h2, h3⟩ := h 1 transposedInput ⟨[1, 0], Layout.fromShape [1, 2, 1]⟩ _ _ 0 (· + ·) (· * ·)
    1 0 1 1 2 1 [2] [1] (Or.inl rfl) C59_view_wrong.1 ⟨rfl, fun idx hi => by rw [hw idx hi]; rfl⟩ hx hw
    rfl rfl rfl rfl (by decide) (.cons (by decide) .nil) (by decide)
  have h4 := h3 0 0 [1] (by decide) (by decide) (by decide)
  have hy : y = ⟨[1, 2], Layout.fromShape [1, 1, 2]⟩ := by
    have : transposedInput.conv 0 (· + ·) (· * ·) 1 ⟨[1, 0], Layout.fromShape [1, 2, 1]⟩ 1 0 1 =
        .ok ⟨[1, 2], Layout.fromShape [1, 1, 2]⟩ := by decide
    rw [this] at h1
    exact (Res.ok.inj h1).symm
  subst hy
  revert h4
  decide

end Hodu
