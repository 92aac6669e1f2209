import Verif.Props.ConvGrad

/-!
# C61 (continued): the adjoint identities
-/

namespace Hodu
open Spec

/-! ## Specification -/

/-- `Σ a[i] * b[i]` over all indices. -/
def Spec.inner [CommSemiring α] (a b : Tensor α) : α :=
  sumOver a.dims fun i => (a.elem i).getD 0 * (b.elem i).getD 0

/-- `gx` and `gw` are the gradients of `f(x, w)` for the output gradient `g`: adjoint to `f` in either
argument, for all row-major tensors of the same shape. -/
def Spec.IsVjp [CommSemiring α] (f : Tensor α → Tensor α → Res (Tensor α)) (x w g gx gw : Tensor α) : Prop :=
  gx.WF ∧ gw.WF ∧ gx.dims = x.dims ∧ gw.dims = w.dims ∧
  (∀ x', x'.WF → Packed x' → x'.dims = x.dims →
    ∃ y, f x' w = .ok y ∧ y.dims = g.dims ∧ inner g y = inner gx x') ∧
  (∀ w', w'.WF → Packed w' → w'.dims = w.dims →
    ∃ y, f x w' = .ok y ∧ y.dims = g.dims ∧ inner g y = inner gw w')

/-- The stride divides the distance covered, so that the last window ends at the end of the padded
input. -/
def Spec.StrideExact (s p d : Nat) (ns ks : List Nat) : Prop :=
  List.Forall₂ (fun n k => s ∣ n + 2 * p - d * (k - 1) - 1) ns ks

/-- The full claim for the convolution: whenever the forward operation is defined. -/
def Spec.ConvVjpCorrect (α : Type) [CommSemiring α] : Prop :=
  ∀ (nsp : Nat) (x w g : Tensor α) (s p d B Ci Co : Nat) (ns ks : List Nat),
    nsp = 1 ∨ nsp = 2 ∨ nsp = 3 → x.WF → w.WF → g.WF → Packed x → Packed w → Packed g →
    x.dims = B :: Ci :: ns → w.dims = Co :: Ci :: ks → g.dims = B :: Co :: convOuts s p d ns ks →
    ns.length = nsp → ks.length = nsp → 0 < s → KernelFits p d ns ks → (∀ n ∈ ns, n + 2 * p < 2 ^ 31) →
    ∃ gx gw, x.convVjp 0 (· + ·) (· * ·) nsp w g s p d = .ok (gx, gw) ∧
      IsVjp (fun x w => x.conv 0 (· + ·) (· * ·) nsp w s p d) x w g gx gw

/-! ## Sums -/

theorem WF.reads [Zero α] {t : Tensor α} (h : t.WF) : Reads t fun i => (t.elem i).getD 0 := by
  intro idx hi
  obtain ⟨v, hv⟩ := Option.isSome_iff_exists.mp (h.2 idx hi)
  simp [hv]

/-- Sum of a function over a list. -/
abbrev lsum [AddCommMonoid α] (L : List β) (f : β → α) : α := (L.map f).sum

section
variable [CommSemiring α]

theorem lsum_congr {L : List β} {f g : β → α} (h : ∀ x ∈ L, f x = g x) : lsum L f = lsum L g := by
  unfold lsum
  rw [List.map_congr_left h]

theorem lsum_add (L : List β) (f g : β → α) : lsum L (fun x => f x + g x) = lsum L f + lsum L g := by
  induction L with
  | nil => simp [lsum]
  | cons a L ih =>
    simp only [lsum, List.map_cons, List.sum_cons] at ih ⊢
    rw [ih]
    ring

theorem lsum_zero (L : List β) : lsum L (fun _ => (0 : α)) = 0 := by
  induction L with
  | nil => rfl
  | cons a L ih => simp only [lsum, List.map_cons, List.sum_cons] at ih ⊢; rw [ih, add_zero]

theorem lsum_comm (L : List β) (M : List γ) (f : β → γ → α) :
    lsum L (fun x => lsum M (f x)) = lsum M (fun y => lsum L fun x => f x y) := by
  induction L with
  | nil => simp only [lsum, List.map_nil, List.sum_nil]; exact (lsum_zero M).symm
  | cons a L ih =>
    have : lsum (a :: L) (fun x => lsum M (f x)) = lsum M (f a) + lsum L (fun x => lsum M (f x)) := by
      simp [lsum]
    rw [this, ih, ← lsum_add]
    apply lsum_congr
    intro y _
    simp [lsum]

theorem mul_lsum (c : α) (L : List β) (f : β → α) : c * lsum L f = lsum L fun x => c * f x := by
  induction L with
  | nil => simp [lsum]
  | cons a L ih =>
    simp only [lsum, List.map_cons, List.sum_cons] at ih ⊢
    rw [mul_add, ih]

theorem lsum_mul (c : α) (L : List β) (f : β → α) : lsum L f * c = lsum L fun x => f x * c := by
  rw [mul_comm, mul_lsum]
  apply lsum_congr
  intro x _
  ring

theorem foldl_sum (l : List α) (a : α) : l.foldl (· + ·) a = a + l.sum := by
  induction l generalizing a with
  | nil => simp
  | cons x l ih => rw [List.foldl_cons, ih, List.sum_cons, add_assoc]

theorem sum_flatMap' (L : List β) (f : β → List α) : (L.flatMap f).sum = lsum L fun x => (f x).sum := by
  induction L with
  | nil => rfl
  | cons a L ih => rw [List.flatMap_cons, List.sum_append, ih]; simp [lsum]

theorem sum_filterMap' (L : List β) (f : β → Option α) :
    (L.filterMap f).sum = lsum L fun x => (f x).getD 0 := by
  induction L with
  | nil => rfl
  | cons a L ih => cases h : f a <;> simp [lsum, h] at ih ⊢ <;> rw [ih]

theorem isTap_iff {s p d : Nat} {ns i o k : List Nat} (hi : InRange i ns) (ho : o.length = ns.length)
    (hk : k.length = ns.length) : tapIndex s p d ns o k = some i ↔ IsTap s p d i o k := by
  rw [tapIndex_eq_some ho hk]
  unfold IsTap
  rw [hi.length]
  exact ⟨fun h => h.2, fun h => ⟨hi, h⟩⟩

/-- The transposed convolution as a sum. -/
theorem convTTerms_sum {s p d Ci : Nat} {ns ks os o : List Nat} (X W : List Nat → α) (b oc : Nat)
    (ho : InRange o os) (hn : ns.length = os.length) (hk : ks.length = os.length) :
    (convTTerms (· * ·) s p d Ci ns ks os X W b oc o).foldl (· + ·) 0 =
      lsum (List.range Ci) fun ic => lsum (indices ns) fun i => lsum (indices ks) fun k =>
        if IsTap s p d o i k then X (b :: ic :: i) * W (oc :: ic :: k) else 0 := by
  rw [foldl_sum, zero_add]
  unfold convTTerms
  rw [sum_flatMap']
  apply lsum_congr
  intro ic _
  rw [sum_flatMap']
  apply lsum_congr
  intro i hi
  rw [sum_filterMap']
  apply lsum_congr
  intro k hki
  have hi := (mem_indices.mp hi).length
  have hki := (mem_indices.mp hki).length
  have := isTap_iff (s := s) (p := p) (d := d) (o := i) (k := k) ho (by omega) (by omega)
  by_cases h : IsTap s p d o i k
  · rw [if_pos h, if_pos (this.mpr h)]; rfl
  · rw [if_neg h, if_neg (mt this.mp h)]; rfl

theorem gradWTerms_sum {s p d B : Nat} {ns os k : List Nat} (X G : List Nat → α) (oc ic : Nat)
    (ho : os.length = ns.length) (hk : k.length = ns.length) :
    (gradWTerms (· * ·) s p d B ns os X G oc ic k).foldl (· + ·) 0 =
      lsum (List.range B) fun b => lsum (indices os) fun o => lsum (indices ns) fun i =>
        if IsTap s p d i o k then X (b :: ic :: i) * G (b :: oc :: o) else 0 := by
  rw [foldl_sum, zero_add]
  unfold gradWTerms
  rw [sum_flatMap']
  apply lsum_congr
  intro b _
  rw [sum_filterMap']
  apply lsum_congr
  intro o hoi
  have hoi := (mem_indices.mp hoi).length
  exact tap_sum (by omega) hk fun i => X (b :: ic :: i) * G (b :: oc :: o)

theorem gradWTTerms_sum {s p d B : Nat} {ns os k : List Nat} (X G : List Nat → α) (ic oc : Nat)
    (hn : ns.length = os.length) (hk : k.length = os.length) :
    (gradWTTerms (· * ·) s p d B ns os X G ic oc k).foldl (· + ·) 0 =
      lsum (List.range B) fun b => lsum (indices ns) fun i => lsum (indices os) fun o =>
        if IsTap s p d o i k then X (b :: ic :: i) * G (b :: oc :: o) else 0 := by
  rw [foldl_sum, zero_add]
  unfold gradWTTerms
  rw [sum_flatMap']
  apply lsum_congr
  intro b _
  rw [sum_filterMap']
  apply lsum_congr
  intro i hii
  have hii := (mem_indices.mp hii).length
  exact tap_sum (by omega) hk fun o => X (b :: ic :: i) * G (b :: oc :: o)

/-- A scalar product of tensors with two leading dimensions, from the values of its factors. -/
theorem inner_eq {a b : Tensor α} {A C : Nat} {ds : List Nat} (ha : a.dims = A :: C :: ds)
    {F H : Nat → Nat → List Nat → α}
    (hF : ∀ i j k, i < A → j < C → InRange k ds → a.elem (i :: j :: k) = some (F i j k))
    (hH : ∀ i j k, i < A → j < C → InRange k ds → b.elem (i :: j :: k) = some (H i j k)) :
    inner a b = lsum (List.range A) fun i => lsum (List.range C) fun j => lsum (indices ds) fun k =>
      F i j k * H i j k := by
  unfold inner
  rw [ha, sumOver_cons]
  apply lsum_congr
  intro i hi
  rw [sumOver_cons]
  apply lsum_congr
  intro j hj
  unfold sumOver
  apply lsum_congr
  intro k hk
  rw [hF i j k (List.mem_range.mp hi) (List.mem_range.mp hj) (mem_indices.mp hk),
    hH i j k (List.mem_range.mp hi) (List.mem_range.mp hj) (mem_indices.mp hk)]
  rfl

/-- Reordering of five nested sums. -/
theorem lsum_reorder {A B C D E : Type} (la : List A) (lb : List B) (lc : List C) (ld : List D)
    (le : List E) (f : A → B → C → D → E → α) :
    (lsum la fun a => lsum lb fun b => lsum lc fun c => lsum ld fun d => lsum le fun e => f a b c d e) =
      lsum lc fun c => lsum le fun e => lsum la fun a => lsum lb fun b => lsum ld fun d => f a b c d e := by
  have h1 : (lsum la fun a => lsum lb fun b => lsum lc fun c => lsum ld fun d => lsum le fun e => f a b c d e) =
      lsum la fun a => lsum lc fun c => lsum lb fun b => lsum ld fun d => lsum le fun e => f a b c d e :=
    lsum_congr fun a _ => lsum_comm lb lc _
  rw [h1, lsum_comm la lc]
  apply lsum_congr
  intro c _
  have h2 : (lsum la fun a => lsum lb fun b => lsum ld fun d => lsum le fun e => f a b c d e) =
      lsum la fun a => lsum le fun e => lsum lb fun b => lsum ld fun d => f a b c d e := by
    apply lsum_congr
    intro a _
    rw [show (lsum lb fun b => lsum ld fun d => lsum le fun e => f a b c d e) =
        lsum lb fun b => lsum le fun e => lsum ld fun d => f a b c d e from
      lsum_congr fun b _ => lsum_comm ld le _]
    exact lsum_comm lb le _
  rw [h2]
  exact lsum_comm la le _

end

/-! ## The weight gradient tensors -/

theorem convGradW_ok {nsp : Nat} (h3 : nsp = 1 ∨ nsp = 2 ∨ nsp = 3) {x g : Tensor α} {X G : List Nat → α}
    (zero : α) (add mul : α → α → α) {s p d B Ci Co : Nat} {ns ks os : List Nat} (hx : Reads x X)
    (hg : Reads g G) (px : Packed x) (hxs : x.layout.strides.length = x.dims.length)
    (hgs : g.layout.strides.length = g.dims.length) (dx : x.dims = B :: Ci :: ns)
    (dg : g.dims = B :: Co :: os) (hn : ns.length = nsp) (hk : ks.length = nsp) (ho : os.length = nsp)
    (hp : p < 2 ^ 31) (hf : Fits s d os ks ns) :
    ∃ out, x.convGradW zero add mul nsp g (Co :: Ci :: ks) s p d =
        .ok ⟨out, Layout.fromShape (Co :: Ci :: ks)⟩ ∧ ∀ oc ic k, oc < Co → ic < Ci → InRange k ks →
        Tensor.elem ⟨out, Layout.fromShape (Co :: Ci :: ks)⟩ (oc :: ic :: k) =
          some ((gradWTerms mul s p d B ns os X G oc ic k).foldl add zero) := by
  obtain ⟨out, e1, e2, e3⟩ := convGradKernel_ok zero add mul hx hg px dx dg (ks := ks) (by omega) (by omega)
    hp hf (nsp := nsp) (decodeConvGrad_metadata h3 dx dg rfl (by simp; omega) hxs hgs hn ho)
  refine ⟨out, ?_, fun oc ic k h1 h2 h3 => ?_⟩
  · unfold Tensor.convGradW
    rw [if_neg (by rw [dx, dg]; simp; omega), e1, Res.ok_bind]
  · rw [← e3 oc ic k h1 h2 h3]
    unfold Layout.fromShape
    rw [elem_rowMajor, Nat.zero_add]

theorem convTGradW_ok {nsp : Nat} (h3 : nsp = 1 ∨ nsp = 2 ∨ nsp = 3) {x g : Tensor α} {X G : List Nat → α}
    (zero : α) (add mul : α → α → α) {s p d B Ci Co : Nat} {ns ks os : List Nat} (hx : Reads x X)
    (hg : Reads g G) (px : Packed x) (hxs : x.layout.strides.length = x.dims.length)
    (hgs : g.layout.strides.length = g.dims.length) (dx : x.dims = B :: Ci :: ns)
    (dg : g.dims = B :: Co :: os) (hn : ns.length = nsp) (hk : ks.length = nsp) (ho : os.length = nsp)
    (hp : p < 2 ^ 31) (hf : Fits s d ns ks os) :
    ∃ out, x.convTGradW zero add mul nsp g (Ci :: Co :: ks) s p d =
        .ok ⟨out, Layout.fromShape (Ci :: Co :: ks)⟩ ∧ ∀ ic oc k, ic < Ci → oc < Co → InRange k ks →
        Tensor.elem ⟨out, Layout.fromShape (Ci :: Co :: ks)⟩ (ic :: oc :: k) =
          some ((gradWTTerms mul s p d B ns os X G ic oc k).foldl add zero) := by
  obtain ⟨out, e1, e2, e3⟩ := convTGradKernel_ok zero add mul hx hg px dx dg (ks := ks) (by omega) (by omega)
    hp hf (nsp := nsp) (decodeConvGrad_metadata h3 dx dg rfl (by simp; omega) hxs hgs hn ho)
  refine ⟨out, ?_, fun ic oc k h1 h2 h3 => ?_⟩
  · unfold Tensor.convTGradW
    rw [if_neg (by rw [dx, dg]; simp; omega), e1, Res.ok_bind]
  · rw [← e3 ic oc k h1 h2 h3]
    unfold Layout.fromShape
    rw [elem_rowMajor, Nat.zero_add]

theorem WF_fresh {st : List α} {A C : Nat} {ds : List Nat} {f : Nat → Nat → List Nat → α}
    (h : ∀ i j k, i < A → j < C → InRange k ds →
      Tensor.elem ⟨st, Layout.fromShape (A :: C :: ds)⟩ (i :: j :: k) = some (f i j k)) :
    (⟨st, Layout.fromShape (A :: C :: ds)⟩ : Tensor α).WF := by
  refine ⟨fresh_length _ _, fun idx hi => ?_⟩
  obtain ⟨b, oc, o, rfl, h1, h2, h3⟩ := inRange_cons2 hi
  rw [h b oc o h1 h2 h3]
  rfl

/-! ## The transposed weight -/

theorem transpose01 {w : Tensor α} {W : List Nat → α} (hw : Reads w W)
    (hl : w.layout.strides.length = w.dims.length) {Co Ci : Nat} {ks : List Nat}
    (dw : w.dims = Co :: Ci :: ks) :
    ∃ wt, w.transpose 0 1 = .ok wt ∧ wt.dims = Ci :: Co :: ks ∧ InputMajor wt Co Ci ks ∧
      Reads wt fun idx => W (idx.getD 1 0 :: idx.getD 0 0 :: idx.drop 2) := by
  have hwf : w.WF := ⟨hl, fun idx hi => by rw [hw idx hi]; rfl⟩
  obtain ⟨s, o, h1, h2⟩ := viewVia_spec hwf (·.transpose 0 1)
  refine ⟨⟨s, ⟨Ci :: Co :: ks, numel ks :: (Ci * numel ks) :: Layout.computeStrides ks, o⟩⟩, ?_, rfl,
    inputMajor_swapped, ?_⟩
  · rw [Tensor.transpose, h1]
    simp only [Layout.transpose, Layout.ndim]
    rw [dw, if_neg (by simp),
      show normalizeAxis (Co :: Ci :: ks) 0 = some 0 from
        normalizeAxis_iff.mpr ⟨by simp, Or.inl rfl⟩,
      show normalizeAxis (Co :: Ci :: ks) 1 = some 1 from
        normalizeAxis_iff.mpr ⟨by simp, Or.inl rfl⟩]
    simp only [Res.ok_bind]
    rw [computeStrides_cons, computeStrides_cons]
    rfl
  · intro idx hi
    obtain ⟨ic, oc, k, rfl, h3, h4, h5⟩ := inRange_cons2 (show InRange idx (Ci :: Co :: ks) from hi)
    have hr : InRange (oc :: ic :: k) w.dims := by rw [dw]; exact ⟨h4, h3, h5⟩
    have := h2 (oc :: ic :: k) hr
    rw [hw _ hr] at this
    unfold Tensor.elem
    simp only [dot, dot_computeStrides]
    rw [show ic * numel ks + (oc * (Ci * numel ks) + rowMajor ks k) =
      rowMajor w.dims (oc :: ic :: k) by rw [dw]; simp only [rowMajor, numel]; omega]
    exact this

/-! ## Sizes -/

theorem sizes_back {s p d : Nat} {ns ks : List Nat} (hv : KernelFits 0 d ns ks)
    (he : StrideExact s p d ns ks) :
    TransposeFits s p (convOuts s p d ns ks) ks ∧
      convTOuts s p 0 d (convOuts s p d ns ks) ks = ns := by
  induction hv with
  | nil => exact ⟨.nil, rfl⟩
  | @cons n k ns ks hd _ ih =>
    cases he with
    | cons h1 h2 =>
    obtain ⟨ih1, ih2⟩ := ih h2
    have hm := Nat.div_mul_cancel h1
    have hd2 : d * (k - 1) < n + 2 * 0 := hd.2
    constructor
    · refine .cons ⟨Nat.succ_pos _, hd.1, ?_⟩ ih1
      show 2 * p ≤ ((n + 2 * p - d * (k - 1) - 1) / s + 1 - 1) * s
      rw [Nat.add_sub_cancel, hm]
      omega
    · show (((n + 2 * p - d * (k - 1) - 1) / s + 1 - 1) * s - 2 * p + d * (k - 1) + 0 + 1) ::
        convTOuts s p 0 d (convOuts s p d ns ks) ks = n :: ns
      rw [ih2, Nat.add_sub_cancel, hm]
      congr 1
      omega

theorem kernelFits_mono {p d : Nat} {ns ks : List Nat} (h : KernelFits 0 d ns ks) : KernelFits p d ns ks :=
  h.imp fun _ _ hd => ⟨hd.1, by have := hd.2; omega⟩

/-! ## C61 -/

/-- **C61** for the convolutions, on row-major operands, if the stride divides the distance covered and
the dilated kernel fits into the unpadded input: `convVjp` succeeds and its results are the adjoints.
Missing, and false: strides that leave a rest (`C61_rest_wrong`), kernels that fit only thanks to the
padding (`C61_padding_panics`), output gradients that are broadcast views (`C61_broadcast_ub`). -/
theorem C61_conv_vjp_partial [CommSemiring α] {nsp : Nat} (h3 : nsp = 1 ∨ nsp = 2 ∨ nsp = 3)
    {x w g : Tensor α} {s p d B Ci Co : Nat} {ns ks : List Nat} (hx : x.WF) (hw : w.WF) (hg : g.WF)
    (px : Packed x) (pw : Packed w) (pg : Packed g) (dx : x.dims = B :: Ci :: ns)
    (dw : w.dims = Co :: Ci :: ks) (dg : g.dims = B :: Co :: convOuts s p d ns ks)
    (hn : ns.length = nsp) (hk : ks.length = nsp) (hs : 0 < s) (hv : KernelFits 0 d ns ks)
    (he : StrideExact s p d ns ks) (hb : ∀ n ∈ ns, n + 2 * p < 2 ^ 31) :
    ∃ gx gw, x.convVjp 0 (· + ·) (· * ·) nsp w g s p d = .ok (gx, gw) ∧
      IsVjp (fun x w => x.conv 0 (· + ·) (· * ·) nsp w s p d) x w g gx gw := by
  obtain ⟨hT, hback⟩ := sizes_back hv he
  have hvp := kernelFits_mono (p := p) hv
  have hol := convOuts_length (s := s) hvp
  have hf := fits_conv (s := s) hvp hb
  have hp : p < 2 ^ 31 := padding_small (by rintro rfl; simp at hn; omega) hb
  have hrx := WF.reads hx
  have hrw := WF.reads hw
  have hrg := WF.reads hg
  obtain ⟨wt, hwt, dwt, pwt, rwt⟩ := transpose01 hrw hw.1 dw
  obtain ⟨gx, hgx, wgx, -, dgx, egx⟩ := C60_convT_partial h3 0 (· + ·) (· * ·) hrg rwt pg pwt dg dwt
    (by omega) hk hT (by rw [hback]; exact hb) (d := d)
  rw [hback] at dgx egx
  obtain ⟨ow, hgw, egw⟩ := convGradW_ok h3 0 (· + ·) (· * ·) hrx hrg px hx.1 hg.1 dx dg hn hk (by omega) hp hf
  refine ⟨gx, _, ?_, wgx, WF_fresh egw, by rw [dgx, dx], by rw [dw]; rfl, ?_, ?_⟩
  · unfold Tensor.convVjp
    rw [hwt, Res.ok_bind, hgx, Res.ok_bind, show w.dims.getD 0 0 = Co by rw [dw]; rfl,
      show x.dims.getD 1 0 = Ci by rw [dx]; rfl, show w.dims.drop 2 = ks by rw [dw]; rfl]
    show (x.convGradW 0 (· + ·) (· * ·) nsp g (Co :: Ci :: ks) s p d).bind _ = _
    rw [hgw, Res.ok_bind]
  · intro x' wx' px' dx'
    rw [dx] at dx'
    obtain ⟨y, h1, h2, h4⟩ := C59_conv_sum_partial h3 (WF.reads wx') hrw px' pw dx' dw hn hk hs hvp hb
    refine ⟨y, h1, by rw [h2, dg], ?_⟩
    rw [inner_eq dg (fun i j k a b c => hrg (i :: j :: k) (by rw [dg]; exact ⟨a, b, c⟩)) h4,
      inner_eq dgx egx (fun i j k a b c => WF.reads wx' (i :: j :: k) (by rw [dx']; exact ⟨a, b, c⟩))]
    apply lsum_congr
    intro b _
    have e1 : (lsum (List.range Co) fun oc => lsum (indices (convOuts s p d ns ks)) fun o =>
        (g.elem (b :: oc :: o)).getD 0 *
          crossCorr s p d Ci ns ks (fun i => (x'.elem i).getD 0) (fun i => (w.elem i).getD 0) b oc o) =
        lsum (List.range Co) fun oc => lsum (indices (convOuts s p d ns ks)) fun o =>
          lsum (List.range Ci) fun ic => lsum (indices ks) fun k => lsum (indices ns) fun i =>
            if IsTap s p d i o k then (g.elem (b :: oc :: o)).getD 0 * (w.elem (oc :: ic :: k)).getD 0 *
              (x'.elem (b :: ic :: i)).getD 0 else 0 := by
      apply lsum_congr; intro oc _
      apply lsum_congr; intro o _
      unfold crossCorr
      rw [mul_lsum]
      apply lsum_congr; intro ic _
      unfold sumOver
      rw [mul_lsum]
      apply lsum_congr; intro k _
      rw [mul_lsum]
      apply lsum_congr; intro i _
      split
      · ring
      · ring
    rw [e1, lsum_reorder]
    apply lsum_congr; intro ic _
    apply lsum_congr; intro i hi
    rw [convTTerms_sum _ _ b ic (mem_indices.mp hi) (by omega) (by omega), lsum_mul]
    apply lsum_congr; intro oc _
    rw [lsum_mul]
    apply lsum_congr; intro o _
    rw [lsum_mul]
    apply lsum_congr; intro k _
    simp only [List.getD_cons_succ, List.getD_cons_zero, List.drop_succ_cons, List.drop_zero]
    split
    · rfl
    · ring
  · intro w' ww' pw' dw'
    rw [dw] at dw'
    obtain ⟨y, h1, h2, h4⟩ := C59_conv_sum_partial h3 hrx (WF.reads ww') px pw' dx dw' hn hk hs hvp hb
    refine ⟨y, h1, by rw [h2, dg], ?_⟩
    rw [inner_eq dg (fun i j k a b c => hrg (i :: j :: k) (by rw [dg]; exact ⟨a, b, c⟩)) h4,
      inner_eq rfl egw (fun i j k a b c => WF.reads ww' (i :: j :: k) (by rw [dw']; exact ⟨a, b, c⟩)),
      lsum_comm]
    apply lsum_congr
    intro oc _
    have e1 : (lsum (List.range B) fun b => lsum (indices (convOuts s p d ns ks)) fun o =>
        (g.elem (b :: oc :: o)).getD 0 *
          crossCorr s p d Ci ns ks (fun i => (x.elem i).getD 0) (fun i => (w'.elem i).getD 0) b oc o) =
        lsum (List.range B) fun b => lsum (indices (convOuts s p d ns ks)) fun o =>
          lsum (List.range Ci) fun ic => lsum (indices ns) fun i => lsum (indices ks) fun k =>
            if IsTap s p d i o k then (x.elem (b :: ic :: i)).getD 0 * (g.elem (b :: oc :: o)).getD 0 *
              (w'.elem (oc :: ic :: k)).getD 0 else 0 := by
      apply lsum_congr; intro b _
      apply lsum_congr; intro o _
      unfold crossCorr
      rw [mul_lsum]
      apply lsum_congr; intro ic _
      unfold sumOver
      rw [mul_lsum, lsum_comm (indices ns)]
      apply lsum_congr; intro k _
      rw [mul_lsum]
      apply lsum_congr; intro i _
      split
      · ring
      · ring
    rw [e1, lsum_reorder]
    apply lsum_congr; intro ic _
    apply lsum_congr; intro k hki
    have hki := (mem_indices.mp hki).length
    rw [gradWTerms_sum _ _ oc ic (by omega) (by omega), lsum_mul]
    apply lsum_congr; intro b _
    rw [lsum_mul]
    apply lsum_congr; intro o _
    rw [lsum_mul]
    apply lsum_congr; intro i _
    split
    · rfl
    · ring

/-! ### Concrete case -/

/-- The hypotheses hold for stride 2, padding 1 and a 3-tap kernel on 5 positions. -/
example : KernelFits 0 1 [5] [3] ∧ StrideExact 2 1 1 [5] [3] ∧ convOuts 2 1 1 [5] [3] = [3] ∧
    ((countUp [1, 1, 5] 1).convVjp 0 (· + ·) (· * ·) 1 (countUp [1, 1, 3] 1) (countUp [1, 1, 3] 1) 2 1 1).map
      (fun r => (r.1.storage, r.2.storage)) =
      .ok ([1 * 2, 1 * 3 + 2 * 1, 2 * 2, 2 * 3 + 3 * 1, 3 * 2],
        [2 * 2 + 3 * 4, 1 * 1 + 2 * 3 + 3 * 5, 1 * 2 + 2 * 4]) :=
  ⟨.cons (by decide) .nil, .cons (by decide) .nil, by decide, by decide +kernel⟩

/-! ## The full claim is false -/

/-- Four positions, stride 2: the gradient of the input has three positions. -/
theorem C61_rest_wrong :
    ((countUp [1, 1, 4] 1).conv 0 (· + ·) (· * ·) 1 (countUp [1, 1, 1] 1) 2 0 1).map (·.dims) =
      .ok [1, 1, 2] ∧
    ((countUp [1, 1, 4] 1).convVjp 0 (· + ·) (· * ·) 1 (countUp [1, 1, 1] 1) (countUp [1, 1, 2] 1) 2 0 1).map
      (·.1.dims) = .ok [1, 1, 3] := by decide +kernel

/-- One position, three taps, padding 1: the forward pass works, the backward pass panics. -/
theorem C61_padding_panics :
    ((countUp [1, 1, 1] 1).conv 0 (· + ·) (· * ·) 1 (countUp [1, 1, 3] 1) 1 1 1).map (·.storage) = .ok [2] ∧
    (countUp [1, 1, 1] 1).convVjp 0 (· + ·) (· * ·) 1 (countUp [1, 1, 3] 1) (countUp [1, 1, 1] 1) 1 1 1 =
      .panic := by decide +kernel

/-- An output gradient that is a broadcast view, as `sum` passes it on (vjp_reduce.rs:36-75), is read
outside its one-element storage. -/
theorem C61_broadcast_ub :
    (countUp [1, 1, 2] 1).convVjp 0 (· + ·) (· * ·) 1 (countUp [1, 1, 1] 1)
      (⟨[1], ⟨[1, 1, 2], [0, 0, 0], 0⟩⟩ : Tensor Nat) 1 0 1 = .ub := by decide +kernel

theorem C61_full_false : ¬ Spec.ConvVjpCorrect Nat := by
  intro h
  have wf : ∀ dims, (countUp dims 1).WF := fun dims =>
    ⟨computeStrides_length dims, fun idx hi => by rw [countUp_reads dims 1 idx hi]; rfl⟩
  obtain ⟨gx, gw, h1, h2⟩ := h 1 (countUp [1, 1, 1] 1) (countUp [1, 1, 3] 1) (countUp [1, 1, 1] 1) 1 1 1 1 1 1
    [1] [3] (Or.inl rfl) (wf _) (wf _) (wf _) (countUp_packed _ _) (countUp_packed _ _) (countUp_packed _ _)
    rfl rfl rfl rfl rfl (by decide) (.cons (by decide) .nil) (by decide)
  rw [C61_padding_panics.2] at h1
  cases h1

/-! ## Transposed convolution -/

/-- Transposed convolution only sees the storage, the shape and the offset of the weight. -/
theorem convT_layout (zero : α) (add mul : α → α → α) (nsp : Nat) (x w w' : Tensor α) (s p op d : Nat)
    (h1 : w.storage = w'.storage) (h2 : w.dims = w'.dims) (h3 : w.layout.offset = w'.layout.offset) :
    x.convT zero add mul nsp w s p op d = x.convT zero add mul nsp w' s p op d := by
  have h2' : w.layout.dims = w'.layout.dims := h2
  unfold Tensor.convT callOpsConv convMetadata
  rw [h1, h2, h3, h2']

theorem convT_sizes_back {s p d : Nat} {ns ks : List Nat} (hs : 0 < s) (hv : TransposeFits s p ns ks) :
    KernelFits p d (convTOuts s p 0 d ns ks) ks ∧ convOuts s p d (convTOuts s p 0 d ns ks) ks = ns := by
  induction hv with
  | nil => exact ⟨.nil, rfl⟩
  | @cons n k ns ks hd _ ih =>
    obtain ⟨ih1, ih2⟩ := ih
    obtain ⟨h1, h2, h4⟩ := hd
    constructor
    · refine .cons ⟨h2, ?_⟩ ih1
      show d * (k - 1) < (n - 1) * s - 2 * p + d * (k - 1) + 0 + 1 + 2 * p
      omega
    · show (((n - 1) * s - 2 * p + d * (k - 1) + 0 + 1 + 2 * p - d * (k - 1) - 1) / s + 1) ::
        convOuts s p d (convTOuts s p 0 d ns ks) ks = n :: ns
      rw [ih2, show (n - 1) * s - 2 * p + d * (k - 1) + 0 + 1 + 2 * p - d * (k - 1) - 1 = (n - 1) * s by omega,
        Nat.mul_div_cancel _ hs, Nat.sub_add_cancel h1]

/-- What transposed convolution computes from a row-major weight with as many input as output channels:
the roles of the two channels of the weight are exchanged. -/
theorem convT_square [CommSemiring α] {nsp : Nat} (h3 : nsp = 1 ∨ nsp = 2 ∨ nsp = 3) {x w : Tensor α}
    {X W : List Nat → α} {s p d B C : Nat} {ns ks : List Nat} (hx : Reads x X) (hw : Reads w W)
    (px : Packed x) (pw : Packed w) (dx : x.dims = B :: C :: ns) (dw : w.dims = C :: C :: ks)
    (hn : ns.length = nsp) (hk : ks.length = nsp) (hv : TransposeFits s p ns ks)
    (hb : ∀ o ∈ convTOuts s p 0 d ns ks, o + 2 * p < 2 ^ 31) :
    ∃ y, x.convT 0 (· + ·) (· * ·) nsp w s p 0 d = .ok y ∧ y.dims = B :: C :: convTOuts s p 0 d ns ks ∧
      ∀ b oc o, b < B → oc < C → InRange o (convTOuts s p 0 d ns ks) → y.elem (b :: oc :: o) =
        some (lsum (List.range C) fun ic => lsum (indices ns) fun i => lsum (indices ks) fun k =>
          if IsTap s p d o i k then X (b :: ic :: i) * W (ic :: oc :: k) else 0) := by
  have hol := convTOuts_length (op := 0) (d := d) hv
  have rw' : Reads (⟨w.storage, ⟨C :: C :: ks, numel ks :: (C * numel ks) :: Layout.computeStrides ks,
      w.layout.offset⟩⟩ : Tensor α) fun idx => W (idx.getD 1 0 :: idx.getD 0 0 :: idx.drop 2) := by
    intro idx hi
    obtain ⟨oc, ic, k, rfl, h4, h5, h6⟩ := inRange_cons2 (show InRange idx (C :: C :: ks) from hi)
    have hr : InRange (ic :: oc :: k) w.dims := by rw [dw]; exact ⟨h5, h4, h6⟩
    have := hw _ hr
    unfold Tensor.elem at this ⊢
    rw [pw _ hr, dw] at this
    simp only [dot, dot_computeStrides]
    rw [show oc * numel ks + (ic * (C * numel ks) + rowMajor ks k) =
      rowMajor (C :: C :: ks) (ic :: oc :: k) by simp only [rowMajor, numel]; omega]
    exact this
  obtain ⟨y, e1, -, -, e2, e3⟩ := C60_convT_partial h3 0 (· + ·) (· * ·) hx rw' px inputMajor_swapped dx rfl
    hn hk hv hb
  refine ⟨y, ?_, e2, fun b oc o h4 h5 h6 => ?_⟩
  · rw [← e1]
    exact convT_layout 0 (· + ·) (· * ·) nsp x w _ s p 0 d rfl dw rfl
  · rw [e3 b oc o h4 h5 h6, convTTerms_sum _ _ b oc h6 (by omega) (by omega)]
    rfl

/-- **C61** for the transposed convolutions, on row-major operands with as many input as output
channels, without output padding: the results of `convTVjp` are adjoint to the operation as the library
computes it.  Missing, and false: different channel counts (`C61_transposed_error`). -/
theorem C61_convT_vjp_partial [CommSemiring α] {nsp : Nat} (h3 : nsp = 1 ∨ nsp = 2 ∨ nsp = 3)
    {x w g : Tensor α} {s p d B C : Nat} {ns ks : List Nat} (hx : x.WF) (hw : w.WF) (hg : g.WF)
    (px : Packed x) (pw : Packed w) (pg : Packed g) (dx : x.dims = B :: C :: ns)
    (dw : w.dims = C :: C :: ks) (dg : g.dims = B :: C :: convTOuts s p 0 d ns ks)
    (hn : ns.length = nsp) (hk : ks.length = nsp) (hs : 0 < s) (hv : TransposeFits s p ns ks)
    (hb : ∀ o ∈ convTOuts s p 0 d ns ks, o + 2 * p < 2 ^ 31) :
    ∃ gx gw, x.convTVjp 0 (· + ·) (· * ·) nsp w g s p d = .ok (gx, gw) ∧
      IsVjp (fun x w => x.convT 0 (· + ·) (· * ·) nsp w s p 0 d) x w g gx gw := by
  have hol := convTOuts_length (op := 0) (d := d) hv
  have hf := fits_convT hv hb
  have hp : p < 2 ^ 31 := padding_small (ns := convTOuts s p 0 d ns ks)
    (by intro h; rw [h] at hol; simp at hol; omega) hb
  obtain ⟨hK, hback⟩ := convT_sizes_back (d := d) hs hv
  have hrx := WF.reads hx
  have hrw := WF.reads hw
  have hrg := WF.reads hg
  obtain ⟨gx, hgx, wgx, -, dgx, egx'⟩ := C59_conv_partial h3 0 (· + ·) (· * ·) hrg hrw pg pw dg dw
    (by omega) hk hs hK hb
  rw [hback] at dgx egx'
  have egx : ∀ b c i, b < B → c < C → InRange i ns → gx.elem (b :: c :: i) =
      some (crossCorr s p d C (convTOuts s p 0 d ns ks) ks (fun i => (g.elem i).getD 0)
        (fun i => (w.elem i).getD 0) b c i) := by
    intro b c i h4 h5 h6
    rw [egx' b c i h4 h5 h6, convTerms_sum _ _ b c (by rw [h6.length]; omega) (by omega)]
  obtain ⟨ow, hgw, egw⟩ := convTGradW_ok h3 0 (· + ·) (· * ·) hrx hrg px hx.1 hg.1 dx dg hn hk (by omega) hp hf
  refine ⟨gx, _, ?_, wgx, WF_fresh egw, by rw [dgx, dx], by rw [dw]; rfl, ?_, ?_⟩
  · unfold Tensor.convTVjp
    rw [hgx, Res.ok_bind, show w.dims.getD 0 0 = C by rw [dw]; rfl,
      show x.dims.getD 1 0 = C by rw [dx]; rfl, show w.dims.drop 2 = ks by rw [dw]; rfl]
    show (x.convTGradW 0 (· + ·) (· * ·) nsp g (C :: C :: ks) s p d).bind _ = _
    rw [hgw, Res.ok_bind]
  · intro x' wx' px' dx'
    rw [dx] at dx'
    obtain ⟨y, h1, h2, h4⟩ := convT_square h3 (WF.reads wx') hrw px' pw dx' dw hn hk hv hb
    refine ⟨y, h1, by rw [h2, dg], ?_⟩
    rw [inner_eq dg (fun i j k a b c => hrg (i :: j :: k) (by rw [dg]; exact ⟨a, b, c⟩)) h4,
      inner_eq dgx egx (fun i j k a b c => WF.reads wx' (i :: j :: k) (by rw [dx']; exact ⟨a, b, c⟩))]
    apply lsum_congr
    intro b _
    have e1 : (lsum (List.range C) fun ic => lsum (indices ns) fun i =>
        crossCorr s p d C (convTOuts s p 0 d ns ks) ks (fun i => (g.elem i).getD 0)
          (fun i => (w.elem i).getD 0) b ic i * (x'.elem (b :: ic :: i)).getD 0) =
        lsum (List.range C) fun ic => lsum (indices ns) fun i => lsum (List.range C) fun oc =>
          lsum (indices ks) fun k => lsum (indices (convTOuts s p 0 d ns ks)) fun o =>
            if IsTap s p d o i k then (g.elem (b :: oc :: o)).getD 0 * ((x'.elem (b :: ic :: i)).getD 0 *
              (w.elem (ic :: oc :: k)).getD 0) else 0 := by
      apply lsum_congr; intro ic _
      apply lsum_congr; intro i _
      unfold crossCorr
      rw [lsum_mul]
      apply lsum_congr; intro oc _
      unfold sumOver
      rw [lsum_mul]
      apply lsum_congr; intro k _
      rw [lsum_mul]
      apply lsum_congr; intro o _
      split
      · ring
      · ring
    rw [e1, lsum_reorder]
    apply lsum_congr; intro oc _
    apply lsum_congr; intro o _
    rw [mul_lsum]
    apply lsum_congr; intro ic _
    rw [mul_lsum]
    apply lsum_congr; intro i _
    rw [mul_lsum]
    apply lsum_congr; intro k _
    split
    · rfl
    · ring
  · intro w' ww' pw' dw'
    rw [dw] at dw'
    obtain ⟨y, h1, h2, h4⟩ := convT_square h3 hrx (WF.reads ww') px pw' dx dw' hn hk hv hb
    refine ⟨y, h1, by rw [h2, dg], ?_⟩
    rw [inner_eq dg (fun i j k a b c => hrg (i :: j :: k) (by rw [dg]; exact ⟨a, b, c⟩)) h4,
      inner_eq rfl egw (fun i j k a b c => WF.reads ww' (i :: j :: k) (by rw [dw']; exact ⟨a, b, c⟩))]
    have e1 : (lsum (List.range C) fun ic => lsum (List.range C) fun oc => lsum (indices ks) fun k =>
        (gradWTTerms (· * ·) s p d B ns (convTOuts s p 0 d ns ks) (fun i => (x.elem i).getD 0)
          (fun i => (g.elem i).getD 0) ic oc k).foldl (· + ·) 0 * (w'.elem (ic :: oc :: k)).getD 0) =
        lsum (List.range C) fun oc => lsum (List.range C) fun ic => lsum (indices ks) fun k =>
          lsum (List.range B) fun b => lsum (indices ns) fun i =>
            lsum (indices (convTOuts s p 0 d ns ks)) fun o => if IsTap s p d o i k then
              (g.elem (b :: oc :: o)).getD 0 * ((x.elem (b :: ic :: i)).getD 0 *
                (w'.elem (ic :: oc :: k)).getD 0) else 0 := by
      rw [lsum_comm]
      apply lsum_congr; intro oc _
      apply lsum_congr; intro ic _
      apply lsum_congr; intro k hki
      have hki := (mem_indices.mp hki).length
      rw [gradWTTerms_sum _ _ ic oc (by omega) (by omega), lsum_mul]
      apply lsum_congr; intro b _
      rw [lsum_mul]
      apply lsum_congr; intro i _
      rw [lsum_mul]
      apply lsum_congr; intro o _
      split
      · ring
      · ring
    rw [e1, lsum_comm (List.range B)]
    apply lsum_congr; intro oc _
    -- bring the batch index and the output position out
    have e2 : (lsum (List.range C) fun ic => lsum (indices ks) fun k => lsum (List.range B) fun b =>
        lsum (indices ns) fun i => lsum (indices (convTOuts s p 0 d ns ks)) fun o =>
          if IsTap s p d o i k then (g.elem (b :: oc :: o)).getD 0 * ((x.elem (b :: ic :: i)).getD 0 *
            (w'.elem (ic :: oc :: k)).getD 0) else 0) = _ := lsum_reorder _ _ _ _ _ _
    rw [e2]
    apply lsum_congr; intro b _
    apply lsum_congr; intro o _
    rw [mul_lsum]
    apply lsum_congr; intro ic _
    rw [mul_lsum, lsum_comm]
    apply lsum_congr; intro k _
    rw [mul_lsum]
    apply lsum_congr; intro i _
    split
    · ring
    · ring

/-- The hypotheses hold for two channels, stride 2, padding 1. -/
example : TransposeFits 2 1 [3] [3] ∧ convTOuts 2 1 0 1 [3] [3] = [5] ∧
    ((countUp [1, 2, 3] 1).convTVjp 0 (· + ·) (· * ·) 1 (countUp [2, 2, 3] 1) (countUp [1, 2, 5] 1) 2 1 1).map
      (fun r => (r.1.dims, r.2.dims)) = .ok ([1, 2, 3], [2, 2, 3]) :=
  ⟨.cons (by decide) .nil, by decide, by decide +kernel⟩

/-- With one input and two output channels the forward pass works and the backward pass is an error. -/
theorem C61_transposed_error :
    ((countUp [1, 1, 2] 1).convT 0 (· + ·) (· * ·) 1 (countUp [2, 1, 1] 1) 1 0 0 1).map (·.dims) =
      .ok [1, 2, 2] ∧
    (countUp [1, 1, 2] 1).convTVjp 0 (· + ·) (· * ·) 1 (countUp [2, 1, 1] 1) (countUp [1, 2, 2] 1) 1 0 1 =
      .err := by decide +kernel

/-- Weight gradients are computed for any weight shape the caller passes; one that is too small is
written out of bounds. -/
theorem C61_grad_weight_ub :
    (countUp [1, 1, 2] 1).convGradW 0 (· + ·) (· * ·) 1 (countUp [1, 2, 2] 1) [1, 1, 1] 1 0 1 = .ub := by
  decide +kernel

end Hodu
