import Verif.Model.Conv
import Verif.Lemmas.Matmul
import Verif.Lemmas.Slice
import Verif.Lemmas.Tensor

/-! # Specification vocabulary and lemmas for the convolutions -/

namespace Hodu
open Spec

/-! ### Specification vocabulary -/

/-- All multi-indices of a shape in row-major order. -/
def Spec.indices (dims : List Nat) : List (List Nat) := (List.range (numel dims)).map (unravel dims)

/-- Every element of the tensor, as a function of its index. -/
def Spec.Reads (t : Tensor α) (f : List Nat → α) : Prop :=
  ∀ idx, InRange idx t.dims → t.elem idx = some (f idx)

/-- Consecutive elements in row-major order are consecutive in memory (from any offset on). -/
def Spec.Packed (t : Tensor α) : Prop :=
  ∀ idx, InRange idx t.dims → dot idx t.layout.strides = rowMajor t.dims idx

/-- The position `x * s + k * d - p` in every spatial dimension, if it lies inside `sizes`
everywhere; `none` means that the tap falls into the padding. -/
def Spec.tapIndex (s p d : Nat) : List Nat → List Nat → List Nat → Option (List Nat)
  | n :: ns, x :: xs, k :: ks =>
    if p ≤ x * s + k * d ∧ x * s + k * d - p < n then
      (tapIndex s p d ns xs ks).map ((x * s + k * d - p) :: ·)
    else none
  | [], [], [] => some []
  | _, _, _ => none

theorem tapIndex_inRange {s p d : Nat} {ns xs ks i : List Nat} (h : tapIndex s p d ns xs ks = some i) :
    InRange i ns := by
  induction ns generalizing xs ks i with
  | nil =>
    cases xs <;> cases ks <;> simp [tapIndex] at h
    subst h; trivial
  | cons n ns ih =>
    cases xs with
    | nil => simp [tapIndex] at h
    | cons x xs =>
      cases ks with
      | nil => simp [tapIndex] at h
      | cons k ks =>
        unfold tapIndex at h
        split at h
        · rename_i hc
          obtain ⟨r, hr, rfl⟩ := Option.map_eq_some_iff.mp h
          exact ⟨hc.2, ih hr⟩
        · cases h

/-- What `tapIndex` computes, without subtraction: the coordinates satisfy `i + p = x * s + k * d`. -/
theorem tapIndex_eq_some {s p d : Nat} {ns xs ks i : List Nat} (hx : xs.length = ns.length)
    (hk : ks.length = ns.length) :
    tapIndex s p d ns xs ks = some i ↔ InRange i ns ∧
      ∀ j, j < ns.length → i.getD j 0 + p = xs.getD j 0 * s + ks.getD j 0 * d := by
  induction ns generalizing xs ks i with
  | nil =>
    cases xs <;> cases ks <;> simp at hx hk
    cases i <;> simp [tapIndex, InRange]
  | cons n ns ih =>
    cases xs with
    | nil => simp at hx
    | cons x xs =>
      cases ks with
      | nil => simp at hk
      | cons k ks =>
        have ih := @ih xs ks
        cases i with
        | nil =>
          unfold tapIndex
          simp only [InRange, false_and, iff_false]
          split
          · simp
          · simp
        | cons c i =>
          unfold tapIndex
          have hall : (∀ j, j < (n :: ns).length →
              (c :: i).getD j 0 + p = (x :: xs).getD j 0 * s + (k :: ks).getD j 0 * d) ↔
              (c + p = x * s + k * d ∧ ∀ j, j < ns.length →
                i.getD j 0 + p = xs.getD j 0 * s + ks.getD j 0 * d) := by
            constructor
            · intro h
              refine ⟨by simpa using h 0 (by simp), fun j hj => ?_⟩
              simpa using h (j + 1) (by simpa using hj)
            · rintro ⟨h0, h⟩ j hj
              cases j with
              | zero => simpa using h0
              | succ j => simpa using h j (by simpa using hj)
          rw [hall]
          have ih := @ih i (by simpa using hx) (by simpa using hk)
          by_cases hc : p ≤ x * s + k * d ∧ x * s + k * d - p < n
          · rw [if_pos hc]
            simp only [Option.map_eq_some_iff, List.cons.injEq]
            constructor
            · rintro ⟨r, hr, hcr, rfl⟩
              obtain ⟨h1, h2⟩ := ih.mp hr
              exact ⟨⟨by omega, h1⟩, by omega, h2⟩
            · rintro ⟨⟨h1, h2⟩, h3, h4⟩
              exact ⟨i, ih.mpr ⟨h2, h4⟩, by omega, rfl⟩
          · rw [if_neg hc]
            simp only [reduceCtorEq, false_iff]
            rintro ⟨⟨h1, h2⟩, h3, h4⟩
            omega

/-! ### Loops -/

theorem unravel_cons_add {d : Nat} {ds : List Nat} {i j : Nat} (hj : j < numel ds) :
    unravel (d :: ds) (i * numel ds + j) = i :: unravel ds j := by
  have hp : 0 < numel ds := by omega
  simp only [unravel]
  rw [Nat.add_comm, Nat.add_mul_div_right _ _ hp, Nat.add_mul_mod_self_right, Nat.div_eq_of_lt hj,
    Nat.mod_eq_of_lt hj, Nat.zero_add]

theorem range_mul (a b : Nat) :
    List.range (a * b) = (List.range a).flatMap fun i => (List.range b).map fun j => i * b + j := by
  induction a with
  | zero => simp
  | succ a ih =>
    rw [Nat.succ_mul, List.range_add, ih, List.range_succ, List.flatMap_append]
    simp

theorem indices_cons (d : Nat) (ds : List Nat) :
    indices (d :: ds) = (List.range d).flatMap fun i => (indices ds).map (i :: ·) := by
  unfold indices
  rw [numel, range_mul, List.map_flatMap]
  congr 1
  funext i
  rw [List.map_map, List.map_map]
  apply List.map_congr_left
  intro j hj
  exact unravel_cons_add (List.mem_range.mp hj)

theorem loops_eq (dims : List Nat) : loops dims = indices dims := by
  induction dims with
  | nil => rfl
  | cons d ds ih => rw [indices_cons, ← ih]; rfl

theorem mem_indices {dims idx : List Nat} : idx ∈ indices dims ↔ InRange idx dims := by
  unfold indices
  rw [List.mem_map]
  constructor
  · rintro ⟨n, hn, rfl⟩
    exact unravel_inRange (List.mem_range.mp hn)
  · intro h
    exact ⟨rowMajor dims idx, List.mem_range.mpr (rowMajor_lt h), unravel_rowMajor h⟩

theorem indices_append (a b : List Nat) :
    indices (a ++ b) = (indices a).flatMap fun x => (indices b).map (x ++ ·) := by
  induction a with
  | nil => simp [indices, numel, unravel]
  | cons d a ih =>
    rw [List.cons_append, indices_cons, indices_cons, ih, List.flatMap_assoc]
    congr 1
    funext i
    simp [List.map_flatMap, List.flatMap_map, Function.comp_def]

theorem indices_nodup (dims : List Nat) : (indices dims).Nodup := by
  unfold indices
  refine List.Nodup.map_on ?_ List.nodup_range
  intro a ha b hb h
  rw [← rowMajor_unravel (List.mem_range.mp ha), h, rowMajor_unravel (List.mem_range.mp hb)]

/-- A loop whose body either skips or adds a value. -/
theorem foldL_skip {f : α → β → Res α} {add : α → γ → α} {g : β → Option γ} (l : List β) (acc : α)
    (h : ∀ a, ∀ x ∈ l, f a x = .ok (match g x with | none => a | some v => add a v)) :
    Res.foldL f acc l = .ok ((l.filterMap g).foldl add acc) := by
  induction l generalizing acc with
  | nil => rfl
  | cons x l ih =>
    rw [Res.foldL, h acc x (by simp), Res.ok_bind, ih _ fun a y hy => h a y (by simp [hy])]
    cases hg : g x <;> simp [hg]

/-- A loop whose body is itself a loop over steps. -/
theorem foldL_flat {f : σ → β → Res σ} {g : σ → γ → Res σ} {st : β → List γ} (l : List β) (s : σ)
    (h : ∀ s, ∀ x ∈ l, f s x = Res.foldL g s (st x)) :
    Res.foldL f s l = Res.foldL g s (l.flatMap st) := by
  induction l generalizing s with
  | nil => rfl
  | cons x l ih =>
    rw [Res.foldL, h s x (by simp), List.flatMap_cons, foldL_append]
    congr 1
    funext s'
    exact ih s' fun s y hy => h s y (by simp [hy])

/-! ### Addresses -/

theorem cOffset_tail {ds idx : List Nat} (h : idx.length = ds.length) :
    cOffset ds.tail idx = rowMajor ds idx := by
  induction ds generalizing idx with
  | nil => cases idx <;> simp [cOffset, rowMajor] at *
  | cons d ds ih =>
    cases idx with
    | nil => simp at h
    | cons i is =>
      have := @ih is (by simpa using h)
      simp only [List.tail_cons, cOffset, rowMajor, shapeSize_eq]
      rw [this]

theorem cOffset_cons {d : Nat} {ds idx : List Nat} (h : idx.length = ds.length + 1) :
    cOffset ds idx = rowMajor (d :: ds) idx := by
  have := @cOffset_tail (d :: ds) idx (by simpa using h)
  simpa using this

/-! ### Axes and taps -/

/-- The spatial axes of a convolution with the same stride, padding and dilation everywhere. -/
def mkAxes (s p d : Nat) : List Nat → List Nat → List Nat → List ConvAxis
  | n :: ns, k :: ks, o :: os => ⟨n, k, o, s, p, d⟩ :: mkAxes s p d ns ks os
  | _, _, _ => []

theorem mkAxes_n {s p d : Nat} {ns ks os : List Nat} (hk : ks.length = ns.length)
    (ho : os.length = ns.length) : (mkAxes s p d ns ks os).map (·.n) = ns := by
  induction ns generalizing ks os with
  | nil => rfl
  | cons n ns ih =>
    cases ks <;> cases os <;> simp at hk ho
    simp [mkAxes, ih hk ho]

theorem mkAxes_k {s p d : Nat} {ns ks os : List Nat} (hk : ks.length = ns.length)
    (ho : os.length = ns.length) : (mkAxes s p d ns ks os).map (·.k) = ks := by
  induction ns generalizing ks os with
  | nil => cases ks <;> simp [mkAxes] at *
  | cons n ns ih =>
    cases ks <;> cases os <;> simp at hk ho
    simp [mkAxes, ih hk ho]

theorem mkAxes_o {s p d : Nat} {ns ks os : List Nat} (hk : ks.length = ns.length)
    (ho : os.length = ns.length) : (mkAxes s p d ns ks os).map (·.o) = os := by
  induction ns generalizing ks os with
  | nil => cases os <;> simp [mkAxes] at *
  | cons n ns ih =>
    cases ks <;> cases os <;> simp at hk ho
    simp [mkAxes, ih hk ho]

theorem mkAxes_length {s p d : Nat} {ns ks os : List Nat} (hk : ks.length = ns.length)
    (ho : os.length = ns.length) : (mkAxes s p d ns ks os).length = ns.length := by
  have := congrArg List.length (mkAxes_n (s := s) (p := p) (d := d) hk ho)
  simpa using this

/-- The `int` computations of the kernels stay in range: `rs` bounds the position that is multiplied by
the stride, `ks` the kernel position, `zs` the size tested against. -/
def Fits (s d : Nat) : List Nat → List Nat → List Nat → Prop
  | r :: rs, k :: ks, z :: zs =>
    (∀ x j, x < r → j < k → x * s + j * d < 2 ^ 31) ∧ z < 2 ^ 31 ∧ Fits s d rs ks zs
  | _, _, _ => True

theorem cTap_eq {a : ConvAxis} {x k : Nat} (h : x * a.s + k * a.d < 2 ^ 31) (hp : a.p < 2 ^ 31) :
    cTap a x k = .ok ((x * a.s + k * a.d : Nat) - (a.p : Int)) := by
  unfold cTap cInt
  rw [castI32_small (by omega), castI32_small hp, castI32_small (by omega), if_pos (by omega),
    Res.ok_bind, if_pos (by omega)]
  congr 1
  omega

theorem tap_cond {a b n : Nat} : (0 ≤ ((a : Nat) : Int) - (b : Int) ∧ ((a : Nat) : Int) - b < (n : Int)) ↔
    (b ≤ a ∧ a - b < n) := by omega

theorem cTaps_n {s p d : Nat} (hp : p < 2 ^ 31) {ns ks os o k : List Nat} (hf : Fits s d os ks ns)
    (hn : ns.length = os.length) (ho : InRange o os) (hk : InRange k ks) (hl : ks.length = os.length) :
    cTaps (·.n) (mkAxes s p d ns ks os) o k = .ok (tapIndex s p d ns o k) := by
  induction ns generalizing ks os o k with
  | nil =>
    cases os <;> cases ks <;> simp at hn hl
    cases o <;> cases k <;> simp [InRange] at ho hk
    rfl
  | cons n ns ih =>
    cases os <;> cases ks <;> simp at hn hl
    cases o <;> cases k <;> simp only [InRange] at ho hk
    rename_i o' os k' ks x xs j js
    obtain ⟨h1, h2, h3⟩ := hf
    simp only [mkAxes, cTaps]
    rw [cTap_eq (h1 _ _ ho.1 hk.1) hp, Res.ok_bind, ih h3 hn ho.2 hk.2 hl, Res.ok_bind,
      castI32_small h2, tapIndex]
    simp only [tap_cond]
    rw [show ∀ a b : Nat, ((a : Int) - (b : Int)).toNat = a - b from fun a b => by omega]

theorem cTaps_o {s p d : Nat} (hp : p < 2 ^ 31) {ns ks os i k : List Nat} (hf : Fits s d ns ks os)
    (hn : ns.length = os.length) (hi : InRange i ns) (hk : InRange k ks) (hl : ks.length = os.length) :
    cTaps (·.o) (mkAxes s p d ns ks os) i k = .ok (tapIndex s p d os i k) := by
  induction os generalizing ks ns i k with
  | nil =>
    cases ns <;> cases ks <;> simp at hn hl
    cases i <;> cases k <;> simp [InRange] at hi hk
    rfl
  | cons n os ih =>
    cases ns <;> cases ks <;> simp at hn hl
    cases i <;> cases k <;> simp only [InRange] at hi hk
    obtain ⟨h1, h2, h3⟩ := hf
    simp only [mkAxes, cTaps]
    rw [cTap_eq (h1 _ _ hi.1 hk.1) hp, Res.ok_bind, ih h3 hn hi.2 hk.2 hl, Res.ok_bind,
      castI32_small h2, tapIndex]
    simp only [tap_cond]
    rw [show ∀ a b : Nat, ((a : Int) - (b : Int)).toNat = a - b from fun a b => by omega]

/-! ### Metadata -/

theorem length_one {α : Type _} {l : List α} (h : l.length = 1) : ∃ a, l = [a] :=
  List.length_eq_one_iff.mp h
theorem length_two {α : Type _} {l : List α} (h : l.length = 2) : ∃ a b, l = [a, b] :=
  List.length_eq_two.mp h
theorem length_three {α : Type _} {l : List α} (h : l.length = 3) : ∃ a b c, l = [a, b, c] :=
  List.length_eq_three.mp h

/-- The metadata vector written by the host is read back by the kernels as the same fields. -/
theorem decodeConv_convMetadata {nsp : Nat} {l w : Layout} {B Ci Co s p d : Nat} {ns ks os : List Nat}
    (h : nsp = 1 ∨ nsp = 2 ∨ nsp = 3) (hl : l.dims = B :: Ci :: ns) (hw : w.dims.drop 2 = ks)
    (hn : ns.length = nsp) (hk : ks.length = nsp) (ho : os.length = nsp) :
    decodeConv nsp (convMetadata l w (List.replicate nsp s) (List.replicate nsp p)
      (List.replicate nsp d) (B :: Co :: os)) =
      .ok ⟨numel (B :: Co :: os), B, Ci, Co, mkAxes s p d ns ks os, l.offset, w.offset⟩ := by
  unfold convMetadata
  rw [hl, hw, shapeSize_eq]
  generalize numel (B :: Co :: os) = N
  rcases h with rfl | rfl | rfl
  · obtain ⟨n, rfl⟩ := length_one hn
    obtain ⟨k, rfl⟩ := length_one hk
    obtain ⟨o, rfl⟩ := length_one ho
    rfl
  · obtain ⟨n, n', rfl⟩ := length_two hn
    obtain ⟨k, k', rfl⟩ := length_two hk
    obtain ⟨o, o', rfl⟩ := length_two ho
    rfl
  · obtain ⟨n, n', n'', rfl⟩ := length_three hn
    obtain ⟨k, k', k'', rfl⟩ := length_three hk
    obtain ⟨o, o', o'', rfl⟩ := length_three ho
    rfl

/-- The same for the weight-gradient kernels. -/
theorem decodeConvGrad_metadata {nsp : Nat} {l g : Layout} {B Ci B' Co s p d : Nat}
    {ns ks os wd : List Nat} (h : nsp = 1 ∨ nsp = 2 ∨ nsp = 3) (hl : l.dims = B :: Ci :: ns)
    (hg : g.dims = B' :: Co :: os) (hw : wd.drop 2 = ks) (hwl : wd.length = 2 + nsp)
    (hls : l.strides.length = l.dims.length) (hgs : g.strides.length = g.dims.length)
    (hn : ns.length = nsp) (ho : os.length = nsp) :
    decodeConvGrad nsp (convGradMetadata l g wd (List.replicate nsp s) (List.replicate nsp p)
      (List.replicate nsp d) nsp) =
      .ok ⟨numel wd, B, Ci, Co, mkAxes s p d ns ks os, g.strides, l.offset, g.offset⟩ := by
  obtain ⟨ld, ls, lo⟩ := l
  obtain ⟨gd, gs, go⟩ := g
  simp only at hl hg hls hgs
  subst hl hg
  unfold convGradMetadata Layout.ndim
  rw [shapeSize_eq]
  generalize numel wd = N
  rcases h with rfl | rfl | rfl
  · obtain ⟨n, rfl⟩ := length_one hn
    obtain ⟨o, rfl⟩ := length_one ho
    obtain ⟨w0, w1, w2, rfl⟩ := length_three hwl
    obtain ⟨l0, l1, l2, rfl⟩ := length_three hls
    obtain ⟨g0, g1, g2, rfl⟩ := length_three hgs
    subst hw
    rfl
  · obtain ⟨n, n', rfl⟩ := length_two hn
    obtain ⟨o, o', rfl⟩ := length_two ho
    match wd, hwl, ls, hls, gs, hgs with
    | [w0, w1, w2, w3], _, [l0, l1, l2, l3], _, [g0, g1, g2, g3], _ =>
      subst hw
      rfl
  · obtain ⟨n, n', n'', rfl⟩ := length_three hn
    obtain ⟨o, o', o'', rfl⟩ := length_three ho
    match wd, hwl, ls, hls, gs, hgs with
    | [w0, w1, w2, w3, w4], _, [l0, l1, l2, l3, l4], _, [g0, g1, g2, g3, g4], _ =>
      subst hw
      rfl

/-! ### Reading packed operands -/

theorem packed_read {t : Tensor α} {f : List Nat → α} (hr : Reads t f) (hp : Packed t)
    {d : Nat} {ds idx : List Nat} (hd : t.dims = d :: ds) (h : InRange idx t.dims) :
    readC t.storage (t.layout.offset + cOffset ds idx) = .ok (f idx) := by
  rw [readC_eq_ok, cOffset_cons (d := d) (by rw [h.length, hd]; rfl), ← hd, ← hp idx h]
  exact hr idx h

theorem packed_of_contiguous {t : Tensor α} (h : t.layout.strides.length = t.dims.length)
    (hc : t.layout.isContiguous = true) : Packed t := by
  intro idx hi
  rw [(isContiguous_iff h).mp hc]
  exact dot_computeStrides t.dims idx

end Hodu
