import Verif.Lemmas.Slice

/-!
# Properties C01–C05, C07, C08, C13: creation and views

Statements use `Spec` vocabulary (`InRange`, `rowMajor`, `IsAxis`, ...) and `Tensor.elem`.
-/

namespace Hodu
open Spec

/-! ## C01 -/

/-- **C01.** Creating a tensor from a flat slice: rejected unless the length is the shape's size;
otherwise the element at an index is the slice element at its row-major position, and every slice
position is the position of exactly one index. -/
theorem C01_from_slice (data : List α) (dims : List Nat) :
    (data.length ≠ numel dims → Tensor.fromSlice data dims = .err) ∧
    (data.length = numel dims → ∃ t, Tensor.fromSlice data dims = .ok t ∧ t.dims = dims ∧ t.WF ∧
      (∀ idx, InRange idx dims → t.elem idx = data[rowMajor dims idx]?) ∧
      (∀ n, n < data.length → ∃ idx, InRange idx dims ∧ rowMajor dims idx = n ∧
        ∀ idx', InRange idx' dims → rowMajor dims idx' = n → idx' = idx)) := by
  constructor
  · intro h
    simp [Tensor.fromSlice, shapeSize_eq, Ne.symm h]
  · intro h
    refine ⟨⟨data, Layout.fromShape dims⟩, by simp [Tensor.fromSlice, shapeSize_eq, h], rfl, ?_, ?_, ?_⟩
    · refine ⟨computeStrides_length dims, fun idx hi => ?_⟩
      rw [Layout.fromShape, elem_rowMajor]
      have := rowMajor_lt hi
      simp [Layout.fromShape, h] at this ⊢
      exact this
    · intro idx _
      rw [Layout.fromShape, elem_rowMajor, Nat.zero_add]
    · intro n hn
      rw [h] at hn
      exact ⟨unravel dims n, unravel_inRange hn, rowMajor_unravel hn,
        fun idx' hi he => by rw [← he, unravel_rowMajor hi]⟩

example : (["a", "b", "c", "d", "e", "f"] : List String).length = numel [2, 3] := by decide
example : Tensor.fromSlice ["a", "b", "c"] [2, 2] = .err := by decide

/-! ## C02 -/

/-- **C02, reshape.** Fails exactly when the element counts differ; otherwise the indices with the
same row-major position hold the same element, whatever view the source is. -/
theorem C02_reshape {t : Tensor α} (ht : t.WF) (nd : List Nat) :
    (numel nd ≠ numel t.dims → t.reshape nd = .err) ∧
    (numel nd = numel t.dims → ∃ r, t.reshape nd = .ok r ∧ r.dims = nd ∧ r.WF ∧
      ∀ i j, InRange i t.dims → InRange j nd → rowMajor t.dims i = rowMajor nd j →
        r.elem j = t.elem i) := by
  constructor
  · intro h
    simp only [Tensor.reshape, Layout.size, shapeSize_eq]
    rw [if_pos (Ne.symm h)]
  · intro h
    obtain ⟨s, o, h1, h2⟩ := viewVia_spec ht (·.reshape nd)
    obtain ⟨hw, he⟩ := reshape_like ht h2 h
    refine ⟨_, ?_, rfl, hw, he⟩
    simp only [Tensor.reshape, Layout.size, shapeSize_eq]
    rw [if_neg (by simp [h]), h1]
    simp [Layout.reshape, Layout.size, shapeSize_eq, isContiguous_computeStrides, h]

/-- **C02, flatten.** Always succeeds; position `n` of the result is the element at row-major
position `n` of the source. -/
theorem C02_flatten {t : Tensor α} (ht : t.WF) :
    ∃ r, t.flatten = .ok r ∧ r.dims = [numel t.dims] ∧ r.WF ∧
      ∀ i, InRange i t.dims → r.elem [rowMajor t.dims i] = t.elem i := by
  obtain ⟨s, o, h1, h2⟩ := viewVia_spec ht (·.flatten)
  have hn : numel [numel t.dims] = numel t.dims := by simp [numel]
  obtain ⟨hw, he⟩ := reshape_like ht h2 hn
  refine ⟨⟨s, ⟨[numel t.dims], Layout.computeStrides [numel t.dims], o⟩⟩, ?_, rfl, hw, ?_⟩
  · rw [Tensor.flatten, h1]
    simp [Layout.flatten, Layout.size, shapeSize_eq, isContiguous_computeStrides]
  · intro i hi
    have hlt := rowMajor_lt hi
    exact he i _ hi ⟨hlt, trivial⟩ (by simp [rowMajor, numel])

/-- The tensor used in the examples: `[[0,1,2],[3,4,5]]`, and its transpose (a strided view). -/
private def ex23 : Tensor Nat := ⟨[0, 1, 2, 3, 4, 5], ⟨[2, 3], [3, 1], 0⟩⟩
private def ex32 : Tensor Nat := ⟨[0, 1, 2, 3, 4, 5], ⟨[3, 2], [1, 3], 0⟩⟩

private theorem ex32_wf : ex32.WF := by
  refine ⟨rfl, fun idx hi => ?_⟩
  have hn := rowMajor_lt hi
  rw [← unravel_rowMajor hi]
  have : ∀ n, n < 6 → (ex32.elem (unravel [3, 2] n)).isSome := by decide
  exact this _ hn

example : ex32.WF ∧ numel [6] = numel ex32.dims ∧
    ex32.reshape [6] = .ok ⟨[0, 3, 1, 4, 2, 5], ⟨[6], [1], 0⟩⟩ :=
  ⟨ex32_wf, by decide, by decide⟩
example : ex32.flatten = .ok ⟨[0, 3, 1, 4, 2, 5], ⟨[6], [1], 0⟩⟩ := by decide

/-! ## C03 -/

/-- `axes` names the permutation `σ` of the dimensions. -/
def Spec.NamesPermutation (n : Nat) (axes : List Int) (σ : List Nat) : Prop :=
  axes.length = n ∧ σ.length = n ∧ σ.Nodup ∧
    ∀ k (h1 : k < axes.length) (h2 : k < σ.length), IsAxis n axes[k] σ[k]

/-- **C03, permute.** Rejected unless `axes` names a permutation `σ`; otherwise coordinate `k` of the
result is coordinate `σ k` of the source, and every result index arises this way. -/
theorem C03_permute {t : Tensor α} (ht : t.WF) (axes : List Int) :
    ((¬ ∃ σ, NamesPermutation t.dims.length axes σ) → t.permute axes = .err) ∧
    ∀ σ, NamesPermutation t.dims.length axes σ →
      ∃ r, t.permute axes = .ok r ∧ r.WF ∧ r.dims = σ.map (fun a => t.dims.getD a 0) ∧
        (∀ i, InRange i t.dims → r.elem (σ.map fun a => i.getD a 0) = t.elem i) ∧
        (∀ j, InRange j r.dims → ∃ i, InRange i t.dims ∧ j = σ.map fun a => i.getD a 0) := by
  obtain ⟨s, o, h1, h2⟩ := viewVia_spec ht (·.permute axes)
  constructor
  · intro hno
    rw [Tensor.permute, h1]
    simp only [Layout.permute, Layout.ndim]
    split
    · rfl
    · rename_i hlen
      simp only [ne_eq, Decidable.not_not] at hlen
      rcases permuteAxes_cases t.dims [] axes with ⟨σ, hσ⟩ | he
      · obtain ⟨g1, g2, g3, _⟩ := permuteAxes_ok_inv hσ
        exact absurd ⟨σ, hlen, by rw [← g1, hlen], g3, g2⟩ hno
      · rw [he]; rfl
  · rintro σ ⟨hl, hσl, hnd, hax⟩
    have hlt : ∀ a ∈ σ, a < t.dims.length := by
      intro a ha
      obtain ⟨k, hk, rfl⟩ := List.getElem_of_mem ha
      exact (hax k (by omega) hk).1
    have hp := perm_range hσl hlt hnd
    obtain ⟨hw, hB, hC⟩ := permuted_view (s := s) (o := o) ht h2 hp
    refine ⟨_, ?_, hw, rfl, fun i hi => (hB i hi).2, hC⟩
    rw [Tensor.permute, h1]
    simp only [Layout.permute, Layout.ndim]
    rw [if_neg (by simp [hl]), permuteAxes_ok (by omega) hax hnd (by simp), Res.ok_bind,
      mapL_readR hlt, Res.ok_bind,
      mapL_readR (by rw [computeStrides_length]; exact hlt), Res.ok_bind, Res.ok_bind]

/-- **C03, transpose.** Needs rank ≥ 2 and two valid axes; the result's index is the source's index
with coordinates `a` and `b` exchanged. -/
theorem C03_transpose {t : Tensor α} (ht : t.WF) (x y : Int) :
    ((t.dims.length < 2 ∨ (∀ a, ¬ IsAxis t.dims.length x a) ∨ ∀ b, ¬ IsAxis t.dims.length y b) →
      t.transpose x y = .err) ∧
    ∀ a b, 2 ≤ t.dims.length → IsAxis t.dims.length x a → IsAxis t.dims.length y b →
      ∃ r, t.transpose x y = .ok r ∧ r.WF ∧ r.dims.length = t.dims.length ∧
        (∀ i j, InRange i t.dims → InRange j r.dims →
          (∀ k, k < t.dims.length → j.getD k 0 = i.getD (if k = a then b else if k = b then a else k) 0) →
          r.elem j = t.elem i) ∧
        (∀ k, k < t.dims.length →
          r.dims.getD k 0 = t.dims.getD (if k = a then b else if k = b then a else k) 0) := by
  obtain ⟨s, o, h1, h2⟩ := viewVia_spec ht (·.transpose x y)
  constructor
  · intro h
    rw [Tensor.transpose, h1]
    simp only [Layout.transpose, Layout.ndim]
    rcases h with h | h | h
    · rw [if_pos h]; rfl
    · rw [normalizeAxis_none h]; split <;> rfl
    · rw [normalizeAxis_none h]; split
      · rfl
      · cases normalizeAxis t.dims x <;> rfl
  · intro a b hn ha hb
    have hp := swapPerm_perm ha.1 hb.1
    obtain ⟨hw, hB, hC⟩ := permuted_view (s := s) (o := o) ht h2 hp
    refine ⟨_, ?_, hw, by simp [swapPerm, Tensor.dims], ?_, ?_⟩
    · rw [Tensor.transpose, h1]
      simp only [Layout.transpose, Layout.ndim]
      rw [if_neg (by omega), normalizeAxis_iff.mpr ha, normalizeAxis_iff.mpr hb]
      simp only [Res.ok_bind]
      rw [swapAt_eq ha.1 hb.1, swapAt_eq (by rw [computeStrides_length]; exact ha.1)
        (by rw [computeStrides_length]; exact hb.1), computeStrides_length]
    · intro i j hi hj hij
      have hjl : j.length = t.dims.length := by rw [hj.length]; simp [swapPerm, Tensor.dims]
      have : j = (swapPerm t.dims.length a b).map fun k => i.getD k 0 := by
        apply List.ext_getElem (by simp [swapPerm, hjl])
        intro k hk1 hk2
        have := hij k (by omega)
        simp only [List.getD_eq_getElem?_getD, hk1, List.getElem?_eq_getElem, Option.getD_some] at this
        simp only [swapPerm, List.getElem_map, List.getElem_range, List.getD_eq_getElem?_getD]
        exact this
      rw [this]
      exact (hB i hi).2
    · intro k hk
      simp [swapPerm, List.getD_eq_getElem?_getD, hk, Tensor.dims]

/-- **C03, involution.** Transposing the same two axes twice gives back the same tensor values. -/
theorem C03_transpose_twice {t r : Tensor α} (ht : t.WF) (x y : Int) (h : t.transpose x y = .ok r) :
    ∃ t', r.transpose x y = .ok t' ∧ t'.SameValues t := by
  obtain ⟨herr, hok⟩ := C03_transpose ht x y
  have hn : 2 ≤ t.dims.length := by
    by_contra hc
    rw [herr (Or.inl (by omega))] at h; simp at h
  obtain ⟨a, ha⟩ : ∃ a, IsAxis t.dims.length x a := by
    by_contra hc
    rw [herr (Or.inr (Or.inl fun a ha => hc ⟨a, ha⟩))] at h; simp at h
  obtain ⟨b, hb⟩ : ∃ b, IsAxis t.dims.length y b := by
    by_contra hc
    rw [herr (Or.inr (Or.inr fun a ha => hc ⟨a, ha⟩))] at h; simp at h
  obtain ⟨r', hr', hw, hlen, hel, hd⟩ := hok a b hn ha hb
  rw [h] at hr'; cases hr'
  obtain ⟨t', ht', hw', hlen', hel', hd'⟩ :=
    (C03_transpose hw x y).2 a b (by omega) (by rwa [hlen]) (by rwa [hlen])
  rw [hlen] at hel' hd' hlen'
  have hdims : t'.dims = t.dims := by
    apply List.ext_getElem hlen'
    intro k h1 h2
    have e1 := hd' k (by omega)
    have hak := ha.1; have hbk := hb.1
    have e2 := hd (if k = a then b else if k = b then a else k) (by split <;> [exact hbk; split <;> omega])
    rw [e2] at e1
    have e3 : (if (if k = a then b else if k = b then a else k) = a then b
        else if (if k = a then b else if k = b then a else k) = b then a
        else (if k = a then b else if k = b then a else k)) = k := by
      split <;> split <;> (try split) <;> (try split) <;> omega
    rw [e3] at e1
    simpa [List.getD_eq_getElem?_getD, h1, h2] using e1
  refine ⟨t', ht', hdims, fun idx hi => ?_⟩
  -- the intermediate index
  have hidl : idx.length = t.dims.length := by rw [hi.length, hdims]
  have hit : InRange idx t.dims := by rw [← hdims]; exact hi
  let j := (swapPerm t.dims.length a b).map fun k => idx.getD k 0
  have hjk : ∀ k, k < t.dims.length →
      j.getD k 0 = idx.getD (if k = a then b else if k = b then a else k) 0 := by
    intro k hk
    simp [j, swapPerm, List.getD_eq_getElem?_getD, hk]
  have hrd : r.dims = (swapPerm t.dims.length a b).map fun k => t.dims.getD k 0 := by
    apply List.ext_getElem (by simp [swapPerm, hlen])
    intro k h1 h2
    have := hd k (by omega)
    simp only [List.getD_eq_getElem?_getD, h1, List.getElem?_eq_getElem, Option.getD_some] at this
    simp only [swapPerm, List.getElem_map, List.getElem_range, List.getD_eq_getElem?_getD]
    exact this
  have hjr : InRange j r.dims := by
    rw [hrd]
    exact (inRange_map (swapPerm_perm ha.1 hb.1) hidl rfl).mpr hit
  rw [← hel idx j hit hjr hjk]
  refine hel' j idx hjr hi ?_
  intro k hk
  have hak := ha.1; have hbk := hb.1
  rw [hjk _ (by split <;> [exact hbk; split <;> omega])]
  congr 1
  split <;> split <;> (try split) <;> (try split) <;> omega

example : ex32.WF ∧ IsAxis 2 0 0 ∧ IsAxis 2 (-1) 1 ∧
    ex32.transpose 0 (-1) = .ok ⟨[0, 3, 1, 4, 2, 5], ⟨[2, 3], [1, 2], 0⟩⟩ :=
  ⟨ex32_wf, by simp [IsAxis], by simp [IsAxis], by decide⟩
example : NamesPermutation 3 [2, -3, 1] [2, 0, 1] :=
  ⟨rfl, rfl, by decide, fun k h1 h2 => by
    have : k = 0 ∨ k = 1 ∨ k = 2 := by simp at h1; omega
    rcases this with rfl | rfl | rfl <;> simp [IsAxis]⟩

end Hodu
