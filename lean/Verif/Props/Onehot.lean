import Verif.Model.Select
import Verif.Lemmas.Conv
import Verif.Props.Indexing

/-!
# C62: one-hot encoding

The result has the shape of the index tensor with the number of classes inserted at the axis; along that
axis it is 1 at the class the index names (negative indices count from the end) and 0 elsewhere.
-/

namespace Hodu
open Spec

/-! ## Specification -/

/-- `y` is the one-hot encoding of `ix` along axis `k`. -/
def Spec.IsOnehot (zero one : β) (ix : Tensor Int) (classes k : Nat) (y : Tensor β) : Prop :=
  y.WF ∧ y.dims = ix.dims.insertIdx k classes ∧
    ∀ idx, InRange idx ix.dims → ∀ v, ix.elem idx = some v → ∀ j, j < classes →
      (IsAxis classes v j → y.elem (idx.insertIdx k j) = some one) ∧
      (¬ IsAxis classes v j → y.elem (idx.insertIdx k j) = some zero)

/-- The full claim: every index tensor, every axis; an axis out of range is an error. -/
def Spec.OnehotCorrect : Prop :=
  ∀ (ix : Tensor Int) (classes : Nat) (axis : Int), ix.WF → classes < 2 ^ 31 →
    (∀ k, IsAxis (ix.dims.length + 1) axis k →
      ∃ y, ix.onehot (0 : Nat) 1 classes axis = .ok y ∧ IsOnehot 0 1 ix classes k y) ∧
    ((∀ k, ¬ IsAxis (ix.dims.length + 1) axis k) → ix.onehot (0 : Nat) 1 classes axis = .err)

/-! ## Lemmas -/

theorem onehotDims_eq {classes k : Nat} {ds : List Nat} (h : k ≤ ds.length) :
    onehotDims classes k ds = ds.insertIdx k classes := by
  induction k generalizing ds with
  | zero => rfl
  | succ k ih =>
    cases ds with
    | nil => simp at h
    | cons d ds => rw [onehotDims, List.insertIdx_succ_cons, ih (by simpa using h)]

theorem withoutAxis_insert {c k : Nat} {ds : List Nat} (h : k ≤ ds.length) :
    withoutAxis k (ds.insertIdx k c) = ds := by
  induction k generalizing ds with
  | zero => rfl
  | succ k ih =>
    cases ds with
    | nil => simp at h
    | cons d ds => rw [List.insertIdx_succ_cons, withoutAxis, ih (by simpa using h)]

theorem inRange_insert {idx ds : List Nat} {j c k : Nat} (h : InRange idx ds) (hk : k ≤ ds.length)
    (hj : j < c) : InRange (idx.insertIdx k j) (ds.insertIdx k c) := by
  induction k generalizing idx ds with
  | zero => exact ⟨hj, h⟩
  | succ k ih =>
    cases ds with
    | nil => simp at hk
    | cons d ds =>
      cases idx with
      | nil => exact h.elim
      | cons i idx =>
        rw [List.insertIdx_succ_cons, List.insertIdx_succ_cons]
        exact ⟨h.1, ih h.2 (by simpa using hk)⟩

theorem inRange_insert_inv {idx ds : List Nat} {c k : Nat} (hk : k ≤ ds.length)
    (h : InRange idx (ds.insertIdx k c)) :
    ∃ idx' j, InRange idx' ds ∧ j < c ∧ idx = idx'.insertIdx k j := by
  induction k generalizing idx ds with
  | zero =>
    cases idx with
    | nil => exact h.elim
    | cons j idx => exact ⟨idx, j, h.2, h.1, rfl⟩
  | succ k ih =>
    cases ds with
    | nil => simp at hk
    | cons d ds =>
      rw [List.insertIdx_succ_cons] at h
      cases idx with
      | nil => exact h.elim
      | cons i idx =>
        obtain ⟨idx', j, h1, h2, rfl⟩ := ih (by simpa using hk) h.2
        exact ⟨i :: idx', j, ⟨h.1, h1⟩, h2, by rw [List.insertIdx_succ_cons]⟩

theorem insertIdx_inj' {a b : List Nat} {k i j : Nat} (ha : k ≤ a.length) (hb : k ≤ b.length)
    (h : a.insertIdx k i = b.insertIdx k j) : a = b ∧ i = j := by
  induction k generalizing a b with
  | zero =>
    rw [List.insertIdx_zero, List.insertIdx_zero] at h
    injection h with h1 h2
    exact ⟨h2, h1⟩
  | succ k ih =>
    cases a with
    | nil => simp at ha
    | cons x a =>
      cases b with
      | nil => simp at hb
      | cons y b =>
        rw [List.insertIdx_succ_cons, List.insertIdx_succ_cons] at h
        injection h with h1 h2
        obtain ⟨h3, h4⟩ := ih (by simpa using ha) (by simpa using hb) h2
        exact ⟨by rw [h1, h3], h4⟩

theorem onehotIndex_eq {c C k : Nat} {ds idx : List Nat} (hk : k ≤ ds.length) (hl : idx.length = ds.length) :
    onehotIndex c k (tailProds (ds.insertIdx k C)) idx =
      .ok (rowMajor (ds.insertIdx k C) (idx.insertIdx k c)) := by
  induction k generalizing ds idx with
  | zero =>
    simp only [List.insertIdx_zero, tailProds, onehotIndex, rowMajor]
    rw [cFlat_eq, dot_tailProds, shapeSize_eq, Nat.zero_add]
  | succ k ih =>
    cases ds with
    | nil => simp at hk
    | cons d ds =>
      cases idx with
      | nil => simp at hl
      | cons i idx =>
        rw [List.insertIdx_succ_cons, List.insertIdx_succ_cons, tailProds, onehotIndex,
          ih (by simpa using hk) (by simpa using hl), Res.ok_bind, rowMajor, shapeSize_eq]

theorem decodeOnehot_onehotMetadata {l : Layout} {classes axis : Nat} :
    decodeOnehot (onehotMetadata l classes axis) =
      .ok ⟨shapeSize (onehotDims classes axis l.dims), l.size, classes, axis,
        onehotDims classes axis l.dims⟩ := by
  unfold decodeOnehot onehotMetadata
  generalize onehotDims classes axis l.dims = out
  have a5 : sliceC ([shapeSize out, l.size, classes, axis, out.length] ++ out) 5 out.length = .ok out := by
    have := sliceC_mid [shapeSize out, l.size, classes, axis, out.length] out [] 5 out.length rfl rfl
    simpa using this
  simp only [List.cons_append, List.nil_append] at a5
  simp [readC, a5]

theorem truncI32_of {v : Int} (h : I32 v) : truncI32 v = v := by
  obtain ⟨h1, h2⟩ := h
  unfold truncI32
  omega

theorem foldl_const (one : β) (l : List β) (h : ∀ x ∈ l, x = one) (z : β) :
    (l = [] → l.foldl (fun _ x => x) z = z) ∧ (l ≠ [] → l.foldl (fun _ x => x) z = one) := by
  refine ⟨fun hl => by rw [hl]; rfl, fun hl => ?_⟩
  induction l generalizing z with
  | nil => exact absurd rfl hl
  | cons a l ih =>
    rw [List.foldl_cons]
    cases l with
    | nil => exact h a (by simp)
    | cons b l => exact ih (fun x hx => h x (by simp [hx])) _ (by simp)

/-! ## C62 -/

/-- **C62**, for index tensors stored row-major at the start of their buffer, of rank at most 31, with
indices that fit into 32 bits.  Missing, and false: views (`C62_view_wrong`), axes out of range
(`C62_axis_ub`), wide indices (`C62_truncation_wrong`), higher ranks (`C62_rank_ub`). -/
theorem C62_onehot_partial {ix : Tensor Int} {classes k : Nat} {axis : Int} (zero one : β) (hx : ix.WF)
    (hp : Packed ix) (h0 : ix.layout.offset = 0) (hr : ix.dims.length ≤ 31) (hc : classes < 2 ^ 31)
    (hv : ∀ v ∈ ix.storage, I32 v) (ha : IsAxis (ix.dims.length + 1) axis k) :
    ∃ y, ix.onehot zero one classes axis = .ok y ∧ IsOnehot zero one ix classes k y := by
  have hk : k ≤ ix.dims.length := by have := ha.1; omega
  have hax : axisUsize (ix.dims.length + 1) axis = k := axisUsize_eq ha (by omega)
  have hlen : (ix.dims.insertIdx k classes).length = ix.dims.length + 1 := by
    rw [List.length_insertIdx_of_le_length hk]
  have hst : ∀ i, i < numel ix.dims → ix.storage[i]? = ix.elem (unravel ix.dims i) := by
    intro i hi
    have hr' := unravel_inRange hi
    unfold Tensor.elem
    rw [hp _ hr', h0, rowMajor_unravel hi, Nat.zero_add]
  have hmap : ix.storage.map truncI32 = ix.storage := by
    conv_rhs => rw [← List.map_id ix.storage]
    exact List.map_congr_left fun v hm => truncI32_of (hv v hm)
  let out := ix.dims.insertIdx k classes
  let m : OnehotMeta := ⟨shapeSize out, ix.layout.size, classes, k, out⟩
  let tgt : Nat → Option (Nat × β) := fun i => match ix.elem (unravel ix.dims i) with
    | none => none
    | some v => match wrapIndex v classes with
      | .ok (some c) => some (rowMajor out ((unravel ix.dims i).insertIdx k c), one)
      | _ => none
  have hdec : decodeOnehot (onehotMetadata ix.layout classes k) = .ok m := by
    rw [decodeOnehot_onehotMetadata, onehotDims_eq hk]
  have hin : (withoutAxis m.axis m.outShape).take (m.outShape.length - 1) = ix.dims := by
    show (withoutAxis k out).take (out.length - 1) = _
    rw [withoutAxis_insert hk, hlen, Nat.add_sub_cancel, List.take_length]
  have hsz : ix.layout.size = numel ix.dims := shapeSize_eq _
  have key : ∀ i, i < numel ix.dims → ∃ v w, ix.elem (unravel ix.dims i) = some v ∧
      wrapIndex v classes = .ok w ∧ (∀ j, IsAxis classes v j ↔ w = some j) := by
    intro i hi
    obtain ⟨v, hvx⟩ := hx.get (unravel_inRange hi)
    obtain ⟨w, hw, hwc⟩ := wrapIndex_eq (hv v (List.mem_of_getElem? hvx)) hc
    exact ⟨v, w, hvx, hw, hwc⟩
  have hlt : ∀ i, i < numel ix.dims → ∀ c, c < classes →
      rowMajor out ((unravel ix.dims i).insertIdx k c) < numel out :=
    fun i hi c hcc => rowMajor_lt (inRange_insert (unravel_inRange hi) hk hcc)
  obtain ⟨res, h1, h2, h3⟩ := putFold (upd := fun _ x => x) (f := onehotStep one m ix.storage) (tgt := tgt)
    (L := numel out) (List.range (numel ix.dims))
    (fun i hi s hs => by
      rw [List.mem_range] at hi
      obtain ⟨v, w, hvx, hw, hwc⟩ := key i hi
      have hread : readC ix.storage i = .ok v := readC_eq_ok.mpr (by rw [hst i hi, hvx])
      unfold onehotStep
      rw [hread, Res.ok_bind]
      simp only [tgt, hvx, m, hw, Res.ok_bind]
      cases w with
      | none => rfl
      | some c =>
        have hcc := ((hwc c).mpr rfl).1
        have e := onehotIndex_eq (c := c) (C := classes) (ds := ix.dims) (idx := unravel ix.dims i) hk
          (unravel_inRange hi).length
        simp only [hin, m] at *
        rw [cUnravel_eq, Nat.mod_eq_of_lt hi, e, Res.ok_bind])
    (fun i hi o x ho => by
      rw [List.mem_range] at hi
      obtain ⟨v, w, hvx, hw, hwc⟩ := key i hi
      simp only [tgt, hvx, hw] at ho
      cases w with
      | none => cases ho
      | some c =>
        simp only [Option.some.injEq, Prod.mk.injEq] at ho
        rw [← ho.1]
        exact hlt i hi c ((hwc c).mpr rfl).1)
    (List.replicate (numel out) zero) (by simp)
  have helem : ∀ idx, InRange idx ix.dims → ∀ v, ix.elem idx = some v → ∀ j, j < classes →
      (IsAxis classes v j → Tensor.elem ⟨res, Layout.fromShape out⟩ (idx.insertIdx k j) = some one) ∧
      (¬ IsAxis classes v j → Tensor.elem ⟨res, Layout.fromShape out⟩ (idx.insertIdx k j) = some zero) := by
    intro idx hi v hvx j hj
    have hir := inRange_insert hi hk hj
    have hcell := h3 (rowMajor out (idx.insertIdx k j)) zero (by
      rw [List.getElem?_replicate, if_pos (rowMajor_lt hir)])
    have hfc := fun hall => foldl_const one (List.filterMap (fun id => match tgt id with
          | some (o, x) => if o = rowMajor out (idx.insertIdx k j) then some x else none
          | none => none) (List.range (numel ix.dims))) hall zero
    rw [Layout.fromShape, elem_rowMajor, Nat.zero_add, hcell]
    have hfc := hfc ?_
    · have hiff : (List.filterMap (fun id => match tgt id with
          | some (o, x) => if o = rowMajor out (idx.insertIdx k j) then some x else none
          | none => none) (List.range (numel ix.dims))) ≠ [] ↔ IsAxis classes v j := by
        rw [← List.length_pos_iff, List.length_pos_iff_exists_mem]
        constructor
        · rintro ⟨x, hxm⟩
          rw [List.mem_filterMap] at hxm
          obtain ⟨i, hi', hx'⟩ := hxm
          rw [List.mem_range] at hi'
          obtain ⟨v', w, hvx', hw, hwc⟩ := key i hi'
          simp only [tgt, hvx', hw] at hx'
          cases w with
          | none => cases hx'
          | some c =>
            simp only at hx'
            split at hx'
            · rename_i heq
              have hc' := ((hwc c).mpr rfl)
              have heq' := rowMajor_inj (inRange_insert (unravel_inRange hi') hk hc'.1) hir heq
              obtain ⟨h5, h6⟩ := insertIdx_inj' (by rw [(unravel_inRange hi').length]; exact hk)
                (by rw [hi.length]; exact hk) heq'
              rw [h5, hvx] at hvx'
              cases hvx'
              rw [← h6]
              exact hc'
            · cases hx'
        · intro hax'
          refine ⟨one, List.mem_filterMap.mpr ⟨rowMajor ix.dims idx, List.mem_range.mpr (rowMajor_lt hi), ?_⟩⟩
          obtain ⟨v', w, hvx', hw, hwc⟩ := key _ (rowMajor_lt hi)
          rw [unravel_rowMajor hi] at hvx'
          rw [hvx] at hvx'
          cases hvx'
          simp only [tgt, unravel_rowMajor hi, hvx, hw, (hwc j).mp hax', if_true]
      constructor
      · intro hax'
        exact congrArg some (hfc.2 (hiff.mpr hax'))
      · intro hax'
        exact congrArg some (hfc.1 (not_not.mp (mt hiff.mp hax')))
    · intro x hxm
      rw [List.mem_filterMap] at hxm
      obtain ⟨i, hi', hx'⟩ := hxm
      rw [List.mem_range] at hi'
      obtain ⟨v', w, hvx', hw, hwc⟩ := key i hi'
      simp only [tgt, hvx', hw] at hx'
      cases w with
      | none => cases hx'
      | some c =>
        simp only at hx'
        split at hx'
        · exact (Option.some.inj hx').symm
        · cases hx'
  refine ⟨⟨res, Layout.fromShape out⟩, ?_, ⟨computeStrides_length out, fun idx hi => ?_⟩, rfl, helem⟩
  · unfold Tensor.onehot onehotKernel
    simp only [hax, hmap, hdec, Res.ok_bind]
    rw [if_neg (by show ¬ (out.length = 0 ∨ 32 < out.length); rw [hlen]; omega)]
    show (Res.foldL (onehotStep one m ix.storage) (List.replicate (shapeSize out) zero)
      (List.range ix.layout.size)).bind _ = _
    rw [hsz, shapeSize_eq, h1, Res.ok_bind, onehotDims_eq hk]
  · obtain ⟨idx', j, h4, h5, rfl⟩ := inRange_insert_inv hk (show InRange idx out from hi)
    obtain ⟨v, hvx⟩ := hx.get h4
    have := helem idx' h4 v hvx j h5
    by_cases h : IsAxis classes v j
    · rw [this.1 h]; rfl
    · rw [this.2 h]; rfl

/-! ### Concrete case -/

/-- Two rows of two indices, classes inserted in the middle; one index counts from the end, one names no
class. -/
example : IsAxis 3 (-2) 1 ∧ (∀ v ∈ [2, -1, 0, 7], I32 v) ∧
    ((⟨[2, -1, 0, 7], Layout.fromShape [2, 2]⟩ : Tensor Int).onehot (0 : Nat) 1 3 (-2)) =
      .ok ⟨[0, 0, 0, 0, 1, 1, 1, 0, 0, 0, 0, 0], Layout.fromShape [2, 3, 2]⟩ :=
  ⟨by unfold IsAxis; decide, by unfold I32; decide, by decide +kernel⟩

/-! ## The full claim is false -/

/-- A column of a 2×2 index matrix (a slice): the kernel reads the buffer from the start instead. -/
theorem C62_view_wrong :
    let ix : Tensor Int := ⟨[0, 1, 0, 1], ⟨[2], [2], 1⟩⟩
    ix.WF ∧ ix.elem [0] = some 1 ∧ ix.elem [1] = some 1 ∧
      ix.onehot (0 : Nat) 1 2 (-1) = .ok ⟨[1, 0, 0, 1], Layout.fromShape [2, 2]⟩ := by
  refine ⟨⟨rfl, fun idx hi => ?_⟩, by decide, by decide, by decide +kernel⟩
  match idx, hi with
  | [i], hi =>
    have : i < 2 := hi.1
    interval_cases i <;> decide

/-- An axis beyond the rank is not rejected: the kernel uses an uninitialised index. -/
theorem C62_axis_ub : (⟨[0, 1], Layout.fromShape [2]⟩ : Tensor Int).onehot (0 : Nat) 1 3 2 = .ub := by
  decide +kernel

/-- The index `2^32` of an `i64` tensor selects class 0. -/
theorem C62_truncation_wrong :
    (⟨[2 ^ 32], Layout.fromShape [1]⟩ : Tensor Int).onehot (0 : Nat) 1 2 (-1) =
      .ok ⟨[1, 0], Layout.fromShape [1, 2]⟩ := by decide +kernel

/-- Rank 32 overruns the stride array of the kernel. -/
theorem C62_rank_ub :
    (⟨[0], Layout.fromShape (List.replicate 32 1)⟩ : Tensor Int).onehot (0 : Nat) 1 1 0 = .ub := by
  decide +kernel

theorem C62_full_false : ¬ Spec.OnehotCorrect := by
  intro h
  have := (h ⟨[0, 1], Layout.fromShape [2]⟩ 3 2 (fresh_wf (by decide)) (by decide)).2 (by
    rintro k ⟨h1, h2⟩
    have h1' : k < 2 := h1
    have h2' : (2 : Int) = k ∨ (2 : Int) = (k : Int) - 2 := h2
    omega)
  rw [C62_axis_ub] at this
  cases this

end Hodu
