import Verif.Model.Nested
import Verif.Props.ReadBack
import Verif.Props.Bitwise
import Verif.Lemmas.Move
import Mathlib.Tactic.FinCases

/-!
# C97: nested arrays keep their elements on the way in and out
-/

namespace Hodu
open Spec

/-! ## Specification -/

/-- `x[i]` of a vector. -/
def Spec.nthOf (x : List β) (i : Nat) : Option β := x[i]?

/-- `x[i][j]...`. -/
def Spec.nestGet : (k : Nat) → Nest α k → List Nat → Option α
  | 0, x, [] => some x
  | k + 1, x, i :: is => (nthOf x i).bind fun y => nestGet k y is
  | _, _, _ => none

/-- Every entry of a vector. -/
def Spec.Each (P : β → Prop) (x : List β) : Prop := ∀ y ∈ x, P y

/-- All vectors of a level have the same length. -/
def Spec.Rect : (d : List Nat) → Nest α d.length → Prop
  | [], _ => True
  | n :: ds, x => List.length x = n ∧ Each (Rect ds) x

open Spec

/-! ## Lemmas -/

def decEqNest [DecidableEq α] : (k : Nat) → DecidableEq (Nest α k)
  | 0 => inferInstanceAs (DecidableEq α)
  | k + 1 => @instDecidableEqList (Nest α k) (decEqNest k)

instance [DecidableEq α] : DecidableEq (Nest α k) := decEqNest k


theorem flatMap_get {ls : List β} {f : β → List γ} {nd t k : Nat} (hl : ∀ l ∈ ls, (f l).length = nd) (ht : t < ls.length)
    (hk : k < nd) : (ls.flatMap f)[t * nd + k]? = (f ls[t])[k]? := by
  have h := flatMap_packed (ls := ls) (f := f) (x := k) ht (by rw [hl _ (List.getElem_mem ht)]; exact hk)
  rw [← h]
  congr 2
  have : ((ls.take t).map fun l => (f l).length) = List.replicate t nd := by
    apply List.ext_getElem
    · simp; omega
    · intro i h1 h2
      simp only [List.getElem_map, List.getElem_replicate]
      exact hl _ (List.mem_of_mem_take (List.getElem_mem _))
  rw [this]
  simp

theorem flat_ok (d : List Nat) (x : Nest α d.length) (h : Rect d x) :
    (Nest.flat _ x).length = numel d ∧
    ∀ idx, InRange idx d → (Nest.flat _ x)[rowMajor d idx]? = nestGet _ x idx := by
  induction d with
  | nil =>
    refine ⟨rfl, fun idx hi => ?_⟩
    cases idx with
    | nil => rfl
    | cons _ _ => cases hi
  | cons n ds ih =>
    revert h
    change List (Nest α ds.length) at x
    rintro ⟨h1, h2⟩
    have hlen : ∀ y ∈ x, (Nest.flat ds.length y).length = numel ds := fun y hy => (ih y (h2 y hy)).1
    constructor
    · show (List.flatMap (Nest.flat ds.length) x).length = _
      rw [flatMap_length hlen, h1]; rfl
    · intro idx hi
      cases idx with
      | nil => cases hi
      | cons i is =>
        obtain ⟨hi1, hi2⟩ := hi
        have hi' : i < x.length := by rw [h1]; exact hi1
        have e : nthOf x i = some (x[i]) := List.getElem?_eq_getElem hi'
        show (List.flatMap (Nest.flat ds.length) x)[i * numel ds + rowMajor ds is]? =
          (nthOf x i).bind fun y => nestGet ds.length y is
        rw [flatMap_get hlen hi' (rowMajor_lt hi2), e]
        exact (ih _ (h2 _ (List.getElem_mem hi'))).2 is hi2

/-- Rect nested vectors with the same entries are equal. -/
theorem nest_ext (d : List Nat) (x y : Nest α d.length) (hx : Rect d x) (hy : Rect d y)
    (h : ∀ idx, InRange idx d → nestGet _ x idx = nestGet _ y idx) : x = y := by
  induction d with
  | nil => exact Option.some.inj (h [] trivial)
  | cons n ds ih =>
    revert hx hy h
    change List (Nest α ds.length) at x y
    rintro ⟨h1, h2⟩ ⟨g1, g2⟩ h
    refine List.ext_getElem (l₁ := x) (l₂ := y) (by omega) fun i hi hi' => ?_
    refine ih _ _ (h2 _ (List.getElem_mem hi)) (g2 _ (List.getElem_mem hi')) fun is his => ?_
    have := h (i :: is) ⟨by omega, his⟩
    have e1 : nthOf x i = some x[i] := List.getElem?_eq_getElem hi
    have e2 : nthOf y i = some y[i] := List.getElem?_eq_getElem hi'
    change ((nthOf x i).bind fun z => nestGet ds.length z is) = (nthOf y i).bind fun z => nestGet ds.length z is at this
    rw [e1, e2] at this
    exact this

theorem build_ok (data : List α) (d : List Nat) (hd : d ≠ []) (start : Nat) (h : start + numel d ≤ data.length) :
    ∃ v, Nest.build data d start = .ok v ∧ Rect d v ∧
      ∀ idx, InRange idx d → nestGet _ v idx = data[start + rowMajor d idx]? := by
  match d with
  | [n] =>
    simp only [numel, Nat.mul_one] at h
    refine ⟨(data.drop start).take n, sliceR_ok h, ⟨?_, fun _ _ => trivial⟩, fun idx hi => ?_⟩
    · show ((data.drop start).take n).length = n
      simp; omega
    · match idx, hi with
      | [i], ⟨hi, _⟩ =>
        show (((data.drop start).take n)[i]?).bind (fun y => some y) = _
        rw [Option.bind_fun_some, List.getElem?_take, if_pos hi, List.getElem?_drop]
        simp [rowMajor, numel]
  | n :: m :: ds =>
    have hex : ∀ i, i < n → ∃ v, Nest.build data (m :: ds) (start + i * shapeSize (m :: ds)) = .ok v ∧ Rect (m :: ds) v ∧
        ∀ idx, InRange idx (m :: ds) → nestGet _ v idx = data[start + i * numel (m :: ds) + rowMajor (m :: ds) idx]? := by
      intro i hi
      rw [shapeSize_eq]
      refine build_ok data (m :: ds) (by simp) _ ?_
      have : (i + 1) * numel (m :: ds) ≤ n * numel (m :: ds) := Nat.mul_le_mul_right _ hi
      rw [Nat.succ_mul] at this
      have e : numel (n :: m :: ds) = n * numel (m :: ds) := rfl
      omega
    obtain ⟨zs, hz, hv⟩ := exists_list n hex
    refine ⟨zs, ?_, ⟨hz, fun y hy => ?_⟩, fun idx hi => ?_⟩
    · exact runLoop_list hz fun i hi => (hv i hi).1
    · obtain ⟨i, hi, rfl⟩ := List.mem_iff_getElem.mp hy
      exact (hv i hi).2.1
    · match idx, hi with
      | i :: is, ⟨hi, his⟩ =>
        have e : nthOf zs i = some zs[i] := List.getElem?_eq_getElem (by omega)
        show (nthOf zs i).bind (fun y => nestGet _ y is) = _
        rw [e, Option.bind_some, (hv i (by omega)).2.2 is his, rowMajor, Nat.add_assoc]
termination_by d.length

theorem ofFlat_ok (data : List α) (d : List Nat) (hd : d ≠ []) (h : data.length = numel d) :
    ∃ v, Nest.ofFlat data d = .ok v ∧ Rect d v ∧ ∀ idx, InRange idx d → nestGet _ v idx = data[rowMajor d idx]? := by
  match d with
  | [n] =>
    refine ⟨data, rfl, ⟨by simp only [numel, Nat.mul_one] at h; exact h, fun _ _ => trivial⟩, fun idx hi => ?_⟩
    match idx, hi with
    | [i], _ =>
      show (data[i]?).bind (fun y => some y) = _
      rw [Option.bind_fun_some]
      simp [rowMajor, numel]
  | n :: m :: ds =>
    obtain ⟨v, h1, h2, h3⟩ := build_ok data (n :: m :: ds) hd 0 (by omega)
    exact ⟨v, h1, h2, fun idx hi => by rw [h3 idx hi, Nat.zero_add]⟩

/-! ## Shapes -/

theorem firstLens_ok (d : List Nat) (x : Nest α d.length) (h : Rect d x) (hp : ∀ n ∈ d.dropLast, 0 < n) :
    Nest.firstLens _ x = .ok d := by
  match d with
  | [] => rfl
  | [n] => exact congrArg (fun a => Res.ok [a]) h.1
  | n :: m :: ds =>
    obtain ⟨h1, h2⟩ := h
    have hn : 0 < n := hp n (by simp)
    match x with
    | [] => exact absurd h1 (by show ¬ 0 = n; omega)
    | y :: ys =>
      have := firstLens_ok (m :: ds) y (h2 y (by simp)) (fun k hk => hp k (by simp [hk]))
      show (Nest.firstLens _ y).bind _ = _
      rw [this]
      exact congrArg (fun a => Res.ok (a :: m :: ds)) h1
termination_by d.length

theorem vecShape_ok (d : List Nat) (x : Nest α d.length) (h : Rect d x) (hp : ∀ n ∈ d.dropLast, 0 < n) :
    Nest.vecShape _ x = .ok d := by
  match d with
  | [] => rfl
  | n :: ds =>
    match x, h with
    | [], ⟨h1, _⟩ =>
      match ds with
      | [] => exact congrArg (fun a => Res.ok [a]) h1
      | m :: ds => exact absurd h1 (by have := hp n (by simp); show ¬ 0 = n; omega)
    | y :: ys, h => exact firstLens_ok (n :: ds) (y :: ys : List _) h hp

theorem sliceShape_ok (d : List Nat) (x : Nest α d.length) (h : Rect d x) (hp : ∀ n ∈ d.dropLast, 0 < n) :
    Nest.sliceShape _ x = d := by
  match d with
  | [] => rfl
  | n :: ds =>
    match x, h with
    | [], ⟨h1, _⟩ =>
      match ds with
      | [] => exact congrArg (fun a => [a]) h1
      | m :: ds => exact absurd h1 (by have := hp n (by simp); show ¬ 0 = n; omega)
    | y :: ys, ⟨h1, h2⟩ =>
      have := sliceShape_ok ds y (h2 y (by simp)) (by
        intro k hk
        cases ds with
        | nil => simp at hk
        | cons m ds => exact hp k (by simp [hk]))
      show (y :: ys).length :: Nest.sliceShape _ y = _
      rw [this]
      exact congrArg (fun a => a :: ds) h1
termination_by d.length

/-! ## The property -/

theorem ofData_ok (d : List Nat) (x : Nest α d.length) (h : Rect d x) :
    ∃ t, Tensor.ofData (.ok d) (Nest.flat _ x) = .ok t ∧ t.WF ∧ t.dims = d ∧ t.storage.length = numel d ∧
      t.layout.isContiguous = true ∧ ∀ idx, InRange idx d → t.elem idx = nestGet _ x idx := by
  obtain ⟨f1, f2⟩ := flat_ok d x h
  refine ⟨⟨_, Layout.fromShape d⟩, rfl, fresh_wf f1.symm, rfl, f1, isContiguous_computeStrides _ _, fun idx hi => ?_⟩
  simp only [Layout.fromShape, elem_rowMajor]
  rw [Nat.zero_add]
  exact f2 idx hi

/-- **C97, nested arrays in**: a tensor made of a regular nested vector, slice of slices or array has its lengths as shape and its
entries as elements, for every depth.  Missing: a size zero other than the last (`C97_empty_false`); nested vectors that are not
regular are not rejected (`C97_full_false`). -/
theorem C97_new_partial {d : List Nat} {x : Nest α d.length} (h : Rect d x) (hp : ∀ n ∈ d.dropLast, 0 < n) :
    ∃ t, Tensor.newVec _ x = .ok t ∧ Tensor.newSlices _ x = .ok t ∧ Tensor.newArray d x = .ok t ∧ t.WF ∧ t.dims = d ∧
      ∀ idx, InRange idx d → t.elem idx = nestGet _ x idx := by
  obtain ⟨t, h1, h2, h3, _, _, h4⟩ := ofData_ok d x h
  refine ⟨t, ?_, ?_, h1, h2, h3, h4⟩
  · rw [Tensor.newVec, vecShape_ok d x h hp, h1]
  · rw [Tensor.newSlices, sliceShape_ok d x h hp, h1]

/-- Arrays know their lengths, so that sizes zero are right everywhere. -/
theorem C97_new_array {d : List Nat} {x : Nest α d.length} (h : Rect d x) :
    ∃ t, Tensor.newArray d x = .ok t ∧ t.WF ∧ t.dims = d ∧ ∀ idx, InRange idx d → t.elem idx = nestGet _ x idx := by
  obtain ⟨t, h1, h2, h3, _, _, h4⟩ := ofData_ok d x h
  exact ⟨t, h1, h2, h3, h4⟩

/-- **C97, `from_slice`**: data of the right size is laid out row by row in the given shape, and other sizes are rejected. -/
theorem C97_from_slice {d e : List Nat} {x : Nest α d.length} (h : Rect d x) (hp : ∀ n ∈ d.dropLast, 0 < n) :
    (numel e = numel d → ∃ t, Tensor.fromNested (Nest.vecShape _ x) (Nest.flat _ x) e = .ok t ∧ t.WF ∧ t.dims = e ∧
      ∀ i, i < numel e → t.elem (unravel e i) = nestGet _ x (unravel d i)) ∧
    (numel e ≠ numel d → Tensor.fromNested (Nest.vecShape _ x) (Nest.flat _ x) e = .err) := by
  obtain ⟨f1, f2⟩ := flat_ok d x h
  unfold Tensor.fromNested
  rw [vecShape_ok d x h hp]
  simp only [Res.ok_bind, shapeSize_eq]
  constructor
  · intro he
    rw [if_neg (by simpa using he)]
    refine ⟨⟨_, Layout.fromShape e⟩, rfl, fresh_wf (by rw [f1, he]), rfl, fun i hi => ?_⟩
    simp only [Layout.fromShape, elem_rowMajor]
    rw [Nat.zero_add, rowMajor_unravel hi, ← f2 _ (unravel_inRange (by omega)), rowMajor_unravel (by omega)]
  · intro he
    rw [if_pos he]

/-- **C97, nested vectors out**: whenever the flat read is right (see C14), `to_vec1d` to `to_vec8d` give a regular nested vector of
the elements. -/
theorem C97_read_partial {t : Tensor α} {xs : List α} (hx : t.HasValues xs) (hf : t.toFlattenVec = xs) (hd : t.dims ≠ []) :
    ∃ v, t.toVec t.dims.length = .ok v ∧ Rect t.dims v ∧ ∀ idx, InRange idx t.dims → nestGet _ v idx = t.elem idx := by
  obtain ⟨v, h1, h2, h3⟩ := ofFlat_ok t.toFlattenVec t.dims hd (by rw [hf, hx.1])
  refine ⟨v, ?_, h2, fun idx hi => ?_⟩
  · unfold Tensor.toVec
    rw [dif_pos rfl]
    exact h1
  · rw [h3 idx hi, hf, hx.2 idx hi]

/-- Another depth is an error. -/
theorem C97_read_rank {t : Tensor α} {k : Nat} (h : t.dims.length ≠ k) : t.toVec k = .err := by
  unfold Tensor.toVec
  rw [dif_neg h]

/-- **C97, in and out**: what goes in comes out. -/
theorem C97_roundtrip {d : List Nat} {x : Nest α d.length} (h : Rect d x) (hp : ∀ n ∈ d.dropLast, 0 < n) (hd : d ≠ []) :
    ∃ t, Tensor.newVec _ x = .ok t ∧ t.toVec d.length = .ok x := by
  obtain ⟨t, h1, h2, h3, h4, h5, h6⟩ := ofData_ok d x h
  refine ⟨t, by rw [Tensor.newVec, vecShape_ok d x h hp, h1], ?_⟩
  subst h3
  obtain ⟨xs, hx⟩ := h2.hasValues
  obtain ⟨v, v1, v2, v3⟩ := C97_read_partial hx (C14_flatten_partial h2 hx (.inl ⟨h5, h4⟩)) hd
  rw [v1]
  congr 1
  exact nest_ext _ _ _ v2 h fun idx hi => by rw [v3 idx hi, h6 idx hi]

/-! ## What is false -/

/-- **C97, full claim** (false): a nested vector is either rejected or becomes a tensor that holds exactly its entries. -/
def C97_full (α : Type) : Prop :=
  ∀ (k : Nat) (x : Nest α k) (t : Tensor α), Tensor.newVec k x = .ok t →
    ∃ h : t.dims.length = k, Rect t.dims (h ▸ x)

/-- Ragged vectors are accepted: `[[1, 2], [3]]` becomes a 2 by 2 matrix over three elements, `[[1], [2, 3]]` a 2 by 1 matrix that
still returns three elements when read back as a flat vector. -/
theorem C97_full_false : ¬ C97_full Nat ∧
    (∃ t, Tensor.newVec 2 ([[1, 2], [3]] : List (List Nat)) = .ok t ∧ t.dims = [2, 2] ∧ t.elem [1, 1] = none) ∧
    (∃ t, Tensor.newVec 2 ([[1], [2, 3]] : List (List Nat)) = .ok t ∧ t.dims = [2, 1] ∧ t.toFlattenVec = [1, 2, 3]) ∧
    (∃ t, Tensor.fromNested (Nest.vecShape 2 ([[1, 2], [3]] : List (List Nat))) [1, 2, 3] [4] = .ok t ∧ t.elem [3] = none) := by
  refine ⟨fun h => ?_, ⟨⟨[1, 2, 3], ⟨[2, 2], [2, 1], 0⟩⟩, by decide +kernel⟩,
    ⟨⟨[1, 2, 3], ⟨[2, 1], [1, 1], 0⟩⟩, by decide +kernel⟩, ⟨⟨[1, 2, 3], ⟨[4], [1], 0⟩⟩, by decide +kernel⟩⟩
  obtain ⟨_, _, h2⟩ := h 2 ([[1, 2], [3]] : List (List Nat)) ⟨[1, 2, 3], ⟨[2, 2], [2, 1], 0⟩⟩ (by decide +kernel)
  exact absurd (h2 ([3] : List Nat) (show ([3] : List Nat) ∈ ([[1, 2], [3]] : List (List Nat)) by simp)).1 (by decide)

/-- A vector of one empty matrix panics; slices of the same content report the shape `[1, 0, 0]`. -/
theorem C97_empty_false :
    Tensor.newVec 3 ([[]] : List (List (List Nat))) = .panic ∧
    (∃ t, Tensor.newSlices 3 ([[]] : List (List (List Nat))) = .ok t ∧ t.dims = [1, 0, 0]) :=
  ⟨by decide +kernel, ⟨⟨[], ⟨[1, 0, 0], [0, 0, 1], 0⟩⟩, by decide +kernel⟩⟩

/-- Reading a slice of a vector returns the whole vector (C14), and of the second row of a matrix the first one. -/
theorem C97_read_false :
    (∃ t, (⟨[1, 2, 3, 4], Layout.fromShape [4]⟩ : Tensor Nat).slice 0 1 (some 3) 1 = .ok t ∧ t.elem [0] = some 2 ∧
      t.toVec 1 = .ok ([1, 2, 3, 4] : List Nat)) ∧
    (∃ t, (⟨[1, 2, 3, 4], Layout.fromShape [2, 2]⟩ : Tensor Nat).slice 0 1 (some 2) 1 = .ok t ∧ t.elem [0, 0] = some 3 ∧
      t.toVec 2 = .ok ([[1, 2]] : List (List Nat))) :=
  ⟨⟨⟨[1, 2, 3, 4], ⟨[2], [1], 1⟩⟩, by decide +kernel⟩, ⟨⟨[1, 2, 3, 4], ⟨[1, 2], [2, 1], 2⟩⟩, by decide +kernel⟩⟩

/-! ## Non-vacuity -/

/-- A regular array of shape `[2, 1, 3]`. -/
example : Rect [2, 1, 3] ([[[1, 2, 3]], [[4, 5, 6]]] : List (List (List Nat))) ∧ (∀ n ∈ [2, 1, 3].dropLast, 0 < n) ∧
    nestGet 3 ([[[1, 2, 3]], [[4, 5, 6]]] : List (List (List Nat))) [1, 0, 2] = some 6 := by
  refine ⟨⟨rfl, fun y hy => ⟨?_, fun z hz => ⟨?_, fun _ _ => trivial⟩⟩⟩, by decide, rfl⟩
  · fin_cases hy <;> rfl
  · fin_cases hy <;> fin_cases hz <;> rfl

/-- Reading a transposed matrix. -/
example : (⟨[1, 2, 3, 4, 5, 6], ⟨[3, 2], [1, 3], 0⟩⟩ : Tensor Nat).toVec 2 = .ok ([[1, 4], [2, 5], [3, 6]] : List (List Nat)) := by
  decide +kernel

end Hodu
