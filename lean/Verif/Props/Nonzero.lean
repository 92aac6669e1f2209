import Verif.Model.Select
import Verif.Lemmas.Conv
import Verif.Props.Indexing

/-!
# C63: nonzero

The rows of the result are the indices of the non-zero elements, each once, in row-major order.
-/

namespace Hodu
open Spec

/-! ## Specification -/

/-- The indices of the elements satisfying `nz`, in row-major order. -/
def Spec.hitIndices (nz : α → Bool) (t : Tensor α) : List (List Nat) :=
  (indices t.dims).filter fun idx => (t.elem idx).any nz

/-- `y` lists `rows`. -/
def Spec.Lists (y : Tensor Int) (rank : Nat) (rows : List (List Nat)) : Prop :=
  y.WF ∧ y.dims = [rows.length, rank] ∧
    ∀ (r : Nat) (row : List Nat), rows[r]? = some row → ∀ (c x : Nat), row[c]? = some x →
      y.elem [r, c] = some (x : Int)

/-- The full claim. -/
def Spec.NonzeroCorrect (α : Type) : Prop :=
  ∀ (nz : α → Bool) (t : Tensor α), t.WF →
    ∃ y, t.nonzero nz = .ok y ∧ Lists y t.dims.length (hitIndices nz t)

/-! ## Lemmas -/

theorem decodeStrided_stridedMetadata {l : Layout} (hl : l.strides.length = l.dims.length) :
    decodeStrided (stridedMetadata l) = .ok ⟨l.size, l.dims, l.strides, l.offset⟩ := by
  unfold stridedMetadata
  rw [show [l.size, l.ndim] ++ l.dims ++ l.strides ++ [l.offset] =
    l.size :: l.dims.length :: (l.dims ++ (l.strides ++ [l.offset])) by simp [Layout.ndim]]
  generalize hmd : (l.size :: l.dims.length :: (l.dims ++ (l.strides ++ [l.offset]))) = md
  have a0 : At md 0 (l.size :: l.dims.length :: (l.dims ++ (l.strides ++ [l.offset]))) := by
    rw [hmd]; exact At.start md
  have a1 := a0.next 1 rfl
  have a2 := a1.next 2 rfl
  have a3 := a2.skip rfl (2 + l.dims.length) rfl
  have a4 := a3.skip hl (2 + 2 * l.dims.length) (by omega)
  unfold decodeStrided
  rw [a0.read, Res.ok_bind, a1.read, Res.ok_bind, a2.slice rfl, Res.ok_bind, a3.slice hl, Res.ok_bind,
    a4.read, Res.ok_bind]

/-- The strided read of the kernels delivers the element at the row-major position. -/
theorem stridedRead_eq {t : Tensor α} {i : Nat} {v : α} (n : Nat) (hi : i < numel t.dims)
    (hv : t.elem (unravel t.dims i) = some v) :
    stridedRead t.storage ⟨n, t.dims, t.layout.strides, t.layout.offset⟩ i = .ok v := by
  unfold stridedRead
  simp only
  rw [cUnravel_eq, Nat.mod_eq_of_lt hi]
  exact readC_elem hv

/-- A loop that appends a block for every position satisfying `p`. -/
theorem foldL_appendIf {f : List β → Nat → Res (List β)} {p : Nat → Bool} {g : Nat → List β} (ids : List Nat)
    (h : ∀ i ∈ ids, ∀ out, f out i = .ok (if p i then out ++ g i else out)) (out : List β) :
    Res.foldL f out ids = .ok (out ++ (ids.filter p).flatMap g) := by
  induction ids generalizing out with
  | nil => simp [Res.foldL]
  | cons i ids ih =>
    rw [Res.foldL, h i (by simp), Res.ok_bind, ih (fun j hj => h j (by simp [hj]))]
    cases hp : p i <;> simp [hp]

theorem foldL_countIf {f : Nat → Nat → Res Nat} {p : Nat → Bool} (ids : List Nat)
    (h : ∀ i ∈ ids, ∀ c, f c i = .ok (if p i then c + 1 else c)) (c : Nat) :
    Res.foldL f c ids = .ok (c + (ids.filter p).length) := by
  induction ids generalizing c with
  | nil => simp [Res.foldL]
  | cons i ids ih =>
    rw [Res.foldL, h i (by simp), Res.ok_bind, ih (fun j hj => h j (by simp [hj]))]
    cases hp : p i <;> simp [hp]
    omega

/-- Blocks of equal length `n`: the element `c` of block `r` is at `r * n + c`. -/
theorem getElem?_blocks {rows : List (List β)} {n : Nat} (h : ∀ r ∈ rows, r.length = n) {r c : Nat}
    {row : List β} (hr : rows[r]? = some row) (hc : c < n) :
    (rows.flatMap id)[r * n + c]? = row[c]? := by
  induction rows generalizing r with
  | nil => simp at hr
  | cons a rows ih =>
    rw [List.flatMap_cons]
    have ha := h a (by simp)
    cases r with
    | zero =>
      simp only [List.getElem?_cons_zero, Option.some.injEq] at hr
      subst hr
      rw [List.getElem?_append_left (by simp [ha]; omega)]
      simp
    | succ r =>
      rw [List.getElem?_cons_succ] at hr
      rw [List.getElem?_append_right (by simp [ha]; rw [Nat.succ_mul]; omega)]
      rw [← ih (fun x hx => h x (by simp [hx])) hr]
      congr 1
      simp only [id, ha, Nat.succ_mul]
      omega

theorem castI32_of_lt {n : Nat} (h : n < 2 ^ 31) : castI32 n = n := by unfold castI32; omega

/-! ## C63 -/

/-- **C63**, for every layout, up to rank 32 and sizes up to `2^31`.  Missing, and false: higher ranks
(`C63_rank_ub`), larger sizes (indices are stored in 32 bits). -/
theorem C63_nonzero_partial {t : Tensor α} (nz : α → Bool) (ht : t.WF) (hr : t.dims.length ≤ 32)
    (hd : ∀ n ∈ t.dims, n ≤ 2 ^ 31) :
    ∃ y, t.nonzero nz = .ok y ∧ Lists y t.dims.length (hitIndices nz t) := by
  let q : Nat → Bool := fun i => (t.elem (unravel t.dims i)).any nz
  have hsz : t.layout.size = numel t.dims := shapeSize_eq _
  have hdec := decodeStrided_stridedMetadata (l := t.layout) ht.1
  have hval : ∀ i ∈ List.range (numel t.dims), ∃ v, t.elem (unravel t.dims i) = some v ∧
      (∀ n, stridedRead t.storage ⟨n, t.dims, t.layout.strides, t.layout.offset⟩ i = .ok v) ∧
      q i = nz v := by
    intro i hi
    rw [List.mem_range] at hi
    obtain ⟨v, hv⟩ := ht.get (unravel_inRange hi)
    exact ⟨v, hv, fun n => stridedRead_eq n hi hv, by simp [q, hv]⟩
  have hrows : hitIndices nz t = ((List.range (numel t.dims)).filter q).map (unravel t.dims) := by
    unfold hitIndices indices
    rw [List.filter_map]
    rfl
  have hcount : nonzeroCount nz t.storage (stridedMetadata t.layout) = .ok (hitIndices nz t).length := by
    unfold nonzeroCount
    rw [hdec, Res.ok_bind]
    show Res.foldL _ 0 (List.range t.layout.size) = _
    rw [hsz, foldL_countIf (p := q) _ (fun i hi c => by
      obtain ⟨v, _, h2, h3⟩ := hval i hi
      rw [h3]
      exact congrArg (fun r => Res.bind r fun v => Res.ok (if nz v = true then c + 1 else c)) (h2 _))]
    rw [hrows, List.length_map, Nat.zero_add]
  let rows : List (List Int) := (hitIndices nz t).map fun r => r.map fun x : Nat => (x : Int)
  have hin : ∀ r ∈ hitIndices nz t, InRange r t.dims := fun r h =>
    mem_indices.mp (List.mem_filter.mp h).1
  have hlen : ∀ r ∈ rows, r.length = t.dims.length := by
    intro r h
    simp only [rows, List.mem_map] at h
    obtain ⟨x, hx, rfl⟩ := h
    rw [List.length_map, (hin x hx).length]
  have hflen : (rows.flatMap id).length = (hitIndices nz t).length * t.dims.length := by
    rw [flatMap_length (f := id) hlen]
    simp [rows]
  have hfill : nonzeroFill nz t.storage (stridedMetadata t.layout)
      ((hitIndices nz t).length * t.layout.ndim) = .ok (rows.flatMap id) := by
    unfold nonzeroFill
    rw [hdec, Res.ok_bind]
    show (Res.foldL _ [] (List.range t.layout.size)).bind _ = _
    rw [hsz, foldL_appendIf (p := q) (g := fun i => (unravel t.dims i).map fun x : Nat => (x : Int)) _
      (fun i hi out => by
        obtain ⟨v, h1, h2, h3⟩ := hval i hi
        unfold nonzeroStep
        simp only
        rw [if_neg (by show ¬ 32 < t.dims.length; omega), h2, Res.ok_bind, h3]
        rw [List.mem_range] at hi
        have hu := unravel_inRange hi
        rw [cUnravel_eq, Nat.mod_eq_of_lt hi]
        have : (unravel t.dims i).map castI32 = (unravel t.dims i).map fun x : Nat => (x : Int) := by
          apply List.map_congr_left
          intro x hx
          obtain ⟨k, hk⟩ := List.mem_iff_getElem?.mp hx
          rw [inRange_iff] at hu
          have hk' : k < (unravel t.dims i).length := by
            rw [List.getElem?_eq_some_iff] at hk; exact hk.1
          have hk2 : k < t.dims.length := by rw [← hu.1]; exact hk'
          have h4 := hu.2 k hk' hk2
          have h5 := hd _ (List.getElem_mem hk2)
          rw [List.getElem?_eq_getElem hk', Option.some.injEq] at hk
          exact castI32_of_lt (by omega)
        rw [this]), Res.ok_bind]
    have : (List.filter q (List.range (numel t.dims))).flatMap
        (fun i => (unravel t.dims i).map fun x : Nat => (x : Int)) = rows.flatMap id := by
      simp only [rows, hrows, List.map_map, List.flatMap_map]
      rfl
    rw [List.nil_append, this, if_pos]
    rw [hflen]
  have helem : ∀ (r : Nat) (row : List Nat), (hitIndices nz t)[r]? = some row →
      ∀ (c x : Nat), row[c]? = some x →
      Tensor.elem ⟨rows.flatMap id, Layout.fromShape [(hitIndices nz t).length, t.dims.length]⟩ [r, c] =
        some (x : Int) := by
    intro r row hr' c x hc
    have hrl : row.length = t.dims.length := (hin row (List.mem_of_getElem? hr')).length
    have hc' : c < row.length := by rw [List.getElem?_eq_some_iff] at hc; exact hc.1
    rw [Layout.fromShape, elem_rowMajor, Nat.zero_add]
    simp only [rowMajor, numel, Nat.mul_one, Nat.add_zero]
    rw [getElem?_blocks (n := t.dims.length) hlen (row := row.map fun x : Nat => (x : Int))
      (by simp [rows, hr']) (by omega)]
    simp [hc]
  refine ⟨⟨rows.flatMap id, Layout.fromShape [(hitIndices nz t).length, t.dims.length]⟩, ?_,
    ⟨computeStrides_length _, ?_⟩, rfl, helem⟩
  · unfold Tensor.nonzero
    simp only [hcount, Res.ok_bind]
    split
    · rename_i h0
      have : rows.flatMap id = [] := List.length_eq_zero_iff.mp (by rw [hflen, h0, Nat.zero_mul])
      rw [Res.ok_bind, this]
    · rw [hfill, Res.ok_bind]
  · intro idx hi
    match idx, hi with
    | [r, c], hi =>
      obtain ⟨h1, h2, _⟩ := hi
      have hrow : (hitIndices nz t)[r]? = some ((hitIndices nz t)[r]'h1) := List.getElem?_eq_getElem h1
      have hl := (hin _ (List.getElem_mem h1)).length
      rw [helem r _ hrow c _ (List.getElem?_eq_getElem (by rw [hl]; exact h2))]
      rfl

/-- A row of the result is the index of a non-zero element, and every such index is a row, once. -/
theorem C63_rows {t : Tensor α} (nz : α → Bool) (idx : List Nat) :
    (idx ∈ hitIndices nz t ↔ InRange idx t.dims ∧ ∃ v, t.elem idx = some v ∧ nz v = true) ∧
      (hitIndices nz t).Nodup := by
  refine ⟨?_, (indices_nodup _).filter _⟩
  unfold hitIndices
  rw [List.mem_filter, mem_indices, Option.any_eq_true]

/-! ### Concrete case -/

/-- A transposed 2×3 matrix. -/
example : let t : Tensor Int := ⟨[0, 1, 0, 2, 0, 3], ⟨[3, 2], [1, 3], 0⟩⟩
    hitIndices (· != 0) t = [[0, 1], [1, 0], [2, 1]] ∧
    (t.nonzero (· != 0)).map (·.storage) = .ok [0, 1, 1, 0, 2, 1] := by decide +kernel

/-! ## The full claim is false -/

/-- Rank 33 overruns the index array of the kernel. -/
theorem C63_rank_ub :
    (⟨[1], Layout.fromShape (List.replicate 33 1)⟩ : Tensor Nat).nonzero (· != 0) = .ub := by decide +kernel

theorem C63_full_false : ¬ Spec.NonzeroCorrect Nat := by
  intro h
  obtain ⟨y, h1, _⟩ := h (· != 0) ⟨[1], Layout.fromShape (List.replicate 33 1)⟩ (fresh_wf (by decide))
  rw [C63_rank_ub] at h1
  cases h1

end Hodu
