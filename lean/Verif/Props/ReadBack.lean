import Verif.Lemmas.ReadBack
import Verif.Props.Elementwise

/-!
# Properties C14, C15: reading tensors back, raw bytes and the .hdt format
-/

namespace Hodu
open Spec

/-! ## C14 -/

/-- The full claim: reading back lists the elements in row-major order, whatever element type is
requested. -/
def C14_full : Prop :=
  ∀ (t : Tensor Nat) (xs : List Nat), t.WF → t.HasValues xs →
    t.toFlattenVec = xs ∧
    ∀ (cores fill : Nat) (cast : Nat → Nat), t.toFlattenVecCast cores cast fill = .ok (xs.map cast)

/-- **C14 is false of the code.**  (1) The contiguous slice `[0,1,2,3][1:3]` reads back as
`[0,1,2,3]`.  (2) The column slice `[[0,1,2],[3,4,5]][:,1:3]` reads back as `[0,1,3,4]` instead of
`[1,2,4,5]`.  (3) The transpose of `[[0,1,2],[3,4,5]]`, read with another element type, comes back as
`[0,4,3,2,1,5]` instead of `[0,3,1,4,2,5]`: the layout is applied twice. -/
theorem C14_full_false : ¬ C14_full ∧
    (∃ s, (⟨[0, 1, 2, 3], Layout.fromShape [4]⟩ : Tensor Nat).slice 0 1 (some 3) 1 = .ok s ∧
      s.dims = [2] ∧ s.elem [0] = some 1 ∧ s.elem [1] = some 2 ∧ s.toFlattenVec = [0, 1, 2, 3]) ∧
    (∃ s, (⟨[0, 1, 2, 3, 4, 5], Layout.fromShape [2, 3]⟩ : Tensor Nat).slice 1 1 (some 3) 1 = .ok s ∧
      s.elem [0, 0] = some 1 ∧ s.toFlattenVec = [0, 1, 3, 4]) ∧
    (∃ s, (⟨[0, 1, 2, 3, 4, 5], Layout.fromShape [2, 3]⟩ : Tensor Nat).transpose 0 1 = .ok s ∧
      s.elem [0, 1] = some 3 ∧ s.toFlattenVec = [0, 3, 1, 4, 2, 5] ∧
      s.toFlattenVecCast 1 (fun x => x) 0 = .ok [0, 4, 3, 2, 1, 5]) := by
  refine ⟨?_, ⟨⟨[0, 1, 2, 3], ⟨[2], [1], 1⟩⟩, by decide +kernel⟩,
    ⟨⟨[0, 1, 2, 3, 4, 5], ⟨[2, 2], [3, 1], 1⟩⟩, by decide +kernel⟩,
    ⟨⟨[0, 1, 2, 3, 4, 5], ⟨[3, 2], [1, 3], 0⟩⟩, by decide +kernel⟩⟩
  intro h
  have hv : ∀ idx, InRange idx [2] → ([1, 2] : List Nat)[rowMajor [2] idx]? =
      Tensor.elem (⟨[0, 1, 2, 3], ⟨[2], [1], 1⟩⟩ : Tensor Nat) idx := by
    intro idx hi
    match idx, hi with
    | [0], _ => decide
    | [1], _ => decide
    | [k + 2], hi => exact absurd hi.1 (by omega)
  obtain ⟨h, _⟩ := h ⟨[0, 1, 2, 3], ⟨[2], [1], 1⟩⟩ [1, 2]
    ⟨rfl, fun idx hi => by
      rw [← hv idx hi]
      match idx, hi with
      | [0], _ => decide
      | [1], _ => decide
      | [k + 2], hi => exact absurd hi.1 (by omega)⟩ ⟨rfl, hv⟩
  exact absurd h (by decide +kernel)

/-- **C14, what holds.**  Reading back is right for every tensor with general strides and offset 0,
and for every contiguous tensor that covers its whole buffer.
Missing from the full claim: views with an offset, contiguous views of a larger buffer. -/
theorem C14_flatten_partial {t : Tensor α} {xs : List α} (ht : t.WF) (hx : t.HasValues xs)
    (h : (t.layout.isContiguous = true ∧ t.storage.length = numel t.dims) ∨
      (t.layout.isContiguous = false ∧ t.layout.offset = 0)) :
    t.toFlattenVec = xs := by
  rcases h with ⟨h1, h2⟩ | ⟨h1, h2⟩
  · rw [Tensor.toFlattenVec, extractWithLayout, if_pos h1, storage_eq_values ht hx h1 h2]
  · exact extractWithLayout_noncontig hx h1 h2

/-- C14 on a transposed matrix and on a broadcast row. -/
example :
    let t : Tensor Nat := ⟨[0, 1, 2, 3, 4, 5], ⟨[3, 2], [1, 3], 0⟩⟩
    let b : Tensor Nat := ⟨[7, 8], ⟨[3, 2], [0, 1], 0⟩⟩
    t.layout.isContiguous = false ∧ t.toFlattenVec = [0, 3, 1, 4, 2, 5] ∧
    b.layout.isContiguous = false ∧ b.toFlattenVec = [7, 8, 7, 8, 7, 8] := by decide +kernel

/-- **C14, another element type, what holds**: reading with a cast is right for every contiguous
tensor, also one that is a slice of a larger buffer.
Missing: non-contiguous views (the layout is applied twice) and rank-0 views with an offset. -/
theorem C14_cast_partial {t : Tensor α} {xs : List α} (ht : t.WF) (hx : t.HasValues xs)
    (hc : t.layout.isContiguous = true) (h0 : t.dims ≠ [] ∨ t.layout.offset = 0)
    (cores : Nat) (cast : α → β) (fill : β) :
    t.toFlattenVecCast cores cast fill = .ok (xs.map cast) := by
  have hk := unaryKernel_ok (f := cast) ht hx h0 cores (List.replicate t.layout.size fill)
    (by simp [Layout.size, shapeSize_eq])
  simp [Tensor.toFlattenVecCast, hk, extractWithLayout, hc]

/-- C14 with a cast on the slice `[0,1,2,3][1:3]`. -/
example :
    let t : Tensor Nat := ⟨[0, 1, 2, 3], ⟨[2], [1], 1⟩⟩
    t.layout.isContiguous = true ∧ t.toFlattenVecCast 4 (· * 10) 0 = .ok [10, 20] := by
  decide +kernel

theorem sliceR_ok {data : List α} {s n : Nat} (h : s + n ≤ data.length) :
    sliceR data s n = .ok ((data.drop s).take n) := by simp [sliceR, h]

/-- **C14, nested vectors.**  Whenever the flat read is right, `to_vec2d` gives `rows` rows of
`cols` entries, entry `(i, j)` being the element at `[i, j]`. -/
theorem C14_vec2d_partial {t : Tensor α} {xs : List α} {rows cols : Nat} (hx : t.HasValues xs)
    (hf : t.toFlattenVec = xs) (hd : t.dims = [rows, cols]) :
    ∃ v, t.toVec2d = .ok v ∧ v.length = rows ∧ (∀ r ∈ v, r.length = cols) ∧
      ∀ i j, i < rows → j < cols → (v[i]?.bind fun r => r[j]?) = t.elem [i, j] := by
  obtain ⟨hl, hg⟩ := hx
  have hnum : numel t.dims = rows * cols := by rw [hd]; simp [numel]
  have hin : ∀ i, i < rows → i * cols + cols ≤ xs.length := by
    intro i hi
    rw [hl, hnum, ← Nat.succ_mul]
    exact Nat.mul_le_mul_right _ hi
  have hv : t.toVec2d = .ok ((List.range rows).map fun i => (xs.drop (i * cols)).take cols) := by
    unfold Tensor.toVec2d
    rw [hd]
    simp only
    apply Res.mapL_eq_ok_of
    intro i hi
    rw [hf, sliceR_ok (hin i (by simpa using hi))]
  refine ⟨_, hv, by simp, ?_, ?_⟩
  · intro r hr
    simp only [List.mem_map, List.mem_range] at hr
    obtain ⟨i, hi, rfl⟩ := hr
    have := hin i hi
    simp; omega
  · intro i j hi hj
    rw [← hg [i, j] (by rw [hd]; exact ⟨hi, hj, trivial⟩), hd]
    simp [hi, hj, rowMajor, numel]

/-- **C14, nested vectors of rank 3.** -/
theorem C14_vec3d_partial {t : Tensor α} {xs : List α} {d0 d1 d2 : Nat} (hx : t.HasValues xs)
    (hf : t.toFlattenVec = xs) (hd : t.dims = [d0, d1, d2]) :
    ∃ v, t.toVec3d = .ok v ∧ v.length = d0 ∧
      (∀ m ∈ v, m.length = d1 ∧ ∀ r ∈ m, r.length = d2) ∧
      ∀ i j k, i < d0 → j < d1 → k < d2 →
        (v[i]?.bind fun m => m[j]?.bind fun r => r[k]?) = t.elem [i, j, k] := by
  obtain ⟨hl, hg⟩ := hx
  have hnum : numel t.dims = d0 * (d1 * d2) := by rw [hd]; simp [numel]
  have hin : ∀ i j, i < d0 → j < d1 → i * (d1 * d2) + j * d2 + d2 ≤ xs.length := by
    intro i j hi hj
    have h1 : (j + 1) * d2 ≤ d1 * d2 := Nat.mul_le_mul_right _ hj
    have h2 : (i + 1) * (d1 * d2) ≤ d0 * (d1 * d2) := Nat.mul_le_mul_right _ hi
    rw [Nat.succ_mul] at h1 h2
    omega
  have hv : t.toVec3d = .ok ((List.range d0).map fun i => (List.range d1).map fun j =>
      (xs.drop (i * (d1 * d2) + j * d2)).take d2) := by
    unfold Tensor.toVec3d
    rw [hd]
    simp only
    apply Res.mapL_eq_ok_of
    intro i hi
    apply Res.mapL_eq_ok_of
    intro j hj
    rw [hf, sliceR_ok (hin i j (by simpa using hi) (by simpa using hj))]
  refine ⟨_, hv, by simp, ?_, ?_⟩
  · intro m hm
    simp only [List.mem_map, List.mem_range] at hm
    obtain ⟨i, hi, rfl⟩ := hm
    refine ⟨by simp, fun r hr => ?_⟩
    simp only [List.mem_map, List.mem_range] at hr
    obtain ⟨j, hj, rfl⟩ := hr
    have := hin i j hi hj
    simp; omega
  · intro i j k hi hj hk
    rw [← hg [i, j, k] (by rw [hd]; exact ⟨hi, hj, hk, trivial⟩), hd]
    simp [hi, hj, hk, rowMajor, numel, Nat.add_assoc]

/-- Nested reads of a transposed matrix and of a rank-3 tensor. -/
example :
    let t : Tensor Nat := ⟨[0, 1, 2, 3, 4, 5], ⟨[3, 2], [1, 3], 0⟩⟩
    let u : Tensor Nat := ⟨[0, 1, 2, 3, 4, 5, 6, 7], Layout.fromShape [2, 2, 2]⟩
    t.toVec2d = .ok [[0, 3], [1, 4], [2, 5]] ∧ t.toVec3d = .err ∧
    u.toVec3d = .ok [[[0, 1], [2, 3]], [[4, 5], [6, 7]]] := by decide +kernel

/-! ## C15 -/

/-- The full claim for raw bytes. -/
def C15_full : Prop :=
  ∀ (t : Tensor Nat) (dt : DType), t.WF → (∀ v ∈ t.storage, IsElement dt v) →
    ∃ bs u, t.toBytes dt = .ok bs ∧ Tensor.fromBytes bs t.dims dt = .ok u ∧ u.SameValues t

/-- **C15 is false of the code**: the slice `[0,1,2,3][1:3]` is contiguous, so all four elements are
written and reading two back is rejected. -/
theorem C15_full_false : ¬ C15_full ∧
    ∃ s bs, (⟨[0, 1, 2, 3], Layout.fromShape [4]⟩ : Tensor Nat).slice 0 1 (some 3) 1 = .ok s ∧
      s.toBytes .u8 = .ok bs ∧ bs = [0, 1, 2, 3] ∧ Tensor.fromBytes bs s.dims .u8 = .err ∧
      (hdtSerialize .u8 s).bind hdtDeserialize = .err := by
  refine ⟨?_, ⟨[0, 1, 2, 3], ⟨[2], [1], 1⟩⟩, [0, 1, 2, 3], by decide +kernel⟩
  intro h
  obtain ⟨bs, u, h1, h2, _⟩ := h ⟨[0, 1, 2, 3], ⟨[2], [1], 1⟩⟩ .u8
    ⟨rfl, fun idx hi => by
      match idx, hi with
      | [0], _ => decide
      | [1], _ => decide
      | [k + 2], hi => exact absurd hi.1 (by omega)⟩
    (by simp [IsElement, DType.sizeInBytes])
  have e : bs = [0, 1, 2, 3] := by
    have : Tensor.toBytes .u8 (⟨[0, 1, 2, 3], ⟨[2], [1], 1⟩⟩ : Tensor Nat) = .ok [0, 1, 2, 3] := by
      decide +kernel
    rw [this] at h1
    injection h1 with h1
    exact h1.symm
  subst e
  exact absurd h2 (by
    have : Tensor.fromBytes [0, 1, 2, 3] [2] .u8 = .err := by decide +kernel
    intro h
    rw [show (⟨[0, 1, 2, 3], ⟨[2], [1], 1⟩⟩ : Tensor Nat).dims = [2] from rfl, this] at h
    cases h)

theorem toBytes_eq {t : Tensor Nat} {xs : List Nat} (ht : t.WF) (hx : t.HasValues xs)
    (h : t.layout.isContiguous = true → t.storage.length = numel t.dims) (dt : DType) :
    t.toBytes dt = .ok (storageToBytes dt xs) := by
  unfold Tensor.toBytes
  by_cases hc : t.layout.isContiguous = true
  · rw [if_pos hc, storage_eq_values ht hx hc (h hc)]
  · rw [if_neg hc]
    obtain ⟨s, o, h1, h2, h3⟩ := contiguous_spec ht
    rcases h3 with ⟨h3, h4, _⟩ | ⟨_, _, h5⟩
    · subst h3
      rw [h1]
      simp only [Res.bind]
      congr 2
      apply List.ext_getElem?
      intro i
      by_cases hi : i < numel t.dims
      · have := h2 _ (unravel_inRange hi)
        rw [rowMajor_unravel hi, Nat.zero_add] at this
        rw [this, ← hx.2 _ (unravel_inRange hi), rowMajor_unravel hi]
      · rw [List.getElem?_eq_none (by omega), List.getElem?_eq_none (by rw [hx.1]; omega)]
    · exact absurd h5 hc

theorem values_mem {t : Tensor Nat} {xs : List Nat} (hx : t.HasValues xs) {P : Nat → Prop}
    (hv : ∀ v ∈ t.storage, P v) : ∀ v ∈ xs, P v := by
  intro v hm
  obtain ⟨i, hi, rfl⟩ := List.mem_iff_getElem.mp hm
  have := hx.get hi
  exact hv _ (List.mem_of_getElem? this)

theorem fromBytes_eq {dims xs : List Nat} {dt : DType} (hl : xs.length = numel dims)
    (hv : ∀ v ∈ xs, IsElement dt v) :
    Tensor.fromBytes (storageToBytes dt xs) dims dt = .ok ⟨xs, Layout.fromShape dims⟩ := by
  unfold Tensor.fromBytes
  rw [if_neg (by rw [storageToBytes_length, hl, shapeSize_eq]; simp), bytes_roundtrip hv]

theorem fresh_sameValues {t : Tensor α} {xs : List α} (hx : t.HasValues xs) :
    (⟨xs, Layout.fromShape t.dims⟩ : Tensor α).SameValues t := by
  refine ⟨rfl, fun idx hi => ?_⟩
  rw [Layout.fromShape, elem_rowMajor, Nat.zero_add]
  exact hx.2 idx hi

/-- **C15, what holds.**  `to_bytes` then `from_bytes` is the identity on shape and elements, for
every element type and every tensor that is not a contiguous view of a larger buffer (so also
transposed, broadcast and strided-slice views); the byte string has one entry per element byte.
Missing: contiguous views of a larger buffer. -/
theorem C15_bytes_partial {t : Tensor Nat} (ht : t.WF) (dt : DType)
    (hv : ∀ v ∈ t.storage, IsElement dt v)
    (h : t.layout.isContiguous = true → t.storage.length = numel t.dims) :
    ∃ bs u, t.toBytes dt = .ok bs ∧ bs.length = numel t.dims * dt.sizeInBytes ∧
      (∀ b ∈ bs, b < 256) ∧ Tensor.fromBytes bs t.dims dt = .ok u ∧ u.WF ∧ u.SameValues t := by
  obtain ⟨xs, hx⟩ := ht.hasValues
  have hv' := values_mem hx hv
  refine ⟨_, _, toBytes_eq ht hx h dt, ?_, ?_, fromBytes_eq hx.1 hv', fresh_wf hx.1.symm,
    fresh_sameValues hx⟩
  · rw [storageToBytes_length, hx.1]
  · exact storageToBytes_lt hv'

/-- `from_bytes` rejects every byte string of another length. -/
theorem C15_length_check (bs dims : List Nat) (dt : DType) :
    (∃ u, Tensor.fromBytes bs dims dt = .ok u) ↔ bs.length = numel dims * dt.sizeInBytes := by
  unfold Tensor.fromBytes
  rw [shapeSize_eq]
  split <;> simp_all

/-- **C15, .hdt files, what holds.**  Serialising and deserialising gives the same element type,
shape and elements, for every tensor that is not a contiguous view of a larger buffer and whose
rank, sizes and byte length fit 64 bits; bytes after the record are ignored. -/
theorem C15_hdt_partial {t : Tensor Nat} (ht : t.WF) (dt : DType)
    (hv : ∀ v ∈ t.storage, IsElement dt v)
    (h : t.layout.isContiguous = true → t.storage.length = numel t.dims)
    (hr : t.dims.length < 2 ^ 64) (hs : ∀ n ∈ t.dims, n < 2 ^ 64)
    (hb : numel t.dims * dt.sizeInBytes < 2 ^ 64) :
    ∃ bs u, hdtSerialize dt t = .ok bs ∧ (∀ rest, hdtDeserialize (bs ++ rest) = .ok (dt, u)) ∧ u.WF ∧
      u.SameValues t := by
  obtain ⟨xs, hx⟩ := ht.hasValues
  have hv' := values_mem hx hv
  refine ⟨encodeTensorData t.dims dt (storageToBytes dt xs), ⟨xs, Layout.fromShape t.dims⟩, ?_, ?_,
    fresh_wf hx.1.symm, fresh_sameValues hx⟩
  · simp [hdtSerialize, toBytes_eq ht hx h dt]
  · intro rest
    unfold hdtDeserialize
    rw [decode_encodeTensorData hr hs (by rw [storageToBytes_length, hx.1]; exact hb) rest]
    simp [fromBytes_eq hx.1 hv']

/-- C15 on the transpose of a 2×3 matrix of 16-bit values. -/
example :
    let t : Tensor Nat := ⟨[1, 258, 3, 4, 5, 65535], ⟨[3, 2], [1, 3], 0⟩⟩
    t.layout.isContiguous = false ∧
    t.toBytes .i16 = .ok [1, 0, 4, 0, 2, 1, 5, 0, 3, 0, 255, 255] ∧
    (hdtSerialize .i16 t).bind hdtDeserialize =
      .ok (.i16, ⟨[1, 4, 258, 5, 3, 65535], Layout.fromShape [3, 2]⟩) := by decide +kernel

end Hodu
