import Verif.Model.CudaIndex
import Verif.Props.CudaMove
import Verif.Props.Indexing
import Verif.Props.Onehot
import Verif.Props.Cumsum

/-!
# C112: index_select, index_put, gather and onehot on CUDA
-/

namespace Hodu.Cuda

open _root_.Hodu _root_.Hodu.Spec Cuda.Spec

variable {α : Type}

/-! ## Lemmas -/

theorem wrapIndex_wrapI32 (v : Int) (n : Nat) :
    wrapIndex v n = (wrapI32 v n).bind fun s => .ok (if s < 0 ∨ n ≤ s.toNat then none else some s.toNat) := rfl

theorem wrapI32_axis {v : Int} {n c : Nat} (hn : n < 2 ^ 31) (h : IsAxis n v c) : wrapI32 v n = .ok c := by
  have hc : castI32 n = n := by unfold castI32; omega
  obtain ⟨h1, h2⟩ := h
  unfold wrapI32
  rw [hc]
  rcases h2 with h2 | h2
  · rw [if_neg (by omega), h2]
  · rw [if_pos (by omega), if_pos (by omega), show v + (n : Int) = (c : Int) by omega]

theorem wrapIndex_axis {v : Int} {n c : Nat} (hn : n < 2 ^ 31) (h : IsAxis n v c) : wrapIndex v n = .ok (some c) := by
  rw [wrapIndex_wrapI32, wrapI32_axis hn h, Res.ok_bind, if_neg (by have := h.1; omega)]
  rfl

theorem size64_nat {n : Nat} (h : n < 2 ^ 64) : size64 n = n := by
  unfold size64
  omega

theorem dot_set {idx strides : List Nat} {k c : Nat} (hk : k < idx.length) (hl : strides.length = idx.length) :
    dot (idx.set k c) strides = dot (idx.set k 0) strides + c * strides.getD k 0 := by
  induction idx generalizing strides k with
  | nil => simp at hk
  | cons i idx ih =>
    cases strides with
    | nil => simp at hl
    | cons s strides =>
      cases k with
      | zero => simp [dot]; omega
      | succ k =>
        have := ih (k := k) (strides := strides) (by simpa using hk) (by simpa using hl)
        simp only [List.set_cons_succ, dot, List.getD_cons_succ, this]
        omega

theorem cFlat_set {off : Nat} {idx strides : List Nat} {k c : Nat} (hk : k < idx.length)
    (hl : strides.length = idx.length) :
    cFlat off (idx.set k c) strides = cFlat off (idx.set k 0) strides + c * strides.getD k 0 := by
  rw [cFlat_eq, cFlat_eq, dot_set hk hl]
  omega

theorem guard16_of {nd : Nat} (h : nd ≤ 16) (x : Res α) : guard16 nd x = x := by
  unfold guard16
  rw [if_neg (by omega)]

/-! ## index_select -/

/-- For an index that names a slice the element is the one of the CPU. -/
theorem indexSelectVal_eq {zero : α} {inp : List α} {indices : List Int} {m : IndexSelectMeta} {id n : Nat} {y : α}
    (hr : m.shape.length ≤ 16) (hst : m.strides.length = m.shape.length) (hn : m.shape[m.dim]? = some n)
    (hns : n < 2 ^ 31) (hid : id < numel (m.shape.set m.dim m.numIndices)) (hl : inp.length ≤ 2 ^ 64)
    (hin : ∀ j v, j < m.numIndices → indices[j]? = some v → ∃ c, IsAxis n v c)
    (h : indexSelectCell zero inp indices m id = .ok y) : indexSelectVal inp indices m id = .ok y := by
  unfold indexSelectCell at h
  unfold indexSelectVal
  rw [guard16_of hr]
  have e : (cUnravel (m.shape.set m.dim m.numIndices) id).1 = unravel (m.shape.set m.dim m.numIndices) id := by
    rw [cUnravel_eq, Nat.mod_eq_of_lt hid]
  have hi := unravel_inRange hid
  simp only [e] at h ⊢
  generalize unravel (m.shape.set m.dim m.numIndices) id = idx at h hi ⊢
  have hlt : m.dim < m.shape.length := (List.getElem?_eq_some_iff.mp hn).1
  obtain ⟨j, hj, hjl⟩ := inRange_get (k := m.dim) (d := m.numIndices) hi (by simp [hlt])
  have hil : idx.length = m.shape.length := by simpa using hi.length
  have e3 : idx.getD m.dim 0 = j := by simp [hj]
  rw [e3] at h ⊢
  obtain ⟨v, hv, h⟩ := Res.bind_eq_ok.mp h
  rw [readC_eq_ok.mpr hn, Res.ok_bind] at h
  obtain ⟨c, hc⟩ := hin j v hjl (readC_eq_ok.mp hv)
  rw [wrapIndex_axis hns hc, Res.ok_bind] at h
  simp only at h
  rw [hv, Res.ok_bind, readC_eq_ok.mpr hn, Res.ok_bind, wrapI32_axis hns hc, Res.ok_bind]
  rw [cFlat_set (by omega) (by omega)] at h
  have hb := (List.getElem?_eq_some_iff.mp (readC_eq_ok.mp h)).1
  rw [← h]
  congr 1
  rw [← size64_nat (n := cFlat m.offset (idx.set m.dim 0) m.strides + c * m.strides.getD m.dim 0) (by omega)]
  congr 1

/-- The launch of `Tensor::index_select` yields what the CPU gives, if every index used names a slice. -/
theorem indexSelectCuda_of_cpu {zero : α} {t : Tensor α} {ix : Tensor Int} {dim : Int} {k n : Nat} {r : Tensor α}
    (ht : t.WF) (hr : t.dims.length ≤ 16) (hk : IsAxis t.dims.length dim k) (hn : t.dims[k]? = some n)
    (hns : n < 2 ^ 31) (hl : t.storage.length ≤ 2 ^ 64) (hsz : r.storage.length ≤ 2 ^ 32 - 256)
    (hin : ∀ j v, j < numel ix.dims → ix.storage[j]? = some v → ∃ c, IsAxis n v c)
    (h : t.indexSelect zero dim ix = .ok r) : Yields (indexSelectCuda .i32 t dim ix) r := by
  have hax : axisUsize t.dims.length dim = k := axisUsize_eq hk (by omega)
  have hkl : k < t.dims.length := hk.1
  have hix : ix.layout.size = numel ix.dims := shapeSize_eq _
  unfold Tensor.indexSelect at h
  simp only [hax] at h
  rw [if_neg (by omega)] at h
  unfold callOpsIndexSelect at h
  rw [if_neg (by omega)] at h
  obtain ⟨s, hs, h⟩ := Res.bind_eq_ok.mp h
  injection h with h
  subst h
  simp only at hsz hs
  unfold indexSelectKernel at hs
  rw [decodeIndexSelect_eq ht.1, Res.ok_bind] at hs
  obtain ⟨hsl, hg⟩ := Res.mapL_ok_inv hs
  simp only [List.length_range] at hsl
  refine ⟨rfl, gridLoop (shapeSize (t.dims.set k ix.layout.size)) (indexSelectVal t.storage ix.storage
    ⟨shapeSize (t.dims.set k ix.layout.size), t.dims, t.layout.strides, t.layout.offset, k, ix.layout.size⟩) fun i => i,
    ?_, fun buf hb => ?_⟩
  · unfold indexSelectCuda
    simp only [hax]
    rw [if_neg (by omega), if_neg (by decide)]
    unfold indexSelectLoop
    rw [decodeIndexSelect_eq ht.1, Res.ok_bind, Res.ok_bind, hsl]
    rfl
  · simp only at hb ⊢
    apply gridLoop_list (by omega) (by omega) hsl
    intro i hi
    have hcell := hg i (by simpa using (by omega : i < shapeSize (t.dims.set k ix.layout.size))) hi
    rw [List.getElem_range] at hcell
    refine indexSelectVal_eq hr ht.1 hn hns ?_ hl ?_ hcell
    · rw [← shapeSize_eq]
      show i < shapeSize (t.dims.set k ix.layout.size)
      omega
    · intro j v hj hv
      exact hin j v (by rw [← hix]; exact hj) hv

/-- **C112, index_select**: for every layout of the source, indices in row-major order from offset 0 that all name a
slice: under every interleaving the result has, at position `j` of the axis, the slice named by index `j`.  Missing:
indices that name no slice (`C112_select_out_of_range`, `C112_select_false`), other layouts of the indices, rank
above 16. -/
theorem C112_select_partial {t : Tensor α} {ix : Tensor Int} {dim : Int} {k n : Nat} [Inhabited α]
    (ht : t.WF) (hr : t.dims.length ≤ 16) (hk : IsAxis t.dims.length dim k)
    (hn : t.dims[k]? = some n) (hns : n < 2 ^ 31) (hix : ix.WF)
    (hc : ix.layout.strides = Layout.computeStrides ix.dims) (ho : ix.layout.offset = 0)
    (hv : ∀ v ∈ ix.storage, ∃ c, IsAxis n v c) (hl : t.storage.length ≤ 2 ^ 64)
    (hsz : numel (t.dims.set k (numel ix.dims)) ≤ 2 ^ 32 - 256) :
    ∃ r, Yields (indexSelectCuda .i32 t dim ix) r ∧ r.dims = t.dims.set k (numel ix.dims) ∧ r.WF ∧
      ∀ idx, InRange idx r.dims → ∀ p v c, InRange p ix.dims → idx[k]? = some (rowMajor ix.dims p) →
        ix.elem p = some v → IsAxis n v c → r.elem idx = t.elem (idx.set k c) := by
  obtain ⟨r, h1, h2, h3, h4⟩ := C28_index_select_partial (zero := (default : α)) ht (by omega) hk hn hns hix hc ho
    (fun v hm => by
      obtain ⟨c, hc⟩ := hv v hm
      obtain ⟨h5, h6⟩ := hc
      unfold I32
      omega)
  refine ⟨r, indexSelectCuda_of_cpu ht hr hk hn hns hl ?_ (fun j v _ hj => hv v (List.mem_of_getElem? hj)) h1, h2, h3,
    fun idx hi p v c hp hj he hax => (h4 idx hi p v hp hj he).1 c hax⟩
  have : r.storage.length = numel r.dims := by
    unfold Tensor.indexSelect at h1
    simp only [axisUsize_eq hk (by omega)] at h1
    rw [if_neg (by have := hk.1; omega)] at h1
    unfold callOpsIndexSelect at h1
    rw [if_neg (by have := hk.1; omega)] at h1
    obtain ⟨s, hs, h⟩ := Res.bind_eq_ok.mp h1
    injection h with h
    subst h
    simp only at hs
    unfold indexSelectKernel at hs
    rw [decodeIndexSelect_eq ht.1, Res.ok_bind] at hs
    have := (Res.mapL_ok_inv hs).1
    simp only [List.length_range, shapeSize_eq] at this
    exact this
  rw [this, h2]
  exact hsz

/-- A transposed matrix, indices from the end and twice the same. -/
example : ∃ r, Yields (indexSelectCuda .i32 exSel 0 ⟨[2, -3, 2], Layout.fromShape [3]⟩) r ∧ r.dims = [3, 2] ∧ r.WF ∧
      ∀ idx, InRange idx r.dims → ∀ p v c, InRange p [3] → idx[0]? = some (rowMajor [3] p) →
        (⟨[2, -3, 2], Layout.fromShape [3]⟩ : Tensor Int).elem p = some v → IsAxis 3 v c →
        r.elem idx = exSel.elem (idx.set 0 c) :=
  C112_select_partial (k := 0) (n := 3) exSel_wf (by decide) (by unfold IsAxis; decide) rfl (by decide)
    (fresh_wf (by decide)) rfl rfl (by
      intro v hv
      simp only [List.mem_cons, List.not_mem_nil, or_false] at hv
      rcases hv with rfl | rfl | rfl
      · exact ⟨2, by unfold IsAxis; decide⟩
      · exact ⟨0, by unfold IsAxis; decide⟩
      · exact ⟨2, by unfold IsAxis; decide⟩) (by decide) (by decide)

/-- **C112, index_select, out of range**: an index that names no element of a one-dimensional tensor makes the first
thread read outside the tensor, where the CPU gives zero. -/
theorem C112_select_out_of_range {t : List α} {v : Int} (hl : t.length < 2 ^ 31) (hv : I32 v)
    (h : ∀ c, ¬ IsAxis t.length v c) (zero : α) :
    (∃ L, indexSelectCuda .i32 ⟨t, Layout.fromShape [t.length]⟩ 0 ⟨[v], Layout.fromShape [1]⟩ = .ok L ∧
      ∀ buf, L.kernel.exec buf [0] = .ub) ∧
    (⟨t, Layout.fromShape [t.length]⟩ : Tensor α).indexSelect zero 0 ⟨[v], Layout.fromShape [1]⟩ =
      .ok ⟨[zero], Layout.fromShape [1]⟩ := by
  have hc : castI32 t.length = t.length := by unfold castI32; omega
  obtain ⟨hv1, hv2⟩ := hv
  have hno : v < - (t.length : Int) ∨ (t.length : Int) ≤ v := by
    by_contra hcon
    rcases Int.lt_or_le v 0 with hneg | hpos
    · exact h (v + t.length).toNat ⟨by omega, Or.inr (by omega)⟩
    · exact h v.toNat ⟨by omega, Or.inl (by omega)⟩
  obtain ⟨s, hs, hso⟩ : ∃ s, wrapI32 v t.length = .ok s ∧ I32 s ∧ (s < 0 ∨ (t.length : Int) ≤ s) := by
    unfold wrapI32 I32
    rw [hc]
    by_cases hneg : v < 0
    · rw [if_pos hneg, if_pos (by omega)]
      exact ⟨_, rfl, by omega, by omega⟩
    · rw [if_neg hneg]
      exact ⟨_, rfl, by omega, by omega⟩
  obtain ⟨⟨hs1, hs2⟩, hso⟩ := hso
  constructor
  · refine ⟨⟨gridLoop 1 (indexSelectVal t [v] ⟨1, [t.length], [1], 0, 0, 1⟩) fun i => i, 1, [1]⟩, rfl, fun buf => ?_⟩
    refine gridLoop_ub (by decide) (by decide) ?_
    have e : indexSelectVal t [v] ⟨1, [t.length], [1], 0, 0, 1⟩ 0 =
        (wrapI32 v t.length).bind fun s => readC t (size64 (((0 : Nat) : Int) + s * ((1 : Nat) : Int))) := rfl
    rw [e, hs, Res.ok_bind]
    have : t.length ≤ size64 (((0 : Nat) : Int) + s * ((1 : Nat) : Int)) := by
      unfold size64
      omega
    unfold readC
    rw [List.getElem?_eq_none this]
  · have e : (⟨t, Layout.fromShape [t.length]⟩ : Tensor α).indexSelect zero 0 ⟨[v], Layout.fromShape [1]⟩ =
        (Res.mapL (indexSelectCell zero t [v] ⟨1, [t.length], [1], 0, 0, 1⟩) [0]).bind fun s =>
          .ok ⟨s, Layout.fromShape [1]⟩ := rfl
    have e2 : indexSelectCell zero t [v] ⟨1, [t.length], [1], 0, 0, 1⟩ 0 = .ok zero := by
      have : indexSelectCell zero t [v] ⟨1, [t.length], [1], 0, 0, 1⟩ 0 =
        (wrapIndex v t.length).bind fun
          | none => .ok zero
          | some k => readC t (cFlat 0 [k] [1]) := rfl
      rw [this, wrapIndex_wrapI32, hs, Res.ok_bind, if_pos (by omega)]
      rfl
    rw [e, Res.mapL, e2]
    rfl

/-- Index 3 of three elements. -/
example : (∃ L, indexSelectCuda .i32 ⟨[(5 : Int), 6, 7], Layout.fromShape [3]⟩ 0 ⟨[3], Layout.fromShape [1]⟩ = .ok L ∧
      ∀ buf, L.kernel.exec buf [0] = .ub) ∧
    (⟨[(5 : Int), 6, 7], Layout.fromShape [3]⟩ : Tensor Int).indexSelect 0 0 ⟨[3], Layout.fromShape [1]⟩ =
      .ok ⟨[0], Layout.fromShape [1]⟩ :=
  C112_select_out_of_range (t := [(5 : Int), 6, 7]) (v := 3) (by decide) (by unfold I32; decide)
    (fun c hc => by
      have h1 : c < 3 := hc.1
      rcases hc.2 with h | h
      · omega
      · have h : (3 : Int) = (c : Int) - (3 : Nat) := h
        omega) 0

/-- **C112, index_select, false**: two rows of two cells in a larger buffer.  The index 2 selects the elements that
follow the rows, the index -3 those before them; the CPU gives zeros. -/
theorem C112_select_false :
    (let t : Tensor Int := ⟨[1, 2, 3, 4, 5, 6], ⟨[2, 2], [2, 1], 0⟩⟩;
      t.WF ∧ Yields (indexSelectCuda .i32 t 1 ⟨[2], Layout.fromShape [1]⟩) ⟨[3, 5], Layout.fromShape [2, 1]⟩ ∧
        t.indexSelect 0 1 ⟨[2], Layout.fromShape [1]⟩ = .ok ⟨[0, 0], Layout.fromShape [2, 1]⟩) ∧
    (let t : Tensor Int := ⟨[1, 2, 3, 4, 5, 6], ⟨[2, 2], [2, 1], 2⟩⟩;
      t.WF ∧ Yields (indexSelectCuda .i32 t 1 ⟨[-3], Layout.fromShape [1]⟩) ⟨[2, 4], Layout.fromShape [2, 1]⟩ ∧
        t.indexSelect 0 1 ⟨[-3], Layout.fromShape [1]⟩ = .ok ⟨[0, 0], Layout.fromShape [2, 1]⟩) := by
  refine ⟨⟨⟨rfl, fun idx hi => ?_⟩, ⟨rfl, _, rfl, fun buf hb => ?_⟩, by decide +kernel⟩,
    ⟨⟨rfl, fun idx hi => ?_⟩, ⟨rfl, _, rfl, fun buf hb => ?_⟩, by decide +kernel⟩⟩
  · match idx, hi with
    | [i, j], hi =>
      have : i < 2 := hi.1
      have : j < 2 := hi.2.1
      interval_cases i <;> interval_cases j <;> decide
  · refine gridLoop_list (by decide) hb rfl ?_
    decide +kernel
  · match idx, hi with
    | [i, j], hi =>
      have : i < 2 := hi.1
      have : j < 2 := hi.2.1
      interval_cases i <;> interval_cases j <;> decide
  · refine gridLoop_list (by decide) hb rfl ?_
    decide +kernel

/-! ## gather -/

theorem sliceC_len {xs ys : List Nat} {a n : Nat} (h : sliceC xs a n = .ok ys) :
    ys.length = n ∧ ∀ i : Nat, i < n → ys[i]? = xs[a + i]? := by
  unfold sliceC at h
  split at h
  · injection h with h
    subst h
    refine ⟨by simp; omega, fun i hi => ?_⟩
    rw [List.getElem?_take_of_lt hi, List.getElem?_drop]
  · cases h

theorem decodeGather_shape {md : List Nat} {m : GatherMeta} (h : decodeGather md = .ok m) :
    ∀ i n, m.shape[i]? = some n → md[2 + m.shape.length + i]? = some n := by
  unfold decodeGather at h
  obtain ⟨n, _, h⟩ := Res.bind_eq_ok.mp h
  obtain ⟨nd, _, h⟩ := Res.bind_eq_ok.mp h
  obtain ⟨out, _, h⟩ := Res.bind_eq_ok.mp h
  obtain ⟨shape, hs, h⟩ := Res.bind_eq_ok.mp h
  obtain ⟨_, _, h⟩ := Res.bind_eq_ok.mp h
  obtain ⟨_, _, h⟩ := Res.bind_eq_ok.mp h
  obtain ⟨_, _, h⟩ := Res.bind_eq_ok.mp h
  obtain ⟨_, _, h⟩ := Res.bind_eq_ok.mp h
  obtain ⟨_, _, h⟩ := Res.bind_eq_ok.mp h
  injection h with h
  subst h
  obtain ⟨h1, h2⟩ := sliceC_len hs
  intro i n hi
  have hlt := (List.getElem?_eq_some_iff.mp hi).1
  simp only at hi hlt ⊢
  rw [h1, ← h2 i (by omega), hi]

theorem gatherVal_eq {zero : α} {inp : List α} {indices : List Int} {md : List Nat} {m : GatherMeta} {id : Nat} {y : α}
    (hm : decodeGather md = .ok m) (hr : m.shape.length ≤ 16) (h : gatherCell zero inp indices m id = .ok y) :
    gatherVal zero inp indices md m id = .ok y := by
  unfold gatherCell at h
  unfold gatherVal
  rw [guard16_of hr]
  simp only at h ⊢
  obtain ⟨v, hv, h⟩ := Res.bind_eq_ok.mp h
  obtain ⟨n, hn, h⟩ := Res.bind_eq_ok.mp h
  rw [wrapIndex_wrapI32] at h
  obtain ⟨w, hw, h⟩ := Res.bind_eq_ok.mp h
  obtain ⟨s, hs, hw⟩ := Res.bind_eq_ok.mp hw
  injection hw with hw
  rw [hv, Res.ok_bind, readC_eq_ok.mpr (decodeGather_shape hm _ _ (readC_eq_ok.mp hn)), Res.ok_bind, hs, Res.ok_bind]
  subst hw
  split
  · rename_i hc
    rw [if_pos hc] at h
    exact h
  · rename_i hc
    rw [if_neg hc] at h
    exact h

/-- **C112, gather, against the CPU**: whenever `Tensor::gather` succeeds on the CPU (rank at most 16, at most
`2 ^ 32 - 256` results), the launch on CUDA ends with the same buffer under every interleaving, and the result has the
same layout. -/
theorem C112_gather_like_cpu {zero : α} {t : Tensor α} {ix : Tensor Int} {dim : Int} {r : Tensor α}
    (ht : t.WF) (hr : t.dims.length ≤ 16) (hil : ix.layout.strides.length = ix.dims.length)
    (hd : ix.dims.length = t.dims.length) (hsz : r.storage.length ≤ 2 ^ 32 - 256)
    (h : t.gather zero dim ix = .ok r) :
    ∃ k, gatherCuda .i32 zero t dim ix = .ok (⟨k, r.storage.length, ix.dims⟩, r.layout) ∧
      ∀ buf, buf.length = r.storage.length → Computes k buf r.storage := by
  unfold Tensor.gather callOpsGather at h
  obtain ⟨s, hs, h⟩ := Res.bind_eq_ok.mp h
  injection h with h
  subst h
  split at hs
  · cases hs
  unfold gatherKernel at hs
  have hdec := decodeGather_eq (l := t.layout) (ix := ix.layout) (dim := axisUsize t.dims.length dim)
    (n := ix.layout.size) ht.1 (by rw [hil]; exact hd) hd
  rw [hdec, Res.ok_bind] at hs
  obtain ⟨hsl, hg⟩ := Res.mapL_ok_inv hs
  simp only [List.length_range] at hsl
  refine ⟨gridLoop ix.layout.size (gatherVal zero t.storage ix.storage
    (gatherMetadata t.layout ix.layout (axisUsize t.dims.length dim) ix.layout.size)
    ⟨ix.layout.size, ix.dims, t.dims, t.layout.strides, ix.layout.strides, t.layout.offset, ix.layout.offset,
      axisUsize t.dims.length dim⟩) fun i => i, ?_, fun buf hb => ?_⟩
  · unfold gatherCuda
    rw [if_neg (by decide)]
    unfold gatherLoop
    rw [hdec, Res.ok_bind, Res.ok_bind, hsl]
  · simp only at hb hsz ⊢
    apply gridLoop_list (by omega) (by omega) hsl
    intro i hi
    have hcell := hg i (by simpa using (by omega : i < ix.layout.size)) hi
    rw [List.getElem_range] at hcell
    exact gatherVal_eq hdec hr hcell

/-- **C112, gather**: for every layout of the source and indices in row-major order from offset 0, under every
interleaving: the element named by the index along the axis, zero if it names none.  Missing: other layouts of the
indices, rank above 16, an axis out of range (`C112_gather_axis`). -/
theorem C112_gather_partial {t : Tensor α} {ix : Tensor Int} {dim : Int} {k n : Nat} (zero : α)
    (ht : t.WF) (hr : t.dims.length ≤ 16) (hk : IsAxis t.dims.length dim k)
    (hn : t.dims[k]? = some n) (hns : n < 2 ^ 31) (hix : ix.WF) (hfit : FitsOff k ix.dims t.dims)
    (hc : ix.layout = Layout.fromShape ix.dims) (hv : ∀ v ∈ ix.storage, I32 v) (hsz : numel ix.dims ≤ 2 ^ 32 - 256) :
    ∃ r, Yields ((gatherCuda .i32 zero t dim ix).map Prod.fst) r ∧
      (gatherCuda .i32 zero t dim ix).map Prod.snd = .ok r.layout ∧ r.dims = ix.dims ∧ r.WF ∧
      ∀ p v, InRange p ix.dims → ix.elem p = some v →
        (∀ c, IsAxis n v c → r.elem p = t.elem (p.set k c)) ∧
        ((¬ ∃ c, IsAxis n v c) → r.elem p = some zero) := by
  obtain ⟨zs, h1, h2, h3⟩ := C30_buffer zero ht (by omega) hk hn hns hix hfit hv
  obtain ⟨r, g1, g2, g3, g4⟩ := C30_gather_partial zero ht (by omega) hk hn hns hix hfit (by rw [hc]; rfl)
    (by rw [hc]; rfl) hv
  rw [h1] at g1
  injection g1 with g1
  subst g1
  obtain ⟨K, h5, h6⟩ := C112_gather_like_cpu (zero := zero) (dim := dim) (ix := ix) ht hr hix.1 hfit.1
    (by simp only; omega) h1
  refine ⟨_, ⟨?_, K, ?_, h6⟩, ?_, g2, g3, g4⟩
  · show ix.layout = Layout.fromShape ix.dims
    exact hc
  · rw [h5]
    rfl
  · rw [h5]
    rfl

/-- The transposed matrix; an index from the end and one that names nothing. -/
example : ∃ r, Yields ((gatherCuda .i32 0 exSel 0 ⟨[2, -3, 3, 0], Layout.fromShape [2, 2]⟩).map Prod.fst) r ∧
      (gatherCuda .i32 0 exSel 0 ⟨[2, -3, 3, 0], Layout.fromShape [2, 2]⟩).map Prod.snd = .ok r.layout ∧
      r.dims = [2, 2] ∧ r.WF ∧
      ∀ p v, InRange p [2, 2] → (⟨[2, -3, 3, 0], Layout.fromShape [2, 2]⟩ : Tensor Int).elem p = some v →
        (∀ c, IsAxis 3 v c → r.elem p = exSel.elem (p.set 0 c)) ∧
        ((¬ ∃ c, IsAxis 3 v c) → r.elem p = some 0) :=
  C112_gather_partial (k := 0) (n := 3) (ix := ⟨[2, -3, 3, 0], Layout.fromShape [2, 2]⟩) 0 exSel_wf (by decide)
    (by unfold IsAxis; decide) rfl (by decide) (fresh_wf (by decide))
    ⟨rfl, fun i x y h1 h2 h3 => by
      match i, h1, h2, h3 with
      | 0, h1, _, _ => exact absurd rfl h1
      | 1, _, h2, h3 =>
        have h2 : some 2 = some x := h2
        have h3 : some 2 = some y := h3
        simp only [Option.some.injEq] at h2 h3
        omega
      | i + 2, _, h2, _ => simp [Tensor.dims, Layout.fromShape] at h2⟩
    rfl (by unfold I32; decide) (by decide)

/-- **C112, gather, false**: an axis out of range, an error on the CPU, is not refused; the index is ignored. -/
theorem C112_gather_axis :
    let t : Tensor Int := ⟨[1, 2, 3, 4], Layout.fromShape [2, 2]⟩
    let ix : Tensor Int := ⟨[0, 0, 0, 0], Layout.fromShape [2, 2]⟩
    t.gather 0 2 ix = .err ∧ Yields ((gatherCuda .i32 0 t 2 ix).map Prod.fst) t := by
  refine ⟨by decide +kernel, rfl, _, rfl, fun buf hb => ?_⟩
  refine gridLoop_list (by decide) hb rfl ?_
  decide +kernel

/-! ## index_put -/

theorem findIndexCuda_eq {indices : List Int} {n c : Nat} (hn : n < 2 ^ 31) (hc : c < n) (fuel i : Nat) :
    (∀ v ∈ indices, I32 v) → findIndexCuda indices n c i fuel = findIndex indices n c i fuel := by
  intro hv
  induction fuel generalizing i with
  | zero => rfl
  | succ fuel ih =>
    unfold findIndexCuda findIndex
    unfold readC
    cases hg : indices[i]? with
    | none => rfl
    | some v =>
      simp only [Res.ok_bind]
      rw [wrapIndex_wrapI32]
      obtain ⟨hv1, hv2⟩ := hv v (List.mem_of_getElem? hg)
      have hcast : castI32 n = n := by unfold castI32; omega
      obtain ⟨s, hs, hs1, hs2⟩ : ∃ s, wrapI32 v n = .ok s ∧ -2 ^ 31 ≤ s ∧ s < 2 ^ 31 := by
        unfold wrapI32
        rw [hcast]
        by_cases hneg : v < 0
        · rw [if_pos hneg, if_pos (by omega)]
          exact ⟨_, rfl, by omega, by omega⟩
        · rw [if_neg hneg]
          exact ⟨_, rfl, by omega, by omega⟩
      rw [hs, Res.ok_bind, Res.ok_bind, Res.ok_bind]
      have hiff : size64 s = c ↔ (if s < 0 ∨ n ≤ s.toNat then none else some s.toNat) = some c := by
        unfold size64
        split
        · constructor
          · intro h
            omega
          · intro h
            cases h
        · simp only [Option.some.injEq]
          omega
      by_cases h : size64 s = c
      · rw [if_pos h, if_pos (hiff.mp h)]
      · rw [if_neg h, if_neg (fun h' => h (hiff.mpr h')), ih]

/-- **C112, index_put, the kernel**: given metadata in the order it documents, for every layout of the input and of the
values, every interleaving ends with: a cell named by an index holds the element of `values` at the first such index,
every other cell the element of the input.  Missing: the host does not pass this metadata (`C112_put_ub`). -/
theorem C112_put_partial {t vals : Tensor α} {indices : List Int} {k n K : Nat}
    (ht : t.WF) (hr : t.dims.length ≤ 16) (hn : t.dims[k]? = some n) (hns : n < 2 ^ 31) (hvl : vals.WF)
    (hd : vals.dims = t.dims.set k K) (hK : K ≤ indices.length) (hv : ∀ v ∈ indices, I32 v)
    (hsz : numel t.dims ≤ 2 ^ 32 - 256) :
    ∃ l out, indexPutLoop t.storage indices vals.storage
        (indexPutMetadataDoc t.layout vals.layout k K t.layout.size) = .ok l ∧
      (∀ buf, buf.length = numel t.dims → Computes l buf out) ∧ out.length = numel t.dims ∧
      ∀ p c, InRange p t.dims → p[k]? = some c →
        (∀ j v, j < K → indices[j]? = some v → IsAxis n v c →
          (∀ j' v', j' < j → indices[j']? = some v' → ¬ IsAxis n v' c) →
          out[rowMajor t.dims p]? = vals.elem (p.set k j)) ∧
        ((∀ j v, j < K → indices[j]? = some v → ¬ IsAxis n v c) →
          out[rowMajor t.dims p]? = t.elem p) := by
  have hdec := decodeIndexPut_doc (l := t.layout) (v := vals.layout) (dim := k) (k := K) (n := t.layout.size) ht.1
    (by rw [hvl.1, hd, List.length_set])
  have hnum : t.layout.size = numel t.dims := shapeSize_eq _
  obtain ⟨buf0, hb0⟩ : ∃ b : List α, b.length = numel t.dims := by
    rcases Nat.eq_zero_or_pos (numel t.dims) with hz | hz
    · exact ⟨[], hz.symm⟩
    · obtain ⟨a, _⟩ := ht.get (unravel_inRange hz)
      exact ⟨List.replicate (numel t.dims) a, List.length_replicate⟩
  obtain ⟨out, h1, h2, h3⟩ := C29_kernel_partial (buf := buf0) ht hn hns hvl hd hK hv (by omega)
  unfold indexPutKernel at h1
  rw [hdec, Res.ok_bind] at h1
  obtain ⟨zs, hz, h1⟩ := Res.bind_eq_ok.mp h1
  simp only at h1
  obtain ⟨hzl, hg⟩ := Res.mapL_ok_inv hz
  simp only [List.length_range] at hzl
  obtain ⟨out', ha, hal, hae⟩ := applyWrites_front (buf := buf0) (vs := zs) hzl (by omega)
  rw [ha] at h1
  injection h1 with h1
  subst h1
  have hoz : out' = zs := by
    apply List.ext_getElem?
    intro i
    rcases Nat.lt_or_ge i t.layout.size with hi | hi
    · exact hae i hi
    · rw [List.getElem?_eq_none (by omega), List.getElem?_eq_none (by omega)]
  subst hoz
  refine ⟨_, out', by rw [indexPutLoop, hdec, Res.ok_bind], fun buf hb => ?_, by omega, h3⟩
  refine gridLoop_list (by simp only; omega) (by simp only; omega) hzl fun i hi => ?_
  have hcell := hg i (by simpa using (by omega : i < t.layout.size)) hi
  rw [List.getElem_range] at hcell
  rw [← hcell]
  unfold indexPutVal indexPutCell
  rw [guard16_of hr]
  simp only
  have hin : readC t.layout.dims k = .ok n := readC_eq_ok.mpr hn
  rw [hin, Res.ok_bind, Res.ok_bind]
  have hid : i < numel t.dims := by omega
  have e : (cUnravel t.layout.dims i).1 = unravel t.dims i := by
    rw [cUnravel_eq]
    show unravel t.dims (i % numel t.dims) = _
    rw [Nat.mod_eq_of_lt hid]
  obtain ⟨c, hc, hcl⟩ := inRange_get (unravel_inRange hid) hn
  rw [e, show (unravel t.dims i).getD k 0 = c by simp [hc], findIndexCuda_eq hns hcl _ _ hv]
  generalize findIndex indices n c 0 K = w
  cases w with
  | ok w => cases w <;> rfl
  | _ => rfl

/-- Three indices, of which one counts from the end and two are equal; the input transposed. -/
example : ∃ l out, indexPutLoop exSel.storage [2, -3, 2] [(10 : Int), 20, 30, 40, 50, 60]
        (indexPutMetadataDoc exSel.layout (Layout.fromShape [3, 2]) 0 3 6) = .ok l ∧
      (∀ buf, buf.length = 6 → Computes l buf out) ∧ out[5]? = some 20 := by
  obtain ⟨l, out, h1, h2, _, h4⟩ := C112_put_partial (t := exSel)
    (vals := ⟨[10, 20, 30, 40, 50, 60], Layout.fromShape [3, 2]⟩) (indices := [2, -3, 2]) (k := 0) (n := 3) (K := 3)
    exSel_wf (by decide) rfl (by decide) (fresh_wf (by decide)) rfl (by decide) (by unfold I32; decide) (by decide)
  exact ⟨l, out, h1, h2, (h4 [2, 1] 2 (by decide) rfl).1 0 2 (by decide) rfl ⟨by decide, Or.inl rfl⟩
    (fun j' v' h => by omega)⟩

/-- **C112, index_put, false**: on every non-empty one-dimensional tensor in row-major order with non-empty values some
thread reads outside the input, because the host passes the metadata in another order than the kernel decodes. -/
theorem C112_put_ub {t vals : List α} {ix : Tensor Int} (ht : t ≠ []) (hv : vals ≠ [])
    (hn : t.length ≤ 2 ^ 32 - 256) :
    ∃ L, indexPutCuda .i32 ⟨t, Layout.fromShape [t.length]⟩ 0 ix ⟨vals, Layout.fromShape [vals.length]⟩ = .ok L ∧
      ∀ buf, L.1.kernel.exec buf [t.length - 1] = .ub := by
  have htl : 0 < t.length := List.length_pos_iff.mpr ht
  have hvl : 0 < vals.length := List.length_pos_iff.mpr hv
  have hmd : indexPutMetadata (Layout.fromShape [t.length]) (Layout.fromShape [vals.length]) 0
      ix.layout.size (Layout.fromShape [t.length]).size =
      [t.length, 1, t.length, 1, 0, vals.length, 1, 0, 0, ix.layout.size] := by
    simp [indexPutMetadata, Layout.fromShape, Layout.ndim, Layout.computeStrides, Layout.size, shapeSize]
  have hdec : decodeIndexPut [t.length, 1, t.length, 1, 0, vals.length, 1, 0, 0, ix.layout.size] =
      .ok ⟨t.length, [t.length], [1], [0], vals.length, 1, 0, 0⟩ := rfl
  refine ⟨(⟨gridLoop t.length (indexPutVal t ix.storage vals ⟨t.length, [t.length], [1], [0], vals.length, 1, 0, 0⟩)
    fun i => i, (Layout.fromShape [t.length]).size, [t.length]⟩, Layout.fromShape [t.length]), ?_, fun buf => ?_⟩
  · unfold indexPutCuda
    rw [if_neg (by decide)]
    have hax : axisUsize ([t.length] : List Nat).length 0 = 0 := rfl
    simp only [Tensor.dims, Layout.fromShape] at hmd ⊢
    rw [hax, hmd, indexPutLoop, hdec]
    rfl
  · refine gridLoop_ub hn (by omega) ?_
    have : indexPutVal t ix.storage vals ⟨t.length, [t.length], [1], [0], vals.length, 1, 0, 0⟩ (t.length - 1) =
        readC t (vals.length + (t.length - 1)) := by
      simp [indexPutVal, guard16, findIndexCuda, readC, cUnravel, cFlat, Nat.mod_eq_of_lt (by omega : t.length - 1 < t.length)]
    rw [this]
    simp [readC, List.getElem?_eq_none (by omega : t.length ≤ vals.length + (t.length - 1))]

example : ∃ L, indexPutCuda .i32 ⟨[(1 : Int), 2, 3], Layout.fromShape [3]⟩ 0 ⟨[0], Layout.fromShape [1]⟩
      ⟨[9], Layout.fromShape [1]⟩ = .ok L ∧ ∀ buf, L.1.kernel.exec buf [2] = .ub :=
  C112_put_ub (t := [(1 : Int), 2, 3]) (vals := [9]) (by decide) (by decide) (by decide)

/-! ## onehot -/

theorem onehotInPos_eq {idx dims : List Nat} (h : idx.length = dims.length) : onehotInPos idx dims = rowMajor dims idx := by
  have : ((idx.zip dims).foldr (fun p r => (r.1 + p.1 * r.2, r.2 * p.2)) (0, 1)) = (rowMajor dims idx, numel dims) := by
    induction idx generalizing dims with
    | nil =>
      cases dims with
      | nil => rfl
      | cons d ds => simp at h
    | cons i idx ih =>
      cases dims with
      | nil => simp at h
      | cons d ds =>
        rw [List.zip_cons_cons, List.foldr_cons, ih (by simpa using h)]
        simp only [rowMajor, numel, Prod.mk.injEq]
        exact ⟨by omega, Nat.mul_comm _ _⟩
  unfold onehotInPos
  rw [this]

/-- A loop with a `size_t` counter that computes a value for each position. -/
theorem gridLoop64_list {β : Type} {n : Nat} {val : Nat → Res β} {buf vals : List β} (hn : n ≤ 2 ^ 32 - 256)
    (hb : buf.length = n) (hl : vals.length = n) (hv : ∀ i (h : i < vals.length), val i = .ok vals[i]) :
    Computes (gridLoop64 n val) buf vals := by
  obtain ⟨h1, h2⟩ := grid_bounds hn
  have hadv : ∀ i, advance64 (gridSize n) i = i + 256 * gridSize n := by
    intro i
    unfold advance64 u32
    rw [Nat.mod_eq_of_lt (by omega)]
  refine computes_of (k := gridLoop64 n val) (by omega) ?_ ?_ ?_ ⟨1, ?_⟩
  · intro i hi
    have hi : i < n := hi
    exact ⟨by show i < _; omega, vals[i]'(by omega), hv i (by omega), by show vals[i]? = _; simp⟩
  · intro a ha
    have : n ≤ a := by
      by_contra hc
      exact ha a (by show a < n; omega) rfl
    rw [List.getElem?_eq_none (by omega), List.getElem?_eq_none (by omega)]
  · intro i hi
    have hi : i < n := hi
    exact ⟨i, by show i < 256 * gridSize n; omega, threadStart_eq (by omega)⟩
  · intro t ht
    refine ⟨1, Nat.le_refl _, ?_⟩
    show ¬ advance64 (gridSize n) (threadStart t) < n
    rw [hadv]
    omega

/-- **C112, onehot**: for `i32` indices in row-major order at the start of their buffer, of rank at most 15, every
interleaving ends with the one-hot encoding; indices out of range give zeros.  Missing: other layouts and higher ranks;
other types of indices are refused. -/
theorem C112_onehot_partial {β : Type} {ix : Tensor Int} {classes k : Nat} {axis : Int} (zero one : β) (hx : ix.WF)
    (hp : Packed ix) (h0 : ix.layout.offset = 0) (hr : ix.dims.length ≤ 15) (hc : classes < 2 ^ 31)
    (hv : ∀ v ∈ ix.storage, I32 v) (ha : IsAxis (ix.dims.length + 1) axis k)
    (hsz : numel (ix.dims.insertIdx k classes) ≤ 2 ^ 32 - 256) :
    ∃ y, Yields (onehotCuda .i32 zero one ix classes axis) y ∧ IsOnehot zero one ix classes k y := by
  obtain ⟨y, h1, hw, hyd, hy⟩ := C62_onehot_partial zero one hx hp h0 (by omega) hc hv ha
  have hk : k ≤ ix.dims.length := by have := ha.1; omega
  have hax : axisUsize (ix.dims.length + 1) axis = k := axisUsize_eq ha (by omega)
  have hlen : (ix.dims.insertIdx k classes).length = ix.dims.length + 1 := by
    rw [List.length_insertIdx_of_le_length hk]
  -- the layout and the number of cells of the result
  have hyl : y.layout = Layout.fromShape y.dims ∧ y.storage.length = numel y.dims := by
    unfold Tensor.onehot at h1
    simp only [hax] at h1
    obtain ⟨s, hs, h1⟩ := Res.bind_eq_ok.mp h1
    injection h1 with h1
    subst h1
    refine ⟨rfl, ?_⟩
    unfold onehotKernel at hs
    rw [decodeOnehot_onehotMetadata, Res.ok_bind] at hs
    split at hs
    · cases hs
    · have hinv : ∀ (l : List Nat) (o o' : List β), Res.foldL (onehotStep one
          ⟨shapeSize (onehotDims classes k ix.layout.dims), ix.layout.size, classes, k,
            onehotDims classes k ix.layout.dims⟩ (ix.storage.map truncI32)) o l = .ok o' → o'.length = o.length := by
        intro l
        induction l with
        | nil =>
          intro o o' h
          injection h with h
          rw [h]
        | cons a l ih =>
          intro o o' h
          rw [Res.foldL] at h
          obtain ⟨o2, h2, h⟩ := Res.bind_eq_ok.mp h
          rw [ih _ _ h]
          unfold onehotStep at h2
          obtain ⟨_, _, h2⟩ := Res.bind_eq_ok.mp h2
          obtain ⟨w, _, h2⟩ := Res.bind_eq_ok.mp h2
          cases w with
          | none => injection h2 with h2; rw [h2]
          | some c =>
            simp only at h2
            obtain ⟨_, _, h2⟩ := Res.bind_eq_ok.mp h2
            obtain ⟨_, _, h2⟩ := Res.bind_eq_ok.mp h2
            injection h2 with h2
            rw [← h2, List.length_set]
      rw [hinv _ _ _ hs, List.length_replicate, shapeSize_eq]
      rfl
  obtain ⟨hyl, hys⟩ := hyl
  have hod : onehotDims classes k ix.dims = y.dims := by rw [hyd, onehotDims_eq hk]
  refine ⟨y, ⟨hyl, gridLoop64 (numel y.dims) (onehotVal zero one ix.storage
    ⟨numel y.dims, ix.layout.size, classes, k, y.dims⟩), ?_, fun buf hb => ?_⟩, hw, hyd, hy⟩
  · unfold onehotCuda
    simp only [hax]
    rw [if_neg (by decide), onehotLoop, decodeOnehot_onehotMetadata, Res.ok_bind, Res.ok_bind]
    rw [show onehotDims classes k ix.layout.dims = y.dims from hod, shapeSize_eq, hys]
  · refine gridLoop64_list (by rw [hyd]; exact hsz) (by omega) hys fun i hi => ?_
    have hi' : i < numel y.dims := by omega
    have hir := unravel_inRange hi'
    have e : (cUnravel y.dims i).1 = unravel y.dims i := by rw [cUnravel_eq, Nat.mod_eq_of_lt hi']
    have hel : y.elem (unravel y.dims i) = some y.storage[i] := by
      rw [elem_contig (by rw [hyl]; rfl) (by rw [hyl]; rfl) _ hir, rowMajor_unravel hi']
      exact List.getElem?_eq_getElem hi
    unfold onehotVal
    rw [if_neg (by simp only; rw [hyd]; omega), guard16_of (by simp only; rw [hyd]; omega)]
    simp only [e]
    obtain ⟨p, j, hpr, hj, hpj⟩ := inRange_insert_inv hk (by rw [← hyd]; exact hir)
    have hpl := hpr.length
    obtain ⟨v, hvv⟩ := hx.get hpr
    have hst : ix.storage[rowMajor ix.dims p]? = some v := by
      have := hvv
      unfold Tensor.elem at this
      rwa [hp _ hpr, h0, Nat.zero_add] at this
    rw [hpj] at hel ⊢
    have e1 : readC (p.insertIdx k j) k = .ok j := by
      apply readC_eq_ok.mpr
      rw [List.getElem?_insertIdx_self]
      simp; omega
    rw [e1, Res.ok_bind, withoutAxis_insert (by omega), hyd, withoutAxis_insert hk, onehotInPos_eq hpl,
      readC_eq_ok.mpr hst, Res.ok_bind]
    obtain ⟨w, hw1, hw2⟩ := wrapIndex_eq (hv v (List.mem_of_getElem? hst)) hc
    rw [wrapIndex_wrapI32] at hw1
    obtain ⟨s, hs, hw1⟩ := Res.bind_eq_ok.mp hw1
    injection hw1 with hw1
    rw [hs, Res.ok_bind]
    obtain ⟨g1, g2⟩ := hy p hpr v hvv j hj
    by_cases hjv : IsAxis classes v j
    · have := (hw2 j).mp hjv
      rw [← hw1] at this
      split at this
      · cases this
      · injection this with this
        rw [if_pos (by omega)]
        rw [g1 hjv] at hel
        injection hel with hel
        rw [hel]
    · have hne : ¬ (0 ≤ s ∧ s.toNat < classes ∧ j = s.toNat) := by
        rintro ⟨q1, q2, q3⟩
        apply hjv
        rw [hw2, ← hw1, if_neg (by omega), q3]
      rw [if_neg hne]
      rw [g2 hjv] at hel
      injection hel with hel
      rw [hel]

/-- A 2×2 matrix of indices, one from the end, one out of range; the classes in the middle. -/
example : ∃ y, Yields (onehotCuda .i32 (0 : Nat) 1 ⟨[0, 2, -1, 3], Layout.fromShape [2, 2]⟩ 3 1) y ∧
    IsOnehot 0 1 ⟨[0, 2, -1, 3], Layout.fromShape [2, 2]⟩ 3 1 y :=
  C112_onehot_partial 0 1 (fresh_wf (by decide)) (fun p hp => by
    match p, hp with
    | [i, j], hp =>
      have : i < 2 := hp.1
      have : j < 2 := hp.2.1
      interval_cases i <;> interval_cases j <;> rfl) rfl (by decide) (by decide) (by unfold I32; decide)
    (by unfold IsAxis; decide) (by decide)

/-- **C112, types**: indices of another type than `i32` are refused; the CPU converts them for onehot. -/
theorem C112_index_types {β : Type} {ty : DType} (h : ty ≠ .i32) (zero one : β) (t vals : Tensor β) (ix : Tensor Int)
    (dim axis : Int) (classes : Nat) :
    gatherCuda ty zero t dim ix = .err ∧ indexPutCuda ty t dim ix vals = .err ∧
    onehotCuda ty zero one ix classes axis = .err ∧
    (t.dims.length > axisUsize t.dims.length dim → indexSelectCuda ty t dim ix = .err) := by
  refine ⟨if_pos h, if_pos h, if_pos h, fun hd => ?_⟩
  unfold indexSelectCuda
  simp only
  rw [if_neg (by omega), if_pos h]

example : onehotCuda .i64 (0 : Nat) 1 ⟨[0], Layout.fromShape [1]⟩ 2 0 = .err :=
  (C112_index_types (by decide) 0 1 ⟨[0], Layout.fromShape [1]⟩ ⟨[0], Layout.fromShape [1]⟩ ⟨[0], Layout.fromShape [1]⟩
    0 0 2).2.2.1

end Hodu.Cuda
