import Verif.Lemmas.Kernels

/-! Helper lemmas about tensors and views. -/

namespace Hodu
open Spec

theorem Tensor.elem_lt {t : Tensor α} {idx : List Nat} (h : (t.elem idx).isSome) :
    t.layout.offset + dot idx t.layout.strides < t.storage.length := by
  unfold Tensor.elem at h
  by_contra hc
  rw [List.getElem?_eq_none (by omega)] at h
  simp at h

theorem isContiguous_rank0 {l : Layout} (h : l.dims = []) : l.isContiguous = true := by
  simp [Layout.isContiguous, h, Layout.isContiguousLoop]

/-- The contiguous-copy kernel returns the elements of the view in row-major order (rank ≥ 1). -/
theorem contiguousKernel_ok {t : Tensor α} (h : t.WF) (hd : t.dims ≠ []) :
    ∃ s : List α, contiguousKernel t.storage (unaryMetadata t.layout t.layout) = .ok s ∧
      s.length = numel t.dims ∧
      ∀ i, i < numel t.dims → s[i]? = t.elem (unravel t.dims i) := by
  obtain ⟨hl, hwf⟩ := h
  have hpos : 0 < t.layout.dims.length := List.length_pos_iff.mpr hd
  have hget : ∀ i, i < numel t.dims →
      t.layout.offset + dot (unravel t.dims i) t.layout.strides < t.storage.length :=
    fun i hi => t.elem_lt (hwf _ (unravel_inRange hi))
  by_cases hn : 0 < numel t.dims
  case neg =>
    have hz : numel t.dims = 0 := by omega
    refine ⟨[], ?_, by simp [hz], fun i hi => by omega⟩
    unfold contiguousKernel
    rw [decodeUnary_unaryMetadata hl]
    simp only [Res.ok_bind, Layout.size, shapeSize_eq, hz, runLoop, List.range_zero, Res.mapL]
    split <;> rfl
  have hne : Nonempty α := ⟨t.storage.get ⟨_, hget 0 hn⟩⟩
  let g : Nat → α := fun i =>
    (t.storage[t.layout.offset + dot (unravel t.dims i) t.layout.strides]?).getD hne.some
  have hg : ∀ i, i < numel t.dims →
      readC t.storage (t.layout.offset + dot (unravel t.dims i) t.layout.strides) = .ok (g i) := by
    intro i hi
    rw [readC_ok (hget i hi)]
    simp [g, hget i hi]
  refine ⟨(List.range (numel t.dims)).map g, ?_, by simp, ?_⟩
  · unfold contiguousKernel
    rw [decodeUnary_unaryMetadata hl]
    simp only [Res.ok_bind, Layout.size, shapeSize_eq, hpos, if_true]
    split
    case isTrue hc =>
      apply runLoop_ok
      intro i hi
      have := hg i hi
      rwa [← kernelIndex_cont hl hi hc] at this
    case isFalse hc =>
      apply runLoop_ok
      intro i hi
      rw [getStridedIndex_eq_dot hl hi]
      exact hg i hi
  · intro i hi
    simp [hi, g, Tensor.elem, hget i hi]

/-- `contiguous()` on a well-formed tensor: a row-major layout with the same elements. -/
theorem contiguous_spec {t : Tensor α} (h : t.WF) :
    ∃ s o, t.contiguous = .ok ⟨s, ⟨t.dims, Layout.computeStrides t.dims, o⟩⟩ ∧
      (∀ idx, InRange idx t.dims → s[o + rowMajor t.dims idx]? = t.elem idx) ∧
      ((o = 0 ∧ s.length = numel t.dims ∧ t.layout.isContiguous = false) ∨
        (s = t.storage ∧ o = t.layout.offset ∧ t.layout.isContiguous = true)) := by
  by_cases hc : t.layout.isContiguous = true
  · have hs := (isContiguous_iff h.1).mp hc
    refine ⟨t.storage, t.layout.offset, ?_, ?_, Or.inr ⟨rfl, rfl, hc⟩⟩
    · obtain ⟨s, ⟨d, st, o⟩⟩ := t
      simp only at hs hc
      subst hs
      simp [Tensor.contiguous, hc]
    · intro idx _
      simp [Tensor.elem, hs, dot_computeStrides]
  · have hd : t.dims ≠ [] := fun hd => hc (isContiguous_rank0 hd)
    obtain ⟨s, h1, h2, h3⟩ := contiguousKernel_ok h hd
    have hcf : t.layout.isContiguous = false := by simpa using hc
    refine ⟨s, 0, ?_, ?_, Or.inl ⟨rfl, h2, hcf⟩⟩
    · simp [Tensor.contiguous, Tensor.storageContiguous, hcf, h1, Layout.fromShape]
    · intro idx hi
      rw [Nat.zero_add, h3 _ (rowMajor_lt hi), unravel_rowMajor hi]

/-- A view operation only sees a row-major layout over a buffer with the same elements. -/
theorem viewVia_spec {t : Tensor α} (h : t.WF) (f : Layout → Res Layout) :
    ∃ s o, t.viewVia f = (f ⟨t.dims, Layout.computeStrides t.dims, o⟩).bind
        (fun l => .ok { storage := s, layout := l }) ∧
      (∀ idx, InRange idx t.dims → s[o + rowMajor t.dims idx]? = t.elem idx) := by
  obtain ⟨s, o, h1, h2, _⟩ := contiguous_spec h
  exact ⟨s, o, by simp [Tensor.viewVia, h1], h2⟩

theorem isContiguous_computeStrides (dims : List Nat) (o : Nat) :
    Layout.isContiguous ⟨dims, Layout.computeStrides dims, o⟩ = true :=
  (isContiguous_iff (computeStrides_length dims)).mpr rfl

theorem elem_rowMajor (s : List α) (dims : List Nat) (o : Nat) (idx : List Nat) :
    Tensor.elem ⟨s, ⟨dims, Layout.computeStrides dims, o⟩⟩ idx = s[o + rowMajor dims idx]? := by
  simp [Tensor.elem, dot_computeStrides]

/-- If every in-range index of the result has the value of an in-range index of a well-formed
source, the result is well formed. -/
theorem WF_of_map {t r : Tensor α} (ht : t.WF) (hl : r.layout.strides.length = r.dims.length)
    (φ : List Nat → List Nat) (h : ∀ idx, InRange idx r.dims →
      InRange (φ idx) t.dims ∧ r.elem idx = t.elem (φ idx)) : r.WF := by
  refine ⟨hl, fun idx hi => ?_⟩
  obtain ⟨h1, h2⟩ := h idx hi
  rw [h2]
  exact ht.2 _ h1

theorem dot_set {idx strides : List Nat} {k v : Nat} (hk : k < idx.length)
    (hl : strides.length = idx.length) :
    dot (idx.set k v) strides + idx[k] * strides[k] = dot idx strides + v * strides[k] := by
  induction idx generalizing strides k with
  | nil => simp at hk
  | cons i is ih =>
    cases strides with
    | nil => simp at hl
    | cons s ss =>
      cases k with
      | zero => simp [dot]; omega
      | succ k =>
        simp only [List.length_cons, Nat.add_lt_add_iff_right] at hk
        simp only [List.length_cons, Nat.add_right_cancel_iff] at hl
        have := ih hk hl
        simp only [List.set_cons_succ, dot, List.getElem_cons_succ]
        omega

theorem dot_set_strides {idx strides : List Nat} {k v : Nat} (hk : k < idx.length)
    (hl : strides.length = idx.length) :
    dot idx (strides.set k v) + idx[k] * strides[k] = dot idx strides + idx[k] * v := by
  induction idx generalizing strides k with
  | nil => simp at hk
  | cons i is ih =>
    cases strides with
    | nil => simp at hl
    | cons s ss =>
      cases k with
      | zero => simp [dot]; omega
      | succ k =>
        simp only [List.length_cons, Nat.add_lt_add_iff_right] at hk
        simp only [List.length_cons, Nat.add_right_cancel_iff] at hl
        have := ih hk hl
        simp only [List.set_cons_succ, dot, List.getElem_cons_succ]
        omega

theorem castUsize_nat {k : Nat} (h : k < 2 ^ 64) : castUsize (k : Int) = k := by
  unfold castUsize
  rw [Int.emod_eq_of_lt (by omega) (by omega)]
  simp

/-- Axis normalisation by `as usize` casts (unsqueeze/squeeze/slice): in-range axes. -/
theorem castUsize_axis {n k : Nat} {d : Int} (hn : n < 2 ^ 31) (h : IsAxis n d k) :
    (if d < 0 then castUsize ((n : Int) + d) else castUsize d) = k := by
  obtain ⟨hk, h | h⟩ := h
  · subst h
    rw [if_neg (by omega), castUsize_nat (by omega)]
  · have : (n : Int) + d = k := by omega
    rw [if_pos (by omega), this, castUsize_nat (by omega)]

/-- Axis normalisation by `as usize` casts: out-of-range axes come out past the rank. -/
theorem castUsize_not_axis {n : Nat} {d : Int} (hn : n < 2 ^ 31) (hd : I32 d)
    (h : ∀ k, ¬ IsAxis n d k) :
    n ≤ (if d < 0 then castUsize ((n : Int) + d) else castUsize d) := by
  obtain ⟨hd1, hd2⟩ := hd
  split
  case isTrue hneg =>
    have : (n : Int) + d < 0 := by
      by_contra hc
      exact h ((n : Int) + d).toNat ⟨by omega, Or.inr (by omega)⟩
    unfold castUsize
    have h2 : ((n : Int) + d) % 2 ^ 64 = (n : Int) + d + 2 ^ 64 := by omega
    rw [h2]; omega
  case isFalse hpos =>
    have : (n : Int) ≤ d := by
      by_contra hc
      exact h d.toNat ⟨by omega, Or.inl (by omega)⟩
    have h2 : d = (d.toNat : Int) := by omega
    rw [h2, castUsize_nat (by omega)]; omega

theorem normalizeAxis_iff {dims : List Nat} {d : Int} {k : Nat} :
    normalizeAxis dims d = some k ↔ IsAxis dims.length d k := by
  unfold normalizeAxis IsAxis
  simp only
  split <;> split <;> simp <;> omega

theorem normalizeAxis_none {dims : List Nat} {d : Int} (h : ∀ k, ¬ IsAxis dims.length d k) :
    normalizeAxis dims d = none := by
  cases hc : normalizeAxis dims d with
  | none => rfl
  | some k => exact absurd (normalizeAxis_iff.mp hc) (h k)

end Hodu
