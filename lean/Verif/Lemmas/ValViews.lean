import Verif.Lemmas.Compose

/-!
# Views of tensors with known values

The view operations for `Val` (Lemmas/Compose.lean): they act on a contiguous copy or on the tensor
itself, whose buffer then holds the values in row-major order.
-/

namespace Hodu
open Spec

variable {α : Type}

/-- The buffer a view operation works on. -/
theorem Val.viewC {t : Tensor α} {d : List Nat} {F : List Nat → α} (h : Val t d F) :
    ∃ s, (∀ f, t.viewVia f = (f ⟨d, Layout.computeStrides d, 0⟩).bind fun l => .ok ⟨s, l⟩) ∧
      ∀ idx, InRange idx d → s[rowMajor d idx]? = some (F idx) := by
  obtain ⟨s, o, c1, c2, c3⟩ := contiguous_spec h.wf
  have ho : o = 0 := by
    rcases c3 with ⟨c3, _⟩ | ⟨_, c3, c4⟩
    · exact c3
    · rcases h.off with hoff | hoff
      · rw [hoff] at c4; simp at c4
      · omega
  subst ho
  rw [h.dims] at c1 c2
  refine ⟨s, fun f => by simp only [Tensor.viewVia, c1, Res.ok_bind], fun idx hi => ?_⟩
  have := c2 idx hi
  rw [h.vals idx hi] at this
  simpa using this

/-- A row-major layout at offset zero over a buffer with known content. -/
theorem Val.of_rowMajor {s : List α} {d : List Nat} {F : List Nat → α}
    (h : ∀ idx, InRange idx d → s[rowMajor d idx]? = some (F idx)) :
    Val ⟨s, ⟨d, Layout.computeStrides d, 0⟩⟩ d F := by
  have hv : ∀ idx, InRange idx d →
      Tensor.elem ⟨s, ⟨d, Layout.computeStrides d, 0⟩⟩ idx = some (F idx) := by
    intro idx hi
    simp only [Tensor.elem, dot_computeStrides]
    simpa using h idx hi
  exact ⟨⟨computeStrides_length d, fun idx hi => by rw [hv idx hi]; rfl⟩, rfl, Or.inr rfl, hv⟩

/-- `reshape` keeps the row-major order of the elements. -/
theorem Val.reshape {t : Tensor α} {d e : List Nat} {F G : List Nat → α} (h : Val t d F)
    (hn : numel d = numel e)
    (hv : ∀ i j, InRange i d → InRange j e → rowMajor d i = rowMajor e j → F i = G j) :
    ∃ r, t.reshape e = .ok r ∧ Val r e G := by
  obtain ⟨s, h1, h2⟩ := h.viewC
  refine ⟨⟨s, ⟨e, Layout.computeStrides e, 0⟩⟩, ?_, Val.of_rowMajor fun idx hi => ?_⟩
  · rw [Tensor.reshape, if_neg, h1]
    · simp [Layout.reshape, Layout.size, shapeSize_eq, hn, isContiguous_computeStrides]
    · have : t.layout.dims = d := h.dims
      simp [Layout.size, shapeSize_eq, this, hn]
  · have hlt : rowMajor e idx < numel d := by rw [hn]; exact rowMajor_lt hi
    have hu := unravel_inRange hlt
    rw [← rowMajor_unravel hlt, h2 _ hu, hv _ idx hu hi (rowMajor_unravel hlt)]

theorem inRange_snoc {i d : List Nat} {a n : Nat} (hi : InRange i d) (ha : a < n) :
    InRange (i ++ [a]) (d ++ [n]) := by
  induction d generalizing i with
  | nil => cases i with
    | nil => exact ⟨ha, trivial⟩
    | cons _ _ => exact absurd hi id
  | cons x xs ih => cases i with
    | nil => exact absurd hi id
    | cons y ys => exact ⟨hi.1, ih hi.2⟩

theorem inRange_of_snoc {j d : List Nat} {n : Nat} (hj : InRange j (d ++ [n])) :
    ∃ i a, j = i ++ [a] ∧ InRange i d ∧ a < n := by
  induction d generalizing j with
  | nil => match j, hj with
    | [a], ⟨ha, _⟩ => exact ⟨[], a, rfl, trivial, ha⟩
  | cons x xs ih => match j, hj with
    | y :: ys, ⟨h1, h2⟩ =>
      obtain ⟨i, a, rfl, h3, h4⟩ := ih h2
      exact ⟨y :: i, a, rfl, ⟨h1, h3⟩, h4⟩

theorem rowMajor_snoc {i d : List Nat} {a n : Nat} (hi : InRange i d) :
    rowMajor (d ++ [n]) (i ++ [a]) = rowMajor d i * n + a := by
  induction d generalizing i with
  | nil => cases i with
    | nil => simp [rowMajor, numel]
    | cons _ _ => exact absurd hi id
  | cons x xs ih => cases i with
    | nil => exact absurd hi id
    | cons y ys =>
      simp only [List.cons_append, rowMajor]
      rw [ih hi.2, show numel (xs ++ [n]) = numel xs * n by
        clear ih hi; induction xs with
        | nil => simp [numel]
        | cons z zs ih => simp only [List.cons_append, numel]; rw [ih, Nat.mul_assoc]]
      rw [Nat.add_mul, Nat.mul_assoc, Nat.add_assoc]

/-- `unsqueeze(-1)`. -/
theorem Val.unsqueezeLast {t : Tensor α} {d : List Nat} {F : List Nat → α} (h : Val t d F)
    (hr : d.length < 2 ^ 31 - 1) :
    ∃ s, t.unsqueeze (-1) = .ok ⟨s, ⟨d ++ [1], Layout.computeStrides (d ++ [1]), 0⟩⟩ ∧
      Val ⟨s, ⟨d ++ [1], Layout.computeStrides (d ++ [1]), 0⟩⟩ (d ++ [1]) (fun j => F j.dropLast) := by
  obtain ⟨s, h1, h2⟩ := h.viewC
  refine ⟨s, ?_, Val.of_rowMajor fun idx hi => ?_⟩
  · rw [Tensor.unsqueeze, h1]
    have hc : castUsize (d.length : Int) = d.length := castUsize_nat (by omega)
    simp [Layout.unsqueeze, Layout.ndim, hc, isContiguous_computeStrides]
  · obtain ⟨i, a, rfl, h3, h4⟩ := inRange_of_snoc hi
    obtain rfl : a = 0 := by omega
    rw [rowMajor_snoc h3]
    simpa using h2 i h3

/-- `squeeze([-1])` of a tensor whose last dimension is 1. -/
theorem Val.squeezeLast {t : Tensor α} {d : List Nat} {F : List Nat → α} (h : Val t (d ++ [1]) F)
    (hr : d.length < 2 ^ 31 - 1) :
    ∃ r, t.squeeze [-1] = .ok r ∧ Val r d (fun i => F (i ++ [0])) := by
  obtain ⟨s, h1, h2⟩ := h.viewC
  refine ⟨⟨s, ⟨d, Layout.computeStrides d, 0⟩⟩, ?_, Val.of_rowMajor fun idx hi => ?_⟩
  · rw [Tensor.squeeze, h1]
    have hc : castUsize (((d ++ [1]).length : Int) + -1) = d.length := by
      have e : ((d ++ [1]).length : Int) + -1 = (d.length : Int) := by simp
      exact (congrArg castUsize e).trans (castUsize_nat (by omega))
    have hsq : Layout.squeezeAxes (d ++ [1]) [-1] = .ok [d.length] := by
      simp only [Layout.squeezeAxes]
      rw [if_pos (by decide : (-1 : Int) < 0), hc]
      simp
    simp only [Layout.squeeze, isContiguous_computeStrides, hsq]
    simp [Layout.removeAll, List.eraseIdx_append_of_length_le]
  · have := h2 (idx ++ [0]) (inRange_snoc hi (by omega))
    rw [rowMajor_snoc hi] at this
    simpa using this

end Hodu
