import Verif.Lemmas.Typed
import Verif.Lemmas.ValViews
import Verif.Model.Losses
import Verif.Props.Softmax
import Verif.Props.Indexing

/-!
# Reductions, log-softmax, gather and squeeze of tensors with element types
-/

namespace Hodu
open Spec

section
variable {α : Type} (E : Rt α) {dt : DType}

theorem Res.bind_assoc {β γ : Type} (x : Res α) (f : α → Res β) (g : β → Res γ) :
    (x.bind f).bind g = x.bind fun a => (f a).bind g := by
  cases x <;> rfl

theorem Rt.bin_num (hf : dt.isFloat = true) {o : BOp} (ho : o ≠ .rem) (s t : Tensor α) :
    E.bin o (.num dt s) (.num dt t) =
      (Tensor.binary E.cores (E.A.bin o) E.fill s t).bind fun r => .ok (.num dt r) := by
  obtain ⟨l, hl⟩ := backend_binary hf ho
  simp [Rt.bin, TT.dtype, validate_binary hf, hl]

theorem Rt.un_num (hf : dt.isFloat = true) (o : UOp) (s : Tensor α) :
    E.un o (.num dt s) = (s.unary E.cores (E.A.un o) E.fill).bind fun r => .ok (.num dt r) := by
  obtain ⟨l, hl⟩ := backend_unary hf o
  simp [Rt.un, TT.dtype, validate_unary hf, hl]

theorem Rt.red_num (hf : dt.isFloat = true) (o : ROp) (ds : List Int) (keep : Bool) (s : Tensor α) :
    E.red o ds keep (.num dt s) = (s.red E.A o ds keep).bind fun r => .ok (.num dt r) := by
  obtain ⟨l, hl⟩ := backend_red hf o
  simp [Rt.red, TT.dtype, validate_red hf, hl]

theorem Rt.logSoftmax_num (hf : dt.isFloat = true) (s : Tensor α) (a : Int) :
    E.logSoftmax (.num dt s) a =
      (s.logSoftmax E.A E.cores E.fill a).bind fun r => .ok (.num dt r) := by
  simp only [Rt.logSoftmax, Tensor.logSoftmax, TT.dims, E.red_num hf, Res.bind_assoc, Res.ok_bind,
    E.bin_num hf (o := .sub) (by simp), E.un_num hf]

/-- No binary operation takes booleans. -/
theorem Rt.bin_bool (o : BOp) (m : Tensor Bool) (y : TT α) : E.bin o (.bool m) y = .err := by
  unfold Rt.bin
  split
  · rfl
  · split
    · rfl
    · rfl

/-- A scalar of another type is rejected. -/
theorem Rt.scal_type (o : BOp) (x : TT α) (c : Sc α) (h : c.dt ≠ x.dtype) : E.scal o x c = .err := by
  unfold Rt.scal
  rw [if_pos h]
  split <;> rfl

/-- The result of a comparison with a scalar is boolean. -/
theorem Rt.cmpScal_bool {o : COp} {x : TT α} {c : Sc α} {r : TT α} (h : E.cmpScal o x c = .ok r) :
    ∃ t, r = .bool t := by
  unfold Rt.cmpScal at h
  split at h
  · cases h
  · split at h
    · cases h
    · split at h
      · obtain ⟨t, -, h⟩ := Res.bind_eq_ok.mp h
        obtain ⟨u, -, h⟩ := Res.bind_eq_ok.mp h
        cases h
        exact ⟨t, rfl⟩
      · cases h

/-- Element types of results. -/
theorem Rt.bin_dtype {o : BOp} {x y r : TT α} (h : E.bin o x y = .ok r) :
    r.dtype = x.dtype ∧ y.dtype = x.dtype := by
  unfold Rt.bin at h
  split at h
  · cases h
  · split at h
    · cases h
    · split at h
      · obtain ⟨t, -, h⟩ := Res.bind_eq_ok.mp h
        obtain ⟨u, -, h⟩ := Res.bind_eq_ok.mp h
        cases h
        simp_all [TT.dtype]
      · cases h

theorem Rt.un_dtype {o : UOp} {x r : TT α} (h : E.un o x = .ok r) : r.dtype = x.dtype := by
  unfold Rt.un at h
  split at h
  · cases h
  · split at h
    · obtain ⟨t, -, h⟩ := Res.bind_eq_ok.mp h
      obtain ⟨u, -, h⟩ := Res.bind_eq_ok.mp h
      cases h
      rfl
    · cases h

theorem Rt.red_dtype {o : ROp} {ds : List Int} {keep : Bool} {x r : TT α}
    (h : E.red o ds keep x = .ok r) : r.dtype = x.dtype := by
  unfold Rt.red at h
  split at h
  · cases h
  · split at h
    · obtain ⟨t, -, h⟩ := Res.bind_eq_ok.mp h
      obtain ⟨u, -, h⟩ := Res.bind_eq_ok.mp h
      cases h
      rfl
    · cases h

theorem TVal.squeezeLast {x : TT α} {d : List Nat} {F : List Nat → α} (h : TVal x dt (d ++ [1]) F)
    (hr : d.length < 2 ^ 31 - 1) :
    ∃ r, TT.squeeze x [-1] = .ok r ∧ TVal r dt d (fun i => F (i ++ [0])) := by
  obtain ⟨t, rfl, h⟩ := h
  obtain ⟨r, h1, h2⟩ := h.squeezeLast hr
  exact ⟨.num dt r, by simp [TT.squeeze, h1], r, rfl, h2⟩

end

/-! ### Reductions over the reals -/

theorem dropAxes_range (n i : Nat) (d : List Nat) (h : i + d.length ≤ n) :
    dropAxes (List.range n) i d = [] := by
  induction d generalizing i with
  | nil => rfl
  | cons x xs ih =>
    simp only [List.length_cons] at h
    rw [dropAxes, if_pos (by simp; omega)]
    exact ih (i + 1) (by omega)

theorem reduceShape_all (d : List Nat) : reduceShape (List.range d.length) false d = [] := by
  simp [reduceShape, dropAxes_range]

theorem cell_all (d : List Nat) : cell (List.range d.length) false d [] = allIndices d := by
  unfold cell
  rw [List.filter_eq_self]
  intro j hj
  have := (mem_allIndices.mp hj).length
  simp [reduceIndex, dropAxes_range, this]

variable {E : Rt ℝ} {dt : DType} {d : List Nat} {F : List Nat → ℝ}

/-- A reduction of a tensor of numbers. -/
theorem TVal.red (hE : E.Real) (hf : dt.isFloat = true) {x : TT ℝ} (h : TVal x dt d F) {ds : List Int}
    {K : List Nat} {keep : Bool} (hr : d.length ≤ 16) (hax : NamesAxes d.length ds K) (hn : K.Nodup)
    (hpd : ∀ y ∈ d, 0 < y) {o : ROp} (ho : o ≠ .max ∧ o ≠ .min) :
    ∃ r, E.red o ds keep x = .ok r ∧
      TVal r dt (reduceShape K keep d) (fun idx => redR o ((cell K keep d idx).map F)) := by
  obtain ⟨k, κ, lo, hi, hA⟩ := hE
  obtain ⟨t, rfl, h⟩ := h
  obtain ⟨r, h1, h2⟩ := h.red (keep := keep) hr hax hn hpd k κ lo hi o
    (by rintro (rfl | rfl) <;> simp at ho)
  exact ⟨.num dt r, by rw [E.red_num hf, hA, h1]; rfl, r, rfl, h2⟩

/-- The reduction of all elements. -/
theorem TVal.redAll (hE : E.Real) (hf : dt.isFloat = true) {x : TT ℝ} (h : TVal x dt d F)
    (hr : d.length ≤ 16) (hpd : ∀ y ∈ d, 0 < y) {o : ROp} (ho : o ≠ .max ∧ o ≠ .min) :
    ∃ r, E.red o [] false x = .ok r ∧
      TVal r dt [] (fun _ => redR o ((allIndices d).map F)) := by
  obtain ⟨r, h1, h2⟩ := TVal.red (keep := false) hE hf h hr (Or.inl ⟨rfl, rfl⟩) List.nodup_range hpd ho
  rw [reduceShape_all] at h2
  refine ⟨r, h1, h2.congr fun idx hi => ?_⟩
  match idx, hi with
  | [], _ => rw [cell_all]

theorem TVal.logSoftmax (hE : E.Real) (hf : dt.isFloat = true) {x : TT ℝ} (h : TVal x dt d F)
    (hr : d.length ≤ 16) (hpd : ∀ y ∈ d, 0 < y) {a : Int} {k : Nat} (ha : IsAxis d.length a k) :
    ∃ r, E.logSoftmax x a = .ok r ∧
      TVal r dt d (fun j => F j - Real.log (sumExp F k d j)) := by
  obtain ⟨kc, κ, lo, hi, hA⟩ := hE
  obtain ⟨t, rfl, h⟩ := h
  obtain ⟨r, h1, h2⟩ := logSoftmax_val kc κ lo hi h hr ha hpd E.cores E.fill
  exact ⟨.num dt r, by rw [E.logSoftmax_num hf, hA, h1]; rfl, r, rfl, h2⟩

end Hodu
