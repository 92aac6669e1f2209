import Verif.Props.ReduceGrad

/-!
# Softmax: C70
-/

namespace Hodu
open Spec

theorem softmaxAxis_eq {n : Nat} (hn : n < 2 ^ 31) {a : Int} {k : Nat} (h : IsAxis n a k) :
    softmaxAxis n a = k := by
  obtain ⟨h1, h2⟩ := h
  unfold softmaxAxis
  rcases h2 with h2 | h2
  · rw [if_neg (by omega), h2]
    omega
  · rw [if_pos (by omega)]
    have : (n : Int) + a = k := by omega
    rw [this]
    omega

theorem namesAxes_single {n k : Nat} (hk : k < n) : NamesAxes n [(k : Int)] [k] :=
  Or.inr ⟨by simp, .cons ⟨hk, Or.inl rfl⟩ .nil⟩

/-- The sum of the exponentials of the cell of `j`. -/
noncomputable def Spec.sumExp (X : List Nat → ℝ) (k : Nat) (d j : List Nat) : ℝ :=
  ((cell [k] true d (reduceIndex [k] true j)).map fun i => Real.exp (X i)).sum

theorem sumExp_pos {X : List Nat → ℝ} {k : Nat} {d j : List Nat} (hj : InRange j d) :
    0 < sumExp X k d j := by
  have hne : (cell [k] true d (reduceIndex [k] true j)).map X ≠ [] := by
    intro h0
    have : j ∈ cell [k] true d (reduceIndex [k] true j) := mem_cell.mpr ⟨hj, rfl⟩
    simp only [List.map_eq_nil_iff] at h0
    rw [h0] at this
    simp at this
  have := sum_exp_pos hne
  rwa [List.map_map] at this

section
variable (kc : KernelConsts) (κ : GConst → ℝ) (lo hi : ℝ) {x : Tensor ℝ} {d : List Nat}
  {X : List Nat → ℝ} {a : Int} {k : Nat}

/-- The part shared by both functions: the shifted values, their exponentials and the sums of those,
for some shift which is the same along the axis. -/
theorem softmax_prefix (hx : Val x d X) (hr : d.length ≤ 16) (ha : IsAxis d.length a k)
    (hpd : ∀ y ∈ d, 0 < y) (cores : Nat) (fill : ℝ) :
    ∃ (S : List Nat → ℝ) (m sh ex s : Tensor ℝ),
      x.red (realOps kc κ lo hi) .max [(softmaxAxis x.dims.length a : Int)] true = .ok m ∧
      Tensor.binary cores ((realOps kc κ lo hi).bin .sub) fill x m = .ok sh ∧
      sh.unary cores ((realOps kc κ lo hi).un .exp) fill = .ok ex ∧
      ex.red (realOps kc κ lo hi) .sum [(softmaxAxis x.dims.length a : Int)] true = .ok s ∧
      Val sh d (fun j => X j - S (reduceIndex [k] true j)) ∧
      Val ex d (fun j => Real.exp (X j - S (reduceIndex [k] true j))) ∧
      Val s (reduceShape [k] true d)
        (fun idx => ((cell [k] true d idx).map fun j =>
          Real.exp (X j - S (reduceIndex [k] true j))).sum) := by
  have hax : softmaxAxis x.dims.length a = k := by
    rw [hx.dims]; exact softmaxAxis_eq (by omega) ha
  have hnm := namesAxes_single ha.1
  have hal := aligned_keep [k] d
  obtain ⟨m, L, h1, _, h3⟩ := hx.reduce (keep := true) hr hnm (by simp) hpd
    ((realOps kc κ lo hi).redL .max)
  obtain ⟨sh, h4, h5⟩ := hx.binary h3 hal.1 hpd (pos_reduceShape hpd) cores (realBin .sub) fill
  have h5' : Val sh d (fun j => X j -
      (realOps kc κ lo hi).redL .max ((L (reduceIndex [k] true j)).map X)) :=
    h5.congr fun j hj => by rw [hal.2 j hj]; rfl
  obtain ⟨ex, h6, h7⟩ := h5'.unary cores (realUn kc .exp) fill
  obtain ⟨s, h8, h9⟩ := h7.red (keep := true) hr hnm (by simp) hpd kc κ lo hi .sum (by simp)
  refine ⟨fun idx => (realOps kc κ lo hi).redL .max ((L idx).map X), m, sh, ex, s, ?_, h4, h6, ?_,
    h5', h7, h9⟩
  · rw [hax]; exact h1
  · rw [hax]; exact h8

theorem shifted_sum {S : List Nat → ℝ} {j : List Nat} :
    ((cell [k] true d (reduceIndex [k] true j)).map fun i =>
      Real.exp (X i - S (reduceIndex [k] true i))).sum =
    sumExp X k d j * Real.exp (-S (reduceIndex [k] true j)) := by
  unfold sumExp
  rw [← List.sum_map_mul_right]
  congr 1
  apply List.map_congr_left
  intro i hi
  rw [(mem_cell.mp hi).2, ← Real.exp_add]
  ring_nf

theorem softmax_val (hx : Val x d X) (hr : d.length ≤ 16) (ha : IsAxis d.length a k)
    (hpd : ∀ y ∈ d, 0 < y) (cores : Nat) (fill : ℝ) :
    ∃ r, x.softmax (realOps kc κ lo hi) cores fill a = .ok r ∧
      Val r d fun j => Real.exp (X j) / sumExp X k d j := by
  obtain ⟨S, m, sh, ex, s, h1, h2, h3, h4, h5, h6, h7⟩ :=
    softmax_prefix kc κ lo hi hx hr ha hpd cores fill
  have hal := aligned_keep [k] d
  obtain ⟨r, h8, h9⟩ := h6.binary h7 hal.1 hpd (pos_reduceShape hpd) cores (realBin .div) fill
  refine ⟨r, ?_, h9.congr fun j hj => ?_⟩
  · simp only [Tensor.softmax, h1, h2, h3, h4, Res.ok_bind]
    exact h8
  · rw [hal.2 j hj, shifted_sum]
    simp only [realBin]
    rw [show X j - S (reduceIndex [k] true j) = X j + -S (reduceIndex [k] true j) by ring,
      Real.exp_add, mul_div_mul_right _ _ (Real.exp_ne_zero _)]

/-- **C70 (partial), softmax**: over any axis of a tensor of real numbers, counted from either end,
`softmax` succeeds with a tensor of the same shape whose value at `j` is `exp x_j` divided by the sum
of the exponentials along the axis.

Missing: contiguous views with an offset (`C70_full_false`), rank above 16, zero sizes, rounding. -/
theorem C70_softmax_partial (hx : Val x d X) (hr : d.length ≤ 16) (ha : IsAxis d.length a k)
    (hpd : ∀ y ∈ d, 0 < y) (cores : Nat) (fill : ℝ) :
    ∃ r, x.softmax (realOps kc κ lo hi) cores fill a = .ok r ∧ r.WF ∧ r.dims = d ∧
      ∀ j, InRange j d → r.elem j = some (Real.exp (X j) / sumExp X k d j) := by
  obtain ⟨r, h1, h2⟩ := softmax_val kc κ lo hi hx hr ha hpd cores fill
  exact ⟨r, h1, h2.wf, h2.dims, h2.vals⟩

theorem logSoftmax_val (hx : Val x d X) (hr : d.length ≤ 16) (ha : IsAxis d.length a k)
    (hpd : ∀ y ∈ d, 0 < y) (cores : Nat) (fill : ℝ) :
    ∃ r, x.logSoftmax (realOps kc κ lo hi) cores fill a = .ok r ∧
      Val r d fun j => X j - Real.log (sumExp X k d j) := by
  obtain ⟨S, m, sh, ex, s, h1, h2, h3, h4, h5, h6, h7⟩ :=
    softmax_prefix kc κ lo hi hx hr ha hpd cores fill
  have hal := aligned_keep [k] d
  obtain ⟨l, h10, h11⟩ := h7.unary cores (realUn kc .ln) fill
  obtain ⟨r, h8, h9⟩ := h5.binary h11 hal.1 hpd (pos_reduceShape hpd) cores (realBin .sub) fill
  refine ⟨r, ?_, h9.congr fun j hj => ?_⟩
  · simp only [Tensor.logSoftmax, h1, h2, h3, h4, Res.ok_bind]
    rw [show (realOps kc κ lo hi).un .ln = realUn kc .ln from rfl, h10, Res.ok_bind]
    exact h8
  · rw [hal.2 j hj, shifted_sum]
    simp only [realBin, realUn]
    rw [Real.log_mul (sumExp_pos hj).ne' (Real.exp_ne_zero _), Real.log_exp]
    ring

/-- **C70 (partial), log_softmax**: the value at `j` is `x_j` minus the logarithm of the sum of the
exponentials along the axis. -/
theorem C70_log_softmax_partial (hx : Val x d X) (hr : d.length ≤ 16) (ha : IsAxis d.length a k)
    (hpd : ∀ y ∈ d, 0 < y) (cores : Nat) (fill : ℝ) :
    ∃ r, x.logSoftmax (realOps kc κ lo hi) cores fill a = .ok r ∧ r.WF ∧ r.dims = d ∧
      ∀ j, InRange j d → r.elem j = some (X j - Real.log (sumExp X k d j)) := by
  obtain ⟨r, h1, h2⟩ := logSoftmax_val kc κ lo hi hx hr ha hpd cores fill
  exact ⟨r, h1, h2.wf, h2.dims, h2.vals⟩

/-- **C70, distribution**: the values of a softmax are positive and sum to 1 along the axis. -/
theorem C70_distribution (hx : Val x d X) (hr : d.length ≤ 16) (ha : IsAxis d.length a k)
    (hpd : ∀ y ∈ d, 0 < y) (cores : Nat) (fill : ℝ) :
    ∃ (r : Tensor ℝ) (P : List Nat → ℝ), x.softmax (realOps kc κ lo hi) cores fill a = .ok r ∧
      (∀ j, InRange j d → r.elem j = some (P j) ∧ 0 < P j) ∧
      ∀ j, InRange j d → ((cell [k] true d (reduceIndex [k] true j)).map P).sum = 1 := by
  obtain ⟨r, h1, _, _, h4⟩ := C70_softmax_partial kc κ lo hi hx hr ha hpd cores fill
  refine ⟨r, fun j => Real.exp (X j) / sumExp X k d j, h1, fun j hj => ⟨h4 j hj,
    div_pos (Real.exp_pos _) (sumExp_pos hj)⟩, fun j hj => ?_⟩
  have : ((cell [k] true d (reduceIndex [k] true j)).map fun i => Real.exp (X i) / sumExp X k d i) =
      (cell [k] true d (reduceIndex [k] true j)).map
        fun i => Real.exp (X i) * (sumExp X k d j)⁻¹ := by
    apply List.map_congr_left
    intro i hi
    rw [div_eq_mul_inv]
    congr 2
    unfold sumExp
    rw [(mem_cell.mp hi).2]
  rw [this, List.sum_map_mul_right]
  exact mul_inv_cancel₀ (sumExp_pos hj).ne'

end

/-- **C70, full property**: whatever the element arithmetic, softmax of a well-formed tensor of
non-zero sizes along a valid axis is a well-formed tensor of the same shape. -/
def C70_full : Prop :=
  ∀ (α : Type) (A : FOps α) (fill : α) (x : Tensor α) (a : Int) (k : Nat), x.WF →
    IsAxis x.dims.length a k → x.dims.length ≤ 16 → (∀ y ∈ x.dims, 0 < y) →
    ∃ r, x.softmax A 1 fill a = .ok r ∧ r.WF ∧ r.dims = x.dims

/-- **C70 is false as stated**: for a contiguous view with an offset — here the second half of a
vector — the shifted values keep the view's offset over a buffer of their own size, and the next
kernel reads outside that buffer. -/
theorem C70_full_false : ¬ C70_full ∧
    Tensor.softmax ratOps 1 none ⟨[some 1, some 2, some 3, some 4], ⟨[2], [1], 2⟩⟩ 0 = .ub ∧
    Tensor.logSoftmax ratOps 1 none ⟨[some 1, some 2, some 3, some 4], ⟨[2], [1], 2⟩⟩ 0 = .ub := by
  have h0 : Tensor.softmax ratOps 1 none ⟨[some 1, some 2, some 3, some 4], ⟨[2], [1], 2⟩⟩ 0 = .ub := by
    decide +kernel
  refine ⟨fun h => ?_, h0, by decide +kernel⟩
  obtain ⟨r, h1, h2, h3⟩ := h _ ratOps none ⟨[some 1, some 2, some 3, some 4], ⟨[2], [1], 2⟩⟩ 0 0
    ⟨rfl, fun idx hi => by
      obtain ⟨i, rfl, hi⟩ : ∃ i, idx = [i] ∧ i < 2 := by
        match idx, hi with
        | [i], hi => exact ⟨i, rfl, hi.1⟩
      have : i = 0 ∨ i = 1 := by omega
      rcases this with rfl | rfl <;> rfl⟩
    ⟨by decide, Or.inl rfl⟩ (by decide) (by decide)
  rw [h1] at h0
  cases h0

/-- The hypotheses of C70 on a 2×2 matrix, last axis. -/
example :
    let x : Tensor ℝ := ⟨[1, 2, 3, 4], Layout.fromShape [2, 2]⟩
    x.WF ∧ IsAxis 2 (-1) 1 ∧ (x.layout.isContiguous = false ∨ x.layout.offset = 0) ∧
      cell [1] true [2, 2] (reduceIndex [1] true [1, 0]) = [[1, 0], [1, 1]] :=
  ⟨fresh_wf_list _ _ (by decide), by unfold IsAxis; decide, Or.inr rfl, by decide⟩

end Hodu
