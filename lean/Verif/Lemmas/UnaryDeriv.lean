import Verif.Lemmas.RuleEval
import Verif.Lemmas.RealOps
import Mathlib.Analysis.Calculus.Deriv.Abs
import Mathlib.Tactic.Ring
import Mathlib.Tactic.Linarith
import Mathlib.Tactic.FieldSimp
import Mathlib.Tactic.Positivity

/-!
# Derivatives of the element-wise operators (C72)
-/

namespace Hodu
open Spec Real

/-- Where an operator is differentiable and its rule is defined, and what is needed of the rounded
constants. -/
def Spec.RegularU (k : KernelConsts) (κ : GConst → ℝ) (o : UOp) (x : ℝ) : Prop :=
  match o with
  | .abs | .sign | .relu | .recip => x ≠ 0
  | .sqrt => 0 < x
  | .hardsigmoid | .hardsilu => False
  | .gelu => κ .gelu = k.gelu ∧ κ .geluCoeff = k.geluCoeff ∧ κ .threeGeluCoeff = 3 * k.geluCoeff
  | .selu => x ≠ 0 ∧ κ .seluAlpha = k.seluAlpha ∧ κ .seluScale = k.seluScale
  | .tan => cos x ≠ 0
  | .asin | .acos | .atanh => -1 < x ∧ x < 1
  | .acosh => 1 < x
  | .ln => 0 < x
  | .log2 => 0 < x ∧ κ .ln2 = log 2
  | .log10 => 0 < x ∧ κ .ln10 = log 10
  | .exp2 => κ .ln2 = log 2
  | .exp10 => κ .ln10 = k.ln10
  | .erf => κ .twoOverSqrtPi = 2 / √π
  | .ceil | .floor => (⌊x⌋ : ℝ) ≠ x
  | .round => (⌊x + 1 / 2⌋ : ℝ) ≠ x + 1 / 2 ∧ (⌊-x + 1 / 2⌋ : ℝ) ≠ -x + 1 / 2 ∧ x ≠ 0
  | _ => True

theorem hasDerivAt_tanh' (x : ℝ) : HasDerivAt tanh (1 - tanh x * tanh x) x := by
  have h : HasDerivAt (fun y => sinh y / cosh y) ((cosh x * cosh x - sinh x * sinh x) / cosh x ^ 2) x :=
    (hasDerivAt_sinh x).div (hasDerivAt_cosh x) (cosh_pos x).ne'
  have he : (fun y => sinh y / cosh y) = tanh := by funext y; rw [tanh_eq_sinh_div_cosh]
  rw [he] at h
  refine h.congr_deriv ?_
  have := (cosh_pos x).ne'
  rw [tanh_eq_sinh_div_cosh]
  field_simp

theorem hasDerivAt_sigmoid' (x : ℝ) : HasDerivAt (fun x : ℝ => 1 / (1 + exp (-x)))
    (exp (-x) / (1 + exp (-x)) ^ 2) x := by
  have h0 : (1 + exp (-x)) ≠ 0 := by positivity
  have h1 : HasDerivAt (fun x : ℝ => 1 + exp (-x)) (exp (-x) * -1) x :=
    ((hasDerivAt_id x).neg.exp).const_add 1
  have := (hasDerivAt_const x (1 : ℝ)).div h1 h0
  refine this.congr_deriv ?_
  simp

theorem hasDerivAt_softplus' (x : ℝ) : HasDerivAt softplusR (1 / (1 + exp (-x))) x := by
  have h0 : (1 + exp x) ≠ 0 := by positivity
  have h1 : HasDerivAt (fun x : ℝ => 1 + exp x) (exp x) x := (hasDerivAt_exp x).const_add 1
  refine (h1.log h0).congr_deriv ?_
  have hm : exp (-x) * exp x = 1 := by rw [← exp_add]; simp
  have h2 : (1 + exp (-x)) ≠ 0 := by positivity
  rw [div_eq_div_iff h0 h2]
  nlinarith

theorem eventually_floor {x : ℝ} (h : (⌊x⌋ : ℝ) ≠ x) : ∀ᶠ y in nhds x, ⌊y⌋ = ⌊x⌋ := by
  have h1 : (⌊x⌋ : ℝ) < x := lt_of_le_of_ne (Int.floor_le x) h
  have h2 : x < ⌊x⌋ + 1 := Int.lt_floor_add_one x
  filter_upwards [lt_mem_nhds h1, gt_mem_nhds h2] with y h3 h4
  rw [Int.floor_eq_iff]
  exact ⟨h3.le, h4⟩

theorem hasDerivAt_softsign' (x : ℝ) : HasDerivAt (fun x : ℝ => x / (1 + |x|))
    (1 / ((1 + |x|) * (1 + |x|))) x := by
  rcases lt_trichotomy x 0 with hx | hx | hx
  · have h0 : (1 + |x|) ≠ 0 := by positivity
    have h1 : HasDerivAt (fun x : ℝ => 1 + |x|) (-1) x := (hasDerivAt_abs_neg hx).const_add 1
    refine ((hasDerivAt_id x).div h1 h0).congr_deriv ?_
    simp only [id]
    rw [abs_of_neg hx]
    rw [abs_of_neg hx] at h0
    field_simp
    ring
  · subst hx
    rw [hasDerivAt_iff_tendsto_slope]
    have : ∀ y : ℝ, y ∈ ({0}ᶜ : Set ℝ) → 1 / (1 + |y|) = slope (fun x : ℝ => x / (1 + |x|)) 0 y := by
      intro y hy
      have hy : y ≠ 0 := hy
      have h0 : (1 + |y|) ≠ 0 := by positivity
      rw [slope_def_field]
      simp only [abs_zero, zero_div, sub_zero]
      field_simp
    have hc : Filter.Tendsto (fun y : ℝ => 1 / (1 + |y|)) (nhdsWithin 0 {0}ᶜ)
        (nhds (1 / (1 + |(0 : ℝ)|))) := by
      apply Filter.Tendsto.mono_left _ nhdsWithin_le_nhds
      apply ContinuousAt.tendsto
      apply ContinuousAt.div continuousAt_const (continuousAt_const.add continuous_abs.continuousAt)
      simp
    have hv : (1 : ℝ) / ((1 + |(0 : ℝ)|) * (1 + |(0 : ℝ)|)) = 1 / (1 + |(0 : ℝ)|) := by simp
    rw [hv]
    refine hc.congr' ?_
    filter_upwards [self_mem_nhdsWithin] with y hy using this y hy
  · have h0 : (1 + |x|) ≠ 0 := by positivity
    have h1 : HasDerivAt (fun x : ℝ => 1 + |x|) 1 x := (hasDerivAt_abs_pos hx).const_add 1
    refine ((hasDerivAt_id x).div h1 h0).congr_deriv ?_
    simp only [id]
    rw [abs_of_pos hx]
    rw [abs_of_pos hx] at h0
    field_simp
    ring

/-- A function given by two formulas on the two sides of 0. -/
theorem hasDerivAt_split {f a b : ℝ → ℝ} {a' b' x : ℝ} (ha : HasDerivAt a a' x) (hb : HasDerivAt b b' x)
    (hfa : ∀ y, 0 < y → f y = a y) (hfb : ∀ y, y ≤ 0 → f y = b y) (hx : x ≠ 0) :
    HasDerivAt f (if 0 < x then a' else b') x := by
  rcases lt_or_gt_of_ne hx with h | h
  · rw [if_neg (by linarith)]
    refine hb.congr_of_eventuallyEq ?_
    filter_upwards [gt_mem_nhds h] with y hy using hfb y hy.le
  · rw [if_pos h]
    refine ha.congr_of_eventuallyEq ?_
    filter_upwards [lt_mem_nhds h] with y hy using hfa y hy

theorem hasDerivAt_celu' (x : ℝ) : HasDerivAt (fun x : ℝ => max 0 x + min 0 (exp x - 1))
    (if 0 < x then 1 else exp x) x := by
  have hfa : ∀ y : ℝ, 0 ≤ y → max 0 y + min 0 (exp y - 1) = y := by
    intro y hy
    rw [max_eq_right hy, min_eq_left, add_zero]
    have := one_le_exp hy
    linarith
  have hfb : ∀ y : ℝ, y ≤ 0 → max 0 y + min 0 (exp y - 1) = exp y - 1 := by
    intro y hy
    rw [max_eq_left hy, min_eq_right, zero_add]
    have := exp_le_one_iff.mpr hy
    linarith
  by_cases hx : x = 0
  · subst hx
    rw [if_neg (by simp)]
    have h1 : HasDerivWithinAt (fun x : ℝ => max 0 x + min 0 (exp x - 1)) (exp 0) (Set.Iic 0) 0 := by
      have h : HasDerivAt (fun x : ℝ => exp x - 1) (exp 0) 0 := (hasDerivAt_exp 0).sub_const 1
      exact h.hasDerivWithinAt.congr (fun y hy => hfb y hy) (hfb 0 le_rfl)
    have h2 : HasDerivWithinAt (fun x : ℝ => max 0 x + min 0 (exp x - 1)) (exp 0) (Set.Ici 0) 0 := by
      rw [exp_zero]
      exact (hasDerivAt_id (0 : ℝ)).hasDerivWithinAt.congr (fun y hy => hfa y hy) (hfa 0 le_rfl)
    have := h1.union h2
    rwa [Set.Iic_union_Ici, hasDerivWithinAt_univ] at this
  · exact hasDerivAt_split (hasDerivAt_id x) ((hasDerivAt_exp x).sub_const 1)
      (fun y hy => hfa y hy.le) hfb hx

theorem hasDerivAt_artanh' {x : ℝ} (h : -1 < x ∧ x < 1) :
    HasDerivAt artanh (1 / (1 - x * x)) x := by
  have h1 : (0 : ℝ) < 1 - x := by linarith
  have h2 : (0 : ℝ) < 1 + x := by linarith
  have e : ∀ᶠ y in nhds x, artanh y = 1 / 2 * (log (1 + y) - log (1 - y)) := by
    filter_upwards [lt_mem_nhds h.1, gt_mem_nhds h.2] with y h3 h4
    rw [artanh_eq_half_log ⟨h3.le, h4.le⟩, log_div (by linarith) (by linarith)]
  have d1 : HasDerivAt (fun y : ℝ => 1 + y) 1 x := (hasDerivAt_id x).const_add 1
  have d2 : HasDerivAt (fun y : ℝ => 1 - y) (-1) x := (hasDerivAt_id x).const_sub 1
  have d3 : HasDerivAt (fun y : ℝ => 1 / 2 * (log (1 + y) - log (1 - y)))
      (1 / 2 * (1 / (1 + x) - -1 / (1 - x))) x :=
    (((d1.log h2.ne').sub (d2.log h1.ne')).const_mul (1 / 2))
  refine (d3.congr_of_eventuallyEq e).congr_deriv ?_
  have h3 : (1 - x * x) = (1 - x) * (1 + x) := by ring
  rw [h3]
  field_simp
  ring

theorem hasDerivAt_gelu' (c b x : ℝ) :
    HasDerivAt (fun x : ℝ => 1 / 2 * x * (1 + tanh (c * (x + b * x * x * x))))
      (1 / 2 * (1 + tanh (c * (x + b * x * x * x))) +
        1 / 2 * x * ((1 - tanh (c * (x + b * x * x * x)) * tanh (c * (x + b * x * x * x))) *
          (c * (1 + 3 * b * (x * x))))) x := by
  have h1 : HasDerivAt (fun x : ℝ => c * (x + b * x * x * x)) (c * (1 + 3 * b * (x * x))) x := by
    have hb : HasDerivAt (fun x : ℝ => b * x * x * x) (3 * b * (x * x)) x := by
      have := ((((hasDerivAt_id x).const_mul b).mul (hasDerivAt_id x)).mul (hasDerivAt_id x))
      refine this.congr_deriv ?_
      simp only [id, Pi.mul_apply]
      ring
    exact ((hasDerivAt_id x).add hb).const_mul c
  have h2 : HasDerivAt (fun x : ℝ => tanh (c * (x + b * x * x * x))) _ x :=
    (hasDerivAt_tanh' _).comp x h1
  have h3 : HasDerivAt (fun x : ℝ => 1 / 2 * x) (1 / 2 * 1) x := (hasDerivAt_id x).const_mul _
  refine (h3.mul (h2.const_add 1)).congr_deriv ?_
  ring

theorem hasDerivAt_erf' (x : ℝ) : HasDerivAt erfR (2 / √π * exp (-(x * x))) x := by
  have hc : Continuous fun t : ℝ => exp (-(t * t)) := by fun_prop
  have h := intervalIntegral.integral_hasDerivAt_right (hc.intervalIntegrable 0 x)
    (hc.stronglyMeasurableAtFilter _ _) hc.continuousAt
  exact h.const_mul _

section
variable (k : KernelConsts) (κ : GConst → ℝ) (lo hi : ℝ)

/-- Every rule, evaluated on real numbers, is the incoming gradient times the derivative of the
operator's formula. -/
theorem unaryRule_deriv (o : UOp) (x g : ℝ) (h : RegularU k κ o x) :
    ∃ D, (unaryRule o).scalar (realOps k κ lo hi) [x, realUn k o x, g] = some (g * D) ∧
      HasDerivAt (realUn k o) D x := by
  cases o
  case neg =>
    exact ⟨-1, by simp [unaryRule, Ex.scalar, realOps, realUn], (hasDerivAt_id x).neg⟩
  case abs =>
    have hx : x ≠ 0 := h
    refine ⟨if 0 < x then 1 else -1, ?_, ?_⟩
    · rcases lt_or_gt_of_ne hx with h1 | h1
      · simp [unaryRule, Ex.scalar, realOps, realUn, realBin, h1, not_lt.mpr h1.le]
      · simp [unaryRule, Ex.scalar, realOps, realUn, realBin, h1]
    · exact hasDerivAt_split (f := fun y => |y|) (hasDerivAt_id x) (hasDerivAt_id x).neg
        (fun y hy => abs_of_pos hy) (fun y hy => abs_of_nonpos hy) hx
  case sign =>
    have hx : x ≠ 0 := h
    refine ⟨0, by simp [unaryRule, Ex.scalar, realOps, realCst], ?_⟩
    rcases lt_or_gt_of_ne hx with h1 | h1
    · refine (hasDerivAt_const x (-1)).congr_of_eventuallyEq ?_
      filter_upwards [gt_mem_nhds h1] with y hy
      simp [realUn, not_lt.mpr hy.le, hy]
    · refine (hasDerivAt_const x 1).congr_of_eventuallyEq ?_
      filter_upwards [lt_mem_nhds h1] with y hy
      simp [realUn, hy]
  case softsign =>
    exact ⟨_, by simp [unaryRule, Ex.scalar, realOps, realUn, realBin, realCst],
      hasDerivAt_softsign' x⟩
  case square =>
    refine ⟨x + x, by simp [unaryRule, Ex.scalar, realOps, realBin], ?_⟩
    refine ((hasDerivAt_id x).mul (hasDerivAt_id x)).congr_deriv ?_
    simp
  case sqrt =>
    have hx : 0 < x := h
    have hs : √x ≠ 0 := (Real.sqrt_pos.mpr hx).ne'
    refine ⟨1 / (2 * √x), ?_, hasDerivAt_sqrt hx.ne'⟩
    simp [unaryRule, Ex.scalar, realOps, realUn, realBin, realCst]
  case recip =>
    have hx : x ≠ 0 := h
    refine ⟨-(1 / (x * x)), by simp [unaryRule, Ex.scalar, realOps, realUn, realBin], ?_⟩
    have := (hasDerivAt_const x (1 : ℝ)).div (hasDerivAt_id x) hx
    refine this.congr_deriv ?_
    simp
    field_simp
  case relu =>
    have hx : x ≠ 0 := h
    refine ⟨if 0 < x then 1 else 0, ?_, ?_⟩
    · by_cases h1 : 0 < x <;>
        simp [unaryRule, Ex.scalar, FOps.ofBool, realOps, realBin, realCmp, realCst, h1]
    · exact hasDerivAt_split (f := realUn k .relu) (hasDerivAt_id x) (hasDerivAt_const x (0 : ℝ))
        (fun y hy => by simp [realUn, hy]) (fun y hy => by simp [realUn, not_lt.mpr hy]) hx
  case sigmoid =>
    refine ⟨_, ?_, hasDerivAt_sigmoid' x⟩
    have h0 : (1 + exp (-x)) ≠ 0 := by positivity
    simp only [unaryRule, Ex.scalar, realOps, realUn, realBin, realCst]
    simp
    left
    field_simp
    ring
  case hardsigmoid => exact h.elim
  case hardsilu => exact h.elim
  case gelu =>
    obtain ⟨h1, h2, h3⟩ := h
    refine ⟨_, ?_, hasDerivAt_gelu' k.gelu k.geluCoeff x⟩
    simp only [unaryRule, geluZ, Ex.scalar, realOps, realUn, realBin, realCst, h1, h2, h3]
    simp [realUn]
    left
    have e : (x + x * x * x * k.geluCoeff) * k.gelu = k.gelu * (x + k.geluCoeff * x * x * x) := by ring
    rw [e]
    ring
  case softplus =>
    exact ⟨_, by simp [unaryRule, Ex.scalar, realOps, realUn, realBin], hasDerivAt_softplus' x⟩
  case silu =>
    have h0 : (1 + exp (-x)) ≠ 0 := by positivity
    have hd := (hasDerivAt_id x).mul (hasDerivAt_sigmoid' x)
    have he : (id * fun x : ℝ => 1 / (1 + exp (-x))) = realUn k .silu := by
      funext y; simp [realUn, div_eq_mul_inv]
    rw [he] at hd
    refine ⟨_, ?_, hd⟩
    simp only [unaryRule, Ex.scalar, realOps, realUn, realBin, realCst]
    simp [realUn]
    left
    field_simp
    ring
  case mish =>
    have hd : HasDerivAt (fun x : ℝ => x * tanh (softplusR x)) _ x :=
      (hasDerivAt_id x).mul ((hasDerivAt_tanh' _).comp x (hasDerivAt_softplus' x))
    refine ⟨_, ?_, hd⟩
    simp only [unaryRule, mishT, Ex.scalar, realOps, realUn, realBin, realCst]
    simp [softplusR, realUn]
  case selu =>
    obtain ⟨hx, h1, h2⟩ := h
    refine ⟨if 0 < x then k.seluScale else k.seluScale * (k.seluAlpha * exp x), ?_, ?_⟩
    · by_cases h3 : 0 < x
      · simp [unaryRule, Ex.scalar, FOps.ofBool, realOps, realBin, realCmp, realCst, realUn, h1,
          h2, h3, not_le.mpr h3]
      · simp [unaryRule, Ex.scalar, FOps.ofBool, realOps, realBin, realCmp, realCst, realUn, h1,
          h2, h3, not_lt.mp h3]
        left
        ring
    · have ha : HasDerivAt (fun y : ℝ => k.seluScale * y) k.seluScale x := by
        simpa using (hasDerivAt_id x).const_mul k.seluScale
      have hb : HasDerivAt (fun y : ℝ => k.seluScale * (k.seluAlpha * (exp y - 1)))
          (k.seluScale * (k.seluAlpha * exp x)) x :=
        (((hasDerivAt_exp x).sub_const 1).const_mul _).const_mul _
      exact hasDerivAt_split (f := realUn k .selu) ha hb (fun y hy => by simp [realUn, hy])
        (fun y hy => by simp [realUn, not_lt.mpr hy]) hx
  case celu =>
    refine ⟨_, ?_, hasDerivAt_celu' x⟩
    by_cases h3 : 0 < x
    · simp [unaryRule, Ex.scalar, FOps.ofBool, realOps, realBin, realCmp, realCst, realUn, h3,
        not_le.mpr h3]
    · simp [unaryRule, Ex.scalar, FOps.ofBool, realOps, realBin, realCmp, realCst, realUn, h3,
        not_lt.mp h3]
  case sin =>
    exact ⟨_, by simp [unaryRule, Ex.scalar, realOps, realUn, realBin], hasDerivAt_sin x⟩
  case cos =>
    exact ⟨_, by simp [unaryRule, Ex.scalar, realOps, realUn, realBin], hasDerivAt_cos x⟩
  case tan =>
    have hx : cos x ≠ 0 := h
    refine ⟨_, ?_, (hasDerivAt_sin x).div (hasDerivAt_cos x) hx⟩
    simp only [unaryRule, Ex.scalar, realOps, realUn, realBin, realCst]
    simp
    left
    field_simp
    ring
  case asin =>
    obtain ⟨h1, h2⟩ := h
    refine ⟨_, ?_, hasDerivAt_arcsin h1.ne' h2.ne⟩
    simp [unaryRule, Ex.scalar, realOps, realUn, realBin, realCst, pow_two]
  case acos =>
    obtain ⟨h1, h2⟩ := h
    refine ⟨_, ?_, hasDerivAt_arccos h1.ne' h2.ne⟩
    simp [unaryRule, Ex.scalar, realOps, realUn, realBin, realCst, pow_two]
  case atan =>
    refine ⟨_, ?_, hasDerivAt_arctan x⟩
    simp [unaryRule, Ex.scalar, realOps, realUn, realBin, realCst, pow_two, add_comm]
  case sinh =>
    exact ⟨_, by simp [unaryRule, Ex.scalar, realOps, realUn, realBin], hasDerivAt_sinh x⟩
  case cosh =>
    exact ⟨_, by simp [unaryRule, Ex.scalar, realOps, realUn, realBin], hasDerivAt_cosh x⟩
  case tanh =>
    exact ⟨_, by simp [unaryRule, Ex.scalar, realOps, realUn, realBin, realCst], hasDerivAt_tanh' x⟩
  case asinh =>
    refine ⟨_, ?_, hasDerivAt_arsinh x⟩
    simp [unaryRule, Ex.scalar, realOps, realUn, realBin, realCst, pow_two, add_comm]
  case acosh =>
    have hx : 1 < x := h
    refine ⟨_, ?_, hasDerivAt_arcosh hx⟩
    simp [unaryRule, Ex.scalar, realOps, realUn, realBin, realCst, pow_two]
  case atanh =>
    refine ⟨_, ?_, hasDerivAt_artanh' h⟩
    simp [unaryRule, Ex.scalar, realOps, realUn, realBin, realCst]
  case exp =>
    exact ⟨_, by simp [unaryRule, Ex.scalar, realOps, realUn, realBin], hasDerivAt_exp x⟩
  case exp2 =>
    have h1 : κ .ln2 = log 2 := h
    refine ⟨2 ^ x * log 2, ?_, ?_⟩
    · simp [unaryRule, Ex.scalar, realOps, realUn, realBin, realCst, h1]
    · exact (hasStrictDerivAt_const_rpow (by norm_num) x).hasDerivAt
  case exp10 =>
    have h1 : κ .ln10 = k.ln10 := h
    have hd : HasDerivAt (fun x : ℝ => exp (x * k.ln10)) (exp (x * k.ln10) * (1 * k.ln10)) x :=
      ((hasDerivAt_id x).mul_const k.ln10).exp
    refine ⟨_, ?_, hd⟩
    simp [unaryRule, Ex.scalar, realOps, realUn, realBin, realCst, h1]
  case ln =>
    have hx : 0 < x := h
    exact ⟨_, by simp [unaryRule, Ex.scalar, realOps, realUn, realBin], hasDerivAt_log hx.ne'⟩
  case log2 =>
    obtain ⟨hx, h1⟩ := h
    refine ⟨x⁻¹ / log 2, ?_, (hasDerivAt_log hx.ne').div_const _⟩
    simp [unaryRule, Ex.scalar, realOps, realUn, realBin, realCst, h1]
    left
    ring
  case log10 =>
    obtain ⟨hx, h1⟩ := h
    refine ⟨x⁻¹ / log 10, ?_, (hasDerivAt_log hx.ne').div_const _⟩
    simp [unaryRule, Ex.scalar, realOps, realUn, realBin, realCst, h1]
    left
    ring
  case ceil =>
    refine ⟨0, by simp [unaryRule, Ex.scalar, realOps, realCst], ?_⟩
    have hx : (⌊x⌋ : ℝ) ≠ x := h
    refine (hasDerivAt_const x ((⌊x⌋ : ℝ) + 1)).congr_of_eventuallyEq ?_
    have h1 : (⌊x⌋ : ℝ) < x := lt_of_le_of_ne (Int.floor_le x) hx
    have h2 : x < ⌊x⌋ + 1 := Int.lt_floor_add_one x
    filter_upwards [lt_mem_nhds h1, gt_mem_nhds h2] with y h3 h4
    have : ⌈y⌉ = ⌊x⌋ + 1 := by
      rw [Int.ceil_eq_iff]
      push_cast
      exact ⟨by linarith, h4.le⟩
    simp [realUn, this]
  case floor =>
    refine ⟨0, by simp [unaryRule, Ex.scalar, realOps, realCst], ?_⟩
    refine (hasDerivAt_const x (⌊x⌋ : ℝ)).congr_of_eventuallyEq ?_
    filter_upwards [eventually_floor h] with y hy
    simp [realUn, hy]
  case round =>
    obtain ⟨h1, h2, h3⟩ := h
    refine ⟨0, by simp [unaryRule, Ex.scalar, realOps, realCst], ?_⟩
    rcases lt_or_gt_of_ne h3 with h4 | h4
    · refine (hasDerivAt_const x (-(⌊-x + 1 / 2⌋ : ℝ))).congr_of_eventuallyEq ?_
      have hc : Filter.Tendsto (fun y : ℝ => -y + 1 / 2) (nhds x) (nhds (-x + 1 / 2)) := by
        have : Continuous fun y : ℝ => -y + 1 / 2 := by fun_prop
        exact this.tendsto x
      filter_upwards [gt_mem_nhds h4, hc.eventually (eventually_floor h2)] with y h5 h6
      simp only [realUn, roundR, if_neg (not_le.mpr h5), h6]
    · refine (hasDerivAt_const x ((⌊x + 1 / 2⌋ : ℝ))).congr_of_eventuallyEq ?_
      have hc : Filter.Tendsto (fun y : ℝ => y + 1 / 2) (nhds x) (nhds (x + 1 / 2)) := by
        have : Continuous fun y : ℝ => y + 1 / 2 := by fun_prop
        exact this.tendsto x
      filter_upwards [lt_mem_nhds h4, hc.eventually (eventually_floor h1)] with y h5 h6
      simp only [realUn, roundR, if_pos h5.le, h6]
  case erf =>
    have h1 : κ .twoOverSqrtPi = 2 / √π := h
    refine ⟨_, ?_, hasDerivAt_erf' x⟩
    simp [unaryRule, Ex.scalar, realOps, realUn, realBin, realCst, h1]
    left
    ring

end

end Hodu
