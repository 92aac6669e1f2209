import Verif.Model.GradRules
import Mathlib.Analysis.SpecialFunctions.Trigonometric.ArctanDeriv
import Mathlib.Analysis.SpecialFunctions.Trigonometric.InverseDeriv
import Mathlib.Analysis.SpecialFunctions.Trigonometric.DerivHyp
import Mathlib.Analysis.SpecialFunctions.Arsinh
import Mathlib.Analysis.SpecialFunctions.Arcosh
import Mathlib.Analysis.SpecialFunctions.Artanh
import Mathlib.Analysis.SpecialFunctions.Log.Deriv
import Mathlib.Analysis.SpecialFunctions.Log.Base
import Mathlib.Analysis.SpecialFunctions.Pow.Deriv
import Mathlib.Analysis.SpecialFunctions.Sqrt
import Mathlib.MeasureTheory.Integral.IntervalIntegral.FundThmCalculus

/-!
# The kernels' formulas over the real numbers

The element-wise formulas of ops_unary.c:545-1110, math_utils.h:33-226, ops_binary.c:402-405, read as
formulas about real numbers (rounding, overflow and NaN are not modelled).  The numeric constants
which the code writes as rounded decimals are parameters: `κ` for the constants of the backward rules,
`Kernel` for those of the kernels, so that statements about them say what is needed of them.
-/

namespace Hodu
open Real

/-- Constants written in the kernels: `0.7978845608`, `0.044715` (math_utils.h:171-177),
`SELU_ALPHA`, `SELU_SCALE` (200-203), `M_LN10` (161-163). -/
structure KernelConsts where
  gelu : ℝ
  geluCoeff : ℝ
  seluAlpha : ℝ
  seluScale : ℝ
  ln10 : ℝ

/-- `hardsigmoid_helper`, math_utils.h:187-193. -/
noncomputable def hardsigmoidR (x : ℝ) : ℝ := max 0 (min 1 ((x + 3) / 6))

/-- `softplus_helper`, math_utils.h:179-181. -/
noncomputable def softplusR (x : ℝ) : ℝ := log (1 + exp x)

/-- `erf` of the C library. -/
noncomputable def erfR (x : ℝ) : ℝ := 2 / √π * ∫ t in (0 : ℝ)..x, exp (-(t * t))

/-- `round` of the C library: half away from zero. -/
noncomputable def roundR (x : ℝ) : ℝ := if 0 ≤ x then (⌊x + 1 / 2⌋ : ℝ) else -(⌊-x + 1 / 2⌋ : ℝ)

/-- The quotient truncated toward zero, as in `fmod`. -/
noncomputable def truncR (x : ℝ) : ℝ := if 0 ≤ x then (⌊x⌋ : ℝ) else (⌈x⌉ : ℝ)

/-- The unary kernels over the reals: ops_unary.c:440-900 (f32), 905-1100 (f64), with the helpers of
math_utils.h.  `tan` without the clamping next to the poles (tan_opt, 143-158). -/
noncomputable def realUn (k : KernelConsts) : UOp → ℝ → ℝ
  | .neg, x => -x
  | .abs, x => |x|
  | .sign, x => if 0 < x then 1 else if x < 0 then -1 else 0
  | .softsign, x => x / (1 + |x|)
  | .square, x => x * x
  | .sqrt, x => √x
  | .recip, x => 1 / x
  | .relu, x => if 0 < x then x else 0
  | .sigmoid, x => 1 / (1 + exp (-x))
  | .hardsigmoid, x => hardsigmoidR x
  | .gelu, x => 1 / 2 * x * (1 + tanh (k.gelu * (x + k.geluCoeff * x * x * x)))
  | .softplus, x => softplusR x
  | .silu, x => x / (1 + exp (-x))
  | .hardsilu, x => x * hardsigmoidR x
  | .mish, x => x * tanh (softplusR x)
  | .selu, x => k.seluScale * (if 0 < x then x else k.seluAlpha * (exp x - 1))
  | .celu, x => max 0 x + min 0 (exp x - 1)
  | .sin, x => sin x
  | .cos, x => cos x
  | .tan, x => sin x / cos x
  | .asin, x => arcsin x
  | .acos, x => arccos x
  | .atan, x => arctan x
  | .sinh, x => sinh x
  | .cosh, x => cosh x
  | .tanh, x => tanh x
  | .asinh, x => arsinh x
  | .acosh, x => arcosh x
  | .atanh, x => artanh x
  | .exp, x => exp x
  | .exp2, x => (2 : ℝ) ^ x
  | .exp10, x => exp (x * k.ln10)
  | .ln, x => log x
  | .log2, x => logb 2 x
  | .log10, x => logb 10 x
  | .ceil, x => (⌈x⌉ : ℝ)
  | .floor, x => (⌊x⌋ : ℝ)
  | .round, x => roundR x
  | .erf, x => erfR x

/-- The binary kernels over the reals: ops_binary.c:402-505; `fmod`, `pow_opt` (math_utils.h:95-123)
for the arguments where it is a number. -/
noncomputable def realBin : BOp → ℝ → ℝ → ℝ
  | .add, x, y => x + y
  | .sub, x, y => x - y
  | .mul, x, y => x * y
  | .div, x, y => x / y
  | .rem, x, y => x - y * truncR (x / y)
  | .pow, x, y => x ^ y
  | .maximum, x, y => if y < x then x else y
  | .minimum, x, y => if x < y then x else y

open Classical in
/-- The comparisons over the reals. -/
noncomputable def realCmp : COp → ℝ → ℝ → Bool
  | .lt, x, y => decide (x < y)
  | .le, x, y => decide (x ≤ y)
  | .gt, x, y => decide (y < x)
  | .ge, x, y => decide (y ≤ x)
  | .eq, x, y => decide (x = y)

/-- The constants of the backward rules: 0, 1 and 1/2 are exact in every floating-point dtype, the
others are whatever `Scalar::from_f32` makes of the rule's literal. -/
noncomputable def realCst (κ : GConst → ℝ) : GConst → ℝ
  | .zero => 0
  | .one => 1
  | .half => 1 / 2
  | c => κ c

/-- The element arithmetic over the reals. -/
noncomputable def realOps (k : KernelConsts) (κ : GConst → ℝ) (lo hi : ℝ) : FOps ℝ where
  un := realUn k
  bin := realBin
  cmp := realCmp
  cst := realCst κ
  ofNat n := n
  lowest := lo
  highest := hi

end Hodu
