import Verif.Model.GradRules
import Mathlib.Data.Rat.Floor

/-!
# Computable element arithmetic for counterexamples

Rational numbers with a NaN (`none`), used to evaluate the backward rules on concrete tensors.  The
operations which are not rational (`exp`, `sqrt`, ...) are NaN and do not occur in the examples.
-/

namespace Hodu

/-- `x / y`; division by zero is not a number. -/
def ratDiv (x y : Option ℚ) : Option ℚ :=
  x.bind fun a => y.bind fun b => if b = 0 then none else some (a / b)

/-- The unary kernels on rational numbers. -/
def ratUn : UOp → Option ℚ → Option ℚ
  | .neg, x => x.map fun a => -a
  | .abs, x => x.map fun a => |a|
  | .square, x => x.map fun a => a * a
  | .relu, x => x.map fun a => if 0 < a then a else 0
  | .recip, x => ratDiv (some 1) x
  | .floor, x => x.map fun a => (⌊a⌋ : ℚ)
  | .ceil, x => x.map fun a => (⌈a⌉ : ℚ)
  | .sign, x => x.map fun a => if 0 < a then 1 else if a < 0 then -1 else 0
  | .hardsigmoid, x => x.map fun a => max 0 (min 1 ((a + 3) / 6))
  | _, _ => none

/-- The binary kernels on rational numbers (`fmod` truncates toward zero). -/
def ratBin : BOp → Option ℚ → Option ℚ → Option ℚ
  | .add, x, y => x.bind fun a => y.map fun b => a + b
  | .sub, x, y => x.bind fun a => y.map fun b => a - b
  | .mul, x, y => x.bind fun a => y.map fun b => a * b
  | .div, x, y => ratDiv x y
  | .rem, x, y => x.bind fun a => y.bind fun b => if b = 0 then none else
      some (a - b * (if 0 ≤ a / b then (⌊a / b⌋ : ℚ) else (⌈a / b⌉ : ℚ)))
  | .pow, _, _ => none
  | .maximum, x, y => x.bind fun a => y.map fun b => max a b
  | .minimum, x, y => x.bind fun a => y.map fun b => min a b

/-- The comparisons on rational numbers; false on NaN. -/
def ratCmp : COp → Option ℚ → Option ℚ → Bool
  | .lt, some a, some b => decide (a < b)
  | .le, some a, some b => decide (a ≤ b)
  | .gt, some a, some b => decide (b < a)
  | .ge, some a, some b => decide (b ≤ a)
  | .eq, some a, some b => decide (a = b)
  | _, _, _ => false

/-- Rational element arithmetic with NaN. -/
def ratOps : FOps (Option ℚ) where
  un := ratUn
  bin := ratBin
  cmp := ratCmp
  cst
    | .zero => some 0
    | .one => some 1
    | .half => some (1 / 2)
    | .oneSixth => some (1 / 6)
    | _ => none
  ofNat n := some n
  lowest := some (-1000000)
  highest := some 1000000

end Hodu
