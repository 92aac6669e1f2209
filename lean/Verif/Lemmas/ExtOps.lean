import Verif.Model.GradRules
import Mathlib.Data.Rat.Defs
import Mathlib.Algebra.Order.Ring.Rat

/-!
# Rational numbers with infinities and NaN

An element arithmetic with the special values of IEEE 754 and exact finite values, for concrete runs of
programs that produce infinities.  Signed zeros are not distinguished.
-/

namespace Hodu

/-- A finite number, an infinity (`true`: negative) or NaN. -/
inductive XQ where
  | fin (q : ℚ)
  | inf (neg : Bool)
  | nan
  deriving Repr, DecidableEq

namespace XQ

/-- IEEE 754 negation. -/
def neg : XQ → XQ
  | fin q => fin (-q)
  | inf s => inf (!s)
  | nan => nan

/-- IEEE 754 addition. -/
def add : XQ → XQ → XQ
  | fin a, fin b => fin (a + b)
  | fin _, inf s => inf s
  | inf s, fin _ => inf s
  | inf s, inf t => if s = t then inf s else nan
  | _, _ => nan

/-- IEEE 754 multiplication: zero times infinity is NaN. -/
def mul : XQ → XQ → XQ
  | fin a, fin b => fin (a * b)
  | fin a, inf s => if a = 0 then nan else inf (s != decide (a < 0))
  | inf s, fin a => if a = 0 then nan else inf (s != decide (a < 0))
  | inf s, inf t => inf (s != t)
  | _, _ => nan

/-- IEEE 754 division. -/
def div : XQ → XQ → XQ
  | fin a, fin b =>
    if b = 0 then (if a = 0 then nan else inf (decide (a < 0))) else fin (a / b)
  | fin _, inf _ => fin 0
  | inf s, fin b => inf (s != decide (b < 0))
  | _, _ => nan

/-- IEEE 754 `<`: false on NaN. -/
def lt : XQ → XQ → Bool
  | fin a, fin b => decide (a < b)
  | fin _, inf s => !s
  | inf s, fin _ => s
  | inf s, inf t => s && !t
  | _, _ => false

/-- IEEE 754 equality: false on NaN. -/
def eq : XQ → XQ → Bool
  | fin a, fin b => decide (a = b)
  | inf s, inf t => s == t
  | _, _ => false

end XQ

/-- The element arithmetic; operations without a rational value yield NaN. -/
def extOps : FOps XQ where
  un
    | .neg, x => x.neg
    | .square, x => x.mul x
    | .abs, x => if x.lt (.fin 0) then x.neg else x
    | _, _ => .nan
  bin
    | .add, x, y => x.add y
    | .sub, x, y => x.add y.neg
    | .mul, x, y => x.mul y
    | .div, x, y => x.div y
    | _, _, _ => .nan
  cmp
    | .lt, x, y => x.lt y
    | .le, x, y => x.lt y || x.eq y
    | .gt, x, y => y.lt x
    | .ge, x, y => y.lt x || x.eq y
    | .eq, x, y => x.eq y
  cst
    | .zero => .fin 0
    | .one => .fin 1
    | .half => .fin (1 / 2)
    | _ => .nan
  ofNat n := .fin n
  lowest := .inf true
  highest := .inf false

end Hodu
