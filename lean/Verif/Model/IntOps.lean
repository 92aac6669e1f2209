import Verif.Model.SmallFloat
import Verif.Basic

/-!
# Model of the element operations on integers and Booleans

CPU: crates/hodu_cpu_kernels/kernels/{ops_binary.c,ops_unary.c,math_utils.h,utils.h} (C11, compiled
without `-fwrapv`, build.rs:36-47).  CUDA: crates/hodu_cuda_kernels/kernels/{ops_binary.cu,ops_unary.cu,
math.cuh}.  Metal: crates/hodu_metal_kernels/kernels/{ops_binary.metal,ops_unary.metal,headers/utils.metal}.

`int` is 32 bits wide on all three.  Operands narrower than `int` are promoted to `int`; a signed result
out of range is undefined, an unsigned one is reduced; conversion to a narrower type reduces modulo its
range (implementation-defined in C11, and what the compilers concerned do).  Division by zero is undefined (on Metal
it yields an unspecified value).
-/

namespace Hodu.IntOps

/-- An integer type, types.h:25-32. -/
structure Ty where
  signed : Bool
  bits : Nat
  deriving DecidableEq

/-- The eight integer types of types.h:25-32. -/
def Ty.Std (t : Ty) : Prop := t.bits = 8 ∨ t.bits = 16 ∨ t.bits = 32 ∨ t.bits = 64

/-- Least and greatest value of a type of types.h:25-32. -/
def Ty.lo (t : Ty) : Int := if t.signed then -2 ^ (t.bits - 1) else 0
@[inherit_doc Ty.lo] def Ty.hi (t : Ty) : Int := if t.signed then 2 ^ (t.bits - 1) - 1 else 2 ^ t.bits - 1

/-- A type of types.h:25-32 holds the value. -/
def Ty.Holds (t : Ty) (v : Int) : Prop := t.lo ≤ v ∧ v ≤ t.hi

instance (t : Ty) (v : Int) : Decidable (t.Holds v) := inferInstanceAs (Decidable (_ ∧ _))

/-- Conversion to a type, e.g. the cast of ops_binary.c:652 or the store `output[i] = FUNC` of
ops_binary.c:61. -/
def Ty.conv (t : Ty) (v : Int) : Int := (v - t.lo) % 2 ^ t.bits + t.lo

/-- The type arithmetic on operands of this type happens in, e.g. in `x + y` of ops_binary.c:647. -/
def Ty.promote (t : Ty) : Ty := if t.bits < 32 then ⟨true, 32⟩ else t

/-- An arithmetic expression of a type with this mathematical value, e.g. `x * y` of ops_binary.c:670. -/
def Ty.arith (t : Ty) (v : Int) : Res Int :=
  if t.Holds v then .ok v else if t.signed then .ub else .ok (t.conv v)

/-- `x / y` with `y ≠ 0`, ops_binary.c:650. -/
def Ty.quot (t : Ty) (x y : Int) : Res Int := t.promote.arith (x.tdiv y)

/-- `x % y` with `y ≠ 0`, ops_binary.c:651: undefined when the quotient is out of range. -/
def Ty.remn (t : Ty) (x y : Int) : Res Int := (t.quot x y).bind fun _ => .ok (x.tmod y)

/-- The loop of `ipow_i64`, math_utils.h:42-47 (also 54-59, math.cuh:98-103, ops_binary.metal:11-16):
the base is squared once more after the last bit.  Exponents have at most 64 bits. -/
def ipowLoop (mul : Int → Int → Res Int) : Nat → Int → Int → Nat → Res Int
  | 0, result, _, _ => .ok result
  | fuel + 1, result, base, exp =>
    if exp = 0 then .ok result
    else (if exp % 2 = 1 then mul result base else .ok result).bind fun result =>
      (mul base base).bind fun base => ipowLoop mul fuel result base (exp / 2)

/-- `ipow_i64`, math_utils.h:38-49. -/
def ipowI64 (base exp : Int) : Res Int :=
  if exp < 0 then .ok 0
  else ipowLoop (fun a b => (⟨true, 64⟩ : Ty).arith (a * b)) 64 1 base exp.toNat

/-- `ipow_u64`, math_utils.h:51-60. -/
def ipowU64 (base exp : Int) : Res Int :=
  ipowLoop (fun a b => (⟨false, 64⟩ : Ty).arith (a * b)) 64 1 base exp.toNat

/-- `ipow<T>`, math.cuh:96-105 and ops_binary.metal:9-18: `result *= base` multiplies in the promoted
type and converts back; the loop is not entered for a negative exponent. -/
def ipowT (t : Ty) (base exp : Int) : Res Int :=
  ipowLoop (fun a b => (t.promote.arith (a * b)).map t.conv) 64 1 base exp.toNat

/-- The arithmetic operations of ops_binary.c:647-654. -/
inductive Op where
  | add | sub | mul | div | rem | pow | max | min
  deriving DecidableEq

/-- `x - y`, clamped at zero for unsigned types: ops_binary.c:648 and 736, ops_binary.cu:85 and 91,
`sub_with_clamp` of ops_binary.metal:6. -/
def subT (t : Ty) (x y : Int) : Res Int :=
  if t.signed then (t.promote.arith (x - y)).map t.conv
  else if y < x then (t.promote.arith (x - y)).map t.conv else .ok 0

/-- The CPU kernels, ops_binary.c:647-654 (u8), 668-675 (u16), 689-696 (u32), 710-717 (u64), 735-742 (i8),
756-763 (i16), 777-784 (i32), 798-805 (i64); `MAXIMUM`, `MINIMUM` of utils.h:41-42. -/
def cpu (t : Ty) : Op → Int → Int → Res Int
  | .add, x, y => (t.promote.arith (x + y)).map t.conv
  | .sub, x, y => subT t x y
  | .mul, x, y => (t.promote.arith (x * y)).map t.conv
  | .div, x, y => if y ≠ 0 then (t.quot x y).map t.conv else .ok 0
  | .rem, x, y => if y ≠ 0 then (t.remn x y).map t.conv else .ok 0
  | .pow, x, y => (if t.signed then ipowI64 x y else ipowU64 x y).map t.conv
  | .max, x, y => .ok (if x > y then x else y)
  | .min, x, y => .ok (if x < y then x else y)

/-- The CUDA kernels, ops_binary.cu:66-73, 85-92, 104-111, 123-130, 142-149, 161-168, 177-184, 193-200. -/
def cuda (t : Ty) : Op → Int → Int → Res Int
  | .pow, x, y => (ipowT t x y).map t.conv
  | op, x, y => cpu t op x y

/-- The Metal kernels, ops_binary.metal:191-198 (u8), 212-219 (u16), 233-240 (u32), 254-261 (u64),
275-282 (i8) and the same for i16, i32, i64: no test for a zero divisor. -/
def metal (t : Ty) : Op → Int → Int → Res Int
  | .pow, x, y => ipowT t x y
  | .div, x, y => if y = 0 then .ub else (t.quot x y).map t.conv
  | .rem, x, y => if y = 0 then .ub else (t.remn x y).map t.conv
  | op, x, y => cpu t op x y

/-- `neg`, `abs`, `sign`, `square` of ops_unary.c:1697-1701 (i32; the same for the other signed types). -/
inductive Un where
  | neg | abs | sign | square
  deriving DecidableEq

/-- The CPU kernels of the signed types, ops_unary.c:1649-1653, 1697-1701; CUDA has the same
expressions, ops_unary.cu:392-396. -/
def cpuUn (t : Ty) : Un → Int → Res Int
  | .neg, x => (t.promote.arith (-x)).map t.conv
  | .abs, x => if x < 0 then (t.promote.arith (-x)).map t.conv else .ok x
  | .sign, x => .ok (if x > 0 then 1 else if x < 0 then -1 else 0)
  | .square, x => (t.promote.arith (x * x)).map t.conv

/-! ## Powers with a scalar exponent -/

/-- The loop of `powf_opt`, math_utils.h:76-83, on integral values: products are rounded to `float`. -/
def powfLoop : Nat → Int → Int → Nat → Int
  | 0, result, _, _ => result
  | fuel + 1, result, base, iexp =>
    if iexp = 0 then result
    else powfLoop fuel (if iexp % 2 = 1 then Flt.flInt (result * base) else result)
      (Flt.flInt (base * base)) (iexp / 2)

/-- `(i32_t)powf_opt((float)x, (float)const_val)`, ops_unary.c:1565, 1588, 1611, 1662, 1686, 1710 with
math_utils.h:63-92, for exponents between -31 and 31 (others go to `powf` or a NaN; `none`).  Values
beyond the range of `float` are beyond the range of the type too. -/
def powScalar (t : Ty) (x c : Int) : Option (Res Int) :=
  let base := Flt.flInt x
  let cast (v : Int) : Res Int := if t.Holds v then .ok v else .ub
  if c ≤ -32 ∨ 32 ≤ c then none
  else if c = 0 then some (.ok 1)
  else if base = 0 then some (if 0 < c then .ok 0 else .ub)
  else if base = 1 then some (.ok 1)
  else if c = 1 then some (cast base)
  else if 0 ≤ c then some (cast (powfLoop 6 1 base c.toNat))
  else some (cast ((1 : Int).tdiv (if c = -1 then base else powfLoop 6 1 base (-c).toNat)))

/-! ## Booleans -/

/-- The CPU kernels, ops_binary.c:522-529; CUDA: ops_binary.cu:56, 75, 94, 113, 132, 151, 170, 186. -/
def cpuBool : Op → Bool → Bool → Bool
  | .add, x, y => x || y
  | .sub, x, y => x && !y
  | .mul, x, y => x && y
  | .div, x, y => x && y
  | .rem, x, y => x && !y
  | .pow, x, y => x || !y
  | .max, x, y => x || y
  | .min, x, y => x && y

/-- The Metal kernels, ops_binary.metal:106-112: `x - y` is an `int`, converted to `bool` by comparing
with zero; there is no kernel for `pow`. -/
def metalBool : Op → Bool → Bool → Option Bool
  | .add, x, y => some ((x.toNat + y.toNat : Int) != 0)
  | .sub, x, y => some ((x.toNat - y.toNat : Int) != 0)
  | .mul, x, y => some ((x.toNat * y.toNat : Int) != 0)
  | .div, x, y => some (x && y)
  | .rem, x, y => some (x && !y)
  | .pow, _, _ => none
  | .max, x, y => some (x || y)
  | .min, x, y => some (x && y)

/-- The CPU kernels with a scalar, ops_unary.c:1203-1210 (Metal: ops_unary.metal:213-220). -/
def cpuBoolScalar : Op → Bool → Bool → Bool
  | .add, x, c => x || c
  | .sub, x, c => x ^^ c
  | .mul, x, c => x && c
  | .div, x, c => x && c
  | .rem, x, c => x && !c
  | .pow, x, c => x && c
  | .max, x, c => x || c
  | .min, x, c => x && c

end Hodu.IntOps
