import Verif.Model.Creation

/-!
# Scalars

Transcription of `Scalar`, crates/hodu_core/src/scalar.rs:283-1415: conversions, arithmetic, `powi` and `sqrt`.

A scalar is an element type and a bit pattern (`Creation.Sca`).  Rust's `as` from a float to an integer drops the fraction and saturates,
from an integer to an integer it wraps, and integer arithmetic panics on overflow in builds with overflow checks and wraps in others
(`checked`).  `from_f32` of the crate `half` rounds to nearest even; `from_f32` of the crate `float8` is not modelled (`fp8` below), nor is
the arithmetic of floats (`fl`).
-/

namespace Hodu.Scal
open Flt Cast Creation

/-! ## Floats -/

/-- Not a number, an infinity, the sign. -/
def nan (f : Fmt) (b : Nat) : Bool := f.top < b % 2 ^ f.width
@[inherit_doc nan] def inf (f : Fmt) (b : Nat) : Bool := b % 2 ^ f.width = f.top
@[inherit_doc nan] def neg (f : Fmt) (b : Nat) : Bool := b / 2 ^ f.width ≠ 0

/-- Position of a number that is not a not-a-number among all of them. -/
def pos (f : Fmt) (b : Nat) : Int := if neg f b then -((b % 2 ^ f.width : Nat) : Int) else ((b % 2 ^ f.width : Nat) : Int)

/-- `a < b` of floats. -/
def lt (f : Fmt) (a b : Nat) : Bool := !nan f a && !nan f b && pos f a < pos f b

/-- `f32::clamp`, `f64::clamp` of Rust: not a number stays. -/
def fclamp (f : Fmt) (x lo hi : Nat) : Nat :=
  let x := if lt f x lo then lo else x
  if lt f hi x then hi else x

/-- `x.max(0.0)`: not a number becomes zero. -/
def fmax0 (f : Fmt) (x : Nat) : Nat := if nan f x then 0 else if lt f x 0 then 0 else x

/-- `x as i32` and the like of a float. -/
def asInt (f : Fmt) (dt : DType) (b : Nat) : Nat :=
  if nan f b then 0
  else if inf f b then toInt dt (if neg f b then intMin dt else intMax dt)
  else
    let m : Int := (mag f (b % 2 ^ f.width) / 2 ^ 1074 : Nat)
    toInt dt (max (intMin dt) (min (intMax dt) (if neg f b then -m else m)))

/-- `x.clamp(i8::MIN as f32, i8::MAX as f32) as i8` and the like, e.g. scalar.rs:866-873. -/
def clampAs (f : Fmt) (dt : DType) (b : Nat) : Nat :=
  asInt f dt (fclamp f b (intToFloat f (intMin dt)) (intToFloat f (intMax dt)))

/-- `f16::from_f32`, `bf16::from_f32` (crate `half`). -/
def halfOf (f : Fmt) (b : Nat) : Nat :=
  b / 2 ^ 31 * 2 ^ f.width + (if b % 2 ^ 31 < f32.top then min (enc f (mag f32 (b % 2 ^ 31)) 1) f.top
    else if b % 2 ^ 31 = f32.top then f.top else f.top + 1)

/-! ## Conversions -/

/-- The format of a small float type. -/
def small : DType → Option Fmt
  | .f8e4m3 => some Flt.f8e4m3
  | .f8e5m2 => some Flt.f8e5m2
  | .bf16 => some Flt.bf16
  | .f16 => some Flt.f16
  | _ => none

/-- Floats to integers: `to_u8` scalar.rs:686-717, `to_u16` 721-752, `to_u32` 755-786, `to_u64` 790-821 (`to_usize` 824-855), `to_i8`
858-889, `to_i16` 893-924, `to_i32` 927-958, `to_i64` 962-993 (`to_isize` 996-1027). -/
def floatTo (dst src : DType) (x : Nat) : Nat :=
  match dst with
  | .u8 | .u16 | .u32 | .i8 | .i16 => match src with
    | .f64 => clampAs f64 dst x
    | _ => clampAs f32 dst (Sca.toF32 ⟨src, x⟩)
  | .i32 => match src with
    | .f64 => clampAs f64 dst x
    | _ => asInt f32 dst (Sca.toF32 ⟨src, x⟩)
  | .u64 => match small src with
    | some f => asInt f64 dst (fmax0 f64 (widen f x))
    | none => if src = .f64 then asInt f64 dst (fmax0 f64 x) else asInt f32 dst (fmax0 f32 x)
  | _ => match small src with
    | some f => asInt f64 dst (widen f x)
    | none => if src = .f64 then asInt f64 dst x else asInt f32 dst x

/-- Which bounds an integer is brought into before `as`: below (`max`), above (`min`); the same lines. -/
def guard (dst src : DType) : Bool × Bool :=
  match dst, src with
  | .u8, .u16 | .u8, .u32 | .u8, .u64 => (false, true)
  | .u8, .i8 => (true, false)
  | .u8, .i16 | .u8, .i32 | .u8, .i64 => (true, true)
  | .u16, .u32 | .u16, .u64 => (false, true)
  | .u16, .i8 | .u16, .i16 => (true, false)
  | .u16, .i32 | .u16, .i64 => (true, true)
  | .u32, .u64 => (false, true)
  | .u32, .i8 | .u32, .i16 | .u32, .i32 => (true, false)
  | .u32, .i64 => (true, true)
  | .u64, .i8 | .u64, .i16 | .u64, .i32 | .u64, .i64 => (true, false)
  | .i8, .u8 | .i8, .u16 | .i8, .u32 | .i8, .u64 => (false, true)
  | .i8, .i16 | .i8, .i32 | .i8, .i64 => (true, true)
  | .i16, .u16 | .i16, .u32 | .i16, .u64 => (false, true)
  | .i16, .i32 | .i16, .i64 => (true, true)
  | .i32, .u32 | .i32, .u64 => (false, true)
  | .i32, .i64 => (true, true)
  | .i64, .u64 => (false, true)
  | _, _ => (false, false)

/-- `to_u8`, ..., `to_isize`, scalar.rs:686-1027. -/
def toWhole (dst : DType) (s : Sca) : Nat :=
  if s.dt = .bool then (if s.bits ≠ 0 then 1 else 0)
  else if s.dt.isFloat then floatTo dst s.dt s.bits
  else
    let v := intVal s.dt s.bits
    let v := if (guard dst s.dt).1 then max (intMin dst) v else v
    let v := if (guard dst s.dt).2 then min (intMax dst) v else v
    toInt dst v

/-- `Scalar::to_bool`, scalar.rs:478-503. -/
def toBool (s : Sca) : Bool :=
  match s.dt with
  | .f8e4m3 | .f8e5m2 | .bf16 | .f16 | .f32 => s.toF32 % 2 ^ 31 ≠ 0
  | .f64 => s.bits % 2 ^ 63 ≠ 0
  | _ => s.bits ≠ 0

/-- `Scalar::to_f64`, scalar.rs:653-681. -/
def toF64 (s : Sca) : Nat :=
  match s.dt with
  | .bool => if s.bits ≠ 0 then 0x3FF0000000000000 else 0
  | .f8e4m3 => widen Flt.f8e4m3 s.bits
  | .f8e5m2 => widen Flt.f8e5m2 s.bits
  | .bf16 => widen Flt.bf16 s.bits
  | .f16 => widen Flt.f16 s.bits
  | .f32 => widen Flt.f32 s.bits
  | .f64 => s.bits
  | _ => intToFloat f64 (intVal s.dt s.bits)

/-- `Scalar::to_bf16`, scalar.rs:562-587, and `to_f16`, 590-615: all through `f32`. -/
def toHalf (f : Fmt) (dt : DType) (s : Sca) : Nat := if s.dt = dt then s.bits else halfOf f s.toF32

/-- `Scalar::to_dtype`, scalar.rs:391-420. -/
def toDtype (fp8 : DType → Nat → Nat) (dst : DType) (s : Sca) : Sca :=
  if s.dt = dst then s
  else ⟨dst, match dst with
    | .bool => if toBool s then 1 else 0
    | .f8e4m3 | .f8e5m2 => fp8 dst s.toF32
    | .bf16 => halfOf Flt.bf16 s.toF32
    | .f16 => halfOf Flt.f16 s.toF32
    | .f32 => s.toF32
    | .f64 => toF64 s
    | _ => toWhole dst s⟩

/-- `Scalar::from_f32`, scalar.rs:283-308. -/
def fromF32 (fp8 : DType → Nat → Nat) (b : Nat) (dt : DType) : Sca :=
  ⟨dt, match dt with
    | .bool => if b % 2 ^ 31 ≠ 0 then 1 else 0
    | .f8e4m3 | .f8e5m2 => fp8 dt b
    | .bf16 => halfOf Flt.bf16 b
    | .f16 => halfOf Flt.f16 b
    | .f32 => b
    | .f64 => widen Flt.f32 b
    | _ => asInt f32 dt b⟩

/-- `Scalar::from_usize`, scalar.rs:310-334, and `Scalar::from_isize`, 336-360: integers wrap. -/
def fromInt (fp8 : DType → Nat → Nat) (v : Int) (dt : DType) : Sca :=
  ⟨dt, match dt with
    | .bool => if v ≠ 0 then 1 else 0
    | .f8e4m3 | .f8e5m2 => fp8 dt (intToFloat f32 v)
    | .bf16 => halfOf Flt.bf16 (intToFloat f32 v)
    | .f16 => halfOf Flt.f16 (intToFloat f32 v)
    | .f32 => intToFloat f32 v
    | .f64 => intToFloat f64 v
    | _ => toInt dt v⟩

/-- `From<usize>`, scalar.rs:1139-1144, and `From<isize>`, 1188-1193. -/
def ofUsize (v : Nat) : Sca := ⟨.u32, toInt .u32 v⟩
@[inherit_doc ofUsize] def ofIsize (v : Int) : Sca := ⟨.i32, toInt .i32 v⟩

/-- `Scalar::is_integer_value`, scalar.rs:447-475: `f == f.trunc()`, where an infinity is its own `trunc`. -/
def isIntegerValue (s : Sca) : Bool :=
  let whole (f : Fmt) (b : Nat) : Bool := !nan f b && (inf f b || mag f (b % 2 ^ f.width) % 2 ^ 1074 == 0)
  if s.dt.isInt || s.dt.isUint then true
  else match s.dt with
    | .bool => false
    | .f64 => whole f64 s.bits
    | _ => whole f32 s.toF32

/-! ## Arithmetic -/

/-- The operators of scalar.rs:1195-1353. -/
inductive Op where
  | add | sub | mul | div | rem
  deriving DecidableEq

/-- Integer arithmetic of Rust on numbers of the type `dt`. -/
def intOp (checked : Bool) (dt : DType) (op : Op) (a b : Int) : Res Int :=
  let fit (r : Int) : Res Int :=
    if intMin dt ≤ r ∧ r ≤ intMax dt then .ok r else if checked then .panic else .ok (intVal dt (toInt dt r))
  match op with
  | .add => fit (a + b)
  | .sub => fit (a - b)
  | .mul => fit (a * b)
  | .div => if b = 0 ∨ (a.tdiv b < intMin dt ∨ intMax dt < a.tdiv b) then .panic else .ok (a.tdiv b)
  | .rem => if b = 0 ∨ (a.tdiv b < intMin dt ∨ intMax dt < a.tdiv b) then .panic else .ok (a.tmod b)

/-- `BOOL` with `BOOL`, scalar.rs:1200, 1232, 1264, 1296, 1328. -/
def boolOp (op : Op) (a b : Bool) : Bool :=
  match op with
  | .add => a || b
  | .sub => a && !b
  | _ => a && b

/-- `Add`, scalar.rs:1195-1225, `Sub` 1227-1257, `Mul` 1259-1289, `Div` 1291-1321, `Rem` 1323-1353. -/
def arith (checked : Bool) (fl : Op → DType → Nat → Nat → Nat) (op : Op) (a b : Sca) : Res Sca :=
  if a.dt ≠ b.dt then .panic
  else if a.dt = .bool then .ok ⟨.bool, if boolOp op (a.bits ≠ 0) (b.bits ≠ 0) then 1 else 0⟩
  else if a.dt.isFloat then .ok ⟨a.dt, fl op a.dt a.bits b.bits⟩
  else (intOp checked a.dt op (intVal a.dt a.bits) (intVal b.dt b.bits)).bind fun r => .ok ⟨a.dt, toInt a.dt r⟩

/-- The loop of Rust's integer `pow`: squares while the exponent has bits left. -/
def powLoop (mul : Int → Int → Res Int) : Nat → Int → Int → Nat → Res Int
  | 0, _, acc, _ => .ok acc
  | n + 1, base, acc, e =>
    (if e % 2 = 1 then mul acc base else .ok acc).bind fun acc =>
      if e ≤ 1 then .ok acc else (mul base base).bind fun base => powLoop mul n base acc (e / 2)

/-- `Scalar::powi`, scalar.rs:1356-1387: `exp as u32`; floats not modelled (`fl`). -/
def powi (checked : Bool) (fl : DType → Nat → Int → Nat) (s : Sca) (exp : Int) : Res Sca :=
  if s.dt = .bool then .ok ⟨.bool, if exp = 0 then 1 else s.bits⟩
  else if s.dt.isFloat then .ok ⟨s.dt, fl s.dt s.bits exp⟩
  else (powLoop (intOp checked s.dt .mul) 32 (intVal s.dt s.bits) 1 (toInt .u32 exp)).bind fun r => .ok ⟨s.dt, toInt s.dt r⟩

/-- `f32::sqrt`: correctly rounded; half a unit is added to the whole root of a number that is not a square. -/
def fsqrt (b : Nat) : Nat :=
  if nan f32 b then qnan
  else if b % 2 ^ 31 = 0 then b
  else if neg f32 b then qnan
  else if inf f32 b then b
  else
    let n := mag f32 (b % 2 ^ 31) * 2 ^ 1074
    enc f32 (2 * n.sqrt + (if n.sqrt * n.sqrt = n then 0 else 1)) 2

/-- `Scalar::sqrt` of an integer, scalar.rs:1389-1405. -/
def intSqrt (s : Sca) : Sca :=
  ⟨s.dt, asInt f32 s.dt (fclamp f32 (fsqrt (intToFloat f32 (intVal s.dt s.bits))) 0 (intToFloat f32 (intMax s.dt)))⟩

end Hodu.Scal
