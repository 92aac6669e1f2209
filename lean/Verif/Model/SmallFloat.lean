import Verif.Model.Float
import Verif.Model.Datasets

/-!
# Conversions of the reduced-precision types in the CPU kernels

Transcription of crates/hodu_cpu_kernels/kernels/t_bf16.h, t_f16.h, t_f8e4m3.h and t_f8e5m2.h (lines 28-85 of each).
A `float` is its 32-bit pattern; `ldexpf`, `frexpf` and the divisions by powers of two are exact here, and the two
roundings that are not are spelled out (`flInt`).
-/

namespace Hodu.Flt

/-! ## bfloat16 -/

/-- `bf16_to_float`, t_bf16.h:28-33. -/
def bf16ToFloat (v : Nat) : Nat := v * 2 ^ 16

/-- `float_to_bf16`, t_bf16.h:35-39: drops the lower half. -/
def floatToBf16 (b : Nat) : Nat := b / 2 ^ 16

/-! ## half and 8-bit floats -/

/-- The constants of one header: mantissa bits, width without the sign bit, exponent of the smallest subnormal above
`2 ^ -1074`, all-ones exponent, amount added to the exponent of `frexpf`, patterns of the largest and the smallest
`float` converted, results for overflow and for NaN. -/
structure SmallFmt where
  man : Nat
  width : Nat
  unit : Nat
  maxExp : Nat
  adj : Nat
  hi : Nat
  lo : Nat
  over : Nat
  nan : Nat
  deriving DecidableEq, Repr

/-- t_f16.h:28-77: 65504.0f, 0.00006103515625f, 0x7C00, 0x7E00. -/
def cF16 : SmallFmt := ⟨10, 15, 1050, 31, 14, 0x477FE000, 0x38800000, 0x7C00, 0x7E00⟩
/-- t_f8e4m3.h:27-85: 448.0f, 0.001953125f, 0x7F, 0x7F. -/
def cF8E4M3 : SmallFmt := ⟨3, 7, 1065, 15, 6, 0x43E00000, 0x3B000000, 0x7F, 0x7F⟩
/-- t_f8e5m2.h:27-85: 57344.0f, 0.0000152587890625f, 0x7F, 0x7F. -/
def cF8E5M2 : SmallFmt := ⟨2, 7, 1058, 31, 14, 0x47600000, 0x37800000, 0x7F, 0x7F⟩

/-- `f16_to_float`, t_f16.h:28-46; `f8e4m3_to_float`, t_f8e4m3.h:27-50; `f8e5m2_to_float`, t_f8e5m2.h:27-50.  `NAN` is
`0x7FC00000`. -/
def smallToFloat (c : SmallFmt) (v : Nat) : Nat :=
  let sign := v / 2 ^ c.width % 2
  let exp := v / 2 ^ c.man % (c.maxExp + 1)
  let mant := v % 2 ^ c.man
  if exp = c.maxExp then (if mant = 0 then sign * 2 ^ 31 + 255 * 2 ^ 23 else 255 * 2 ^ 23 + 2 ^ 22)
  else if exp = 0 then
    (if mant = 0 then sign * 2 ^ 31 else sign * 2 ^ 31 + enc f32 (mant * 2 ^ c.unit) 1)
  else sign * 2 ^ 31 + enc f32 ((2 ^ c.man + mant) * 2 ^ (c.unit + (exp - 1))) 1

/-- Rounding to the 24 bits of a `float`, in units of a power of two. Used in t_f16.h:73, t_f8e4m3.h:81. -/
def flInt (n : Int) : Int := if n < 0 then -(round24 n.natAbs) else round24 n.natAbs

/-- `(int)((mant * 2.0f - 1.0f) * 2^m + 0.5f)` and its upper bound, t_f16.h:73-74, t_f8e4m3.h:81-82, t_f8e5m2.h:81-82,
for `mant = M / 2^(24 + k)`.  The conversion to `int` truncates towards zero. -/
def mantBits (m M k : Nat) : Int :=
  let a := flInt ((M : Int) - 2 ^ (23 + k))
  let mb := (flInt (a * 2 ^ (m + 1) + 2 ^ (23 + k))).tdiv (2 ^ (24 + k))
  if 2 ^ m - 1 < mb then 2 ^ m - 1 else mb

/-- `float_to_f16`, t_f16.h:48-77; `float_to_f8e4m3`, t_f8e4m3.h:52-85; `float_to_f8e5m2`, t_f8e5m2.h:52-85.  Comparing
non-negative floats is comparing patterns; the values that reach `frexpf` are not subnormal.  `exp` is negative in the
subnormal branch (`ldexpf(mant, exp)`, then 0). The operands of `|` are unsigned 32-bit numbers. -/
def floatToSmall (c : SmallFmt) (b : Nat) : Nat :=
  let p := b % 2 ^ 31
  let sign := b / 2 ^ 31
  if p = 0 then 0
  else if 255 * 2 ^ 23 < p then c.nan
  else if p = 255 * 2 ^ 23 ∨ c.hi < p then (sign <<< c.width) ||| c.over
  else if p < c.lo then sign <<< c.width
  else
    let exp : Int := (p / 2 ^ 23 : Nat) - 126 + c.adj
    if (c.maxExp : Int) ≤ exp then (sign <<< c.width) ||| c.over
    else
      let mb := mantBits c.man (2 ^ 23 + p % 2 ^ 23) (-exp).toNat
      ((sign <<< c.width) ||| (exp.toNat <<< c.man) ||| (mb % 2 ^ 32).toNat) % 2 ^ (c.width + 1)

end Hodu.Flt
