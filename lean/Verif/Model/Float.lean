import Verif.Model.DType

/-!
# Binary floating-point formats

Values of the element types `f8e4m3`, `f8e5m2`, `bf16`, `f16`, `f32`, `f64` as bit patterns, their
exact values, and rounding to nearest with ties to even.

The conversions themselves are not code of the repository: `as f32`/`as f64` are Rust casts (IEEE
754), `bf16`/`f16` come from the crate `half`, `F8E4M3`/`F8E5M2` from the crate `float8`.  They are
modelled by the definition of the formats.  A magnitude (the pattern without its sign bit) stands
for a natural multiple of `2 ^ -1074`, the smallest positive `f64`; all formats below are contained
in these multiples.
-/

namespace Hodu.Flt

/-- A binary format: mantissa bits, exponent of the smallest subnormal above `2 ^ -1074`, first
magnitude that is not a finite number, and number of bits without the sign. -/
structure Fmt where
  man : Nat
  unit : Nat
  top : Nat
  width : Nat
  deriving DecidableEq

/-- The element types of crates/hodu_core/src/types/dtype.rs:6-29 that are floating point. In
`F8E4M3` (the "fn" variant of the crate `float8`) there is no infinity and only `0x7f` is not a
number. -/
def f64 : Fmt := ⟨52, 0, 2047 * 2 ^ 52, 63⟩
@[inherit_doc f64] def f32 : Fmt := ⟨23, 925, 255 * 2 ^ 23, 31⟩
@[inherit_doc f64] def f16 : Fmt := ⟨10, 1050, 31 * 2 ^ 10, 15⟩
@[inherit_doc f64] def bf16 : Fmt := ⟨7, 941, 255 * 2 ^ 7, 15⟩
@[inherit_doc f64] def f8e5m2 : Fmt := ⟨2, 1058, 31 * 2 ^ 2, 7⟩
@[inherit_doc f64] def f8e4m3 : Fmt := ⟨3, 1065, 127, 7⟩

/-- Value of a finite magnitude in multiples of `2 ^ -1074` (IEEE 754 interpretation: exponent field
0 is subnormal). Used by the casts in crates/hodu_core/src/format/json.rs:219-275. -/
def mag (f : Fmt) (p : Nat) : Nat :=
  (if p < 2 ^ f.man then p else (2 ^ f.man + p % 2 ^ f.man) * 2 ^ (p / 2 ^ f.man - 1)) * 2 ^ f.unit

/-- Magnitude nearest to `n / d` multiples of `2 ^ -1074`, ties to the even one; a result of
`f.top` or more means overflow. IEEE 754 rounding, as performed by the casts and by the arithmetic
of `f64` (crates/hodu_core/src/format/json.rs:344-420). -/
def enc (f : Fmt) (n d : Nat) : Nat :=
  let e := Nat.log2 (n / (d * 2 ^ f.unit)) - f.man
  let D := d * 2 ^ f.unit * 2 ^ e
  let p := e * 2 ^ f.man + n / D
  if D < 2 * (n % D) ∨ (2 * (n % D) = D ∧ p % 2 = 1) then p + 1 else p

/-- `f64::from(v)`, `v as f64`, `v.to_f64()` (crates/hodu_core/src/format/json.rs:219-262): exact for
finite values; infinities and NaNs stay such. -/
def widen (f : Fmt) (v : Nat) : Nat :=
  let s := v / 2 ^ f.width
  let p := v % 2 ^ f.width
  s * 2 ^ 63 + (if p < f.top then enc f64 (mag f p) 1
    else if p = f.top ∧ f ≠ f8e4m3 then f64.top else f64.top + 2 ^ 51)

/-- `x as f32`, `f16::from_f64(x)`, ... (crates/hodu_core/src/format/json.rs:354-402): rounds to
nearest; too large becomes the first non-finite pattern. -/
def narrow (f : Fmt) (b : Nat) : Nat :=
  let s := b / 2 ^ 63
  let p := b % 2 ^ 63
  s * 2 ^ f.width + (if p < f64.top then min (enc f (mag f64 p) 1) f.top
    else if p = f64.top then f.top else f.top + 1)

end Hodu.Flt
