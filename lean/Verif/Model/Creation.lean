import Verif.Model.Cast

/-!
# Creating tensors

Transcription of crates/hodu_core/src/tensor/creation.rs:96-338 for the CPU, `CpuStorage::const_set`, be_cpu/storage.rs:329-388, with
crates/hodu_cpu_kernels/kernels/storage.c, and `Scalar::to_f32`, crates/hodu_core/src/scalar.rs:618-649.

`arange` and `linspace` calculate in `f32` whatever the requested type.  Rust's `f32` arithmetic is IEEE 754 with rounding to nearest
even; it is modelled on bit patterns, all not-a-numbers being the same quiet one.  `empty`, `rand_uniform` and `randn` are not modelled.
-/

namespace Hodu.Creation
open Flt Cast

/-! ## `f32` arithmetic (IEEE 754, used by creation.rs:213-236, 283-284) -/

/-- Not a number. -/
def isNan (b : Nat) : Bool := f32.top < b % 2 ^ 31
/-- An infinity. -/
def isInf (b : Nat) : Bool := b % 2 ^ 31 = f32.top
/-- The sign bit. -/
def isNeg (b : Nat) : Bool := b / 2 ^ 31 ≠ 0
/-- The value of a finite `f32` in multiples of `2 ^ -1074`. -/
def sval (b : Nat) : Int := if isNeg b then -(mag f32 (b % 2 ^ 31) : Int) else mag f32 (b % 2 ^ 31)
/-- The not-a-number that operations return. -/
def qnan : Nat := 0x7FC00000
/-- An infinity or a zero with a sign. -/
def signed (neg : Bool) (p : Nat) : Nat := (if neg then 2 ^ 31 else 0) + p
/-- `n / d` multiples of `2 ^ -1074`, rounded; a zero takes the given sign. -/
def round (neg0 : Bool) (n : Int) (d : Nat) : Nat := signed (n < 0 || (n == 0 && neg0)) (min (enc f32 n.natAbs d) f32.top)

/-- `a + b`, creation.rs:234 (IEEE 754). -/
def fadd (a b : Nat) : Nat :=
  if isNan a || isNan b || (isInf a && isInf b && isNeg a != isNeg b) then qnan
  else if isInf a then a
  else if isInf b then b
  else round (isNeg a && isNeg b) (sval a + sval b) 1

/-- `-b` (sign bit flipped). -/
def fneg (b : Nat) : Nat := if isNeg b then b % 2 ^ 31 else b % 2 ^ 31 + 2 ^ 31

/-- `a - b`, creation.rs:233. -/
def fsub (a b : Nat) : Nat := if isNan b then qnan else fadd a (fneg b)

/-- `a * b`, creation.rs:234. -/
def fmul (a b : Nat) : Nat :=
  if isNan a || isNan b || (isInf a && b % 2 ^ 31 == 0) || (isInf b && a % 2 ^ 31 == 0) then qnan
  else if isInf a || isInf b then signed (isNeg a != isNeg b) f32.top
  else round (isNeg a != isNeg b) (sval a * sval b) (2 ^ 1074)

/-- `a / b`, creation.rs:233. -/
def fdiv (a b : Nat) : Nat :=
  if isNan a || isNan b || (isInf a && isInf b) || (a % 2 ^ 31 == 0 && b % 2 ^ 31 == 0) then qnan
  else if isInf a || b % 2 ^ 31 == 0 then signed (isNeg a != isNeg b) f32.top
  else if isInf b then signed (isNeg a != isNeg b) 0
  else round (isNeg a != isNeg b) (sval a * 2 ^ 1074 * (if isNeg b then -1 else 1)) (sval b).natAbs

/-- Position of a number that is not a not-a-number among all of them. -/
def key (b : Nat) : Int := if isNeg b then -((b % 2 ^ 31 : Nat) : Int) else ((b % 2 ^ 31 : Nat) : Int)
/-- `a >= b`, creation.rs:220. -/
def fge (a b : Nat) : Bool := !isNan a && !isNan b && key b ≤ key a
/-- `a > 0.0`, creation.rs:220. -/
def fpos (a : Nat) : Bool := !isNan a && 0 < key a
/-- `a < 0.0`, creation.rs:220. -/
def fneg0 (a : Nat) : Bool := !isNan a && key a < 0
/-- `a == 0.0`, creation.rs:217. -/
def fzero (a : Nat) : Bool := a % 2 ^ 31 == 0

/-- `x.ceil() as usize`, creation.rs:233: saturating. -/
def ceilUsize (b : Nat) : Nat :=
  if isNan b then 0
  else if isInf b then (if isNeg b then 0 else 2 ^ 64 - 1)
  else min (-(-sval b / (2 ^ 1074 : Nat))).toNat (2 ^ 64 - 1)

/-! ## Scalars -/

/-- A `Scalar`, scalar.rs:77-107: an element type and a pattern. -/
structure Sca where
  dt : DType
  bits : Nat

/-- `to_f32` of the crates `half` and `float8`, exact for finite numbers. -/
def smallToF32 (f : Fmt) (x : Nat) : Nat :=
  signed (x / 2 ^ f.width ≠ 0) (if x % 2 ^ f.width < f.top then enc f32 (mag f (x % 2 ^ f.width)) 1
    else if x % 2 ^ f.width = f.top ∧ f ≠ Flt.f8e4m3 then f32.top else f32.top + 2 ^ 22)

/-- `Scalar::to_f32`, scalar.rs:618-649. -/
def Sca.toF32 (s : Sca) : Nat :=
  match s.dt with
  | .bool => if s.bits ≠ 0 then 0x3F800000 else 0
  | .f8e4m3 => smallToF32 Flt.f8e4m3 s.bits
  | .f8e5m2 => smallToF32 Flt.f8e5m2 s.bits
  | .bf16 => smallToF32 Flt.bf16 s.bits
  | .f16 => smallToF32 Flt.f16 s.bits
  | .f32 => s.bits
  | .f64 => doubleToFloat s.bits
  | _ => intToFloat f32 (intVal s.dt s.bits)

/-- `start.is_float()` then `end`, then `step`, else the type of `start`, creation.rs:204-212, 257-263. -/
def pickType (start : DType) (rest : List DType) : DType :=
  match (start :: rest).find? (·.isFloat) with
  | some d => d
  | none => start

/-! ## Filling -/

/-- Writing the same value at a list of positions (storage.c:29-31, 74-76, 79-82). -/
def writeAll (v : α) : List Nat → List α → Res (List α)
  | [], b => .ok b
  | p :: ps, b => if p < b.length then writeAll v ps (b.set p v) else .ub

/-- The positions `start .. end` of worker `t` (storage.c:61-62): the remainder is spread over the first workers. -/
def share (n T t : Nat) : List Nat :=
  List.range' (chunkStart n T t) (chunkEnd n T t - chunkStart n T t)

/-- `hodu_cpu_const_set_*`, storage.c:35-84.  The workers are run one after the other; all write the same value. -/
def constSet (cores : Nat) (v : α) (md : List Nat) (buf : List α) : Res (List α) :=
  (decodeUnary md).bind fun m =>
    if cIsContiguous m.dims m.strides then
      let T := getOptimalThreads cores m.numEls 100000
      if 1 < T then writeAll v (((List.range T).flatMap (share m.numEls T)).map (m.offset + ·)) buf
      else writeAll v ((List.range m.numEls).map (m.offset + ·)) buf
    else writeAll v ((List.range m.numEls).map fun i => m.offset + getStridedIndex i m.dims m.strides) buf

/-- `Tensor::full`, creation.rs:171-189: zeros, then `const_set`; the type is that of the value. -/
def full (cores : Nat) (d : List Nat) (v : Sca) : Res (DType × Tensor Nat) :=
  let l := Layout.fromShape d
  (constSet cores v.bits (unaryMetadata l l) (List.replicate (shapeSize d) 0)).bind fun s => .ok (v.dt, ⟨s, l⟩)

/-- `Tensor::full_like`, creation.rs:191-193. -/
def fullLike (cores : Nat) (t : DType × Tensor Nat) (v : Sca) : Res (DType × Tensor Nat) := full cores t.2.dims v

/-- `Tensor::zeros`, creation.rs:126-142. -/
def zeros (d : List Nat) (dt : DType) : DType × Tensor Nat := (dt, ⟨List.replicate (shapeSize d) 0, Layout.fromShape d⟩)

/-- `Scalar::one`, scalar.rs:256-281 (used in creation.rs:157). -/
def oneBits : DType → Nat
  | .bool => 1
  | .f8e4m3 => 0x38
  | .f8e5m2 => 0x3C
  | .bf16 => 0x3F80
  | .f16 => 0x3C00
  | .f32 => 0x3F800000
  | .f64 => 0x3FF0000000000000
  | _ => 1

/-- `Tensor::ones`, creation.rs:148-165. -/
def ones (cores : Nat) (d : List Nat) (dt : DType) : Res (DType × Tensor Nat) := full cores d ⟨dt, oneBits dt⟩

/-! ## Sequences and matrices -/

/-- A vector of `f32` values converted to the requested type (creation.rs:236-250, 285-299, 323-337). -/
def ofF32 (cores fill : Nat) (dt : DType) (d : List Nat) (data : List Nat) : Res (DType × Tensor Nat) :=
  let t : Tensor Nat := ⟨data, Layout.fromShape d⟩
  if dt ≠ .f32 then (toDtype cores fill .f32 dt t).bind fun r => .ok (dt, r) else .ok (dt, t)

/-- `Tensor::arange`, creation.rs:199-251.  Collecting more than `isize::MAX` bytes panics (Rust's `Vec`). -/
def arange (cores fill : Nat) (start stop step : Sca) : Res (DType × Tensor Nat) :=
  let dt := pickType start.dt [stop.dt, step.dt]
  let s := start.toF32
  let e := stop.toF32
  let p := step.toF32
  if fzero p then .err
  else if (fpos p && fge s e) || (fneg0 p && fge e s) then .err
  else
    let size := ceilUsize (fdiv (fsub e s) p)
    if 2 ^ 61 ≤ size then .panic
    else ofF32 cores fill dt [size] ((List.range size).map fun (i : Nat) => fadd s (fmul p (intToFloat f32 i)))

/-- `Tensor::linspace`, creation.rs:253-300. -/
def linspace (cores fill : Nat) (start stop : Sca) (steps : Nat) : Res (DType × Tensor Nat) :=
  let dt := pickType start.dt [stop.dt]
  let s := start.toF32
  let e := stop.toF32
  if steps = 0 then .err
  else if 2 ^ 61 ≤ steps then .panic
  else
    let data := if steps = 1 then [s]
      else
        let p := fdiv (fsub e s) (intToFloat f32 (steps - 1 : Nat))
        (List.range steps).map fun (i : Nat) => fadd s (fmul p (intToFloat f32 i))
    ofF32 cores fill dt [steps] data

/-- The loop of `Tensor::eye_nm`, creation.rs:317-321: `data[i * m + i] = 1.0` panics past the end. -/
def eyeLoop (m : Nat) : List Nat → List Nat → Res (List Nat)
  | [], data => .ok data
  | i :: is, data => if i * m + i < data.length then eyeLoop m is (data.set (i * m + i) 0x3F800000) else .panic

/-- `Tensor::eye_nm`, creation.rs:310-338. -/
def eyeNm (cores fill : Nat) (n m : Nat) (dt : DType) : Res (DType × Tensor Nat) :=
  (eyeLoop m (List.range (min n m)) (List.replicate (n * m) 0)).bind fun data => ofF32 cores fill dt [n, m] data

/-- `Tensor::eye`, creation.rs:306-308. -/
def eye (cores fill n : Nat) (dt : DType) : Res (DType × Tensor Nat) := eyeNm cores fill n n dt

end Hodu.Creation
