import Verif.Model.Tensor
import Verif.Model.DType
import Verif.Model.SmallFloat

/-!
# Changing the element type or the device

Transcription of `Tensor::to_dtype` and `Tensor::to_device`, crates/hodu_core/src/tensor/ops/cast_memory.rs:11-53 (eager branches),
`CpuStorage::to_dtype`, be_cpu/storage.rs:693-715, `cast_metadata`, op_metadatas.rs:1615-1640, and
crates/hodu_cpu_kernels/kernels/ops_cast.c.

An element is the bit pattern of its type, a natural number.  Conversions between numbers follow C11: an integer goes to another
integer type modulo a power of two (6.3.1.3; for signed targets the choice of GCC and Clang), to a float by rounding to nearest even,
a float goes to an integer by dropping the fraction and the result is undefined when that does not fit or there is no number
(6.3.1.4).  Not a numbers are made quiet and keep the upper bits of their payload when the width changes.
-/

namespace Hodu.Cast
open Flt

/-- Bits of an element (`size_in_bytes`, types/dtype.rs:67-91). -/
def bits (dt : DType) : Nat := 8 * dt.sizeInBytes

/-- An integer type of types.h:24-34. -/
def isWhole (dt : DType) : Bool := dt.isInt || dt.isUint

/-- The number a pattern of an integer type stands for (types.h:24-34, two's complement). -/
def intVal (dt : DType) (x : Nat) : Int := if dt.isInt ∧ 2 ^ (bits dt - 1) ≤ x then (x : Int) - 2 ^ bits dt else x

/-- `(u8_t)v` and the like for an integer `v` (e.g. ops_cast.c:249-255). -/
def toInt (dt : DType) (v : Int) : Nat := (v % 2 ^ bits dt).toNat

/-- Smallest and largest number of an integer type. -/
def intMin (dt : DType) : Int := if dt.isInt then -2 ^ (bits dt - 1) else 0
@[inherit_doc intMin] def intMax (dt : DType) : Int := if dt.isInt then 2 ^ (bits dt - 1) - 1 else 2 ^ bits dt - 1

/-- `(float)x` and `(double)x` of an integer (e.g. ops_cast.c:246-247). -/
def intToFloat (f : Fmt) (v : Int) : Nat := (if v < 0 then 2 ^ f.width else 0) + enc f (v.natAbs * 2 ^ 1074) 1

/-- `(float)x` of a `double` (ops_cast.c:223-227). -/
def doubleToFloat (b : Nat) : Nat :=
  let p := b % 2 ^ 63
  b / 2 ^ 63 * 2 ^ 31 + (if p < f64.top then min (enc f32 (mag f64 p) 1) f32.top
    else if p = f64.top then f32.top else f32.top + (2 ^ 22 ||| (p % 2 ^ 52 / 2 ^ 29)))

/-- `(double)x` of a `float` (ops_cast.c:209). -/
def floatToDouble (b : Nat) : Nat :=
  let p := b % 2 ^ 31
  b / 2 ^ 31 * 2 ^ 63 + (if p < f32.top then enc f64 (mag f32 p) 1
    else if p = f32.top then f64.top else f64.top + (2 ^ 51 ||| (p % 2 ^ 23 * 2 ^ 29)))

/-- `(i32_t)x` and the like of a `float` or `double` (ops_cast.c:210-217, 229-236). -/
def floatToInt (f : Fmt) (dt : DType) (b : Nat) : Res Nat :=
  let p := b % 2 ^ f.width
  let v : Int := if b / 2 ^ f.width = 0 then (mag f p / 2 ^ 1074 : Nat) else -(mag f p / 2 ^ 1074 : Nat)
  if p < f.top ∧ intMin dt ≤ v ∧ v ≤ intMax dt then .ok (toInt dt v) else .ub

/-- `f16_to_float(x)`, ..., `x` or `(float)x`: the `float` every conversion to a float other than `double` starts from
(ops_cast.c:109-387). -/
def asFloat (src : DType) (x : Nat) : Nat :=
  match src with
  | .bool => if x ≠ 0 then enc f32 (2 ^ 1074) 1 else 0
  | .f8e4m3 => smallToFloat cF8E4M3 x
  | .f8e5m2 => smallToFloat cF8E5M2 x
  | .bf16 => bf16ToFloat x
  | .f16 => smallToFloat cF16 x
  | .f32 => x
  | .f64 => doubleToFloat x
  | _ => intToFloat f32 (intVal src x)

/-- Integer targets (e.g. ops_cast.c:115-122, 134-141, 210-217, 229-236, 248-255). -/
def castInt (src dst : DType) (x : Nat) : Res Nat :=
  match src with
  | .bool => .ok (if x ≠ 0 then 1 else 0)
  | .f64 => floatToInt f64 dst x
  | .f8e4m3 | .f8e5m2 | .bf16 | .f16 | .f32 => floatToInt f32 dst (asFloat src x)
  | _ => .ok (toInt dst (intVal src x))

/-- `x != 0`, `x != 0.0`, `f16_to_float(x) != 0.0f` (ops_cast.c:108, 127, 146, 165, 184, 203, 222, 241, ...). -/
def castBool (src : DType) (x : Nat) : Nat :=
  match src with
  | .f64 => if x % 2 ^ 63 = 0 then 0 else 1
  | .f8e4m3 | .f8e5m2 | .bf16 | .f16 | .f32 => if asFloat src x % 2 ^ 31 = 0 then 0 else 1
  | _ => if x = 0 then 0 else 1

/-- `CONVERT` of `hodu_cpu_cast_<src>_to_<dst>`, ops_cast.c:108-388. -/
def castElem (src dst : DType) (x : Nat) : Res Nat :=
  match dst with
  | .bool => .ok (castBool src x)
  | .f8e4m3 => .ok (if src = .f8e4m3 then x else floatToSmall cF8E4M3 (asFloat src x))
  | .f8e5m2 => .ok (if src = .f8e5m2 then x else floatToSmall cF8E5M2 (asFloat src x))
  | .bf16 => .ok (if src = .bf16 then x else floatToBf16 (asFloat src x))
  | .f16 => .ok (if src = .f16 then x else floatToSmall cF16 (asFloat src x))
  | .f32 => .ok (asFloat src x)
  | .f64 => .ok (if src = .f64 then x else if isWhole src then intToFloat f64 (intVal src x)
      else floatToDouble (asFloat src x))
  | _ => castInt src dst x

/-- `IMPL_CAST_OP`, ops_cast.c:35-103. -/
def castKernel (cores : Nat) (f : α → Res β) (inp : List α) (md : List Nat) (buf : List β) : Res (List β) :=
  (decodeUnary md).bind fun m =>
    if cIsContiguous m.dims m.strides then
      let T := getOptimalThreads cores m.numEls 100000
      let val := fun i => (readC inp (m.offset + i)).bind f
      if 1 < T then runChunks m.numEls T val buf else runLoop m.numEls val
    else runLoop m.numEls fun i => (readC inp (m.offset + getStridedIndex i m.dims m.strides)).bind f

/-- `Tensor::to_dtype`, cast_memory.rs:30-37, with `CpuStorage::to_dtype`, be_cpu/storage.rs:693-715.  The metadata has the format
of the unary kernels (op_metadatas.rs:1615-1640). -/
def toDtype (cores fill : Nat) (src dst : DType) (t : Tensor Nat) : Res (Tensor Nat) :=
  (if src = dst then Tensor.storageContiguous t.storage t.layout
   else castKernel cores (castElem src dst) t.storage (unaryMetadata t.layout t.layout) (List.replicate t.layout.size fill)).bind
    fun s => .ok { storage := s, layout := Layout.fromShape t.dims }

/-- `Tensor::to_device` for the CPU, cast_memory.rs:45-52, with `BeStorage::to_device`, be/storage.rs:1372-1378: the storage is copied
with a new row-major layout in place of the tensor's own. -/
def toDevice (t : Tensor α) : Res (Tensor α) :=
  (Tensor.storageContiguous t.storage (Layout.fromShape t.dims)).bind fun s => .ok { storage := s, layout := Layout.fromShape t.dims }

end Hodu.Cast
