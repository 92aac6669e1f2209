import Verif.Model.Tensor
import Verif.Model.DType

/-!
# Model of reading tensors back: typed vectors, raw bytes, the .hdt file format
-/

namespace Hodu

/-! ## `to_flatten_vec` -/

/-- The index increment of `extract_with_layout`, tensor/vec.rs:387-397: the reverse loop with its
carry, written as recursion whose tail is processed first.  Returns the new index and the carry. -/
def odoIncr : List Nat → List Nat → List Nat × Nat
  | d :: ds, i :: is =>
    let (is', carry) := odoIncr ds is
    if carry = 0 then (i :: is', 0)
    else if i + carry < d then ((i + carry) :: is', 0)
    else (0 :: is', carry)
  | _, _ => ([], 1)

/-- The loop of `extract_with_layout`, tensor/vec.rs:380-402: reads `data[Σ index*stride]` (the
offset is not added), skips reads outside the data, stops when the carry falls out. -/
def extractLoop (dims strides : List Nat) (data : List α) : Nat → List Nat → List α
  | 0, _ => []
  | n + 1, idx =>
    let flat := (List.zipWith (· * ·) idx strides).sum
    let here := match data[flat]? with
      | some x => [x]
      | none => []
    let (idx', carry) := odoIncr dims idx
    if carry = 1 then here else here ++ extractLoop dims strides data n idx'

/-- `extract_with_layout`, tensor/vec.rs:369-404. -/
def extractWithLayout (data : List α) (l : Layout) : List α :=
  if l.isContiguous then data
  else extractLoop l.dims l.strides data (shapeSize l.dims) (List.replicate l.dims.length 0)

/-- `to_flatten_vec::<T>` when `T` is the tensor's element type, tensor/vec.rs:16-21, 309-359. -/
def Tensor.toFlattenVec (t : Tensor α) : List α := extractWithLayout t.storage t.layout

/-- `to_flatten_vec::<T>` when `T` is another element type, tensor/vec.rs:313-314: the storage is
first cast (`CpuStorage::to_dtype`, be_cpu/storage.rs:693-715; kernel `IMPL_CAST_OP`,
ops_cast.c:34-103, has the same shape as the unary kernel), then the tensor's own layout is applied
to the already compacted result. -/
def Tensor.toFlattenVecCast (cores : Nat) (cast : α → β) (fill : β) (t : Tensor α) : Res (List β) :=
  (unaryKernel cores cast t.storage (unaryMetadata t.layout t.layout)
    (List.replicate t.layout.size fill)).bind fun s => .ok (extractWithLayout s t.layout)

/-- `flat_data[start..start + len].to_vec()`: panics past the end (e.g. tensor/vec.rs:51). -/
def sliceR (data : List α) (start len : Nat) : Res (List α) :=
  if start + len ≤ data.length then .ok ((data.drop start).take len) else .panic

/-- `to_vec2d`, tensor/vec.rs:34-54 (same element type). -/
def Tensor.toVec2d (t : Tensor α) : Res (List (List α)) :=
  match t.dims with
  | [rows, cols] => Res.mapL (fun i => sliceR t.toFlattenVec (i * cols) cols) (List.range rows)
  | _ => .err

/-- `to_vec3d`, tensor/vec.rs:56-81 (same element type). -/
def Tensor.toVec3d (t : Tensor α) : Res (List (List (List α))) :=
  match t.dims with
  | [d0, d1, d2] =>
    Res.mapL (fun i => Res.mapL (fun j => sliceR t.toFlattenVec (i * (d1 * d2) + j * d2) d2)
      (List.range d1)) (List.range d0)
  | _ => .err

/-! ## Raw bytes

An element is represented by its bit pattern, a number below `256 ^ size`; a boolean is 0 or 1. -/

/-- `to_le_bytes` of a `w`-byte value (Rust core; used in tensor/bytes.rs:96-112). -/
def leBytes : Nat → Nat → List Nat
  | 0, _ => []
  | w + 1, v => v % 256 :: leBytes w (v / 256)

/-- `from_le_bytes` (Rust core; used in tensor/bytes.rs:127-177). -/
def fromLE : List Nat → Nat
  | [] => 0
  | b :: bs => b + 256 * fromLE bs

/-- `<[u8]>::chunks_exact(w)` (Rust core; used in tensor/bytes.rs:127-177): only whole chunks. -/
def chunksExact (w : Nat) (data : List Nat) : List (List Nat) :=
  (List.range (data.length / w)).map fun i => (data.drop (i * w)).take w

/-- `storage_to_bytes`, tensor/bytes.rs:90-114. -/
def storageToBytes (dt : DType) (vals : List Nat) : List Nat :=
  match dt with
  | .bool => vals.map fun b => if b ≠ 0 then 1 else 0
  | .f8e4m3 | .f8e5m2 | .u8 | .i8 => vals
  | .bf16 | .f16 | .u16 | .i16 => vals.flatMap (leBytes 2)
  | .f32 | .u32 | .i32 => vals.flatMap (leBytes 4)
  | .f64 | .u64 | .i64 => vals.flatMap (leBytes 8)

/-- `bytes_to_storage`, tensor/bytes.rs:116-184. -/
def bytesToStorage (dt : DType) (data : List Nat) : List Nat :=
  match dt with
  | .bool => data.map fun b => if b ≠ 0 then 1 else 0
  | .f8e4m3 | .f8e5m2 | .u8 | .i8 => data
  | .bf16 | .f16 | .u16 | .i16 => (chunksExact 2 data).map fromLE
  | .f32 | .u32 | .i32 => (chunksExact 4 data).map fromLE
  | .f64 | .u64 | .i64 => (chunksExact 8 data).map fromLE

/-- `Tensor::to_bytes`, tensor/bytes.rs:16-29: a contiguous tensor's whole storage is written. -/
def Tensor.toBytes (dt : DType) (t : Tensor Nat) : Res (List Nat) :=
  if t.layout.isContiguous then .ok (storageToBytes dt t.storage)
  else t.contiguous.bind fun c => .ok (storageToBytes dt c.storage)

/-- `Tensor::from_bytes` on the CPU, tensor/bytes.rs:34-63. -/
def Tensor.fromBytes (data : List Nat) (dims : List Nat) (dt : DType) : Res (Tensor Nat) :=
  if data.length ≠ shapeSize dims * dt.sizeInBytes then .err
  else .ok { storage := bytesToStorage dt data, layout := Layout.fromShape dims }

/-! ## The .hdt format

`postcard` 1.1 (a dependency, not in the repository) is modelled by its published wire format:
lengths and `usize` values are LEB128 varints, sequences are length-prefixed, struct fields follow
each other, a `u8` is one byte; `from_bytes` ignores trailing bytes. -/

/-- postcard varint encoding (`varint_usize`): 7 bits per byte, high bit set on all but the last;
at most `fuel` bytes (10 for a 64-bit `usize`). -/
def varintEnc : Nat → Nat → List Nat
  | 0, _ => []
  | fuel + 1, n => if n < 128 then [n] else (n % 128 + 128) :: varintEnc fuel (n / 128)

/-- postcard varint decoding (`try_take_varint_usize`): at most `fuel` bytes; a value that does not
fit is rejected by the caller's bound `lim`. -/
def varintDec : Nat → List Nat → Option (Nat × List Nat)
  | 0, _ => none
  | _ + 1, [] => none
  | fuel + 1, b :: bs =>
    if b < 128 then some (b, bs)
    else (varintDec fuel bs).map fun (v, rest) => (b - 128 + 128 * v, rest)

/-- Decoding of a `usize`: varint below `2 ^ 64`. -/
def usizeDec (bs : List Nat) : Option (Nat × List Nat) :=
  match varintDec 10 bs with
  | some (v, rest) => if v < 2 ^ 64 then some (v, rest) else none
  | none => none

/-- Decoding of `n` consecutive `usize` values. -/
def usizesDec : Nat → List Nat → Option (List Nat × List Nat)
  | 0, bs => some ([], bs)
  | n + 1, bs =>
    (usizeDec bs).bind fun (v, rest) => (usizesDec n rest).map fun (vs, rest') => (v :: vs, rest')

/-- postcard encoding of `TensorData { shape, dtype, data }`, format/hdt.rs:12-17. -/
def encodeTensorData (shape : List Nat) (dt : DType) (data : List Nat) : List Nat :=
  varintEnc 10 shape.length ++ shape.flatMap (varintEnc 10) ++ [dt.code] ++
    varintEnc 10 data.length ++ data

/-- postcard decoding of `TensorData`, format/hdt.rs:12-17. -/
def decodeTensorData (bs : List Nat) : Option (List Nat × DType × List Nat) :=
  (usizeDec bs).bind fun (rank, bs) =>
    (usizesDec rank bs).bind fun (shape, bs) =>
      match bs with
      | [] => none
      | c :: bs =>
        (DType.ofCode c).bind fun dt =>
          (usizeDec bs).bind fun (len, bs) =>
            if len ≤ bs.length then some (shape, dt, bs.take len) else none

/-- `hdt::serialize`, format/hdt.rs:54-62. -/
def hdtSerialize (dt : DType) (t : Tensor Nat) : Res (List Nat) :=
  (t.toBytes dt).bind fun data => .ok (encodeTensorData t.dims dt data)

/-- `hdt::deserialize`, format/hdt.rs:65-71. -/
def hdtDeserialize (bs : List Nat) : Res (DType × Tensor Nat) :=
  match decodeTensorData bs with
  | none => .err
  | some (shape, dt, data) => (Tensor.fromBytes data shape dt).bind fun t => .ok (dt, t)

end Hodu
