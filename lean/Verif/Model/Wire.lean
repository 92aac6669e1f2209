import Verif.Model.ReadBack
import Verif.Model.Scalar

/-!
# Model of the files of snapshots and of named tensors

`Snapshot::{to_bytes, from_bytes}` (crates/hodu_core/src/snapshot.rs:92-100) and `hdt::{serialize_many, deserialize_many}`
(crates/hodu_core/src/format/hdt.rs:74-108) hand derived `serde` implementations to `postcard` (a dependency, not in the repository).  The
types are described here by a schema; the wire format of `postcard` 1 is defined for every schema: unsigned numbers wider than a byte are
varints, signed ones are zigzag varints, floats are little endian, strings and sequences carry their length, variants of an enum their number,
fields follow each other, bytes after the record are ignored.

`fp8` stands for `F8E4M3::from(f32)` and `F8E5M2::from(f32)` of the crate `float8`.
-/

namespace Hodu.Wire
open Flt Cast Creation Scal

/-! ## Schemas -/

/-- The element types that are compiled in (hodu_core/Cargo.toml:15-20). -/
structure Feats where
  (f8e5m2 f64 u16 u64 i16 i64 : Bool)

/-- The variants of `DType` that are compiled in, types/dtype.rs:6-29. -/
def Feats.has (F : Feats) : DType → Bool
  | .f8e5m2 => F.f8e5m2
  | .f64 => F.f64
  | .u16 => F.u16
  | .u64 => F.u64
  | .i16 => F.i16
  | .i64 => F.i64
  | _ => true

/-- What `serde` sees of a type. -/
inductive Ty where
  | unit
  | bool
  /-- `u8`, `i8`: the byte -/
  | byte
  /-- `u16`, `u32`, `u64`, `usize` of so many bits -/
  | uint (bits : Nat)
  /-- `i16`, `i32`, `i64` of so many bits -/
  | int (bits : Nat)
  /-- `f32`, `f64` of so many bytes: the bit pattern -/
  | float (bytes : Nat)
  /-- a small float written as an `f32`, scalar.rs:12-70 -/
  | small (dt : DType)
  /-- `DType`: the discriminant by `serde_repr`, types/dtype.rs:3-29 -/
  | dtype (F : Feats)
  /-- `char`: the code point -/
  | char
  /-- `String`: the code points -/
  | str
  | opt (t : Ty)
  | seq (t : Ty)
  | pair (a b : Ty)
  /-- an enum -/
  | sum (n : Nat) (f : Fin n → Ty)

/-- The values of a schema. -/
def Ty.Val : Ty → Type
  | unit => Unit
  | bool => Bool
  | byte | uint _ | float _ | small _ | char => Nat
  | int _ => Int
  | dtype _ => DType
  | str => List Nat
  | opt t => Option t.Val
  | seq t => List t.Val
  | pair a b => a.Val × b.Val
  | sum n f => (i : Fin n) × (f i).Val

/-! ## The wire format -/

/-- Bytes of a varint of so many bits (postcard `varint_max`). -/
def varBytes (bits : Nat) : Nat := (bits + 6) / 7

/-- postcard `try_take_varint_u16`, `_u32`, `_u64`, `_usize`. -/
def uintDec (bits : Nat) (bs : List Nat) : Option (Nat × List Nat) :=
  match varintDec (varBytes bits) bs with
  | some (v, rest) => if v < 2 ^ bits then some (v, rest) else none
  | none => none

/-- postcard `zig_zag_i32` and the like. -/
def zigzag (z : Int) : Nat := if 0 ≤ z then (2 * z).toNat else (-2 * z - 1).toNat
@[inherit_doc zigzag] def unzigzag (n : Nat) : Int := if n % 2 = 0 then (n / 2 : Nat) else -((n / 2 : Nat) : Int) - 1

/-- The next `n` bytes. -/
def takeN (n : Nat) (bs : List Nat) : Option (List Nat × List Nat) := if n ≤ bs.length then some (bs.take n, bs.drop n) else none

/-- UTF-8 of a code point (Rust core `char::encode_utf8`). -/
def utf8 (c : Nat) : List Nat :=
  if c < 0x80 then [c]
  else if c < 0x800 then [0xC0 + c / 64, 0x80 + c % 64]
  else if c < 0x10000 then [0xE0 + c / 4096, 0x80 + c / 64 % 64, 0x80 + c % 64]
  else [0xF0 + c / 262144, 0x80 + c / 4096 % 64, 0x80 + c / 64 % 64, 0x80 + c % 64]

/-- A continuation byte. -/
def isCont (b : Nat) : Bool := 0x80 ≤ b && b < 0xC0

/-- First code point of a text (Rust core `str::from_utf8`): no overlong forms, no surrogates, nothing above `10FFFF`. -/
def utf8Next : List Nat → Option (Nat × List Nat)
  | [] => none
  | a :: bs =>
    if a < 0x80 then some (a, bs)
    else if 0xC2 ≤ a ∧ a < 0xE0 then match bs with
      | b :: bs => if isCont b then some ((a - 0xC0) * 64 + (b - 0x80), bs) else none
      | _ => none
    else if 0xE0 ≤ a ∧ a < 0xF0 then match bs with
      | b :: c :: bs =>
        let v := (a - 0xE0) * 4096 + (b - 0x80) * 64 + (c - 0x80)
        if isCont b && isCont c && 0x800 ≤ v && !(0xD800 ≤ v && v < 0xE000) then some (v, bs) else none
      | _ => none
    else if 0xF0 ≤ a ∧ a < 0xF5 then match bs with
      | b :: c :: d :: bs =>
        let v := (a - 0xF0) * 262144 + (b - 0x80) * 4096 + (c - 0x80) * 64 + (d - 0x80)
        if isCont b && isCont c && isCont d && 0x10000 ≤ v && v < 0x110000 then some (v, bs) else none
      | _ => none
    else none

/-- All code points of a text; `n` bounds their number. -/
def utf8All : Nat → List Nat → Option (List Nat)
  | _, [] => some []
  | 0, _ => none
  | n + 1, bs => (utf8Next bs).bind fun (c, rest) => (utf8All n rest).map (c :: ·)

/-- postcard `deserialize_str`. -/
def strDec (bs : List Nat) : Option (List Nat × List Nat) :=
  (uintDec 64 bs).bind fun (n, bs) => (takeN n bs).bind fun (txt, bs) => (utf8All n txt).map fun cs => (cs, bs)

/-- postcard `deserialize_char`: at most four bytes, of which the first code point counts. -/
def charDec (bs : List Nat) : Option (Nat × List Nat) :=
  (uintDec 64 bs).bind fun (n, bs) =>
    if 4 < n then none
    else (takeN n bs).bind fun (txt, bs) => (utf8All n txt).bind fun cs => cs.head?.map fun c => (c, bs)

/-- `f32::from` of a small float, scalar.rs:16, 34, 52, 66. -/
def smallUp (dt : DType) (x : Nat) : Nat := Sca.toF32 ⟨dt, x⟩

/-- `F8E4M3::from`, `F8E5M2::from`, `bf16::from_f32`, `f16::from_f32`, scalar.rs:24, 42, 59, 73. -/
def smallDown (fp8 : DType → Nat → Nat) (dt : DType) (b : Nat) : Nat :=
  match dt with
  | .bf16 => halfOf Flt.bf16 b
  | .f16 => halfOf Flt.f16 b
  | _ => fp8 dt b

/-- Decoding `n` values one after the other. -/
def decN {α : Type} (d : List Nat → Option (α × List Nat)) : Nat → List Nat → Option (List α × List Nat)
  | 0, bs => some ([], bs)
  | n + 1, bs => (d bs).bind fun (x, bs) => (decN d n bs).map fun (xs, bs) => (x :: xs, bs)

/-- postcard `to_allocvec`. -/
def encT : (t : Ty) → t.Val → List Nat
  | .unit, _ => []
  | .bool, (b : Bool) => [if b then 1 else 0]
  | .byte, n => [n]
  | .uint bits, n => varintEnc (varBytes bits) n
  | .int bits, z => varintEnc (varBytes bits) (zigzag z)
  | .float n, x => leBytes n x
  | .small dt, x => leBytes 4 (smallUp dt x)
  | .dtype _, (d : DType) => [d.code]
  | .char, c => varintEnc (varBytes 64) (utf8 c).length ++ utf8 c
  | .str, (cs : List Nat) => varintEnc (varBytes 64) (cs.flatMap utf8).length ++ cs.flatMap utf8
  | .opt _, (none : Option _) => [0]
  | .opt t, some x => 1 :: encT t x
  | .seq t, (xs : List _) => varintEnc (varBytes 64) xs.length ++ xs.flatMap (encT t)
  | .pair a b, (x : _ × _) => encT a x.1 ++ encT b x.2
  | .sum _ f, ⟨i, x⟩ => varintEnc (varBytes 32) i.val ++ encT (f i) x

/-- postcard `take_from_bytes`. -/
def decT (fp8 : DType → Nat → Nat) : (t : Ty) → List Nat → Option (t.Val × List Nat)
  | .unit, bs => some ((), bs)
  | .bool, bs => match bs with
    | 0 :: bs => some (false, bs)
    | 1 :: bs => some (true, bs)
    | _ => none
  | .byte, bs => match bs with
    | b :: bs => some (b, bs)
    | [] => none
  | .uint bits, bs => uintDec bits bs
  | .int bits, bs => (uintDec bits bs).map fun (n, bs) => (unzigzag n, bs)
  | .float n, bs => (takeN n bs).map fun (b, bs) => (fromLE b, bs)
  | .small dt, bs => (takeN 4 bs).map fun (b, bs) => (smallDown fp8 dt (fromLE b), bs)
  | .dtype F, bs => match bs with
    | b :: bs => ((DType.ofCode b).filter F.has).map fun d => (d, bs)
    | [] => none
  | .char, bs => charDec bs
  | .str, bs => strDec bs
  | .opt t, bs => match bs with
    | 0 :: bs => some ((none : Option t.Val), bs)
    | 1 :: bs => (decT fp8 t bs).map fun (x, bs) => ((some x : Option t.Val), bs)
    | _ => none
  | .seq t, bs => (uintDec 64 bs).bind fun (n, bs) => decN (decT fp8 t) n bs
  | .pair a b, bs => (decT fp8 a bs).bind fun (x, bs) => (decT fp8 b bs).map fun (y, bs) => ((x, y), bs)
  | .sum n f, bs => (uintDec 32 bs).bind fun (i, bs) =>
      if h : i < n then (decT fp8 (f ⟨i, h⟩) bs).map fun (x, bs) => (⟨⟨i, h⟩, x⟩, bs) else none

/-- postcard `from_bytes`: what follows the record is ignored. -/
def fromBytes (fp8 : DType → Nat → Nat) (t : Ty) (bs : List Nat) : Option t.Val := (decT fp8 t bs).map (·.1)

/-! ## The types of a snapshot -/

/-- An enum of the listed variants. -/
def Ty.alts (ts : List Ty) : Ty := .sum ts.length fun i => ts.get i

/-- A struct of the listed fields. -/
def Ty.struct : List Ty → Ty
  | [] => .unit
  | [t] => t
  | t :: ts => .pair t (struct ts)

/-- An enum of so many variants without contents. -/
def Ty.plain (n : Nat) : Ty := .sum n fun _ => .unit

/-- `usize`, `TensorId` (tensor/core.rs:14), `SnapshotTensorId` (snapshot.rs:13): newtypes are written as what they contain. -/
def Ty.usize : Ty := .uint 64

/-- The variants of `Scalar` that are compiled in, scalar.rs:76-127, with their contents. -/
def scalarVariants (F : Feats) : List (DType × Ty) :=
  [(.bool, .bool), (.f8e4m3, .small .f8e4m3)] ++ (if F.f8e5m2 then [(.f8e5m2, .small .f8e5m2)] else []) ++
  [(.bf16, .small .bf16), (.f16, .small .f16), (.f32, .float 4)] ++ (if F.f64 then [(.f64, .float 8)] else []) ++
  [(.u8, .byte)] ++ (if F.u16 then [(.u16, .uint 16)] else []) ++
  [(.u32, .uint 32)] ++ (if F.u64 then [(.u64, .uint 64)] else []) ++
  [(.i8, .byte)] ++ (if F.i16 then [(.i16, .int 16)] else []) ++
  [(.i32, .int 32)] ++ (if F.i64 then [(.i64, .int 64)] else [])

/-- `Scalar`, scalar.rs:76-127. -/
def scalarTy (F : Feats) : Ty := .alts ((scalarVariants F).map (·.2))

/-- The element type of a scalar. -/
def scalarDt (F : Feats) (s : (scalarTy F).Val) : Option DType := ((scalarVariants F)[s.1.val]?).map (·.1)

/-- `Shape`, types/shape.rs:10-13; `Layout`, types/layout.rs:15-19. -/
def shapeTy : Ty := .seq .usize
@[inherit_doc shapeTy] def layoutTy : Ty := .struct [shapeTy, .seq .usize, .usize]

/-- `DynamicDimId`, types/dim.rs:10; `Dim`, types/dim.rs:45-51; `SymbolicShape`, types/symbolic_shape.rs:13-15; `SymbolicLayout`,
types/symbolic_layout.rs:14-19. -/
def dimIdTy : Ty := .uint 32
@[inherit_doc dimIdTy] def dimTy : Ty := .alts [.usize, .struct [dimIdTy, .opt .usize]]
@[inherit_doc dimIdTy] def symLayoutTy : Ty := .struct [.seq dimTy, .seq .usize, .usize]

/-- `Op`, ops.rs:832-862, and the enums it contains (at the lines given with them), in the order of `Op`. -/
def opTy : Ty := .alts [
  .plain 8,   -- Binary, ops.rs:10-19
  .plain 3,   -- BinaryLogical, ops.rs:44-48
  .plain 5,   -- BitwiseBinary, ops.rs:68-74
  .plain 1,   -- BitwiseUnary, ops.rs:290-292
  .plain 2,   -- BitwiseUnaryScalar, ops.rs:310-313
  .plain 6,   -- Cmp, ops.rs:96-103
  .plain 6,   -- CmpScalar, ops.rs:126-133
  .plain 39,  -- Unary, ops.rs:156-208
  .plain 4,   -- UnaryLogical, ops.rs:264-269
  .plain 11,  -- UnaryScalar, ops.rs:332-345
  .plain 2,   -- Matrix, ops.rs:373-376
  .plain 3,   -- Linalg, ops.rs:395-400
  .plain 14,  -- Reduce, ops.rs:420-435
  .plain 1,   -- Concat, ops.rs:466-468
  .plain 1,   -- Split, ops.rs:486-488
  .plain 11,  -- Indexing, ops.rs:506-518
  .plain 12,  -- Conv, ops.rs:546-559
  .plain 4,   -- Windowing, ops.rs:588-593
  .plain 1,   -- Resize, ops.rs:614-616
  .plain 4,   -- Padding, ops.rs:634-639
  .plain 1,   -- Scan, ops.rs:660-662
  .plain 1,   -- Sort, ops.rs:680-682
  .plain 1,   -- Einsum, ops.rs:700-702
  .plain 7,   -- Shape, ops.rs:720-728
  .plain 1,   -- ShapeScalars, ops.rs:752-754
  .plain 1,   -- ShapeMemory, ops.rs:772-774
  .plain 1,   -- Cast, ops.rs:792-794
  .plain 1,   -- Memory, ops.rs:812-814
  .unit]      -- Dummy

/-- So many fields of type `usize`. -/
def usizes (n : Nat) : Ty := .struct (List.replicate n .usize)

/-- `OpParams`, op_params.rs:535-639, and the structs it contains, op_params.rs:11-531. -/
def paramsTy (F : Feats) : Ty :=
  let s := scalarTy F
  let pads : Ty := .seq (.pair .usize .usize)
  .alts [
    .unit,                                                   -- Binary
    .unit,                                                   -- BinaryLogical
    .unit,                                                   -- BitwiseBinary
    .unit,                                                   -- BitwiseUnary
    .uint 32,                                                -- BitwiseUnaryScalar: shift
    .unit,                                                   -- Cmp
    s,                                                       -- CmpScalar
    .unit,                                                   -- Unary
    .unit,                                                   -- UnaryLogical
    s,                                                       -- UnaryScalar
    .unit, .unit,                                            -- Matmul, Dot
    .unit, .unit, .unit,                                     -- Det, Inv, Trace
    .struct [.seq s, .bool],                                 -- Reduce: dims, keep_dim
    s,                                                       -- Concat
    .struct [s, .seq s, .usize],                             -- Split: dim, sizes, output_index
    s, s, s, s, s, s, s,                                     -- IndexSelect, IndexPut, Gather, Scatter, ScatterAdd, ScatterMax, ScatterMin
    .struct [s, s, .dtype F],                                  -- Onehoto
    .opt dimIdTy,                                            -- Nonzero
    .struct [.usize, .usize, .opt dimIdTy],                  -- Unique
    .struct [.opt s, .opt dimIdTy],                          -- Compress
    usizes 8, usizes 10, usizes 12,                          -- Conv1d, Conv2d, Conv3d
    usizes 9, usizes 11, usizes 13,                          -- ConvTranspose1d, 2d, 3d
    usizes 6, usizes 7, usizes 8,                            -- Conv1dGradWeight, 2d, 3d
    usizes 6, usizes 7, usizes 8,                            -- ConvTranspose1dGradWeight, 2d, 3d
    .struct [.seq .usize, .seq .usize, pads, .seq .usize],   -- ReduceWindow
    .struct [pads, s],                                       -- Padding
    .usize,                                                  -- Scan
    .struct [.usize, .int 32, .bool, .bool, .usize],         -- TopK: k, dim, largest, sorted, indices_id
    .struct [.str, .seq (.seq .char), .seq .char, .seq .char], -- Einsum
    .struct [.seq .usize, .plain 3, .plain 4, .plain 4],     -- Resize
    .unit, .unit, .unit, .unit, .unit, .unit, .unit,         -- Reshape, Flatten, Squeeze, Unsqueeze, Broadcast, Transpose, Permute
    .seq .usize,                                             -- Flip
    .struct [s, s, s, s],                                    -- Slice
    .dtype F,                                                -- ToDType
    .unit,                                                   -- ToDevice
    .unit, .unit]                                            -- Contiguous, Set

/-- `SnapshotInput`, snapshot.rs:18-23. -/
def inputTy (F : Feats) : Ty := .struct [.str, .usize, shapeTy, .dtype F]
/-- `SnapshotTarget`, snapshot.rs:28-31. -/
def targetTy : Ty := .struct [.str, .usize]
/-- `SnapshotConstant`, snapshot.rs:36-43. -/
def constantTy (F : Feats) : Ty := .struct [.usize, .opt .str, shapeTy, .dtype F, .seq .byte]
/-- `SnapshotNode`, snapshot.rs:48-58. -/
def nodeTy (F : Feats) : Ty :=
  .struct [opTy, .opt (paramsTy F), .seq .usize, .usize, .seq layoutTy, layoutTy, .dtype F, .opt symLayoutTy]
/-- `Snapshot`, snapshot.rs:63-69. -/
def snapshotTy (F : Feats) : Ty := .struct [.opt .str, .seq (inputTy F), .seq (constantTy F), .seq targetTy, .seq (nodeTy F)]

/-- `Snapshot::to_bytes`, snapshot.rs:93-95, and `save`, 103-106. -/
def saveSnapshot (F : Feats) (s : (snapshotTy F).Val) : List Nat := encT (snapshotTy F) s

/-- `Snapshot::from_bytes`, snapshot.rs:98-100, and `load`, 109-112. -/
def loadSnapshot (fp8 : DType → Nat → Nat) (F : Feats) (bs : List Nat) : Option (snapshotTy F).Val := fromBytes fp8 (snapshotTy F) bs

/-! ## Named tensors -/

/-- `TensorData`, format/hdt.rs:12-17, and `TensorCollection`, 20-23. -/
def tensorDataTy (F : Feats) : Ty := .struct [.seq .usize, .dtype F, .seq .byte]
@[inherit_doc tensorDataTy] def collectionTy (F : Feats) : Ty := .seq (.pair .str (tensorDataTy F))

/-- A name, a shape, an element type and the bytes: an element of the collection, format/hdt.rs:12-23. -/
abbrev Record := List Nat × List Nat × DType × List Nat

/-- The closure of `serialize_many`, format/hdt.rs:78-87. -/
def toRecord (e : List Nat × DType × Tensor Nat) : Res Record :=
  (e.2.2.toBytes e.2.1).bind fun data => .ok (e.1, e.2.2.dims, e.2.1, data)

/-- `serialize_many`, format/hdt.rs:74-92: the entries in the order in which the map yields them. -/
def serializeMany (F : Feats) (entries : List (List Nat × DType × Tensor Nat)) : Res (List Nat) :=
  (Res.mapL toRecord entries).bind fun (xs : List Record) => .ok (encT (collectionTy F) xs)

/-- Collecting into a map: the last entry of a name counts. -/
def collect {α : Type} (xs : List (List Nat × α)) (name : List Nat) : Option α :=
  (xs.reverse.find? fun e => e.1 = name).map (·.2)

/-- The closure of `deserialize_many`, format/hdt.rs:102-106. -/
def ofRecord (e : Record) : Res (List Nat × DType × Tensor Nat) :=
  (Tensor.fromBytes e.2.2.2 e.2.1 e.2.2.1).bind fun t => .ok (e.1, e.2.2.1, t)

/-- The records of a file. -/
def records (fp8 : DType → Nat → Nat) (F : Feats) (bs : List Nat) : Option (List Record) := fromBytes fp8 (collectionTy F) bs

/-- `deserialize_many`, format/hdt.rs:95-108. -/
def deserializeMany (fp8 : DType → Nat → Nat) (F : Feats) (bs : List Nat) : Res (List Nat → Option (DType × Tensor Nat)) :=
  match records fp8 F bs with
  | none => .err
  | some xs => (Res.mapL ofRecord xs).bind fun ys => .ok (collect ys)

end Hodu.Wire
