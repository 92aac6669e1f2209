import Verif.Model.CudaMove
import Verif.Model.Bitwise

/-!
# Model of the bitwise operations on CUDA

Device side: crates/hodu_cuda_kernels/kernels/ops_bitwise.cu.  Launches:
crates/hodu_cuda_kernels/src/kernels/ops_bitwise.rs (4, 3 and 4 arguments for kernels with as many parameters).  Hosts:
crates/hodu_core/src/be_cuda/storage/ops_bitwise.rs with crates/hodu_core/src/tensor/ops/bitwise.rs.

The kernels are C++ in the dialect `nvcc` takes without `-std` (build.rs:45-52), C++14 or C++17.  The operators are those of C
except for `<<`: a signed value that is not negative may be shifted into the sign bit, the result must only fit the
unsigned type ([expr.shift] since CWG 1457).
-/

namespace Hodu.Cuda

open _root_.Hodu

/-- `x << y` and `x << shift`, ops_bitwise.cu:108 and the like, 220-239, for a count with the value `n`. -/
def cxxShl (s : Bool) (x : BitVec w) (n : Int) : Res (BitVec w) :=
  if n < 0 ∨ (promWidth w : Int) ≤ n then .ub
  else if promSigned w s = true ∧ (cVal s x < 0 ∨ 2 ^ promWidth w ≤ cVal s x * 2 ^ n.toNat) then .ub
  else .ok (demote (promote s x <<< n.toNat))

/-- `FUNC` of the binary kernels, ops_bitwise.cu:108-165. -/
def bitEval (s : Bool) (o : BitOp) (x y : BitVec w) : Res (BitVec w) :=
  match o with
  | .shl => cxxShl s x (cVal s y)
  | .shr => cShr s x (cVal s y)
  | .band => cAnd s x y
  | .bor => cOr s x y
  | .bxor => cXor s x y

/-- `FUNC` of the unary kernels and of the shifts by a scalar, ops_bitwise.cu:171-183, 220-240. -/
def unBitEval (s : Bool) (o : UnBitOp) (x : BitVec w) : Res (BitVec w) :=
  match o with
  | .not => cNot s x
  | .shl n => cxxShl s x n
  | .shr n => cShr s x n

/-! ## Kernels -/

/-- `BINARY_BITWISE_OP`, ops_bitwise.cu:20-67: four paths, each operand with its own shape; only the strided index is 32 bits
wide. -/
def bitBinaryLoop (f : α → α → Res β) (l r : List α) (md : List Nat) : Res (Loop β) :=
  (decodeBinary md).bind fun m =>
    let lhsCont := cIsContiguous m.lhsDims m.lhsStrides
    let rhsCont := cIsContiguous m.rhsDims m.rhsStrides
    let both := fun li ri => (readC l li).bind fun x => (readC r ri).bind fun y => f x y
    .ok (gridLoop m.numEls (fun i =>
      if lhsCont && rhsCont then both (m.lhsOffset + i) (m.rhsOffset + i)
      else if lhsCont then both (m.lhsOffset + i) (m.rhsOffset + stridedIndex i m.rhsDims m.rhsStrides)
      else if rhsCont then both (m.lhsOffset + stridedIndex i m.lhsDims m.lhsStrides) (m.rhsOffset + i)
      else both (m.lhsOffset + stridedIndex i m.lhsDims m.lhsStrides)
        (m.rhsOffset + stridedIndex i m.rhsDims m.rhsStrides)) fun i => i)

/-- `UNARY_BITWISE_OP`, ops_bitwise.cu:79-102, and `SCALAR_SHIFT_OP`, ops_bitwise.cu:191-215: unlike in ops_unary.cu:18-31
the sum with the offset is a `size_t`. -/
def bitUnaryLoop (f : α → Res β) (inp : List α) (md : List Nat) : Res (Loop β) :=
  (decodeUnary md).bind fun m =>
    .ok (gridLoop m.numEls (fun i =>
      if cIsContiguous m.dims m.strides then (readC inp (m.offset + i)).bind f
      else (readC inp (m.offset + stridedIndex i m.dims m.strides)).bind f) fun i => i)

/-! ## Hosts -/

/-- A kernel as launched, the number of elements of its buffer and the layout of the result tensor. -/
structure LLaunched (α : Type) where
  kernel : Loop α
  len : Nat
  layout : Layout

/-- Types with an arm in be_cuda/storage/ops_bitwise.rs:58-106, 150-198, 248-296, their cargo features switched on. -/
def bitArms : List DType := [.u8, .u16, .u32, .u64, .i8, .i16, .i32, .i64]

/-- `bitwise_binary_op!`, tensor/ops/bitwise.rs:11-60 (eager branch), with `call_ops_bitwise_binary`,
be_cuda/storage/ops_bitwise.rs:11-107.  The result has the layout of the broadcast left operand (bitwise.rs:54). -/
def bitBinaryCuda (f : α → α → Res α) (dt : DType) (a b : Tensor α) : Res (LLaunched α) :=
  (Tensor.broadcast2 a b).bind fun (l, r) =>
    if dt ∈ bitArms then
      (bitBinaryLoop f l.storage r.storage (binaryMetadata l.layout r.layout l.layout)).bind fun k =>
        .ok ⟨k, shapeSize l.dims, l.layout⟩
    else .err

/-- `bitwise_unary_op!` and `bitwise_scalar_shift_op!`, tensor/ops/bitwise.rs:62-142 (eager branches), with
`call_ops_bitwise_unary`, `call_ops_bitwise_unary_scalar`, be_cuda/storage/ops_bitwise.rs:109-297.  The result has the layout
of the input (bitwise.rs:92, 137). -/
def bitUnaryCuda (f : α → Res α) (dt : DType) (t : Tensor α) : Res (LLaunched α) :=
  if dt ∈ bitArms then
    (bitUnaryLoop f t.storage (unaryMetadata t.layout t.layout)).bind fun k => .ok ⟨k, shapeSize t.dims, t.layout⟩
  else .err

/-! ## Names -/

/-- Operators as the host writes them into the kernel name (`Display`, ops.rs:76-86, and those of `BitwiseUnaryOp`,
`BitwiseUnaryScalarOp`; be_cuda/storage/ops_bitwise.rs:35, 128, 224). -/
def bitOpNames : List String :=
  ["shl", "shr", "bitwise_and", "bitwise_or", "bitwise_xor", "bitwise_not", "shl_scalar", "shr_scalar"]

/-- Name of the kernel the host asks for, be_cuda/storage/ops_bitwise.rs:35. -/
def bitKernelName (op : String) (dt : DType) : String := "hodu_cuda_" ++ op ++ "_" ++ dt.name

/-- Names of the instantiations, ops_bitwise.cu:108-165 (binary), 171-183 (unary), 220-240 (scalar shifts), in the order of
the file, after `hodu_cuda_##FN_NAME`. -/
def bitExports : List String :=
  (["u8", "u16", "u32", "u64", "i8", "i16", "i32", "i64"].flatMap fun t =>
    ["shl", "shr", "bitwise_and", "bitwise_or", "bitwise_xor"].map fun o => "hodu_cuda_" ++ o ++ "_" ++ t) ++
  (["u8", "u16", "u32", "u64", "i8", "i16", "i32", "i64"].map fun t => "hodu_cuda_bitwise_not_" ++ t) ++
  (["u8", "u16", "u32", "u64", "i8", "i16", "i32", "i64"].flatMap fun t =>
    ["shl_scalar", "shr_scalar"].map fun o => "hodu_cuda_" ++ o ++ "_" ++ t)

end Hodu.Cuda
