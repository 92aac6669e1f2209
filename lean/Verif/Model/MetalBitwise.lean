import Verif.Model.MetalMove
import Verif.Model.CudaBitwise

/-!
# Model of the bitwise operations on Metal

Device side: crates/hodu_metal_kernels/kernels/ops_bitwise.metal.  Launches: crates/hodu_metal_kernels/src/kernels/ops_bitwise.rs.
Hosts: crates/hodu_core/src/be_metal/storage/ops_bitwise.rs with crates/hodu_core/src/tensor/ops/bitwise.rs.

In the Metal shading language a shift is defined for every count: it shifts by the lowest `log2 N` bits of the count, where `N` is the
width of the promoted left operand (section 3.1 of its specification).
-/

namespace Hodu.Metal

open _root_.Hodu Hodu.Cuda

/-- The count a shift uses: the lowest bits of the right operand (ops_bitwise.metal:126-127 and the like). -/
def mslCount (w : Nat) (n : Int) : Nat := (n % promWidth w).toNat

/-- `x << y` and `x << shift`, ops_bitwise.metal:126, 248. -/
def mslShl (s : Bool) (x : BitVec w) (n : Int) : BitVec w := demote (promote s x <<< mslCount w n)

/-- `x >> y` and `x >> shift`, ops_bitwise.metal:127, 249: arithmetic for a signed promoted type. -/
def mslShr (s : Bool) (x : BitVec w) (n : Int) : BitVec w :=
  demote (if promSigned w s then (promote s x).sshiftRight (mslCount w n) else promote s x >>> mslCount w n)

/-- `FUNC` of the binary kernels, ops_bitwise.metal:126-186. -/
def bitEvalMetal (s : Bool) (o : BitOp) (x y : BitVec w) : BitVec w :=
  match o with
  | .shl => mslShl s x (cVal s y)
  | .shr => mslShr s x (cVal s y)
  | .band => demote (promote s x &&& promote s y)
  | .bor => demote (promote s x ||| promote s y)
  | .bxor => demote (promote s x ^^^ promote s y)

/-- `FUNC` of the unary kernels and of the shifts by a scalar, ops_bitwise.metal:192-204, 248-267. -/
def unBitEvalMetal (s : Bool) (o : UnBitOp) (x : BitVec w) : BitVec w :=
  match o with
  | .not => demote (~~~ promote s x)
  | .shl n => mslShl s x n
  | .shr n => mslShr s x n

/-- `BINARY_BITWISE_OP`, ops_bitwise.metal:21-79: four paths; in the last one the coordinates of both operands come from the shape of the
left one (:68-73).  Launched by src/kernels/ops_bitwise.rs:81-82. -/
def bitBinaryLoop (maxT : Nat) (f : α → α → β) (l r : List α) (md : List Nat) : Res (Loop β) :=
  (decodeBinary md).bind fun m =>
    let lhsCont := cIsContiguous m.lhsDims m.lhsStrides
    let rhsCont := cIsContiguous m.rhsDims m.rhsStrides
    let both := readBoth f l r
    launchOnce maxT m.numEls fun i =>
      if lhsCont && rhsCont then both (m.lhsOffset + i) (m.rhsOffset + i)
      else if lhsCont then both (m.lhsOffset + i) (m.rhsOffset + strided32 i m.rhsDims m.rhsStrides)
      else if rhsCont then both (m.lhsOffset + strided32 i m.lhsDims m.lhsStrides) (m.rhsOffset + i)
      else both (m.lhsOffset + strided32 i m.lhsDims m.lhsStrides) (m.rhsOffset + strided32 i m.lhsDims m.rhsStrides)

/-- `UNARY_BITWISE_OP`, ops_bitwise.metal:88-119, and `SCALAR_SHIFT_OP`, ops_bitwise.metal:213-242: the sum with the offset is a `size_t`.
Launched by src/kernels/ops_bitwise.rs:133-134, 194-195. -/
def bitUnaryLoop (maxT : Nat) (f : α → β) (inp : List α) (md : List Nat) : Res (Loop β) :=
  (Cuda.decodeUnary md).bind fun m =>
    launchOnce maxT m.numEls fun i =>
      if cIsContiguous m.dims m.strides then (readC inp (m.offset + i)).map f
      else (readC inp (m.offset + strided32 i m.dims m.strides)).map f

/-- The types with kernels, ops_bitwise.metal:126-186, 192-204, 248-267; for the others loading the pipeline fails. -/
def bitTypes : List DType := [.u8, .u16, .u32, .u64, .i8, .i16, .i32, .i64]

/-- `bitwise_binary_op!`, tensor/ops/bitwise.rs:11-60 (eager branch), with `call_ops_bitwise_binary`,
be_metal/storage/ops_bitwise.rs:10-60.  The result has the layout of the broadcast left operand (bitwise.rs:54). -/
def bitBinaryMetal (maxT : Nat) (f : α → α → α) (dt : DType) (a b : Tensor α) : Res (LLaunched α) :=
  (Tensor.broadcast2 a b).bind fun (l, r) =>
    if dt ∉ bitTypes then .err
    else (bitBinaryLoop maxT f l.storage r.storage (binaryMetadata l.layout r.layout l.layout)).bind fun k =>
      .ok ⟨k, shapeSize l.dims, l.layout⟩

/-- `bitwise_unary_op!` and `bitwise_scalar_shift_op!`, tensor/ops/bitwise.rs:62-142 (eager branches), with
`call_ops_bitwise_unary`, `call_ops_bitwise_unary_scalar`, be_metal/storage/ops_bitwise.rs:62-157. -/
def bitUnaryMetal (maxT : Nat) (f : α → α) (dt : DType) (t : Tensor α) : Res (LLaunched α) :=
  if dt ∉ bitTypes then .err
  else (bitUnaryLoop maxT f t.storage (unaryMetadata t.layout t.layout)).bind fun k => .ok ⟨k, shapeSize t.dims, t.layout⟩

end Hodu.Metal
