import Verif.Model.Dispatch
import Verif.Model.Indexing
import Verif.Model.Matmul

/-!
# Model of public tensor operations with their element types

crates/hodu_core/src/tensor/ops/{binary,unary,cmp,reduce,cast_memory,selection,normalization}.rs and
the host functions they call.  The models of the operations elsewhere are about tensors of one element
type; here a tensor carries its `DType`, so that what the code does with operands of different types
(reject them) is part of the model.  `α` stands for the numbers of every numeric type; the arithmetic
of one type is a parameter (`FOps`), rounding on conversion is the parameter `cv`.

Left out: gradient bookkeeping (Model/Autograd.lean) and capture mode (Model/Capture.lean); devices
other than the CPU.
-/

namespace Hodu

variable {α : Type}

/-- A `Tensor` with its element type (`Tensor::dtype`, tensor/core.rs): numbers or booleans. -/
inductive TT (α : Type) where
  | num (dt : DType) (t : Tensor α)
  | bool (t : Tensor Bool)
  deriving Repr, DecidableEq

/-- `Tensor::dtype`. -/
def TT.dtype : TT α → DType
  | .num dt _ => dt
  | .bool _ => .bool

/-- The dimensions of `Tensor::shape`. -/
def TT.dims : TT α → List Nat
  | .num _ t => t.dims
  | .bool t => t.dims

/-- A `Scalar` (crates/hodu_core/src/scalar.rs:77-105): its type and its value. -/
structure Sc (α : Type) where
  dt : DType
  val : α
  deriving Repr, DecidableEq

/-- What the operations depend on: element arithmetic, number of cores (see `Tensor.unary`), content of
an allocated buffer, conversion between numeric types (ops_cast.c). -/
structure Rt (α : Type) where
  A : FOps α
  cores : Nat
  fill : α
  cv : DType → DType → α → α

namespace Rt

variable (E : Rt α)

/-- `Scalar::one(dtype)`, scalar.rs:256-281. -/
def one (dt : DType) : Sc α := ⟨dt, E.A.cst .one⟩

/-- `Scalar::zero(dtype)`, scalar.rs:229-254. -/
def zero (dt : DType) : Sc α := ⟨dt, E.A.cst .zero⟩

/-- `Scalar::from_f32(n as f32, dtype)` and `Scalar::new(n).to_dtype(dtype)` of a small natural number,
scalar.rs:283-311, 391-420. -/
def nat (n : Nat) (dt : DType) : Sc α := ⟨dt, E.A.ofNat n⟩

/-- `Scalar::to_dtype`, scalar.rs:391-420. -/
def toS (s : Sc α) (dt : DType) : Sc α := ⟨dt, if s.dt = dt then s.val else E.cv s.dt dt s.val⟩

/-- `Tensor::full`, tensor/creation.rs:171-189: the element type is the scalar's. -/
def _root_.Hodu.TT.full (d : List Nat) (s : Sc α) : TT α :=
  .num s.dt ⟨List.replicate (shapeSize d) s.val, Layout.fromShape d⟩

/-- `Tensor::full_like`, tensor/creation.rs:191-193: the shape of the tensor, the element type of the
scalar. -/
def _root_.Hodu.TT.fullLike (t : TT α) (s : Sc α) : TT α := TT.full t.dims s

/-- `Tensor::ones_like`, tensor/creation.rs:148-169 (`Tensor::ones(shape, dtype)`). -/
def onesLike : TT α → TT α
  | .num dt t => TT.full t.dims (E.one dt)
  | .bool t => .bool ⟨List.replicate (shapeSize t.dims) true, Layout.fromShape t.dims⟩

/-- `Tensor::zeros_like`, tensor/creation.rs:126-146. -/
def zerosLike : TT α → TT α
  | .num dt t => TT.full t.dims (E.zero dt)
  | .bool t => .bool ⟨List.replicate (shapeSize t.dims) false, Layout.fromShape t.dims⟩

/-- `binary_op!`, tensor/ops/binary.rs:12-80, eager branch: equal element types, an element type the
operation accepts, broadcasting, the kernel.  The last case is not reached: no binary operation accepts
booleans. -/
def bin (o : BOp) (a b : TT α) : Res (TT α) :=
  if a.dtype ≠ b.dtype then .err
  else if Dispatch.validate a.dtype (.binary o) = false then .err
  else match a, b with
    | .num dt s, .num _ t =>
      (Tensor.binary E.cores (E.A.bin o) E.fill s t).bind fun r =>
        (Dispatch.backend (.binary o) dt).bind fun _ => .ok (.num dt r)
    | _, _ => .err

/-- `unary_op!`, tensor/ops/unary.rs:10-66.  No unary operation accepts booleans. -/
def un (o : UOp) (a : TT α) : Res (TT α) :=
  if Dispatch.validate a.dtype (.unary o) = false then .err
  else match a with
    | .num dt s =>
      (s.unary E.cores (E.A.un o) E.fill).bind fun r =>
        (Dispatch.backend (.unary o) dt).bind fun _ => .ok (.num dt r)
    | .bool _ => .err

/-- The operation with a scalar that belongs to a binary operation, ops.rs (`UnaryScalarOp`). -/
def scalarOp : BOp → Dispatch.UnaryScalarOp
  | .add => .addScalar
  | .sub => .subScalar
  | .mul => .mulScalar
  | .div => .divScalar
  | .rem => .remScalar
  | .pow => .powScalar
  | .maximum => .maximumScalar
  | .minimum => .minimumScalar

/-- `unary_scalar_op!`, tensor/ops/unary.rs:103-163; the host function rejects a scalar of another
element type (be_cpu/storage/ops_unary.rs:265-293). -/
def scal (o : BOp) (a : TT α) (c : Sc α) : Res (TT α) :=
  if Dispatch.validate a.dtype (.unaryScalar (scalarOp o)) = false then .err
  else if c.dt ≠ a.dtype then .err
  else match a with
    | .num dt s =>
      (s.unary E.cores (fun x => E.A.bin o x c.val) E.fill).bind fun r =>
        (Dispatch.backend (.unaryScalar (scalarOp o)) dt).bind fun _ => .ok (.num dt r)
    | .bool _ => .err

/-- The comparison operations, ops.rs (`CmpScalarOp`). -/
def cmpScalarOp : COp → Dispatch.CmpScalarOp
  | .lt => .ltScalar
  | .le => .leScalar
  | .gt => .gtScalar
  | .ge => .geScalar
  | .eq => .eqScalar

/-- `cmp_scalar_op!`, tensor/ops/cmp.rs:52-88; scalars of another element type are rejected
(be_cpu/storage/ops_unary.rs:11-83).  `eq_scalar` of booleans is not modelled. -/
def cmpScal (o : COp) (a : TT α) (c : Sc α) : Res (TT α) :=
  if Dispatch.validate a.dtype (.cmpScalar (cmpScalarOp o)) = false then .err
  else if c.dt ≠ a.dtype then .err
  else match a with
    | .num dt s =>
      (s.unary E.cores (fun x => E.A.cmp o x c.val) false).bind fun r =>
        (Dispatch.backend (.cmpScalar (cmpScalarOp o)) dt).bind fun _ => .ok (.bool r)
    | .bool _ => .err

/-- The comparison operations, ops.rs (`CmpOp`). -/
def cmpOp : COp → Dispatch.CmpOp
  | .lt => .lt
  | .le => .le
  | .gt => .gt
  | .ge => .ge
  | .eq => .eq

/-- `cmp_op!`, tensor/ops/cmp.rs:10-50.  `eq` of booleans is not modelled. -/
def cmp (o : COp) (a b : TT α) : Res (TT α) :=
  if a.dtype ≠ b.dtype then .err
  else if Dispatch.validate a.dtype (.cmp (cmpOp o)) = false then .err
  else match a, b with
    | .num dt s, .num _ t =>
      (Tensor.binaryBool (E.A.cmp o) s t).bind fun r =>
        (Dispatch.backend (.cmp (cmpOp o)) dt).bind fun _ => .ok (.bool r)
    | _, _ => .err

/-- `Tensor::logical_not`, tensor/ops/unary.rs:68-101 (`unary_logical_op!`): the result is BOOL.
Numbers: `x == 0`. -/
def lnot (a : TT α) : Res (TT α) :=
  match a with
  | .num dt s =>
    (s.unary E.cores (fun x => E.A.cmp .eq x (E.A.cst .zero)) false).bind fun r =>
      (Dispatch.backend (.unaryLogical .logicalNot) dt).bind fun _ => .ok (.bool r)
  | .bool s => (s.unary E.cores (fun x => !x) false).bind fun r => .ok (.bool r)

/-- `ReduceOp`, ops.rs. -/
def reduceOp : ROp → Dispatch.ReduceOp
  | .sum => .sum
  | .mean => .mean
  | .max => .max
  | .min => .min
  | .prod => .prod
  | .std => .std
  | .var => .var
  | .norm => .norm
  | .logsum => .logSum
  | .logsumexp => .logSumExp

/-- `reduce_operation`, tensor/ops/reduce.rs:134-245; `sum_all`, `mean_all` (15-17, 57-59) are
`dims = []`, `keep = false`. -/
def red (o : ROp) (ds : List Int) (keep : Bool) (a : TT α) : Res (TT α) :=
  if Dispatch.validate a.dtype (.reduce (reduceOp o)) = false then .err
  else match a with
    | .num dt s =>
      (s.red E.A o ds keep).bind fun r =>
        (Dispatch.backend (.reduce (reduceOp o)) dt).bind fun _ => .ok (.num dt r)
    | .bool _ => .err

/-- `Tensor::to_dtype`, tensor/ops/cast_memory.rs:10-37; the cast kernels, ops_cast.c (booleans become
0 and 1, numbers become `x != 0`). -/
def toDtype (a : TT α) (dt : DType) : Res (TT α) :=
  match a with
  | .num dt' s =>
    if dt = dt' then (s.unary E.cores (fun x => x) E.fill).bind fun r => .ok (.num dt r)
    else if dt = .bool then
      (s.unary E.cores (fun x => !E.A.cmp .eq x (E.A.cst .zero)) false).bind fun r => .ok (.bool r)
    else (s.unary E.cores (E.cv dt' dt) E.fill).bind fun r => .ok (.num dt r)
  | .bool s =>
    if dt = .bool then (s.unary E.cores (fun x => x) false).bind fun r => .ok (.bool r)
    else (s.unary E.cores E.A.ofBool E.fill).bind fun r => .ok (.num dt r)

/-- `Tensor::broadcast`, tensor/ops/shape.rs (any element type). -/
def _root_.Hodu.TT.broadcast (a : TT α) (d : List Nat) : Res (TT α) :=
  match a with
  | .num dt t => (t.broadcast d).bind fun r => .ok (.num dt r)
  | .bool t => (t.broadcast d).bind fun r => .ok (.bool r)

/-! ## Selection -/

/-- `broadcast_tensors3`, tensor/utils.rs:44-54. -/
def _root_.Hodu.TT.broadcast3 (a b c : TT α) : Res (TT α × TT α × TT α) :=
  (Tensor.broadcastDims a.dims b.dims).bind fun ab =>
    (TT.broadcast a ab).bind fun tab => (TT.broadcast b ab).bind fun _ =>
    (Tensor.broadcastDims tab.dims c.dims).bind fun abc =>
    (TT.broadcast tab abc).bind fun _ => (TT.broadcast c abc).bind fun _ =>
    (TT.broadcast a abc).bind fun a' => (TT.broadcast b abc).bind fun b' =>
    (TT.broadcast c abc).bind fun c' => .ok (a', b', c')

/-- `x.where3(condition, other)`, tensor/ops/selection.rs:8-19. -/
def where3 (x cond other : TT α) : Res (TT α) :=
  (TT.broadcast3 cond x other).bind fun (cond, x, y) =>
    (E.toDtype cond x.dtype).bind fun mask =>
    (E.bin .sub (E.onesLike mask) mask).bind fun inv =>
    (E.bin .mul mask x).bind fun xp =>
    (E.bin .mul inv y).bind fun yp => E.bin .add xp yp

/-- `x.masked_fill(mask, value)`, tensor/ops/selection.rs:21-25. -/
def maskedFill (x mask : TT α) (v : Sc α) : Res (TT α) := E.where3 x mask (TT.fullLike x v)

/-- `x.clamp_min(min)`, tensor/ops/selection.rs:38-42. -/
def clampMin (x : TT α) (lo : Sc α) : Res (TT α) :=
  (E.cmpScal .lt x lo).bind fun m => E.where3 x m (TT.fullLike x lo)

/-- `x.clamp_max(max)`, tensor/ops/selection.rs:44-48. -/
def clampMax (x : TT α) (hi : Sc α) : Res (TT α) :=
  (E.cmpScal .gt x hi).bind fun m => E.where3 x m (TT.fullLike x hi)

/-- `x.clamp(min, max)`, tensor/ops/selection.rs:27-36. -/
def clamp (x : TT α) (lo hi : Sc α) : Res (TT α) :=
  (E.cmpScal .lt x lo).bind fun m =>
    (E.where3 x m (TT.fullLike x lo)).bind fun c =>
    (E.cmpScal .gt c hi).bind fun m' => E.where3 c m' (TT.fullLike c hi)

end Rt

end Hodu
