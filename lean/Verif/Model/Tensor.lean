import Verif.Model.Elementwise

/-!
# Model of `Tensor` on the CPU backend: creation, views, element-wise operators, read-back

A tensor is a (shared, immutable) storage buffer and a layout.  Registry, gradients and capture are
modelled elsewhere.  dtype/device validation (`validate_*`) is not modelled: all operands have one
element type.
-/

namespace Hodu

/-- `Tensor_ { storage, layout, .. }`, crates/hodu_core/src/tensor/core.rs, restricted to the two
fields that determine its values. -/
structure Tensor (α : Type) where
  storage : List α
  layout : Layout
  deriving Repr, DecidableEq

namespace Tensor

variable {α β : Type}

/-- Shape of a tensor (`Tensor::shape`). -/
abbrev dims (t : Tensor α) : List Nat := t.layout.dims

/-- `Tensor::from_slice`, tensor/creation.rs:68-94 (flat data). -/
def fromSlice (data : List α) (dims : List Nat) : Res (Tensor α) :=
  if shapeSize dims ≠ data.length then .err
  else .ok { storage := data, layout := Layout.fromShape dims }

/-- `CpuStorage::contiguous`, be_cpu/storage.rs:717-768. -/
def storageContiguous (s : List α) (l : Layout) : Res (List α) :=
  if l.isContiguous && l.offset == 0 then .ok s
  else contiguousKernel s (unaryMetadata l l)

/-- `Tensor::contiguous`, tensor/ops/cast_memory.rs:56-83 (eager branch). -/
def contiguous (t : Tensor α) : Res (Tensor α) :=
  if t.layout.isContiguous then .ok t
  else (storageContiguous t.storage t.layout).bind fun s =>
    .ok { storage := s, layout := Layout.fromShape t.dims }

/-- Common shape of all view operations of tensor/ops/shape.rs (reshape 26-70, flatten 78-122,
squeeze 126-178, unsqueeze 182-229, broadcast 234-278, transpose 296-345, permute 353-405, slice
458-518): a non-contiguous tensor is first copied, then the layout operation is applied and the
storage shared (`from_shared_storage_with`). -/
def viewVia (t : Tensor α) (f : Layout → Res Layout) : Res (Tensor α) :=
  t.contiguous.bind fun c => (f c.layout).bind fun l => .ok { storage := c.storage, layout := l }

/-- `Tensor::reshape`, tensor/ops/shape.rs:13-71: the size check comes before the copy. -/
def reshape (t : Tensor α) (newDims : List Nat) : Res (Tensor α) :=
  if t.layout.size ≠ shapeSize newDims then .err else t.viewVia (·.reshape newDims)

/-- `Tensor::flatten`, tensor/ops/shape.rs:77-123. -/
def flatten (t : Tensor α) : Res (Tensor α) := t.viewVia (·.flatten)

/-- `Tensor::squeeze`, tensor/ops/shape.rs:125-179. -/
def squeeze (t : Tensor α) (ds : List Int) : Res (Tensor α) := t.viewVia (·.squeeze ds)

/-- `Tensor::unsqueeze`, tensor/ops/shape.rs:181-230. -/
def unsqueeze (t : Tensor α) (d : Int) : Res (Tensor α) := t.viewVia (·.unsqueeze d)

/-- `Tensor::broadcast`, tensor/ops/shape.rs:232-279. -/
def broadcast (t : Tensor α) (target : List Nat) : Res (Tensor α) :=
  t.viewVia (·.broadcastTo target)

/-- `Tensor::transpose`, tensor/ops/shape.rs:295-346. -/
def transpose (t : Tensor α) (a b : Int) : Res (Tensor α) := t.viewVia (·.transpose a b)

/-- `Tensor::permute`, tensor/ops/shape.rs:352-406. -/
def permute (t : Tensor α) (axes : List Int) : Res (Tensor α) := t.viewVia (·.permute axes)

/-- `Tensor::slice`, tensor/ops/shape.rs:451-519. -/
def slice (t : Tensor α) (dim start : Int) (stop : Option Int) (step : Int) : Res (Tensor α) :=
  t.viewVia (·.slice dim start stop step)

/-- Shape loop of `broadcast_tensors2`, tensor/utils.rs:25-36, from the last dimension to the first:
the arguments are the reversed shapes; a missing dimension counts as 1. -/
def broadcastDimsRev : List Nat → List Nat → Res (List Nat)
  | [], bs => .ok (bs.map fun b => max 1 b)
  | a :: as, [] => (broadcastDimsRev as []).bind fun r => .ok (max a 1 :: r)
  | a :: as, b :: bs =>
    if a = 1 ∨ b = 1 ∨ a = b then (broadcastDimsRev as bs).bind fun r => .ok (max a b :: r)
    else .err

/-- Output shape of `broadcast_tensors2`, tensor/utils.rs:22-38. -/
def broadcastDims (a b : List Nat) : Res (List Nat) :=
  (broadcastDimsRev a.reverse b.reverse).bind fun r => .ok r.reverse

/-- `broadcast_tensors2`, tensor/utils.rs:8-43. -/
def broadcast2 (a b : Tensor α) : Res (Tensor α × Tensor α) :=
  (broadcastDims a.dims b.dims).bind fun out =>
    (a.broadcast out).bind fun a' => (b.broadcast out).bind fun b' => .ok (a', b')

/-- A unary operator (`unary_op!`, tensor/ops/unary.rs:10-65, eager branch; `call_ops_unary`,
be_cpu/storage/ops_unary.rs:86-150).  `fill` is the content of the allocated buffer. -/
def unary (cores : Nat) (f : α → β) (fill : β) (t : Tensor α) : Res (Tensor β) :=
  (unaryKernel cores f t.storage (unaryMetadata t.layout t.layout)
    (List.replicate t.layout.size fill)).bind fun s =>
  .ok { storage := s, layout := Layout.fromShape t.dims }

/-- A binary operator (`binary_op!`, tensor/ops/binary.rs:12-84, eager branch; `call_ops_binary`,
be_cpu/storage/ops_binary.rs:10-112).  The result's layout is `lhs_layout`, the layout of the
broadcast left operand (binary.rs:69). -/
def binary (cores : Nat) (f : α → α → β) (fill : β) (a b : Tensor α) : Res (Tensor β) :=
  (broadcast2 a b).bind fun (l, r) =>
    (binaryKernel cores f l.storage r.storage (binaryMetadata l.layout r.layout l.layout)
      (List.replicate l.layout.size fill)).bind fun s =>
    .ok { storage := s, layout := l.layout }

/-- A comparison (`cmp_op!`, tensor/ops/cmp.rs) or logical operator (`binary_logical_op!`,
tensor/ops/binary.rs:86-131): same shape as `binary`, boolean kernel, result layout `lhs_layout`. -/
def binaryBool (f : α → α → Bool) (a b : Tensor α) : Res (Tensor Bool) :=
  (broadcast2 a b).bind fun (l, r) =>
    (binaryBoolKernel f l.storage r.storage (binaryMetadata l.layout r.layout l.layout)).bind fun s =>
    .ok { storage := s, layout := l.layout }

end Tensor
end Hodu
