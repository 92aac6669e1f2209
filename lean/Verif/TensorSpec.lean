import Verif.Spec
import Verif.Model.Tensor

/-!
# Specification vocabulary: the values of a tensor

`elem t idx` is the element of the tensor at a multi-index, the way every strided kernel reads it:
`storage[offset + Σ idx_k * stride_k]`.  `WF` says that every index inside the shape has an
element, i.e. that no access through the view leaves the buffer.
-/

namespace Hodu
open Spec

/-- Element of a tensor at a multi-index. -/
def Tensor.elem (t : Tensor α) (idx : List Nat) : Option α :=
  t.storage[t.layout.offset + dot idx t.layout.strides]?

/-- A tensor is well formed if it has one stride per dimension and every index inside its shape is
backed by an element of the buffer. -/
def Tensor.WF (t : Tensor α) : Prop :=
  t.layout.strides.length = t.dims.length ∧
    ∀ idx, InRange idx t.dims → (t.elem idx).isSome

/-- Same shape and same element at every index. -/
def Tensor.SameValues (a b : Tensor α) : Prop :=
  a.dims = b.dims ∧ ∀ idx, InRange idx a.dims → a.elem idx = b.elem idx

/-- `xs` lists the elements of the tensor in row-major order, each index once. -/
def Tensor.HasValues (t : Tensor α) (xs : List α) : Prop :=
  xs.length = numel t.dims ∧ ∀ idx, InRange idx t.dims → xs[rowMajor t.dims idx]? = t.elem idx

end Hodu
