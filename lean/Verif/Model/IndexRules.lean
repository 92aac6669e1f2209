import Verif.Model.ShapeRules

/-!
# Backward rules of the indexing operators and of `topk`

Transcription of `crates/hodu_core/src/tensor/gradient/vjp_indexing.rs` and `vjp_sort.rs`.
-/

namespace Hodu

variable {α K : Type}

/-- `Tensor::zeros(&self_shape, dtype)?.scatter_add(dim, &indices, &grad)`, the common part of the rules of
`index_select`, `gather` and `topk` (vjp_indexing.rs:43-54, 66-78; vjp_sort.rs:34-50). -/
def scatterBack (add max min : α → α → α) (zero : α) (g : Tensor α) (inDims : List Nat) (dim : Nat)
    (ix : Tensor Int) : Res (Tensor α) :=
  (Tensor.zeros zero inDims).scatterWith add max min .add dim ix g

/-- `IndexingOp::Gather`, vjp_indexing.rs:56-81.  `dim` is the recorded axis as the caller wrote it
(tensor/ops/indexing.rs:245), read with `to_usize` (vjp_indexing.rs:19). -/
def gatherVjp (add max min : α → α → α) (zero : α) (g : Tensor α) (inDims : List Nat) (dim : Int)
    (ix : Tensor Int) : Res (Tensor α) :=
  scatterBack add max min zero g inDims (scalarToUsize dim) ix

/-- `IndexingOp::IndexSelect`, vjp_indexing.rs:31-54. -/
def indexSelectVjp (add max min : α → α → α) (zero : α) (g : Tensor α) (inDims : List Nat) (dim : Int)
    (ix : Tensor Int) : Res (Tensor α) :=
  scatterBack add max min zero g inDims (scalarToUsize dim) ix

/-- `SortOp::TopK`, vjp_sort.rs:19-52: `ix` is the recorded index output; the kernel stores its elements as
`int32_t`. -/
def topkVjp (add max min : α → α → α) (zero : α) (g : Tensor α) (inDims : List Nat) (dim : Int)
    (ix : Tensor Nat) : Res (Tensor α) :=
  scatterBack add max min zero g inDims (axisUsize inDims.length dim) ⟨ix.storage.map castI32, ix.layout⟩

/-- `Tensor::ones` (tensor/creation.rs). -/
def Tensor.ones (one : α) (dims : List Nat) : Tensor α :=
  ⟨List.replicate (shapeSize dims) one, Layout.fromShape dims⟩

/-- `IndexingOp::Scatter`, vjp_indexing.rs:114-141: gradients of the tensor and of the source. -/
def scatterVjp (cores : Nat) (add max min mul : α → α → α) (zero one fill : α) (g : Tensor α)
    (inDims : List Nat) (dim : Int) (ix : Tensor Int) : Res (Tensor α × Tensor α) :=
  let d : Int := scalarToUsize dim
  ((Tensor.ones one inDims).scatterWith add max min .scatter d ix (Tensor.zeros zero ix.dims)).bind fun mask =>
  (Tensor.binary cores mul fill g mask).bind fun gx =>
  (g.gather zero d ix).bind fun gs => .ok (gx, gs)

/-- `IndexingOp::ScatterAdd`, vjp_indexing.rs:143-161. -/
def scatterAddVjp (zero : α) (g : Tensor α) (dim : Int) (ix : Tensor Int) : Res (Tensor α × Tensor α) :=
  (g.gather zero (scalarToUsize dim : Nat) ix).bind fun gs => .ok (g, gs)

/-- `IndexingOp::ScatterMax` and `ScatterMin`, vjp_indexing.rs:163-217; `won a b` is the comparison
(`ge` or `le`) converted to the gradient's type. -/
def scatterExtVjp (cores : Nat) (add max min mul sub won : α → α → α) (zero one fill : α) (x src g : Tensor α)
    (dim : Int) (ix : Tensor Int) : Res (Tensor α × Tensor α) :=
  let d : Int := scalarToUsize dim
  (g.gather zero d ix).bind fun sv => (x.gather zero d ix).bind fun xa =>
  (Tensor.binary cores won fill src xa).bind fun sw =>
  (Tensor.binary cores mul fill sv sw).bind fun gs =>
  (Tensor.binary cores sub fill (Tensor.ones one sw.dims) sw).bind fun xw =>
  (g.gather zero d ix).bind fun ga => (Tensor.binary cores mul fill ga xw).bind fun gxa =>
  ((Tensor.zeros zero x.dims).scatterWith add max min .add d ix gxa).bind fun gx0 =>
  (Tensor.binary cores add fill gx0 g).bind fun gx => .ok (gx, gs)

/-- `IndexingOp::IndexPut`, vjp_indexing.rs:83-112. -/
def indexPutVjp (cores : Nat) (mul : α → α → α) (zero one fill : α) (g : Tensor α)
    (inDims : List Nat) (dim : Int) (ix : Tensor Int) : Res (Tensor α × Tensor α) :=
  let d : Int := scalarToUsize dim
  ((Tensor.ones one inDims).indexPut d ix (Tensor.zeros zero ix.dims)).bind fun mask =>
  (Tensor.binary cores mul fill g mask).bind fun gx =>
  (g.gather zero d ix).bind fun gv => .ok (gx, gv)

end Hodu
