import Verif.Model.Norm
import Verif.Model.Indexing

/-!
# Model of the embedding layer

crates/hodu_nn/src/modules/embedding.rs, as a program of the operations of Model/Typed.lean.  The indices
are a tensor of integers.

Left out: gradient bookkeeping and the initialisation of the weight.  `norm_type` is stored by the code and
not used.
-/

namespace Hodu

variable {α : Type}

/-- `Tensor::unsqueeze`, tensor/ops/shape.rs:181-230 (any element type). -/
def TT.unsqueeze (x : TT α) (d : Int) : Res (TT α) :=
  match x with
  | .num dt t => (t.unsqueeze d).bind fun r => .ok (.num dt r)
  | .bool t => (t.unsqueeze d).bind fun r => .ok (.bool r)

namespace Rt

variable (E : Rt α)

/-- `Tensor::index_select`, tensor/ops/indexing.rs:17-95 (registered for every element type). -/
def indexSelect (x : TT α) (dim : Int) (ix : Tensor Int) : Res (TT α) :=
  match x with
  | .num dt t => (t.indexSelect (E.A.cst .zero) dim ix).bind fun r => .ok (.num dt r)
  | .bool t => (t.indexSelect false dim ix).bind fun r => .ok (.bool r)

/-- `apply_max_norm`, modules/embedding.rs:126-148: the sum is taken over axis `embedding_dim - 1`.
`embeddings.shape().last().unwrap()` cannot fail, the tensor has rank 2; `0 - 1` panics, or wraps to an
axis that makes `sum` panic. -/
def maxNorm (x : TT α) (m : Sc α) : Res (TT α) :=
  let D := x.dims.getLastD 0
  if D = 0 then .panic
  else
    (E.bin .mul x x).bind fun sq =>
    (E.red .sum [((D - 1 : Nat) : Int)] true sq).bind fun ss =>
    (E.un .sqrt ss).bind fun norm =>
    (E.bin .div (TT.fullLike norm m) norm).bind fun scale =>
    (E.bin .minimum scale (TT.fullLike scale (E.one x.dtype))).bind fun scale =>
    E.bin .mul x scale

/-- `handle_padding_idx`, modules/embedding.rs:150-172.  Simplification: the code converts the index
through `f32`, exact below `2 ^ 24`. -/
def padRows (x : TT α) (ix : Tensor Int) (p : Nat) : Res (TT α) :=
  (Tensor.binaryBool (· == ·) ix ⟨List.replicate (shapeSize ix.dims) (p : Int), Layout.fromShape ix.dims⟩).bind
    fun mask =>
  (mask.unsqueeze (-1)).bind fun mask =>
  (E.where3 (.bool mask) (TT.full mask.dims (E.zero x.dtype)) (TT.full mask.dims (E.one x.dtype))).bind
    fun fm => E.bin .mul x fm

/-- `Embedding::forward`, modules/embedding.rs:90-124. -/
def embed (w : TT α) (dim : Nat) (pad : Option Nat) (norm : Option (Sc α)) (ix : Tensor Int) :
    Res (TT α) :=
  ix.flatten.bind fun flat =>
  (E.indexSelect w 0 flat).bind fun o =>
  (match norm with | some m => E.maxNorm o m | none => .ok o).bind fun o =>
  (match pad with | some p => E.padRows o flat p | none => .ok o).bind fun o =>
  o.reshape (ix.dims ++ [dim])

/-- `Embedding::from_pretrained`, modules/embedding.rs:65-88, followed by `forward`: the embedding
dimension is read off the weight. -/
def embedPretrained (w : TT α) (ix : Tensor Int) : Res (TT α) :=
  if w.dims.length ≠ 2 then .err
  else E.embed w (w.dims.getD 1 0) none none ix

end Rt

end Hodu
