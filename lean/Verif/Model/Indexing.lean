import Verif.Model.Matmul

/-!
# Model of index_select, index_put, gather and scatter

Host side: crates/hodu_core/src/tensor/ops/indexing.rs, be_cpu/storage/ops_indexing.rs,
op_metadatas.rs:700-877.  Kernels: crates/hodu_cpu_kernels/kernels/ops_indexing.c.

Index tensors hold `i32` values, modelled as integers: any other index dtype is rejected
(be_cpu/storage/ops_indexing.rs:31-36, 149-154, 298-303, 411-416).
-/

namespace Hodu

/-- Index normalisation of the kernels, e.g. ops_indexing.c:60-67 (also 161-164, 268-275, 378-384):
`if (v < 0) v += (int32_t)n;`, a value outside `0 .. n-1` is `none`; signed overflow is undefined. -/
def wrapIndex (v : Int) (n : Nat) : Res (Option Nat) :=
  let s : Res Int :=
    if v < 0 then
      (if -2 ^ 31 ≤ v + castI32 n ∧ v + castI32 n < 2 ^ 31 then .ok (v + castI32 n) else .ub)
    else .ok v
  s.bind fun s => .ok (if s < 0 ∨ n ≤ s.toNat then none else some s.toNat)

/-! ## index_select -/

/-- `index_select_metadata`, op_metadatas.rs:706-728. -/
def indexSelectMetadata (l : Layout) (dim numIndices outEls : Nat) : List Nat :=
  [outEls, l.ndim] ++ l.dims ++ l.strides ++ [l.offset, dim, numIndices]

/-- Fields the index_select kernel decodes. -/
structure IndexSelectMeta where
  numEls : Nat
  shape : List Nat
  strides : List Nat
  offset : Nat
  dim : Nat
  numIndices : Nat
  deriving Repr, DecidableEq

/-- Decoding prologue of `INDEX_SELECT_OP`, ops_indexing.c:37-43. -/
def decodeIndexSelect (md : List Nat) : Res IndexSelectMeta :=
  (readC md 0).bind fun n => (readC md 1).bind fun nd =>
  (sliceC md 2 nd).bind fun shape =>
  (sliceC md (2 + nd) nd).bind fun strides =>
  (readC md (2 + 2 * nd)).bind fun off =>
  (readC md (2 + 2 * nd + 1)).bind fun dim =>
  (readC md (2 + 2 * nd + 2)).bind fun k =>
  .ok ⟨n, shape, strides, off, dim, k⟩

/-- One output element, ops_indexing.c:45-83; an index out of range gives `zero`. -/
def indexSelectCell (zero : α) (inp : List α) (indices : List Int) (m : IndexSelectMeta) (id : Nat) :
    Res α :=
  let idx := (cUnravel (m.shape.set m.dim m.numIndices) id).1
  (readC indices (idx.getD m.dim 0)).bind fun v =>
  (readC m.shape m.dim).bind fun n =>
  (wrapIndex v n).bind fun
    | none => .ok zero
    | some k => readC inp (cFlat m.offset (idx.set m.dim k) m.strides)

/-- `hodu_cpu_index_select_<type>`, ops_indexing.c:31-84. -/
def indexSelectKernel (zero : α) (inp : List α) (indices : List Int) (md : List Nat) : Res (List α) :=
  (decodeIndexSelect md).bind fun m => runLoop m.numEls (indexSelectCell zero inp indices m)

/-- `call_ops_index_select`, be_cpu/storage/ops_indexing.rs:22-121: the kernel receives the whole index
buffer, without strides or offset. -/
def callOpsIndexSelect (zero : α) (t : Tensor α) (ix : Tensor Int) (dim : Nat) : Res (List α) :=
  if t.dims.length ≤ dim then .err
  else
    let k := ix.layout.size
    indexSelectKernel zero t.storage ix.storage
      (indexSelectMetadata t.layout dim k (shapeSize (t.dims.set dim k)))

/-- `Tensor::index_select`, tensor/ops/indexing.rs:17-95 (eager branch); `output_dims[dim]` (39) panics
out of range. -/
def Tensor.indexSelect (zero : α) (t : Tensor α) (dim : Int) (ix : Tensor Int) : Res (Tensor α) :=
  let d := axisUsize t.dims.length dim
  if t.dims.length ≤ d then .panic
  else (callOpsIndexSelect zero t ix d).bind fun s =>
    .ok { storage := s, layout := Layout.fromShape (t.dims.set d ix.layout.size) }

/-! ## index_put -/

/-- `index_put_metadata`, op_metadatas.rs:734-772. -/
def indexPutMetadata (l v : Layout) (dim numIndices outEls : Nat) : List Nat :=
  [outEls, l.ndim] ++ l.dims ++ l.strides ++ [l.offset] ++ v.dims ++ v.strides ++
    [v.offset, dim, numIndices]

/-- Fields the index_put kernel decodes. -/
structure IndexPutMeta where
  numEls : Nat
  shape : List Nat
  strides : List Nat
  vstrides : List Nat
  offset : Nat
  voffset : Nat
  dim : Nat
  numIndices : Nat
  deriving Repr, DecidableEq

/-- Decoding prologue of `INDEX_PUT_OP`, ops_indexing.c:135-145. -/
def decodeIndexPut (md : List Nat) : Res IndexPutMeta :=
  (readC md 0).bind fun n => (readC md 1).bind fun nd =>
  (sliceC md 2 nd).bind fun shape =>
  (sliceC md (2 + nd) nd).bind fun strides =>
  (sliceC md (2 + 2 * nd) nd).bind fun vstrides =>
  (readC md (2 + 3 * nd)).bind fun off =>
  (readC md (2 + 3 * nd + 1)).bind fun voff =>
  (readC md (2 + 3 * nd + 2)).bind fun dim =>
  (readC md (2 + 3 * nd + 3)).bind fun k =>
  .ok ⟨n, shape, strides, vstrides, off, voff, dim, k⟩

/-- The search loop, ops_indexing.c:157-169: first position `i` (from `i` on, `fuel` left) whose
normalised index is `c`. -/
def findIndex (indices : List Int) (n c : Nat) : Nat → Nat → Res (Option Nat)
  | _, 0 => .ok none
  | i, fuel + 1 =>
    (readC indices i).bind fun v =>
    (wrapIndex v n).bind fun w =>
      if w = some c then .ok (some i) else findIndex indices n c (i + 1) fuel

/-- One output element, ops_indexing.c:146-194. -/
def indexPutCell (inp : List α) (indices : List Int) (vals : List α) (m : IndexPutMeta) (id : Nat) :
    Res α :=
  let idx := (cUnravel m.shape id).1
  (readC m.shape m.dim).bind fun n =>
  (findIndex indices n (idx.getD m.dim 0) 0 m.numIndices).bind fun
    | some i => readC vals (cFlat m.voffset (idx.set m.dim i) m.vstrides)
    | none => readC inp (cFlat m.offset idx m.strides)

/-- `hodu_cpu_index_put_<type>`, ops_indexing.c:128-195: writes `output[0 .. num_els)`. -/
def indexPutKernel (inp : List α) (indices : List Int) (vals : List α) (md : List Nat) (out : List α) :
    Res (List α) :=
  (decodeIndexPut md).bind fun m =>
    (runLoop m.numEls (indexPutCell inp indices vals m)).bind fun vs =>
      applyWrites out ((List.range m.numEls).zip vs)

/-- `Tensor::index_put`, tensor/ops/indexing.rs:98-176 (eager branch), with `call_ops_index_put`,
be_cpu/storage/ops_indexing.rs:138-275: the output buffer is a copy of the input buffer and the
result has the input's layout. -/
def Tensor.indexPut (t : Tensor α) (dim : Int) (ix : Tensor Int) (vals : Tensor α) : Res (Tensor α) :=
  let d := axisUsize t.dims.length dim
  if t.dims.length ≤ d then .err
  else (indexPutKernel t.storage ix.storage vals.storage
      (indexPutMetadata t.layout vals.layout d ix.layout.size t.layout.size) t.storage).bind fun s =>
    .ok { storage := s, layout := t.layout }

/-! ## gather -/

/-- Strides padded with zeros to `n` entries, op_metadatas.rs:803-810, 844-869. -/
def padTo (fill : Nat) (xs : List Nat) (n : Nat) : List Nat :=
  (List.range n).map fun i => xs.getD i fill

/-- `gather_metadata`, op_metadatas.rs:778-816. -/
def gatherMetadata (l ix : Layout) (dim outEls : Nat) : List Nat :=
  [outEls, l.ndim] ++ ix.dims ++ l.dims ++ l.strides ++ padTo 0 ix.strides l.ndim ++
    [l.offset, ix.offset, dim]

/-- Fields the gather kernel decodes. -/
structure GatherMeta where
  numEls : Nat
  outShape : List Nat
  shape : List Nat
  strides : List Nat
  istrides : List Nat
  offset : Nat
  ioffset : Nat
  dim : Nat
  deriving Repr, DecidableEq

/-- Decoding prologue of `GATHER_OP`, ops_indexing.c:244-252. -/
def decodeGather (md : List Nat) : Res GatherMeta :=
  (readC md 0).bind fun n => (readC md 1).bind fun nd =>
  (sliceC md 2 nd).bind fun out =>
  (sliceC md (2 + nd) nd).bind fun shape =>
  (sliceC md (2 + 2 * nd) nd).bind fun strides =>
  (sliceC md (2 + 3 * nd) nd).bind fun istrides =>
  (readC md (2 + 4 * nd)).bind fun off =>
  (readC md (2 + 4 * nd + 1)).bind fun ioff =>
  (readC md (2 + 4 * nd + 2)).bind fun dim =>
  .ok ⟨n, out, shape, strides, istrides, off, ioff, dim⟩

/-- One output element, ops_indexing.c:254-287. -/
def gatherCell (zero : α) (inp : List α) (indices : List Int) (m : GatherMeta) (id : Nat) : Res α :=
  let idx := (cUnravel m.outShape id).1
  (readC indices (cFlat m.ioffset idx m.istrides)).bind fun v =>
  (readC m.shape m.dim).bind fun n =>
  (wrapIndex v n).bind fun
    | none => .ok zero
    | some k => readC inp (cFlat m.offset (idx.set m.dim k) m.strides)

/-- `hodu_cpu_gather_<type>`, ops_indexing.c:238-288. -/
def gatherKernel (zero : α) (inp : List α) (indices : List Int) (md : List Nat) : Res (List α) :=
  (decodeGather md).bind fun m => runLoop m.numEls (gatherCell zero inp indices m)

/-- `call_ops_gather`, be_cpu/storage/ops_indexing.rs:288-385; no check that the ranks agree. -/
def callOpsGather (zero : α) (t : Tensor α) (ix : Tensor Int) (dim : Nat) : Res (List α) :=
  if t.dims.length ≤ dim then .err
  else gatherKernel zero t.storage ix.storage (gatherMetadata t.layout ix.layout dim ix.layout.size)

/-- `Tensor::gather`, tensor/ops/indexing.rs:178-251 (eager branch): the result has the index tensor's
layout. -/
def Tensor.gather (zero : α) (t : Tensor α) (dim : Int) (ix : Tensor Int) : Res (Tensor α) :=
  (callOpsGather zero t ix (axisUsize t.dims.length dim)).bind fun s =>
    .ok { storage := s, layout := ix.layout }

/-! ## scatter -/

/-- `scatter_metadata`, op_metadatas.rs:823-877. -/
def scatterMetadata (l ix src : Layout) (dim : Nat) : List Nat :=
  [src.size, l.ndim] ++ l.dims ++ l.strides ++ padTo 1 src.dims l.ndim ++ padTo 0 src.strides l.ndim ++
    padTo 0 ix.strides l.ndim ++ [l.offset, src.offset, ix.offset, dim]

/-- Fields the scatter kernels decode. -/
structure ScatterMeta where
  numEls : Nat
  shape : List Nat
  strides : List Nat
  srcShape : List Nat
  srcStrides : List Nat
  istrides : List Nat
  offset : Nat
  soffset : Nat
  ioffset : Nat
  dim : Nat
  deriving Repr, DecidableEq

/-- Decoding prologue of `SCATTER_OP`, ops_indexing.c:340-350. -/
def decodeScatter (md : List Nat) : Res ScatterMeta :=
  (readC md 0).bind fun n => (readC md 1).bind fun nd =>
  (sliceC md 2 nd).bind fun shape =>
  (sliceC md (2 + nd) nd).bind fun strides =>
  (sliceC md (2 + 2 * nd) nd).bind fun srcShape =>
  (sliceC md (2 + 3 * nd) nd).bind fun srcStrides =>
  (sliceC md (2 + 4 * nd) nd).bind fun istrides =>
  (readC md (2 + 5 * nd)).bind fun off =>
  (readC md (2 + 5 * nd + 1)).bind fun soff =>
  (readC md (2 + 5 * nd + 2)).bind fun ioff =>
  (readC md (2 + 5 * nd + 3)).bind fun dim =>
  .ok ⟨n, shape, strides, srcShape, srcStrides, istrides, off, soff, ioff, dim⟩

/-- The strides computed in the position loop, ops_indexing.c:394-401. -/
def tailProds : List Nat → List Nat
  | [] => []
  | _ :: ds => shapeSize ds :: tailProds ds

/-- The four kernels of ops_indexing.c: `SCATTER_OP` (333), `SCATTER_ADD_OP` (450), `SCATTER_MAX_OP`,
`SCATTER_MIN_OP`. -/
inductive ScatterOp where
  | scatter | add | max | min
  deriving Repr, DecidableEq

/-- One step of the scatter loop, ops_indexing.c:367-416, with `upd old new` the update of the cell;
the local index array has 32 entries (386). -/
def scatterStep (upd : α → α → α) (m : ScatterMeta) (indices : List Int) (src : List α) (out : List α)
    (id : Nat) : Res (List α) :=
  let idx := (cUnravel m.srcShape id).1
  (readC indices (cFlat m.ioffset idx m.istrides)).bind fun v =>
  (readC m.shape m.dim).bind fun n =>
  (wrapIndex v n).bind fun
    | none => .ok out
    | some k =>
      if 32 < m.shape.length then .ub
      else
        let o := cFlat 0 (idx.set m.dim k) (tailProds m.shape)
        if shapeSize m.shape ≤ o then .ok out
        else (readC src (cFlat m.soffset idx m.srcStrides)).bind fun x =>
          (readC out o).bind fun old => .ok (out.set o (upd old x))

/-- `hodu_cpu_scatter*_<type>`, ops_indexing.c:333-417: copy the input, then the scatter loop. -/
def scatterKernel (upd : α → α → α) (inp : List α) (indices : List Int) (src : List α) (md : List Nat)
    (out : List α) : Res (List α) :=
  (decodeScatter md).bind fun m =>
    (runLoop (shapeSize m.shape) fun i =>
      readC inp (cFlat m.offset (cUnravel m.shape i).1 m.strides)).bind fun vs =>
    (applyWrites out ((List.range (shapeSize m.shape)).zip vs)).bind fun out =>
      Res.foldL (scatterStep upd m indices src) out (List.range m.numEls)

/-- The kernel `call_ops_scatter` picks: the name is `hodu_cpu_scatter_<dtype>` for every op,
be_cpu/storage/ops_indexing.rs:455-459; the dispatch by name is hodu_cpu_kernels
src/kernels/ops_indexing.rs:492-503. -/
def scatterDispatch (_op : ScatterOp) : ScatterOp := .scatter

/-- The cell update of a kernel. -/
def ScatterOp.upd (add max min : α → α → α) : ScatterOp → α → α → α
  | .scatter => fun _ x => x
  | .add => add
  | .max => max
  | .min => min

/-- `Tensor::scatter`, `scatter_add`, `scatter_max`, `scatter_min`, tensor/ops/indexing.rs:253-566 (eager
branches), with `call_ops_scatter`, be_cpu/storage/ops_indexing.rs:400-520: the output buffer is a copy
of the input buffer and the result has the input's layout. -/
def Tensor.scatterWith (add max min : α → α → α) (op : ScatterOp) (t : Tensor α) (dim : Int)
    (ix : Tensor Int) (src : Tensor α) : Res (Tensor α) :=
  let d := axisUsize t.dims.length dim
  if t.dims.length ≤ d then .err
  else (scatterKernel ((scatterDispatch op).upd add max min) t.storage ix.storage src.storage
      (scatterMetadata t.layout ix.layout src.layout d) t.storage).bind fun s =>
    .ok { storage := s, layout := t.layout }

end Hodu
