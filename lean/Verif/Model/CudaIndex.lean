import Verif.Model.CudaProg
import Verif.Model.CudaMove
import Verif.Model.Indexing
import Verif.Model.Select

/-!
# Model of index_select, index_put, gather and onehot on CUDA

Device side: crates/hodu_cuda_kernels/kernels/ops_indexing.cu.  Launches:
crates/hodu_cuda_kernels/src/kernels/ops_indexing.rs.  Host: crates/hodu_core/src/be_cuda/storage/ops_indexing.rs.

Every element type has a kernel (ops_indexing.cu:325-371, 521-535) and an arm in the host.
-/

namespace Hodu.Cuda

open _root_.Hodu

/-- `if (v < 0) v += (int32_t)n;`, e.g. ops_indexing.cu:29-32; signed overflow is undefined. -/
def wrapI32 (v : Int) (n : Nat) : Res Int :=
  if v < 0 then
    (if -2 ^ 31 ≤ v + castI32 n ∧ v + castI32 n < 2 ^ 31 then .ok (v + castI32 n) else .ub)
  else .ok v

/-- Conversion to `size_t`, e.g. ops_indexing.cu:35, of a value or of a sum. -/
def size64 (x : Int) : Nat := (x % 2 ^ 64).toNat

/-! ## index_select -/

/-- One element of `INDEX_SELECT_OP`, ops_indexing.cu:19-38: the index is not compared with the size of the dimension;
a negative one is converted to `size_t`, so the sum wraps around. -/
def indexSelectVal (inp : List α) (indices : List Int) (m : IndexSelectMeta) (id : Nat) : Res α :=
  guard16 m.shape.length <|
    let idx := (cUnravel (m.shape.set m.dim m.numIndices) id).1
    (readC indices (idx.getD m.dim 0)).bind fun v =>
    (readC m.shape m.dim).bind fun n =>
    (wrapI32 v n).bind fun s =>
      readC inp (size64 (cFlat m.offset (idx.set m.dim 0) m.strides + s * m.strides.getD m.dim 0))

/-- `hodu_cuda_index_select_*`, ops_indexing.cu:7-40. -/
def indexSelectLoop (inp : List α) (indices : List Int) (md : List Nat) : Res (Loop α) :=
  (decodeIndexSelect md).bind fun m => .ok (gridLoop m.numEls (indexSelectVal inp indices m) fun i => i)

/-- `Tensor::index_select`, tensor/ops/indexing.rs:17-95 (eager branch), with `call_ops_index_select`,
be_cuda/storage/ops_indexing.rs:11-118: the kernel gets the whole index buffer. -/
def indexSelectCuda (ixTy : DType) (t : Tensor α) (dim : Int) (ix : Tensor Int) : Res (Launched α) :=
  let d := axisUsize t.dims.length dim
  if t.dims.length ≤ d then .panic
  else if ixTy ≠ .i32 then .err
  else
    let k := ix.layout.size
    (indexSelectLoop t.storage ix.storage (indexSelectMetadata t.layout d k (shapeSize (t.dims.set d k)))).bind
      fun l => .ok ⟨l, shapeSize (t.dims.set d k), t.dims.set d k⟩

/-! ## index_put -/

/-- The search loop, ops_indexing.cu:65-75: the index is compared as `size_t`, without a test of its range. -/
def findIndexCuda (indices : List Int) (n c : Nat) : Nat → Nat → Res (Option Nat)
  | _, 0 => .ok none
  | i, fuel + 1 =>
    (readC indices i).bind fun v =>
    (wrapI32 v n).bind fun s =>
      if size64 s = c then .ok (some i) else findIndexCuda indices n c (i + 1) fuel

/-- One element of `INDEX_PUT_OP`, ops_indexing.cu:57-90. -/
def indexPutVal (inp : List α) (indices : List Int) (vals : List α) (m : IndexPutMeta) (id : Nat) : Res α :=
  guard16 m.shape.length <|
    let idx := (cUnravel m.shape id).1
    (readC m.shape m.dim).bind fun n =>
    (findIndexCuda indices n (idx.getD m.dim 0) 0 m.numIndices).bind fun
      | some i => readC vals (cFlat m.voffset (idx.set m.dim i) m.vstrides)
      | none => readC inp (cFlat m.offset idx m.strides)

/-- `hodu_cuda_index_put_*`, ops_indexing.cu:42-91; the metadata is decoded as on the CPU. -/
def indexPutLoop (inp : List α) (indices : List Int) (vals : List α) (md : List Nat) : Res (Loop α) :=
  (decodeIndexPut md).bind fun m => .ok (gridLoop m.numEls (indexPutVal inp indices vals m) fun i => i)

/-- `Tensor::index_put`, tensor/ops/indexing.rs:98-176 (eager branch), with `call_ops_index_put`,
be_cuda/storage/ops_indexing.rs:120-246: a new buffer for the elements of the shape; the axis is not checked.  The
second component is the layout of the result. -/
def indexPutCuda (ixTy : DType) (t : Tensor α) (dim : Int) (ix : Tensor Int) (vals : Tensor α) :
    Res (Launched α × Layout) :=
  if ixTy ≠ .i32 then .err
  else
    (indexPutLoop t.storage ix.storage vals.storage (indexPutMetadata t.layout vals.layout
      (axisUsize t.dims.length dim) ix.layout.size t.layout.size)).bind fun l =>
      .ok (⟨l, t.layout.size, t.dims⟩, t.layout)

/-! ## gather -/

/-- One element of `GATHER_OP`, ops_indexing.cu:107-134; `input_shape[dim]` is read from the metadata also if `dim`
is not an axis. -/
def gatherVal (zero : α) (inp : List α) (indices : List Int) (md : List Nat) (m : GatherMeta) (id : Nat) : Res α :=
  guard16 m.shape.length <|
    let idx := (cUnravel m.outShape id).1
    (readC indices (cFlat m.ioffset idx m.istrides)).bind fun v =>
    (readC md (2 + m.shape.length + m.dim)).bind fun n =>
    (wrapI32 v n).bind fun s =>
      if s < 0 ∨ n ≤ s.toNat then .ok zero
      else readC inp (cFlat m.offset (idx.set m.dim s.toNat) m.strides)

/-- `hodu_cuda_gather_*`, ops_indexing.cu:93-135. -/
def gatherLoop (zero : α) (inp : List α) (indices : List Int) (md : List Nat) : Res (Loop α) :=
  (decodeGather md).bind fun m => .ok (gridLoop m.numEls (gatherVal zero inp indices md m) fun i => i)

/-- `Tensor::gather`, tensor/ops/indexing.rs:178-251 (eager branch), with `call_ops_gather`,
be_cuda/storage/ops_indexing.rs:248-328: the axis is not checked; the result gets the layout of the indices. -/
def gatherCuda (ixTy : DType) (zero : α) (t : Tensor α) (dim : Int) (ix : Tensor Int) : Res (Launched α × Layout) :=
  if ixTy ≠ .i32 then .err
  else
    (gatherLoop zero t.storage ix.storage
      (gatherMetadata t.layout ix.layout (axisUsize t.dims.length dim) ix.layout.size)).bind fun l =>
      .ok (⟨l, ix.layout.size, ix.dims⟩, ix.layout)

/-! ## onehot -/

/-- A grid-stride loop with a `size_t` counter, ops_indexing.cu:462-463, launched as in
src/kernels/ops_indexing.rs:300-310. -/
def gridLoop64 (numEls : Nat) (val : Nat → Res β) : Loop β :=
  { threads := 256 * gridSize numEls, start := threadStart, next := advance64 (gridSize numEls)
    bound := numEls, val := val, dst := fun i => i }

/-- The position in the input, ops_indexing.cu:484-500, as (position, stride) from the last dimension on: the output
indices without position `axis` (`withoutAxis` cut to `num_dims_out - 1`), row-major. -/
def onehotInPos (idx dims : List Nat) : Nat :=
  ((idx.zip dims).foldr (fun p r => (r.1 + p.1 * r.2, r.2 * p.2)) (0, 1)).1

/-- One element of `ONEHOT_OP`, ops_indexing.cu:465-516: `output_strides[num_dims_out - 1]` is outside for no
dimensions, `output_indices[axis]` not initialised for an axis out of range. -/
def onehotVal (zero one : β) (indices : List Int) (m : OnehotMeta) (id : Nat) : Res β :=
  if m.outShape.length = 0 then .ub
  else guard16 m.outShape.length <|
    let idx := (cUnravel m.outShape id).1
    (readC idx m.axis).bind fun cls =>
    (readC indices (onehotInPos (withoutAxis m.axis idx) (withoutAxis m.axis m.outShape))).bind fun v =>
    (wrapI32 v m.classes).bind fun s =>
      .ok (if 0 ≤ s ∧ s.toNat < m.classes ∧ cls = s.toNat then one else zero)

/-- `hodu_cuda_onehot_*`, ops_indexing.cu:450-518. -/
def onehotLoop (zero one : β) (indices : List Int) (md : List Nat) : Res (Loop β) :=
  (decodeOnehot md).bind fun m => .ok (gridLoop64 m.numEls (onehotVal zero one indices m))

/-- `Tensor::onehot`, tensor/ops/indexing.rs:586-660 (eager branch), with `call_ops_onehot`,
be_cuda/storage/ops_indexing.rs:450-536: unlike the CPU only `i32` indices. -/
def onehotCuda (ixTy : DType) (zero one : β) (ix : Tensor Int) (classes : Nat) (axis : Int) : Res (Launched β) :=
  let a := axisUsize (ix.dims.length + 1) axis
  if ixTy ≠ .i32 then .err
  else
    (onehotLoop zero one ix.storage (onehotMetadata ix.layout classes a)).bind fun l =>
      .ok ⟨l, shapeSize (onehotDims classes a ix.dims), onehotDims classes a ix.dims⟩

end Hodu.Cuda
