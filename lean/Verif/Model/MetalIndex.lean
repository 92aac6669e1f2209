import Verif.Model.MetalMove
import Verif.Model.CudaIndex
import Verif.Model.CudaAtomic
import Verif.Model.ReadBack

/-!
# Model of index_select, index_put, gather, scatter and onehot on Metal

Device side: crates/hodu_metal_kernels/kernels/ops_indexing.metal.  Launches:
crates/hodu_metal_kernels/src/kernels/ops_indexing.rs.  Host: crates/hodu_core/src/be_metal/storage/ops_indexing.rs.

The bodies of the kernels are those of ops_indexing.cu; the loops are grid-stride loops with `uint` counters.  No
host function looks at the type of the indices: the kernels read the index buffer as `int32_t`.
-/

namespace Hodu.Metal

open _root_.Hodu Hodu.Cuda

/-- Bytes of a stored index (little-endian, two's complement), `n` bytes each: the buffer argument `indices`,
ops_indexing.metal:41. -/
def indexBytes (n : Nat) (vs : List Int) : List Nat := vs.flatMap fun v => leBytes n (v % 2 ^ (8 * n)).toNat

/-- An `int32_t` of four bytes, ops_indexing.metal:41. -/
def word32 (a b c d : Nat) : Int :=
  let w := a + 256 * (b + 256 * (c + 256 * d))
  if w < 2 ^ 31 then w else (w : Int) - 2 ^ 32

/-- A buffer read as `const device int32_t *`, ops_indexing.metal:41; bytes that do not fill a word are left out. -/
def words32 : List Nat → List Int
  | a :: b :: c :: d :: rest => word32 a b c d :: words32 rest
  | _ => []

/-- What the kernels see of a buffer of indices of type `ty`, be_metal/storage/ops_indexing.rs:50-51 (the buffer is
passed on whatever its type). -/
def asI32 (ty : DType) (vs : List Int) : List Int := words32 (indexBytes ty.sizeInBytes vs)

/-! ## Kernels -/

/-- `hodu_metal_index_select_*`, ops_indexing.metal:39-84; launch src/kernels/ops_indexing.rs:57-86. -/
def indexSelectLoop (maxThreads : Nat) (inp : List α) (indices : List Int) (md : List Nat) : Res (Loop α) :=
  (decodeIndexSelect md).bind fun m => launchStride maxThreads m.numEls (indexSelectVal inp indices m)

/-- `hodu_metal_index_put_*`, ops_indexing.metal:131-192; launch src/kernels/ops_indexing.rs:121-153. -/
def indexPutLoop (maxThreads : Nat) (inp : List α) (indices : List Int) (vals : List α) (md : List Nat) :
    Res (Loop α) :=
  (decodeIndexPut md).bind fun m => launchStride maxThreads m.numEls (indexPutVal inp indices vals m)

/-- `hodu_metal_gather_*`, ops_indexing.metal:222-282; launch src/kernels/ops_indexing.rs:187-216. -/
def gatherLoop (maxThreads : Nat) (zero : α) (inp : List α) (indices : List Int) (md : List Nat) : Res (Loop α) :=
  (decodeGather md).bind fun m => launchStride maxThreads m.numEls (gatherVal zero inp indices md m)

/-- `hodu_metal_onehot_*`, ops_indexing.metal:682-751; launch src/kernels/ops_indexing.rs:322-348. -/
def onehotLoop (maxThreads : Nat) (zero one : β) (indices : List Int) (md : List Nat) : Res (Loop β) :=
  (decodeOnehot md).bind fun m => launchStride maxThreads m.numEls (onehotVal zero one indices m)

/-- The grid-stride loop of the scatter kernels, ops_indexing.metal:346, with the grid of
src/kernels/ops_indexing.rs:260-292. -/
def rmwStride (maxThreads n : Nat) (job : Nat → Res (Option (Nat × V))) (word : Nat → Nat)
    (upd : Nat → W → V → W) (way : Way) : Res (Rmw W V) :=
  (linearSplit maxThreads n).bind fun threads =>
    .ok { threads := threads, start := u32, next := fun i => u32 (i + u32 threads), bound := n, job := job
          word := word, upd := upd, way := way }

/-- `hodu_metal_scatter_*`, ops_indexing.metal:319-380: a plain store into the cell found with the strides and the
offset of the input. -/
def scatterLoop (maxThreads : Nat) (indices : List Int) (src : List V) (md : List Nat) : Res (Rmw V V) :=
  (decodeScatter md).bind fun m =>
    rmwStride maxThreads m.numEls (scatterJob m indices src) (fun c => c) (fun _ _ x => x) .single

/-! ## Hosts -/

/-- `Tensor::index_select`, tensor/ops/indexing.rs:17-95 (eager branch), with `call_ops_index_select`,
be_metal/storage/ops_indexing.rs:10-77. -/
def indexSelectMetal (maxThreads : Nat) (dt ixTy : DType) (t : Tensor α) (dim : Int) (ix : Tensor Int) :
    Res (Launched α) :=
  let d := axisUsize t.dims.length dim
  if t.dims.length ≤ d then .panic
  else if !kernelTypes.contains dt then .err
  else
    let k := ix.layout.size
    (indexSelectLoop maxThreads t.storage (asI32 ixTy ix.storage)
      (indexSelectMetadata t.layout d k (shapeSize (t.dims.set d k)))).bind
      fun l => .ok ⟨l, shapeSize (t.dims.set d k), t.dims.set d k⟩

/-- The copy of the first elements of the input, `blit.copy_from_buffer`, be_metal/storage/ops_indexing.rs:111-121
and 237-247; a source region outside of the buffer is undefined. -/
def blitFirst (n : Nat) (buf : List α) : Res (List α) := if n ≤ buf.length then .ok (buf.take n) else .ub

/-- `Tensor::index_put`, tensor/ops/indexing.rs:98-176 (eager branch), with `call_ops_index_put`,
be_metal/storage/ops_indexing.rs:79-149: the copy is overwritten by the kernel; the axis is not checked.  The second
component is the layout of the result. -/
def indexPutMetal (maxThreads : Nat) (dt ixTy : DType) (t : Tensor α) (dim : Int) (ix : Tensor Int)
    (vals : Tensor α) : Res (Launched α × Layout) :=
  (blitFirst t.layout.size t.storage).bind fun _ =>
  if !kernelTypes.contains dt then .err
  else
    (indexPutLoop maxThreads t.storage (asI32 ixTy ix.storage) vals.storage (indexPutMetadata t.layout vals.layout
      (axisUsize t.dims.length dim) ix.layout.size t.layout.size)).bind fun l =>
      .ok (⟨l, t.layout.size, t.dims⟩, t.layout)

/-- `Tensor::gather`, tensor/ops/indexing.rs:178-251 (eager branch), with `call_ops_gather`,
be_metal/storage/ops_indexing.rs:151-202: the axis is not checked; the result gets the layout of the indices. -/
def gatherMetal (maxThreads : Nat) (dt ixTy : DType) (zero : α) (t : Tensor α) (dim : Int) (ix : Tensor Int) :
    Res (Launched α × Layout) :=
  if !kernelTypes.contains dt then .err
  else
    (gatherLoop maxThreads zero t.storage (asI32 ixTy ix.storage)
      (gatherMetadata t.layout ix.layout (axisUsize t.dims.length dim) ix.layout.size)).bind fun l =>
      .ok (⟨l, ix.layout.size, ix.dims⟩, ix.layout)

/-- `Tensor::onehot`, tensor/ops/indexing.rs:586-660 (eager branch), with `call_ops_onehot`,
be_metal/storage/ops_indexing.rs:284-325. -/
def onehotMetal (maxThreads : Nat) (dt ixTy : DType) (zero one : β) (ix : Tensor Int) (classes : Nat) (axis : Int) :
    Res (Launched β) :=
  let a := axisUsize (ix.dims.length + 1) axis
  if !kernelTypes.contains dt then .err
  else
    (onehotLoop maxThreads zero one (asI32 ixTy ix.storage) (onehotMetadata ix.layout classes a)).bind fun l =>
      .ok ⟨l, shapeSize (onehotDims classes a ix.dims), onehotDims classes a ix.dims⟩

/-- `call_ops_scatter`, be_metal/storage/ops_indexing.rs:204-282: the output starts as a copy of the first elements
of the input buffer (237-247), the kernel is `hodu_metal_scatter_<dtype>` for every op (250).  The result is the
launched kernel and the cells it starts from; `Tensor::scatter*` gives them the layout of the input
(tensor/ops/indexing.rs:253-566). -/
def scatterMetal (maxThreads : Nat) (dt ixTy : DType) (_op : ScatterOp) (t : Tensor α) (dim : Int) (ix : Tensor Int)
    (src : Tensor α) : Res (Rmw α α × List α) :=
  (blitFirst t.layout.size t.storage).bind fun mem =>
  if !kernelTypes.contains dt then .err
  else
    (scatterLoop maxThreads (asI32 ixTy ix.storage) src.storage
      (scatterMetadata t.layout ix.layout src.layout (axisUsize t.dims.length dim))).bind fun k => .ok (k, mem)

end Hodu.Metal
