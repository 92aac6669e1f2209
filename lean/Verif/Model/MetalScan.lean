import Verif.Model.MetalSelect
import Verif.Model.CudaScan

/-!
# Model of cumsum and topk on Metal

Device side: crates/hodu_metal_kernels/kernels/{ops_scan,ops_sort}.metal.  Launches:
crates/hodu_metal_kernels/src/kernels/{ops_scan,ops_sort}.rs.  Hosts:
crates/hodu_core/src/be_metal/storage/{ops_scan,ops_sort}.rs.

The bodies of the kernels are those of the CUDA kernels, so `scanThread` (with the element type as accumulator) and
`topkThread` are used again; different are the types, the grids and the buffers, which come from the pool.
-/

namespace Hodu.Metal
open Hodu.Cuda

/-- The types with kernels: ops_scan.metal:81-91, ops_sort.metal:73-83.  For the others loading the pipeline fails. -/
def scanTypes : List DType := [.bf16, .f16, .f32, .u8, .u16, .u32, .u64, .i8, .i16, .i32, .i64]

/-- What the pool gives for one buffer: its contents, and by how many cells it is longer than `buf_size` says,
be_metal/device.rs:171-186. -/
structure Given (α : Type) where
  old : Nat → α
  extra : Nat

/-- Number of cells of `w` bytes in a buffer asked for with `size` of them, be_metal/device.rs:167-215. -/
def Given.cells (g : Given α) (w size : Nat) : Nat := bufSize (w * size) / w + g.extra

/-! ## cumsum -/

/-- `call_ops_cumsum`, src/kernels/ops_scan.rs:40-67, with `hodu_metal_cumsum_*`, ops_scan.metal:14-79: a thread per
*element* is started (64), of which those beyond the number of lines return (50-51); `shape[d]` for `d < dim` is read from
the metadata without a test of `dim` (39-41). -/
def cumsumKernelMetal (maxThreads : Nat) (zero : α) (add : α → α → α) (inp : List α) (md : List Nat) :
    Res (PKernel α) :=
  (readC md 0).bind fun numEls =>
  (linearSplit maxThreads numEls).bind fun threads =>
  (readC md 1).bind fun nd =>
  (sliceC md 2 nd).bind fun shape =>
  (sliceC md (2 + nd) nd).bind fun strides =>
  (readC md (2 + 2 * nd)).bind fun off =>
  (readC md (3 + 2 * nd)).bind fun dim =>
  if nd = 0 then .ok (progThreads threads 1 fun _ => ofWrites ((readC inp off).map fun v => [((bOut, 0), v)]))
  else if 16 < nd then .ub
  else
    (sliceC md 2 dim).bind fun pre =>
    let innerSize := shapeSize (shape.drop (dim + 1))
    (readC md (2 + dim)).bind fun scanSize =>
    (readC md (2 + nd + dim)).bind fun scanStride =>
      .ok (progThreads threads (shapeSize pre * innerSize) fun tid =>
        ofWrites (scanThread zero add id inp md nd off dim scanSize scanStride shape strides pre
          (tid / innerSize) (tid % innerSize)))

/-- `Tensor::cumsum`, tensor/ops/scan.rs:11-56 (eager branch), with `call_ops_cumsum`,
be_metal/storage/ops_scan.rs:4-35. -/
def cumsumMetal (maxThreads : Nat) (zero : α) (add : α → α → α) (dt : DType) (g : Given α) (t : Tensor α) (dim : Int) :
    Res (PLaunched α) :=
  if !scanTypes.contains dt then .err
  else
    (cumsumKernelMetal maxThreads zero add t.storage (scanMetadata t.layout (axisUsize t.dims.length dim))).bind fun k =>
      .ok { kernel := k, mem := pooled Mem.empty bOut (g.cells dt.sizeInBytes t.layout.size) g.old
            len := t.layout.size, dims := t.dims }

/-! ## topk -/

/-- `Tensor::topk`, tensor/ops/sort.rs:30-191 (eager branch), with `call_topk`, be_metal/storage/ops_sort.rs:10-53, and
src/kernels/ops_sort.rs:42-70: a thread per row (66), `sorted` is not used by the kernel (ops_sort.metal:70).  `none`: no kernel is
launched, the result is empty. -/
def topkMetal [LT K] [DecidableRel (α := K) (· < ·)] (maxThreads : Nat) (key : α → K) (back : K → Res α) (dt : DType)
    (gv : Given α) (gi : Given Nat) (t : Tensor α) (k : Nat) (dim : Int) (largest _sorted : Bool) :
    Res (Option (TopkRun α)) :=
  let nd := t.dims.length
  let d := axisUsize nd dim
  if nd = 0 then .err
  else if nd ≤ d then .err
  else if t.dims.getD d 0 < k then .err
  else if k = 0 then .ok none
  else
    let perm : List Int := ((List.range nd).set d (nd - 1)).set (nd - 1) d |>.map (Int.ofNat ·)
    (if d ≠ nd - 1 then t.permute perm else .ok t).bind fun input =>
    input.contiguous.bind fun input =>
      let last := input.dims.getD (nd - 1) 0
      let outer := shapeSize (input.dims.take (nd - 1))
      if !scanTypes.contains dt then .err
      else (linearSplit maxThreads outer).bind fun threads => .ok (some
        { kernel := progThreads threads outer fun tid =>
            ofWrites (topkThread key back t.storage input.layout.offset last k largest tid)
          mem := topkMem (gv.cells dt.sizeInBytes (k * outer)) (gi.cells 4 (k * outer)) gv.old gi.old
          len := k * outer
          outShape := input.dims.set (nd - 1) k
          perm := if d ≠ nd - 1 then some perm else none })

end Hodu.Metal
