import Verif.Model.MetalMove
import Verif.Model.CudaReduce
import Verif.Model.IntOps

/-!
# Model of the reductions on Metal

Device side: crates/hodu_metal_kernels/kernels/ops_reduce.metal.  Launch:
crates/hodu_metal_kernels/src/kernels/ops_reduce.rs.  Host: crates/hodu_core/src/be_metal/storage/ops_reduce.rs.

The walk is that of the CPU kernels; the accumulators of sum, max, min and prod have the element type
(`OUT_TYPENAME acc`, ops_reduce.metal:48), unlike those of the CUDA kernels.
-/

namespace Hodu.Metal

open _root_.Hodu Hodu.Cuda

/-- `hodu_metal_<reduction>`, ops_reduce.metal:23-106 (the walk of the other macros, 178-916, is the same), launched
by src/kernels/ops_reduce.rs:61-97.  What is done with the visited values is `comb`. -/
def reduceLoop (maxThreads : Nat) (comb : List (List Nat × α) → Res β) (inp : List α) (md : List Nat) :
    Res (Loop β) :=
  (decodeReduce md).bind fun m =>
    launchStride maxThreads (shapeSize m.outShape) fun o => guardReduce m ((reduceVisits m inp o).bind comb)

/-- The eleven numeric types with kernels, ops_reduce.metal:112-172. -/
def reduceTypes : List DType := [.bf16, .f16, .f32, .i8, .i16, .i32, .i64, .u8, .u16, .u32, .u64]

/-- The instances of ops_reduce.metal:112-172, 258-260, 346-348, 434-436, 539-541, 723-745, 918-942. -/
def reduceMetalTable : Dispatch.Table :=
  [ (["sum", "max", "min", "prod"], reduceTypes),
    (["mean", "norm", "logsum", "logsumexp"], [.bf16, .f16, .f32]),
    (["argmax", "argmin"], reduceTypes),
    (["any", "all"], .bool :: reduceTypes) ]

/-- Does `call_ops_reduce`, be_metal/storage/ops_reduce.rs:10-74, find a kernel?  Otherwise `load_pipeline` fails. -/
def reduceMetalRuns (op : Dispatch.ReduceOp) (dt : DType) : Bool :=
  reduceMetalTable.any fun r => r.1.contains op.name && r.2.contains dt

/-- `acc += val`, `acc *= val`, `acc = maximum(acc, val)`, `acc = minimum(acc, val)` for an integer type from the initial
value of ops_reduce.metal:115-122, 132-139, 149-156, 166-173: the accumulator has the element type, a sum or product is
computed in the promoted type and converted back. -/
def foldInt (t : IntOps.Ty) (op : IntOps.Op) (vs : List Int) : Res Int :=
  Res.foldL (fun acc v => IntOps.metal t op acc v)
    (match op with | .mul => 1 | .max => t.lo | .min => t.hi | _ => 0) vs

/-- Bytes of one result as the kernels store it: ops_reduce.metal:549, 637 (`int32_t`), 756, 838 (`bool`), else the
element type. -/
def storedSize (op : Dispatch.ReduceOp) (dt : DType) : Nat :=
  match op with
  | .argMax | .argMin => 4
  | .any | .all => 1
  | _ => dt.sizeInBytes

/-- Bytes of a new buffer for the results: `device.new_buffer(output_size, dtype, …)` with the element type of the
input, be_metal/storage/ops_reduce.rs:49-53; the pool rounds it, be_metal/device.rs:167-169. -/
def reduceBytes (dt : DType) (n : Nat) : Nat := bufSize (n * dt.sizeInBytes)

/-- `Tensor::reduce_operation`, tensor/ops/reduce.rs:135-231 (eager branch), and `call_ops_reduce`,
be_metal/storage/ops_reduce.rs:10-74: the kernel, the number of results allocated and the shape. -/
def reduceMetal (maxThreads : Nat) (comb : List (List Nat × α) → Res β) (t : Tensor α) (dims : List Int)
    (keep : Bool) : Res (Launched β) :=
  let axes := reduceAxes t.dims.length dims
  (reduceHostDims t.dims axes keep).bind fun out =>
    if axes.any fun k => t.dims.length ≤ k then .err
    else (reduceLoop maxThreads comb t.storage (reduceMetadata t.layout axes keep)).bind fun k =>
      .ok { kernel := k, len := shapeSize (reduceBackendDims t.dims axes keep), dims := out }

end Hodu.Metal
