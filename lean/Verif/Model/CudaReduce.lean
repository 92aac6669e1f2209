import Verif.Model.Cuda
import Verif.Model.Reduce
import Verif.Model.Dispatch
import Verif.Model.SmallFloat
import Verif.Model.Cast
import Verif.Model.Creation

/-!
# Model of the reductions on CUDA

Device side: crates/hodu_cuda_kernels/kernels/ops_reduce.cu, math.cuh.  Launch:
crates/hodu_cuda_kernels/src/kernels/ops_reduce.rs.  Host: crates/hodu_core/src/be_cuda/storage/ops_reduce.rs.

Every thread walks the input for its output positions as the CPU kernels do; the accumulator is a `float` for every
element type.  A `float` that holds an integer is modelled by that integer, with `flInt` where the code rounds.
-/

namespace Hodu.Cuda

open _root_.Hodu

/-! ## Kernels -/

/-- `hodu_cuda_<reduction>`, ops_reduce.cu:7-73 (the walk of the other macros, 77-759, is the same).  What is done with
the visited values is `comb`. -/
def reduceLoop (comb : List (List Nat × α) → Res β) (inp : List α) (md : List Nat) : Res (Loop β) :=
  (decodeReduce md).bind fun m =>
    .ok (gridLoop (shapeSize m.outShape) (fun o => guardReduce m ((reduceVisits m inp o).bind comb)) fun i => i)

/-- `static_cast<T>(float)` to an integer type with the values from `lo` to `hi`, math.cuh:38-40: undefined outside
(the float holds an integer, so nothing is cut off). -/
def toIntC (lo hi x : Int) : Res Int := if lo ≤ x ∧ x ≤ hi then .ok x else .ub

/-- `acc += val` from 0.0f for an integer type, ops_reduce.cu:59-72, 509-516: `val`, `acc` and their sum are rounded
to `float`. -/
def sumFloat (lo hi : Int) (vs : List Int) : Res Int :=
  toIntC lo hi (vs.foldl (fun acc v => Flt.flInt (acc + Flt.flInt v)) 0)

/-- `acc = maximum(acc, val)` from `(float)INT_MIN` (0.0f if unsigned), ops_reduce.cu:59-72, 524-531, math.cuh:56. -/
def maxFloat (lo hi : Int) (vs : List Int) : Res Int :=
  toIntC lo hi (vs.foldl (fun acc v => if Flt.flInt v < acc then acc else Flt.flInt v) (Flt.flInt lo))

/-- `acc = minimum(acc, val)` from `(float)INT_MAX`, ops_reduce.cu:59-72, 539-546, math.cuh:74. -/
def minFloat (lo hi : Int) (vs : List Int) : Res Int :=
  toIntC lo hi (vs.foldl (fun acc v => if acc < Flt.flInt v then acc else Flt.flInt v) (Flt.flInt hi))

/-- `acc += val` for `double` elements, ops_reduce.cu:508: the accumulator is a `float`; elements as bit patterns. -/
def sumDouble (vs : List Nat) : Nat :=
  Cast.floatToDouble (vs.foldl (fun acc v => Creation.fadd acc (Cast.doubleToFloat v)) 0)

/-- `val > max_val` of `REDUCE_ARGMAX_OP` for an integer type, ops_reduce.cu:268-273: both are `float`. -/
def floatGreater (v w : Int) : Bool := decide (Flt.flInt w < Flt.flInt v)

/-! ## Host -/

/-- The instances of ops_reduce.cu:502-586, 661-666, 761-828. -/
def reduceCudaTable : Dispatch.Table :=
  [ (["sum", "max", "min", "prod"], Dispatch.numTypes),
    (["mean", "norm", "logsum", "logsumexp"], Dispatch.floatTypes),
    (["argmax", "argmin"], Dispatch.numTypes),
    (["any", "all"], Dispatch.allTypes) ]

/-- The arms of be_cuda/storage/ops_reduce.rs:80-116. -/
def reduceCudaArms : List DType := [.f32, .f64, .f16, .bf16, .i32, .u32]

/-- Does `call_ops_reduce`, be_cuda/storage/ops_reduce.rs:10-117, find a kernel?  Other types are refused by the host,
other kernels by `load_function`. -/
def reduceCudaRuns (op : Dispatch.ReduceOp) (dt : DType) : Bool :=
  reduceCudaArms.contains dt && reduceCudaTable.any fun r => r.1.contains op.name && r.2.contains dt

/-- `call_ops_reduce`, be_cuda/storage/ops_reduce.rs:22-74 and src/kernels/ops_reduce.rs:34-83: the axes are checked, the
output size is the product of the output shape in `u32`.  The kernel as launched and the number of elements of the
buffer. -/
def callReduceCuda (comb : List (List Nat × α) → Res β) (s : List α) (l : Layout) (axes : List Nat) (keep : Bool) :
    Res (Loop β × Nat) :=
  if axes.any fun k => l.dims.length ≤ k then .err
  else (reduceLoop comb s (reduceMetadata l axes keep)).bind fun k =>
    .ok (k, u32 (shapeSize (reduceBackendDims l.dims axes keep)))

/-- `Tensor::reduce_operation`, tensor/ops/reduce.rs:135-231 (eager branch) on this device: the kernel, the number of
elements allocated for it and the shape of the result. -/
def reduceCuda (comb : List (List Nat × α) → Res β) (t : Tensor α) (dims : List Int) (keep : Bool) :
    Res (Loop β × Nat × List Nat) :=
  let axes := reduceAxes t.dims.length dims
  (reduceHostDims t.dims axes keep).bind fun out =>
    (callReduceCuda comb t.storage t.layout axes keep).bind fun r => .ok (r.1, r.2, out)

end Hodu.Cuda
