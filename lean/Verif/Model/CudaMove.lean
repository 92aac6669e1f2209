import Verif.Model.Cuda
import Verif.Model.Move
import Verif.Model.Dispatch

/-!
# Model of concat, split, flip and pad on CUDA

Device side: crates/hodu_cuda_kernels/kernels/{ops_concat_split,ops_shape_memory,ops_padding}.cu.  Launches:
crates/hodu_cuda_kernels/src/kernels/{ops_concat_split,ops_shape_memory,ops_padding}.rs.  Hosts:
crates/hodu_core/src/be_cuda/storage/{ops_concat_split,ops_shape_memory,ops_padding}.rs.
-/

namespace Hodu.Cuda

open _root_.Hodu

/-- A kernel without a loop, e.g. `FLIP_OP`, ops_shape_memory.cu:14-39: thread `tid` returns if `tid >= num_els` and
otherwise stores once.  Launched with the grid of src/kernels/ops_shape_memory.rs:46-54. -/
def onceLoop (numEls : Nat) (val : Nat → Res β) : Loop β :=
  { threads := 256 * gridSize numEls, start := threadStart, next := fun _ => numEls
    bound := numEls, val := val, dst := fun i => i }

/-! ## Kernels -/

/-- `hodu_cuda_concat_*`, ops_concat_split.cu:6-48: the body is that of ops_concat_split.c:46-85. -/
def concatLoop (inp : List α) (md : List Nat) : Res (Loop α) :=
  (decodeConcat md).bind fun m => .ok (gridLoop m.numEls (concatBody m inp) fun i => i)

/-- `hodu_cuda_split_*`, ops_concat_split.cu:50-81: the output shape is computed by every thread for every element. -/
def splitLoop (inp : List α) (md : List Nat) : Res (Loop α) :=
  (decodeSplit md).bind fun m =>
    .ok (gridLoop m.numEls (fun id => guard16 m.nd <|
      let idx := (cUnravel (m.inShape.set m.splitDim m.outSize) id).1
      (readC idx m.splitDim).bind fun c =>
        readC inp (cFlat m.inOffset (idx.set m.splitDim (c + m.splitOffset)) m.inStrides)) fun i => i)

/-- `hodu_cuda_flip_*`, ops_shape_memory.cu:14-39. -/
def flipLoop (inp : List α) (md : List Nat) : Res (Loop α) :=
  (readC md 0).bind fun n =>
  (readC md 1).bind fun nd =>
  (sliceC md 2 nd).bind fun shape =>
  (sliceC md (2 + nd) nd).bind fun mask =>
    .ok (onceLoop n fun i => readC inp ((shape.zip mask).foldr flipStep (i, 0, 1)).2.1)

/-- `hodu_cuda_pad_constant_*`, `hodu_cuda_pad_reflect_*`, `hodu_cuda_pad_replicate_*`, `hodu_cuda_pad_circular_*`,
ops_padding.cu:39-172. -/
def padLoop (mode : PadMode) (pv : α) (inp : List α) (md : List Nat) : Res (Loop α) :=
  (readC md 0).bind fun n =>
  (readC md 1).bind fun nd =>
  (sliceC md 2 nd).bind fun inShape =>
  (sliceC md (2 + nd) nd).bind fun outShape =>
  (sliceC md (2 + 2 * nd) nd).bind fun before =>
    let ps := inShape.zip (outShape.zip before)
    match mode with
    | .constant => .ok (gridLoop n (fun i =>
        let r := ps.foldr padConstStep (true, i, 0, 1)
        if r.1 then readC inp r.2.2.1 else .ok pv) fun i => i)
    | _ => .ok (gridLoop n (fun i => readC inp (ps.foldr (padStep mode.index) (i, 0, 1)).2.1) fun i => i)

/-! ## Hosts -/

/-- A kernel as launched, the number of elements of its buffer and the shape of the result. -/
structure Launched (α : Type) where
  kernel : Loop α
  len : Nat
  dims : List Nat

/-- The types with an arm in be_cuda/storage/ops_concat_split.rs:140-150, 219-229 (`f64` with its feature). -/
def moveArms : List DType := [.f32, .i32, .u32, .f16, .bf16, .f64]

/-- `Tensor::concat`, tensor/ops/concat_split.rs:15-107, and `call_ops_concat`,
be_cuda/storage/ops_concat_split.rs:11-151: the storages are packed on the host. -/
def concatCuda (dt : DType) (ts : List (Tensor α)) (dim : Int) : Res (Launched α) :=
  match ts with
  | [] => .err
  | t :: rest =>
    let d := axisUsize t.dims.length dim
    (concatOutDims d t.dims (rest.map (·.layout))).bind fun out =>
      if !concatCheck d t.dims (ts.map (·.layout)) then .err
      else if !moveArms.contains dt then .err
      else
        let back := concatBackendDims d t.dims (ts.map (·.layout))
        (concatLoop (ts.flatMap (·.storage)) (concatMetadata (ts.map (·.layout)) d back)).bind fun k =>
          .ok { kernel := k, len := shapeSize back, dims := out }

/-- `call_ops_split`, be_cuda/storage/ops_concat_split.rs:153-232: unlike the CPU host it does not compare `start` with
the size. -/
def callSplitCuda (dt : DType) (t : Tensor α) (dim start size : Nat) : Res (Launched α) :=
  match t.dims[dim]? with
  | none => .err
  | some d =>
    if d < start + size then .err
    else if !moveArms.contains dt then .err
    else
      let n := shapeSize (t.dims.set dim size)
      (splitLoop t.storage (splitMetadata t.layout dim size start n)).bind fun k =>
        .ok { kernel := k, len := n, dims := t.dims.set dim size }

/-- The eager loop of `Tensor::split`, tensor/ops/concat_split.rs:204-235, on this device. -/
def splitCudaFrom (dt : DType) (t : Tensor α) (dim start : Nat) : List Nat → Res (List (Launched α))
  | [] => .ok []
  | size :: sizes =>
    (callSplitCuda dt t dim start size).bind fun l =>
      (splitCudaFrom dt t dim (start + size) sizes).bind fun rest => .ok (l :: rest)

/-- `Tensor::split`, tensor/ops/concat_split.rs:131-236, on this device. -/
def splitCuda (dt : DType) (t : Tensor α) (sizes : List Nat) (dim : Int) : Res (List (Launched α)) :=
  splitCudaFrom dt t (axisUsize t.dims.length dim) 0 sizes

/-- `Tensor::flip`, tensor/ops/shape_memory.rs:11-74, and `call_ops_flip`, be_cuda/storage/ops_shape_memory.rs:10-123
(every type has an arm and an instance). -/
def flipCuda (t : Tensor α) (ds : List Int) : Res (Launched α) :=
  (flipLoop t.storage (flipMetadata t.layout (ds.map (axisUsize t.dims.length)))).bind fun k =>
    .ok { kernel := k, len := shapeSize t.dims, dims := t.dims }

/-- `Tensor::pad`, tensor/ops/padding.rs:12-97, and `call_ops_pad`, be_cuda/storage/ops_padding.rs:12-324 (every type has
an arm and an instance). -/
def padCuda (t : Tensor α) (padding : List (Nat × Nat)) (mode : PadMode) (value : α) : Res (Launched α) :=
  if padding.length ≠ t.dims.length then .err
  else
    let out := List.zipWith (fun d p => d + p.1 + p.2) t.dims padding
    (padLoop mode value t.storage (paddingMetadata t.layout (padding.map Prod.fst) out)).bind fun k =>
      .ok { kernel := k, len := shapeSize out, dims := out }

end Hodu.Cuda
