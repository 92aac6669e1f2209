import Verif.Model.MetalGrid
import Verif.Model.MetalQueue
import Verif.Model.CudaMove

/-!
# Model of concat, split, flip and pad on Metal

Device side: crates/hodu_metal_kernels/kernels/{ops_concat_split,ops_shape_memory,ops_padding}.metal.
Launches: crates/hodu_metal_kernels/src/kernels/{ops_concat_split,ops_shape_memory,ops_padding}.rs.
Hosts: crates/hodu_core/src/be_metal/storage/{ops_concat_split,ops_shape_memory,ops_padding}.rs.

The storage of a tensor is its whole buffer, including the elements a pooled buffer has beyond the size
of the tensor (`buf_size`, be_metal/device.rs:167-169).  Buffers are whole numbers of elements.
-/

namespace Hodu.Metal

open _root_.Hodu Hodu.Cuda

/-- Launch of a kernel with a grid-stride loop over the output, src/kernels/ops_concat_split.rs:85-86. -/
def launchStride (maxThreads n : Nat) (val : Nat → Res β) : Res (Loop β) :=
  (linearSplit maxThreads n).bind fun threads => .ok (strideGrid threads n val fun i => i)

/-- Launch of a kernel with one element per thread, src/kernels/ops_shape_memory.rs:59-60. -/
def launchOnce (maxThreads n : Nat) (val : Nat → Res β) : Res (Loop β) :=
  (linearSplit maxThreads n).bind fun threads => .ok (onceGrid threads n val fun i => i)

/-- The types with kernels: ops_concat_split.metal:92-103, 173-184, ops_shape_memory.metal:40-51,
ops_padding.metal:177-227.  For the others loading the pipeline fails. -/
def kernelTypes : List DType :=
  [.bool, .bf16, .f16, .f32, .u8, .u16, .u32, .u64, .i8, .i16, .i32, .i64]

/-! ## Kernels -/

/-- `hodu_metal_concat_*`, ops_concat_split.metal:35-89: the body is that of ops_concat_split.c:46-85. -/
def concatLoop (maxThreads : Nat) (inp : List α) (md : List Nat) : Res (Loop α) :=
  (decodeConcat md).bind fun m => launchStride maxThreads m.numEls (concatBody m inp)

/-- `hodu_metal_split_*`, ops_concat_split.metal:128-170. -/
def splitLoop (maxThreads : Nat) (inp : List α) (md : List Nat) : Res (Loop α) :=
  (decodeSplit md).bind fun m =>
    launchStride maxThreads m.numEls fun id => guard16 m.nd <|
      let idx := (cUnravel (m.inShape.set m.splitDim m.outSize) id).1
      (readC idx m.splitDim).bind fun c =>
        readC inp (cFlat m.inOffset (idx.set m.splitDim (c + m.splitOffset)) m.inStrides)

/-- `hodu_metal_flip_*`, ops_shape_memory.metal:12-38. -/
def flipLoop (maxThreads : Nat) (inp : List α) (md : List Nat) : Res (Loop α) :=
  (readC md 0).bind fun n =>
  (readC md 1).bind fun nd =>
  (sliceC md 2 nd).bind fun shape =>
  (sliceC md (2 + nd) nd).bind fun mask =>
    launchOnce maxThreads n fun i => readC inp ((shape.zip mask).foldr flipStep (i, 0, 1)).2.1

/-- `hodu_metal_pad_constant_*`, `hodu_metal_pad_reflect_*`, `hodu_metal_pad_replicate_*`,
`hodu_metal_pad_circular_*`, ops_padding.metal:38-175. -/
def padLoop (maxThreads : Nat) (mode : PadMode) (pv : α) (inp : List α) (md : List Nat) : Res (Loop α) :=
  (readC md 0).bind fun n =>
  (readC md 1).bind fun nd =>
  (sliceC md 2 nd).bind fun inShape =>
  (sliceC md (2 + nd) nd).bind fun outShape =>
  (sliceC md (2 + 2 * nd) nd).bind fun before =>
    let ps := inShape.zip (outShape.zip before)
    match mode with
    | .constant => launchOnce maxThreads n fun i =>
        let r := ps.foldr padConstStep (true, i, 0, 1)
        if r.1 then readC inp r.2.2.1 else .ok pv
    | _ => launchOnce maxThreads n fun i => readC inp (ps.foldr (padStep mode.index) (i, 0, 1)).2.1

/-! ## Hosts -/

/-- `Tensor::concat`, tensor/ops/concat_split.rs:15-107, and `call_ops_concat`,
be_metal/storage/ops_concat_split.rs:11-148: the whole buffers are packed (`buffer().length()`, 103-127),
the positions in the metadata are the sizes of the shapes (op_metadatas.rs:643-648). -/
def concatMetal (maxThreads : Nat) (dt : DType) (ts : List (Tensor α)) (dim : Int) : Res (Launched α) :=
  match ts with
  | [] => .err
  | t :: rest =>
    let d := axisUsize t.dims.length dim
    (concatOutDims d t.dims (rest.map (·.layout))).bind fun out =>
      if !concatCheck d t.dims (ts.map (·.layout)) then .err
      else if !kernelTypes.contains dt then .err
      else
        let back := concatBackendDims d t.dims (ts.map (·.layout))
        (concatLoop maxThreads (ts.flatMap (·.storage)) (concatMetadata (ts.map (·.layout)) d back)).bind
          fun k => .ok { kernel := k, len := shapeSize back, dims := out }

/-- `call_ops_split`, be_metal/storage/ops_concat_split.rs:150-218. -/
def callSplitMetal (maxThreads : Nat) (dt : DType) (t : Tensor α) (dim start size : Nat) :
    Res (Launched α) :=
  match t.dims[dim]? with
  | none => .err
  | some d =>
    if d < start + size then .err
    else if !kernelTypes.contains dt then .err
    else
      let n := shapeSize (t.dims.set dim size)
      (splitLoop maxThreads t.storage (splitMetadata t.layout dim size start n)).bind fun k =>
        .ok { kernel := k, len := n, dims := t.dims.set dim size }

/-- The eager loop of `Tensor::split`, tensor/ops/concat_split.rs:204-235, on this device. -/
def splitMetalFrom (maxThreads : Nat) (dt : DType) (t : Tensor α) (dim start : Nat) :
    List Nat → Res (List (Launched α))
  | [] => .ok []
  | size :: sizes =>
    (callSplitMetal maxThreads dt t dim start size).bind fun l =>
      (splitMetalFrom maxThreads dt t dim (start + size) sizes).bind fun rest => .ok (l :: rest)

/-- `Tensor::split`, tensor/ops/concat_split.rs:131-236, on this device. -/
def splitMetal (maxThreads : Nat) (dt : DType) (t : Tensor α) (sizes : List Nat) (dim : Int) :
    Res (List (Launched α)) :=
  splitMetalFrom maxThreads dt t (axisUsize t.dims.length dim) 0 sizes

/-- `Tensor::flip`, tensor/ops/shape_memory.rs:11-74, and `call_ops_flip`,
be_metal/storage/ops_shape_memory.rs:4-35. -/
def flipMetal (maxThreads : Nat) (dt : DType) (t : Tensor α) (ds : List Int) : Res (Launched α) :=
  if !kernelTypes.contains dt then .err
  else
    (flipLoop maxThreads t.storage (flipMetadata t.layout (ds.map (axisUsize t.dims.length)))).bind
      fun k => .ok { kernel := k, len := shapeSize t.dims, dims := t.dims }

/-- `Tensor::pad`, tensor/ops/padding.rs:12-97, and `call_ops_pad`, be_metal/storage/ops_padding.rs:11-185. -/
def padMetal (maxThreads : Nat) (dt : DType) (t : Tensor α) (padding : List (Nat × Nat)) (mode : PadMode)
    (value : α) : Res (Launched α) :=
  if padding.length ≠ t.dims.length then .err
  else if !kernelTypes.contains dt then .err
  else
    let out := List.zipWith (fun d p => d + p.1 + p.2) t.dims padding
    (padLoop maxThreads mode value t.storage (paddingMetadata t.layout (padding.map Prod.fst) out)).bind
      fun k => .ok { kernel := k, len := shapeSize out, dims := out }

end Hodu.Metal
