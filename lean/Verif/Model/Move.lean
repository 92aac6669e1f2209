import Verif.Model.Tensor

/-!
# Model of the data-moving operations: concat, stack, split, chunk, flip, pad

Host side: crates/hodu_core/src/tensor/ops/{concat_split,shape_memory,padding}.rs,
be_cpu/storage/{ops_concat_split,ops_shape_memory,ops_padding}.rs, op_metadatas.rs.
Kernels: crates/hodu_cpu_kernels/kernels/{ops_concat_split,ops_shape_memory,ops_padding}.c.

A C loop running from the last dimension to the first is a `List.foldr` over the dimensions: the
last element is processed first.
-/

namespace Hodu

/-- `if dim < 0 { (ndim + dim) as usize } else { dim as usize }`, e.g. concat_split.rs:26-30, 135-139,
242-246, shape_memory.rs:18-22. -/
def axisUsize (ndim : Nat) (dim : Int) : Nat :=
  if dim < 0 then castUsize (ndim + dim) else castUsize dim

/-- The index decomposition loop of the kernels, e.g. ops_concat_split.c:50-53:
`for (d = nd - 1; d >= 0; d--) { idx[d] = temp % shape[d]; temp /= shape[d]; }`; returns the indices
and the final `temp`. -/
def cUnravel (shape : List Nat) (id : Nat) : List Nat × Nat :=
  shape.foldr (fun d s => (s.2 % d :: s.1, s.2 / d)) ([], id)

/-- The flat index loop of the kernels, e.g. ops_concat_split.c:78-82:
`for (i = 0; i < nd; i++) flat += idx[i] * stride[i];`. -/
def cFlat (start : Nat) (idx strides : List Nat) : Nat :=
  (idx.zip strides).foldl (fun acc p => acc + p.1 * p.2) start

/-- The kernels keep indices in arrays of 16 entries (`size_t output_indices[16]`,
ops_concat_split.c:48, 139, 148): a higher rank writes outside of them. -/
def guard16 (nd : Nat) (k : Res α) : Res α := if 16 < nd then .ub else k

/-! ## concat -/

/-- Running start offsets of `input_buffer_offsets`, op_metadatas.rs:643-648. -/
def bufferOffsets (start : Nat) : List Layout → List Nat
  | [] => []
  | l :: ls => start :: bufferOffsets (start + l.size) ls

/-- `concat_metadata`, op_metadatas.rs:604-651. -/
def concatMetadata (ls : List Layout) (dim : Nat) (out : List Nat) : List Nat :=
  [shapeSize out, out.length] ++ out ++ [dim, ls.length] ++ ls.flatMap (·.dims) ++
    ls.flatMap (·.strides) ++ ls.map (·.offset) ++ bufferOffsets 0 ls

/-- Fields the concat kernel decodes. -/
structure ConcatMeta where
  numEls : Nat
  nd : Nat
  outShape : List Nat
  concatDim : Nat
  numInputs : Nat
  inShapes : List Nat
  inStrides : List Nat
  inOffsets : List Nat
  bufOffsets : List Nat
  deriving Repr, DecidableEq

/-- Decoding prologue of `CONCAT_OP`, ops_concat_split.c:34-42. -/
def decodeConcat (md : List Nat) : Res ConcatMeta :=
  (readC md 0).bind fun n =>
  (readC md 1).bind fun nd =>
  (sliceC md 2 nd).bind fun out =>
  (readC md (2 + nd)).bind fun dim =>
  (readC md (2 + nd + 1)).bind fun k =>
  (sliceC md (2 + nd + 2) (k * nd)).bind fun shapes =>
  (sliceC md (2 + nd + 2 + k * nd) (k * nd)).bind fun strides =>
  (sliceC md (2 + nd + 2 + k * nd + k * nd) k).bind fun offs =>
  (sliceC md (2 + nd + 2 + k * nd + k * nd + k) k).bind fun bufs =>
  .ok { numEls := n, nd := nd, outShape := out, concatDim := dim, numInputs := k,
        inShapes := shapes, inStrides := strides, inOffsets := offs, bufOffsets := bufs }

/-- The search loop of `CONCAT_OP`, ops_concat_split.c:60-67; `fuel` iterations are left, `i` is the
loop variable, `cum` is `cumulative_size`.  Returns `tensor_idx` (initially 0) and
`cumulative_size`. -/
def concatFind (shapes : List Nat) (nd dim dimIndex : Nat) : Nat → Nat → Nat → Res (Nat × Nat)
  | 0, _, cum => .ok (0, cum)
  | fuel + 1, i, cum =>
    (readC shapes (i * nd + dim)).bind fun size =>
      if dimIndex < cum + size then .ok (i, cum)
      else concatFind shapes nd dim dimIndex fuel (i + 1) (cum + size)

/-- Loop body of `CONCAT_OP`, ops_concat_split.c:46-85. -/
def concatBody (m : ConcatMeta) (inp : List α) (id : Nat) : Res α :=
  guard16 m.nd <|
    let idx := (cUnravel m.outShape id).1
    (readC idx m.concatDim).bind fun dimIndex =>
    (concatFind m.inShapes m.nd m.concatDim dimIndex m.numInputs 0 0).bind fun (t, cum) =>
    (sliceC m.inStrides (t * m.nd) m.nd).bind fun strides =>
    (readC m.inOffsets t).bind fun off =>
    (readC m.bufOffsets t).bind fun buf =>
      readC inp (buf + cFlat off (idx.set m.concatDim (dimIndex - cum)) strides)

/-- `hodu_cpu_concat_*`, ops_concat_split.c:29-87. -/
def concatKernel (inp : List α) (md : List Nat) : Res (List α) :=
  (decodeConcat md).bind fun m => runLoop m.numEls (concatBody m inp)

/-- The host's running output shape, concat_split.rs:44-55: `output_dims[dim] += dims[dim]`, error
on a different rank, panic if `dim` is out of range. -/
def concatOutDims (dim : Nat) (out : List Nat) : List Layout → Res (List Nat)
  | [] => .ok out
  | l :: ls =>
    if l.dims.length ≠ out.length then .err
    else (readR out dim).bind fun a => (readR l.dims dim).bind fun b =>
      concatOutDims dim (out.set dim (a + b)) ls

/-- Shape validation of `call_ops_concat`, ops_concat_split.rs:53-86. -/
def concatCheck (dim : Nat) (first : List Nat) (ls : List Layout) : Bool :=
  dim < first.length &&
    ls.all fun l => l.dims.length == first.length &&
      (List.range first.length).all fun d => d == dim || l.dims[d]? == first[d]?

/-- `output_shape_vec[dim] = Σ dims[dim]`, ops_concat_split.rs:89-90. -/
def concatBackendDims (dim : Nat) (first : List Nat) (ls : List Layout) : List Nat :=
  first.set dim ((ls.map fun l => l.dims.getD dim 0).sum)

/-- `call_ops_concat`, be_cpu/storage/ops_concat_split.rs:23-167: the full storages are packed one
after the other. -/
def callOpsConcat (ts : List (Tensor α)) (dim : Nat) : Res (List α) :=
  match ts with
  | [] => .err
  | t :: _ =>
    if !concatCheck dim t.dims (ts.map (·.layout)) then .err
    else concatKernel (ts.flatMap (·.storage))
      (concatMetadata (ts.map (·.layout)) dim (concatBackendDims dim t.dims (ts.map (·.layout))))

/-- `Tensor::concat`, tensor/ops/concat_split.rs:15-107 (eager branch). -/
def Tensor.concat (ts : List (Tensor α)) (dim : Int) : Res (Tensor α) :=
  match ts with
  | [] => .err
  | t :: rest =>
    let d := axisUsize t.dims.length dim
    (concatOutDims d t.dims (rest.map (·.layout))).bind fun out =>
      (callOpsConcat ts d).bind fun s =>
        .ok { storage := s, layout := Layout.fromShape out }

/-- `Tensor::stack`, tensor/ops/concat_split.rs:114-128. -/
def Tensor.stack (ts : List (Tensor α)) (dim : Int) : Res (Tensor α) :=
  match ts with
  | [] => .err
  | _ => (Res.mapL (fun t => t.unsqueeze dim) ts).bind fun us => Tensor.concat us dim

/-! ## split and chunk -/

/-- `split_metadata`, op_metadatas.rs:668-694. -/
def splitMetadata (l : Layout) (dim size start n : Nat) : List Nat :=
  [n, l.ndim] ++ l.dims ++ l.strides ++ [l.offset, dim, size, start]

/-- Fields the split kernel decodes. -/
structure SplitMeta where
  numEls : Nat
  nd : Nat
  inShape : List Nat
  inStrides : List Nat
  inOffset : Nat
  splitDim : Nat
  outSize : Nat
  splitOffset : Nat
  deriving Repr, DecidableEq

/-- Decoding prologue of `SPLIT_OP`, ops_concat_split.c:128-135. -/
def decodeSplit (md : List Nat) : Res SplitMeta :=
  (readC md 0).bind fun n =>
  (readC md 1).bind fun nd =>
  (sliceC md 2 nd).bind fun shape =>
  (sliceC md (2 + nd) nd).bind fun strides =>
  (readC md (2 + 2 * nd)).bind fun off =>
  (readC md (2 + 2 * nd + 1)).bind fun dim =>
  (readC md (2 + 2 * nd + 2)).bind fun size =>
  (readC md (2 + 2 * nd + 3)).bind fun start =>
  .ok { numEls := n, nd := nd, inShape := shape, inStrides := strides, inOffset := off,
        splitDim := dim, outSize := size, splitOffset := start }

/-- `hodu_cpu_split_*`, ops_concat_split.c:123-164. -/
def splitKernel (inp : List α) (md : List Nat) : Res (List α) :=
  (decodeSplit md).bind fun m =>
    guard16 m.nd <|
      let outShape := m.inShape.set m.splitDim m.outSize
      runLoop m.numEls fun id =>
        let idx := (cUnravel outShape id).1
        (readC idx m.splitDim).bind fun c =>
          readC inp (cFlat m.inOffset (idx.set m.splitDim (c + m.splitOffset)) m.inStrides)

/-- `call_ops_split`, be_cpu/storage/ops_concat_split.rs:183-285. -/
def callOpsSplit (s : List α) (l : Layout) (dim start size : Nat) : Res (List α) :=
  match l.dims[dim]? with
  | none => .err
  | some d =>
    if d ≤ start then .err
    else if d < start + size then .err
    else splitKernel s (splitMetadata l dim size start (shapeSize (l.dims.set dim size)))

/-- The eager loop of `Tensor::split`, concat_split.rs:204-235.  `result_dims[dim] = size` cannot
panic there: `call_ops_split` has rejected a `dim` out of range. -/
def splitLoop (t : Tensor α) (dim start : Nat) : List Nat → Res (List (Tensor α))
  | [] => .ok []
  | size :: sizes =>
    (callOpsSplit t.storage t.layout dim start size).bind fun s =>
      (splitLoop t dim (start + size) sizes).bind fun rest =>
        .ok ({ storage := s, layout := Layout.fromShape (t.dims.set dim size) } :: rest)

/-- `Tensor::split`, tensor/ops/concat_split.rs:131-236 (eager branch). -/
def Tensor.split (t : Tensor α) (sizes : List Nat) (dim : Int) : Res (List (Tensor α)) :=
  splitLoop t (axisUsize t.dims.length dim) 0 sizes

/-- `usize` subtraction: panics below zero (debug build). -/
def subUsize (a b : Nat) : Res Nat := if a < b then .panic else .ok (a - b)

/-- `usize::div_ceil` (Rust core; used in concat_split.rs:251): panics on 0. -/
def divCeil (a b : Nat) : Res Nat := if b = 0 then .panic else .ok ((a + b - 1) / b)

/-- The size list of `Tensor::chunk`, concat_split.rs:251-259. -/
def chunkSizes (dimSize chunks : Nat) : Res (List Nat) :=
  (divCeil dimSize chunks).bind fun c =>
    (Res.mapL (fun i => subUsize (min ((i + 1) * c) dimSize) (i * c)) (List.range chunks)).bind
      fun sizes => .ok (sizes.filter (0 < ·))

/-- `Tensor::chunk`, tensor/ops/concat_split.rs:238-262. -/
def Tensor.chunk (t : Tensor α) (chunks : Nat) (dim : Int) : Res (List (Tensor α)) :=
  (readR t.dims (axisUsize t.dims.length dim)).bind fun d =>
    (chunkSizes d chunks).bind fun sizes => t.split sizes dim

/-! ## flip -/

/-- `flip_metadata`, op_metadatas.rs:1580-1602: neither strides nor offset are passed. -/
def flipMetadata (l : Layout) (flipDims : List Nat) : List Nat :=
  [l.size, l.ndim] ++ l.dims ++
    (List.range l.ndim).map fun d => if flipDims.contains d then 1 else 0

/-- One iteration of the dimension loop of `IMPL_FLIP_OP`, ops_shape_memory.c:27-34, on the state
`(remaining, input_idx, in_stride)`. -/
def flipStep (p : Nat × Nat) (s : Nat × Nat × Nat) : Nat × Nat × Nat :=
  let (d, mask) := p
  let (remaining, inputIdx, inStride) := s
  let coord := remaining % d
  (remaining / d, inputIdx + (if mask ≠ 0 then d - 1 - coord else coord) * inStride, inStride * d)

/-- `hodu_cpu_flip_*`, ops_shape_memory.c:12-39. -/
def flipKernel (inp : List α) (md : List Nat) : Res (List α) :=
  (readC md 0).bind fun n =>
  (readC md 1).bind fun nd =>
  (sliceC md 2 nd).bind fun shape =>
  (sliceC md (2 + nd) nd).bind fun mask =>
  runLoop n fun i => readC inp ((shape.zip mask).foldr flipStep (i, 0, 1)).2.1

/-- `Tensor::flip`, tensor/ops/shape_memory.rs:11-74 (eager branch); `call_ops_flip`,
be_cpu/storage/ops_shape_memory.rs:9-57. -/
def Tensor.flip (t : Tensor α) (ds : List Int) : Res (Tensor α) :=
  (flipKernel t.storage (flipMetadata t.layout (ds.map (axisUsize t.dims.length)))).bind fun s =>
    .ok { storage := s, layout := Layout.fromShape t.dims }

/-! ## pad -/

/-- `PaddingOp`, hodu_core/src/ops.rs (the four modes of tensor/ops/padding.rs:22-35). -/
inductive PadMode where
  | constant | reflect | replicate | circular
  deriving Repr, DecidableEq

/-- `reflect_index`, ops_padding.c:4-20, for `size ≥ 1`. -/
def reflectIndex (idx : Int) (size : Nat) : Nat :=
  let i := idx.natAbs
  if size ≤ i then
    let period := 2 * (size - 1)
    if 0 < period then
      let j := i % period
      if size ≤ j then period - j else j
    else 0
  else i

/-- `replicate_index`, ops_padding.c:22-28. -/
def replicateIndex (idx : Int) (size : Nat) : Nat :=
  if idx < 0 then 0 else if size ≤ idx.toNat then size - 1 else idx.toNat

/-- `circular_index`, ops_padding.c:30-35 (C's `%` truncates towards zero). -/
def circularIndex (idx : Int) (size : Nat) : Nat :=
  let r := idx.tmod size
  if r < 0 then (r + size).toNat else r.toNat

/-- `padding_metadata`, op_metadatas.rs:1374-1401: neither strides nor offset are passed. -/
def paddingMetadata (l : Layout) (before out : List Nat) : List Nat :=
  [shapeSize out, l.ndim] ++ l.dims ++ out ++ before

/-- One iteration of the dimension loop of `IMPL_PAD_CONSTANT_OP`, ops_padding.c:54-69, on the state
`(in_bounds, remaining, input_idx, in_stride)`; after the `break` nothing more happens.  The inner
loop that recomputes `in_stride` from the later sizes is replaced by a running product. -/
def padConstStep (p : Nat × Nat × Nat) (s : Bool × Nat × Nat × Nat) : Bool × Nat × Nat × Nat :=
  let (inSize, outSize, before) := p
  let (inBounds, remaining, inputIdx, inStride) := s
  if !inBounds then s
  else
    let outCoord := remaining % outSize
    let inCoord : Int := (outCoord : Int) - before
    if inCoord < 0 ∨ inSize ≤ inCoord.toNat then (false, remaining / outSize, inputIdx, inStride)
    else (true, remaining / outSize, inputIdx + inCoord.toNat * inStride, inStride * inSize)

/-- One iteration of the dimension loop of the other pad kernels, ops_padding.c:94-107, 131-144,
168-181, with the index map as a parameter, on the state `(remaining, input_idx, in_stride)`. -/
def padStep (f : Int → Nat → Nat) (p : Nat × Nat × Nat) (s : Nat × Nat × Nat) : Nat × Nat × Nat :=
  let (inSize, outSize, before) := p
  let (remaining, inputIdx, inStride) := s
  let inCoord : Int := ((remaining % outSize : Nat) : Int) - before
  (remaining / outSize, inputIdx + f inCoord inSize * inStride, inStride * inSize)

/-- The per-dimension source coordinate of the three non-constant modes. -/
def PadMode.index : PadMode → Int → Nat → Nat
  | .reflect => reflectIndex
  | .replicate => replicateIndex
  | _ => circularIndex

/-- `hodu_cpu_pad_constant_*` / `hodu_cpu_pad_reflect_*` / `hodu_cpu_pad_replicate_*` /
`hodu_cpu_pad_circular_*`, ops_padding.c:37-184. -/
def padKernel (mode : PadMode) (pv : α) (inp : List α) (md : List Nat) : Res (List α) :=
  (readC md 0).bind fun n =>
  (readC md 1).bind fun nd =>
  (sliceC md 2 nd).bind fun inShape =>
  (sliceC md (2 + nd) nd).bind fun outShape =>
  (sliceC md (2 + 2 * nd) nd).bind fun before =>
    let ps := inShape.zip (outShape.zip before)
    match mode with
    | .constant => runLoop n fun i =>
        let r := ps.foldr padConstStep (true, i, 0, 1)
        if r.1 then readC inp r.2.2.1 else .ok pv
    | _ => runLoop n fun i => readC inp (ps.foldr (padStep mode.index) (i, 0, 1)).2.1

/-- `Tensor::pad`, tensor/ops/padding.rs:12-97 (eager branch, mode already parsed); `call_ops_pad`,
be_cpu/storage/ops_padding.rs:11-. -/
def Tensor.pad (t : Tensor α) (padding : List (Nat × Nat)) (mode : PadMode) (value : α) :
    Res (Tensor α) :=
  if padding.length ≠ t.dims.length then .err
  else
    let out := List.zipWith (fun d p => d + p.1 + p.2) t.dims padding
    (padKernel mode value t.storage (paddingMetadata t.layout (padding.map Prod.fst) out)).bind
      fun s => .ok { storage := s, layout := Layout.fromShape out }

/-- Mode parsing of `Tensor::pad`, tensor/ops/padding.rs:22-35 (ASCII lower-casing). -/
def PadMode.parse (s : String) : Option PadMode :=
  let e := s.map Char.toLower
  if e = "constant" then some .constant else if e = "reflect" then some .reflect
  else if e = "replicate" then some .replicate else if e = "edge" then some .replicate
  else if e = "circular" then some .circular else if e = "wrap" then some .circular else none

end Hodu
