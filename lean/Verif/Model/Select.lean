import Verif.Model.Indexing

/-!
# Model of onehot, nonzero, unique and compress

Host side: crates/hodu_core/src/tensor/ops/indexing.rs:586-997, be_cpu/storage/ops_indexing.rs:550-925,
op_metadatas.rs:880-1033.  Kernels: crates/hodu_cpu_kernels/kernels/ops_indexing.c:870-1442.
-/

namespace Hodu

/-! ## onehot -/

/-- `x as i32` for an integer of any of the index dtypes, be_cpu/storage/ops_indexing.rs:565-577: keeps the
low 32 bits. -/
def truncI32 (v : Int) : Int := (v + 2 ^ 31) % 2 ^ 32 - 2 ^ 31

/-- The shape loop of `onehot`, tensor/ops/indexing.rs:609-619, and of `onehot_metadata`,
op_metadatas.rs:894-904: `num_classes` is inserted before position `axis`, or nowhere if `axis` is larger
than the rank. -/
def onehotDims (classes : Nat) : Nat → List Nat → List Nat
  | 0, ds => classes :: ds
  | axis + 1, d :: ds => d :: onehotDims classes axis ds
  | _ + 1, [] => []

/-- `onehot_metadata`, op_metadatas.rs:888-919 (the first component; the second is `onehotDims`). -/
def onehotMetadata (l : Layout) (classes axis : Nat) : List Nat :=
  let out := onehotDims classes axis l.dims
  [shapeSize out, l.size, classes, axis, out.length] ++ out

/-- Fields the onehot kernel decodes. -/
structure OnehotMeta where
  numEls : Nat
  numInputs : Nat
  classes : Nat
  axis : Nat
  outShape : List Nat
  deriving Repr, DecidableEq

/-- Decoding prologue of `ONEHOT_OP`, ops_indexing.c:899-904. -/
def decodeOnehot (md : List Nat) : Res OnehotMeta :=
  (readC md 0).bind fun n => (readC md 1).bind fun k => (readC md 2).bind fun c =>
  (readC md 3).bind fun a => (readC md 4).bind fun nd => (sliceC md 5 nd).bind fun out =>
  .ok ⟨n, k, c, a, out⟩

/-- The input shape, ops_indexing.c:919-925: the output shape without position `axis`. -/
def withoutAxis : Nat → List Nat → List Nat
  | _, [] => []
  | 0, _ :: ds => ds
  | a + 1, d :: ds => d :: withoutAxis a ds

/-- The flat output index, ops_indexing.c:950-959: the input indices with the class inserted at position
`axis`, times the row-major strides (912-916, `tailProds`).  With `axis` past the end one input index more
than computed is read: the last one is uninitialised. -/
def onehotIndex (cls : Nat) : Nat → List Nat → List Nat → Res Nat
  | _, [], _ => .ok 0
  | 0, s :: ss, idx => .ok (cls * s + cFlat 0 idx ss)
  | a + 1, s :: ss, i :: idx => (onehotIndex cls a ss idx).bind fun r => .ok (i * s + r)
  | _ + 1, _ :: _, [] => .ub

/-- One input element, ops_indexing.c:928-962. -/
def onehotStep (one : β) (m : OnehotMeta) (indices : List Int) (out : List β) (i : Nat) : Res (List β) :=
  (readC indices i).bind fun v =>
  (wrapIndex v m.classes).bind fun
    | none => .ok out
    | some c =>
      let idx := (cUnravel ((withoutAxis m.axis m.outShape).take (m.outShape.length - 1)) i).1
      (onehotIndex c m.axis (tailProds m.outShape) idx).bind fun o =>
        (readC out o).bind fun _ => .ok (out.set o one)

/-- `hodu_cpu_onehot_<type>`, ops_indexing.c:895-963.  The stride array has 32 entries and is written at
`num_dims_out - 1` (912-913). -/
def onehotKernel (zero one : β) (indices : List Int) (md : List Nat) : Res (List β) :=
  (decodeOnehot md).bind fun m =>
    if m.outShape.length = 0 ∨ 32 < m.outShape.length then .ub
    else Res.foldL (onehotStep one m indices) (List.replicate m.numEls zero) (List.range m.numInputs)

/-- `Tensor::onehot`, tensor/ops/indexing.rs:586-660 (eager branch), with `call_ops_onehot`,
be_cpu/storage/ops_indexing.rs:550-633: the kernel gets the whole index buffer, without strides or offset;
the axis is not checked. -/
def Tensor.onehot (zero one : β) (ix : Tensor Int) (classes : Nat) (axis : Int) : Res (Tensor β) :=
  let a := axisUsize (ix.dims.length + 1) axis
  (onehotKernel zero one (ix.storage.map truncI32) (onehotMetadata ix.layout classes a)).bind fun s =>
    .ok { storage := s, layout := Layout.fromShape (onehotDims classes a ix.dims) }

/-! ## nonzero and unique -/

/-- `nonzero_metadata`, op_metadatas.rs:928-941, and `unique_metadata`, 951-964. -/
def stridedMetadata (l : Layout) : List Nat :=
  [l.size, l.ndim] ++ l.dims ++ l.strides ++ [l.offset]

/-- Fields decoded by the nonzero and unique kernels. -/
structure StridedMeta where
  numEls : Nat
  shape : List Nat
  strides : List Nat
  offset : Nat
  deriving Repr, DecidableEq

/-- Decoding prologue of `NONZERO_COUNT_OP`, `NONZERO_FILL_OP`, `UNIQUE_OP_INT` and `UNIQUE_OP_FLOAT`,
ops_indexing.c:1008-1012, 1042-1046, 1163-1167, 1233-1237. -/
def decodeStrided (md : List Nat) : Res StridedMeta :=
  (readC md 0).bind fun n => (readC md 1).bind fun nd => (sliceC md 2 nd).bind fun shape =>
  (sliceC md (2 + nd) nd).bind fun strides => (readC md (2 + 2 * nd)).bind fun off =>
  .ok ⟨n, shape, strides, off⟩

/-- The strided read of element `id`, ops_indexing.c:1016-1024, 1050-1059, 1177-1186. -/
def stridedRead (inp : List α) (m : StridedMeta) (id : Nat) : Res α :=
  readC inp (cFlat m.offset (cUnravel m.shape id).1 m.strides)

/-- `hodu_cpu_nonzero_count_<type>`, ops_indexing.c:1004-1030. -/
def nonzeroCount (nz : α → Bool) (inp : List α) (md : List Nat) : Res Nat :=
  (decodeStrided md).bind fun m =>
    Res.foldL (fun c id => (stridedRead inp m id).bind fun v => .ok (if nz v then c + 1 else c)) 0
      (List.range m.numEls)

/-- One element of the fill pass, ops_indexing.c:1049-1066; the index array has 32 entries (1053); the output
is written consecutively. -/
def nonzeroStep (nz : α → Bool) (inp : List α) (m : StridedMeta) (out : List Int) (id : Nat) :
    Res (List Int) :=
  if 32 < m.shape.length then .ub
  else (stridedRead inp m id).bind fun v =>
    .ok (if nz v then out ++ (cUnravel m.shape id).1.map castI32 else out)

/-- `hodu_cpu_nonzero_fill_<type>`, ops_indexing.c:1038-1068, into a buffer of `size` elements. -/
def nonzeroFill (nz : α → Bool) (inp : List α) (md : List Nat) (size : Nat) : Res (List Int) :=
  (decodeStrided md).bind fun m =>
    (Res.foldL (nonzeroStep nz inp m) [] (List.range m.numEls)).bind fun out =>
      if out.length ≤ size then .ok out else .ub

/-- `Tensor::nonzero`, tensor/ops/indexing.rs:680-733 (eager branch), with `call_nonzero`,
be_cpu/storage/ops_indexing.rs:644-683. -/
def Tensor.nonzero (nz : α → Bool) (t : Tensor α) : Res (Tensor Int) :=
  let md := stridedMetadata t.layout
  (nonzeroCount nz t.storage md).bind fun count =>
    (if count = 0 then .ok [] else nonzeroFill nz t.storage md (count * t.layout.ndim)).bind fun s =>
      .ok { storage := s, layout := Layout.fromShape [count, t.layout.ndim] }

/-- State of the output loop of the unique kernels. -/
structure UniqueState (α : Type) where
  values : List α
  counts : List Nat
  current : Nat
  inverse : List Int
  deriving Repr, DecidableEq

/-- One position of the sorted order, ops_indexing.c:1197-1217, 1267-1287.  `values` has
`unique_count + 1` entries after the first position; `current_count` is an `int32_t`. -/
def uniqueStep (ne : α → α → Bool) (vals : List α) (st : UniqueState α × Option α) (orig : Nat) :
    Res (UniqueState α × Option α) :=
  (readC vals orig).bind fun v =>
    let s := st.1
    let inv (k : Nat) : List Int := s.inverse.set orig (castI32 k)
    match st.2 with
    | none => .ok (⟨[v], [], 1, inv 0⟩, some v)
    | some prev =>
      if ne v prev then .ok (⟨s.values ++ [v], s.counts ++ [s.current], 1, inv s.values.length⟩, some v)
      else if s.current + 1 < 2 ^ 31 then
        .ok (⟨s.values, s.counts, s.current + 1, inv (s.values.length - 1)⟩, some v)
      else .ub

/-- The output loop of the unique kernels, ops_indexing.c:1193-1219, 1263-1289: values, inverse and counts,
for the order `order` the sort has produced. -/
def uniqueBuild (ne : α → α → Bool) (vals : List α) (order : List Nat) :
    Res (List α × List Int × List Nat) :=
  (Res.foldL (uniqueStep ne vals) (⟨[], [], 0, vals.map fun _ => 0⟩, none) order).bind fun st =>
    .ok (st.1.values, st.1.inverse, st.1.counts ++ [st.1.current])

/-- `hodu_cpu_unique_<type>`, ops_indexing.c:1157-1224, 1227-1294, with `sort` the order of positions
`qsort` leaves (any order sorted by the keys: `qsort` is not stable). -/
def uniqueKernel (ne : α → α → Bool) (sort : List α → List Nat) (inp : List α) (md : List Nat) :
    Res (List α × List Int × List Nat) :=
  (decodeStrided md).bind fun m =>
    if m.numEls = 0 then .ok ([], [], [])
    else (runLoop m.numEls (stridedRead inp m)).bind fun vals => uniqueBuild ne vals (sort vals)

/-- `Tensor::unique`, tensor/ops/indexing.rs:756-826 (eager branch), with `call_unique`,
be_cpu/storage/ops_indexing.rs:689-784: values, inverse, counts; the buffers are cut to the number of
values found. -/
def Tensor.unique (ne : α → α → Bool) (sort : List α → List Nat) (t : Tensor α) :
    Res (Tensor α × Tensor Int × Tensor Nat) :=
  (if t.layout.size = 0 then .ok ([], [], [])
   else uniqueKernel ne sort t.storage (stridedMetadata t.layout)).bind fun r =>
    .ok (⟨r.1, Layout.fromShape [r.1.length]⟩, ⟨r.2.1, Layout.fromShape [t.layout.size]⟩,
      ⟨r.2.2, Layout.fromShape [r.1.length]⟩)

/-- The sort key of the integer kernels, ops_indexing.c:1187: `(size_t)input[flat_idx]`. -/
def uniqueIntKey (v : Int) : Nat := castUsize v

/-! ## compress -/

/-- `compress_metadata`, op_metadatas.rs:1005-1033. -/
def compressMetadata (l : Layout) (condSize : Nat) (axis : Option Nat) : List Nat :=
  [l.size, l.ndim] ++ l.dims ++ l.strides ++ [l.offset, condSize] ++
    match axis with
    | some a => [1, a]
    | none => [0, 0]

/-- Fields the compress kernel decodes. -/
structure CompressMeta where
  numEls : Nat
  shape : List Nat
  strides : List Nat
  offset : Nat
  condSize : Nat
  axisFlag : Nat
  axis : Nat
  deriving Repr, DecidableEq

/-- Decoding prologue of `COMPRESS_OP`, ops_indexing.c:1348-1355. -/
def decodeCompress (md : List Nat) : Res CompressMeta :=
  (readC md 0).bind fun n => (readC md 1).bind fun nd => (sliceC md 2 nd).bind fun shape =>
  (sliceC md (2 + nd) nd).bind fun strides => (readC md (2 + 2 * nd)).bind fun off =>
  (readC md (2 + 2 * nd + 1)).bind fun k => (readC md (2 + 2 * nd + 2)).bind fun flag =>
  (readC md (2 + 2 * nd + 3)).bind fun axis =>
  .ok ⟨n, shape, strides, off, k, flag, axis⟩

/-- `output[out_idx++] = v`, ops_indexing.c:1371, 1422, on the values written so far. -/
def pushOut (size : Nat) (out : List α) (v : α) : Res (List α) :=
  if out.length < size then .ok (out ++ [v]) else .ub

/-- One condition entry of the flatten mode, ops_indexing.c:1361-1372. -/
def compressFlatStep (inp : List α) (cond : List Bool) (m : CompressMeta) (size : Nat) (out : List α)
    (i : Nat) : Res (List α) :=
  (readC cond i).bind fun c =>
    if c then (readC inp (cFlat m.offset (cUnravel m.shape i).1 m.strides)).bind fun v => pushOut size out v
    else .ok out

/-- One element of the axis mode, ops_indexing.c:1394-1423. -/
def compressCell (inp : List α) (m : CompressMeta) (size outer c : Nat) (out : List α) (inner : Nat) :
    Res (List α) :=
  if 32 < m.shape.length then .ub
  else
    let idx := (cUnravel (m.shape.take m.axis) outer).1 ++
      c :: (cUnravel (m.shape.drop (m.axis + 1)) inner).1
    (readC inp (cFlat m.offset idx m.strides)).bind fun v => pushOut size out v

/-- One condition entry of the axis mode, ops_indexing.c:1389-1424. -/
def compressSlice (inp : List α) (cond : List Bool) (m : CompressMeta) (size outer : Nat) (out : List α)
    (c : Nat) : Res (List α) :=
  (readC cond c).bind fun b =>
    if b then Res.foldL (compressCell inp m size outer c) out
      (List.range (shapeSize (m.shape.drop (m.axis + 1))))
    else .ok out

/-- `hodu_cpu_compress_<type>`, ops_indexing.c:1342-1427: the values written to the front of an output
buffer of `size` elements. -/
def compressKernel (inp : List α) (cond : List Bool) (md : List Nat) (size : Nat) : Res (List α) :=
  (decodeCompress md).bind fun m =>
    if m.axisFlag = 0 then
      Res.foldL (compressFlatStep inp cond m size) [] (List.range (min m.condSize m.numEls))
    else
      Res.foldL (fun out outer =>
        Res.foldL (compressSlice inp cond m size outer) out (List.range m.condSize)) []
        (List.range (shapeSize (m.shape.take m.axis)))

/-- `call_compress`, be_cpu/storage/ops_indexing.rs:797-925: the condition buffer is used whole, without its
layout; all its `true`s are counted.  `buf n` is the freshly allocated, uninitialised buffer of `n`
elements (be_cpu/device.rs:19-). -/
def callCompress (buf : Nat → List α) (t : Tensor α) (cond : Tensor Bool) (axis : Option Nat) :
    Res (List α × Nat) :=
  let count := cond.storage.count true
  if count = 0 then .ok ([], 0)
  else
    let size := match axis with
      | some a => shapeSize (t.dims.set a count)
      | none => count
    (compressKernel t.storage cond.storage (compressMetadata t.layout cond.layout.size axis) size).bind
      fun out => .ok (out ++ (buf size).drop out.length, count)

/-- Axis check of `compress`, tensor/ops/indexing.rs:878-912 (repeated in `call_compress`). -/
def compressAxis (t : Tensor α) (k : Nat) (axis : Option Int) : Res (Option Nat) :=
  match axis with
  | some ax =>
    let n := if ax < 0 then (t.dims.length : Int) + ax else ax
    if n < 0 ∨ (t.dims.length : Int) ≤ n then .err
    else if t.dims.getD n.toNat 0 ≠ k then .err
    else .ok (some n.toNat)
  | none => if k ≠ t.layout.size then .err else .ok none

/-- `Tensor::compress`, tensor/ops/indexing.rs:848-997 (eager branch). -/
def Tensor.compress (buf : Nat → List α) (t : Tensor α) (cond : Tensor Bool) (axis : Option Int) :
    Res (Tensor α) :=
  if cond.dims.length ≠ 1 then .err
  else (compressAxis t cond.layout.size axis).bind fun a =>
    (callCompress buf t cond a).bind fun r =>
      .ok { storage := r.1, layout := Layout.fromShape (match a with
        | some a => t.dims.set a r.2
        | none => [r.2]) }

end Hodu
