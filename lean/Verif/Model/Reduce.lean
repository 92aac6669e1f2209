import Verif.Model.Move
import Verif.Model.DType

/-!
# Model of the reductions

Host side: crates/hodu_core/src/tensor/ops/reduce.rs, be_cpu/storage/ops_reduce.rs,
op_metadatas.rs:525-586.  Kernels: crates/hodu_cpu_kernels/kernels/ops_reduce.c.

All reduction kernels walk the input in the same way and differ only in how they combine the visited
values; the walk is modelled once and the combination is a parameter.
-/

namespace Hodu

/-- Axis list of `reduce_operation`, tensor/ops/reduce.rs:151-160. -/
def reduceAxes (ndim : Nat) (dims : List Int) : List Nat :=
  if dims.isEmpty then List.range ndim else dims.map (axisUsize ndim)

/-- `output_dims[dim] = v` for every reduced dimension, tensor/ops/reduce.rs:163-169; panics out of
range. -/
def setAll (v : Nat) : List Nat → List Nat → Res (List Nat)
  | [], out => .ok out
  | k :: ks, out => if k < out.length then setAll v ks (out.set k v) else .panic

/-- Result shape of `reduce_operation`, tensor/ops/reduce.rs:162-173: without `keep_dim` reduced
sizes are set to 0 and all zero sizes are removed. -/
def reduceHostDims (dims axes : List Nat) (keep : Bool) : Res (List Nat) :=
  (setAll (if keep then 1 else 0) axes dims).bind fun out =>
    .ok (if keep then out else out.filter (· != 0))

/-- Output shape of the backend, be_cpu/storage/ops_reduce.rs:51-67 and op_metadatas.rs:529-545. -/
def reduceBackendDims (dims axes : List Nat) (keep : Bool) : List Nat :=
  let out := (List.range dims.length).flatMap fun i =>
    if axes.contains i then (if keep then [1] else []) else [dims.getD i 0]
  if out.isEmpty then [1] else out

/-- `reduce_size *= dims[dim]`, op_metadatas.rs:547-551 (the axes were validated before). -/
def reduceSize (dims axes : List Nat) : Nat := axes.foldl (fun acc k => acc * dims.getD k 0) 1

/-- `reduce_metadata`, op_metadatas.rs:525-586. -/
def reduceMetadata (l : Layout) (axes : List Nat) (keep : Bool) : List Nat :=
  let out := reduceBackendDims l.dims axes keep
  [l.ndim] ++ l.dims ++ l.strides ++ [l.offset] ++ [out.length] ++ out ++ [axes.length] ++ axes ++
    [if keep then 1 else 0, reduceSize l.dims axes]

/-- Fields a reduction kernel decodes. -/
structure ReduceMeta where
  nd : Nat
  dims : List Nat
  strides : List Nat
  offset : Nat
  outShape : List Nat
  axes : List Nat
  keep : Bool
  reduceSize : Nat
  deriving Repr, DecidableEq

/-- Decoding prologue of `REDUCE_OP`, ops_reduce.c:53-66. -/
def decodeReduce (md : List Nat) : Res ReduceMeta :=
  (readC md 0).bind fun nd =>
  (sliceC md 1 nd).bind fun dims =>
  (sliceC md (1 + nd) nd).bind fun strides =>
  (readC md (1 + 2 * nd)).bind fun off =>
  (readC md (2 + 2 * nd)).bind fun olen =>
  (sliceC md (3 + 2 * nd) olen).bind fun out =>
  (readC md (3 + 2 * nd + olen)).bind fun nr =>
  (sliceC md (4 + 2 * nd + olen) nr).bind fun axes =>
  (readC md (4 + 2 * nd + olen + nr)).bind fun keep =>
  (readC md (5 + 2 * nd + olen + nr)).bind fun size =>
  .ok { nd := nd, dims := dims, strides := strides, offset := off, outShape := out, axes := axes,
        keep := keep != 0, reduceSize := size }

/-- `input_indices` without `keep_dim`, ops_reduce.c:87-105, for the dimensions from `i` on; `oi` is
the rest of `output_indices`. -/
def spreadIdx (axes : List Nat) (i : Nat) : Nat → List Nat → List Nat
  | 0, _ => []
  | n + 1, oi =>
    if axes.contains i then 0 :: spreadIdx axes (i + 1) n oi
    else oi.headD 0 :: spreadIdx axes (i + 1) n oi.tail

/-- The loop setting the reduced coordinates, ops_reduce.c:108-113, from the last axis to the
first. -/
def setReduced (dims : List Nat) : List Nat → List Nat × Nat → Res (List Nat × Nat)
  | [], s => .ok s
  | k :: ks, s =>
    (setReduced dims ks s).bind fun (idx, temp) =>
      (readC dims k).bind fun d => .ok (idx.set k (temp % d), temp / d)

/-- The input indices of an output position before the reduction loop, ops_reduce.c:74-105. -/
def reduceBase (m : ReduceMeta) (o : Nat) : List Nat :=
  let oi := (cUnravel m.outShape o).1
  if m.keep then oi.take m.nd else spreadIdx m.axes 0 m.nd oi

/-- The visited `(index, value)` pairs of one output position, ops_reduce.c:107-121. -/
def reduceVisits (m : ReduceMeta) (inp : List α) (o : Nat) : Res (List (List Nat × α)) :=
  Res.mapL (fun r =>
    (setReduced m.dims m.axes (reduceBase m o, r)).bind fun (idx, _) =>
      (readC inp (cFlat m.offset idx m.strides)).bind fun v => .ok (idx, v)) (List.range m.reduceSize)

/-- Rank limit of the kernels (`size_t output_indices[16]`, `input_indices[16]`). -/
def guardReduce (m : ReduceMeta) (k : Res β) : Res β :=
  guard16 m.nd (guard16 m.outShape.length k)

/-- `hodu_cpu_<reduction>`, ops_reduce.c:48-125 with the accumulation as `comb` over the visited
pairs (sum, prod, max, min: a left fold; mean: fold and divide, 1452-1470; var/std, norm, logsumexp:
folds with a final step; any/all: simplified to read all values although the loop stops early,
2620-2700). -/
def reduceKernel (comb : List (List Nat × α) → β) (inp : List α) (md : List Nat) : Res (List β) :=
  (decodeReduce md).bind fun m =>
    guardReduce m <|
      runLoop (shapeSize m.outShape) fun o => (reduceVisits m inp o).map comb

/-- SIMD path of the f32/f64 kernels, ops_reduce.c:175-197: lane `j` of `W` accumulates the values
`j, j + W, ...`, then the lanes are combined, then the remainder. -/
def simdFold (W : Nat) (op : β → β → β) (init : β) (vals : List β) : β :=
  let n := vals.length / W * W
  let lanes := (List.range W).map fun j =>
    ((List.range (vals.length / W)).filterMap fun b => vals[b * W + j]?).foldl op init
  (vals.drop n).foldl op (lanes.foldl op init)

/-- Condition of the SIMD path, ops_reduce.c:177-178. -/
def useSimd (W : Nat) (m : ReduceMeta) : Bool :=
  m.axes.length == 1 && m.axes[0]? == some (m.nd - 1) && m.strides[m.nd - 1]? == some 1 &&
    decide (W ≤ m.reduceSize)

/-- `hodu_cpu_sum_f32` and its siblings, ops_reduce.c:133-237: per output position the SIMD path if
its condition holds, else the plain loop. -/
def reduceKernelSimd (W : Nat) (op : α → α → α) (init : α) (inp : List α) (md : List Nat) :
    Res (List α) :=
  (decodeReduce md).bind fun m =>
    guardReduce m <|
      runLoop (shapeSize m.outShape) fun o =>
        if useSimd W m then
          let base := cFlat m.offset ((reduceBase m o).take (m.nd - 1)) m.strides
          (Res.mapL (fun i => readC inp (base + i)) (List.range m.reduceSize)).map (simdFold W op init)
        else (reduceVisits m inp o).map fun vs => (vs.map Prod.snd).foldl op init

/-- `call_ops_reduce`, be_cpu/storage/ops_reduce.rs:23-125, with the kernel as a parameter. -/
def callOpsReduce (kernel : List α → List Nat → Res (List β)) (s : List α) (l : Layout)
    (axes : List Nat) (keep : Bool) : Res (List β) :=
  if axes.any fun k => l.dims.length ≤ k then .err else kernel s (reduceMetadata l axes keep)

/-- `Tensor::reduce_operation`, tensor/ops/reduce.rs:135-231 (eager branch). -/
def Tensor.reduceWith (kernel : List α → List Nat → Res (List β)) (t : Tensor α) (dims : List Int)
    (keep : Bool) : Res (Tensor β) :=
  let axes := reduceAxes t.dims.length dims
  (reduceHostDims t.dims axes keep).bind fun out =>
    (callOpsReduce kernel t.storage t.layout axes keep).bind fun s =>
      .ok { storage := s, layout := Layout.fromShape out }

/-- A reduction whose kernel is the plain loop. -/
def Tensor.reduce (comb : List α → β) (t : Tensor α) (dims : List Int) (keep : Bool) : Res (Tensor β) :=
  t.reduceWith (reduceKernel fun vs => comb (vs.map Prod.snd)) dims keep

/-- `Tensor::sum` with the type's addition and zero (`REDUCE_OP(.., acc += val)`,
ops_reduce.c:345-352). -/
def Tensor.sum (add : α → α → α) (zero : α) (t : Tensor α) (dims : List Int) (keep : Bool) :
    Res (Tensor α) := t.reduce (fun vs => vs.foldl add zero) dims keep

/-- The loop of `sum_to_shape` over leading dimensions, tensor/ops/reduce.rs:34-38:
`dims_to_sum.iter().rev()`, i.e. dimension `n-1` down to 0. -/
def sumLeading (add : α → α → α) (zero : α) : Nat → Tensor α → Res (Tensor α)
  | 0, t => .ok t
  | n + 1, t => (t.sum add zero [(n : Int)] false).bind (sumLeading add zero n)

/-- The second loop of `sum_to_shape`, tensor/ops/reduce.rs:45-49, from position `i` on. -/
def sumUnit (add : α → α → α) (zero : α) : Nat → List (Nat × Nat) → Tensor α → Res (Tensor α)
  | _, [], t => .ok t
  | i, (target, cur) :: rest, t =>
    if target = 1 ∧ 1 < cur then
      (t.sum add zero [(i : Int)] true).bind (sumUnit add zero (i + 1) rest)
    else sumUnit add zero (i + 1) rest t

/-- `Tensor::sum_to_shape`, tensor/ops/reduce.rs:19-51. -/
def Tensor.sumToShape (add : α → α → α) (zero : α) (t : Tensor α) (target : List Nat) :
    Res (Tensor α) :=
  if t.dims = target then .ok t
  else
    (sumLeading add zero (t.dims.length - target.length) t).bind fun r =>
      sumUnit add zero 0 (target.zip r.dims) r

/-! ## argmax, argmin -/

/-- Accumulation of `REDUCE_ARGMAX_OP`, ops_reduce.c:2223-2225, 2272-2276 (`better` is `>`; argmin,
2392-2480: `<`), over `(coordinate along the first reduced axis, value)`. -/
def argFold (better : α → α → Bool) : List (Nat × α) → Option (Nat × α) → Option (Nat × α)
  | [], s => s
  | (i, v) :: rest, none => argFold better rest (some (i, v))
  | (i, v) :: rest, some (j, w) =>
    argFold better rest (if better v w then some (i, v) else some (j, w))

/-- The index the kernel computes: `max_idx` starts at 0. -/
def argComb (better : α → α → Bool) (axis : Nat) (vs : List (List Nat × α)) : Nat :=
  match argFold better (vs.map fun p => (p.1.getD axis 0, p.2)) none with
  | some (i, _) => i
  | none => 0

/-- Byte `k` of a little-endian number. -/
def leByte (x k : Nat) : Nat := x / 256 ^ k % 256

/-- What a buffer with one element of `sz` bytes per value holds after a kernel stored the values as numbers
of `w` bytes each, one after the other: elements as bit patterns.  The kernels of argmax and argmin store
`int32_t` (ops_reduce.c:2202, 2280), those of any and all `bool` (2624, 2698), but the buffer is allocated
with the input's dtype (be_cpu/storage/ops_reduce.rs:78-79) and not initialised (`set_len`,
be_cpu/device.rs:19-): `junk i` is the old pattern of element `i`.  If the elements are smaller than the
values, the writes leave the buffer; if they are larger, several values share one element. -/
def storeAs (w sz : Nat) (junk : Nat → Nat) (xs : List Nat) : Res (List Nat) :=
  if xs = [] then .ok []
  else if sz < w then .ub
  else .ok ((List.range xs.length).map fun i =>
    ((List.range sz).map fun k =>
      (xs[(i * sz + k) / w]?.elim (leByte (junk i) k) fun x => leByte x ((i * sz + k) % w)) * 256 ^ k).sum)

/-- `Tensor::argmax` / `argmin`, tensor/ops/reduce.rs:118-124, as bit patterns of the result's
element type, which is the input's.  `(int32_t)actual_dim_idx` keeps the low 32 bits. -/
def Tensor.argReduce (dt : DType) (junk : Nat → Nat) (better : Nat → Nat → Bool) (t : Tensor Nat) (dims : List Int)
    (keep : Bool) : Res (Tensor Nat) :=
  t.reduceWith (fun s md =>
    (reduceKernel (argComb better ((reduceAxes t.dims.length dims).headD 0)) s md).bind
      (storeAs 4 dt.sizeInBytes junk)) dims keep

/-! ## any, all -/

/-- `result` of `REDUCE_ANY_OP`, ops_reduce.c:2645, 2692-2698: true at the first value that is not zero. -/
def anyComb (nz : α → Bool) (vs : List (List Nat × α)) : Nat := if vs.any fun p => nz p.2 then 1 else 0

/-- `result` of `REDUCE_ALL_OP`, ops_reduce.c:2740, 2787-2793: false at the first value that is zero. -/
def allComb (nz : α → Bool) (vs : List (List Nat × α)) : Nat := if vs.all fun p => nz p.2 then 1 else 0

/-- `Tensor::any` / `Tensor::all`, tensor/ops/reduce.rs:126-132 (`comb` is `anyComb nz` or `allComb nz`), as bit
patterns of the result's element type, which is the input's. -/
def Tensor.boolReduce (dt : DType) (junk : Nat → Nat) (comb : List (List Nat × α) → Nat) (t : Tensor α) (dims : List Int)
    (keep : Bool) : Res (Tensor Nat) :=
  t.reduceWith (fun s md => (reduceKernel comb s md).bind (storeAs 1 dt.sizeInBytes junk)) dims keep

end Hodu
