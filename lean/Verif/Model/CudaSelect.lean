import Verif.Model.CudaUnique

/-!
# Model of nonzero and compress on CUDA

Device side: crates/hodu_cuda_kernels/kernels/ops_indexing.cu:553-616 and 904-1000.  Launches:
crates/hodu_cuda_kernels/src/kernels/ops_indexing.rs:330-419 and 666-713.  Host:
crates/hodu_core/src/be_cuda/storage/ops_indexing.rs:538-692 and 964-1100.

The input, the condition and the metadata are `const`; they are not part of the memory the threads share.
Simplified: dtype dispatch and errors of the driver are left out.  `CudaStorageData::from_slice_u8`
(ops_indexing.rs:1013) does not exist in the repository; the branch is modelled as what it is named after.
-/

namespace Hodu.Cuda

/-- `count` and `counter` of ops_indexing.cu:556, 587. -/
abbrev bCounter : Nat := 0
/-- `output` of ops_indexing.cu:587, 907. -/
abbrev bOut : Nat := 1

/-- No buffers: those of a call of be_cuda/storage/ops_indexing.rs:538-692 are allocated one by one. -/
def Mem.empty : Mem V := fun _ => none

/-- `atomicAdd(count, 1)` on an `unsigned int`, ops_indexing.cu:578, 609. -/
def incU32 (c : Int) : Int := (c + 1) % 2 ^ 32

/-- The body of `NONZERO_COUNT_OP`, ops_indexing.cu:567-579. -/
def nonzeroCountProg (nz : α → Bool) (inp : List α) (m : StridedMeta) (id : Nat) : Prog Int :=
  match stridedRead inp m id with
  | .ok v => if nz v then .atomic (bCounter, 0) incU32 .done else .done
  | _ => .ub

/-- The loop over `d`, ops_indexing.cu:610-612, from the cell `a` on. -/
def writeRow (a : Nat) : List Nat → Prog Int
  | [] => .done
  | x :: xs => .store (bOut, a) (castI32 x) (writeRow (a + 1) xs)

/-- The body of `NONZERO_FILL_OP`, ops_indexing.cu:598-614; `multi_idx` has 16 entries (601). -/
def nonzeroFillProg (nz : α → Bool) (inp : List α) (m : StridedMeta) (id : Nat) : Prog Int :=
  if 16 < m.shape.length then .ub
  else
    match stridedRead inp m id with
    | .ok v =>
      if nz v then .fetch (bCounter, 0) incU32 fun o => writeRow (o.toNat * m.shape.length) (cUnravel m.shape id).1
      else .done
    | _ => .ub

/-- A buffer copied to the host: `size` cells of buffer `b` (be_cuda/storage/ops_indexing.rs:614-619). -/
def Mem.read (m : Mem V) (b size : Nat) : List V := (List.range size).filterMap fun x => m (b, x)

/-- `Tensor::nonzero`, tensor/ops/indexing.rs:680-733 (eager branch), with `call_nonzero`,
be_cuda/storage/ops_indexing.rs:538-692.  `junk` is what the allocator leaves in the output; `none` if the
interleavings `s1`, `s2` leave a kernel unfinished. -/
def nonzeroCuda (nz : α → Bool) (junk : Int) (t : Tensor α) (s1 s2 : List Nat) : Res (Option (Tensor Int)) :=
  (decodeStrided (stridedMetadata t.layout)).bind fun m =>
  ((progGrid64 m.numEls (nonzeroCountProg nz t.storage m)).launch
    ((Mem.empty (V := Int)).alloc bCounter 1 0) s1).bind fun
  | none => .ok none
  | some m1 =>
    match m1 (bCounter, 0) with
    | some c =>
      let count := c.toNat
      if count = 0 then .ok (some ⟨[], Layout.fromShape [0, t.layout.ndim]⟩)
      else
        ((progGrid64 m.numEls (nonzeroFillProg nz t.storage m)).launch
          (((Mem.empty (V := Int)).alloc bOut (count * t.layout.ndim) junk).alloc bCounter 1 0) s2).bind fun
        | none => .ok none
        | some m2 =>
          .ok (some ⟨m2.read bOut (count * t.layout.ndim), Layout.fromShape [count, t.layout.ndim]⟩)
    | none => .ub

/-! ## compress -/

/-- `if (condition[i]) out_idx++` for `i < n`, ops_indexing.cu:923-928, 949-954, 966-970. -/
def countTrue (cond : List Bool) (n : Nat) : Res Nat :=
  Res.foldL (fun c i => (readC cond i).bind fun b => .ok (if b then c + 1 else c)) 0 (List.range n)

/-- Stores one after the other, each of a value read from the `const` input: `output[out_flat] =
input[input_flat]`, ops_indexing.cu:996. -/
def writeCells : List (Nat × Res α) → Prog α
  | [] => .done
  | (a, .ok v) :: cs => .store (bOut, a) v (writeCells cs)
  | _ :: _ => .ub

/-- The flatten mode for one condition index, ops_indexing.cu:919-939. -/
def compressFlatProg (inp : List α) (cond : List Bool) (m : CompressMeta) (id : Nat) : Prog α :=
  match readC cond id with
  | .ok true =>
    match countTrue cond id with
    | .ok o => writeCells [(o, readC inp (cFlat m.offset (cUnravel m.shape id).1 m.strides))]
    | _ => .ub
  | .ok false => .done
  | _ => .ub

/-- The cells of one slice, ops_indexing.cu:972-998, in the order of the two loops.  The flat input index is
the sum of the products for the axes before, at and after `axis_value`. -/
def compressCells (inp : List α) (m : CompressMeta) (o k id : Nat) : List (Nat × Res α) :=
  let slice := shapeSize (m.shape.drop (m.axis + 1))
  (List.range (shapeSize (m.shape.take m.axis))).flatMap fun outer =>
    (List.range slice).map fun inner =>
      (outer * k * slice + o * slice + inner,
        readC inp (cFlat m.offset ((cUnravel (m.shape.take m.axis) outer).1 ++
          id :: (cUnravel (m.shape.drop (m.axis + 1)) inner).1) m.strides))

/-- The axis mode for one condition index, ops_indexing.cu:943-999. -/
def compressAxisProg (inp : List α) (cond : List Bool) (m : CompressMeta) (id : Nat) : Prog α :=
  match readC cond id with
  | .ok true =>
    match countTrue cond id, countTrue cond m.condSize with
    | .ok o, .ok k => writeCells (compressCells inp m o k id)
    | _, _ => .ub
  | .ok false => .done
  | _ => .ub

/-- The body of `COMPRESS_OP`, ops_indexing.cu:918-999. -/
def compressProg (inp : List α) (cond : List Bool) (m : CompressMeta) : Nat → Prog α :=
  if m.axisFlag = 0 then compressFlatProg inp cond m else compressAxisProg inp cond m

/-- `COMPRESS_OP`, ops_indexing.cu:903-1001, as launched by src/kernels/ops_indexing.rs:686-703. -/
def compressCudaKernel (inp : List α) (cond : List Bool) (m : CompressMeta) : PKernel α :=
  progGrid32 m.condSize (compressProg inp cond m)

/-- `Tensor::compress`, tensor/ops/indexing.rs:848-997 (eager branch), with `call_compress`,
be_cuda/storage/ops_indexing.rs:964-1100.  The whole condition buffer is copied to a host vector of
`condition_size` entries (`memcpy_dtoh` of cudarc asserts that it is long enough, 1000-1005); the entries it
does not reach stay `false`. -/
def compressCuda (junk : α) (t : Tensor α) (cond : Tensor Bool) (axis : Option Int) (sched : List Nat) :
    Res (Option (Tensor α)) :=
  if cond.dims.length ≠ 1 then .err
  else (compressAxis t cond.layout.size axis).bind fun a =>
    if cond.layout.size < cond.storage.length then .panic
    else
      let count := cond.storage.count true
      let dims := a.elim [count] fun a => t.dims.set a count
      if count = 0 then .ok (some ⟨[], Layout.fromShape dims⟩)
      else
        (decodeCompress (compressMetadata t.layout cond.layout.size a)).bind fun m =>
        ((compressCudaKernel t.storage cond.storage m).launch
          ((Mem.empty (V := α)).alloc bOut (shapeSize dims) junk) sched).bind fun
        | none => .ok none
        | some m' => .ok (some ⟨m'.read bOut (shapeSize dims), Layout.fromShape dims⟩)

end Hodu.Cuda
