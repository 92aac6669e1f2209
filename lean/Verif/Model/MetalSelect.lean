import Verif.Model.MetalQueue
import Verif.Model.MetalGrid
import Verif.Model.CudaSelect

/-!
# Model of nonzero and compress on Metal

Device side: crates/hodu_metal_kernels/kernels/ops_indexing.metal:784-846 and 1120-1218.  Launches:
crates/hodu_metal_kernels/src/kernels/ops_indexing.rs:355-413 and 632-664.  Host:
crates/hodu_core/src/be_metal/storage/ops_indexing.rs:325-400 and 616-706.

The bodies of the kernels are those of ops_indexing.cu:567-579, 598-614 and 918-999 word for word (flat indices are
`size_t`, `multi_idx` has 16 entries), so `nonzeroCountProg`, `nonzeroFillProg` and `compressProg` are used again;
different are the grid and the buffers.  Simplified: dtype dispatch and errors of the driver are left out, and the two command
buffers are taken to run when they are committed (C120 says what becomes of the device afterwards).
-/

namespace Hodu.Metal
open Hodu.Cuda

/-- A kernel with one thread per index, `if (id >= num_els) return;`, ops_indexing.metal:789-791, 821-823. -/
def progThreads (threads n : Nat) (prog : Nat → Prog V) : PKernel V :=
  { threads := threads, start := u32, next := fun _ => n, bound := n, prog := prog }

/-- A buffer of the pool: `cells` cells with what an earlier user left in them, be_metal/device.rs:167-215
(`new_buffer` never clears). -/
def pooled (m : Mem V) (b cells : Nat) (old : Nat → V) : Mem V :=
  fun a => if a.1 = b then (if a.2 < cells then some (old a.2) else none) else m a

/-- What the pool gives to a call: the contents of `count_buffer` (be_metal/storage/ops_indexing.rs:335), of
`counter_buffer` (373, "reset to 0" only in the comment) and of the output (369), and by how many cells the output
buffer is longer than `buf_size` says (be_metal/device.rs:171-186 takes the smallest free one). -/
structure NonzeroPool where
  count : Nat
  counter : Nat
  old : Nat → Int
  extra : Nat

/-- The memory of the first launch, be_metal/storage/ops_indexing.rs:335-352. -/
def countMem (p : NonzeroPool) : Mem Int := pooled Mem.empty bCounter 1 fun _ => (p.count : Int)

/-- The memory of the second launch, be_metal/storage/ops_indexing.rs:367-392, for `size` cells of output. -/
def fillMem (p : NonzeroPool) (size : Nat) : Mem Int :=
  pooled (pooled Mem.empty bOut (bufSize (4 * size) / 4 + p.extra) p.old) bCounter 1 fun _ => (p.counter : Int)

/-- What a call leaves: the tensor, and the contents of `count_buffer` and `counter_buffer`, which go back to the
pool, be_metal/storage/ops_indexing.rs:335, 373. -/
structure NonzeroOut where
  out : Tensor Int
  count : Nat
  counter : Nat

/-- `Tensor::nonzero`, tensor/ops/indexing.rs:680-733 (eager branch), with `call_nonzero`,
be_metal/storage/ops_indexing.rs:325-400; `none` if the interleavings `s1`, `s2` leave a kernel unfinished. -/
def nonzeroMetal (maxT : Nat) (nz : α → Bool) (p : NonzeroPool) (t : Tensor α) (s1 s2 : List Nat) :
    Res (Option NonzeroOut) :=
  (decodeStrided (stridedMetadata t.layout)).bind fun m =>
  (linearSplit maxT m.numEls).bind fun threads =>
  ((progThreads threads m.numEls (nonzeroCountProg nz t.storage m)).launch (countMem p) s1).bind fun
  | none => .ok none
  | some m1 =>
    match m1 (bCounter, 0) with
    | some c =>
      let count := c.toNat
      if count = 0 then .ok (some ⟨⟨[], Layout.fromShape [0, t.layout.ndim]⟩, count, p.counter⟩)
      else
        ((progThreads threads m.numEls (nonzeroFillProg nz t.storage m)).launch
          (fillMem p (count * t.layout.ndim)) s2).bind fun
        | none => .ok none
        | some m2 =>
          match m2 (bCounter, 0) with
          | some c' => .ok (some ⟨⟨m2.read bOut (count * t.layout.ndim),
              Layout.fromShape [count, t.layout.ndim]⟩, count, c'.toNat⟩)
          | none => .ub
    | none => .ub

/-- `Tensor::compress`, tensor/ops/indexing.rs:848-997 (eager branch), with `call_compress`,
be_metal/storage/ops_indexing.rs:616-706, for elements of `w` bytes.  The first `condition_size` bytes of the
condition's buffer are read, whatever its layout (640-642).  `old` is what the pool left in the output, and
`extra` by how many cells it is longer than `buf_size` says; the counter buffer (674) is never used. -/
def compressMetal (maxT w : Nat) (old : Nat → α) (extra : Nat) (t : Tensor α) (cond : Tensor Bool) (axis : Option Int)
    (sched : List Nat) : Res (Option (Tensor α)) :=
  if cond.dims.length ≠ 1 then .err
  else (compressAxis t cond.layout.size axis).bind fun a =>
    if cond.storage.length < cond.layout.size then .ub
    else
      let count := (cond.storage.take cond.layout.size).count true
      let dims := a.elim [count] fun a => t.dims.set a count
      if count = 0 then .ok (some ⟨[], Layout.fromShape dims⟩)
      else
        (decodeCompress (compressMetadata t.layout cond.layout.size a)).bind fun m =>
        (linearSplit maxT m.condSize).bind fun threads =>
        ((progThreads threads m.condSize (compressProg t.storage cond.storage m)).launch
          (pooled Mem.empty bOut (bufSize (w * shapeSize dims) / w + extra) old) sched).bind fun
        | none => .ok none
        | some m' => .ok (some ⟨m'.read bOut (shapeSize dims), Layout.fromShape dims⟩)

end Hodu.Metal
