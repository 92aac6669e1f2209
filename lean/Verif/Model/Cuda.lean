import Mathlib.Logic.Function.Basic
import Verif.Model.Matmul
import Verif.Model.Elementwise

/-!
# Model of the CUDA kernels that loop over a grid

Device side: crates/hodu_cuda_kernels/kernels/{utils.cuh,ops_binary.cu,ops_unary.cu,ops_cast.cu,
ops_memory.cu,storage.cu}.  Launches: crates/hodu_cuda_kernels/src/kernels/{ops_unary,ops_binary,
ops_cast,ops_memory,storage}.rs.  Host: crates/hodu_core/src/be_cuda/storage*.

The threads of a grid run in any order and any interleaving: an execution is a list of thread
numbers, each entry one step of that thread.  A step reads its operands and computes, or stores a
value; loads and stores of one element are taken to be indivisible, and device memory to be sequentially
consistent.  `uint32_t` arithmetic is reduced modulo `2 ^ 32`; `size_t` is `Nat`, as elsewhere.  The
copy of the metadata to the device and the launch itself are taken to succeed.
-/

namespace Hodu.Cuda

/-- Conversion to `uint32_t` / `unsigned int`, e.g. the result of `get_strided_index`, utils.cuh:21. -/
def u32 (n : Nat) : Nat := n % 2 ^ 32

/-- `get_strided_index`, utils.cuh:21-30: computed in `size_t`, returned as `unsigned int`.  (The test
for a zero stride does not change the sum.) -/
def stridedIndex (idx : Nat) (dims strides : List Nat) : Nat := u32 (getStridedIndex idx dims strides)

/-! ## Threads -/

/-- A kernel whose thread `t` runs `for (i = start(t); i < bound; i = next(i)) out[dst(i)] = val(i);`,
e.g. ops_unary.cu:18-22. -/
structure Loop (β : Type) where
  /-- number of threads launched -/
  threads : Nat
  /-- first index of a thread -/
  start : Nat → Nat
  /-- `i += blockDim.x * gridDim.x` -/
  next : Nat → Nat
  /-- `num_els` -/
  bound : Nat
  /-- value computed for an index -/
  val : Nat → Res β
  /-- cell written for an index -/
  dst : Nat → Nat

/-- Where a thread is in the loop of ops_unary.cu:18-22: at the test, about to store, or past the loop. -/
inductive Pc (β : Type) where
  | head (i : Nat)
  | store (i : Nat) (v : β)
  | done
  deriving DecidableEq

/-- Output buffer and position of every thread (ops_unary.cu:8-32). -/
structure St (β : Type) where
  out : List β
  pc : Nat → Pc β

/-- One step of thread `t`, ops_unary.cu:18-22: test and compute, or store and advance. -/
def Loop.step (k : Loop β) (s : St β) (t : Nat) : Res (St β) :=
  match s.pc t with
  | .head i =>
    if i < k.bound then
      (k.val i).bind fun v => .ok { s with pc := Function.update s.pc t (.store i v) }
    else .ok { s with pc := Function.update s.pc t .done }
  | .store i v =>
    if k.dst i < s.out.length then
      .ok { out := s.out.set (k.dst i) v, pc := Function.update s.pc t (.head (k.next i)) }
    else .ub
  | .done => .ok s

/-- Launch: every thread of the grid is at its first test (ops_unary.cu:18). -/
def Loop.init (k : Loop β) (buf : List β) : St β :=
  { out := buf, pc := fun t => if t < k.threads then .head (k.start t) else .done }

/-- An execution: the threads of `sched` take one step each, in that order. -/
def Loop.exec (k : Loop β) (buf : List β) (sched : List Nat) : Res (St β) :=
  Res.foldL k.step (k.init buf) sched

/-- The kernel has finished: no thread is left in the loop. -/
def St.finished (s : St β) : Prop := ∀ t, s.pc t = .done

/-! ## Launch -/

/-- `grid_size`, e.g. src/kernels/ops_binary.rs:71-72: `(num_els as u32).div_ceil(256).max(1)`. -/
def gridSize (numEls : Nat) : Nat := max ((u32 numEls + 255) / 256) 1

/-- `blockIdx.x * blockDim.x + threadIdx.x` of thread `t` of the grid, blocks of 256, e.g.
ops_binary.cu:21. -/
def threadStart (t : Nat) : Nat := u32 (t / 256 * 256 + t % 256)

/-- `i += blockDim.x * gridDim.x` in `uint32_t`, e.g. ops_binary.cu:22. -/
def advance (grid i : Nat) : Nat := u32 (i + u32 (256 * grid))

/-- A grid-stride loop over `numEls` elements as the element-wise kernels are launched,
src/kernels/ops_binary.rs:70-78 (and the same lines of ops_unary.rs, ops_cast.rs, ops_memory.rs,
storage.rs). -/
def gridLoop (numEls : Nat) (val : Nat → Res β) (dst : Nat → Nat) : Loop β :=
  { threads := 256 * gridSize numEls, start := threadStart, next := advance (gridSize numEls)
    bound := numEls, val := val, dst := dst }

/-! ## Element-wise kernels -/

/-- Decoding prologue of `UNARY_OP`, ops_unary.cu:11-15 (the same in `CAST_OP`, `CONTIGUOUS_OP`,
`COPY_OP`, `CONST_SET_OP`): unlike the C kernels the offset is read also without dimensions. -/
def decodeUnary (md : List Nat) : Res UnaryMeta :=
  (readC md 0).bind fun n => (readC md 1).bind fun nd =>
  (sliceC md 2 nd).bind fun dims => (sliceC md (2 + nd) nd).bind fun strides =>
  (readC md (2 + 2 * nd)).bind fun offset =>
    .ok { numEls := n, dims := dims, strides := strides, offset := offset }

/-- Position read for index `i`: `offset + i`, or `uint32_t idx = offset + get_strided_index(...)`,
ops_unary.cu:20, 26. -/
def unaryPos (m : UnaryMeta) (i : Nat) : Nat :=
  if cIsContiguous m.dims m.strides then m.offset + i
  else u32 (m.offset + stridedIndex i m.dims m.strides)

/-- `hodu_cuda_<unary op>`, ops_unary.cu:8-32; with a scalar (34-60) `f` is the operation with the
scalar filled in; `hodu_cuda_cast_*`, ops_cast.cu:7-31, `hodu_cuda_contiguous_*` and `hodu_cuda_copy_*`,
ops_memory.cu:6-50, with `f` the conversion or the identity. -/
def unaryLoop (f : α → β) (inp : List α) (md : List Nat) : Res (Loop β) :=
  (decodeUnary md).bind fun m =>
    .ok (gridLoop m.numEls (fun i => (readC inp (unaryPos m i)).map f) fun i => i)

/-- `hodu_cuda_<binary op>`, ops_binary.cu:8-57: four paths; only the strided index is 32 bits wide,
not the sum with the offset. -/
def binaryLoop (f : α → α → β) (l r : List α) (md : List Nat) : Res (Loop β) :=
  (decodeBinary md).bind fun m =>
    let lhsCont := cIsContiguous m.lhsDims m.lhsStrides
    let rhsCont := cIsContiguous m.rhsDims m.rhsStrides
    let both := readBoth f l r
    .ok (gridLoop m.numEls (fun i =>
      if lhsCont && rhsCont then both (m.lhsOffset + i) (m.rhsOffset + i)
      else if lhsCont then
        both (m.lhsOffset + i) (m.rhsOffset + stridedIndex i m.rhsDims m.rhsStrides)
      else if rhsCont then
        both (m.lhsOffset + stridedIndex i m.lhsDims m.lhsStrides) (m.rhsOffset + i)
      else both (m.lhsOffset + stridedIndex i m.lhsDims m.lhsStrides)
        (m.rhsOffset + stridedIndex i m.rhsDims m.rhsStrides)) fun i => i)

/-- `hodu_cuda_const_set_*`, storage.cu:6-27: the value goes to the cells of the layout. -/
def constSetLoop (v : α) (md : List Nat) : Res (Loop α) :=
  (decodeUnary md).bind fun m => .ok (gridLoop m.numEls (fun _ => .ok v) (unaryPos m))

end Hodu.Cuda
