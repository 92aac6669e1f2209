import Verif.Model.Cuda

/-!
# Model of the element-wise Metal kernels

Device side: crates/hodu_metal_kernels/kernels/{headers/utils.metal,ops_binary.metal,ops_unary.metal,
ops_cast.metal,ops_memory.metal,storage.metal}.  Launches: crates/hodu_metal_kernels/src/utils.rs and
src/kernels/{ops_unary,ops_binary,ops_cast,ops_memory,storage}.rs.

Threads, interleavings and loops are those of the CUDA model (`Loop`, `Computes`): any order, one
element read or written at a time.  `uint` is 32 bits wide; `size_t` is `Nat`.  The test `input ? ...`
of the unary kernels is always true (the launch binds a buffer).
-/

namespace Hodu.Metal
open Hodu.Cuda

/-- `linear_split`, src/utils.rs:8-24: groups of `min(max threads of the pipeline, length)` threads, as
many as cover the length; `div_ceil` panics when the length, and with it the width, is zero.  The
result is the number of threads of the grid. -/
def linearSplit (maxThreads n : Nat) : Res Nat :=
  let width := min maxThreads n
  if width = 0 then .panic else .ok ((n + width - 1) / width * width)

/-- A kernel that handles one element per thread: `uint id [[thread_position_in_grid]]` and
`if (id >= num_els) return;`, ops_binary.metal:46-49, ops_cast.metal:29-31, ops_memory.metal:16-19. -/
def onceGrid (threads n : Nat) (val : Nat → Res β) (dst : Nat → Nat) : Loop β :=
  { threads := threads, start := u32, next := fun _ => n, bound := n, val := val, dst := dst }

/-- A kernel with the loop `for (uint id = thread_index; id < num_els; id += threads_per_grid)`,
ops_unary.metal:129, 150 and storage.metal:24. -/
def strideGrid (threads n : Nat) (val : Nat → Res β) (dst : Nat → Nat) : Loop β :=
  { threads := threads, start := u32, next := fun i => u32 (i + u32 threads), bound := n, val := val
    dst := dst }

/-- `get_strided_index`, headers/utils.metal:23-33, and the loops of ops_binary.metal:72-76, 84-88: the
sum is accumulated in `unsigned int`. -/
def strided32 (idx : Nat) (dims strides : List Nat) : Nat :=
  ((dims.zip strides).foldr
    (fun p (s : Nat × Nat) => (u32 (s.1 + s.2 % p.1 * p.2), s.2 / p.1)) (0, idx)).1

/-- Position read for index `i`, ops_unary.metal:134-140 (the same in ops_cast.metal:38-42,
ops_memory.metal:26-30, storage.metal:25-29): `offset + id`, or
`unsigned strided_i = offset + get_strided_index(...)`. -/
def viewPos (m : UnaryMeta) (i : Nat) : Nat :=
  if cIsContiguous m.dims m.strides then m.offset + i
  else u32 (m.offset + strided32 i m.dims m.strides)

/-- `hodu_metal_<unary op>`, ops_unary.metal:122-144, and with a scalar 148-178, launched by
src/kernels/ops_unary.rs:178-179, 287-288. -/
def unaryLoop (maxThreads : Nat) (f : α → β) (inp : List α) (md : List Nat) : Res (Loop β) :=
  (Cuda.decodeUnary md).bind fun m => (linearSplit maxThreads m.numEls).bind fun threads =>
    .ok (strideGrid threads m.numEls (fun i => (readC inp (viewPos m i)).map f) fun i => i)

/-- `hodu_metal_cast_*`, ops_cast.metal:25-44, and `hodu_metal_contiguous_*`, ops_memory.metal:13-32,
with `f` the conversion or the identity; launched by src/kernels/ops_cast.rs:71-72 and
ops_memory.rs:79-80. -/
def copyLoop (maxThreads : Nat) (f : α → β) (inp : List α) (md : List Nat) : Res (Loop β) :=
  (Cuda.decodeUnary md).bind fun m => (linearSplit maxThreads m.numEls).bind fun threads =>
    .ok (onceGrid threads m.numEls (fun i => (readC inp (viewPos m i)).map f) fun i => i)

/-- `hodu_metal_<binary op>`, ops_binary.metal:43-103: four paths; in the last one the coordinates of
both operands come from the shape of the left one (90-102).  Launched by src/kernels/ops_binary.rs:104. -/
def binaryLoop (maxThreads : Nat) (f : α → α → β) (l r : List α) (md : List Nat) : Res (Loop β) :=
  (decodeBinary md).bind fun m => (linearSplit maxThreads m.numEls).bind fun threads =>
    let lhsCont := cIsContiguous m.lhsDims m.lhsStrides
    let rhsCont := cIsContiguous m.rhsDims m.rhsStrides
    let both := readBoth f l r
    .ok (onceGrid threads m.numEls (fun i =>
      if lhsCont && rhsCont then both (m.lhsOffset + i) (m.rhsOffset + i)
      else if lhsCont then
        both (m.lhsOffset + i) (m.rhsOffset + strided32 i m.rhsDims m.rhsStrides)
      else if rhsCont then
        both (m.lhsOffset + strided32 i m.lhsDims m.lhsStrides) (m.rhsOffset + i)
      else both (m.lhsOffset + strided32 i m.lhsDims m.lhsStrides)
        (m.rhsOffset + strided32 i m.lhsDims m.rhsStrides)) fun i => i)

/-- `hodu_metal_const_set_*`, storage.metal:13-32, launched by src/kernels/storage.rs:94-95. -/
def constSetLoop (maxThreads : Nat) (v : α) (md : List Nat) : Res (Loop α) :=
  (Cuda.decodeUnary md).bind fun m => (linearSplit maxThreads m.numEls).bind fun threads =>
    .ok (strideGrid threads m.numEls (fun _ => .ok v) (viewPos m))

end Hodu.Metal
