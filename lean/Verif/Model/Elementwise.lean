import Verif.Model.Layout
import Verif.Model.KernelUtils

/-!
# Model of the element-wise and copy kernels

Host side: crates/hodu_core/src/op_metadatas.rs.
Kernel side: crates/hodu_cpu_kernels/kernels/{ops_unary,ops_binary,ops_memory}.c.

A kernel takes raw buffers and one flat metadata vector; it decodes the vector by position.  The
element type is arbitrary and the element operation is a parameter, so the arithmetic itself
(rounding, saturation) is not modelled.  For the SIMD variants (ops_binary.c:322-388) a vector
operation is taken to apply the scalar operation to each lane.
-/

namespace Hodu

/-- Taking a sub-array pointer `metadata + start` and reading `len` entries from it, as every kernel
does with its metadata (e.g. ops_unary.c:70-72).  Reading past the vector is undefined. -/
def sliceC (md : List Nat) (start len : Nat) : Res (List Nat) :=
  if start + len ≤ md.length then .ok ((md.drop start).take len) else .ub

/-- `unary_metadata`, op_metadatas.rs:118-143 (`num_els` is the size of the output layout, which the
callers set to the input layout: be_cpu/storage/ops_unary.rs:97-100).  `cast_metadata` /
`contiguous_metadata` (op_metadatas.rs:1615-1656) produce the same vector. -/
def unaryMetadata (inp out : Layout) : List Nat :=
  [out.size, inp.ndim] ++ inp.dims ++ inp.strides ++ [inp.offset]

/-- Fields a unary kernel decodes. -/
structure UnaryMeta where
  numEls : Nat
  dims : List Nat
  strides : List Nat
  offset : Nat
  deriving Repr, DecidableEq

/-- Decoding prologue of `IMPL_UNARY_OP`, ops_unary.c:66-73 (and `IMPL_CONTIGUOUS_OP`,
ops_memory.c:38-45): note `offset = num_dims > 0 ? metadata[2 + 2*num_dims] : 0`. -/
def decodeUnary (md : List Nat) : Res UnaryMeta := do
  let n ← readC md 0
  let nd ← readC md 1
  let dims ← sliceC md 2 nd
  let strides ← sliceC md (2 + nd) nd
  let offset ← if 0 < nd then readC md (2 + 2 * nd) else .ok 0
  .ok { numEls := n, dims := dims, strides := strides, offset := offset }

/-- First index handled by worker `t` of `T`, ops_unary.c:92 / ops_binary.c:101. -/
def chunkStart (n T t : Nat) : Nat :=
  let chunk := n / T
  let remaining := n % T
  t * chunk + (if t < remaining then t else remaining)

/-- One past the last index handled by worker `t` of `T`, ops_unary.c:93 / ops_binary.c:102. -/
def chunkEnd (n T t : Nat) : Nat :=
  let chunk := n / T
  let remaining := n % T
  chunkStart n T t + chunk + (if t < remaining then 1 else 0)

/-- The list of output writes `(position, value)` a worker performs, in order: worker loop of
ops_binary.c:55-64 / ops_unary.c:47-62 with the loop body as `val`. -/
def workerWrites (val : Nat → Res β) (start stop : Nat) : Res (List (Nat × β)) :=
  Res.mapL (fun i => (val i).map fun v => (i, v)) (List.range' start (stop - start))

/-- Performing writes on a buffer in the given order; a write outside the buffer is undefined. -/
def applyWrites (buf : List β) : List (Nat × β) → Res (List β)
  | [] => .ok buf
  | (i, v) :: ws => if i < buf.length then applyWrites (buf.set i v) ws else .ub

/-- The multi-threaded branch (ops_binary.c:88-109, ops_unary.c:81-100; `thread_create` is
taken to succeed, its result is ignored by the code): worker `t` gets its chunk;
here the workers run one after the other (other schedules: see property C09). -/
def runChunks (n T : Nat) (val : Nat → Res β) (buf : List β) : Res (List β) :=
  (Res.mapL (fun t => workerWrites val (chunkStart n T t) (chunkEnd n T t)) (List.range T)).bind
    fun ws => applyWrites buf ws.flatten

/-- A plain loop `for (i = 0; i < n; i++) out[i] = val(i)` into a buffer of `n` cells. -/
def runLoop (n : Nat) (val : Nat → Res β) : Res (List β) := Res.mapL val (List.range n)

/-- Minimum work per thread of the element-wise kernels, ops_binary.c:85, ops_unary.c:78. -/
def minWorkPerThread : Nat := 100000

/-- `hodu_cpu_<unary op>`, ops_unary.c:64-121 with `input` not NULL (the host always passes it).  `cores` is the machine's core count, `buf` the
freshly allocated output buffer. -/
def unaryKernel (cores : Nat) (f : α → β) (inp : List α) (md : List Nat) (buf : List β) :
    Res (List β) :=
  (decodeUnary md).bind fun m =>
    if cIsContiguous m.dims m.strides then
      let T := getOptimalThreads cores m.numEls minWorkPerThread
      let val := fun i => (readC inp (m.offset + i)).map f
      if 1 < T then runChunks m.numEls T val buf else runLoop m.numEls val
    else runLoop m.numEls fun i =>
      (readC inp (m.offset + getStridedIndex i m.dims m.strides)).map f

/-- `hodu_cpu_contiguous`, ops_memory.c:36-85.  The multi-threaded branch there is unreachable
(it needs `contiguous` inside the non-contiguous branch). -/
def contiguousKernel (inp : List α) (md : List Nat) : Res (List α) :=
  (decodeUnary md).bind fun m =>
    if cIsContiguous m.dims m.strides then runLoop m.numEls fun i => readC inp (m.offset + i)
    else runLoop m.numEls fun i => readC inp (m.offset + getStridedIndex i m.dims m.strides)

/-- `binary_metadata`, op_metadatas.rs:36-71. -/
def binaryMetadata (l r out : Layout) : List Nat :=
  [out.size, out.ndim] ++ l.dims ++ r.dims ++ l.strides ++ r.strides ++ [l.offset, r.offset]

/-- Fields a binary kernel decodes. -/
structure BinaryMeta where
  numEls : Nat
  lhsDims : List Nat
  rhsDims : List Nat
  lhsStrides : List Nat
  rhsStrides : List Nat
  lhsOffset : Nat
  rhsOffset : Nat
  deriving Repr, DecidableEq

/-- Decoding prologue of `IMPL_BINARY_OP`, ops_binary.c:72-79. -/
def decodeBinary (md : List Nat) : Res BinaryMeta := do
  let n ← readC md 0
  let nd ← readC md 1
  let ld ← sliceC md 2 nd
  let rd ← sliceC md (2 + nd) nd
  let ls ← sliceC md (2 + 2 * nd) nd
  let rs ← sliceC md (2 + 3 * nd) nd
  let lo ← readC md (2 + 4 * nd)
  let ro ← readC md (2 + 4 * nd + 1)
  .ok { numEls := n, lhsDims := ld, rhsDims := rd, lhsStrides := ls, rhsStrides := rs,
        lhsOffset := lo, rhsOffset := ro }

/-- Loop body of the binary kernels: read both operands, apply the operation
(e.g. ops_binary.c:112-114). -/
def readBoth (f : α → α → β) (l r : List α) (li ri : Nat) : Res β :=
  (readC l li).bind fun x => (readC r ri).map fun y => f x y

/-- Writes of worker `t` of `T` of the binary kernel, ops_binary.c:55-64 with the arguments of
95-102. -/
def binaryWorker (f : α → α → β) (l r : List α) (m : BinaryMeta) (T t : Nat) :
    Res (List (Nat × β)) :=
  workerWrites (fun i => readBoth f l r (m.lhsOffset + i) (m.rhsOffset + i))
    (chunkStart m.numEls T t) (chunkEnd m.numEls T t)

/-- `hodu_cpu_<binary op>`, ops_binary.c:66-144: four paths, the first one possibly
multi-threaded. -/
def binaryKernel (cores : Nat) (f : α → α → β) (l r : List α) (md : List Nat) (buf : List β) :
    Res (List β) :=
  (decodeBinary md).bind fun m =>
    let lhsCont := cIsContiguous m.lhsDims m.lhsStrides
    let rhsCont := cIsContiguous m.rhsDims m.rhsStrides
    let both := readBoth f l r
    if lhsCont && rhsCont then
      let T := getOptimalThreads cores m.numEls minWorkPerThread
      if 1 < T then
        (Res.mapL (binaryWorker f l r m T) (List.range T)).bind fun ws => applyWrites buf ws.flatten
      else runLoop m.numEls fun i => both (m.lhsOffset + i) (m.rhsOffset + i)
    else if lhsCont then
      runLoop m.numEls fun i =>
        both (m.lhsOffset + i) (m.rhsOffset + getStridedIndex i m.rhsDims m.rhsStrides)
    else if rhsCont then
      runLoop m.numEls fun i =>
        both (m.lhsOffset + getStridedIndex i m.lhsDims m.lhsStrides) (m.rhsOffset + i)
    else
      runLoop m.numEls fun i =>
        both (m.lhsOffset + getStridedIndex i m.lhsDims m.lhsStrides)
          (m.rhsOffset + getStridedIndex i m.rhsDims m.rhsStrides)

/-- SIMD loop of ops_binary.c:345-360: `n / W` blocks of `W` lanes, then a scalar remainder. -/
def runSimd (W n : Nat) (val : Nat → Res β) : Res (List β) :=
  (Res.mapL (fun b => Res.mapL val (List.range' (b * W) W)) (List.range (n / W))).bind fun blocks =>
    (Res.mapL val (List.range' (n / W * W) (n - n / W * W))).bind fun rest =>
      .ok (blocks.flatten ++ rest)

/-- `hodu_cpu_<op>_f32` with SIMD width `W` (`IMPL_BINARY_OP_F32_SIMD`), ops_binary.c:322-388. -/
def binarySimdKernel (W : Nat) (f : α → α → β) (l r : List α) (md : List Nat) : Res (List β) :=
  (decodeBinary md).bind fun m =>
    let lhsCont := cIsContiguous m.lhsDims m.lhsStrides
    let rhsCont := cIsContiguous m.rhsDims m.rhsStrides
    let both := readBoth f l r
    if lhsCont && rhsCont then
      runSimd W m.numEls fun i => both (m.lhsOffset + i) (m.rhsOffset + i)
    else if lhsCont then
      runLoop m.numEls fun i =>
        both (m.lhsOffset + i) (m.rhsOffset + getStridedIndex i m.rhsDims m.rhsStrides)
    else if rhsCont then
      runLoop m.numEls fun i =>
        both (m.lhsOffset + getStridedIndex i m.lhsDims m.lhsStrides) (m.rhsOffset + i)
    else
      runLoop m.numEls fun i =>
        both (m.lhsOffset + getStridedIndex i m.lhsDims m.lhsStrides)
          (m.rhsOffset + getStridedIndex i m.rhsDims m.rhsStrides)

/-- `hodu_cpu_<logical/cmp op>` (`IMPL_BINARY_TO_BOOL`), ops_binary.c:155-195: no threads. -/
def binaryBoolKernel (f : α → α → Bool) (l r : List α) (md : List Nat) : Res (List Bool) :=
  (decodeBinary md).bind fun m =>
    let lhsCont := cIsContiguous m.lhsDims m.lhsStrides
    let rhsCont := cIsContiguous m.rhsDims m.rhsStrides
    let both := readBoth f l r
    if lhsCont && rhsCont then
      runLoop m.numEls fun i => both (m.lhsOffset + i) (m.rhsOffset + i)
    else
      runLoop m.numEls fun i =>
        both (if lhsCont then m.lhsOffset + i
              else m.lhsOffset + getStridedIndex i m.lhsDims m.lhsStrides)
          (if rhsCont then m.rhsOffset + i
           else m.rhsOffset + getStridedIndex i m.rhsDims m.rhsStrides)

end Hodu
