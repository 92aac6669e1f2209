import Verif.Model.Cuda
import Verif.Model.Creation

/-!
# Model of the tiled matrix products on CUDA

Device side: `MATMUL_OP` and `DOT_OP`, crates/hodu_cuda_kernels/kernels/ops_matrix.cu.  Launches:
`call_ops_matmul_kernel`, `call_ops_dot_kernel`, crates/hodu_cuda_kernels/src/kernels/ops_matrix.rs
(the functions the host calls; the cuBLAS variants of that file have no caller).  Host:
crates/hodu_core/src/be_cuda/storage/ops_matrix.rs.

The threads of all blocks are interleaved in any way; `__syncthreads` holds a thread back until every
thread of its block has arrived.  The arithmetic of one step (a multiplication, an addition and
conversions to and from `float`) is a parameter.  Shared memory has an arbitrary content at the start.
-/

namespace Hodu.Cuda

/-- A thread of the grid: block (`blockIdx.z`, `.y`, `.x`) and thread (`threadIdx.y`, `.x`).  The same
five numbers name the cell `[ty][tx]` of the block's shared tiles, ops_matrix.cu:24-25. -/
structure Tid where
  bz : Nat
  brow : Nat
  bcol : Nat
  ty : Nat
  tx : Nat
  deriving DecidableEq, Repr

/-- `LaunchConfig`, src/kernels/ops_matrix.rs:365-369, 566-570: grid (x, y, z) and block (x, y). -/
structure Launch where
  gx : Nat
  gy : Nat
  gz : Nat
  bx : Nat
  bY : Nat
  deriving DecidableEq, Repr

/-- The limits of a launch: no empty dimension, `2 ^ 31 - 1` blocks in x, 65535 in y and z (CUDA
programming guide, compute capabilities); a launch outside of them is an error, ops_matrix.rs:376-381. -/
def Launch.check (l : Launch) : Res Launch :=
  if 0 < l.gx ∧ l.gx < 2 ^ 31 ∧ 0 < l.gy ∧ l.gy ≤ 65535 ∧ 0 < l.gz ∧ l.gz ≤ 65535 ∧
      0 < l.bx * l.bY ∧ l.bx * l.bY ≤ 1024 then .ok l else .err

/-- What a tiled kernel works with: the tile size it is written for, the launch, the sizes, the reads of
the two operands (by batch and position) and the arithmetic (ops_matrix.cu:9-86, 105-150). -/
structure TileKernel (α : Type) where
  T : Nat
  launch : Launch
  M : Nat
  K : Nat
  N : Nat
  lhs : Nat → Nat → Nat → Res α
  rhs : Nat → Nat → Nat → Res α
  zero : α
  /-- `sum = from_float(to_float(sum) + to_float(l) * to_float(r))`, ops_matrix.cu:77 -/
  macc : α → α → α → α

/-- Shared tiles, running sums, output and the position of every thread (ops_matrix.cu:24-86). -/
structure TileSt (α : Type) where
  pc : Tid → Nat
  sum : Tid → α
  lt : Tid → α
  rt : Tid → α
  out : List α

namespace TileKernel
variable {α : Type} (c : TileKernel α)

/-- The threads of the launch (ops_matrix.rs:365-369). -/
def has (t : Tid) : Bool :=
  decide (t.bz < c.launch.gz ∧ t.brow < c.launch.gy ∧ t.bcol < c.launch.gx ∧
    t.ty < c.launch.bY ∧ t.tx < c.launch.bx)

/-- `row = blockIdx.y * TILE_SIZE + threadIdx.y`, ops_matrix.cu:27. -/
def row (t : Tid) : Nat := t.brow * c.T + t.ty

/-- `col = blockIdx.x * TILE_SIZE + threadIdx.x`, ops_matrix.cu:28. -/
def col (t : Tid) : Nat := t.bcol * c.T + t.tx

/-- `num_tiles`, ops_matrix.cu:57. -/
def tiles : Nat := (c.K + c.T - 1) / c.T

/-- Positions of the program counter per tile: two stores, a barrier, `T` steps of the sum, a barrier
(ops_matrix.cu:58-80). -/
def width : Nat := c.T + 4

/-- `__syncthreads()` lets thread `t` pass once all threads of its block have arrived,
ops_matrix.cu:73, 79. -/
def arrived (s : TileSt α) (t : Tid) (r : Nat) : Bool :=
  (List.range c.launch.bY).all fun y => (List.range c.launch.bx).all fun x =>
    decide (r ≤ s.pc { t with ty := y, tx := x })

/-- Cell of the output a thread writes, ops_matrix.cu:82 ( `batch_idx * (M * N) + row * N + col`;
in `DOT_OP`, 146, there is one batch). -/
def cell (t : Tid) : Nat := t.bz * (c.M * c.N) + c.row t * c.N + c.col t

/-- One step of thread `t`, ops_matrix.cu:58-85 (`DOT_OP`: 122-149). -/
def step (s : TileSt α) (t : Tid) : Res (TileSt α) :=
  if c.has t = false then .ok s
  else
    let r := s.pc t
    let tile := r / c.width
    let j := r % c.width
    let adv := Function.update s.pc t (r + 1)
    if tile < c.tiles then
      if j = 0 then
        if t.ty < c.T ∧ t.tx < c.T then
          (if c.row t < c.M ∧ tile * c.T + t.tx < c.K then c.lhs t.bz (c.row t) (tile * c.T + t.tx)
            else .ok c.zero).bind fun v => .ok { s with pc := adv, lt := Function.update s.lt t v }
        else .ub
      else if j = 1 then
        if t.ty < c.T ∧ t.tx < c.T then
          (if tile * c.T + t.ty < c.K ∧ c.col t < c.N then c.rhs t.bz (tile * c.T + t.ty) (c.col t)
            else .ok c.zero).bind fun v => .ok { s with pc := adv, rt := Function.update s.rt t v }
        else .ub
      else if j = 2 ∨ j = c.T + 3 then
        if c.arrived s t r then .ok { s with pc := adv } else .ok s
      else
        .ok { s with
              pc := adv
              sum := Function.update s.sum t
                (c.macc (s.sum t) (s.lt { t with tx := j - 3 }) (s.rt { t with ty := j - 3 })) }
    else if r = c.tiles * c.width then
      if c.row t < c.M ∧ c.col t < c.N then
        if c.cell t < s.out.length then
          .ok { s with pc := adv, out := s.out.set (c.cell t) (s.sum t) }
        else .ub
      else .ok { s with pc := adv }
    else .ok s

/-- State at the launch: `lt0`, `rt0` is what shared memory happens to hold. -/
def init (lt0 rt0 : Tid → α) (buf : List α) : TileSt α :=
  { pc := fun _ => 0, sum := fun _ => c.zero, lt := lt0, rt := rt0, out := buf }

/-- An execution: one step of each thread of `sched` in that order. -/
def exec (lt0 rt0 : Tid → α) (buf : List α) (sched : List Tid) : Res (TileSt α) :=
  Res.foldL c.step (c.init lt0 rt0 buf) sched

/-- All threads are past their last statement. -/
def finished (s : TileSt α) : Prop := ∀ t, c.has t = true → c.tiles * c.width < s.pc t

end TileKernel

/-! ## The two kernels -/

/-- Grid of `n` columns or rows in tiles: `(n as u32).div_ceil(TILE).max(1)`, ops_matrix.rs:362-363,
563-564. -/
def tileGrid (T n : Nat) : Nat := max ((u32 n + T - 1) / T) 1

/-- `call_ops_matmul_kernel`, ops_matrix.rs:328-384: tiles of 16, blocks of 16 x 16 threads, one layer of
the grid per batch. -/
def matmulLaunch (M N batches : Nat) : Launch :=
  { gx := tileGrid 16 N, gy := tileGrid 16 M, gz := u32 batches, bx := 16, bY := 16 }

/-- `call_ops_dot_kernel`, ops_matrix.rs:539-590: tiles of 32, but blocks of 8 x 8 threads
(`THREADS_PER_DIM`). -/
def dotLaunch (M N : Nat) : Launch :=
  { gx := tileGrid 32 N, gy := tileGrid 32 M, gz := 1, bx := 8, bY := 8 }

/-- What the threads of `MATMUL_OP` work with, ops_matrix.cu:29-55, 60-70: the position of an element is
computed as in the C kernel (Model/Matmul.lean). -/
def matmulTile (zero : α) (macc : α → α → α → α) (lhs rhs : List α) (m : MatmulMeta) (l : Launch) :
    TileKernel α :=
  let lb := m.ld.length - 2
  let rb := m.rd.length - 2
  { T := 16, launch := l, M := m.M, K := m.K, N := m.N, zero := zero, macc := macc
    lhs := fun b i k => readC lhs (cFlat m.lo (batchIdx m.ld (cUnravel m.batch b).1 lb) (m.ls.take lb) +
      i * m.ls.getD lb 0 + k * m.ls.getD (lb + 1) 0)
    rhs := fun b k j => readC rhs (cFlat m.ro (batchIdx m.rd (cUnravel m.batch b).1 rb) (m.rs.take rb) +
      k * m.rs.getD rb 0 + j * m.rs.getD (rb + 1) 0) }

/-- `MATMUL_OP`, ops_matrix.cu:9-86: `batch_indices` has room for 16 dimensions (29). -/
def matmulCuda (zero : α) (macc : α → α → α → α) (lhs rhs : List α) (md : List Nat) :
    Res (TileKernel α) :=
  (decodeMatmul md).bind fun m =>
    (matmulLaunch m.M m.N (shapeSize m.batch)).check.bind fun l =>
      guard16 m.batch.length (.ok (matmulTile zero macc lhs rhs m l))

/-- What the threads of `DOT_OP` work with, ops_matrix.cu:125-138. -/
def dotTileOf (zero : α) (macc : α → α → α → α) (lhs rhs : List α) (m : DotMeta) (l : Launch) :
    TileKernel α :=
  { T := 32, launch := l, M := m.M, K := m.K, N := m.N, zero := zero, macc := macc
    lhs := fun _ i k => readC lhs (m.lo + i * m.lm + k * m.lk)
    rhs := fun _ k j => readC rhs (m.ro + k * m.rk + j * m.rn) }

/-- `DOT_OP`, ops_matrix.cu:105-150. -/
def dotCuda (zero : α) (macc : α → α → α → α) (lhs rhs : List α) (md : List Nat) : Res (TileKernel α) :=
  (decodeDot md).bind fun m =>
    (dotLaunch m.M m.N).check.bind fun l => .ok (dotTileOf zero macc lhs rhs m l)

/-- `call_ops_matmul`, be_cuda/storage/ops_matrix.rs:10-96: the launched kernel and the size of the new
output buffer, which is computed from the batch dimensions of the left operand (27-33).  `lhs_ndim - 2`
panics below rank 2. -/
def callOpsMatmulCuda (zero : α) (macc : α → α → α → α) (a b : Tensor α) : Res (TileKernel α × Nat) :=
  let l := a.layout
  let r := b.layout
  if l.ndim < 2 ∨ r.ndim < 1 then .panic
  else
    let size := shapeSize (l.dims.take (l.ndim - 2) ++ [l.dims.getD (l.ndim - 2) 0, r.dims.getD (r.ndim - 1) 0])
    (matmulMetadata l r size).bind fun md =>
      (matmulCuda zero macc a.storage b.storage md).bind fun k => .ok (k, size)

/-- `call_ops_dot`, be_cuda/storage/ops_matrix.rs:98-170. -/
def callOpsDotCuda (zero : α) (macc : α → α → α → α) (a b : Tensor α) : Res (TileKernel α × Nat) :=
  (dotMetadata a.layout b.layout).bind fun md =>
    (dotCuda zero macc a.storage b.storage md).bind fun k => .ok (k, k.M * k.N)

/-- `sum = from_float(to_float(sum) + to_float(l) * to_float(r))` for `float`, ops_matrix.cu:77 (without
contraction to a fused operation). -/
def maccFloat (s l r : Nat) : Nat := Creation.fadd s (Creation.fmul l r)

/-- The same for `double`: every operand is first rounded to `float`, ops_matrix.cu:75-77. -/
def maccDouble (s l r : Nat) : Nat :=
  Cast.floatToDouble (maccFloat (Cast.doubleToFloat s) (Cast.doubleToFloat l) (Cast.doubleToFloat r))

end Hodu.Cuda
