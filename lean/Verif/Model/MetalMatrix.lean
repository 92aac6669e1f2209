import Verif.Model.MetalMove
import Verif.Model.CudaTile

/-!
# Model of the matrix products on Metal

Device side: `MATMUL_OP` and `DOT_OP`, crates/hodu_metal_kernels/kernels/ops_matrix.metal.  Launches:
`call_ops_matmul`, `call_ops_dot`, crates/hodu_metal_kernels/src/kernels/ops_matrix.rs.  Hosts:
crates/hodu_core/src/be_metal/storage/ops_matrix.rs.

`MATMUL_OP` is the tiled kernel of Model/CudaTile.lean with the arithmetic of the element type.  In
`DOT_OP` a thread loads, sums up and writes a block of 4 x 4 cells.  All threads of all threadgroups are
interleaved in any way, `threadgroup_barrier` holds a thread back until every thread of its group has
arrived.  Rows and columns are computed in 32 bits (`uint`, ops_matrix.metal:67-70, 221-224); launches
that would leave them are not modelled (`ub`).
-/

namespace Hodu.Metal

open _root_.Hodu Hodu.Cuda

/-- `(n + TILE - 1).div_ceil(TILE)`, src/kernels/ops_matrix.rs:112-113, 218-219: rounded up twice. -/
def groups (T n : Nat) : Nat := (n + T - 1 + T - 1) / T

/-- `call_ops_matmul`, src/kernels/ops_matrix.rs:105-119: groups of 16 x 16 threads, one layer per batch. -/
def matmulGroups (M N batches : Nat) : Launch :=
  { gx := groups 16 N, gy := groups 16 M, gz := batches, bx := 16, bY := 16 }

/-- `call_ops_dot`, src/kernels/ops_matrix.rs:208-225: tiles of 32, groups of 8 x 8 threads. -/
def dotGroups (M N : Nat) : Launch :=
  { gx := groups 32 N, gy := groups 32 M, gz := 1, bx := 8, bY := 8 }

/-- Rows and columns of the grid fit in 32 bits (see above; ops_matrix.metal:67-70, 221-224). -/
def positions32 (T : Nat) (l : Launch) : Res Launch :=
  if l.gx * T ≤ 2 ^ 32 ∧ l.gy * T ≤ 2 ^ 32 then .ok l else .ub

/-- `MATMUL_OP`, ops_matrix.metal:36-152, as launched by src/kernels/ops_matrix.rs:67-125 (the product of
no batch dimensions is 1, 99-104).  `batch_indices` has room for 16 dimensions (73). -/
def matmulKernelMetal (zero : α) (macc : α → α → α → α) (lhs rhs : List α) (md : List Nat) :
    Res (TileKernel α) :=
  (decodeMatmul md).bind fun m =>
    (positions32 16 (matmulGroups m.M m.N (shapeSize m.batch))).bind fun l =>
      guard16 m.batch.length (.ok (matmulTile zero macc lhs rhs m l))

/-- Batch shape of the output, be_metal/storage/ops_matrix.rs:44-63: the larger one of the two sizes,
without a check. -/
def batchMax (l r : List Nat) : List Nat :=
  let ln := l.length - 2
  let rn := r.length - 2
  let bn := max ln rn
  (List.range bn).map fun i => max (batchDim l ln bn i) (batchDim r rn bn i)

/-- `call_ops_matmul`, be_metal/storage/ops_matrix.rs:10-103: the launched kernel and the number of
elements asked of the buffer pool. -/
def callOpsMatmulMetal (zero : α) (macc : α → α → α → α) (a b : Tensor α) : Res (TileKernel α × Nat) :=
  let l := a.layout
  let r := b.layout
  if l.ndim < 2 ∨ r.ndim < 2 then .err
  else
    let size := shapeSize (batchMax l.dims r.dims ++
      [l.dims.getD (l.ndim - 2) 0, r.dims.getD (r.ndim - 1) 0])
    (matmulMetadata l r size).bind fun md =>
      (matmulKernelMetal zero macc a.storage b.storage md).bind fun k => .ok (k, size)

/-! ## Register blocks -/

/-- Shared tiles, the 4 x 4 sums of every thread (`sums[v / 4][v % 4]`), output and the position of every
thread, ops_matrix.metal:217-233. -/
structure BlockSt (α : Type) where
  pc : Tid → Nat
  sums : Tid → Nat → α
  lt : Tid → α
  rt : Tid → α
  out : List α

/-- Cell `[row][col]` of the tiles with `row = thread.y * BLOCK_M + i`, `col = thread.x * BLOCK_N + j` for
`v = 4 i + j`, ops_matrix.metal:241-242, 260-261. -/
def sub (t : Tid) (v : Nat) : Tid := { t with ty := t.ty * 4 + v / 4, tx := t.tx * 4 + v % 4 }

/-- `threadgroup_barrier` lets thread `t` pass once all threads of its group have arrived,
ops_matrix.metal:275, 298. -/
def blockArrived (c : TileKernel α) (s : BlockSt α) (t : Tid) (r : Nat) : Bool :=
  (List.range c.launch.bY).all fun y => (List.range c.launch.bx).all fun x =>
    decide (r ≤ s.pc { t with ty := y, tx := x })

/-- One step of thread `t` of `DOT_OP`, ops_matrix.metal:235-310.  Positions per tile: 16 stores to the
left tile, 16 to the right tile, a barrier, 32 x 16 multiply-adds, a barrier; then 16 stores to the output.
The values a multiply-add reads from the tiles are read with it (in the code, 279-290, all eight of a `k`
are read before the first multiply-add of that `k`). -/
def blockStep (c : TileKernel α) (s : BlockSt α) (t : Tid) : Res (BlockSt α) :=
  if c.has t = false then .ok s
  else
    let r := s.pc t
    let tile := r / 546
    let p := r % 546
    let adv := Function.update s.pc t (r + 1)
    if tile < c.tiles then
      if p < 16 then
        let u := sub t p
        if u.ty < c.T ∧ u.tx < c.T then
          (if c.row u < c.M ∧ tile * c.T + u.tx < c.K then c.lhs t.bz (c.row u) (tile * c.T + u.tx)
            else .ok c.zero).bind fun v => .ok { s with pc := adv, lt := Function.update s.lt u v }
        else .ub
      else if p < 32 then
        let u := sub t (p - 16)
        if u.ty < c.T ∧ u.tx < c.T then
          (if tile * c.T + u.ty < c.K ∧ c.col u < c.N then c.rhs t.bz (tile * c.T + u.ty) (c.col u)
            else .ok c.zero).bind fun v => .ok { s with pc := adv, rt := Function.update s.rt u v }
        else .ub
      else if p = 32 ∨ p = 545 then
        if blockArrived c s t r then .ok { s with pc := adv } else .ok s
      else
        let k := (p - 33) / 16
        let v := (p - 33) % 16
        let u := sub t v
        .ok { s with
              pc := adv
              sums := Function.update s.sums t (Function.update (s.sums t) v
                (c.macc (s.sums t v) (s.lt { u with tx := k }) (s.rt { u with ty := k }))) }
    else if r < c.tiles * 546 + 16 then
      let v := r - c.tiles * 546
      let u := sub t v
      if c.row u < c.M ∧ c.col u < c.N then
        if c.cell u < s.out.length then
          .ok { s with pc := adv, out := s.out.set (c.cell u) (s.sums t v) }
        else .ub
      else .ok { s with pc := adv }
    else .ok s

/-- State at the launch, ops_matrix.metal:217-233: `lt0`, `rt0` is what threadgroup memory happens to
hold. -/
def blockInit (c : TileKernel α) (lt0 rt0 : Tid → α) (buf : List α) : BlockSt α :=
  { pc := fun _ => 0, sums := fun _ _ => c.zero, lt := lt0, rt := rt0, out := buf }

/-- An execution of `DOT_OP` (ops_matrix.metal:198-310): one step of each thread of `sched` in that order. -/
def blockExec (c : TileKernel α) (lt0 rt0 : Tid → α) (buf : List α) (sched : List Tid) : Res (BlockSt α) :=
  Res.foldL (blockStep c) (blockInit c lt0 rt0 buf) sched

/-- All threads are past their last statement (ops_matrix.metal:310). -/
def blockFinished (c : TileKernel α) (s : BlockSt α) : Prop :=
  ∀ t, c.has t = true → c.tiles * 546 + 16 ≤ s.pc t

/-- `DOT_OP`, ops_matrix.metal:198-310, as launched by src/kernels/ops_matrix.rs:181-231: the positions of
the elements are those of the CUDA kernel. -/
def dotKernelMetal (zero : α) (macc : α → α → α → α) (lhs rhs : List α) (md : List Nat) (m n : Nat) :
    Res (TileKernel α) :=
  (decodeDot md).bind fun d =>
    (positions32 32 (dotGroups m n)).bind fun l => .ok (dotTileOf zero macc lhs rhs d l)

/-- `call_ops_dot`, be_metal/storage/ops_matrix.rs:105-165. -/
def callOpsDotMetal (zero : α) (macc : α → α → α → α) (a b : Tensor α) : Res (TileKernel α × Nat) :=
  let l := a.layout
  let r := b.layout
  if l.ndim ≠ 2 ∨ r.ndim ≠ 2 then .err
  else
    let m := l.dims.getD 0 0
    let n := r.dims.getD 1 0
    (dotMetadata l r).bind fun md =>
      (dotKernelMetal zero macc a.storage b.storage md m n).bind fun k => .ok (k, m * n)

end Hodu.Metal
