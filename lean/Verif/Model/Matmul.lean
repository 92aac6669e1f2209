import Verif.Model.Move
import Verif.Model.Reduce

/-!
# Model of the matrix products

Host side: crates/hodu_core/src/tensor/ops/matrix.rs, be_cpu/storage/ops_matrix.rs,
op_metadatas.rs:192-300, 464-511.  Kernels: crates/hodu_cpu_kernels/kernels/ops_matrix.c
(`MATMUL_OP` 46-193, `DOT_OP` 399-550 and their `_EXOTIC` variants, which have the same loops).

The element type, its zero, addition and multiplication are parameters.  The OpenBLAS and Accelerate
kernels used for `f32`/`f64` in some builds (ops_matrix_openblas.c,
ops_matrix_blas_aarch64_apple_darwin.c) are in Model/Blas.lean.
-/

namespace Hodu

/-- A C loop over a state: `for (x : xs) s = f(s, x)`, stopping at the first failure. -/
def Res.foldL (f : σ → β → Res σ) : σ → List β → Res σ
  | s, [] => .ok s
  | s, x :: xs => (f s x).bind fun s' => Res.foldL f s' xs

/-- `for (s = lo; s < hi; s += B) { e = (s + B < hi) ? s + B : hi; ... }`, e.g. ops_matrix.c:487-492:
the pairs `(s, e)`; `fuel` bounds the number of iterations. -/
def blocksFrom (B hi : Nat) : Nat → Nat → List (Nat × Nat)
  | 0, _ => []
  | fuel + 1, s =>
    if s < hi then (s, if s + B < hi then s + B else hi) :: blocksFrom B hi fuel (s + B) else []

/-- The blocks of `lo .. hi`; `hi - lo` iterations are enough for a positive block size. -/
def blocks (B lo hi : Nat) : List (Nat × Nat) := blocksFrom B hi (hi - lo) lo

/-- The values of a loop variable running from `b.1` below `b.2`. -/
def span (b : Nat × Nat) : List Nat := List.range' b.1 (b.2 - b.1)

/-- One multiply-accumulate `out[p] += lhs[a] * rhs[b]`, ops_matrix.c:510, 541. -/
def mulAcc (add mul : α → α → α) (lhs rhs : List α) (out : List α) (st : Nat × Nat × Nat) :
    Res (List α) :=
  (readC lhs st.2.1).bind fun a => (readC rhs st.2.2).bind fun b =>
    (readC out st.1).bind fun c => .ok (out.set st.1 (add c (mul a b)))

/-- `sum = 0; for (k = 0; k < K; k++) sum += lhs[la(k)] * rhs[ra(k)];`, ops_matrix.c:60-63, 136-139,
171-188. -/
def dotSum (zero : α) (add mul : α → α → α) (lhs rhs : List α) (K : Nat) (la ra : Nat → Nat) : Res α :=
  (Res.mapL (fun k => readBoth mul lhs rhs (la k) (ra k)) (List.range K)).map
    fun xs => xs.foldl add zero

/-- Element `(i, j)` of the contiguous product, ops_matrix.c:60-63. -/
def rowCell (zero : α) (add mul : α → α → α) (lhs rhs : List α) (K N i j : Nat) : Res α :=
  dotSum zero add mul lhs rhs K (fun k => i * K + k) (fun k => k * N + j)

/-- `start_row` of worker `t` of `T`, ops_matrix.c:121 (= 474 in `DOT_OP`). -/
def rowStart (M T t : Nat) : Nat := t * (M / T)

/-- `end_row` of worker `t` of `T`: the last worker also takes the remaining rows, ops_matrix.c:122-124
(= 475-477). -/
def rowEnd (M T t : Nat) : Nat := (t + 1) * (M / T) + if t = T - 1 then M % T else 0

/-- Writes of one worker, ops_matrix.c:56-68 (= 409-421). -/
def rowWorker (zero : α) (add mul : α → α → α) (lhs rhs : List α) (M K N T t : Nat) :
    Res (List (Nat × α)) :=
  Res.mapL (fun p : Nat × Nat => (rowCell zero add mul lhs rhs K N p.1 p.2).map fun v =>
      (p.1 * N + p.2, v))
    ((span (rowStart M T t, rowEnd M T t)).flatMap fun i => (List.range N).map fun j => (i, j))

/-- The multi-threaded branch, ops_matrix.c:104-131 (= 457-484); the workers run one after the other
here, other schedules: property C32. -/
def rowThreads (zero : α) (add mul : α → α → α) (lhs rhs : List α) (M K N T : Nat) (buf : List α) :
    Res (List α) :=
  (Res.mapL (rowWorker zero add mul lhs rhs M K N T) (List.range T)).bind fun ws =>
    applyWrites buf ws.flatten

/-- `num_threads` after the cap of 32, ops_matrix.c:102-109 (`minRows = 128`) and 455-462
(`minRows = 256`). -/
def rowThreadCount (cores M minRows : Nat) : Nat :=
  let T := getOptimalThreads cores M minRows
  if T > 32 then 32 else T

/-! ## dot (two matrices) -/

/-- `dot_metadata`, op_metadatas.rs:464-511. -/
def dotMetadata (l r : Layout) : Res (List Nat) :=
  if l.ndim ≠ 2 ∨ r.ndim ≠ 2 then .err
  else
    (readR l.dims 0).bind fun m => (readR l.dims 1).bind fun k =>
    (readR r.dims 0).bind fun k' => (readR r.dims 1).bind fun n =>
    if k ≠ k' then .err
    else
      (readR l.strides 0).bind fun lm => (readR l.strides 1).bind fun lk =>
      (readR r.strides 0).bind fun rk => (readR r.strides 1).bind fun rn =>
      .ok [m, k, n, lm, lk, rk, rn, l.offset, r.offset]

/-- Fields the dot kernel decodes. -/
structure DotMeta where
  M : Nat
  K : Nat
  N : Nat
  lm : Nat
  lk : Nat
  rk : Nat
  rn : Nat
  lo : Nat
  ro : Nat
  deriving Repr, DecidableEq

/-- Decoding prologue of `DOT_OP`, ops_matrix.c:429-437. -/
def decodeDot (md : List Nat) : Res DotMeta :=
  (readC md 0).bind fun M => (readC md 1).bind fun K => (readC md 2).bind fun N =>
  (readC md 3).bind fun lm => (readC md 4).bind fun lk => (readC md 5).bind fun rk =>
  (readC md 6).bind fun rn => (readC md 7).bind fun lo => (readC md 8).bind fun ro =>
  .ok ⟨M, K, N, lm, lk, rk, rn, lo, ro⟩

/-- Pairs `(ir, jr)` of a register tile, e.g. ops_matrix.c:500-501. -/
def tilePairs (di dj : Nat) : List (Nat × Nat) :=
  (List.range di).flatMap fun ir => (List.range dj).map fun jr => (ir, jr)

/-- One 4x4 register tile, ops_matrix.c:498-519: load `acc[ir][jr]` (entry `ir * 4 + jr` of 16), accumulate
over `k`, store back.  `i`, `j`, `k` are the bounds of the tile. -/
def dotTile (zero : α) (add mul : α → α → α) (lhs rhs : List α) (K N : Nat) (i j k : Nat × Nat)
    (out : List α) : Res (List α) :=
  let ps := tilePairs (i.2 - i.1) (j.2 - j.1)
  (Res.foldL (fun acc p => (readC out ((i.1 + p.1) * N + (j.1 + p.2))).bind fun v =>
      if p.1 * 4 + p.2 < acc.length then .ok (acc.set (p.1 * 4 + p.2) v) else .ub)
    (List.replicate 16 zero) ps).bind fun acc =>
  (Res.foldL (mulAcc add mul lhs rhs) acc
    ((span k).flatMap fun kv => ps.map fun p =>
      (p.1 * 4 + p.2, (i.1 + p.1) * K + kv, kv * N + (j.1 + p.2)))).bind fun acc =>
  Res.foldL (fun out p => (readC acc (p.1 * 4 + p.2)).bind fun v =>
      if (i.1 + p.1) * N + (j.1 + p.2) < out.length then
        .ok (out.set ((i.1 + p.1) * N + (j.1 + p.2)) v) else .ub) out ps

/-- Tiles `(i, j, k)` in the order of the single-threaded fast path, ops_matrix.c:486-525: block sizes
32 x 256 x 32, register blocks 4 x 4. -/
def dotTiles (M K N : Nat) : List ((Nat × Nat) × (Nat × Nat) × (Nat × Nat)) :=
  (blocks 32 0 M).flatMap fun bi => (blocks 256 0 K).flatMap fun bk => (blocks 32 0 N).flatMap fun bj =>
    (blocks 4 bi.1 bi.2).flatMap fun ti => (blocks 4 bj.1 bj.2).map fun tj => (ti, tj, bk)

/-- Multiply-accumulate steps of the strided path in order, ops_matrix.c:527-549. -/
def dotSteps (m : DotMeta) : List (Nat × Nat × Nat) :=
  (blocks 32 0 m.M).flatMap fun bi => (blocks 256 0 m.K).flatMap fun bk =>
    (blocks 32 0 m.N).flatMap fun bj =>
      (span bi).flatMap fun i => (span bk).flatMap fun k => (span bj).map fun j =>
        (i * m.N + j, m.lo + i * m.lm + k * m.lk, m.ro + k * m.rk + j * m.rn)

/-- Fast-path test of the dot kernel, ops_matrix.c:449-453. -/
def DotMeta.fast (m : DotMeta) : Bool :=
  m.lk == 1 && m.rn == 1 && m.lm == m.K && m.rk == m.N && m.lo == 0 && m.ro == 0

/-- `hodu_cpu_dot_<type>`, ops_matrix.c:423-550: the output is zeroed first (440), then one of three
paths runs. -/
def dotKernel (cores : Nat) (zero : α) (add mul : α → α → α) (lhs rhs : List α) (md : List Nat) :
    Res (List α) :=
  (decodeDot md).bind fun m =>
    let buf := List.replicate (m.M * m.N) zero
    if m.fast then
      let T := rowThreadCount cores m.M 256
      if 1 < T then rowThreads zero add mul lhs rhs m.M m.K m.N T buf
      else Res.foldL (fun out t => dotTile zero add mul lhs rhs m.K m.N t.1 t.2.1 t.2.2 out) buf
        (dotTiles m.M m.K m.N)
    else Res.foldL (mulAcc add mul lhs rhs) buf (dotSteps m)

/-- `call_ops_dot`, be_cpu/storage/ops_matrix.rs:201-262. -/
def callOpsDot (cores : Nat) (zero : α) (add mul : α → α → α) (a b : Tensor α) : Res (List α) :=
  if a.layout.ndim ≠ 2 ∨ b.layout.ndim ≠ 2 then .err
  else (dotMetadata a.layout b.layout).bind fun md => dotKernel cores zero add mul a.storage b.storage md

/-- `dot_2d`, tensor/ops/matrix.rs:302-371 (eager branch). -/
def Tensor.dot2d (cores : Nat) (zero : α) (add mul : α → α → α) (a b : Tensor α) : Res (Tensor α) :=
  (readR a.dims 0).bind fun m => (readR a.dims 1).bind fun k1 =>
  (readR b.dims 0).bind fun k2 => (readR b.dims 1).bind fun n =>
  if k1 ≠ k2 then .err
  else (callOpsDot cores zero add mul a b).bind fun s =>
    .ok { storage := s, layout := Layout.fromShape [m, n] }

/-! ## matmul (batched) -/

/-- Dimension `i` of the batch shape as seen from one operand, ops_matrix.rs:71-84 and
op_metadatas.rs:222-235: `idx = (nb - batch_ndim + i) as usize`, size 1 if that is out of range. -/
def batchDim (dims : List Nat) (nb batchNd i : Nat) : Nat :=
  let idx := castUsize ((nb : Int) - batchNd + i)
  if idx < nb then dims.getD idx 0 else 1

/-- Batch shape, ops_matrix.rs:63-94 and op_metadatas.rs:214-245. -/
def matmulBatch (l r : List Nat) : Res (List Nat) :=
  let ln := l.length - 2
  let rn := r.length - 2
  let bn := max ln rn
  Res.mapL (fun i =>
    let a := batchDim l ln bn i
    let b := batchDim r rn bn i
    if a ≠ b ∧ a ≠ 1 ∧ b ≠ 1 then .err else .ok (max a b)) (List.range bn)

/-- `matmul_metadata`, op_metadatas.rs:192-291 (`numEls` is the size of the output layout). -/
def matmulMetadata (l r : Layout) (numEls : Nat) : Res (List Nat) :=
  if l.ndim < 2 ∨ r.ndim < 2 then .err
  else
    let m := l.dims.getD (l.ndim - 2) 0
    let k := l.dims.getD (l.ndim - 1) 0
    let k' := r.dims.getD (r.ndim - 2) 0
    let n := r.dims.getD (r.ndim - 1) 0
    if k ≠ k' then .err
    else (matmulBatch l.dims r.dims).bind fun batch =>
      .ok ([numEls, l.ndim, r.ndim, batch.length] ++ l.dims ++ r.dims ++ batch ++ l.strides ++
        r.strides ++ [l.offset, r.offset, m, k, n])

/-- Fields the matmul kernel decodes. -/
structure MatmulMeta where
  numEls : Nat
  ld : List Nat
  rd : List Nat
  batch : List Nat
  ls : List Nat
  rs : List Nat
  lo : Nat
  ro : Nat
  M : Nat
  K : Nat
  N : Nat
  deriving Repr, DecidableEq

/-- Decoding prologue of `MATMUL_OP`, ops_matrix.c:76-90. -/
def decodeMatmul (md : List Nat) : Res MatmulMeta :=
  (readC md 0).bind fun n => (readC md 1).bind fun ln => (readC md 2).bind fun rn =>
  (readC md 3).bind fun bn =>
  (sliceC md 4 ln).bind fun ld =>
  (sliceC md (4 + ln) rn).bind fun rd =>
  (sliceC md (4 + ln + rn) bn).bind fun batch =>
  (sliceC md (4 + ln + rn + bn) ln).bind fun ls =>
  (sliceC md (4 + ln + rn + bn + ln) rn).bind fun rs =>
  (readC md (4 + ln + rn + bn + ln + rn)).bind fun lo =>
  (readC md (4 + ln + rn + bn + ln + rn + 1)).bind fun ro =>
  (readC md (4 + ln + rn + bn + ln + rn + 2)).bind fun M =>
  (readC md (4 + ln + rn + bn + ln + rn + 3)).bind fun K =>
  (readC md (4 + ln + rn + bn + ln + rn + 4)).bind fun N =>
  .ok ⟨n, ld, rd, batch, ls, rs, lo, ro, M, K, N⟩

/-- Fast-path test of the matmul kernel, ops_matrix.c:95-100. -/
def MatmulMeta.fast (m : MatmulMeta) : Bool :=
  m.ls.getD (m.ld.length - 1) 0 == 1 && m.rs.getD (m.rd.length - 1) 0 == 1 &&
  m.ls.getD (m.ld.length - 2) 0 == m.K && m.rs.getD (m.rd.length - 2) 0 == m.N &&
  m.lo == 0 && m.ro == 0 && m.batch.length == 0

/-- `lhs_batch_indices`, ops_matrix.c:159-169: the coordinate of a unit dimension is 0, the others are
taken from the batch index aligned to the right. -/
def batchIdx (dims bidx : List Nat) (nb : Nat) : List Nat :=
  (List.range nb).map fun d =>
    if dims.getD d 0 = 1 then 0 else bidx.getD (bidx.length - nb + d) 0

/-- One output element of the general path, ops_matrix.c:147-190. -/
def matmulCell (zero : α) (add mul : α → α → α) (lhs rhs : List α) (m : MatmulMeta) (idx : Nat) : Res α :=
  let mn := idx % (m.M * m.N)
  let b := (cUnravel m.batch (idx / (m.M * m.N))).1
  let i := mn / m.N
  let j := mn % m.N
  let lb := m.ld.length - 2
  let rb := m.rd.length - 2
  dotSum zero add mul lhs rhs m.K
    (fun k => cFlat m.lo (batchIdx m.ld b lb) (m.ls.take lb) + i * m.ls.getD lb 0 +
      k * m.ls.getD (lb + 1) 0)
    (fun k => cFlat m.ro (batchIdx m.rd b rb) (m.rs.take rb) + k * m.rs.getD rb 0 +
      j * m.rs.getD (rb + 1) 0)

/-- `hodu_cpu_matmul_<type>`, ops_matrix.c:70-193. -/
def matmulKernel (cores : Nat) (zero : α) (add mul : α → α → α) (lhs rhs : List α) (md : List Nat)
    (buf : List α) : Res (List α) :=
  (decodeMatmul md).bind fun m =>
    if m.fast then
      let T := rowThreadCount cores m.M 128
      if 1 < T then rowThreads zero add mul lhs rhs m.M m.K m.N T buf
      else Res.mapL (fun p : Nat × Nat => rowCell zero add mul lhs rhs m.K m.N p.1 p.2)
        (tilePairs m.M m.N)
    else guard16 m.batch.length (runLoop m.numEls (matmulCell zero add mul lhs rhs m))

/-- `call_ops_matmul`, be_cpu/storage/ops_matrix.rs:24-125.  `zero` is also the content of the
allocated buffer. -/
def callOpsMatmul (cores : Nat) (zero : α) (add mul : α → α → α) (a b : Tensor α) : Res (List α) :=
  let l := a.layout
  let r := b.layout
  if l.ndim < 2 ∨ r.ndim < 2 then .err
  else
    let m := l.dims.getD (l.ndim - 2) 0
    let n := r.dims.getD (r.ndim - 1) 0
    if l.dims.getD (l.ndim - 1) 0 ≠ r.dims.getD (r.ndim - 2) 0 then .err
    else (matmulBatch l.dims r.dims).bind fun batch =>
      let size := shapeSize (batch ++ [m, n])
      (matmulMetadata l r size).bind fun md =>
        matmulKernel cores zero add mul a.storage b.storage md (List.replicate size zero)

/-- `matmul_batched`, tensor/ops/matrix.rs:95-223 (eager branch).  The batch loop (127-153) is the
rule of `broadcast_tensors2`, from the last batch dimension to the first. -/
def Tensor.matmulBatched (cores : Nat) (zero : α) (add mul : α → α → α) (a b : Tensor α) :
    Res (Tensor α) :=
  let ln := a.dims.length
  let rn := b.dims.length
  if ln < 2 ∨ rn < 2 then .err
  else
    let m := a.dims.getD (ln - 2) 0
    let k := a.dims.getD (ln - 1) 0
    let k' := b.dims.getD (rn - 2) 0
    let n := b.dims.getD (rn - 1) 0
    if k ≠ k' then .err
    else (Tensor.broadcastDims (a.dims.take (ln - 2)) (b.dims.take (rn - 2))).bind fun batch =>
      (a.broadcast (batch ++ [m, k])).bind fun a' =>
      (b.broadcast (batch ++ [k', n])).bind fun b' =>
      (callOpsMatmul cores zero add mul a' b').bind fun s =>
        .ok { storage := s, layout := Layout.fromShape (batch ++ [m, n]) }

/-- `Tensor::matmul`, tensor/ops/matrix.rs:13-93. -/
def Tensor.matmul (cores : Nat) (zero : α) (add mul : α → α → α) (a b : Tensor α) : Res (Tensor α) :=
  match a.dims, b.dims with
  | [], _ => .err
  | _, [] => .err
  | [k1], [k2] =>
    if k1 ≠ k2 then .err
    else (Tensor.binary cores mul zero a b).bind fun p => p.sum add zero [] false
  | [_, k1], [k2] =>
    if k1 ≠ k2 then .err
    else (b.reshape [k2, 1]).bind fun b' => (a.dot2d cores zero add mul b').bind fun r => r.squeeze [-1]
  | [k1], [k2, _] =>
    if k1 ≠ k2 then .err
    else (a.reshape [1, k1]).bind fun a' => (a'.dot2d cores zero add mul b).bind fun r => r.squeeze [0]
  | [_, _], [_, _] => a.dot2d cores zero add mul b
  | _, _ => a.matmulBatched cores zero add mul b

end Hodu
