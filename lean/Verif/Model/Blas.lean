import Verif.Model.Conv

/-!
# Model of the kernels built on BLAS

With the cargo feature `openblas` (crates/hodu_cpu_kernels/build.rs:137-148) and, without that
feature, on every macOS target (build.rs:150-158), the `f32` and `f64` kernels of `dot`, `matmul`,
`conv2d`, `conv2d_grad_weight` and `mul_scalar` are replaced by versions that call BLAS:
kernels/ops_matrix_openblas.c, ops_conv_openblas.c, ops_unary_openblas.c and the three files
`*_blas_aarch64_apple_darwin.c`, whose text is the same apart from the thread settings.  The plain
kernels remain as fallback.

Simplified: BLAS itself is external; `gemm` below is its documented effect with one particular order of
the additions (an implementation may add in another order).  `alpha` is 1 in every call.  The column buffer of
the convolutions is taken to be allocated (otherwise the fallback runs).  Sizes are not truncated to
BLAS's integer type.  The `f32` and `f64` copies have the same text; the element type is a parameter.
-/

namespace Hodu.Blas

/-- Address of element `(r, c)` of `op(A)`, where `A` starts at `base` with leading dimension `ld`, in
`CblasRowMajor` order: `trans` stands for `CblasTrans` (calls: ops_matrix_openblas.c:89-90, 135-136). -/
def opAddr (trans : Bool) (base ld r c : Nat) : Nat :=
  if trans then base + c * ld + r else base + r * ld + c

/-- The test of the leading dimensions in `cblas_sgemm` / `cblas_dgemm` (external): at least the row
length of the stored matrix, and at least 1. -/
def legal (ta tb : Bool) (M N K lda ldb ldc : Nat) : Bool :=
  max 1 (if ta then M else K) ≤ lda && max 1 (if tb then K else N) ≤ ldb && max 1 N ≤ ldc

/-- One element of the result: `C[i, j] = beta * C[i, j] + Σ_k op(A)[i, k] * op(B)[k, j]`; with `beta = 0`
the old value is not read. -/
def gemmCell (zero : α) (add mul : α → α → α) (ta tb : Bool) (K : Nat) (A : List α) (a0 lda : Nat)
    (B : List α) (b0 ldb : Nat) (beta : Bool) (c0 ldc : Nat) (C : List α) (p : Nat × Nat) : Res (List α) :=
  (dotSum zero add mul A B K (fun k => opAddr ta a0 lda p.1 k) (fun k => opAddr tb b0 ldb k p.2)).bind
    fun v => (readC C (c0 + p.1 * ldc + p.2)).bind fun c =>
      .ok (C.set (c0 + p.1 * ldc + p.2) (if beta then add c v else v))

/-- `cblas_sgemm` / `cblas_dgemm` (external) with `CblasRowMajor`, `alpha = 1`, `beta` 0 or 1: with
arguments that fail the test an error is printed and nothing is written. -/
def gemm (zero : α) (add mul : α → α → α) (ta tb : Bool) (M N K : Nat) (A : List α) (a0 lda : Nat)
    (B : List α) (b0 ldb : Nat) (beta : Bool) (C : List α) (c0 ldc : Nat) : Res (List α) :=
  if legal ta tb M N K lda ldb ldc then
    Res.foldL (gemmCell zero add mul ta tb K A a0 lda B b0 ldb beta c0 ldc) C (tilePairs M N)
  else .ok C

/-! ## Matrix products -/

/-- Whether a matrix with strides `s0`, `s1` is passed to BLAS as transposed: `lhs_row_major ?
CblasNoTrans : CblasTrans`, ops_matrix_openblas.c:47-55, 308-315. -/
def transposed (s1 : Nat) : Bool := !(s1 == 1)

/-- `lhs_row_major || lhs_col_major`, ops_matrix_openblas.c:53, 313. -/
def usable (s0 s1 : Nat) : Bool := s1 == 1 || s0 == 1

/-- The leading dimension of a matrix with `rows` rows and `cols` columns, ops_matrix_openblas.c:58-78,
317-334: the stride of the other dimension, raised if it is below the row length of the stored
matrix. -/
def leading (s0 s1 rows cols : Nat) : Nat :=
  let ld := if s1 == 1 then s0 else s1
  let need := if s1 == 1 then cols else rows
  if ld < need then need else ld

/-- `hodu_cpu_dot_f32`, `hodu_cpu_dot_f64`, ops_matrix_openblas.c:286-341, 344-398. -/
def dotKernel (cores : Nat) (zero : α) (add mul : α → α → α) (lhs rhs : List α) (md : List Nat)
    (buf : List α) : Res (List α) :=
  (decodeDot md).bind fun m =>
    if usable m.lm m.lk && usable m.rk m.rn then
      gemm zero add mul (transposed m.lk) (transposed m.rn) m.M m.N m.K
        lhs m.lo (leading m.lm m.lk m.M m.K) rhs m.ro (leading m.rk m.rn m.K m.N) false buf 0 m.N
    else Hodu.dotKernel cores zero add mul lhs rhs md

/-- One turn of the batch loop for one operand, ops_matrix_openblas.c:124-134: with `i` counting down
from `batch_ndim`, dimension `i - 1` of the batch shape is paired with dimension `ndim - 2 - i` of the
operand (an index below zero is outside the arrays). -/
def batchStep (dims strides batch : List Nat) (st : Res (Nat × Nat)) (i : Nat) : Res (Nat × Nat) :=
  st.bind fun (idx, off) => (readC batch (i - 1)).bind fun n =>
    if n = 0 then .ub
    else if dims.length < 2 + i then .ub
    else (readC dims (dims.length - 2 - i)).bind fun d =>
      (readC strides (dims.length - 2 - i)).bind fun s =>
        .ok (idx / n, off + (if d = 1 then 0 else idx % n) * s)

/-- `lhs_batch_offset`, ops_matrix_openblas.c:117-134. -/
def batchOffset (dims strides batch : List Nat) (bidx : Nat) : Res Nat :=
  (((List.range batch.length).reverse.map (· + 1)).foldl (batchStep dims strides batch)
    (.ok (bidx, 0))).map (·.2)

/-- One turn of the loop over the batches, ops_matrix_openblas.c:115-142. -/
def batchGemm (zero : α) (add mul : α → α → α) (lhs rhs : List α) (m : MatmulMeta) (C : List α)
    (bidx : Nat) : Res (List α) :=
  let l0 := m.ls.getD (m.ld.length - 2) 0
  let l1 := m.ls.getD (m.ld.length - 1) 0
  let r0 := m.rs.getD (m.rd.length - 2) 0
  let r1 := m.rs.getD (m.rd.length - 1) 0
  (batchOffset m.ld m.ls m.batch bidx).bind fun lb =>
  (batchOffset m.rd m.rs m.batch bidx).bind fun rb =>
    gemm zero add mul (transposed l1) (transposed r1) m.M m.N m.K lhs (m.lo + lb)
      (leading l0 l1 m.M m.K) rhs (m.ro + rb) (leading r0 r1 m.K m.N) false C (bidx * (m.M * m.N)) m.N

/-- `hodu_cpu_matmul_f32`, `hodu_cpu_matmul_f64`, ops_matrix_openblas.c:19-152, 155-282.  The branch
without batch dimensions (80-98) is the batch loop with one turn and no offsets. -/
def matmulKernel (cores : Nat) (zero : α) (add mul : α → α → α) (lhs rhs : List α) (md : List Nat)
    (buf : List α) : Res (List α) :=
  (decodeMatmul md).bind fun m =>
    if usable (m.ls.getD (m.ld.length - 2) 0) (m.ls.getD (m.ld.length - 1) 0) &&
        usable (m.rs.getD (m.rd.length - 2) 0) (m.rs.getD (m.rd.length - 1) 0) then
      Res.foldL (batchGemm zero add mul lhs rhs m) buf (List.range (shapeSize m.batch))
    else Hodu.matmulKernel cores zero add mul lhs rhs md buf

/-- `call_ops_dot`, be_cpu/storage/ops_matrix.rs:201-262; `init n` is the content of a freshly
allocated buffer of `n` cells (`CpuDevice::allocate` does not initialise it). -/
def callOpsDot (cores : Nat) (zero : α) (add mul : α → α → α) (init : Nat → List α) (a b : Tensor α) :
    Res (List α) :=
  if a.layout.ndim ≠ 2 ∨ b.layout.ndim ≠ 2 then .err
  else (dotMetadata a.layout b.layout).bind fun md =>
    dotKernel cores zero add mul a.storage b.storage md
      (init (shapeSize [a.dims.getD 0 0, b.dims.getD 1 0]))

/-- `dot_2d`, tensor/ops/matrix.rs:302-371 (eager branch). -/
def dot2d (cores : Nat) (zero : α) (add mul : α → α → α) (init : Nat → List α) (a b : Tensor α) :
    Res (Tensor α) :=
  (readR a.dims 0).bind fun m => (readR a.dims 1).bind fun k1 =>
  (readR b.dims 0).bind fun k2 => (readR b.dims 1).bind fun n =>
  if k1 ≠ k2 then .err
  else (callOpsDot cores zero add mul init a b).bind fun s =>
    .ok { storage := s, layout := Layout.fromShape [m, n] }

/-- `call_ops_matmul`, be_cpu/storage/ops_matrix.rs:24-125. -/
def callOpsMatmul (cores : Nat) (zero : α) (add mul : α → α → α) (init : Nat → List α)
    (a b : Tensor α) : Res (List α) :=
  let l := a.layout
  let r := b.layout
  if l.ndim < 2 ∨ r.ndim < 2 then .err
  else
    let m := l.dims.getD (l.ndim - 2) 0
    let n := r.dims.getD (r.ndim - 1) 0
    if l.dims.getD (l.ndim - 1) 0 ≠ r.dims.getD (r.ndim - 2) 0 then .err
    else (matmulBatch l.dims r.dims).bind fun batch =>
      let size := shapeSize (batch ++ [m, n])
      (matmulMetadata l r size).bind fun md =>
        matmulKernel cores zero add mul a.storage b.storage md (init size)

/-- `matmul_batched`, tensor/ops/matrix.rs:95-223 (eager branch). -/
def matmulBatched (cores : Nat) (zero : α) (add mul : α → α → α) (init : Nat → List α)
    (a b : Tensor α) : Res (Tensor α) :=
  let ln := a.dims.length
  let rn := b.dims.length
  if ln < 2 ∨ rn < 2 then .err
  else
    let m := a.dims.getD (ln - 2) 0
    let k := a.dims.getD (ln - 1) 0
    let k' := b.dims.getD (rn - 2) 0
    let n := b.dims.getD (rn - 1) 0
    if k ≠ k' then .err
    else (Tensor.broadcastDims (a.dims.take (ln - 2)) (b.dims.take (rn - 2))).bind fun batch =>
      (a.broadcast (batch ++ [m, k])).bind fun a' =>
      (b.broadcast (batch ++ [k', n])).bind fun b' =>
      (callOpsMatmul cores zero add mul init a' b').bind fun s =>
        .ok { storage := s, layout := Layout.fromShape (batch ++ [m, n]) }

/-! ## Convolution -/

/-- One cell of the column buffer, ops_conv_openblas.c:33-43: the input value under a tap, or zero in
the padding; `x0` is where the image starts. -/
def colCell (zero : α) (inp : List α) (axes : List ConvAxis) (x0 : Nat) (v : List Nat) : Res α :=
  match v.drop axes.length with
  | ic :: k => (cTaps (·.n) axes (v.take axes.length) k).bind fun
    | none => .ok zero
    | some i => readC inp (x0 + cOffset (axes.map (·.n)) (ic :: i))
  | [] => .ok zero

/-- `im2col_f32`, `im2col_f64`, ops_conv_openblas.c:22-50, 53-81: the cells in the order output row,
output column, input channel, kernel row, kernel column. -/
def im2col (zero : α) (inp : List α) (axes : List ConvAxis) (inC x0 : Nat) : Res (List α) :=
  Res.mapL (colCell zero inp axes x0) (loops (axes.map (·.o) ++ inC :: axes.map (·.k)))

/-- One image of `hodu_cpu_conv2d_f32`, ops_conv_openblas.c:122-135. -/
def convImage (zero : α) (add mul : α → α → α) (inp w : List α) (m : ConvMeta) (C : List α) (b : Nat) :
    Res (List α) :=
  let K := m.inC * shapeSize (m.axes.map (·.k))
  let N := shapeSize (m.axes.map (·.o))
  (im2col zero inp m.axes m.inC (m.inOff + b * shapeSize (m.inC :: m.axes.map (·.n)))).bind fun col =>
    gemm zero add mul false false m.outC N K w m.wOff K col 0 N false C (b * (m.outC * N)) N

/-- `hodu_cpu_conv2d_f32`, `hodu_cpu_conv2d_f64`, ops_conv_openblas.c:84-138, 141-195 (the first entry
of the metadata is not read here; it is present in any case). -/
def convKernel (zero : α) (add mul : α → α → α) (inp w : List α) (md : List Nat) (buf : List α) :
    Res (List α) :=
  (decodeConv 2 md).bind fun m =>
    Res.foldL (convImage zero add mul inp w m) buf (List.range m.batch)

/-- `Tensor::conv2d` on the CPU (eager branch), tensor/ops/conv.rs:138-262, and `call_ops_conv`,
be_cpu/storage/ops_conv.rs:25-259. -/
def conv2d (zero : α) (add mul : α → α → α) (init : Nat → List α) (x w : Tensor α) (s p d : Nat) :
    Res (Tensor α) :=
  if x.dims.length ≠ 4 ∨ w.dims.length ≠ 4 then .err
  else if x.dims.getD 1 0 ≠ w.dims.getD 1 0 then .err
  else (convSizes (convOutSize · · s p d) (x.dims.drop 2) (w.dims.drop 2)).bind fun outs =>
    (callOpsConv (convOutSize · · s p d) (fun inp wt md => convKernel zero add mul inp wt md
      (init (shapeSize ([x.dims.getD 0 0, w.dims.getD 0 0] ++ outs)))) 2 x w s p d).bind fun st =>
      .ok ⟨st, Layout.fromShape ([x.dims.getD 0 0, w.dims.getD 0 0] ++ outs)⟩

/-- One image of `hodu_cpu_conv2d_grad_weight_f32`, ops_conv_openblas.c:265-279. -/
def gradImage (zero : α) (add mul : α → α → α) (inp g : List α) (m : ConvGradMeta) (C : List α) (b : Nat) :
    Res (List α) :=
  let K := m.inC * shapeSize (m.axes.map (·.k))
  let N := shapeSize (m.axes.map (·.o))
  (im2col zero inp m.axes m.inC (m.inOff + b * shapeSize (m.inC :: m.axes.map (·.n)))).bind fun col =>
    gemm zero add mul false true m.outC K N g (m.gOff + b * (m.outC * N)) N col 0 N true C 0 K

/-- `hodu_cpu_conv2d_grad_weight_f32`, `_f64`, ops_conv_openblas.c:198-282, 285-369: the plain kernel
unless the strides of the output gradient are the row-major ones (230-244). -/
def convGradKernel (zero : α) (add mul : α → α → α) (inp g : List α) (md : List Nat) : Res (List α) :=
  (decodeConvGrad 2 md).bind fun m =>
    let os := m.axes.map (·.o)
    if m.gs = [shapeSize (m.outC :: os), shapeSize os, shapeSize os.tail, 1] then
      Res.foldL (gradImage zero add mul inp g m) (List.replicate m.numEls zero) (List.range m.batch)
    else Hodu.convGradKernel zero add mul 2 inp g md

/-- `Tensor::conv2d_grad_weight` on the CPU, tensor/ops/conv.rs:893-978, and
`call_ops_conv_grad_weight`, be_cpu/storage/ops_conv.rs:277-385. -/
def conv2dGradW (zero : α) (add mul : α → α → α) (x g : Tensor α) (wdims : List Nat) (s p d : Nat) :
    Res (Tensor α) :=
  if x.dims.length ≠ 4 ∨ g.dims.length ≠ 4 ∨ wdims.length ≠ 4 then .err
  else (convGradKernel zero add mul x.storage g.storage (convGradMetadata x.layout g.layout wdims
    (List.replicate 2 s) (List.replicate 2 p) (List.replicate 2 d) 2)).bind fun st =>
      .ok ⟨st, Layout.fromShape wdims⟩

/-! ## Multiplication by a scalar -/

/-- `hodu_cpu_mul_scalar_f32`, `_f64`, ops_unary_openblas.c:13-43, 46-76, with `input` not NULL: copy
and scale in place if the input is contiguous and starts at 0 (`cblas_scopy` reads `num_els` elements),
otherwise the plain kernel. -/
def mulScalarKernel (cores : Nat) (mul : α → α → α) (c : α) (inp : List α) (md : List Nat)
    (buf : List α) : Res (List α) :=
  (decodeUnary md).bind fun m =>
    if cIsContiguous m.dims m.strides && m.offset == 0 then
      (runLoop m.numEls fun i => readC inp i).map (·.map (mul · c))
    else unaryKernel cores (mul · c) inp md buf

end Hodu.Blas
