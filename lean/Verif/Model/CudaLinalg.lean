import Verif.Model.CudaScan
import Verif.Model.Linalg

/-!
# Model of determinant, inverse and trace on CUDA

crates/hodu_cuda_kernels/kernels/ops_linalg.cu, crates/hodu_cuda_kernels/src/kernels/ops_linalg.rs,
crates/hodu_core/src/be_cuda/storage/ops_linalg.rs.

The kernels compute in `float` whatever the element type is; `o` is that arithmetic, `up` is `to_float`, `down` is
`from_float<TYPENAME>`.  Simplified: the conversion is applied to the whole input buffer at once (`inp.map up`) instead
of to every element that is read.
-/

namespace Hodu.Cuda

open _root_.Hodu

/-- `CudaFunctionExt::launch`, src/cuda.rs:28-41: the caller must pass the arguments of the kernel's signature
(src/cuda.rs:11-17); the driver reads one pointer for each of the `params` parameters from an array of `args` pointers. -/
def launchArgs (params args : Nat) (k : Res κ) : Res κ := if args < params then .ub else k

/-- Element types with an arm in be_cuda/storage/ops_linalg.rs:64-90, 151-177, 229-255. -/
def linArms : List DType := [.f32, .f64, .f16, .bf16]

/-! ## det -/

/-- Loop over the columns `ks`, ops_linalg.cu:92-138: the sign of the exchanges is also applied to the `0.0f` of a matrix
taken for singular (`break`, 123-126, then 135-138). -/
def detLoopCuda (o : Arith A) (n : Nat) : List Nat → List A → A → Nat → Res A
  | [], _, det, swaps => .ok (detSign o det swaps)
  | k :: ks, lu, det, swaps =>
    (pivotStep o lu n k n).bind fun r => (matGet r.1 n k k).bind fun pivot =>
      if detTiny o pivot then .ok (detSign o o.zero (if r.2 then swaps + 1 else swaps))
      else (detEliminate o r.1 n k pivot).bind fun lu =>
        detLoopCuda o n ks lu (o.mul det pivot) (if r.2 then swaps + 1 else swaps)

/-- One determinant, ops_linalg.cu:56-139: the formulas for up to three rows are those of ops_linalg.c:67-87; `lu` has
`MAX_DET_SIZE * MAX_DET_SIZE` entries (23, 80) and is filled with `n * n` (83-88). -/
def detOneCuda (o : Arith A) (inp : List A) (m : LinMeta) (b : Nat) : Res A :=
  if m.n = 1 ∨ m.n = 2 ∨ m.n = 3 then detOne o inp m b
  else if 16 * 16 < m.n * m.n then .ub
  else (linCopy inp m b).bind fun lu => detLoopCuda o m.n (List.range m.n) lu o.one 0

/-- `hodu_cuda_det_*`, ops_linalg.cu:28-142, launched with a thread per matrix, src/kernels/ops_linalg.rs:48-57 (the
size of the grid is that of `batch_size`, at least one block). -/
def detLoopOf (o : Arith A) (up : α → A) (down : A → α) (inp : List α) (md : List Nat) : Res (Loop α) :=
  (decodeLin md).bind fun m =>
    .ok (onceLoop m.batch fun tid => (detOneCuda o (inp.map up) m (linBatchOffset m tid)).map down)

/-- `Tensor::det`, tensor/ops/linalg.rs:23-90 (eager branch), with `call_ops_det`, be_cuda/storage/ops_linalg.rs:10-91
and src/kernels/ops_linalg.rs:33-72: three arguments for the three parameters of ops_linalg.cu:29-30. -/
def detCuda (o : Arith A) (up : α → A) (down : A → α) (dt : DType) (t : Tensor α) : Res (Launched α) :=
  (linMetadata t.layout).bind fun md =>
    if dt ∈ linArms then
      launchArgs 3 3 ((detLoopOf o up down t.storage md).bind fun k =>
        .ok ⟨k, shapeSize (linOutDims t.dims), linOutDims t.dims⟩)
    else .err

/-! ## inv -/

/-- One inverse, ops_linalg.cu:213-318, as the list of its `n * n` elements: the formulas for up to three rows are those
of ops_linalg.c:352-385; `aug` has `MAX_INV_SIZE * MAX_INV_SIZE * 2` entries (178, 264) and is filled with
`2 * n * n` (267-273); there is no test of the pivot. -/
def invOneCuda (o : Arith A) (inp : List A) (m : LinMeta) (b : Nat) : Res (List A) :=
  if m.n = 1 ∨ m.n = 2 ∨ m.n = 3 then invOne o inp m b
  else if 16 * 16 * 2 < m.n * (2 * m.n) then .ub
  else (augment o inp m b).bind fun aug => (invLoop o m.n (List.range m.n) aug).bind fun aug => rightHalf aug m.n

/-- Thread `tid`, ops_linalg.cu:197-320: its matrix starts at `tid * n * n` (211) and is stored row by row (`INV_SET`,
180-181). -/
def invThread (o : Arith A) (up : α → A) (down : A → α) (inp : List α) (m : LinMeta) (tid : Nat) :
    Res (List (Addr × α)) :=
  (invOneCuda o (inp.map up) m (linBatchOffset m tid)).map fun vs =>
    vs.zipIdx.map fun p => ((bOut, tid * m.n * m.n + p.2), down p.1)

/-- `hodu_cuda_inv_*`, ops_linalg.cu:183-321, launched with a thread per matrix, src/kernels/ops_linalg.rs:110-119. -/
def invKernelCuda (o : Arith A) (up : α → A) (down : A → α) (inp : List α) (md : List Nat) : Res (PKernel α) :=
  (decodeLin md).bind fun m => .ok (progOnce m.batch fun tid => ofWrites (invThread o up down inp m tid))

/-- `Tensor::inv`, tensor/ops/linalg.rs:109-170 (eager branch), with `call_ops_inv`, be_cuda/storage/ops_linalg.rs:93-178
and src/kernels/ops_linalg.rs:95-134: three arguments for the three parameters of ops_linalg.cu:184-185.  `junk` is the
content of the fresh output buffer. -/
def invCuda (o : Arith A) (up : α → A) (down : A → α) (dt : DType) (junk : Nat → α) (t : Tensor α) :
    Res (PLaunched α) :=
  (linMetadata t.layout).bind fun md =>
    if dt ∈ linArms then
      launchArgs 3 3 ((invKernelCuda o up down t.storage md).bind fun k =>
        .ok { kernel := k, mem := Mem.ofBuf bOut ((List.range (shapeSize t.dims)).map junk), len := shapeSize t.dims
              dims := t.dims })
    else .err

/-! ## trace -/

/-- `hodu_cuda_trace_*`, ops_linalg.cu:354-389: the number of matrices is not taken from the metadata but from the fourth
parameter. -/
def traceLoopOf (zero : A) (add : A → A → A) (up : α → A) (down : A → α) (inp : List α) (md : List Nat)
    (batch : Nat) : Res (Loop α) :=
  (decodeLin md).bind fun m =>
    .ok (onceLoop batch fun tid => (Res.foldL (fun s i =>
      (linGet (inp.map up) m (linBatchOffset m tid) i i).bind fun v => .ok (add s v)) zero (List.range m.n)).map down)

/-- `Tensor::trace`, tensor/ops/linalg.rs:187-254 (eager branch), with `call_ops_trace`,
be_cuda/storage/ops_linalg.rs:180-256, if `args` arguments are pushed for the four parameters of
ops_linalg.cu:355-356. -/
def traceWith (args : Nat) (zero : A) (add : A → A → A) (up : α → A) (down : A → α) (dt : DType) (t : Tensor α) :
    Res (Launched α) :=
  (linMetadata t.layout).bind fun md =>
    if dt ∈ linArms then
      launchArgs 4 args ((traceLoopOf zero add up down t.storage md (shapeSize (linOutDims t.dims))).bind fun k =>
        .ok ⟨k, shapeSize (linOutDims t.dims), linOutDims t.dims⟩)
    else .err

/-- `Tensor::trace` with src/kernels/ops_linalg.rs:155-194: input, output and metadata are pushed (187), the number of
matrices is not. -/
def traceCuda (zero : A) (add : A → A → A) (up : α → A) (down : A → α) (dt : DType) (t : Tensor α) :
    Res (Launched α) :=
  traceWith 3 zero add up down dt t

end Hodu.Cuda
