import Verif.Model.MetalScan
import Verif.Model.CudaLinalg

/-!
# Model of determinant, inverse and trace on Metal

Device side: crates/hodu_metal_kernels/kernels/ops_linalg.metal.  Launches:
crates/hodu_metal_kernels/src/kernels/ops_linalg.rs.  Hosts: crates/hodu_core/src/be_metal/storage/ops_linalg.rs.

The kernels compute in the element type; only the inverse of integer matrices of three and more rows is computed in
`float`.  Simplified: the comparison of the pivots, which ops_linalg.metal:102-111, 393-402 makes after a conversion to
`float`, is the comparison `o.lt` of the arithmetic; the conversion to `float` of ops_linalg.metal:490-491 is applied to
the whole input buffer at once.
-/

namespace Hodu.Metal

open _root_.Hodu Hodu.Cuda

/-- The types with kernels: ops_linalg.metal:269-281, 541-553, 610-622.  For the others loading the pipeline fails. -/
def linTypes : List DType := [.bf16, .f16, .f32, .i8, .i16, .i32, .i64, .u8, .u16, .u32, .u64]

/-- Launch of a kernel with one thread per matrix and one number per matrix, src/kernels/ops_linalg.rs:38-77, 166-205:
groups of `256.min(batch_size)` threads, as many as cover the batch (59-60); the number of matrices on the host is that of
the output shape (be_metal/storage/ops_linalg.rs:28-34), on the device that of the metadata (ops_linalg.metal:40, 47-48). -/
def linLaunch (one : LinMeta → Nat → Res α) (dt : DType) (t : Tensor α) : Res (Launched α) :=
  (linMetadata t.layout).bind fun md =>
    if !linTypes.contains dt then .err
    else (decodeLin md).bind fun m =>
      (linearSplit 256 (shapeSize (linOutDims t.dims))).bind fun threads =>
        .ok ⟨onceGrid threads m.batch (fun tid => one m (linBatchOffset m tid)) fun i => i,
          shapeSize (linOutDims t.dims), linOutDims t.dims⟩

/-! ## det -/

/-- Loop over the columns `ks`, ops_linalg.metal:100-146 (floats), 217-263 (integers).  `sing` is the test of the pivot:
`fabs((float)pivot) < 1e-15f` (126), `pivot == 0` (243).  The sign of the exchanges is also applied to the `0` of a matrix
taken for singular. -/
def detLoopMetal (o : Arith α) (sing : α → Bool) (n : Nat) : List Nat → List α → α → Nat → Res α
  | [], _, det, swaps => .ok (detSign o det swaps)
  | k :: ks, lu, det, swaps =>
    (pivotStep o lu n k n).bind fun r => (matGet r.1 n k k).bind fun pivot =>
      if sing pivot then .ok (detSign o o.zero (if r.2 then swaps + 1 else swaps))
      else (detEliminate o r.1 n k pivot).bind fun lu =>
        detLoopMetal o sing n ks lu (o.mul det pivot) (if r.2 then swaps + 1 else swaps)

/-- One determinant, ops_linalg.metal:67-148, 184-265: the formulas for up to three rows are those of
ops_linalg.c:67-87; `lu` has `MAX_DET_SIZE * MAX_DET_SIZE` entries (29, 88, 205) and is filled with `n * n`. -/
def detOneMetal (o : Arith α) (sing : α → Bool) (inp : List α) (m : LinMeta) (b : Nat) : Res α :=
  if m.n = 1 ∨ m.n = 2 ∨ m.n = 3 then detOne o inp m b
  else if 16 * 16 < m.n * m.n then .ub
  else (linCopy inp m b).bind fun lu => detLoopMetal o sing m.n (List.range m.n) lu o.one 0

/-- `Tensor::det`, tensor/ops/linalg.rs:23-90 (eager branch), with `call_ops_det`, be_metal/storage/ops_linalg.rs:9-65,
and `hodu_metal_det_*`, ops_linalg.metal:35-149, 152-266. -/
def detMetal (o : Arith α) (sing : α → Bool) (dt : DType) (t : Tensor α) : Res (Launched α) :=
  linLaunch (fun m b => detOneMetal o sing t.storage m b) dt t

/-! ## trace -/

/-- One trace, ops_linalg.metal:600-606. -/
def traceOne (zero : α) (add : α → α → α) (inp : List α) (m : LinMeta) (b : Nat) : Res α :=
  Res.foldL (fun s i => (linGet inp m b i i).bind fun v => .ok (add s v)) zero (List.range m.n)

/-- `Tensor::trace`, tensor/ops/linalg.rs:187-254 (eager branch), with `call_ops_trace`,
be_metal/storage/ops_linalg.rs:129-185, and `hodu_metal_trace_*`, ops_linalg.metal:570-607. -/
def traceMetal (zero : α) (add : α → α → α) (dt : DType) (t : Tensor α) : Res (Launched α) :=
  linLaunch (fun m b => traceOne zero add t.storage m b) dt t

/-! ## inv -/

/-- Launch of an inverse, src/kernels/ops_linalg.rs:103-142: a thread per matrix, which stores its `n * n` elements from
`tid * n * n` on (ops_linalg.metal:338, 469); the output buffer comes from the pool. -/
def invLaunch (one : LinMeta → Nat → Res (List α)) (dt : DType) (g : Given α) (t : Tensor α) : Res (PLaunched α) :=
  (linMetadata t.layout).bind fun md =>
    if !linTypes.contains dt then .err
    else (decodeLin md).bind fun m =>
      (linearSplit 256 (shapeSize (linOutDims t.dims))).bind fun threads =>
        .ok { kernel := progThreads threads m.batch fun tid =>
                ofWrites ((one m (linBatchOffset m tid)).map fun vs =>
                  vs.zipIdx.map fun p => ((bOut, tid * m.n * m.n + p.2), p.1))
              mem := pooled Mem.empty bOut (g.cells dt.sizeInBytes (shapeSize t.dims)) g.old
              len := shapeSize t.dims, dims := t.dims }

/-- One inverse of an integer matrix, ops_linalg.metal:471-537: up to two rows in the element type, dividing every entry
by the determinant (474-483), otherwise in `float` (`f`, `up`, `down` is the conversion back of 533-534); `aug` has
`MAX_INV_SIZE * MAX_INV_SIZE * 2` entries (486). -/
def invOneInt (o : Arith α) (f : Arith A) (up : α → A) (down : A → Res α) (inp : List α) (m : LinMeta) (b : Nat) :
    Res (List α) :=
  let g := linGet inp m b
  if m.n = 1 then (g 0 0).bind fun a => (o.div o.one a).bind fun v => .ok [v]
  else if m.n = 2 then
    (g 0 0).bind fun a => (g 0 1).bind fun b => (g 1 0).bind fun c => (g 1 1).bind fun d =>
      Res.mapL (fun x => o.div x (det2 o a b c d)) [d, o.neg b, o.neg c, a]
  else if 16 * 16 * 2 < m.n * (2 * m.n) then .ub
  else (augment f (inp.map up) m b).bind fun aug => (invLoop f m.n (List.range m.n) aug).bind fun aug =>
    (rightHalf aug m.n).bind fun vs => Res.mapL down vs

/-- `Tensor::inv`, tensor/ops/linalg.rs:109-170 (eager branch), with `call_ops_inv`,
be_metal/storage/ops_linalg.rs:67-127, and `hodu_metal_inv_*` for the float types, ops_linalg.metal:308-437: the body is
that of the CUDA kernel. -/
def invMetal (o : Arith α) (dt : DType) (g : Given α) (t : Tensor α) : Res (PLaunched α) :=
  invLaunch (fun m b => invOneCuda o t.storage m b) dt g t

/-- The same with `hodu_metal_inv_*` for the integer types, ops_linalg.metal:440-538. -/
def invIntMetal (o : Arith α) (f : Arith A) (up : α → A) (down : A → Res α) (dt : DType) (g : Given α) (t : Tensor α) :
    Res (PLaunched α) :=
  invLaunch (fun m b => invOneInt o f up down t.storage m b) dt g t

end Hodu.Metal
