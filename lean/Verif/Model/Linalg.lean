import Verif.Model.Matmul

/-!
# Model of determinant, inverse and trace

crates/hodu_core/src/tensor/ops/linalg.rs, crates/hodu_core/src/op_metadatas.rs,
crates/hodu_core/src/be_cpu/storage/ops_linalg.rs, crates/hodu_cpu_kernels/kernels/ops_linalg.c.
The element arithmetic is a parameter (`Arith`): exact fields for the floating-point types, integers with
truncating division for the integer types.  `malloc` succeeds.
-/

namespace Hodu

/-- Element arithmetic of the kernels `DET_OP` / `INV_OP` and of the functions passed to `DET_OP_EXOTIC` /
`INV_OP_EXOTIC`, ops_linalg.c:37-308, 321-620.  A division may fail (C integer division by zero).
`tiny` is the threshold `(TYPE)1e-15` of `DET_OP` (ops_linalg.c:139), absent in `DET_OP_EXOTIC`. -/
structure Arith (α : Type) where
  zero : α
  one : α
  add : α → α → α
  sub : α → α → α
  mul : α → α → α
  div : α → α → Res α
  neg : α → α
  lt : α → α → Bool
  tiny : Option α

/-- `if (v < 0) v = -v`, ops_linalg.c:107-108, 112-113, 137-138 (`ABS_FN` in the exotic kernels). -/
def Arith.abs (o : Arith α) (v : α) : α := if o.lt v o.zero then o.neg v else v

/-- Batch size, op_metadatas.rs:319-320, 372-373, 425-426: an empty product of batch dimensions is made 1. -/
def linBatch (dims : List Nat) : Nat :=
  if shapeSize (dims.take (dims.length - 2)) = 0 then 1 else shapeSize (dims.take (dims.length - 2))

/-- Shape check repeated in tensor/ops/linalg.rs:31-49, 113-131, 191-209, be_cpu/storage/ops_linalg.rs:21-37,
op_metadatas.rs:302-317: the size of the matrices. -/
def linCheck (dims : List Nat) : Res Nat :=
  if dims.length < 2 then .err
  else if dims.getD (dims.length - 1) 0 ≠ dims.getD (dims.length - 2) 0 then .err
  else .ok (dims.getD (dims.length - 1) 0)

/-- `det_metadata` / `inv_metadata` / `trace_metadata`, op_metadatas.rs:302-346, 355-399, 408-452. -/
def linMetadata (l : Layout) : Res (List Nat) :=
  (linCheck l.dims).bind fun n =>
    .ok ([linBatch l.dims, n, l.ndim] ++ l.dims ++ l.strides ++ [l.offset])

/-- Fields the kernels decode. -/
structure LinMeta where
  batch : Nat
  n : Nat
  shape : List Nat
  strides : List Nat
  offset : Nat
  rowStride : Nat
  colStride : Nat
  deriving Repr, DecidableEq

/-- Decoding prologue, ops_linalg.c:43-51, 327-334, 653-662. -/
def decodeLin (md : List Nat) : Res LinMeta :=
  (readC md 0).bind fun batch => (readC md 1).bind fun n => (readC md 2).bind fun nd =>
  (sliceC md 3 nd).bind fun shape => (sliceC md (3 + nd) nd).bind fun strides =>
  (readC md (3 + 2 * nd)).bind fun off =>
  (if 2 ≤ nd then readC strides (nd - 2) else .ok n).bind fun rs =>
  (if 1 ≤ nd then readC strides (nd - 1) else .ok 1).bind fun cs =>
  .ok ⟨batch, n, shape, strides, off, rs, cs⟩

/-- Offset of a batch entry, ops_linalg.c:55-65, 338-348, 666-676 (for two dimensions there is nothing to
add). -/
def linBatchOffset (m : LinMeta) (batch : Nat) : Nat :=
  cFlat m.offset (cUnravel (m.shape.take (m.shape.length - 2)) batch).1
    (m.strides.take (m.shape.length - 2))

/-- `DET_GET`, ops_linalg.c:33-34. -/
def linGet (inp : List α) (m : LinMeta) (b i j : Nat) : Res α :=
  readC inp (b + i * m.rowStride + j * m.colStride)

/-! ## Temporary matrices -/

/-- `A[i * w + j]` of a temporary matrix with rows of `w` elements. -/
def matGet (A : List α) (w i j : Nat) : Res α := readC A (i * w + j)

/-- `A[i * w + j] = v`. -/
def matSet (A : List α) (w i j : Nat) (v : α) : Res (List α) :=
  if i * w + j < A.length then .ok (A.set (i * w + j) v) else .ub

/-- Pivot search, ops_linalg.c:104-119, 397-412: the largest absolute value of column `k` from row `k` on,
and the first row holding it. -/
def pivotSearch (o : Arith α) (A : List α) (w k n : Nat) : Res Nat :=
  (matGet A w k k).bind fun v0 =>
    (Res.foldL (fun (s : α × Nat) i => (matGet A w i k).bind fun v =>
      .ok (if o.lt s.1 (o.abs v) then (o.abs v, i) else s)) (o.abs v0, k)
      ((List.range n).drop (k + 1))).bind fun s => .ok s.2

/-- Row exchange, ops_linalg.c:122-128, 415-421. -/
def rowSwap (A : List α) (w k p : Nat) : Res (List α) :=
  Res.foldL (fun A j => (matGet A w k j).bind fun tmp => (matGet A w p j).bind fun v =>
    (matSet A w k j v).bind fun A => matSet A w p j tmp) A (List.range w)

/-- `row i -= factor * row k` over the columns `js`, ops_linalg.c:150-152, 434-436. -/
def rowSub (o : Arith α) (A : List α) (w i k : Nat) (factor : α) (js : List Nat) : Res (List α) :=
  Res.foldL (fun A j => (matGet A w i j).bind fun a => (matGet A w k j).bind fun b =>
    matSet A w i j (o.sub a (o.mul factor b))) A js

/-! ## det -/

/-- Elimination below the pivot, ops_linalg.c:148-153. -/
def detEliminate (o : Arith α) (A : List α) (n k : Nat) (pivot : α) : Res (List α) :=
  Res.foldL (fun A i => (matGet A n i k).bind fun a => (o.div a pivot).bind fun factor =>
    rowSub o A n i k factor ((List.range n).drop k)) A ((List.range n).drop (k + 1))

/-- Pivot search and exchange, ops_linalg.c:103-130, 396-422; tells whether rows were exchanged. -/
def pivotStep (o : Arith α) (A : List α) (w k n : Nat) : Res (List α × Bool) :=
  (pivotSearch o A w k n).bind fun p =>
    if p ≠ k then (rowSwap A w k p).bind fun A => .ok (A, true) else .ok (A, false)

/-- The singularity test, ops_linalg.c:135-143; absent in the exotic kernels. -/
def detTiny (o : Arith α) (pivot : α) : Bool :=
  match o.tiny with
  | some t => o.lt (o.abs pivot) t
  | none => false

/-- Sign from the exchanges, ops_linalg.c:157-159. -/
def detSign (o : Arith α) (det : α) (swaps : Nat) : α := if swaps % 2 ≠ 0 then o.neg det else det

/-- Loop over the columns `ks`, ops_linalg.c:102-159 (exotic: 232-267). -/
def detLoop (o : Arith α) (n : Nat) : List Nat → List α → α → Nat → Res α
  | [], _, det, swaps => .ok (detSign o det swaps)
  | k :: ks, A, det, swaps =>
    (pivotStep o A n k n).bind fun r => (matGet r.1 n k k).bind fun pivot =>
      if detTiny o pivot then .ok o.zero
      else (detEliminate o r.1 n k pivot).bind fun A =>
        detLoop o n ks A (o.mul det pivot) (if r.2 then swaps + 1 else swaps)

/-- The copy into the temporary matrix, ops_linalg.c:91-96. -/
def linCopy (inp : List α) (m : LinMeta) (b : Nat) : Res (List α) :=
  (Res.mapL (fun i => Res.mapL (linGet inp m b i) (List.range m.n)) (List.range m.n)).bind fun rows =>
    .ok rows.flatten

/-- 2×2 determinant, ops_linalg.c:71-76. -/
def det2 (o : Arith α) (a b c d : α) : α := o.sub (o.mul a d) (o.mul b c)

/-- 3×3 determinant, ops_linalg.c:77-87. -/
def det3 (o : Arith α) (a b c d e f g h i : α) : α :=
  o.add (o.sub (o.mul a (o.sub (o.mul e i) (o.mul f h))) (o.mul b (o.sub (o.mul d i) (o.mul f g))))
    (o.mul c (o.sub (o.mul d h) (o.mul e g)))

/-- One determinant, ops_linalg.c:67-163 (exotic: 194-271). -/
def detOne (o : Arith α) (inp : List α) (m : LinMeta) (b : Nat) : Res α :=
  let g := linGet inp m b
  if m.n = 1 then g 0 0
  else if m.n = 2 then
    (g 0 0).bind fun a => (g 0 1).bind fun b => (g 1 0).bind fun c => (g 1 1).bind fun d =>
      .ok (det2 o a b c d)
  else if m.n = 3 then
    (g 0 0).bind fun a => (g 0 1).bind fun b => (g 0 2).bind fun c =>
    (g 1 0).bind fun d => (g 1 1).bind fun e => (g 1 2).bind fun f =>
    (g 2 0).bind fun g' => (g 2 1).bind fun h => (g 2 2).bind fun i =>
      .ok (det3 o a b c d e f g' h i)
  else (linCopy inp m b).bind fun A => detLoop o m.n (List.range m.n) A o.one 0

/-- `hodu_cpu_det_<type>`, ops_linalg.c:37-167, 170-275, into a buffer of `size` elements. -/
def detKernel (o : Arith α) (inp : List α) (md : List Nat) (size : Nat) : Res (List α) :=
  (decodeLin md).bind fun m =>
    (runLoop m.batch fun b => detOne o inp m (linBatchOffset m b)).bind fun out =>
      if out.length ≤ size then .ok out else .ub

/-- Output shape of `det` and `trace`, tensor/ops/linalg.rs:52-56, 212-216. -/
def linOutDims (dims : List Nat) : List Nat :=
  if dims.length = 2 then [1] else dims.take (dims.length - 2)

/-- `Tensor::det`, tensor/ops/linalg.rs:23-90 (eager branch), with `call_ops_det`,
be_cpu/storage/ops_linalg.rs:20-97. -/
def Tensor.det (o : Arith α) (t : Tensor α) : Res (Tensor α) :=
  (linMetadata t.layout).bind fun md =>
    (detKernel o t.storage md (shapeSize (linOutDims t.dims))).bind fun s =>
      .ok { storage := s, layout := Layout.fromShape (linOutDims t.dims) }

/-! ## inv -/

/-- `[A | I]`, ops_linalg.c:388-394. -/
def augment (o : Arith α) (inp : List α) (m : LinMeta) (b : Nat) : Res (List α) :=
  (Res.mapL (fun i => (Res.mapL (linGet inp m b i) (List.range m.n)).bind fun row =>
    .ok (row ++ (List.range m.n).map fun j => if i = j then o.one else o.zero)) (List.range m.n)).bind
      fun rows => .ok rows.flatten

/-- Scaling of the pivot row, ops_linalg.c:424-427. -/
def rowScale (o : Arith α) (A : List α) (w k : Nat) (pivot : α) : Res (List α) :=
  Res.foldL (fun A j => (matGet A w k j).bind fun a => (o.div a pivot).bind fun v => matSet A w k j v) A
    (List.range w)

/-- Elimination of column `k` in the other rows, ops_linalg.c:430-438. -/
def invEliminate (o : Arith α) (A : List α) (n k : Nat) : Res (List α) :=
  Res.foldL (fun A i => if i ≠ k then (matGet A (2 * n) i k).bind fun factor =>
    rowSub o A (2 * n) i k factor (List.range (2 * n)) else .ok A) A (List.range n)

/-- Loop over the columns `ks`, ops_linalg.c:396-439. -/
def invLoop (o : Arith α) (n : Nat) : List Nat → List α → Res (List α)
  | [], A => .ok A
  | k :: ks, A =>
    (pivotStep o A (2 * n) k n).bind fun r => (matGet r.1 (2 * n) k k).bind fun pivot =>
      (rowScale o r.1 (2 * n) k pivot).bind fun A => (invEliminate o A n k).bind fun A =>
        invLoop o n ks A

/-- The right half, ops_linalg.c:442-446. -/
def rightHalf (A : List α) (n : Nat) : Res (List α) :=
  (Res.mapL (fun i => Res.mapL (fun j => matGet A (2 * n) i (n + j)) (List.range n)) (List.range n)).bind
    fun rows => .ok rows.flatten

/-- One inverse, ops_linalg.c:352-450 (exotic: 490-595), as the list of its `n * n` elements. -/
def invOne (o : Arith α) (inp : List α) (m : LinMeta) (b : Nat) : Res (List α) :=
  let g := linGet inp m b
  if m.n = 1 then (g 0 0).bind fun a => (o.div o.one a).bind fun v => .ok [v]
  else if m.n = 2 then
    (g 0 0).bind fun a => (g 0 1).bind fun b => (g 1 0).bind fun c => (g 1 1).bind fun d =>
      (o.div o.one (det2 o a b c d)).bind fun r =>
        .ok [o.mul d r, o.mul (o.neg b) r, o.mul (o.neg c) r, o.mul a r]
  else if m.n = 3 then
    (g 0 0).bind fun a => (g 0 1).bind fun b => (g 0 2).bind fun c =>
    (g 1 0).bind fun d => (g 1 1).bind fun e => (g 1 2).bind fun f =>
    (g 2 0).bind fun g' => (g 2 1).bind fun h => (g 2 2).bind fun i =>
      (o.div o.one (det3 o a b c d e f g' h i)).bind fun r =>
        .ok [o.mul (o.sub (o.mul e i) (o.mul f h)) r, o.mul (o.sub (o.mul c h) (o.mul b i)) r,
          o.mul (o.sub (o.mul b f) (o.mul c e)) r, o.mul (o.sub (o.mul f g') (o.mul d i)) r,
          o.mul (o.sub (o.mul a i) (o.mul c g')) r, o.mul (o.sub (o.mul c d) (o.mul a f)) r,
          o.mul (o.sub (o.mul d h) (o.mul e g')) r, o.mul (o.sub (o.mul b g') (o.mul a h)) r,
          o.mul (o.sub (o.mul a e) (o.mul b d)) r]
  else (augment o inp m b).bind fun A => (invLoop o m.n (List.range m.n) A).bind fun A => rightHalf A m.n

/-- `hodu_cpu_inv_<type>`, ops_linalg.c:321-598, into a buffer of `size` elements. -/
def invKernel (o : Arith α) (inp : List α) (md : List Nat) (size : Nat) : Res (List α) :=
  (decodeLin md).bind fun m =>
    (runLoop m.batch fun b => invOne o inp m (linBatchOffset m b)).bind fun out =>
      if out.flatten.length ≤ size then .ok out.flatten else .ub

/-- `Tensor::inv`, tensor/ops/linalg.rs:109-170 (eager branch), with `call_ops_inv`,
be_cpu/storage/ops_linalg.rs:110-. -/
def Tensor.inv (o : Arith α) (t : Tensor α) : Res (Tensor α) :=
  (linMetadata t.layout).bind fun md =>
    (invKernel o t.storage md (shapeSize t.dims)).bind fun s =>
      .ok { storage := s, layout := Layout.fromShape t.dims }

/-! ## trace -/

/-- `hodu_cpu_trace_<type>`, ops_linalg.c:645-722, into a buffer of `size` elements. -/
def traceKernel (zero : α) (add : α → α → α) (inp : List α) (md : List Nat) (size : Nat) : Res (List α) :=
  (decodeLin md).bind fun m =>
    (runLoop m.batch fun b => Res.foldL (fun s i =>
      (linGet inp m (linBatchOffset m b) i i).bind fun v => .ok (add s v)) zero (List.range m.n)).bind fun out =>
      if out.length ≤ size then .ok out else .ub

/-- `Tensor::trace`, tensor/ops/linalg.rs:187-254 (eager branch). -/
def Tensor.trace (zero : α) (add : α → α → α) (t : Tensor α) : Res (Tensor α) :=
  (linMetadata t.layout).bind fun md =>
    (traceKernel zero add t.storage md (shapeSize (linOutDims t.dims))).bind fun s =>
      .ok { storage := s, layout := Layout.fromShape (linOutDims t.dims) }

end Hodu
