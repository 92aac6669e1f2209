import Verif.Model.ScanSort
import Verif.Model.CudaSelect
import Verif.Model.CudaMove

/-!
# Model of cumsum and topk on CUDA

Device side: crates/hodu_cuda_kernels/kernels/{ops_scan,ops_sort}.cu.  Launches:
crates/hodu_cuda_kernels/src/kernels/{ops_scan,ops_sort}.rs.  Hosts:
crates/hodu_core/src/be_cuda/storage/{ops_scan,ops_sort}.rs.
-/

namespace Hodu.Cuda

open _root_.Hodu

/-- Stores one after the other, e.g. ops_sort.cu:68-71. -/
def storeAll : List (Addr × V) → Prog V
  | [] => .done
  | c :: cs => .store c.1 c.2 (storeAll cs)

/-- A thread that computes its stores from `const` buffers only, e.g. ops_scan.cu:55-80.  Simplified: a read outside of
a buffer is noticed before the first store of the thread rather than between its stores. -/
def ofWrites : Res (List (Addr × V)) → Prog V
  | .ok ws => storeAll ws
  | _ => .ub

/-- A kernel without a loop over indices: thread `tid` returns if `tid >= n`, ops_scan.cu:51-53, ops_sort.cu:27-29.
Launched with blocks of 256, src/kernels/ops_scan.rs:63-70, src/kernels/ops_sort.rs:57-64. -/
def progOnce (n : Nat) (prog : Nat → Prog V) : PKernel V :=
  { threads := 256 * gridSize n, start := threadStart, next := fun _ => n, bound := n, prog := prog }

/-! ## cumsum -/

/-- The loop over `s` with an accumulator of type `B`, ops_scan.cu:58-80 (`B` the element type) and 124-146 (`B` is
`float`): position `outBase + s * outStep` gets the converted running sum. -/
def scanLineAcc (add : B → α → B) (ret : B → α) (inp : List α) (inBase inStep outBase outStep : Nat) :
    Nat → Nat → B → Res (List (Addr × α))
  | 0, _, _ => .ok []
  | fuel + 1, s, acc =>
    (readC inp (inBase + s * inStep)).bind fun x =>
      (scanLineAcc add ret inp inBase inStep outBase outStep fuel (s + 1) (add acc x)).map
        fun ws => ((bOut, outBase + s * outStep), ret (add acc x)) :: ws

/-- One thread, ops_scan.cu:55-80: `outer` is decomposed lowest dimension first (63-68), `inner` highest dimension
first (71-77). -/
def scanThread (zero : B) (add : B → α → B) (ret : B → α) (inp : List α) (md : List Nat)
    (nd off dim scanSize scanStride : Nat) (shape strides pre : List Nat) (outer inner : Nat) :
    Res (List (Addr × α)) :=
  if scanSize = 0 then .ok []
  else
    (sliceC md (2 + nd) dim).bind fun preS =>
    (sliceC (tailProds shape) 0 dim).bind fun preO =>
    (readC (tailProds shape) dim).bind fun outStep =>
      let a := cUnravelUp pre outer
      let b := (cUnravel (shape.drop (dim + 1)) inner).1
      scanLineAcc add ret inp
        (cFlat (cFlat off a preS) b (strides.drop (dim + 1))) scanStride
        (cFlat (cFlat 0 a preO) b ((tailProds shape).drop (dim + 1))) outStep
        scanSize 0 zero

/-- `call_ops_cumsum`, src/kernels/ops_scan.rs:36-86, with `hodu_cuda_cumsum_*`, ops_scan.cu:16-148: `shape[d]` for
`d < dim` is read on the host and panics beyond the rank; `out_strides` has 16 entries and is filled by every thread
(ops_scan.cu:33-37) before the test of `tid`. -/
def cumsumKernelCuda (zero : B) (add : B → α → B) (ret : B → α) (inp : List α) (md : List Nat) :
    Res (PKernel α) :=
  (readC md 1).bind fun nd =>
  (sliceC md 2 nd).bind fun shape =>
  (sliceC md (2 + nd) nd).bind fun strides =>
  (readC md (2 + 2 * nd)).bind fun off =>
  (readC md (3 + 2 * nd)).bind fun dim =>
  if nd < dim then .panic
  else if nd = 0 then .ok (progOnce 1 fun _ => ofWrites ((readC inp off).map fun v => [((bOut, 0), v)]))
  else if 16 < nd then .ub
  else
    let pre := shape.take dim
    let innerSize := shapeSize (shape.drop (dim + 1))
    (readC md (2 + dim)).bind fun scanSize =>
    (readC md (2 + nd + dim)).bind fun scanStride =>
      .ok (progOnce (shapeSize pre * innerSize) fun tid =>
        ofWrites (scanThread zero add ret inp md nd off dim scanSize scanStride shape strides pre
          (tid / innerSize) (tid % innerSize)))

/-- A kernel with several stores per thread as launched, its buffers and the shape of the result
(be_cuda/storage/ops_scan.rs:25-38). -/
structure PLaunched (V : Type) where
  kernel : PKernel V
  mem : Mem V
  len : Nat
  dims : List Nat

/-- `Tensor::cumsum`, tensor/ops/scan.rs:11-56 (eager branch), with `call_ops_cumsum`, be_cuda/storage/ops_scan.rs:10-119:
no arm for `bool` (`unreachable!`, 117).  `junk` is the content of the fresh output buffer. -/
def cumsumCuda (zero : B) (add : B → α → B) (ret : B → α) (dt : DType) (junk : Nat → α) (t : Tensor α) (dim : Int) :
    Res (PLaunched α) :=
  if dt = .bool then .panic
  else
    (cumsumKernelCuda zero add ret t.storage (scanMetadata t.layout (axisUsize t.dims.length dim))).bind fun k =>
      .ok { kernel := k, mem := Mem.ofBuf bOut ((List.range t.layout.size).map junk), len := t.layout.size
            dims := t.dims }

/-! ## topk -/

/-- The inner loop of the selection sort, ops_sort.cu:49-56. -/
def bestFrom (better : β → β → Bool) (arr : List β) (i : Nat) : Res Nat :=
  Res.foldL (fun b j => (readC arr j).bind fun x => (readC arr b).bind fun y => .ok (if better x y then j else b)) i
    (List.range' (i + 1) (arr.length - (i + 1)))

/-- One round of the selection sort, ops_sort.cu:48-65. -/
def selRound (better : β → β → Bool) (arr : List β) (i : Nat) : Res (List β) :=
  (bestFrom better arr i).bind fun b => if b ≠ i then swapC arr i b else .ok arr

/-- The selection sort, ops_sort.cu:48-65. -/
def selSort (better : β → β → Bool) (arr : List β) (rounds : Nat) : Res (List β) :=
  Res.foldL (selRound better) arr (List.range rounds)

/-- `actual_k`, `actual_dim`, ops_sort.cu:38-39. -/
def cap64 (n : Nat) : Nat := if n < 64 then n else 64

/-- One row, ops_sort.cu:31-71: the pairs that are stored.  `key` is the conversion to `float` (`TO_FLOAT` and the
assignment to `temp_vals[i]`, 43), `back` the conversion `(TYPE)temp_vals[i]` (69), which is undefined for an integer
type when the `float` is outside of it.  Local arrays hold
`cap64 last_dim_size` initialised entries. -/
def topkRowCuda [LT K] [DecidableRel (α := K) (· < ·)] (key : α → K) (back : K → Res α)
    (inp : List α) (base n k : Nat) (largest : Bool) : Res (List (α × Nat)) :=
  (Res.mapL (fun i => (readC inp (base + i)).map fun x => (key x, i)) (List.range (cap64 n))).bind fun temp =>
  (selSort (topkBetter largest) temp (min (cap64 k) (cap64 n))).bind fun sel =>
  Res.mapL (fun i => (readC sel i).bind fun p => (back p.1).map fun v => (v, p.2)) (List.range (cap64 k))

/-- Number of the buffer `indices` among the arguments of ops_sort.cu:18-19 (`values` is `bOut`). -/
abbrev bIndices : Nat := 2

/-- Thread `tid`, ops_sort.cu:31-71: rows of `k` outputs (32-33), a value and an index stored in turn (68-71). -/
def topkThread [LT K] [DecidableRel (α := K) (· < ·)] (key : α → K) (back : K → Res α)
    (inp : List α) (off n k : Nat) (largest : Bool) (tid : Nat) : Res (List (Addr × (α ⊕ Nat))) :=
  (topkRowCuda key back inp (off + tid * n) n k largest).map fun ps =>
    (ps.zipIdx).flatMap fun p => [((bOut, tid * k + p.2), .inl p.1.1), ((bIndices, tid * k + p.2), .inr p.1.2)]

/-- A launched `topk`: what `Tensor::topk` does with the buffers afterwards, tensor/ops/sort.rs:150-191. -/
structure TopkRun (α : Type) where
  kernel : PKernel (α ⊕ Nat)
  mem : Mem (α ⊕ Nat)
  len : Nat
  outShape : List Nat
  perm : Option (List Int)

/-- The buffer `values`, be_cuda/storage/ops_sort.rs:47-52. -/
def readVals (m : Mem (α ⊕ Nat)) (len : Nat) : List α := (m.read bOut len).filterMap fun v => v.getLeft?

/-- The buffer `indices`, be_cuda/storage/ops_sort.rs:53. -/
def readIdxs (m : Mem (α ⊕ Nat)) (len : Nat) : List Nat := (m.read bIndices len).filterMap fun v => v.getRight?

/-- The tensors made from the buffers, tensor/ops/sort.rs:160-191. -/
def TopkRun.result (r : TopkRun α) (m : Mem (α ⊕ Nat)) : Res (Tensor α × Tensor Nat) :=
  let values : Tensor α := ⟨readVals m r.len, Layout.fromShape r.outShape⟩
  let indices : Tensor Nat := ⟨readIdxs m r.len, Layout.fromShape r.outShape⟩
  match r.perm with
  | some perm => (values.permute perm).bind fun v => (indices.permute perm).bind fun i => .ok (v, i)
  | none => .ok (values, indices)

/-- The fresh buffers `values` and `indices`, be_cuda/storage/ops_sort.rs:36-37 (there of the same length). -/
def topkMem (lenV lenI : Nat) (junk : Nat → α) (junkI : Nat → Nat) : Mem (α ⊕ Nat) := fun a =>
  if a.1 = bOut then (if a.2 < lenV then some (.inl (junk a.2)) else none)
  else if a.1 = bIndices then (if a.2 < lenI then some (.inr (junkI a.2)) else none)
  else none

/-- `Tensor::topk`, tensor/ops/sort.rs:30-191 (eager branch), with `call_topk`, be_cuda/storage/ops_sort.rs:11-87 (an
error for `bool`) and src/kernels/ops_sort.rs:37-81: `sorted` is not used by the kernel (ops_sort.cu:72).  `none`: no
kernel is launched, the result is empty. -/
def topkCuda [LT K] [DecidableRel (α := K) (· < ·)] (key : α → K) (back : K → Res α) (dt : DType)
    (junk : Nat → α) (junkI : Nat → Nat) (t : Tensor α) (k : Nat) (dim : Int) (largest _sorted : Bool) :
    Res (Option (TopkRun α)) :=
  let nd := t.dims.length
  let d := axisUsize nd dim
  if nd = 0 then .err
  else if nd ≤ d then .err
  else if t.dims.getD d 0 < k then .err
  else if k = 0 then .ok none
  else
    let perm : List Int := ((List.range nd).set d (nd - 1)).set (nd - 1) d |>.map (Int.ofNat ·)
    (if d ≠ nd - 1 then t.permute perm else .ok t).bind fun input =>
    input.contiguous.bind fun input =>
      let last := input.dims.getD (nd - 1) 0
      let outer := shapeSize (input.dims.take (nd - 1))
      if dt = .bool then .err
      else .ok (some
        { kernel := progOnce outer fun tid =>
            ofWrites (topkThread key back t.storage input.layout.offset last k largest tid)
          mem := topkMem (k * outer) (k * outer) junk junkI
          len := k * outer
          outShape := input.dims.set (nd - 1) k
          perm := if d ≠ nd - 1 then some perm else none })

end Hodu.Cuda
