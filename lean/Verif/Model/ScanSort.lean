import Verif.Model.Indexing

/-!
# Model of cumsum and topk

Host side: crates/hodu_core/src/tensor/ops/scan.rs, tensor/ops/sort.rs, be_cpu/storage/ops_scan.rs,
be_cpu/storage/ops_sort.rs, op_metadatas.rs:1406-1480.  Kernels:
crates/hodu_cpu_kernels/kernels/ops_scan.c, ops_sort.c.
-/

namespace Hodu

/-! ## cumsum -/

/-- `scan_metadata`, op_metadatas.rs:1415-1438. -/
def scanMetadata (l : Layout) (dim : Nat) : List Nat :=
  [l.size, l.ndim] ++ l.dims ++ l.strides ++ [l.offset, dim]

/-- Coordinates of `outer`, lowest dimension first, ops_scan.c:44-50. -/
def cUnravelUp : List Nat → Nat → List Nat
  | [], _ => []
  | d :: ds, t => t % d :: cUnravelUp ds (t / d)

/-- The writes of the inner loop over `s`, ops_scan.c:40-62: position `outBase + s * outStep` gets the running
sum. -/
def scanLine (add : α → α → α) (inp : List α) (inBase inStep outBase outStep : Nat) :
    Nat → Nat → α → Res (List (Nat × α))
  | 0, _, _ => .ok []
  | fuel + 1, s, acc =>
    (readC inp (inBase + s * inStep)).bind fun x =>
      let acc := add acc x
      (scanLine add inp inBase inStep outBase outStep fuel (s + 1) acc).map
        fun ws => (outBase + s * outStep, acc) :: ws

/-- One (outer, inner) pair of the loops ops_scan.c:38-63.  `strides[d]` and `out_strides[d]` for `d < dim`
are read when the scanned dimension is not empty; `out_strides` (ops_scan.c:21-25) has
`nd` initialised entries. -/
def scanCell (zero : α) (add : α → α → α) (inp : List α) (md : List Nat)
    (nd off dim scanSize scanStride : Nat) (shape strides pre : List Nat) (outer inner : Nat) :
    Res (List (Nat × α)) :=
  if scanSize = 0 then .ok []
  else
    (sliceC md (2 + nd) dim).bind fun preS =>
    (sliceC (tailProds shape) 0 dim).bind fun preO =>
    (readC (tailProds shape) dim).bind fun outStep =>
      let a := cUnravelUp pre outer
      let b := (cUnravel (shape.drop (dim + 1)) inner).1
      scanLine add inp
        (cFlat (cFlat off a preS) b (strides.drop (dim + 1))) scanStride
        (cFlat (cFlat 0 a preO) b ((tailProds shape).drop (dim + 1))) outStep
        scanSize 0 zero

/-- `hodu_cpu_cumsum_<type>`, ops_scan.c:4-65: the array of output strides has 16 entries (21).  All
reads of `shape[d]` are reads of the metadata, whatever `dim` is.  The writes are collected and then
performed: the kernel never reads its output. -/
def cumsumKernel (zero : α) (add : α → α → α) (inp : List α) (md : List Nat) (out : List α) :
    Res (List α) :=
  (readC md 1).bind fun nd =>
  (sliceC md 2 nd).bind fun shape =>
  (sliceC md (2 + nd) nd).bind fun strides =>
  (readC md (2 + 2 * nd)).bind fun off =>
  (readC md (3 + 2 * nd)).bind fun dim =>
  if nd = 0 then (readC inp off).bind fun v => applyWrites out [(0, v)]
  else if 16 < nd then .ub
  else
    (sliceC md 2 dim).bind fun pre =>
    (readC md (2 + dim)).bind fun scanSize =>
    (readC md (2 + nd + dim)).bind fun scanStride =>
    (Res.mapL (fun o => Res.mapL (scanCell zero add inp md nd off dim scanSize scanStride shape strides pre o)
        (List.range (shapeSize (shape.drop (dim + 1))))) (List.range (shapeSize pre))).bind fun ws =>
      applyWrites out ws.flatten.flatten

/-- `Tensor::cumsum`, tensor/ops/scan.rs:11-56 (eager branch) with `call_ops_cumsum`,
be_cpu/storage/ops_scan.rs:9-57; `fill` is the content of the fresh output buffer. -/
def Tensor.cumsum (fill zero : α) (add : α → α → α) (t : Tensor α) (dim : Int) : Res (Tensor α) :=
  (cumsumKernel zero add t.storage (scanMetadata t.layout (axisUsize t.dims.length dim))
    (List.replicate t.layout.size fill)).bind fun s =>
    .ok { storage := s, layout := Layout.fromShape t.dims }

/-! ## topk -/

/-- Swapping two array cells, ops_sort.c:40-42, 46-48. -/
def swapC (arr : List β) (i j : Nat) : Res (List β) :=
  (readC arr i).bind fun a => (readC arr j).bind fun b => .ok ((arr.set i b).set j a)

/-- Loop body of `partition`, ops_sort.c:37-44. -/
def partitionStep (better : β → β → Bool) (pv : β) (st : List β × Nat) (j : Nat) :
    Res (List β × Nat) :=
  (readC st.1 j).bind fun x =>
    if better x pv then (swapC st.1 st.2 j).map fun a => (a, st.2 + 1) else .ok st

/-- `partition`, ops_sort.c:33-50. -/
def partitionC (better : β → β → Bool) (arr : List β) (left right : Nat) : Res (List β × Nat) :=
  (readC arr right).bind fun pv =>
  (Res.foldL (partitionStep better pv) (arr, left) (List.range' left (right - left))).bind fun st =>
  (swapC st.1 st.2 right).map fun a => (a, st.2)

/-- The loop of `quickselect_k`, ops_sort.c:60-69; running out of fuel stands for not terminating and
is reported as `ub` (it does not happen with `fuel = n`, see C24). -/
def quickLoop (better : β → β → Bool) (k : Nat) : Nat → List β → Nat → Nat → Res (List β)
  | 0, _, _, _ => .ub
  | fuel + 1, arr, left, right =>
    if left < right then
      (partitionC better arr left right).bind fun r =>
        if r.2 = k - 1 then .ok r.1
        else if r.2 < k - 1 then quickLoop better k fuel r.1 (r.2 + 1) right
        else quickLoop better k fuel r.1 left (r.2 - 1)
    else .ok arr

/-- `quickselect_k`, ops_sort.c:53-70. -/
def quickselect (better : β → β → Bool) (arr : List β) (k : Nat) : Res (List β) :=
  if arr.length ≤ 1 ∨ k = 0 then .ok arr
  else quickLoop better k arr.length arr 0 (arr.length - 1)

/-- `topk_select`, ops_sort.c:73-96; `qsort` is the C library's sort with the comparison derived from
`better`. -/
def topkSelect (qsort : List β → List β) (better : β → β → Bool) (arr : List β) (k : Nat)
    (sorted : Bool) : Res (List β) :=
  if arr.length ≤ k then .ok (qsort arr)
  else (quickselect better arr k).bind fun arr =>
    .ok (if sorted then qsort (arr.take k) ++ arr.drop k else arr)

/-- The comparison of the kernel on (converted value, index) pairs, ops_sort.c:12-30, 38. -/
def topkBetter [LT K] [DecidableRel (α := K) (· < ·)] (largest : Bool) (a b : K × Nat) : Bool :=
  if largest then decide (b.1 < a.1) else decide (a.1 < b.1)

/-- One row, ops_sort.c:116-137: values and indices of the selected elements.  `key` is the conversion
to `float` (`TO_FLOAT`, and the implicit conversion of the assignment for the identity). -/
def topkRow [LT K] [DecidableRel (α := K) (· < ·)] (qsort : List (K × Nat) → List (K × Nat)) (key : α → K)
    (inp : List α) (base n k : Nat) (largest sorted : Bool) : Res (List α × List Nat) :=
  (Res.mapL (fun i => (readC inp (base + i)).map fun x => (key x, i)) (List.range n)).bind fun temp =>
  (topkSelect qsort (topkBetter largest) temp k sorted).bind fun sel =>
  (Res.mapL (fun i => (readC sel i).bind fun p => (readC inp (base + p.2)).map fun x => (x, p.2))
    (List.range k)).bind fun ps => .ok (ps.map Prod.fst, ps.map Prod.snd)

/-- `hodu_cpu_topk_<type>`, ops_sort.c:98-141, with `topk_metadata`, op_metadatas.rs:1455-1475, passed as
arguments; `malloc` succeeds, indices fit an `i32`. -/
def topkKernel [LT K] [DecidableRel (α := K) (· < ·)] (qsort : List (K × Nat) → List (K × Nat)) (key : α → K)
    (inp : List α) (off n k outer : Nat) (largest sorted : Bool) : Res (List α × List Nat) :=
  (Res.mapL (fun o => topkRow qsort key inp (off + o * n) n k largest sorted) (List.range outer)).bind
    fun rows => .ok ((rows.map Prod.fst).flatten, (rows.map Prod.snd).flatten)

/-- `Tensor::topk`, tensor/ops/sort.rs:30-191 (eager branch): the kernel gets the storage of `self`
(151) with the layout of the permuted contiguous copy. -/
def Tensor.topk [LT K] [DecidableRel (α := K) (· < ·)] (qsort : List (K × Nat) → List (K × Nat))
    (key : α → K) (t : Tensor α) (k : Nat) (dim : Int) (largest sorted : Bool) :
    Res (Tensor α × Tensor Nat) :=
  let nd := t.dims.length
  let d := axisUsize nd dim
  if nd = 0 then .err
  else if nd ≤ d then .err
  else if t.dims.getD d 0 < k then .err
  else if k = 0 then
    .ok (⟨[], Layout.fromShape (t.dims.set d 0)⟩, ⟨[], Layout.fromShape (t.dims.set d 0)⟩)
  else
    let perm : List Int := ((List.range nd).set d (nd - 1)).set (nd - 1) d |>.map (Int.ofNat ·)
    (if d ≠ nd - 1 then t.permute perm else .ok t).bind fun input =>
    input.contiguous.bind fun input =>
      let last := input.dims.getD (nd - 1) 0
      let outShape := input.dims.set (nd - 1) k
      (topkKernel qsort key t.storage input.layout.offset last k (shapeSize (input.dims.take (nd - 1)))
        largest sorted).bind fun r =>
        let values : Tensor α := ⟨r.1, Layout.fromShape outShape⟩
        let indices : Tensor Nat := ⟨r.2, Layout.fromShape outShape⟩
        if d ≠ nd - 1 then
          (values.permute perm).bind fun v => (indices.permute perm).bind fun i => .ok (v, i)
        else .ok (values, indices)

end Hodu
