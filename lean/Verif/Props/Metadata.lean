import Verif.Props.Matmul
import Verif.Props.Indexing
import Verif.Props.Concat
import Verif.Props.Onehot
import Verif.Props.Linalg
import Verif.Props.Nonzero
import Verif.Props.Compress
import Verif.Props.Einsum
import Verif.Props.Window
import Verif.Lemmas.Conv
import Verif.Lemmas.Reduce
import Verif.Model.ScanSort

/-!
# C55: host-encoded metadata is decoded field by field

The host describes an operation to a C kernel by one flat vector of numbers; the kernel takes it apart again by position.
For every operation the fields the kernel obtains are the ones the host put in.  The right-hand sides below are written with the
layouts and parameters themselves.

False for `index_put` (the two sides disagree about the order), for element-wise operations on scalars (the kernel skips the
offset) and for matrices of an empty batch (the host writes 1).
-/

namespace Hodu
open Spec

variable {α β A : Type}

/-- A layout with one stride per dimension, which is what every constructor of layouts makes. -/
def Layout.Paired (l : Layout) : Prop := l.strides.length = l.dims.length

/-! ## Element-wise kernels -/

/-- Unary kernels, for every rank but 0. -/
theorem C55_unary_partial {l out : Layout} (hl : l.Paired) (h : l.dims ≠ []) :
    decodeUnary (unaryMetadata l out) = .ok ⟨numel out.dims, l.dims, l.strides, l.offset⟩ := by
  rw [decodeUnary_unaryMetadata hl, if_pos (List.length_pos_of_ne_nil h)]
  simp [Layout.size, shapeSize_eq]

/-- For rank 0 the offset is lost. -/
theorem C55_unary_scalar {l out : Layout} (hl : l.Paired) (h : l.dims = []) :
    decodeUnary (unaryMetadata l out) = .ok ⟨numel out.dims, [], [], 0⟩ := by
  have hs : l.strides = [] := by
    apply List.eq_nil_of_length_eq_zero; rw [hl, h]; rfl
  rw [decodeUnary_unaryMetadata hl, h, hs]
  simp [Layout.size, shapeSize_eq]

/-- Binary kernels, comparisons and logical operations. -/
theorem C55_binary {l r out : Layout} (hl : l.Paired) (hr : r.Paired) (h1 : l.dims.length = out.dims.length)
    (h2 : r.dims.length = out.dims.length) :
    decodeBinary (binaryMetadata l r out) =
      .ok ⟨numel out.dims, l.dims, r.dims, l.strides, r.strides, l.offset, r.offset⟩ := by
  rw [decodeBinary_binaryMetadata h1 h2 hl hr]
  simp [Layout.size, shapeSize_eq]

/-! ## Matrices -/

/-- The product of two matrices. -/
theorem C55_dot {m k n lm lk rk rn lo ro : Nat} :
    (dotMetadata ⟨[m, k], [lm, lk], lo⟩ ⟨[k, n], [rk, rn], ro⟩).bind decodeDot =
      .ok ⟨m, k, n, lm, lk, rk, rn, lo, ro⟩ := by
  simp [dotMetadata, Layout.ndim, readR, decodeDot, readC, Res.bind]

/-- Batched matrix products: `batch` are the batch dimensions of the result. -/
theorem C55_matmul {lb rb ls rs batch : List Nat} {m k n lo ro e : Nat}
    (hl : ls.length = lb.length + 2) (hr : rs.length = rb.length + 2)
    (hb : matmulBatch (lb ++ [m, k]) (rb ++ [k, n]) = .ok batch) :
    (matmulMetadata ⟨lb ++ [m, k], ls, lo⟩ ⟨rb ++ [k, n], rs, ro⟩ e).bind decodeMatmul =
      .ok ⟨e, lb ++ [m, k], rb ++ [k, n], batch, ls, rs, lo, ro, m, k, n⟩ := by
  have e1 : (lb ++ [m, k]).length - 2 = lb.length := by simp
  have e2 : (lb ++ [m, k]).length - 1 = lb.length + 1 := by simp
  have e3 : (rb ++ [k, n]).length - 2 = rb.length := by simp
  have e4 : (rb ++ [k, n]).length - 1 = rb.length + 1 := by simp
  unfold matmulMetadata
  simp only [Layout.ndim, e1, e2, e3, e4]
  rw [if_neg (by simp), if_neg (by simp), hb, Res.ok_bind, Res.ok_bind]
  have := decodeMatmul_eq (l := ⟨lb ++ [m, k], ls, lo⟩) (r := ⟨rb ++ [k, n], rs, ro⟩) (batch := batch) (n := e)
    (M := m) (K := k) (N := n) (by simp [hl]) (by simp [hr])
  simpa using this

/-- `det`, `inv` and `trace`, for batches that are not empty. -/
theorem C55_linalg_partial {bd sb : List Nat} {n r c off : Nat} (hs : sb.length = bd.length) (h : 0 ∉ bd) :
    (linMetadata ⟨bd ++ [n, n], sb ++ [r, c], off⟩).bind decodeLin =
      .ok ⟨numel bd, n, bd ++ [n, n], sb ++ [r, c], off, r, c⟩ := by
  have h0 : numel bd ≠ 0 := by
    intro he; apply h
    clear hs h
    induction bd with
    | nil => simp [numel] at he
    | cons a t ih =>
      rw [show numel (a :: t) = a * numel t by simp [numel], Nat.mul_eq_zero] at he
      rcases he with rfl | he
      · simp
      · exact List.mem_cons_of_mem _ (ih he)
  rw [decodeLin_linMetadata hs, if_neg h0]

/-! ## Reductions and data movement -/

/-- Reductions: the shape of the output is the backend's. -/
theorem C55_reduce {l : Layout} (hl : l.Paired) (K : List Nat) (keep : Bool) :
    ∃ m, decodeReduce (reduceMetadata l K keep) = .ok m ∧ m.nd = l.dims.length ∧ m.dims = l.dims ∧
      m.strides = l.strides ∧ m.offset = l.offset ∧ m.outShape = reduceBackendDims l.dims K keep ∧ m.axes = K ∧
      m.keep = keep ∧ m.reduceSize = reduceSize l.dims K :=
  ⟨_, decodeReduce_reduceMetadata hl K keep, rfl, rfl, rfl, rfl, rfl, rfl, rfl, rfl⟩

/-- Concatenation of any number of layouts. -/
theorem C55_concat {ls : List Layout} {out : List Nat} {dim : Nat} (hl : ∀ l ∈ ls, l.Paired)
    (hd : ∀ l ∈ ls, l.dims.length = out.length) :
    ∃ m, decodeConcat (concatMetadata ls dim out) = .ok m ∧ m.numEls = numel out ∧ m.outShape = out ∧
      m.concatDim = dim ∧ m.numInputs = ls.length ∧ m.inShapes = ls.flatMap (·.dims) ∧
      m.inStrides = ls.flatMap (·.strides) ∧ m.inOffsets = ls.map (·.offset) :=
  ⟨_, decodeConcat_concatMetadata hd (fun l h => (hl l h).trans (hd l h)), shapeSize_eq _, rfl, rfl, rfl, rfl, rfl, rfl⟩

/-- One part of a split. -/
theorem C55_split {l : Layout} (hl : l.Paired) (dim size start n : Nat) :
    decodeSplit (splitMetadata l dim size start n) =
      .ok ⟨n, l.dims.length, l.dims, l.strides, l.offset, dim, size, start⟩ :=
  decodeSplit_splitMetadata hl

/-- The flip kernel runs on the shape and on a mask that marks the flipped dimensions. -/
theorem C55_flip (inp : List α) (l : Layout) (ds : List Nat) :
    ∃ mask : List Nat, mask.length = l.dims.length ∧
      (∀ k, k < l.dims.length → (mask.getD k 0 ≠ 0 ↔ k ∈ ds)) ∧
      flipKernel inp (flipMetadata l ds) =
        runLoop (numel l.dims) fun i => readC inp ((l.dims.zip mask).foldr flipStep (i, 0, 1)).2.1 := by
  refine ⟨(List.range l.dims.length).map fun d => if ds.contains d then 1 else 0, by simp, ?_, ?_⟩
  · intro k hk
    by_cases h : k ∈ ds <;> simp [List.getD, hk, h]
  · unfold flipMetadata
    have hlen : ((List.range l.dims.length).map fun d => if ds.contains d then 1 else 0).length = l.dims.length := by
      simp
    simp only [Layout.ndim, Layout.size, shapeSize_eq]
    generalize ((List.range l.dims.length).map fun d => if ds.contains d then 1 else 0) = mask at hlen ⊢
    have a0 := At.start (numel l.dims :: l.dims.length :: (l.dims ++ (mask ++ [])))
    have a1 := a0.next 1 rfl
    have a2 := a1.next 2 rfl
    have a3 := a2.skip rfl (2 + l.dims.length) rfl
    rw [show [numel l.dims, l.dims.length] ++ l.dims ++ mask =
      numel l.dims :: l.dims.length :: (l.dims ++ (mask ++ [])) by simp]
    unfold flipKernel
    rw [a0.read, Res.ok_bind, a1.read, Res.ok_bind, a2.slice rfl, Res.ok_bind, a3.slice hlen, Res.ok_bind]

/-- The padding kernel runs on the two shapes and the padding before. -/
theorem C55_pad (pv : α) (inp : List α) (l : Layout) (before out : List Nat) (hb : before.length = l.dims.length)
    (ho : out.length = l.dims.length) :
    padKernel .constant pv inp (paddingMetadata l before out) =
      (runLoop (numel out) fun i =>
        let r := (l.dims.zip (out.zip before)).foldr padConstStep (true, i, 0, 1)
        if r.1 then readC inp r.2.2.1 else .ok pv) ∧
    ∀ mode, mode ≠ .constant → padKernel mode pv inp (paddingMetadata l before out) =
      runLoop (numel out) fun i => readC inp ((l.dims.zip (out.zip before)).foldr (padStep mode.index) (i, 0, 1)).2.1 := by
  have a0 := At.start (numel out :: l.dims.length :: (l.dims ++ (out ++ (before ++ []))))
  have a1 := a0.next 1 rfl
  have a2 := a1.next 2 rfl
  have a3 := a2.skip rfl (2 + l.dims.length) rfl
  have a4 := a3.skip ho (2 + 2 * l.dims.length) (by omega)
  have e : paddingMetadata l before out = numel out :: l.dims.length :: (l.dims ++ (out ++ (before ++ []))) := by
    simp [paddingMetadata, Layout.ndim, shapeSize_eq]
  refine ⟨?_, fun mode hm => ?_⟩
  · unfold padKernel
    rw [e, a0.read, Res.ok_bind, a1.read, Res.ok_bind, a2.slice rfl, Res.ok_bind, a3.slice ho, Res.ok_bind,
      a4.slice hb, Res.ok_bind]
  · unfold padKernel
    rw [e, a0.read, Res.ok_bind, a1.read, Res.ok_bind, a2.slice rfl, Res.ok_bind, a3.slice ho, Res.ok_bind,
      a4.slice hb, Res.ok_bind]
    cases mode <;> simp_all

/-! ## Indexing and selection -/

/-- `index_select`. -/
theorem C55_index_select {l : Layout} (hl : l.Paired) (dim k n : Nat) :
    decodeIndexSelect (indexSelectMetadata l dim k n) = .ok ⟨n, l.dims, l.strides, l.offset, dim, k⟩ :=
  decodeIndexSelect_eq hl

/-- `gather`, for an index tensor of the same rank. -/
theorem C55_gather_partial {l ix : Layout} (hl : l.Paired) (hi : ix.Paired) (hd : ix.dims.length = l.dims.length) (dim n : Nat) :
    decodeGather (gatherMetadata l ix dim n) =
      .ok ⟨n, ix.dims, l.dims, l.strides, ix.strides, l.offset, ix.offset, dim⟩ :=
  decodeGather_eq hl (hi.trans hd) hd

/-- `scatter` and its variants, for tensors of the same rank. -/
theorem C55_scatter_partial {l ix src : Layout} (hl : l.Paired) (hi : ix.Paired) (hs : src.Paired)
    (hd : ix.dims.length = l.dims.length) (he : src.dims.length = l.dims.length) (dim : Nat) :
    decodeScatter (scatterMetadata l ix src dim) =
      .ok ⟨numel src.dims, l.dims, l.strides, src.dims, src.strides, ix.strides, l.offset, src.offset, ix.offset, dim⟩ := by
  rw [decodeScatter_eq hl (hi.trans hd) he (hs.trans he)]
  simp [Layout.size, shapeSize_eq]

/-- `onehot`: `out` is the shape of the result. -/
theorem C55_onehot (l : Layout) (classes axis : Nat) :
    ∃ out, out = onehotDims classes axis l.dims ∧
      decodeOnehot (onehotMetadata l classes axis) = .ok ⟨numel out, numel l.dims, classes, axis, out⟩ := by
  refine ⟨_, rfl, ?_⟩
  rw [decodeOnehot_onehotMetadata]
  simp [Layout.size, shapeSize_eq]

/-- `nonzero` and `unique`. -/
theorem C55_strided {l : Layout} (hl : l.Paired) :
    decodeStrided (stridedMetadata l) = .ok ⟨numel l.dims, l.dims, l.strides, l.offset⟩ := by
  rw [decodeStrided_stridedMetadata hl]
  simp [Layout.size, shapeSize_eq]

/-- `compress`, along an axis or flattened. -/
theorem C55_compress {l : Layout} (hl : l.Paired) (k : Nat) :
    (∀ axis, decodeCompress (compressMetadata l k (some axis)) =
      .ok ⟨numel l.dims, l.dims, l.strides, l.offset, k, 1, axis⟩) ∧
    decodeCompress (compressMetadata l k none) = .ok ⟨numel l.dims, l.dims, l.strides, l.offset, k, 0, 0⟩ := by
  refine ⟨fun axis => ?_, ?_⟩ <;> rw [decodeCompress_axis hl] <;> simp [Layout.size, shapeSize_eq]

/-! ## Windows, convolutions, sums along a line, einsum -/

/-- Sliding-window reductions. -/
theorem C55_window (init : A) (step : A → Option α → A) (fin : A → Nat → β) (inp : List α) {l : Layout} (hl : l.Paired)
    {window strides out : List Nat} {pad : List (Nat × Nat)} (hr : l.dims.length ≤ 16)
    (hw : window.length = l.dims.length) (hs : strides.length = l.dims.length) (hp : pad.length = l.dims.length)
    (ho : out.length = l.dims.length) :
    windowKernel init step fin inp (windowMetadata l window strides (flatPad pad) out) =
      runLoop (numel out) fun k =>
        (Res.foldL (fun acc w => windowStep step inp l.dims l.strides strides (flatPad pad) l.offset (cUnravel out k).1 acc
          (cUnravel window w).1) init (List.range (numel window))).map fun acc => fin acc (numel window) := by
  have hf : ∀ pad : List (Nat × Nat), (flatPad pad).length = 2 * pad.length := by
    intro pad
    induction pad with
    | nil => rfl
    | cons p ps ih => obtain ⟨a, b⟩ := p; simp only [flatPad, List.length_cons, ih]; omega
  have hp' : (flatPad pad).length = 2 * l.dims.length := by rw [hf, hp]
  have e : windowMetadata l window strides (flatPad pad) out =
      numel out :: l.dims.length :: (l.dims ++ (l.strides ++ (l.offset :: (window ++ (strides ++ (flatPad pad ++ (out ++ []))))))) := by
    simp [windowMetadata, Layout.ndim, shapeSize_eq]
  rw [e]
  generalize hmd : (numel out :: l.dims.length :: (l.dims ++ (l.strides ++ (l.offset :: (window ++ (strides ++
    (flatPad pad ++ (out ++ [])))))))) = md
  have a0 : At md 0 (numel out :: l.dims.length :: (l.dims ++ (l.strides ++ (l.offset :: (window ++ (strides ++
    (flatPad pad ++ (out ++ [])))))))) := by rw [hmd]; exact At.start md
  have a1 := a0.next 1 rfl
  have a2 := a1.next 2 rfl
  have a3 := a2.skip rfl (2 + l.dims.length) rfl
  have a4 := a3.skip hl (2 + 2 * l.dims.length) (by omega)
  have a5 := a4.next (2 + 2 * l.dims.length + 1) rfl
  have a6 := a5.skip hw (2 + 3 * l.dims.length + 1) (by omega)
  have a7 := a6.skip hs (2 + 4 * l.dims.length + 1) (by omega)
  have a8 := a7.skip hp' (2 + 6 * l.dims.length + 1) (by omega)
  unfold windowKernel
  rw [a0.read, Res.ok_bind, a1.read, Res.ok_bind, a2.slice rfl, Res.ok_bind, a3.slice hl, Res.ok_bind, a4.read, Res.ok_bind,
    a5.slice hw, Res.ok_bind, a6.slice hs, Res.ok_bind, a7.slice hp', Res.ok_bind, a8.slice ho, Res.ok_bind,
    if_neg (by omega)]
  simp only [shapeSize_eq]

/-- Convolutions in 1, 2 and 3 dimensions: `mkAxes` pairs stride, padding, dilation and the three sizes per dimension. -/
theorem C55_conv {nsp : Nat} {l w : Layout} {B Ci Co s p d : Nat} {ns ks os : List Nat}
    (h : nsp = 1 ∨ nsp = 2 ∨ nsp = 3) (hl : l.dims = B :: Ci :: ns) (hw : w.dims.drop 2 = ks)
    (hn : ns.length = nsp) (hk : ks.length = nsp) (ho : os.length = nsp) :
    decodeConv nsp (convMetadata l w (List.replicate nsp s) (List.replicate nsp p) (List.replicate nsp d) (B :: Co :: os)) =
      .ok ⟨numel (B :: Co :: os), B, Ci, Co, mkAxes s p d ns ks os, l.offset, w.offset⟩ :=
  decodeConv_convMetadata h hl hw hn hk ho

/-- Gradients of convolutions with respect to the weight. -/
theorem C55_conv_grad {nsp : Nat} {l g : Layout} {B Ci B' Co s p d : Nat}
    {ns ks os wd : List Nat} (h : nsp = 1 ∨ nsp = 2 ∨ nsp = 3) (hl : l.dims = B :: Ci :: ns)
    (hg : g.dims = B' :: Co :: os) (hw : wd.drop 2 = ks) (hwl : wd.length = 2 + nsp)
    (hls : l.Paired) (hgs : g.Paired) (hn : ns.length = nsp) (ho : os.length = nsp) :
    decodeConvGrad nsp (convGradMetadata l g wd (List.replicate nsp s) (List.replicate nsp p)
      (List.replicate nsp d) nsp) =
      .ok ⟨numel wd, B, Ci, Co, mkAxes s p d ns ks os, g.strides, l.offset, g.offset⟩ :=
  decodeConvGrad_metadata h hl hg hw hwl hls hgs hn ho

/-- `einsum`: `L` are the operands with the number of the label of each of their dimensions. -/
theorem C55_einsum {nOut : Nat} {out cids sizes oids : List Nat} {L : List (Tensor α × List Nat)}
    (hL : ∀ p ∈ L, p.1.layout.strides.length = p.1.dims.length ∧ p.2.length = p.1.dims.length ∧
      p.1.dims.length ≤ 16) (h4 : L.length ≤ 4) (ho : out.length ≤ 16) (hs : sizes.length ≤ 16)
    (hc : cids.length ≤ 16) (hoi : oids.length = out.length) :
    einsumParse (nOut :: L.length :: sizes.length :: cids.length :: out.length ::
      (out ++ (L.flatMap (fun p => p.1.dims.length :: (p.1.dims ++ (p.1.layout.strides ++ (p.1.layout.offset :: p.2)))) ++
        (cids ++ (sizes ++ oids))))) =
      .ok ⟨nOut, out, L.map (fun p => ⟨p.1.layout.strides, p.1.layout.offset, p.2⟩), cids, sizes, oids⟩ := by
  exact einsumParse_ok hL h4 ho hs hc hoi

/-! ## Refutations -/

/-- The property for `index_put`, where it fails. -/
def IndexPutDecodes : Prop :=
  ∀ (l v : Layout) (dim k n : Nat), l.Paired → v.Paired → v.dims.length = l.dims.length →
    decodeIndexPut (indexPutMetadata l v dim k n) =
      .ok ⟨n, l.dims, l.strides, v.strides, l.offset, v.offset, dim, k⟩

/-- The kernel of `index_put` reads the dimension and the offsets from other places than the host puts them. -/
theorem C55_index_put_false : ¬ IndexPutDecodes := by
  intro h
  have := h ⟨[3], [1], 0⟩ ⟨[2], [1], 0⟩ 0 2 3 rfl rfl rfl
  revert this; decide

/-- What the kernel of `index_put` decodes for vectors: it takes the offset for the stride of the values, the sizes of the
values for the offset. -/
theorem C55_index_put_vector (n s off m vs voff dim k e : Nat) :
    decodeIndexPut (indexPutMetadata ⟨[n], [s], off⟩ ⟨[m], [vs], voff⟩ dim k e) =
      .ok ⟨e, [n], [s], [off], m, vs, voff, dim⟩ := by
  simp [indexPutMetadata, decodeIndexPut, Layout.ndim, readC, sliceC, Res.bind]

/-- The property for rank 0 (false). -/
theorem C55_unary_false :
    ¬ ∀ l out : Layout, l.Paired → decodeUnary (unaryMetadata l out) = .ok ⟨numel out.dims, l.dims, l.strides, l.offset⟩ := by
  intro h
  have := h ⟨[], [], 3⟩ ⟨[], [], 0⟩ rfl
  revert this; decide

/-- The property for an empty batch of matrices (false): the kernel is told that there is one. -/
theorem C55_linalg_false :
    ¬ ∀ (bd sb : List Nat) (n r c off : Nat), sb.length = bd.length →
      (linMetadata ⟨bd ++ [n, n], sb ++ [r, c], off⟩).bind decodeLin =
        .ok ⟨numel bd, n, bd ++ [n, n], sb ++ [r, c], off, r, c⟩ := by
  intro h
  have := h [0] [4] 2 2 1 0 rfl
  revert this; decide

/-! ## Examples -/

/-- A transposed view with an offset. -/
def mdView : Layout := ⟨[3, 2], [1, 3], 4⟩

example : mdView.Paired ∧ decodeUnary (unaryMetadata mdView (Layout.fromShape [3, 2])) = .ok ⟨6, [3, 2], [1, 3], 4⟩ :=
  ⟨rfl, C55_unary_partial (l := mdView) rfl (by decide)⟩
example : decodeBinary (binaryMetadata mdView (Layout.fromShape [3, 2]) (Layout.fromShape [3, 2])) =
    .ok ⟨6, [3, 2], [3, 2], [1, 3], [2, 1], 4, 0⟩ := C55_binary (l := mdView) rfl rfl rfl rfl
example : matmulBatch ([2] ++ [3, 4]) ([] ++ [4, 5]) = .ok [2] := by decide
example : (0 : Nat) ∉ [2, 3] := by decide
example : decodeCompress (compressMetadata mdView 3 (some 0)) = .ok ⟨6, [3, 2], [1, 3], 4, 3, 1, 0⟩ :=
  (C55_compress (l := mdView) rfl 3).1 0
example : decodeConv 2 (convMetadata ⟨[1, 2, 5, 6], [60, 30, 6, 1], 7⟩ ⟨[3, 2, 2, 3], [12, 6, 3, 1], 1⟩
    [1, 1] [2, 2] [3, 3] [1, 3, 6, 4]) = .ok ⟨72, 1, 2, 3, mkAxes 1 2 3 [5, 6] [2, 3] [6, 4], 7, 1⟩ :=
  C55_conv (nsp := 2) (l := ⟨[1, 2, 5, 6], [60, 30, 6, 1], 7⟩) (w := ⟨[3, 2, 2, 3], [12, 6, 3, 1], 1⟩)
    (Or.inr (Or.inl rfl)) rfl rfl rfl rfl rfl
example : decodeIndexPut (indexPutMetadata ⟨[3], [1], 0⟩ ⟨[2], [1], 0⟩ 0 2 3) = .ok ⟨3, [3], [1], [0], 2, 1, 0, 0⟩ :=
  C55_index_put_vector ..

end Hodu
