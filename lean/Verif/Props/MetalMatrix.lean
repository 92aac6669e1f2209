import Verif.Lemmas.MetalBlock
import Verif.Props.CudaTile
import Verif.Props.MetalQueue

/-!
# C127: matrix products on Metal
-/

namespace Hodu.Metal

open _root_.Hodu _root_.Hodu.Spec Hodu.Cuda Hodu.Cuda.Spec Hodu.Cuda.TileKernel Metal.Spec

variable {α : Type}

/-! ## Grids -/

theorem groups_cover {T n : Nat} (hT : 0 < T) : n ≤ groups T n * T := by
  unfold groups
  have h0 := Nat.div_add_mod (n + T - 1 + T - 1) T
  have h1 := Nat.mod_lt (n + T - 1 + T - 1) hT
  rw [Nat.mul_comm] at h0
  omega

theorem groups_le {T n : Nat} : groups T n * T ≤ n + 2 * T := by
  unfold groups
  have := Nat.div_mul_le_self (n + T - 1 + T - 1) T
  omega

/-! ## matmul -/

/-- The tiled kernel with a grid that covers the output computes the product, for operands whose batch
dimensions are extended to `batch`. -/
theorem matmul_tile {a b : Tensor α} {la lb batch : List Nat} {M K N : Nat} (ha : a.WF) (hb : b.WF)
    (hda : a.dims = la ++ [M, K]) (hdb : b.dims = lb ++ [K, N]) (hla : BroadcastsTo la batch)
    (hlb : BroadcastsTo lb batch) (zero : α) (macc : α → α → α → α) (hpad : PadOk zero macc) {l : Launch}
    (hx : l.bx = 16) (hy : l.bY = 16) (hz : l.gz = numel batch) (hgy : M ≤ l.gy * 16) (hgx : N ≤ l.gx * 16)
    (n : Nat) :
    ∃ vals, vals.length = numel (batch ++ [M, N]) ∧
      IsMacProd zero macc a b ⟨vals, Layout.fromShape (batch ++ [M, N])⟩ la lb batch M K N ∧
      ∀ lt0 rt0 buf extra, buf.length = vals.length →
        TileComputes (matmulTile zero macc a.storage b.storage ⟨n, a.layout.dims, b.layout.dims, batch,
          a.layout.strides, b.layout.strides, a.layout.offset, b.layout.offset, M, K, N⟩ l)
          lt0 rt0 (buf ++ extra) (vals ++ extra) := by
  have hda' : a.layout.dims = la ++ [M, K] := hda
  have hdb' : b.layout.dims = lb ++ [K, N] := hdb
  have hsla : a.layout.strides.length = la.length + 2 := by rw [ha.1, hda]; simp
  have hslb : b.layout.strides.length = lb.length + 2 := by rw [hb.1, hdb]; simp
  have hsa := split_last2 (xs := a.layout.strides) (by omega)
  have hsb := split_last2 (xs := b.layout.strides) (by omega)
  rw [hsla, show la.length + 2 - 2 = la.length by omega,
    show la.length + 2 - 1 = la.length + 1 by omega] at hsa
  rw [hslb, show lb.length + 2 - 2 = lb.length by omega,
    show lb.length + 2 - 1 = lb.length + 1 by omega] at hsb
  have hea : ∀ x i k, InRange x la → i < M → k < K → (a.elem (x ++ [i, k])).isSome ∧
      a.layout.offset + dot (x ++ [i, k]) a.layout.strides =
        a.layout.offset + dot x (a.layout.strides.take la.length) +
          i * a.layout.strides.getD la.length 0 + k * a.layout.strides.getD (la.length + 1) 0 := by
    intro x i k hx hi hk
    refine ⟨ha.2 _ (by rw [hda]; exact inRange_mat hx hi hk), ?_⟩
    conv_lhs => rw [hsa]
    rw [dot_append (by rw [hx.length]; simp; omega)]
    simp [dot]; omega
  have heb : ∀ x k j, InRange x lb → k < K → j < N → (b.elem (x ++ [k, j])).isSome ∧
      b.layout.offset + dot (x ++ [k, j]) b.layout.strides =
        b.layout.offset + dot x (b.layout.strides.take lb.length) +
          k * b.layout.strides.getD lb.length 0 + j * b.layout.strides.getD (lb.length + 1) 0 := by
    intro x i k hx hi hk
    refine ⟨hb.2 _ (by rw [hdb]; exact inRange_mat hx hi hk), ?_⟩
    conv_lhs => rw [hsb]
    rw [dot_append (by rw [hx.length]; simp; omega)]
    simp [dot]; omega
  let pa : Nat → Nat → Nat → Nat := fun q i k => a.layout.offset +
    dot (broadcastIndex la (unravel batch q)) (a.layout.strides.take la.length) +
    i * a.layout.strides.getD la.length 0 + k * a.layout.strides.getD (la.length + 1) 0
  let pb : Nat → Nat → Nat → Nat := fun q k j => b.layout.offset +
    dot (broadcastIndex lb (unravel batch q)) (b.layout.strides.take lb.length) +
    k * b.layout.strides.getD lb.length 0 + j * b.layout.strides.getD (lb.length + 1) 0
  let c : TileKernel α := matmulTile zero macc a.storage b.storage ⟨n, a.layout.dims, b.layout.dims, batch,
    a.layout.strides, b.layout.strides, a.layout.offset, b.layout.offset, M, K, N⟩ l
  have hread : ∀ q, q < numel batch → ∀ i k, c.lhs q i k = readC a.storage (pa q i k) ∧
      c.rhs q i k = readC b.storage (pb q i k) := by
    intro q hq i k
    have hu : (cUnravel batch q).1 = unravel batch q := by rw [cUnravel_eq, Nat.mod_eq_of_lt hq]
    have hul : (unravel batch q).length = batch.length := (unravel_inRange hq).length
    simp only [c, matmulTile, hda', hdb', List.length_append, List.length_cons, List.length_nil, Nat.zero_add,
      Nat.reduceAdd, Nat.add_sub_cancel, hu, batchIdx_eq (show la.length ≤ (unravel batch q).length by
        rw [hul]; exact hla.1), batchIdx_eq (show lb.length ≤ (unravel batch q).length by
        rw [hul]; exact hlb.1), cFlat_eq]
    exact ⟨rfl, rfl⟩
  have hget : ∀ (s : List α) n, n < s.length → readC s n = .ok (s.getD n zero) := by
    intro s n hn; simp [readC, List.getD_eq_getElem?_getD, hn]
  have hpa : ∀ q i k, q < numel batch → i < M → k < K → pa q i k < a.storage.length := by
    intro q i k hq hi hk
    have := hea _ i k (broadcastIndex_range hla (unravel_inRange hq)) hi hk
    show a.layout.offset + _ + _ + _ < _
    rw [← this.2]
    exact Tensor.elem_lt this.1
  have hpb : ∀ q k j, q < numel batch → k < K → j < N → pb q k j < b.storage.length := by
    intro q k j hq hk hj
    have := heb _ k j (broadcastIndex_range hlb (unravel_inRange hq)) hk hj
    show b.layout.offset + _ + _ + _ < _
    rw [← this.2]
    exact Tensor.elem_lt this.1
  obtain ⟨vals, v1, v2, v3⟩ := full_blocks_tail (c := c) (B := numel batch)
    (lv := fun q i k => a.storage.getD (pa q i k) zero) (rv := fun q k j => b.storage.getD (pb q k j) zero)
    (show 0 < 16 by omega) hx hy hz hgy hgx hpad
    (by intro q i k hq hi hk; rw [(hread q hq i k).1]; exact hget _ _ (hpa q i k hq hi hk))
    (by intro q k j hq hk hj; rw [(hread q hq k j).2]; exact hget _ _ (hpb q k j hq hk hj))
  have v1 : vals.length = numel batch * (M * N) := v1
  have hnum : numel (batch ++ [M, N]) = numel batch * (M * N) := by
    rw [numel_append]; simp [numel]
  refine ⟨vals, by rw [v1, hnum], ⟨rfl, fresh_wf (by rw [v1, hnum]), ?_⟩, by rw [v1]; exact v3⟩
  intro bi i j hbi hi hj
  have hq := rowMajor_lt hbi
  refine ⟨(List.range K).map fun k => a.storage.getD (pa (rowMajor batch bi) i k) zero,
    (List.range K).map fun k => b.storage.getD (pb (rowMajor batch bi) k j) zero, by simp, by simp, ?_, ?_, ?_⟩
  · intro k hk
    have h1 := hea _ i k (broadcastIndex_range hla hbi) hi hk
    have h2 := hpa _ i k hq hi hk
    rw [Tensor.elem, h1.2]
    have : pa (rowMajor batch bi) i k = a.layout.offset +
        dot (broadcastIndex la bi) (a.layout.strides.take la.length) +
        i * a.layout.strides.getD la.length 0 + k * a.layout.strides.getD (la.length + 1) 0 := by
      show a.layout.offset + _ + _ + _ = _
      rw [unravel_rowMajor hbi]
    rw [← this, List.getElem?_map, List.getElem?_range hk, Option.map_some]
    simp [List.getD_eq_getElem?_getD, h2]
  · intro k hk
    have h1 := heb _ k j (broadcastIndex_range hlb hbi) hk hj
    have h2 := hpb _ k j hq hk hj
    rw [Tensor.elem, h1.2]
    have : pb (rowMajor batch bi) k j = b.layout.offset +
        dot (broadcastIndex lb bi) (b.layout.strides.take lb.length) +
        k * b.layout.strides.getD lb.length 0 + j * b.layout.strides.getD (lb.length + 1) 0 := by
      show b.layout.offset + _ + _ + _ = _
      rw [unravel_rowMajor hbi]
    rw [← this, List.getElem?_map, List.getElem?_range hk, Option.map_some]
    simp [List.getD_eq_getElem?_getD, h2]
  · show Tensor.elem ⟨vals, ⟨batch ++ [M, N], Layout.computeStrides (batch ++ [M, N]), 0⟩⟩ _ = _
    rw [elem_rowMajor, rowMajor_append hbi.length]
    have := v2 (rowMajor batch bi) i j hq hi hj
    simp only [rowMajor, numel, Nat.mul_one, Nat.add_zero, Nat.zero_add]
    have this : vals[rowMajor batch bi * (M * N) + (i * N + j)]? = some ((List.range K).foldl
      (fun s k => macc s (a.storage.getD (pa (rowMajor batch bi) i k) zero)
        (b.storage.getD (pb (rowMajor batch bi) k j) zero)) zero) := this
    rw [this, macSum, List.zip_map', List.foldl_map]

/-! ## Batch dimensions -/

theorem batchDim_eq {la : List Nat} {x y bn i : Nat} (hl : la.length ≤ bn) (hi : i < bn) (hbn : bn < 2 ^ 31) :
    batchDim (la ++ [x, y]) la.length bn i = dimFromRight la (bn - 1 - i) := by
  unfold batchDim dimFromRight
  by_cases h : bn ≤ la.length + i
  · rw [show ((la.length : Int) - bn + i) = ((la.length + i - bn : Nat) : Int) by omega,
      castUsize_nat (by omega)]
    dsimp only
    rw [if_pos (by omega), List.getD_eq_getElem?_getD, List.getD_eq_getElem?_getD,
      List.getElem?_append_left (by omega), List.getElem?_reverse (by omega),
      show la.length - 1 - (bn - 1 - i) = la.length + i - bn by omega,
      List.getElem?_eq_getElem (by omega), Option.getD_some, Option.getD_some]
  · have hc : castUsize ((la.length : Int) - bn + i) = 2 ^ 64 - (bn - i - la.length) := by
      unfold castUsize
      omega
    rw [hc]
    dsimp only
    rw [if_neg (by omega), List.getD_eq_getElem?_getD, List.getElem?_eq_none (by simp; omega),
      Option.getD_none]

theorem dimFromRight_pos {la : List Nat} (h : ∀ d ∈ la, 0 < d) (k : Nat) : 0 < dimFromRight la k := by
  unfold dimFromRight
  rw [List.getD_eq_getElem?_getD]
  by_cases hk : k < la.reverse.length
  · rw [List.getElem?_eq_getElem hk, Option.getD_some]
    exact h _ (List.mem_reverse.mp (List.getElem_mem hk))
  · rw [List.getElem?_eq_none (by omega), Option.getD_none]; omega

theorem range_dimFromRight (batch : List Nat) :
    (List.range batch.length).map (fun i => dimFromRight batch (batch.length - 1 - i)) = batch := by
  apply List.ext_getElem
  · simp
  · intro i h1 h2
    simp only [List.getElem_map, List.getElem_range, dimFromRight, List.getD_eq_getElem?_getD]
    rw [List.getElem?_reverse (by omega), show batch.length - 1 - (batch.length - 1 - i) = i by omega,
      List.getElem?_eq_getElem h2, Option.getD_some]

/-- Both computations of the batch shape give the common shape, unless a size 0 meets a size 1. -/
theorem batch_common {la lb batch : List Nat} {M K N : Nat} (hc : Compatible la lb)
    (hs : CommonShape la lb batch) (hpos : la = lb ∨ (∀ d ∈ la, 0 < d) ∧ ∀ d ∈ lb, 0 < d)
    (h31 : batch.length < 2 ^ 31) : matmulBatch (la ++ [M, K]) (lb ++ [K, N]) = .ok batch ∧
      batchMax (la ++ [M, K]) (lb ++ [K, N]) = batch := by
  have hmax : ∀ k, max (dimFromRight la k) (dimFromRight lb k) = dimFromRight batch k := by
    intro k
    rw [hs.2 k]
    rcases hpos with rfl | ⟨h1, h2⟩
    · split <;> omega
    · have := dimFromRight_pos h1 k
      have := dimFromRight_pos h2 k
      rcases hc k with e | e | e
      · split <;> omega
      · rw [if_pos e]; omega
      · split <;> omega
  have hlen := hs.1
  have hla : ∀ i, i < batch.length → batchDim (la ++ [M, K]) la.length (max la.length lb.length) i =
      dimFromRight la (batch.length - 1 - i) := by
    intro i hi
    rw [← hlen]
    exact batchDim_eq (by omega) hi h31
  have hlb : ∀ i, i < batch.length → batchDim (lb ++ [K, N]) lb.length (max la.length lb.length) i =
      dimFromRight lb (batch.length - 1 - i) := by
    intro i hi
    rw [← hlen]
    exact batchDim_eq (by omega) hi h31
  constructor
  · unfold matmulBatch
    simp only [List.length_append, List.length_cons, List.length_nil, Nat.zero_add, Nat.reduceAdd,
      Nat.add_sub_cancel]
    rw [Res.mapL_eq_ok_of (g := fun i => dimFromRight batch (batch.length - 1 - i)), ← hlen,
      range_dimFromRight]
    intro i hi
    have hi : i < batch.length := by rw [hlen]; simpa using hi
    rw [hla i hi, hlb i hi, if_neg, hmax]
    rintro ⟨h1, h2, h3⟩
    rcases hc (batch.length - 1 - i) with e | e | e
    · exact h1 e
    · exact h2 e
    · exact h3 e
  · unfold batchMax
    simp only [List.length_append, List.length_cons, List.length_nil, Nat.zero_add, Nat.reduceAdd,
      Nat.add_sub_cancel]
    conv_rhs => rw [← range_dimFromRight batch]
    rw [← hlen]
    apply List.map_congr_left
    intro i hi
    have hi : i < batch.length := by simpa using hi
    have e1 := hla i hi
    have e2 := hlb i hi
    rw [← hlen] at e1 e2
    rw [e1, e2, hmax]

/-- **C127, batched products**: for operands of any layout with compatible batch dimensions the launched
kernel ends with the product in the first cells of the pooled buffer and leaves the rest of it, whatever
threadgroup memory and the buffer held before and however the threads are interleaved. -/
theorem C127_matmul_partial {a b : Tensor α} {la lb batch : List Nat} {M K N : Nat} (ha : a.WF) (hb : b.WF)
    (hda : a.dims = la ++ [M, K]) (hdb : b.dims = lb ++ [K, N]) (hc : Compatible la lb)
    (hs : CommonShape la lb batch) (hpos : la = lb ∨ (∀ d ∈ la, 0 < d) ∧ ∀ d ∈ lb, 0 < d)
    (h16 : batch.length ≤ 16) (hM : M ≤ 2 ^ 32 - 32) (hN : N ≤ 2 ^ 32 - 32) (zero : α)
    (macc : α → α → α → α) (hpad : PadOk zero macc) :
    ∃ k vals, callOpsMatmulMetal zero macc a b = .ok (k, vals.length) ∧
      IsMacProd zero macc a b ⟨vals, Layout.fromShape (batch ++ [M, N])⟩ la lb batch M K N ∧
      ∀ lt0 rt0 buf extra, buf.length = vals.length →
        TileComputes k lt0 rt0 (buf ++ extra) (vals ++ extra) := by
  have hda' : a.layout.dims = la ++ [M, K] := hda
  have hdb' : b.layout.dims = lb ++ [K, N] := hdb
  obtain ⟨hb1, hb2⟩ := batch_common (M := M) (K := K) (N := N) hc hs hpos (by omega)
  have hmd : matmulMetadata a.layout b.layout (numel (batch ++ [M, N])) =
      .ok ([numel (batch ++ [M, N]), a.layout.dims.length, b.layout.dims.length, batch.length] ++
        a.layout.dims ++ b.layout.dims ++ batch ++ a.layout.strides ++ b.layout.strides ++
        [a.layout.offset, b.layout.offset, M, K, N]) := by
    unfold matmulMetadata
    simp only [Layout.ndim, hda', hdb', List.length_append, List.length_cons, List.length_nil,
      Nat.zero_add, Nat.reduceAdd, Nat.add_sub_cancel]
    rw [if_neg (by omega), hb1, Res.ok_bind]
    simp [List.getD_eq_getElem?_getD, show la.length + 2 - 1 = la.length + 1 by omega,
      show lb.length + 2 - 1 = lb.length + 1 by omega]
  obtain ⟨vals, v1, v2, v3⟩ := matmul_tile ha hb hda hdb (broadcastsTo_left hs) (broadcastsTo_right hc hs)
    zero macc hpad (l := matmulGroups M N (numel batch)) rfl rfl rfl (groups_cover (by omega))
    (groups_cover (by omega)) (numel (batch ++ [M, N]))
  refine ⟨_, vals, ?_, v2, v3⟩
  unfold callOpsMatmulMetal
  simp only [Layout.ndim]
  rw [if_neg (by rw [hda', hdb']; simp)]
  have hsz : shapeSize (batchMax a.layout.dims b.layout.dims ++
      [a.layout.dims.getD (a.layout.dims.length - 2) 0, b.layout.dims.getD (b.layout.dims.length - 1) 0]) =
      numel (batch ++ [M, N]) := by
    rw [shapeSize_eq, hda', hdb', hb2]
    simp [List.getD_eq_getElem?_getD, show lb.length + 2 - 1 = lb.length + 1 by omega]
  rw [hsz, hmd, Res.ok_bind]
  unfold matmulKernelMetal
  rw [decodeMatmul_eq ha.1 hb.1, Res.ok_bind]
  simp only [shapeSize_eq]
  rw [positions32, if_pos ⟨Nat.le_trans groups_le (by omega), Nat.le_trans groups_le (by omega)⟩, Res.ok_bind,
    guard16, if_neg (by omega), Res.ok_bind, v1]

/-! ## dot -/

/-- **C127, dot**: 8 x 8 threads of 4 x 4 cells each compute every cell of the product, for matrices of any
layout and size, whatever threadgroup memory and the pooled buffer held before and however the threads are
interleaved. -/
theorem C127_dot_partial {a b : Tensor α} {M K N : Nat} (ha : a.WF) (hb : b.WF) (hda : a.dims = [M, K])
    (hdb : b.dims = [K, N]) (hM : M ≤ 2 ^ 32 - 64) (hN : N ≤ 2 ^ 32 - 64) (zero : α)
    (macc : α → α → α → α) (hpad : PadOk zero macc) :
    ∃ k vals, callOpsDotMetal zero macc a b = .ok (k, vals.length) ∧
      IsMacProd zero macc a b ⟨vals, Layout.fromShape [M, N]⟩ [] [] [] M K N ∧
      ∀ lt0 rt0 buf extra, buf.length = vals.length →
        BlockComputes k lt0 rt0 (buf ++ extra) (vals ++ extra) := by
  obtain ⟨lm, lk, hls⟩ := rank2 (xs := a.layout.strides) (by rw [ha.1, hda]; rfl)
  obtain ⟨rk, rn, hrs⟩ := rank2 (xs := b.layout.strides) (by rw [hb.1, hdb]; rfl)
  have hda' : a.layout.dims = [M, K] := hda
  have hdb' : b.layout.dims = [K, N] := hdb
  have hmd : dotMetadata a.layout b.layout =
      .ok [M, K, N, lm, lk, rk, rn, a.layout.offset, b.layout.offset] := by
    simp [dotMetadata, Layout.ndim, hda', hdb', hls, hrs, readR]
  have hdec : decodeDot [M, K, N, lm, lk, rk, rn, a.layout.offset, b.layout.offset] =
      .ok ⟨M, K, N, lm, lk, rk, rn, a.layout.offset, b.layout.offset⟩ := by
    simp [decodeDot, readC]
  have hela : ∀ i k, i < M → k < K → a.layout.offset + i * lm + k * lk < a.storage.length ∧
      a.elem [i, k] = some (a.storage.getD (a.layout.offset + i * lm + k * lk) zero) := by
    intro i k hi hk
    have h1 := ha.2 [i, k] (by rw [hda]; exact ⟨hi, hk, trivial⟩)
    have h2 : a.layout.offset + dot [i, k] a.layout.strides = a.layout.offset + i * lm + k * lk := by
      rw [hls]; simp [dot]; omega
    have h3 := Tensor.elem_lt h1
    rw [h2] at h3
    exact ⟨h3, by rw [Tensor.elem, h2]; simp [List.getD_eq_getElem?_getD, h3]⟩
  have helb : ∀ i k, i < K → k < N → b.layout.offset + i * rk + k * rn < b.storage.length ∧
      b.elem [i, k] = some (b.storage.getD (b.layout.offset + i * rk + k * rn) zero) := by
    intro i k hi hk
    have h1 := hb.2 [i, k] (by rw [hdb]; exact ⟨hi, hk, trivial⟩)
    have h2 : b.layout.offset + dot [i, k] b.layout.strides = b.layout.offset + i * rk + k * rn := by
      rw [hrs]; simp [dot]; omega
    have h3 := Tensor.elem_lt h1
    rw [h2] at h3
    exact ⟨h3, by rw [Tensor.elem, h2]; simp [List.getD_eq_getElem?_getD, h3]⟩
  let c : TileKernel α := dotTileOf zero macc a.storage b.storage ⟨M, K, N, lm, lk, rk, rn, a.layout.offset,
    b.layout.offset⟩ (dotGroups M N)
  obtain ⟨vals, v1, v2, v3⟩ := full_blocks_tail (c := wide c) (B := 1)
    (lv := fun _ i k => a.storage.getD (a.layout.offset + i * lm + k * lk) zero)
    (rv := fun _ k j => b.storage.getD (b.layout.offset + k * rk + j * rn) zero)
    (show 0 < 32 by omega) rfl rfl rfl (groups_cover (T := 32) (by omega)) (groups_cover (T := 32) (by omega))
    hpad
    (by
      intro q i k _ hi hk
      have := (hela i k hi hk).1
      simp [wide, c, dotTileOf, readC, List.getD_eq_getElem?_getD, this])
    (by
      intro q k j _ hk hj
      have := (helb k j hk hj).1
      simp [wide, c, dotTileOf, readC, List.getD_eq_getElem?_getD, this])
  have v1 : vals.length = M * N := by rw [v1]; exact Nat.one_mul _
  refine ⟨c, vals, ?_, ⟨rfl, fresh_wf (by rw [v1]; simp [numel]), ?_⟩, ?_⟩
  · unfold callOpsDotMetal
    simp only [Layout.ndim]
    rw [if_neg (by rw [hda', hdb']; simp), hmd, Res.ok_bind, dotKernelMetal, hdec, Res.ok_bind, hda', hdb']
    rw [show [M, K].getD 0 0 = M from rfl, show [K, N].getD 1 0 = N from rfl, positions32,
      if_pos ⟨Nat.le_trans groups_le (by omega), Nat.le_trans groups_le (by omega)⟩, Res.ok_bind, Res.ok_bind, v1]
  · intro bi i j hbi hi hj
    have hnil : bi = [] := by cases bi with
      | nil => rfl
      | cons _ _ => exact absurd hbi.length (by simp)
    subst hnil
    refine ⟨(List.range K).map fun k => a.storage.getD (a.layout.offset + i * lm + k * lk) zero,
      (List.range K).map fun k => b.storage.getD (b.layout.offset + k * rk + j * rn) zero, by simp, by simp,
      ?_, ?_, ?_⟩
    · intro k hk
      rw [List.getElem?_map, List.getElem?_range hk]
      exact (hela i k hi hk).2
    · intro k hk
      rw [List.getElem?_map, List.getElem?_range hk]
      exact (helb k j hk hj).2
    · show Tensor.elem ⟨vals, ⟨[M, N], Layout.computeStrides [M, N], 0⟩⟩ [i, j] = _
      rw [elem_rowMajor]
      simp only [rowMajor, numel, Nat.mul_one, Nat.add_zero]
      have this : vals[0 * (M * N) + (i * N + j)]? = some ((List.range K).foldl
        (fun s k => macc s (a.storage.getD (a.layout.offset + i * lm + k * lk) zero)
          (b.storage.getD (b.layout.offset + k * rk + j * rn) zero)) zero) := v2 0 i j (by omega) hi hj
      rw [Nat.zero_mul] at this
      rw [this, macSum, List.zip_map', List.foldl_map]
  · intro lt0 rt0 buf extra hbuf
    exact block_computes rfl rfl rfl (v3 lt0 rt0 buf extra (by rw [hbuf, v1]; exact (Nat.one_mul _).symm))

/-! ## Like the CPU -/

/-- Two products of the same operands have the same elements. -/
theorem isMatProd_agree {zero : α} {add mul : α → α → α} {a b c d : Tensor α} {la lb batch : List Nat}
    {M K N : Nat} (h : IsMatProd zero add mul a b c la lb batch M K N)
    (g : IsMatProd zero add mul a b d la lb batch M K N) : c.dims = d.dims ∧
      ∀ idx, InRange idx (batch ++ [M, N]) → c.elem idx = d.elem idx := by
  refine ⟨by rw [h.1, g.1], ?_⟩
  intro idx hidx
  obtain ⟨bi, i, j, rfl, h1, h2, h3⟩ := inRange_mat_split hidx
  obtain ⟨xs, ys, a1, a2, a3, a4, a5⟩ := h.2.2 bi i j h1 h2 h3
  obtain ⟨xs', ys', b1, b2, b3, b4, b5⟩ := g.2.2 bi i j h1 h2 h3
  have ex : xs = xs' := by
    apply List.ext_getElem?
    intro k
    by_cases hk : k < K
    · rw [← a3 k hk, b3 k hk]
    · rw [List.getElem?_eq_none (by omega), List.getElem?_eq_none (by omega)]
  have ey : ys = ys' := by
    apply List.ext_getElem?
    intro k
    by_cases hk : k < K
    · rw [← a4 k hk, b4 k hk]
    · rw [List.getElem?_eq_none (by omega), List.getElem?_eq_none (by omega)]
  rw [a5, b5, ex, ey]

/-- **C127, like the CPU**: where the CPU computes the product of two matrices, `dot` on Metal ends with
the same elements. -/
theorem C127_dot_like_cpu_partial {a b c : Tensor α} {M K N cores : Nat} (ha : a.WF) (hb : b.WF)
    (hda : a.dims = [M, K]) (hdb : b.dims = [K, N]) (hM : M ≤ 2 ^ 32 - 64) (hN : N ≤ 2 ^ 32 - 64) (zero : α)
    (add mul : α → α → α) (hpad : PadOk zero fun s x y => add s (mul x y))
    (hcpu : a.matmul cores zero add mul b = .ok c) :
    ∃ k vals, callOpsDotMetal zero (fun s x y => add s (mul x y)) a b = .ok (k, vals.length) ∧
      (∀ lt0 rt0 buf extra, buf.length = vals.length →
        BlockComputes k lt0 rt0 (buf ++ extra) (vals ++ extra)) ∧
      ∀ idx, InRange idx [M, N] → Tensor.elem ⟨vals, Layout.fromShape [M, N]⟩ idx = c.elem idx := by
  obtain ⟨k, vals, h1, h2, h3⟩ := C127_dot_partial ha hb hda hdb hM hN zero _ hpad
  obtain ⟨c', g1, g2⟩ := (C32_dot ha hb hda hdb zero add mul cores).2 rfl
  rw [hcpu] at g1
  cases g1
  exact ⟨k, vals, h1, h3, (isMatProd_agree h2.isMatProd g2).2⟩

/-- **C127 fails for more than 16 batch dimensions**: the index array of the kernel overflows. -/
theorem C127_rank_ub : ∃ a b : Tensor Nat, a.WF ∧ b.WF ∧ a.dims = List.replicate 17 1 ++ [1, 1] ∧
    b.dims = List.replicate 17 1 ++ [1, 1] ∧
    callOpsMatmulMetal 0 (fun s x y => s + x * y) a b = .ub :=
  ⟨⟨[2], Layout.fromShape (List.replicate 17 1 ++ [1, 1])⟩,
    ⟨[5], Layout.fromShape (List.replicate 17 1 ++ [1, 1])⟩, fresh_wf (by decide), fresh_wf (by decide),
    rfl, rfl, rfl⟩

/-- **C127 fails for one-byte types**: a product of 3 cells gets a buffer of 2 bytes (`buf_size`, C120), and
the thread of the third row writes behind it. -/
theorem C127_bytes_ub : ∃ (a b : Tensor Nat) (k : TileKernel Nat) (sched : List Tid), a.WF ∧ b.WF ∧
    a.dims = [3, 0] ∧ b.dims = [0, 1] ∧
    callOpsDotMetal 0 (fun s x y => s + x * y) a b = .ok (k, 3) ∧
    ∀ lt0 rt0 buf, buf.length = bufSize 3 → blockExec k lt0 rt0 buf sched = .ub := by
  refine ⟨⟨[], Layout.fromShape [3, 0]⟩, ⟨[], Layout.fromShape [0, 1]⟩, _,
    List.replicate 9 ⟨0, 0, 0, 0, 0⟩, fresh_wf rfl, fresh_wf rfl, rfl, rfl, rfl, ?_⟩
  intro lt0 rt0 buf hbuf
  rw [show bufSize 3 = 2 by decide] at hbuf
  match buf, hbuf with
  | [x, y], _ => with_unfolding_all rfl

/-! ## Examples -/

/-- The multiply-add of the natural numbers (and of the integers modulo a power of two) ignores padding. -/
example : PadOk 0 (fun s x y : Nat => s + x * y) := ⟨fun _ => True, trivial, by simp, by simp⟩

/-- A transposed 3 x 2 matrix times a 2 x 1 matrix: `dot` asks for 3 cells. -/
example : (callOpsDotMetal 0 (fun s x y : Nat => s + x * y) ⟨[1, 2, 3, 4, 5, 6], ⟨[3, 2], [1, 3], 0⟩⟩
    ⟨[7, 8], Layout.fromShape [2, 1]⟩).map (fun r => (r.1.launch, r.2)) =
    .ok (⟨1, 2, 1, 8, 8⟩, 3) := by decide

/-- That case meets the hypotheses of the theorems. -/
example : ∃ k vals, callOpsDotMetal 0 (fun s x y : Nat => s + x * y)
    ⟨[1, 2, 3, 4, 5, 6], Layout.fromShape [3, 2]⟩ ⟨[7, 8], Layout.fromShape [2, 1]⟩ = .ok (k, vals.length) ∧
    IsMacProd 0 (fun s x y : Nat => s + x * y) ⟨[1, 2, 3, 4, 5, 6], Layout.fromShape [3, 2]⟩
      ⟨[7, 8], Layout.fromShape [2, 1]⟩ ⟨vals, Layout.fromShape [3, 1]⟩ [] [] [] 3 2 1 ∧
    ∀ lt0 rt0 buf extra, buf.length = vals.length →
      BlockComputes k lt0 rt0 (buf ++ extra) (vals ++ extra) :=
  C127_dot_partial (fresh_wf (by decide)) (fresh_wf (by decide)) rfl rfl (by decide) (by decide) 0 _
    ⟨fun _ => True, trivial, by simp, by simp⟩

/-- Batch dimensions `[2, 1]` and `[3]` have the common shape `[2, 3]`: 2 * 3 * 2 * 1 cells. -/
example : batchMax [2, 1, 2, 2] [3, 2, 1] = [2, 3] ∧
    (callOpsMatmulMetal 0 (fun s x y : Nat => s + x * y) ⟨List.range 8, Layout.fromShape [2, 1, 2, 2]⟩
      ⟨List.range 6, Layout.fromShape [3, 2, 1]⟩).map (fun r => (r.1.launch, r.2)) =
      .ok (⟨1, 2, 6, 16, 16⟩, 12) := by decide

/-- No batches: nothing is launched and nothing is asked of the pool. -/
example : (callOpsMatmulMetal 0 (fun s x y : Nat => s + x * y) ⟨[], Layout.fromShape [0, 2, 2]⟩
    ⟨[], Layout.fromShape [0, 2, 1]⟩).map (fun r => (r.1.launch.gz, r.2)) = .ok (0, 0) := by decide

end Hodu.Metal
