import Verif.Lemmas.CudaTile
import Verif.Lemmas.Float
import Verif.Props.Matmul
import Verif.Props.Cuda

/-! # Property C104: tiled matrix products on CUDA -/

namespace Hodu.Cuda
open _root_.Hodu.Spec
open Cuda.Spec TileKernel

variable {α : Type}

/-! ## Specification -/

/-- `x₀y₀ + x₁y₁ + …` with the multiply-add of the device, from the left. -/
def Spec.macSum (zero : α) (macc : α → α → α → α) (xs ys : List α) : α :=
  (xs.zip ys).foldl (fun s p => macc s p.1 p.2) zero

/-- `C[b,i,j] = Σ_k A[b,i,k] * B[b,k,j]` with the multiply-add of the device. -/
def Spec.IsMacProd (zero : α) (macc : α → α → α → α) (a b c : Tensor α) (la lb batch : List Nat)
    (M K N : Nat) : Prop :=
  c.dims = batch ++ [M, N] ∧ c.WF ∧
  ∀ bi i j, InRange bi batch → i < M → j < N → ∃ xs ys : List α,
    xs.length = K ∧ ys.length = K ∧
    (∀ k, k < K → a.elem (broadcastIndex la bi ++ [i, k]) = xs[k]?) ∧
    (∀ k, k < K → b.elem (broadcastIndex lb bi ++ [k, j]) = ys[k]?) ∧
    c.elem (bi ++ [i, j]) = some (macSum zero macc xs ys)

/-- With separate multiplication and addition this is the product of C32. -/
theorem Spec.IsMacProd.isMatProd {zero : α} {add mul : α → α → α} {a b c : Tensor α}
    {la lb batch : List Nat} {M K N : Nat}
    (h : IsMacProd zero (fun s x y => add s (mul x y)) a b c la lb batch M K N) :
    IsMatProd zero add mul a b c la lb batch M K N := by
  refine ⟨h.1, h.2.1, ?_⟩
  intro bi i j hb hi hj
  obtain ⟨xs, ys, g1, g2, g3, g4, g5⟩ := h.2.2 bi i j hb hi hj
  refine ⟨xs, ys, g1, g2, g3, g4, ?_⟩
  rw [g5, sumProd, macSum, ← List.map_uncurry_zip_eq_zipWith, List.foldl_map]
  rfl

/-! ## matmul -/

theorem tileGrid_eq {T n : Nat} (h : n < 2 ^ 32) : tileGrid T n = max ((n + T - 1) / T) 1 := by
  rw [tileGrid, u32_of_lt h]

theorem tileGrid_cover {T n : Nat} (hT : 0 < T) (h : n < 2 ^ 32) : n ≤ tileGrid T n * T := by
  rw [tileGrid_eq h]
  have h0 := Nat.div_add_mod (n + T - 1) T
  have h1 := Nat.mod_lt (n + T - 1) hT
  have h2 : (n + T - 1) / T * T ≤ max ((n + T - 1) / T) 1 * T :=
    Nat.mul_le_mul_right _ (Nat.le_max_left _ _)
  rw [Nat.mul_comm] at h0
  omega

theorem matmulLaunch_check {M N B : Nat} (hM : M ≤ 16 * 65535) (hN : N < 2 ^ 32) (hB : 0 < B)
    (hB' : B ≤ 65535) : (matmulLaunch M N B).check = .ok (matmulLaunch M N B) := by
  unfold Launch.check
  rw [if_pos]
  simp only [matmulLaunch, tileGrid_eq hN, tileGrid_eq (show M < 2 ^ 32 by omega),
    u32_of_lt (show B < 2 ^ 32 by omega)]
  omega

/-- A grid of full blocks computes the product its reads describe, and leaves the rest of the buffer. -/
theorem full_blocks_tail {c : TileKernel α} {lv rv : Nat → Nat → Nat → α} {B : Nat} (hT : 0 < c.T)
    (hx : c.launch.bx = c.T) (hy : c.launch.bY = c.T) (hz : c.launch.gz = B)
    (hgy : c.M ≤ c.launch.gy * c.T) (hgx : c.N ≤ c.launch.gx * c.T) (hpad : PadOk c.zero c.macc)
    (hl : ∀ b i k, b < B → i < c.M → k < c.K → c.lhs b i k = .ok (lv b i k))
    (hr : ∀ b k j, b < B → k < c.K → j < c.N → c.rhs b k j = .ok (rv b k j)) :
    ∃ vals : List α, vals.length = B * (c.M * c.N) ∧
      (∀ b i j, b < B → i < c.M → j < c.N → vals[b * (c.M * c.N) + (i * c.N + j)]? =
        some ((List.range c.K).foldl (fun s k => c.macc s (lv b i k) (rv b k j)) c.zero)) ∧
      ∀ lt0 rt0 buf extra, buf.length = B * (c.M * c.N) →
        TileComputes c lt0 rt0 (buf ++ extra) (vals ++ extra) := by
  have hflat : ∀ {A B a b : Nat}, a < A → b < B → a * B + b < A * B := by
    intro A B a b ha hb
    calc a * B + b < a * B + B := by omega
      _ = (a + 1) * B := (Nat.succ_mul a B).symm
      _ ≤ A * B := Nat.mul_le_mul_right _ ha
  have hget : ∀ b i j, b < B → i < c.M → j < c.N →
      ((List.range (B * (c.M * c.N))).map fun n => (List.range c.K).foldl (fun s k =>
        c.macc s (lv (n / (c.M * c.N)) (n % (c.M * c.N) / c.N) k)
          (rv (n / (c.M * c.N)) k (n % (c.M * c.N) % c.N))) c.zero)[b * (c.M * c.N) + (i * c.N + j)]? =
        some ((List.range c.K).foldl (fun s k => c.macc s (lv b i k) (rv b k j)) c.zero) := by
    intro b i j hb hi hj
    have h1 := hflat hi hj
    have h2 := hflat hb h1
    have hp : 0 < c.M * c.N := by omega
    have d1 : (b * (c.M * c.N) + (i * c.N + j)) / (c.M * c.N) = b := by
      rw [Nat.add_comm, Nat.add_mul_div_right _ _ hp, Nat.div_eq_of_lt h1]; omega
    have d2 : (b * (c.M * c.N) + (i * c.N + j)) % (c.M * c.N) = i * c.N + j := by
      rw [Nat.add_comm, Nat.add_mul_mod_self_right, Nat.mod_eq_of_lt h1]
    have d3 : (i * c.N + j) / c.N = i := by
      rw [Nat.add_comm, Nat.add_mul_div_right _ _ (by omega), Nat.div_eq_of_lt hj]; omega
    have d4 : (i * c.N + j) % c.N = j := by
      rw [Nat.add_comm, Nat.add_mul_mod_self_right, Nat.mod_eq_of_lt hj]
    rw [List.getElem?_map, List.getElem?_range h2]
    simp only [Option.map_some, d1, d2, d3, d4]
  refine ⟨_, by simp, hget, ?_⟩
  intro lt0 rt0 buf extra hbuf
  have hf : Fits c lv rv (buf ++ extra) := ⟨by omega, by omega, by rw [hz]; exact hl,
    by rw [hz]; exact hr, by rw [hz, List.length_append, hbuf]; omega⟩
  refine tile_computes hf ?_ ?_
  · intro u hu
    have := hget u.bz (c.row u) (c.col u) (by rw [← hz]; exact (has_iff.mp hu.1).1) hu.2.1 hu.2.2
    rw [cell, Nat.add_assoc, List.getElem?_append_left (List.getElem?_eq_some_iff.mp this).1, this,
      result_full hx hy hpad hu]
  · intro a ha
    have hna : B * (c.M * c.N) ≤ a := by
      by_contra hlt
      have hp : 0 < c.M * c.N := by
        rcases Nat.eq_zero_or_pos (c.M * c.N) with h | h
        · rw [h] at hlt; omega
        · exact h
      have hN : 0 < c.N := Nat.pos_of_mul_pos_left hp
      have hq : a / (c.M * c.N) < B := by
        rw [Nat.div_lt_iff_lt_mul hp]; omega
      have hm := Nat.mod_lt a hp
      have hi : a % (c.M * c.N) / c.N < c.M := by
        rw [Nat.div_lt_iff_lt_mul hN]; omega
      have hj : a % (c.M * c.N) % c.N < c.N := Nat.mod_lt _ hN
      obtain ⟨u, hu, e1, e2, e3⟩ := writer_exists hT hx hy (by rw [hz]; exact hq) hi hj hgy hgx
      refine ha u hu ?_
      rw [cell, e1, e2, e3]
      have f1 := Nat.div_add_mod a (c.M * c.N)
      have f2 := Nat.div_add_mod (a % (c.M * c.N)) c.N
      rw [Nat.mul_comm] at f1 f2
      omega
    rw [List.getElem?_append_right (by simpa using hna), List.getElem?_append_right (by omega)]
    simp [hbuf]

/-- The same for a buffer of exactly the size of the product. -/
theorem full_blocks {c : TileKernel α} {lv rv : Nat → Nat → Nat → α} {B : Nat} (hT : 0 < c.T)
    (hx : c.launch.bx = c.T) (hy : c.launch.bY = c.T) (hz : c.launch.gz = B)
    (hgy : c.M ≤ c.launch.gy * c.T) (hgx : c.N ≤ c.launch.gx * c.T) (hpad : PadOk c.zero c.macc)
    (hl : ∀ b i k, b < B → i < c.M → k < c.K → c.lhs b i k = .ok (lv b i k))
    (hr : ∀ b k j, b < B → k < c.K → j < c.N → c.rhs b k j = .ok (rv b k j)) :
    ∃ vals : List α, vals.length = B * (c.M * c.N) ∧
      (∀ b i j, b < B → i < c.M → j < c.N → vals[b * (c.M * c.N) + (i * c.N + j)]? =
        some ((List.range c.K).foldl (fun s k => c.macc s (lv b i k) (rv b k j)) c.zero)) ∧
      ∀ lt0 rt0 buf, buf.length = B * (c.M * c.N) → TileComputes c lt0 rt0 buf vals := by
  obtain ⟨vals, h1, h2, h3⟩ := full_blocks_tail hT hx hy hz hgy hgx hpad hl hr
  refine ⟨vals, h1, h2, fun lt0 rt0 buf hb => ?_⟩
  have := h3 lt0 rt0 buf [] hb
  rwa [List.append_nil, List.append_nil] at this

/-- **C104, batched products**: for operands of any layout whose batch dimensions agree (what
`Tensor::matmul` passes), whatever shared memory and the output held before and however the threads are
interleaved, the kernel ends with the product in the output. -/
theorem C104_matmul_partial {a b : Tensor α} {batch : List Nat} {M K N : Nat} (ha : a.WF) (hb : b.WF)
    (hda : a.dims = batch ++ [M, K]) (hdb : b.dims = batch ++ [K, N]) (h16 : batch.length ≤ 16)
    (hB : 0 < numel batch) (hB' : numel batch ≤ 65535) (hM : M ≤ 16 * 65535) (hN : N < 2 ^ 32)
    (zero : α) (macc : α → α → α → α) (hpad : PadOk zero macc) :
    ∃ k vals, callOpsMatmulCuda zero macc a b = .ok (k, vals.length) ∧
      IsMacProd zero macc a b ⟨vals, Layout.fromShape (batch ++ [M, N])⟩ batch batch batch M K N ∧
      ∀ lt0 rt0 buf, buf.length = vals.length → TileComputes k lt0 rt0 buf vals := by
  have hda' : a.layout.dims = batch ++ [M, K] := hda
  have hdb' : b.layout.dims = batch ++ [K, N] := hdb
  have hsla : a.layout.strides.length = batch.length + 2 := by rw [ha.1, hda]; simp
  have hslb : b.layout.strides.length = batch.length + 2 := by rw [hb.1, hdb]; simp
  have hsa := split_last2 (xs := a.layout.strides) (by omega)
  have hsb := split_last2 (xs := b.layout.strides) (by omega)
  rw [hsla, show batch.length + 2 - 2 = batch.length by omega,
    show batch.length + 2 - 1 = batch.length + 1 by omega] at hsa
  rw [hslb, show batch.length + 2 - 2 = batch.length by omega,
    show batch.length + 2 - 1 = batch.length + 1 by omega] at hsb
  have hbc : BroadcastsTo batch batch := by
    refine ⟨Nat.le_refl _, ?_⟩
    intro k d hk
    rw [Nat.sub_self]
    exact Or.inr hk
  have hea : ∀ x i k, InRange x batch → i < M → k < K → (a.elem (x ++ [i, k])).isSome ∧
      a.layout.offset + dot (x ++ [i, k]) a.layout.strides =
        a.layout.offset + dot x (a.layout.strides.take batch.length) +
          i * a.layout.strides.getD batch.length 0 + k * a.layout.strides.getD (batch.length + 1) 0 := by
    intro x i k hx hi hk
    refine ⟨ha.2 _ (by rw [hda]; exact inRange_mat hx hi hk), ?_⟩
    conv_lhs => rw [hsa]
    rw [dot_append (by rw [hx.length]; simp; omega)]
    simp [dot]; omega
  have heb : ∀ x k j, InRange x batch → k < K → j < N → (b.elem (x ++ [k, j])).isSome ∧
      b.layout.offset + dot (x ++ [k, j]) b.layout.strides =
        b.layout.offset + dot x (b.layout.strides.take batch.length) +
          k * b.layout.strides.getD batch.length 0 + j * b.layout.strides.getD (batch.length + 1) 0 := by
    intro x i k hx hi hk
    refine ⟨hb.2 _ (by rw [hdb]; exact inRange_mat hx hi hk), ?_⟩
    conv_lhs => rw [hsb]
    rw [dot_append (by rw [hx.length]; simp; omega)]
    simp [dot]; omega
  -- the kernel that is launched
  let la : Nat → Nat → Nat → Nat := fun q i k => a.layout.offset +
    dot (broadcastIndex batch (unravel batch q)) (a.layout.strides.take batch.length) +
    i * a.layout.strides.getD batch.length 0 + k * a.layout.strides.getD (batch.length + 1) 0
  let ra : Nat → Nat → Nat → Nat := fun q k j => b.layout.offset +
    dot (broadcastIndex batch (unravel batch q)) (b.layout.strides.take batch.length) +
    k * b.layout.strides.getD batch.length 0 + j * b.layout.strides.getD (batch.length + 1) 0
  obtain ⟨c, hc, c1, c2, c3, c4, c5, c6, c7, c8⟩ : ∃ c : TileKernel α,
      callOpsMatmulCuda zero macc a b = .ok (c, numel (batch ++ [M, N])) ∧ c.T = 16 ∧ c.M = M ∧ c.K = K ∧
      c.N = N ∧ c.zero = zero ∧ c.macc = macc ∧ c.launch = matmulLaunch M N (numel batch) ∧
      ∀ q, q < numel batch → ∀ i k, c.lhs q i k = readC a.storage (la q i k) ∧
        c.rhs q i k = readC b.storage (ra q i k) := by
    have hmd : matmulMetadata a.layout b.layout (numel (batch ++ [M, N])) =
        .ok ([numel (batch ++ [M, N]), a.layout.dims.length, b.layout.dims.length, batch.length] ++
          a.layout.dims ++ b.layout.dims ++ batch ++ a.layout.strides ++ b.layout.strides ++
          [a.layout.offset, b.layout.offset, M, K, N]) := by
      unfold matmulMetadata
      simp only [Layout.ndim, hda', hdb', List.length_append, List.length_cons, List.length_nil,
        Nat.zero_add, Nat.reduceAdd, Nat.add_sub_cancel]
      rw [if_neg (by omega), matmulBatch_self (by omega), Res.ok_bind]
      simp [List.getD_eq_getElem?_getD, show batch.length + 2 - 1 = batch.length + 1 by omega]
    refine ⟨matmulTile zero macc a.storage b.storage ⟨numel (batch ++ [M, N]), a.layout.dims, b.layout.dims,
      batch, a.layout.strides, b.layout.strides, a.layout.offset, b.layout.offset, M, K, N⟩
      (matmulLaunch M N (numel batch)), ?_, rfl, rfl, rfl, rfl, rfl, rfl, rfl, ?_⟩
    · unfold callOpsMatmulCuda
      simp only [Layout.ndim]
      rw [if_neg (by rw [hda', hdb']; simp)]
      have hsz : shapeSize (a.layout.dims.take (a.layout.dims.length - 2) ++
          [a.layout.dims.getD (a.layout.dims.length - 2) 0,
            b.layout.dims.getD (b.layout.dims.length - 1) 0]) = numel (batch ++ [M, N]) := by
        rw [shapeSize_eq, hda', hdb']
        simp [List.getD_eq_getElem?_getD, show batch.length + 2 - 1 = batch.length + 1 by omega]
      rw [hsz, hmd, Res.ok_bind]
      unfold matmulCuda
      rw [decodeMatmul_eq (by rw [hsla, hda']; simp) (by rw [hslb, hdb']; simp), Res.ok_bind]
      simp only [shapeSize_eq]
      rw [matmulLaunch_check hM hN hB hB', Res.ok_bind, guard16, if_neg (by omega), Res.ok_bind]
    · intro q hq i k
      have hu : (cUnravel batch q).1 = unravel batch q := by rw [cUnravel_eq, Nat.mod_eq_of_lt hq]
      have hul : batch.length ≤ (unravel batch q).length := by
        rw [(unravel_inRange hq).length]
      simp only [matmulTile, hda', hdb', List.length_append, List.length_cons, List.length_nil, Nat.zero_add,
        Nat.reduceAdd, Nat.add_sub_cancel, hu, batchIdx_eq hul, cFlat_eq]
      exact ⟨rfl, rfl⟩
  have hget : ∀ (s : List α) n, n < s.length → readC s n = .ok (s.getD n zero) := by
    intro s n hn; simp [readC, List.getD_eq_getElem?_getD, hn]
  have hla : ∀ q i k, q < numel batch → i < M → k < K → la q i k < a.storage.length := by
    intro q i k hq hi hk
    have := hea _ i k (broadcastIndex_range hbc (unravel_inRange hq)) hi hk
    show a.layout.offset + _ + _ + _ < _
    rw [← this.2]
    exact Tensor.elem_lt this.1
  have hra : ∀ q k j, q < numel batch → k < K → j < N → ra q k j < b.storage.length := by
    intro q k j hq hk hj
    have := heb _ k j (broadcastIndex_range hbc (unravel_inRange hq)) hk hj
    show b.layout.offset + _ + _ + _ < _
    rw [← this.2]
    exact Tensor.elem_lt this.1
  obtain ⟨vals, v1, v2, v3⟩ := full_blocks (c := c) (B := numel batch)
    (lv := fun q i k => a.storage.getD (la q i k) zero) (rv := fun q k j => b.storage.getD (ra q k j) zero)
    (by omega) (by rw [c7, c1]; rfl) (by rw [c7, c1]; rfl)
    (by rw [c7]; exact u32_of_lt (by omega))
    (by rw [c7, c1, c2]; exact tileGrid_cover (by omega) (by omega))
    (by rw [c7, c1, c4]; exact tileGrid_cover (by omega) hN) (by rw [c5, c6]; exact hpad)
    (by rw [c2, c3]; intro q i k hq hi hk; rw [(c8 q hq i k).1]; exact hget _ _ (hla q i k hq hi hk))
    (by rw [c3, c4]; intro q k j hq hk hj; rw [(c8 q hq k j).2]; exact hget _ _ (hra q k j hq hk hj))
  rw [c2, c4] at v1 v3
  rw [c2, c3, c4, c5, c6] at v2
  have hnum : numel (batch ++ [M, N]) = numel batch * (M * N) := by
    rw [numel_append]; simp [numel]
  refine ⟨c, vals, by rw [hc, v1, hnum], ⟨rfl, fresh_wf (by rw [v1, hnum]), ?_⟩, by rw [v1]; exact v3⟩
  intro bi i j hbi hi hj
  have hq := rowMajor_lt hbi
  refine ⟨(List.range K).map fun k => a.storage.getD (la (rowMajor batch bi) i k) zero,
    (List.range K).map fun k => b.storage.getD (ra (rowMajor batch bi) k j) zero, by simp, by simp, ?_, ?_, ?_⟩
  · intro k hk
    have h1 := hea _ i k (broadcastIndex_range hbc hbi) hi hk
    have h2 := hla _ i k hq hi hk
    rw [Tensor.elem, h1.2]
    have : la (rowMajor batch bi) i k = a.layout.offset +
        dot (broadcastIndex batch bi) (a.layout.strides.take batch.length) +
        i * a.layout.strides.getD batch.length 0 + k * a.layout.strides.getD (batch.length + 1) 0 := by
      show a.layout.offset + _ + _ + _ = _
      rw [unravel_rowMajor hbi]
    rw [← this, List.getElem?_map, List.getElem?_range hk, Option.map_some]
    simp [List.getD_eq_getElem?_getD, h2]
  · intro k hk
    have h1 := heb _ k j (broadcastIndex_range hbc hbi) hk hj
    have h2 := hra _ k j hq hk hj
    rw [Tensor.elem, h1.2]
    have : ra (rowMajor batch bi) k j = b.layout.offset +
        dot (broadcastIndex batch bi) (b.layout.strides.take batch.length) +
        k * b.layout.strides.getD batch.length 0 + j * b.layout.strides.getD (batch.length + 1) 0 := by
      show b.layout.offset + _ + _ + _ = _
      rw [unravel_rowMajor hbi]
    rw [← this, List.getElem?_map, List.getElem?_range hk, Option.map_some]
    simp [List.getD_eq_getElem?_getD, h2]
  · show Tensor.elem ⟨vals, ⟨batch ++ [M, N], Layout.computeStrides (batch ++ [M, N]), 0⟩⟩ _ = _
    rw [elem_rowMajor, rowMajor_append hbi.length]
    have := v2 (rowMajor batch bi) i j hq hi hj
    simp only [rowMajor, numel, Nat.mul_one, Nat.add_zero, Nat.zero_add]
    rw [show rowMajor batch bi * (M * N) + (i * N + j) = rowMajor batch bi * (M * N) + (i * N + j) from rfl,
      this, macSum, List.zip_map', List.foldl_map]

/-- **C104, `f32`**: adding `0 * 0` never changes a running sum that started from `+0`, so the theorem
above applies to the arithmetic of `float` itself and the result is the product of C32, bit for bit. -/
theorem C104_float_padding : PadOk 0 maccFloat := by
  open Creation Flt in
  have htop : f32.top = 2139095040 := by decide +kernel
  have henc0 : ∀ d, enc f32 0 d = 0 := by
    intro d
    have : Nat.log2 0 = 0 := by decide
    simp [enc, this]
  have hmul : ∀ a b, fmul a b < 2 ^ 32 := by
    intro a b
    have hs : ∀ n p, p ≤ f32.top → signed n p < 2 ^ 32 := by
      intro n p hp
      rw [signed]
      split <;> omega
    unfold fmul
    split
    · decide
    · split
      · exact hs _ _ (Nat.le_refl _)
      · exact hs _ _ (Nat.min_le_right _ _)
  have hzz : fmul 0 0 = 0 := by
    have h0 : sval 0 = 0 := by decide +kernel
    unfold fmul
    rw [if_neg (by decide +kernel), if_neg (by decide +kernel), h0]
    simp [Creation.round, signed, henc0, isNeg]
  have hmag0 : ∀ p, mag f32 p = 0 → p = 0 := by
    intro p h
    have := enc_mag f32 p
    rw [h, henc0] at this
    exact this.symm
  have hunit : ∀ p, ∃ m, mag f32 p = m * 2 ^ 925 := fun p => ⟨_, rfl⟩
  have hpos : ∀ m, 0 < m → 0 < enc f32 (m * 2 ^ 925) 1 := by
    intro m hm
    have hu : (2 : Nat) ^ f32.unit = 2 ^ 925 := rfl
    simp only [enc, hu]
    have hp : 0 < (2 : Nat) ^ 925 := Nat.two_pow_pos _
    generalize (2 : Nat) ^ 925 = U at *
    rw [Nat.one_mul, Nat.mul_div_cancel _ hp]
    have hman : 0 < 2 ^ f32.man := Nat.two_pow_pos _
    by_cases he : Nat.log2 m - f32.man = 0
    · rw [he]
      simp only [Nat.pow_zero, Nat.mul_one, Nat.mul_div_cancel _ hp, Nat.zero_mul, Nat.zero_add]
      split <;> omega
    · have : 0 < (Nat.log2 m - f32.man) * 2 ^ f32.man := Nat.mul_pos (by omega) hman
      generalize (Nat.log2 m - f32.man) * 2 ^ f32.man = w at *
      generalize m * U / (U * 2 ^ (Nat.log2 m - f32.man)) = v
      split <;> omega
  have hsv : ∀ a, ∃ z : Int, sval a = z * 2 ^ 925 ∧ (isNeg a = true → z ≤ 0) ∧
      (isNeg a = false → 0 ≤ z) := by
    intro a
    obtain ⟨m, hm⟩ := hunit (a % 2 ^ 31)
    unfold sval
    rw [hm]
    cases isNeg a
    · exact ⟨m, by push_cast; rfl, by simp, by simp⟩
    · exact ⟨-m, by push_cast; simp, by simp, by simp⟩
  refine ⟨fun s => s = qnan ∨ (isNan s = false ∧ s < 2 ^ 32 ∧ s ≠ 2 ^ 31), Or.inr (by decide +kernel), ?_, ?_⟩
  · -- sums keep the property
    intro s a b hs
    have hb := hmul a b
    simp only [maccFloat]
    generalize fmul a b = x at hb
    by_cases h1 : (isNan s || isNan x || (isInf s && isInf x && isNeg s != isNeg x)) = true
    · left; rw [fadd, if_pos h1]
    · have h1' := h1
      simp only [Bool.or_eq_true, not_or, Bool.not_eq_true] at h1'
      rcases hs with rfl | ⟨g1, g2, g3⟩
      · exact absurd h1'.1.1 (by decide +kernel)
      · right
        unfold fadd
        rw [if_neg h1]
        cases hi : isInf s
        · rw [if_neg (by simp)]
          cases hx : isInf x
          · rw [if_neg (by simp)]
            -- the rounded sum
            obtain ⟨z, e1, e2, e3⟩ := hsv s
            obtain ⟨w, f1, f2, f3⟩ := hsv x
            have hn : sval s + sval x = (z + w) * 2 ^ 925 := by rw [e1, f1]; ring
            have hz0 : z = 0 → s % 2 ^ 31 = 0 := by
              intro h
              apply hmag0
              rw [h] at e1
              unfold sval at e1
              split at e1 <;> omega
            have hq : min (enc f32 (sval s + sval x).natAbs 1) f32.top ≤ f32.top := Nat.min_le_right _ _
            have hneg : (decide (sval s + sval x < 0) || (sval s + sval x == 0 && (isNeg s && isNeg x))) = true →
                0 < min (enc f32 (sval s + sval x).natAbs 1) f32.top := by
              intro h
              have hne : z + w ≠ 0 := by
                intro h0
                rw [hn, h0] at h
                simp at h
                have := e2 h.1
                have := f2 h.2
                have := hz0 (by omega)
                have hd := Nat.div_add_mod s (2 ^ 31)
                have : s / 2 ^ 31 ≠ 0 := by simpa [isNeg] using h.1
                omega
              have : (sval s + sval x).natAbs = (z + w).natAbs * 2 ^ 925 := by
                rw [hn, Int.natAbs_mul, Int.natAbs_pow]
                rfl
              rw [this]
              exact Nat.lt_min.mpr ⟨hpos (z + w).natAbs (Int.natAbs_pos.mpr hne), by rw [htop]; decide⟩
            unfold Creation.round
            generalize min (enc f32 (sval s + sval x).natAbs 1) f32.top = q at *
            generalize (decide (sval s + sval x < 0) || (sval s + sval x == 0 && (isNeg s && isNeg x))) = neg at *
            unfold signed isNan
            cases neg
            · simp only [Bool.false_eq_true, if_false, Nat.zero_add]
              refine ⟨?_, by omega, by omega⟩
              simp only [decide_eq_false_iff_not]
              omega
            · have := hneg rfl
              simp only [if_true]
              refine ⟨?_, by omega, by omega⟩
              simp only [decide_eq_false_iff_not]
              omega
          · rw [if_pos rfl]
            refine ⟨h1'.1.2, hb, ?_⟩
            rintro rfl
            exact absurd hx (by decide +kernel)
        · rw [if_pos rfl]
          exact ⟨g1, g2, g3⟩
  · intro s hs
    show fadd s (fmul 0 0) = s
    rw [hzz]
    rcases hs with rfl | ⟨g1, g2, g3⟩
    · decide +kernel
    · have z1 : isNan 0 = false := by decide +kernel
      have z2 : isInf 0 = false := by decide +kernel
      have z3 : isNeg 0 = false := by decide +kernel
      have z4 : sval 0 = 0 := by decide +kernel
      unfold fadd
      rw [if_neg (by simp [g1, z1, z2])]
      cases hi : isInf s
      · rw [if_neg (by simp), if_neg (by simp [z2])]
        rw [z3, z4]
        have hp1 : s % 2 ^ 31 ≤ f32.top := by simpa [isNan] using g1
        have hp2 : s % 2 ^ 31 ≠ f32.top := by simpa [isInf] using hi
        have hd := Nat.div_add_mod s (2 ^ 31)
        have hm := Nat.mod_lt s (show 0 < 2 ^ 31 by decide)
        unfold Creation.round
        rw [Int.add_zero, Bool.and_false, Bool.and_false, Bool.or_false]
        have habs : (sval s).natAbs = mag f32 (s % 2 ^ 31) := by
          unfold sval
          split <;> simp
        rw [habs, enc_mag, Nat.min_eq_left hp1]
        unfold signed
        cases hg : isNeg s
        · have : s / 2 ^ 31 = 0 := by simpa [isNeg] using hg
          have hs0 : ¬ sval s < 0 := by
            unfold sval
            rw [hg]
            simp
          simp only [hs0, decide_false, Bool.false_eq_true, if_false]
          omega
        · have : s / 2 ^ 31 ≠ 0 := by simpa [isNeg] using hg
          have hne : s % 2 ^ 31 ≠ 0 := by omega
          have hmg : 0 < mag f32 (s % 2 ^ 31) := Nat.pos_of_ne_zero fun h => hne (hmag0 _ h)
          have hs0 : sval s < 0 := by
            unfold sval
            rw [hg]
            simp only [if_true]
            omega
          simp only [hs0, decide_true, if_true]
          omega
      · rw [if_pos rfl]

/-- **C104, `f32` products** agree with the CPU kernel's: the same sum, in the same order, of the same
rounded products (C32). -/
theorem C104_float_partial {a b : Tensor Nat} {batch : List Nat} {M K N : Nat} (ha : a.WF) (hb : b.WF)
    (hda : a.dims = batch ++ [M, K]) (hdb : b.dims = batch ++ [K, N]) (h16 : batch.length ≤ 16)
    (hB : 0 < numel batch) (hB' : numel batch ≤ 65535) (hM : M ≤ 16 * 65535) (hN : N < 2 ^ 32) :
    ∃ k vals, callOpsMatmulCuda 0 maccFloat a b = .ok (k, vals.length) ∧
      IsMatProd 0 Creation.fadd Creation.fmul a b ⟨vals, Layout.fromShape (batch ++ [M, N])⟩ batch batch
        batch M K N ∧
      ∀ lt0 rt0 buf, buf.length = vals.length → TileComputes k lt0 rt0 buf vals := by
  obtain ⟨k, vals, h1, h2, h3⟩ :=
    C104_matmul_partial ha hb hda hdb h16 hB hB' hM hN 0 maccFloat C104_float_padding
  exact ⟨k, vals, h1, IsMacProd.isMatProd h2, h3⟩

/-! ## Launches that are refused -/

/-- **C104 fails** for an empty batch, for more than 65535 batches and for more than 1048560 rows: the
launch is an error, while the CPU computes the product. -/
theorem C104_launch_refused {a b : Tensor α} {batch : List Nat} {M K N : Nat} (ha : a.WF) (hb : b.WF)
    (hda : a.dims = batch ++ [M, K]) (hdb : b.dims = batch ++ [K, N]) (h16 : batch.length ≤ 16)
    (h : numel batch = 0 ∨ (65535 < numel batch ∧ numel batch < 2 ^ 32) ∨ (16 * 65535 < M ∧ M < 2 ^ 32))
    (zero : α) (macc : α → α → α → α) : callOpsMatmulCuda zero macc a b = .err := by
  have hda' : a.layout.dims = batch ++ [M, K] := hda
  have hdb' : b.layout.dims = batch ++ [K, N] := hdb
  have hsla : a.layout.strides.length = batch.length + 2 := by rw [ha.1, hda]; simp
  have hslb : b.layout.strides.length = batch.length + 2 := by rw [hb.1, hdb]; simp
  have hmd : ∀ n, matmulMetadata a.layout b.layout n =
      .ok ([n, a.layout.dims.length, b.layout.dims.length, batch.length] ++
        a.layout.dims ++ b.layout.dims ++ batch ++ a.layout.strides ++ b.layout.strides ++
        [a.layout.offset, b.layout.offset, M, K, N]) := by
    intro n
    unfold matmulMetadata
    simp only [Layout.ndim, hda', hdb', List.length_append, List.length_cons, List.length_nil,
      Nat.zero_add, Nat.reduceAdd, Nat.add_sub_cancel]
    rw [if_neg (by omega), matmulBatch_self (by omega), Res.ok_bind]
    simp [List.getD_eq_getElem?_getD, show batch.length + 2 - 1 = batch.length + 1 by omega]
  unfold callOpsMatmulCuda
  simp only [Layout.ndim]
  rw [if_neg (by rw [hda', hdb']; simp), hmd, Res.ok_bind]
  unfold matmulCuda
  rw [decodeMatmul_eq (by rw [hsla, hda']; simp) (by rw [hslb, hdb']; simp), Res.ok_bind]
  simp only [shapeSize_eq]
  have : (matmulLaunch M N (numel batch)).check = .err := by
    unfold Launch.check
    rw [if_neg]
    simp only [matmulLaunch]
    rcases h with h | ⟨h1, h2⟩ | ⟨h1, h2⟩
    · rw [h]; simp [u32]
    · rw [u32_of_lt h2]; omega
    · rw [tileGrid_eq h2]; omega
  rw [this]
  rfl

/-! ## dot -/

theorem dotLaunch_check {M N : Nat} (hM : M ≤ 32 * 65535) (hN : N < 2 ^ 32) :
    (dotLaunch M N).check = .ok (dotLaunch M N) := by
  unfold Launch.check
  rw [if_pos]
  simp only [dotLaunch, tileGrid_eq hN, tileGrid_eq (show M < 2 ^ 32 by omega)]
  omega

/-- The kernel `dot` launches for two matrices. -/
theorem dot_launched {a b : Tensor α} {M K N : Nat} (ha : a.WF) (hb : b.WF) (hda : a.dims = [M, K])
    (hdb : b.dims = [K, N]) (hM : M ≤ 32 * 65535) (hN : N < 2 ^ 32) (zero : α) (macc : α → α → α → α) :
    ∃ (c : TileKernel α) (lv rv : Nat → Nat → Nat → α), callOpsDotCuda zero macc a b = .ok (c, M * N) ∧
      c.T = 32 ∧ c.M = M ∧ c.K = K ∧ c.N = N ∧ c.zero = zero ∧ c.macc = macc ∧
      c.launch = dotLaunch M N ∧ (∀ buf : List α, buf.length = M * N → Fits c lv rv buf) ∧
      (∀ q i k, i < M → k < K → a.elem [i, k] = some (lv q i k)) ∧
      (∀ q k j, k < K → j < N → b.elem [k, j] = some (rv q k j)) := by
  obtain ⟨lm, lk, hls⟩ := rank2 (xs := a.layout.strides) (by rw [ha.1, hda]; rfl)
  obtain ⟨rk, rn, hrs⟩ := rank2 (xs := b.layout.strides) (by rw [hb.1, hdb]; rfl)
  have hda' : a.layout.dims = [M, K] := hda
  have hdb' : b.layout.dims = [K, N] := hdb
  have hmd : dotMetadata a.layout b.layout =
      .ok [M, K, N, lm, lk, rk, rn, a.layout.offset, b.layout.offset] := by
    simp [dotMetadata, Layout.ndim, hda', hdb', hls, hrs, readR]
  have hdec : decodeDot [M, K, N, lm, lk, rk, rn, a.layout.offset, b.layout.offset] =
      .ok ⟨M, K, N, lm, lk, rk, rn, a.layout.offset, b.layout.offset⟩ := by
    simp [decodeDot, readC]
  have hela : ∀ i k, i < M → k < K → a.layout.offset + i * lm + k * lk < a.storage.length ∧
      a.elem [i, k] = some (a.storage.getD (a.layout.offset + i * lm + k * lk) zero) := by
    intro i k hi hk
    have h1 := ha.2 [i, k] (by rw [hda]; exact ⟨hi, hk, trivial⟩)
    have h2 : a.layout.offset + dot [i, k] a.layout.strides = a.layout.offset + i * lm + k * lk := by
      rw [hls]; simp [dot]; omega
    have h3 := Tensor.elem_lt h1
    rw [h2] at h3
    exact ⟨h3, by rw [Tensor.elem, h2]; simp [List.getD_eq_getElem?_getD, h3]⟩
  have helb : ∀ i k, i < K → k < N → b.layout.offset + i * rk + k * rn < b.storage.length ∧
      b.elem [i, k] = some (b.storage.getD (b.layout.offset + i * rk + k * rn) zero) := by
    intro i k hi hk
    have h1 := hb.2 [i, k] (by rw [hdb]; exact ⟨hi, hk, trivial⟩)
    have h2 : b.layout.offset + dot [i, k] b.layout.strides = b.layout.offset + i * rk + k * rn := by
      rw [hrs]; simp [dot]; omega
    have h3 := Tensor.elem_lt h1
    rw [h2] at h3
    exact ⟨h3, by rw [Tensor.elem, h2]; simp [List.getD_eq_getElem?_getD, h3]⟩
  refine ⟨dotTileOf zero macc a.storage b.storage ⟨M, K, N, lm, lk, rk, rn, a.layout.offset,
      b.layout.offset⟩ (dotLaunch M N), fun _ i k => a.storage.getD (a.layout.offset + i * lm + k * lk) zero,
    fun _ k j => b.storage.getD (b.layout.offset + k * rk + j * rn) zero, ?_, rfl, rfl, rfl, rfl, rfl, rfl,
    rfl, ?_, fun _ i k hi hk => (hela i k hi hk).2, fun _ k j hk hj => (helb k j hk hj).2⟩
  · rw [callOpsDotCuda, hmd, Res.ok_bind, dotCuda, hdec, Res.ok_bind, dotLaunch_check hM hN]
    rfl
  · intro buf hbuf
    refine ⟨show 8 ≤ 32 by decide, show 8 ≤ 32 by decide, ?_, ?_, by rw [hbuf]; show 1 * (M * N) ≤ _; omega⟩
    · intro q i k _ hi hk
      have := (hela i k hi hk).1
      simp [dotTileOf, readC, List.getD_eq_getElem?_getD, this]
    · intro q k j _ hk hj
      have := (helb k j hk hj).1
      simp [dotTileOf, readC, List.getD_eq_getElem?_getD, this]

/-- **C104 fails for `dot`**: the kernel is written for blocks of 32 x 32 threads and launched with 8 x 8,
so cells whose row or column is 8 or more modulo 32 are never written, in any execution. -/
theorem C104_dot_unwritten {a b : Tensor α} {M K N : Nat} (ha : a.WF) (hb : b.WF) (hda : a.dims = [M, K])
    (hdb : b.dims = [K, N]) (hM : M ≤ 32 * 65535) (hN : N < 2 ^ 32) (zero : α) (macc : α → α → α → α) :
    ∃ k, callOpsDotCuda zero macc a b = .ok (k, M * N) ∧
      ∀ lt0 rt0 buf sched, buf.length = M * N → ∃ s, k.exec lt0 rt0 buf sched = .ok s ∧
        ∀ i j, i < M → j < N → (8 ≤ i % 32 ∨ 8 ≤ j % 32) → s.out[i * N + j]? = buf[i * N + j]? := by
  obtain ⟨c, lv, rv, h1, c1, c2, c3, c4, c5, c6, c7, h2, h3, h4⟩ :=
    dot_launched ha hb hda hdb hM hN zero macc
  refine ⟨c, h1, ?_⟩
  intro lt0 rt0 buf sched hbuf
  obtain ⟨s, hs, hi⟩ := TileKernel.exec_inv (lt0 := lt0) (rt0 := rt0) (h2 buf hbuf) sched
  refine ⟨s, hs, ?_⟩
  intro i j hi' hj' hij
  apply hi.other
  rintro u ⟨u1, u2, u3⟩ he
  have hu := has_iff.mp u1
  rw [c7] at hu
  simp only [dotLaunch] at hu
  rw [c2] at u2
  rw [c4] at u3
  rw [cell, c2, c4] at he
  have : u.bz = 0 := by omega
  rw [this, Nat.zero_mul, Nat.zero_add] at he
  obtain ⟨e1, e2⟩ := digits he u3 hj'
  rw [row, c1] at e1
  rw [col, c1] at e2
  omega

/-- **C104, dot, small matrices**: sizes of at most 8 and shared memory that happens to be zero. -/
theorem C104_dot_partial {a b : Tensor α} {M K N : Nat} (ha : a.WF) (hb : b.WF) (hda : a.dims = [M, K])
    (hdb : b.dims = [K, N]) (hM : M ≤ 8) (hK : K ≤ 8) (hN : N ≤ 8) (zero : α) (macc : α → α → α → α)
    (hpad : PadOk zero macc) :
    ∃ k vals, callOpsDotCuda zero macc a b = .ok (k, vals.length) ∧
      IsMacProd zero macc a b ⟨vals, Layout.fromShape [M, N]⟩ [] [] [] M K N ∧
      ∀ buf, buf.length = vals.length → TileComputes k (fun _ => zero) (fun _ => zero) buf vals := by
  obtain ⟨c, lv, rv, h1, c1, c2, c3, c4, c5, c6, c7, h2, h3, h4⟩ :=
    dot_launched ha hb hda hdb (by omega) (by omega) zero macc
  obtain ⟨vals, hvl, hget⟩ : ∃ vals : List α, vals.length = M * N ∧ ∀ i j, i < M → j < N →
      vals[i * N + j]? = some ((List.range K).foldl (fun s k => macc s (lv 0 i k) (rv 0 k j)) zero) := by
    refine ⟨(List.range (M * N)).map fun n => (List.range K).foldl (fun s k =>
      macc s (lv 0 (n / N) k) (rv 0 k (n % N))) zero, by simp, ?_⟩
    intro i j hi hj
    have hlt : i * N + j < M * N := by
      calc i * N + j < i * N + N := by omega
        _ = (i + 1) * N := (Nat.succ_mul i N).symm
        _ ≤ M * N := Nat.mul_le_mul_right _ hi
    have d3 : (i * N + j) / N = i := by
      rw [Nat.add_comm, Nat.add_mul_div_right _ _ (by omega), Nat.div_eq_of_lt hj]; omega
    have d4 : (i * N + j) % N = j := by
      rw [Nat.add_comm, Nat.add_mul_mod_self_right, Nat.mod_eq_of_lt hj]
    rw [List.getElem?_map, List.getElem?_range hlt]
    simp only [Option.map_some, d3, d4]
  refine ⟨c, vals, by rw [h1, hvl], ⟨rfl, fresh_wf (by simp [numel, hvl]), ?_⟩, ?_⟩
  rotate_left
  · intro buf hbuf
    rw [hvl] at hbuf
    have hsm : ∀ u, c.Writes u → u.bz = 0 ∧ u.brow = 0 ∧ u.bcol = 0 ∧ u.ty < 8 ∧ u.tx < 8 := by
      rintro u ⟨u1, u2, u3⟩
      have hu := has_iff.mp u1
      rw [c7] at hu
      simp only [dotLaunch, tileGrid_eq (show M < 2 ^ 32 by omega),
        tileGrid_eq (show N < 2 ^ 32 by omega)] at hu
      omega
    refine tile_computes (h2 buf hbuf) ?_ ?_
    · intro u hu
      obtain ⟨s1, s2, s3, s4, s5⟩ := hsm u hu
      have u2 := hu.2.1
      have u3 := hu.2.2
      rw [c2] at u2
      rw [c4] at u3
      rw [cell, c2, c4, s1, Nat.zero_mul, Nat.zero_add, hget _ _ u2 u3]
      congr 1
      have hK' : (List.range c.K).foldl (fun s k => c.macc s (lv 0 (c.row u) k) (rv 0 k (c.col u))) c.zero =
          (List.range K).foldl (fun s k => macc s (lv 0 (c.row u) k) (rv 0 k (c.col u))) zero := by
        rw [c3, c5, c6]
      rw [← hK']
      symm
      refine result_of_terms (by omega) (by rw [c5, c6]; exact hpad) ?_
      intro n
      have hr : c.row { u with tx := n % c.T } = c.row u := rfl
      have hc : c.col { u with ty := n % c.T } = c.col u := rfl
      have hu1 := has_iff.mp hu.1
      have hb8 : c.launch.bx = 8 ∧ c.launch.bY = 8 := by rw [c7]; exact ⟨rfl, rfl⟩
      have hdm : n / c.T * c.T + n % c.T = n := by rw [Nat.mul_comm]; exact Nat.div_add_mod n c.T
      constructor
      · unfold heldL
        split
        · rw [padL, hr]
          dsimp only
          rw [hdm, s1]
          simp [hu.2.1]
        · rename_i hh
          rw [if_neg, c5]
          intro hn
          rw [c3] at hn
          refine hh (has_iff.mpr ⟨hu1.1, hu1.2.1, hu1.2.2.1, hu1.2.2.2.1, ?_⟩)
          show n % c.T < _
          have : n % c.T ≤ n := Nat.mod_le _ _
          omega
      · unfold heldR
        split
        · rw [padR, hc]
          dsimp only
          rw [hdm, s1]
          simp [hu.2.2]
        · rename_i hh
          rw [if_neg, c5]
          intro hn
          rw [c3] at hn
          refine hh (has_iff.mpr ⟨hu1.1, hu1.2.1, hu1.2.2.1, ?_, hu1.2.2.2.2⟩)
          show n % c.T < _
          have : n % c.T ≤ n := Nat.mod_le _ _
          omega
    · intro q hq
      have hnq : M * N ≤ q := by
        by_contra hlt
        have hp : 0 < M * N := by omega
        have hN0 : 0 < N := Nat.pos_of_mul_pos_left hp
        have hi : q / N < M := by rw [Nat.div_lt_iff_lt_mul hN0]; omega
        have hj : q % N < N := Nat.mod_lt _ hN0
        have r1 : c.row ⟨0, 0, 0, q / N, q % N⟩ = q / N := by simp [row]
        have r2 : c.col ⟨0, 0, 0, q / N, q % N⟩ = q % N := by simp [col]
        refine hq ⟨0, 0, 0, q / N, q % N⟩ ⟨has_iff.mpr ?_, by rw [r1, c2]; exact hi, by rw [r2, c4]; exact hj⟩ ?_
        · rw [c7]
          simp only [dotLaunch, tileGrid_eq (show M < 2 ^ 32 by omega),
            tileGrid_eq (show N < 2 ^ 32 by omega)]
          omega
        · rw [cell, r1, r2, c2, c4]
          show 0 * _ + _ + _ = _
          have := Nat.div_add_mod q N
          rw [Nat.mul_comm] at this
          omega
      rw [List.getElem?_eq_none (by omega), List.getElem?_eq_none (by omega)]
  · intro bi i j hbi hi hj
    have : bi = [] := by cases bi <;> simp_all [InRange]
    subst this
    refine ⟨(List.range K).map fun k => lv 0 i k, (List.range K).map fun k => rv 0 k j, by simp, by simp,
      ?_, ?_, ?_⟩
    · intro k hk
      show a.elem [i, k] = _
      rw [h3 0 i k hi hk]
      simp [hk]
    · intro k hk
      show b.elem [k, j] = _
      rw [h4 0 k j hk hj]
      simp [hk]
    · show Tensor.elem ⟨_, ⟨[M, N], Layout.computeStrides [M, N], 0⟩⟩ [i, j] = _
      rw [elem_rowMajor]
      simp only [rowMajor, numel, Nat.mul_one, Nat.add_zero, Nat.zero_add]
      rw [hget i j hi hj, macSum, List.zip_map', List.foldl_map]

/-- All threads of a launch. -/
def allTids (l : Launch) : List Tid :=
  (List.range l.gz).flatMap fun z => (List.range l.gy).flatMap fun r => (List.range l.gx).flatMap fun q =>
    (List.range l.bY).flatMap fun y => (List.range l.bx).map fun x => ⟨z, r, q, y, x⟩

theorem mem_allTids {c : TileKernel α} {t : Tid} (h : c.has t = true) : t ∈ allTids c.launch := by
  obtain ⟨h1, h2, h3, h4, h5⟩ := has_iff.mp h
  simp only [allTids, List.mem_flatMap, List.mem_range, List.mem_map]
  exact ⟨t.bz, h1, t.brow, h2, t.bcol, h3, t.ty, h4, t.tx, h5, rfl⟩

/-- There is one result. -/
theorem TileComputes.unique {c : TileKernel α} {lt0 rt0 : Tid → α} {buf v w : List α}
    (h : TileComputes c lt0 rt0 buf v) (h' : TileComputes c lt0 rt0 buf w) : v = w := by
  obtain ⟨R, hR⟩ := h.2
  obtain ⟨s, hs, hfin⟩ := hR (List.replicate R (allTids c.launch)) (by simp)
    (fun r hr t ht => by rw [(List.mem_replicate.mp hr).2]; exact mem_allTids ht)
  obtain ⟨s1, e1, g1⟩ := h.1 (List.replicate R (allTids c.launch)).flatten
  obtain ⟨s2, e2, g2⟩ := h'.1 (List.replicate R (allTids c.launch)).flatten
  rw [hs] at e1 e2
  cases e1
  cases e2
  rw [← g1 hfin, ← g2 hfin]

/-- **C104 fails for `dot`** also where it writes: the loop over a tile reads the columns and rows 8 to
31 of shared memory that no thread filled.  The product of `[[1]]` and `[[1]]` is 601 if shared memory
happens to hold fives. -/
theorem C104_dot_garbage : ∃ (a b : Tensor Nat) (k : TileKernel Nat), a.WF ∧ b.WF ∧ a.dims = [1, 1] ∧
    b.dims = [1, 1] ∧ a.elem [0, 0] = some 1 ∧ b.elem [0, 0] = some 1 ∧
    callOpsDotCuda 0 (fun s x y => s + x * y) a b = .ok (k, 1) ∧
    TileComputes k (fun _ => 5) (fun _ => 5) [0] [601] := by
  have hw : (⟨[1], Layout.fromShape [1, 1]⟩ : Tensor Nat).WF := fresh_wf (by decide)
  refine ⟨⟨[1], Layout.fromShape [1, 1]⟩, ⟨[1], Layout.fromShape [1, 1]⟩,
    dotTileOf 0 (fun s x y => s + x * y) [1] [1] ⟨1, 1, 1, 1, 1, 1, 1, 0, 0⟩ (dotLaunch 1 1), hw, hw, rfl, rfl,
    by decide, by decide, rfl, ?_⟩
  have hf : Fits (dotTileOf 0 (fun s x y => s + x * y) [1] [1] ⟨1, 1, 1, 1, 1, 1, 1, 0, 0⟩ (dotLaunch 1 1))
      (fun _ _ _ => 1) (fun _ _ _ => 1) [0] := by
    refine ⟨show 8 ≤ 32 by decide, show 8 ≤ 32 by decide, ?_, ?_, by decide⟩
    · intro q i k _ hi hk
      have : i = 0 := Nat.lt_one_iff.mp hi
      have : k = 0 := Nat.lt_one_iff.mp hk
      subst_vars
      rfl
    · intro q i k _ hi hk
      have : i = 0 := Nat.lt_one_iff.mp hi
      have : k = 0 := Nat.lt_one_iff.mp hk
      subst_vars
      rfl
  have hone : ∀ u, (dotTileOf 0 (fun s x y => s + x * y) [1] [1] ⟨1, 1, 1, 1, 1, 1, 1, 0, 0⟩
      (dotLaunch 1 1)).Writes u → u = ⟨0, 0, 0, 0, 0⟩ := by
    rintro ⟨z, r, q, y, x⟩ ⟨u1, u2, u3⟩
    have h1 := (has_iff.mp u1).1
    simp only [dotTileOf, dotLaunch, row, col] at h1 u2 u3
    congr 1 <;> omega
  refine tile_computes hf ?_ ?_
  · intro u hu
    rw [hone u hu]
    decide +kernel
  · intro q hq
    cases q with
    | zero => exact absurd rfl (hq ⟨0, 0, 0, 0, 0⟩ ⟨by decide, by decide, by decide⟩)
    | succ q => rfl

/-- The full claim for `dot`. -/
def Spec.DotEverywhere (α : Type) (zero : α) (macc : α → α → α → α) : Prop :=
  ∀ (a b : Tensor α) (M K N : Nat) (k : TileKernel α) (n : Nat), a.WF → b.WF → a.dims = [M, K] →
    b.dims = [K, N] → callOpsDotCuda zero macc a b = .ok (k, n) → ∃ vals,
      IsMacProd zero macc a b ⟨vals, Layout.fromShape [M, N]⟩ [] [] [] M K N ∧
      ∀ lt0 rt0 buf, buf.length = n → TileComputes k lt0 rt0 buf vals

theorem C104_full_false : ¬ DotEverywhere Nat 0 (fun s x y => s + x * y) := by
  intro h
  obtain ⟨a, b, k, ha, hb, hda, hdb, ea, eb, hk, hg⟩ := C104_dot_garbage
  obtain ⟨vals, h1, h2⟩ := h a b 1 1 1 k 1 ha hb hda hdb hk
  have he := TileComputes.unique hg (h2 (fun _ => 5) (fun _ => 5) [0] rfl)
  obtain ⟨xs, ys, g1, g2, g3, g4, g5⟩ := h1.2.2 [] 0 0 trivial (by decide) (by decide)
  obtain ⟨x, rfl⟩ := List.length_eq_one_iff.mp g1
  obtain ⟨y, rfl⟩ := List.length_eq_one_iff.mp g2
  have g3' := g3 0 (by decide)
  have g4' := g4 0 (by decide)
  simp only [broadcastIndex, List.zipWith_nil_left, List.nil_append] at g3' g4'
  rw [ea] at g3'
  rw [eb] at g4'
  cases g3'
  cases g4'
  rw [← he] at g5
  exact absurd g5 (by decide)

/-- **C104 fails for `f64`**: the operands go through `float`, so `16777217 * 1` is 16777216. -/
theorem C104_double_rounds : ∃ (a b : Tensor Nat) (k : TileKernel Nat), a.WF ∧ b.WF ∧
    a.dims = [1, 1, 1] ∧ b.dims = [1, 1, 1] ∧
    a.elem [0, 0, 0] = some (Cast.intToFloat Flt.f64 16777217) ∧
    b.elem [0, 0, 0] = some (Cast.intToFloat Flt.f64 1) ∧
    callOpsMatmulCuda 0 maccDouble a b = .ok (k, 1) ∧
    TileComputes k (fun _ => 0) (fun _ => 0) [0] [Cast.intToFloat Flt.f64 16777216] := by
  let A := Cast.intToFloat Flt.f64 16777217
  let B := Cast.intToFloat Flt.f64 1
  have hw : ∀ v : Nat, (⟨[v], Layout.fromShape [1, 1, 1]⟩ : Tensor Nat).WF :=
    fun v => fresh_wf (by simp [numel])
  have hcall : ∀ A B : Nat, callOpsMatmulCuda 0 maccDouble ⟨[A], Layout.fromShape [1, 1, 1]⟩
      ⟨[B], Layout.fromShape [1, 1, 1]⟩ = .ok (matmulTile 0 maccDouble [A] [B]
        ⟨1, [1, 1, 1], [1, 1, 1], [1], [1, 1, 1], [1, 1, 1], 0, 0, 1, 1, 1⟩ (matmulLaunch 1 1 1), 1) := by
    intro A B
    have h1 : matmulMetadata (Layout.fromShape [1, 1, 1]) (Layout.fromShape [1, 1, 1]) 1 =
      .ok [1, 3, 3, 1, 1, 1, 1, 1, 1, 1, 1, 1, 1, 1, 1, 1, 1, 0, 0, 1, 1, 1] := by decide +kernel
    have h2 : decodeMatmul [1, 3, 3, 1, 1, 1, 1, 1, 1, 1, 1, 1, 1, 1, 1, 1, 1, 0, 0, 1, 1, 1] =
      .ok ⟨1, [1, 1, 1], [1, 1, 1], [1], [1, 1, 1], [1, 1, 1], 0, 0, 1, 1, 1⟩ := by decide +kernel
    have h3 : shapeSize ((Layout.fromShape [1, 1, 1]).dims.take ((Layout.fromShape [1, 1, 1]).ndim - 2) ++
      [(Layout.fromShape [1, 1, 1]).dims.getD ((Layout.fromShape [1, 1, 1]).ndim - 2) 0,
        (Layout.fromShape [1, 1, 1]).dims.getD ((Layout.fromShape [1, 1, 1]).ndim - 1) 0]) = 1 := by
      decide +kernel
    unfold callOpsMatmulCuda
    dsimp only
    rw [if_neg (by decide), h3, h1, Res.ok_bind, matmulCuda, h2, Res.ok_bind]
    rfl
  let k : TileKernel Nat := matmulTile 0 maccDouble [A] [B]
    ⟨1, [1, 1, 1], [1, 1, 1], [1], [1, 1, 1], [1, 1, 1], 0, 0, 1, 1, 1⟩ (matmulLaunch 1 1 1)
  refine ⟨⟨[A], Layout.fromShape [1, 1, 1]⟩, ⟨[B], Layout.fromShape [1, 1, 1]⟩, k, hw _, hw _, rfl, rfl,
    rfl, rfl, hcall A B, ?_⟩
  have hf : Fits k (fun _ _ _ => A) (fun _ _ _ => B) [0] := by
    refine ⟨Nat.le_refl 16, Nat.le_refl 16, ?_, ?_, by decide⟩
    · intro q i j hq hi hj
      have : q = 0 := Nat.lt_one_iff.mp hq
      have : i = 0 := Nat.lt_one_iff.mp hi
      have : j = 0 := Nat.lt_one_iff.mp hj
      subst_vars
      rfl
    · intro q i j hq hi hj
      have : q = 0 := Nat.lt_one_iff.mp hq
      have : i = 0 := Nat.lt_one_iff.mp hi
      have : j = 0 := Nat.lt_one_iff.mp hj
      subst_vars
      rfl
  have hone : ∀ u, k.Writes u → u = ⟨0, 0, 0, 0, 0⟩ := by
    rintro ⟨z, r, q, y, x⟩ ⟨u1, u2, u3⟩
    have h1 : z < 1 := (has_iff.mp u1).1
    have h2 : r * 16 + y < 1 := u2
    have h3 : q * 16 + x < 1 := u3
    congr 1 <;> omega
  refine tile_computes hf ?_ ?_
  · intro u hu
    rw [hone u hu]
    decide +kernel
  · intro q hq
    cases q with
    | zero => exact absurd rfl (hq ⟨0, 0, 0, 0, 0⟩ ⟨by decide, by decide, by decide⟩)
    | succ q => simp

/-! ## Examples -/

/-- Natural numbers satisfy the law for padding, and the hypotheses of `C104_matmul_partial` hold for a
batch of two products with a transposed right operand. -/
example : PadOk 0 (fun s x y : Nat => s + x * y) := ⟨fun _ => True, trivial, by simp, by simp⟩

example :
    let a : Tensor Nat := ⟨[1, 2, 3, 4], Layout.fromShape [2, 1, 2]⟩
    let b : Tensor Nat := ⟨[1, 2, 3, 4, 5, 6, 7, 8], ⟨[2, 2, 2], [4, 1, 2], 0⟩⟩
    a.dims = [2] ++ [1, 2] ∧ b.dims = [2] ++ [2, 2] ∧ a.WF ∧
    (callOpsMatmulCuda 0 (fun s x y => s + x * y) a b).map (·.2) = .ok 4 := by
  refine ⟨rfl, rfl, fresh_wf (by decide), by decide +kernel⟩

/-- A batch of size 0 is refused by the device. -/
example : (callOpsMatmulCuda 0 (fun s x y : Nat => s + x * y) ⟨[], Layout.fromShape [0, 1, 1]⟩
    ⟨[], Layout.fromShape [0, 1, 1]⟩).map (·.2) = .err := by decide +kernel

/-- A thread that runs alone stops at its first barrier; when its block has caught up it goes on. -/
example :
    let c : TileKernel Nat := ⟨2, ⟨1, 1, 1, 2, 2⟩, 2, 2, 2, fun _ i k => .ok (i + k), fun _ k j => .ok (k + j), 0,
      fun s x y => s + x * y⟩
    let t : Nat → Nat → Tid := fun y x => ⟨0, 0, 0, y, x⟩
    ((c.exec (fun _ => 9) (fun _ => 9) [7, 7, 7, 7] (List.replicate 9 (t 0 0))).map (·.pc (t 0 0)) = .ok 2) ∧
    ((c.exec (fun _ => 9) (fun _ => 9) [7, 7, 7, 7]
      ((List.replicate 2 (t 0 1) ++ List.replicate 2 (t 1 0) ++ List.replicate 2 (t 1 1)) ++
        List.replicate 9 (t 0 0))).map (fun s => (s.pc (t 0 0), s.sum (t 0 0))) = .ok (5, 1)) := by
  decide +kernel

end Hodu.Cuda
