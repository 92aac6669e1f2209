import Verif.Lemmas.Blas
import Verif.Props.ConvAdjoint
import Verif.Props.Compress
import Verif.Props.Window
import Verif.Lemmas.Compose

/-!
# Property C102: builds with BLAS
-/

namespace Hodu.Blas
open _root_.Hodu.Spec Blas.Spec

/-! ## Two matrices -/

/-- **C102, two matrices**: for well-formed operands with `K > 0` whose rows (or columns) do not overlap,
the BLAS build computes the matrix product, whatever the fresh buffer contains, and it is the result of
the plain build.  Missing: operands with overlapping rows, such as broadcast ones
(`C102_broadcast_rows_wrong`), and `K = 0` (`C102_empty_inner_uninitialised`). -/
theorem C102_dot_partial {a b : Tensor α} {M K N l0 l1 r0 r1 : Nat} (ha : a.WF) (hb : b.WF)
    (hda : a.dims = [M, K]) (hdb : b.dims = [K, N]) (hsa : a.layout.strides = [l0, l1])
    (hsb : b.layout.strides = [r0, r1]) (hK : 0 < K) (hl : Apart l0 l1 M K) (hr : Apart r0 r1 K N)
    (zero : α) (add mul : α → α → α) (cores : Nat) {init : Nat → List α} (hi : ∀ n, (init n).length = n) :
    ∃ c, dot2d cores zero add mul init a b = .ok c ∧ a.dot2d cores zero add mul b = .ok c ∧
      IsMatProd zero add mul a b c [] [] [] M K N := by
  obtain ⟨c, c1, c2⟩ := (C32_dot ha hb hda hdb zero add mul cores).2 rfl
  have hm : a.matmul cores zero add mul b = a.dot2d cores zero add mul b := by
    unfold Tensor.matmul
    rw [hda, hdb]
  rw [hm] at c1
  refine ⟨c, ?_, c1, c2⟩
  rw [← c1]
  have hda' : a.layout.dims = [M, K] := hda
  have hdb' : b.layout.dims = [K, N] := hdb
  let md : List Nat := [M, K, N, l0, l1, r0, r1, a.layout.offset, b.layout.offset]
  have hmd : dotMetadata a.layout b.layout = .ok md := by
    simp [dotMetadata, Layout.ndim, hda', hdb', hsa, hsb, readR, md]
  have hdec : decodeDot md = .ok ⟨M, K, N, l0, l1, r0, r1, a.layout.offset, b.layout.offset⟩ := by
    simp [decodeDot, readC, md]
  have hA : ∀ i k, i < M → k < K → a.layout.offset + i * l0 + k * l1 < a.storage.length := by
    intro i k h1 h2
    have := Tensor.elem_lt (ha.2 [i, k] (by rw [hda]; exact ⟨h1, h2, trivial⟩))
    rw [hsa] at this
    simp only [dot, Nat.add_zero] at this
    omega
  have hB : ∀ k j, k < K → j < N → b.layout.offset + k * r0 + j * r1 < b.storage.length := by
    intro k j h1 h2
    have := Tensor.elem_lt (hb.2 [k, j] (by rw [hdb]; exact ⟨h1, h2, trivial⟩))
    rw [hsb] at this
    simp only [dot, Nat.add_zero] at this
    omega
  unfold dot2d Tensor.dot2d
  rw [hda, hdb]
  simp only [readR, List.getElem?_cons_zero, List.getElem?_cons_succ, Res.ok_bind]
  rw [if_neg (by simp), if_neg (by simp)]
  congr 1
  unfold callOpsDot Hodu.callOpsDot
  rw [if_neg (by simp [Layout.ndim, hda', hdb']), if_neg (by simp [Layout.ndim, hda', hdb']), hmd, Res.ok_bind,
    Res.ok_bind]
  unfold dotKernel
  rw [hdec, Res.ok_bind]
  dsimp only
  split
  case isFalse => rfl
  case isTrue hu =>
    simp only [Bool.and_eq_true] at hu
    obtain ⟨s, s1, s2, s3⟩ := dotKernel_ok (zero := zero) (add := add) (mul := mul) cores hdec hA hB
    obtain ⟨t, t1, t2, t3, _⟩ := gemm_prod (zero := zero) (add := add) (mul := mul) (c0 := 0)
      (C := init (shapeSize [a.dims.getD 0 0, b.dims.getD 1 0])) hu.1 hu.2 hl hr hK hA hB (by
        rw [hi, hda, hdb]; simp [shapeSize])
    rw [t1, s1]
    congr 1
    simp only at s2 s3
    have ht2 : t.length = M * N := by rw [t2, hi, hda, hdb]; simp [shapeSize]
    apply List.ext_getElem?
    intro q
    by_cases hq : q < M * N
    · have hN : 0 < N := Nat.pos_of_ne_zero (by intro h; simp [h] at hq)
      have hqi : q / N < M := Nat.div_lt_of_lt_mul (by rwa [Nat.mul_comm] at hq)
      have e1 := s3 (q / N) (q % N) hqi (Nat.mod_lt _ hN)
      have e2 := t3 (q / N) (q % N) hqi (Nat.mod_lt _ hN)
      rw [Nat.mul_comm (q / N), Nat.div_add_mod] at e1
      rw [Nat.zero_add, Nat.mul_comm (q / N), Nat.div_add_mod] at e2
      rw [e1, e2]
    · rw [List.getElem?_eq_none (by omega), List.getElem?_eq_none (by omega)]

/-- Non-vacuity: a transposed left operand and a sliced right operand with a gap between the rows. -/
example :
    let a : Tensor Nat := ⟨[1, 2, 3, 4, 5, 6], ⟨[3, 2], [1, 3], 0⟩⟩
    let b : Tensor Nat := ⟨[0, 7, 8, 0, 9, 10], ⟨[2, 2], [3, 1], 1⟩⟩
    Apart 1 3 3 2 ∧ Apart 3 1 2 2 ∧
    dot2d 8 0 (· + ·) (· * ·) (fun n => List.replicate n 99) a b =
      .ok ⟨[7 + 36, 8 + 40, 14 + 45, 16 + 50, 21 + 54, 24 + 60], ⟨[3, 2], [2, 1], 0⟩⟩ := by
  refine ⟨⟨by decide, by decide⟩, ⟨by decide, by decide⟩, by decide +kernel⟩

/-- A row broadcast to two rows (strides 0 and 1, as made by `broadcast`): the leading dimension is
raised to 2, and the second row is read from behind the first. -/
theorem C102_broadcast_rows_wrong :
    let a : Tensor Nat := ⟨[1, 2, 5, 7], ⟨[2, 2], [0, 1], 0⟩⟩
    let b : Tensor Nat := ⟨[1, 0, 0, 1], ⟨[2, 2], [2, 1], 0⟩⟩
    Tensor.broadcast ⟨[1, 2, 5, 7], ⟨[1, 2], [2, 1], 0⟩⟩ [2, 2] = .ok a ∧
    (a.dot2d 1 0 (· + ·) (· * ·) b).map (·.storage) = .ok [1, 2, 1, 2] ∧
    (dot2d 1 0 (· + ·) (· * ·) (List.replicate · 0) a b).map (·.storage) = .ok [1, 2, 5, 7] ∧
    dot2d 1 0 (· + ·) (· * ·) (List.replicate · 0) { a with storage := [1, 2] } b = .ub := by
  decide +kernel

/-- With an empty inner dimension `gemm` rejects the leading dimension 0 and the fresh buffer, which is
not initialised, is returned; the plain build returns zeros. -/
theorem C102_empty_inner_uninitialised :
    let a : Tensor Nat := ⟨[], Layout.fromShape [2, 0]⟩
    let b : Tensor Nat := ⟨[], Layout.fromShape [0, 2]⟩
    (∀ init : Nat → List Nat, (dot2d 1 0 (· + ·) (· * ·) init a b).map (·.storage) = .ok (init 4)) ∧
    (a.dot2d 1 0 (· + ·) (· * ·) b).map (·.storage) = .ok [0, 0, 0, 0] := by
  refine ⟨fun init => rfl, by decide +kernel⟩

/-! ## Batches -/

theorem broadcastStrides_snoc2 {src tgt : List Nat} {st : List (Option Nat)} {M K s0 s1 : Nat}
    (h1 : src.length = tgt.length) (h2 : st.length = tgt.length) :
    Layout.broadcastStrides (src ++ [M, K]) (st ++ [some s0, some s1]) (tgt ++ [M, K]) =
      (Layout.broadcastStrides src st tgt).bind fun r => .ok (r ++ [s0, s1]) := by
  induction src generalizing st tgt with
  | nil =>
    have : tgt = [] := List.eq_nil_of_length_eq_zero h1.symm
    subst this
    have : st = [] := List.eq_nil_of_length_eq_zero h2
    subst this
    simp [Layout.broadcastStrides]
  | cons a as ih =>
    cases tgt <;> cases st <;> simp at h1 h2
    rename_i t ts x xs
    have := ih h1 h2
    simp only [List.cons_append, Layout.broadcastStrides, this]
    split
    · cases Layout.broadcastStrides as xs ts <;> simp
    · split
      · cases Layout.broadcastStrides as xs ts <;> simp
      · rfl

theorem computeStrides_snoc2 (l : List Nat) (M K : Nat) :
    ∃ sl, Layout.computeStrides (l ++ [M, K]) = sl ++ [K, 1] ∧ sl.length = l.length := by
  induction l with
  | nil => exact ⟨[], by simp [computeStrides_cons, Layout.computeStrides, numel], rfl⟩
  | cons d ds ih =>
    obtain ⟨sl, h1, h2⟩ := ih
    exact ⟨numel (ds ++ [M, K]) :: sl, by rw [List.cons_append, computeStrides_cons, h1]; rfl, by simp [h2]⟩

/-- `broadcast` makes its operand contiguous first, so that the matrices of the result have row-major
strides. -/
theorem broadcast_strides {a a' : Tensor α} {la batch : List Nat} {M K : Nat} (ha : a.WF)
    (hda : a.dims = la ++ [M, K]) (h : a.broadcast (batch ++ [M, K]) = .ok a') :
    ∃ sb, a'.layout.strides = sb ++ [K, 1] := by
  obtain ⟨s, o, h1, -⟩ := viewVia_spec ha (·.broadcastTo (batch ++ [M, K]))
  rw [Tensor.broadcast, h1] at h
  obtain ⟨sl, c1, c2⟩ := computeStrides_snoc2 la M K
  rw [hda, c1] at h
  unfold Layout.broadcastTo at h
  split at h
  · cases h
  · rename_i hle
    simp only [Layout.ndim, List.length_append, List.length_cons, List.length_nil] at h hle
    rw [List.map_append, ← List.append_assoc, ← List.append_assoc] at h
    simp only [List.map_cons, List.map_nil] at h
    rw [broadcastStrides_snoc2 (by simp; omega) (by simp; omega)] at h
    cases hx : Layout.broadcastStrides
        (List.replicate (batch.length + (0 + 1 + 1) - (la.length + (0 + 1 + 1))) 1 ++ la)
        (List.replicate (batch.length + (0 + 1 + 1) - (la.length + (0 + 1 + 1))) none ++ sl.map some)
        batch with
    | ok r =>
      rw [hx] at h
      simp only [Res.ok_bind, Res.ok.injEq] at h
      subst h
      exact ⟨r, rfl⟩
    | err => rw [hx] at h; cases h
    | panic => rw [hx] at h; cases h
    | ub => rw [hx] at h; cases h

theorem getD_snoc2 (l : List Nat) (x y n : Nat) (h : n = l.length + 2) :
    (l ++ [x, y]).getD (n - 2) 0 = x ∧ (l ++ [x, y]).getD (n - 1) 0 = y := by
  subst h
  constructor
  · simp [List.getD_eq_getElem?_getD]
  · simp only [List.getD_eq_getElem?_getD]
    rw [List.getElem?_append_right (by omega), show l.length + 2 - 1 - l.length = 1 by omega]
    rfl

theorem readAt_length {batch bi : List Nat} (h : InRange bi batch) : (readAt batch bi).length = batch.length := by
  simp [readAt, h.length]

/-- **C102, batches**: what the BLAS build computes for operands whose batch shapes broadcast to
`batch`: batch `bi` of the result is the product of the matrices at the batch index with the
coordinates in *reverse* order (0 for unit dimensions), provided that index exists for every `bi`.  For
at most one batch dimension this is the product asked for (`C102_one_batch_partial`). -/
theorem C102_batches {a b : Tensor α} {la lb batch : List Nat} {M K N : Nat} (ha : a.WF)
    (hb : b.WF) (hda : a.dims = la ++ [M, K]) (hdb : b.dims = lb ++ [K, N])
    (hbc : Tensor.broadcastDims la lb = .ok batch) (hla : BroadcastsTo la batch)
    (hlb : BroadcastsTo lb batch) (h31 : batch.length < 2 ^ 31) (hK : 0 < K)
    (hread : ∀ bi, InRange bi batch → InRange (readAt batch bi) batch)
    (zero : α) (add mul : α → α → α) (cores : Nat) {init : Nat → List α} (hi : ∀ n, (init n).length = n) :
    ∃ c, matmulBatched cores zero add mul init a b = .ok c ∧ c.dims = batch ++ [M, N] ∧ c.WF ∧
      ∀ bi i j, InRange bi batch → i < M → j < N → ∃ xs ys : List α, xs.length = K ∧ ys.length = K ∧
        (∀ k, k < K → a.elem (broadcastIndex la (readAt batch bi) ++ [i, k]) = xs[k]?) ∧
        (∀ k, k < K → b.elem (broadcastIndex lb (readAt batch bi) ++ [k, j]) = ys[k]?) ∧
        c.elem (bi ++ [i, j]) = some (sumProd zero add mul xs ys) := by
  obtain ⟨a', a1, a2, a3, a4⟩ := (C05_broadcast ha (batch ++ [M, K])).2
    (by rw [hda]; exact broadcastsTo_mat.mpr hla)
  obtain ⟨b', b1, b2, b3, b4⟩ := (C05_broadcast hb (batch ++ [K, N])).2
    (by rw [hdb]; exact broadcastsTo_mat.mpr hlb)
  obtain ⟨sa, a5⟩ := broadcast_strides ha hda a1
  obtain ⟨sb, b5⟩ := broadcast_strides hb hdb b1
  have a2' : a'.layout.dims = batch ++ [M, K] := a2
  have b2' : b'.layout.dims = batch ++ [K, N] := b2
  have hsa : sa.length = batch.length := by
    have := a3.1
    rw [a5, a2] at this
    simpa using this
  have hsb : sb.length = batch.length := by
    have := b3.1
    rw [b5, b2] at this
    simpa using this
  let me : MatmulMeta := ⟨numel (batch ++ [M, N]), a'.layout.dims, b'.layout.dims, batch, a'.layout.strides,
    b'.layout.strides, a'.layout.offset, b'.layout.offset, M, K, N⟩
  let md := [numel (batch ++ [M, N]), a'.layout.dims.length, b'.layout.dims.length, batch.length] ++
    a'.layout.dims ++ b'.layout.dims ++ batch ++ a'.layout.strides ++ b'.layout.strides ++
    [a'.layout.offset, b'.layout.offset, M, K, N]
  have hdec : decodeMatmul md = .ok me := decodeMatmul_eq a3.1 b3.1
  have hg := fun x y => getD_snoc2 batch x y (batch ++ [x, y]).length (by simp)
  have hmd : matmulMetadata a'.layout b'.layout (numel (batch ++ [M, N])) = .ok md := by
    unfold matmulMetadata
    simp only [Layout.ndim, a2', b2', (hg M K).1, (hg M K).2, (hg K N).1, (hg K N).2]
    rw [if_neg (by simp), if_neg (by simp), matmulBatch_self h31]
    simp only [md, a2', b2', Res.ok_bind]
  have l0 := getD_snoc2 sa K 1 a'.layout.dims.length (by rw [a2', hsa]; simp)
  have r0 := getD_snoc2 sb N 1 b'.layout.dims.length (by rw [b2', hsb]; simp)
  rw [← a5] at l0
  rw [← b5] at r0
  have hoa : ∀ bi, InRange bi batch → batchOffset a'.layout.dims a'.layout.strides batch (rowMajor batch bi) =
      .ok (dot (readAt batch bi) sa) := by
    intro bi hbi
    rw [batchOffset_eq a2' a3.1 hbi, a5, take_append2 hsa.symm]
  have hob : ∀ bi, InRange bi batch → batchOffset b'.layout.dims b'.layout.strides batch (rowMajor batch bi) =
      .ok (dot (readAt batch bi) sb) := by
    intro bi hbi
    rw [batchOffset_eq b2' b3.1 hbi, b5, take_append2 hsb.symm]
  have hea : ∀ bi i k, InRange bi batch → i < M → k < K → (a'.elem (readAt batch bi ++ [i, k])).isSome ∧
      a'.layout.offset + dot (readAt batch bi ++ [i, k]) a'.layout.strides =
        a'.layout.offset + dot (readAt batch bi) sa + i * K + k * 1 := by
    intro bi i k hbi h1 h2
    refine ⟨a3.2 _ (by rw [a2]; exact inRange_mat (hread bi hbi) h1 h2), ?_⟩
    rw [a5, dot_append (by rw [readAt_length hbi, hsa])]
    simp [dot]; omega
  have heb : ∀ bi k j, InRange bi batch → k < K → j < N → (b'.elem (readAt batch bi ++ [k, j])).isSome ∧
      b'.layout.offset + dot (readAt batch bi ++ [k, j]) b'.layout.strides =
        b'.layout.offset + dot (readAt batch bi) sb + k * N + j * 1 := by
    intro bi i k hbi h1 h2
    refine ⟨b3.2 _ (by rw [b2]; exact inRange_mat (hread bi hbi) h1 h2), ?_⟩
    rw [b5, dot_append (by rw [readAt_length hbi, hsb])]
    simp [dot]; omega
  obtain ⟨s, s1, s2, s3⟩ := batch_cells (zero := zero) (add := add) (mul := mul) (lhs := a'.storage)
    (rhs := b'.storage) (m := me) (buf := init (numel (batch ++ [M, N]))) (B := numel batch)
    (la := fun n => dot (readAt batch (unravel batch n)) sa)
    (lb := fun n => dot (readAt batch (unravel batch n)) sb) l0.1 l0.2 r0.1 r0.2
    (by simp [usable]) (by simp [usable]) ⟨fun _ => Or.inl (Nat.le_refl _), fun h => absurd rfl h⟩
    ⟨fun _ => Or.inl (Nat.le_refl _), fun h => absurd rfl h⟩ hK
    (fun n hn => by
      have := hoa _ (unravel_inRange hn)
      rwa [rowMajor_unravel hn] at this)
    (fun n hn => by
      have := hob _ (unravel_inRange hn)
      rwa [rowMajor_unravel hn] at this)
    (fun n i k hn h1 h2 => by
      have := hea _ i k (unravel_inRange hn) h1 h2
      show a'.layout.offset + _ + i * K + k * 1 < _
      rw [← this.2]
      exact Tensor.elem_lt this.1)
    (fun n k j hn h1 h2 => by
      have := heb _ k j (unravel_inRange hn) h1 h2
      show b'.layout.offset + _ + k * N + j * 1 < _
      rw [← this.2]
      exact Tensor.elem_lt this.1)
    (by rw [hi, numel_append]; simp [numel, me])
  have hcall : callOpsMatmul cores zero add mul init a' b' = .ok s := by
    unfold callOpsMatmul
    simp only [Layout.ndim, a2', b2', (hg M K).1, (hg M K).2, (hg K N).1, (hg K N).2]
    rw [if_neg (by simp), if_neg (by simp), matmulBatch_self h31, Res.ok_bind]
    simp only [shapeSize_eq]
    rw [hmd, Res.ok_bind]
    unfold matmulKernel
    rw [hdec, Res.ok_bind, show me.ls.getD (me.ld.length - 2) 0 = K from l0.1,
      show me.ls.getD (me.ld.length - 1) 0 = 1 from l0.2, show me.rs.getD (me.rd.length - 2) 0 = N from r0.1,
      show me.rs.getD (me.rd.length - 1) 0 = 1 from r0.2, if_pos (by simp [usable]), shapeSize_eq]
    exact s1
  refine ⟨⟨s, Layout.fromShape (batch ++ [M, N])⟩, ?_, rfl, fresh_wf ?_, ?_⟩
  · unfold matmulBatched
    have g1 := getD_snoc2 la M K (la ++ [M, K]).length (by simp)
    have g2 := getD_snoc2 lb K N (lb ++ [K, N]).length (by simp)
    have t1 : (la ++ [M, K]).take ((la ++ [M, K]).length - 2) = la := by simp
    have t2 : (lb ++ [K, N]).take ((lb ++ [K, N]).length - 2) = lb := by simp
    simp only [hda, hdb, g1.1, g1.2, g2.1, g2.2, t1, t2]
    rw [if_neg (by simp), if_neg (by simp), hbc, Res.ok_bind, a1, Res.ok_bind, b1, Res.ok_bind, hcall,
      Res.ok_bind]
  · rw [s2, numel_append]
    simp [numel, me]
  · intro bi i j hbi h1 h2
    obtain ⟨xs, ys, g1, g2, g3, g4, g5⟩ := prod_cells (zero := zero) (add := add) (mul := mul)
      (a := a') (b := b') (i := i) (j := j)
      (fun k hk => hea bi i k hbi h1 hk) (fun k hk => heb bi k j hbi hk h2)
    have hl1 : la.length ≤ (readAt batch bi).length := by rw [readAt_length hbi]; exact hla.1
    have hl2 : lb.length ≤ (readAt batch bi).length := by rw [readAt_length hbi]; exact hlb.1
    refine ⟨xs, ys, g1, g2, ?_, ?_, ?_⟩
    · intro k hk
      rw [← g3 k hk, (a4 _ (inRange_mat (hread bi hbi) h1 hk)).2, hda, broadcastIndex_append hl1 h1 hk]
    · intro k hk
      rw [← g4 k hk, (b4 _ (inRange_mat (hread bi hbi) hk h2)).2, hdb, broadcastIndex_append hl2 hk h2]
    · rw [← g5]
      have := s3 (rowMajor batch bi) i j (rowMajor_lt hbi) h1 h2
      simp only [unravel_rowMajor hbi] at this
      show Tensor.elem ⟨s, ⟨batch ++ [M, N], Layout.computeStrides (batch ++ [M, N]), 0⟩⟩ _ = _
      rw [elem_rowMajor, rowMajor_append hbi.length, show numel [M, N] = M * N by simp [numel],
        show rowMajor [M, N] [i, j] = i * N + j by simp [rowMajor, numel], Nat.zero_add]
      exact this

/-- **C102, at most one batch dimension**: the BLAS build computes the batched product, for all
well-formed operands with `K > 0`.  Missing: two or more batch dimensions (`C102_heads_collapse`,
`C102_two_batches_ub`) and `K = 0`. -/
theorem C102_one_batch_partial {a b : Tensor α} {la lb batch : List Nat} {M K N : Nat} (ha : a.WF)
    (hb : b.WF) (hda : a.dims = la ++ [M, K]) (hdb : b.dims = lb ++ [K, N])
    (hbc : Tensor.broadcastDims la lb = .ok batch) (hla : BroadcastsTo la batch)
    (hlb : BroadcastsTo lb batch) (h1 : batch.length ≤ 1) (hK : 0 < K)
    (zero : α) (add mul : α → α → α) (cores : Nat) {init : Nat → List α} (hi : ∀ n, (init n).length = n) :
    ∃ c, matmulBatched cores zero add mul init a b = .ok c ∧
      IsMatProd zero add mul a b c la lb batch M K N := by
  have hself : ∀ bi, InRange bi batch → readAt batch bi = bi := by
    intro bi hbi
    match batch, h1, bi, hbi with
    | [], _, [], _ => rfl
    | [D], _, [x], hx =>
      have : x < D := hx.1
      simp only [readAt, List.reverse_singleton, List.zipWith_cons_cons, List.zipWith_nil_right]
      congr 1
      split <;> omega
  obtain ⟨c, c1, c2, c3, c4⟩ := C102_batches ha hb hda hdb hbc hla hlb (by omega) hK
    (fun bi hbi => by rwa [hself bi hbi]) zero add mul cores hi
  refine ⟨c, c1, c2, c3, fun bi i j hbi h1 h2 => ?_⟩
  have := c4 bi i j hbi h1 h2
  rwa [hself bi hbi] at this

/-- **C102, heads**: with batch shape `[1, H]` (one sentence, `H` attention heads) every head of the
result is the product of the matrices of head 0, for all operands. -/
theorem C102_heads_collapse {a b : Tensor α} {H M K N : Nat} (ha : a.WF) (hb : b.WF)
    (hda : a.dims = [1, H, M, K]) (hdb : b.dims = [1, H, K, N]) (hK : 0 < K)
    (zero : α) (add mul : α → α → α) (cores : Nat) {init : Nat → List α} (hi : ∀ n, (init n).length = n) :
    ∃ c, matmulBatched cores zero add mul init a b = .ok c ∧ c.dims = [1, H, M, N] ∧
      ∀ h i j, h < H → i < M → j < N → ∃ xs ys : List α, xs.length = K ∧ ys.length = K ∧
        (∀ k, k < K → a.elem [0, 0, i, k] = xs[k]?) ∧ (∀ k, k < K → b.elem [0, 0, k, j] = ys[k]?) ∧
        c.elem [0, h, i, j] = some (sumProd zero add mul xs ys) := by
  have hr : ∀ bi, InRange bi [1, H] → readAt [1, H] bi = [0, 0] := by
    intro bi hbi
    match bi, hbi with
    | [x, y], hx =>
      have : x < 1 := hx.1
      simp [readAt]
      omega
  have hbc : Tensor.broadcastDims [1, H] [1, H] = .ok [1, H] := by
    simp [Tensor.broadcastDims, Tensor.broadcastDimsRev]
  obtain ⟨c, c1, c2, c3, c4⟩ := C102_batches (la := [1, H]) (lb := [1, H]) ha hb hda hdb hbc (broadcastsTo_self _)
    (broadcastsTo_self _) (by simp) hK (fun bi hbi => by
      rw [hr bi hbi]
      match bi, hbi with
      | [x, y], hx => exact ⟨by omega, Nat.lt_of_le_of_lt (Nat.zero_le _) hx.2.1, trivial⟩)
    zero add mul cores hi
  refine ⟨c, c1, c2, fun h i j h1 h2 h3 => ?_⟩
  have := c4 [0, h] i j ⟨by omega, h1, trivial⟩ h2 h3
  rw [hr [0, h] ⟨by omega, h1, trivial⟩] at this
  simpa [broadcastIndex] using this

/-- Two different batch sizes: the kernel reads outside the operands. -/
theorem C102_two_batches_ub :
    let a : Tensor Nat := ⟨[1, 2, 3, 4, 5, 6], Layout.fromShape [2, 3, 1, 1]⟩
    (matmulBatched 1 0 (· + ·) (· * ·) (List.replicate · 0) a a) = .ub ∧
    (a.matmulBatched 1 0 (· + ·) (· * ·) a).map (·.storage) = .ok [1, 4, 9, 16, 25, 36] := by
  decide +kernel

/-- Two equal batch sizes: the batches of the result come out transposed. -/
theorem C102_square_batches_swapped :
    let a : Tensor Nat := ⟨[1, 2, 3, 4], Layout.fromShape [2, 2, 1, 1]⟩
    (matmulBatched 1 0 (· + ·) (· * ·) (List.replicate · 0) a a).map (·.storage) = .ok [1, 9, 4, 16] ∧
    (a.matmulBatched 1 0 (· + ·) (· * ·) a).map (·.storage) = .ok [1, 4, 9, 16] := by
  decide +kernel

/-! ## Convolution -/

/-- What the convolution multiplies with the weight at `ic :: k` (`ick`): the input element the output
position `o` reads there, `zero` in the padding. -/
def Spec.tapVal (zero : α) (s p d : Nat) (ns : List Nat) (X : List Nat → α) (b : Nat) (o ick : List Nat) : α :=
  match ick with
  | ic :: k => ((tapIndex s p d ns o k).map fun i => X (b :: ic :: i)).getD zero
  | [] => zero

/-- The matrix of taps: one row of `Ci * Π ks` taps for every output position. -/
theorem im2col_ok {x : Tensor α} {X : List Nat → α} (zero : α) {s p d B Ci : Nat} {ns ks os : List Nat}
    (hx : Reads x X) (px : Packed x) (dx : x.dims = B :: Ci :: ns) (hk : ks.length = ns.length)
    (ho : os.length = ns.length) (hp : p < 2 ^ 31) (hf : Fits s d os ks ns) {b : Nat} (hb : b < B) :
    ∃ col, im2col zero x.storage (mkAxes s p d ns ks os) Ci
        (x.layout.offset + b * shapeSize (Ci :: ns)) = .ok col ∧
      col.length = numel os * numel (Ci :: ks) ∧
      ∀ q, q < numel os * numel (Ci :: ks) → col[q]? = some (tapVal zero s p d ns X b
        (unravel os (q / numel (Ci :: ks))) (unravel (Ci :: ks) (q % numel (Ci :: ks)))) := by
  let g : List Nat → α := fun v => tapVal zero s p d ns X b (v.take ns.length) (v.drop ns.length)
  refine ⟨(indices (os ++ Ci :: ks)).map g, ?_, ?_, ?_⟩
  · unfold im2col
    rw [mkAxes_o hk ho, mkAxes_k hk ho, loops_eq]
    apply Res.mapL_eq_ok_of
    intro v hv
    have hv := mem_indices.mp hv
    obtain ⟨h1, h2⟩ := inRange_append_split hv
    rw [ho] at h1 h2
    unfold colCell
    simp only [mkAxes_length hk ho, g]
    generalize v.take ns.length = o at h1 ⊢
    generalize v.drop ns.length = w at h2 ⊢
    cases w with
    | nil => exact h2.elim
    | cons ic k =>
      obtain ⟨h3, h4⟩ := h2
      dsimp only
      rw [cTaps_n hp hf ho.symm h1 h4 (by omega), Res.ok_bind]
      simp only [tapVal]
      cases ht : tapIndex s p d ns o k with
      | none => rfl
      | some i =>
        have hi := tapIndex_inRange ht
        simp only [Option.map_some, Option.getD_some]
        rw [mkAxes_n hk ho]
        have := packed_read hx px dx (idx := b :: ic :: i) (by rw [dx]; exact ⟨hb, h3, hi⟩)
        rw [show cOffset (Ci :: ns) (b :: ic :: i) = b * shapeSize (Ci :: ns) + cOffset ns (ic :: i) from rfl,
          ← Nat.add_assoc] at this
        exact this
  · rw [List.length_map, indices_length, numel_append]
  · intro q hq
    have hK : 0 < numel (Ci :: ks) := Nat.pos_of_ne_zero fun h => by rw [h] at hq; simp at hq
    have h1 : q / numel (Ci :: ks) < numel os := Nat.div_lt_of_lt_mul (by rwa [Nat.mul_comm])
    have h2 := Nat.mod_lt q hK
    have r1 := unravel_inRange h1
    have r2 := unravel_inRange h2
    have hq' : q = rowMajor (os ++ Ci :: ks) (unravel os (q / numel (Ci :: ks)) ++
        unravel (Ci :: ks) (q % numel (Ci :: ks))) := by
      rw [rowMajor_append r1.length, rowMajor_unravel h1, rowMajor_unravel h2, Nat.mul_comm, Nat.div_add_mod]
    have hol := r1.length
    rw [ho] at hol
    rw [List.getElem?_map]
    conv_lhs => rw [hq']
    rw [indices_get ((inRange_append r1.length).mpr ⟨r1, r2⟩)]
    simp only [Option.map_some, g]
    rw [← hol]
    simp

theorem numel_pos_of_fits {p d Ci : Nat} {ns ks : List Nat} (hv : KernelFits p d ns ks) (hC : 0 < Ci) :
    0 < numel (Ci :: ks) := by
  refine Nat.mul_pos hC ?_
  induction hv with
  | nil => simp [numel]
  | cons hd _ ih => exact Nat.mul_pos hd.1 ih

theorem convOuts_pos (s p d : Nat) (ns ks : List Nat) : 0 < numel (convOuts s p d ns ks) := by
  induction ns generalizing ks with
  | nil => simp [convOuts, numel]
  | cons n ns ih =>
    cases ks with
    | nil => simp [convOuts, numel]
    | cons k ks => exact Nat.mul_pos (Nat.succ_pos _) (ih ks)

/-- **C102, convolution**: what `conv2d` of the BLAS build computes, for all row-major operands: element
`(b, oc, n)` (`n` counts output positions, `N` of them, `K` taps each) is the sum over the taps `t` of
the weight at `t` times the entry `t * N + n` of the matrix of taps, which is tap
`(t * N + n) mod K` of output position `(t * N + n) div K`.  The entry needed is tap `t` of position `n`,
that is entry `n * K + t`. -/
theorem C102_conv {x w : Tensor α} {X W : List Nat → α} (zero : α) (add mul : α → α → α)
    {s p d B Ci Co : Nat} {ns ks : List Nat} (hx : Reads x X) (hw : Reads w W) (px : Packed x)
    (pw : Packed w) (dx : x.dims = B :: Ci :: ns) (dw : w.dims = Co :: Ci :: ks) (hn : ns.length = 2)
    (hk : ks.length = 2) (hs : 0 < s) (hC : 0 < Ci) (hv : KernelFits p d ns ks)
    (hb : ∀ n ∈ ns, n + 2 * p < 2 ^ 31) {init : Nat → List α} (hi : ∀ n, (init n).length = n) :
    ∃ y, conv2d zero add mul init x w s p d = .ok y ∧ y.dims = B :: Co :: convOuts s p d ns ks ∧ y.WF ∧
      ∀ b oc o, b < B → oc < Co → InRange o (convOuts s p d ns ks) →
        y.elem (b :: oc :: o) = some ((List.range (numel (Ci :: ks))).foldl (fun acc t =>
          let q := t * numel (convOuts s p d ns ks) + rowMajor (convOuts s p d ns ks) o
          add acc (mul (W (oc :: unravel (Ci :: ks) t)) (tapVal zero s p d ns X b
            (unravel (convOuts s p d ns ks) (q / numel (Ci :: ks)))
            (unravel (Ci :: ks) (q % numel (Ci :: ks)))))) zero) := by
  have hol := convOuts_length (s := s) hv
  have hf := fits_conv (s := s) hv hb
  have hN := convOuts_pos s p d ns ks
  have hK := numel_pos_of_fits hv hC
  have hp : p < 2 ^ 31 := padding_small (by rintro rfl; simp at hn) hb
  have hsz := convSizes_eq hs hv
  generalize convOuts s p d ns ks = os at *
  generalize hKe : numel (Ci :: ks) = K at *
  generalize hNe : numel os = N at *
  have hKs : Ci * shapeSize ks = K := by rw [shapeSize_eq, ← hKe]; rfl
  let V : Nat → Nat → α := fun b q => (List.range K).foldl (fun acc t =>
    add acc (mul (W (q / N :: unravel (Ci :: ks) t)) (tapVal zero s p d ns X b
      (unravel os ((t * N + q % N) / K)) (unravel (Ci :: ks) ((t * N + q % N) % K))))) zero
  let m : ConvMeta := ⟨numel (B :: Co :: os), B, Ci, Co, mkAxes s p d ns ks os, x.layout.offset, w.layout.offset⟩
  have hwt : ∀ oc t, oc < Co → t < K → readC w.storage (w.layout.offset + oc * K + t) =
      .ok (W (oc :: unravel (Ci :: ks) t)) := by
    intro oc t h1 h2
    have ht : t < numel (Ci :: ks) := by omega
    have r := unravel_inRange ht
    have hr : InRange (oc :: unravel (Ci :: ks) t) (Co :: Ci :: ks) := ⟨h1, r⟩
    have := packed_read hw pw dw (idx := oc :: unravel (Ci :: ks) t) (by rw [dw]; exact hr)
    rw [cOffset_cons (d := Co) (by simp [r.length]), rowMajor, rowMajor_unravel ht, hKe, ← Nat.add_assoc] at this
    exact this
  obtain ⟨C, c1, c2, c3⟩ := blocks_fold (f := convImage zero add mul x.storage w.storage m) (S := Co * N)
    (V := V) B (init (shapeSize (B :: Co :: os))) (by
      rw [hi, shapeSize_eq]; simp only [numel]; rw [hNe]) (by
      intro C b hbB hCl
      obtain ⟨col, e1, e2, e3⟩ := im2col_ok zero hx px dx (by omega) (by omega) hp hf hbB (ks := ks)
      rw [hKe, hNe] at e2 e3
      unfold convImage
      simp only [m]
      rw [mkAxes_k (by omega) (by omega), mkAxes_o (by omega) (by omega), mkAxes_n (by omega) (by omega), e1,
        Res.ok_bind, hKs, shapeSize_eq, hNe]
      have hcl : ∀ k j, k < K → j < N → k * N + j < N * K := by
        intro k j h1 h2
        rw [Nat.mul_comm N K]
        exact flat_lt h1 h2
      have hCb : b * (Co * N) + Co * N ≤ C.length := by
        rw [hCl, ← Nat.succ_mul]
        exact Nat.mul_le_mul_right _ hbB
      obtain ⟨C', g1, g2, g3, g4⟩ := gemm_ok (zero := zero) (add := add) (mul := mul) (ta := false)
        (tb := false) (beta := false) (M := Co) (N := N) (K := K) (a0 := w.layout.offset) (lda := K) (b0 := 0)
        (ldb := N) (c0 := b * (Co * N)) (A := w.storage) (B := col) (C := C)
        (by simp [legal]; omega)
        (fun i k h1 h2 => by simpa [opAddr] using readC_lt (hwt i k h1 h2))
        (fun k j h1 h2 => by simpa [opAddr, e2] using hcl k j h1 h2) hCb
      refine ⟨C', g1, g2, fun q hq => ?_, g4⟩
      have h1 : q / N < Co := Nat.div_lt_of_lt_mul (by rwa [Nat.mul_comm])
      have h2 := Nat.mod_lt q hN
      have := g3 (q / N) (q % N) h1 h2
      rw [Nat.mul_comm (q / N) N, Nat.div_add_mod,
        List.getElem?_eq_getElem (l := C) (by omega), Option.map_some] at this
      rw [this]
      simp only [upd, Bool.false_eq_true, if_false, V]
      congr 1
      apply List.foldl_ext
      intro acc t ht
      have ht := List.mem_range.mp ht
      simp only [opAddr, Bool.false_eq_true, if_false, Nat.zero_add]
      rw [prodAt_eq (hwt _ _ h1 ht) (readC_eq_ok.mpr (e3 _ (hcl t (q % N) ht h2)))])
  refine ⟨⟨C, Layout.fromShape (B :: Co :: os)⟩, ?_, rfl, fresh_wf ?_, ?_⟩
  · unfold conv2d callOpsConv
    rw [if_neg (by rw [dx, dw]; simp; omega), if_neg (by rw [dx, dw]; simp),
      show x.dims.drop 2 = ns by rw [dx]; rfl, show w.dims.drop 2 = ks by rw [dw]; rfl,
      hsz, Res.ok_bind, if_neg (by rw [dx, dw]; simp; omega),
      if_neg (by rw [dx, dw]; simp), Res.ok_bind,
      show x.dims.getD 0 0 = B by rw [dx]; rfl, show w.dims.getD 0 0 = Co by rw [dw]; rfl]
    unfold convKernel
    rw [show [B, Co] ++ os = B :: Co :: os from rfl]
    dsimp only
    rw [decodeConv_convMetadata (Or.inr (Or.inl rfl)) dx
        (by rw [show w.layout.dims = Co :: Ci :: ks from dw]; rfl) hn hk (by omega), Res.ok_bind]
    rw [show Res.foldL _ _ _ = _ from c1, Res.ok_bind]
  · rw [c2]; simp only [numel]; rw [hNe]
  · intro b oc o h1 h2 h3
    have hlt := rowMajor_lt h3
    rw [hNe] at hlt
    have := c3 b (oc * N + rowMajor os o) h1 (flat_lt h2 hlt)
    show Tensor.elem ⟨C, ⟨B :: Co :: os, Layout.computeStrides (B :: Co :: os), 0⟩⟩ _ = _
    rw [elem_rowMajor, Nat.zero_add]
    simp only [rowMajor, numel]
    rw [hNe, this]
    simp only [V]
    rw [Nat.add_comm (oc * N), Nat.add_mul_mod_self_right, Nat.mod_eq_of_lt hlt,
      Nat.add_mul_div_right _ _ hN, Nat.div_eq_of_lt hlt, Nat.zero_add]

/-- The sum of `C102_conv` when the entry read is the one needed. -/
theorem taps_sum [CommSemiring α] {s p d Ci N : Nat} {ns ks os o : List Nat} (X W : List Nat → α) (b oc : Nat)
    (ho : os.length = ns.length) (hk : ks.length = ns.length) (hoi : InRange o os) (hN : numel os = N)
    (h : numel (Ci :: ks) = 1 ∨ N = 1) :
    (List.range (numel (Ci :: ks))).foldl (fun acc t =>
      acc + W (oc :: unravel (Ci :: ks) t) * tapVal 0 s p d ns X b
        (unravel os ((t * N + rowMajor os o) / numel (Ci :: ks)))
        (unravel (Ci :: ks) ((t * N + rowMajor os o) % numel (Ci :: ks)))) 0 =
      crossCorr s p d Ci ns ks X W b oc o := by
  rw [← convTerms_sum X W b oc (by rw [hoi.length, ho]) hk, convTerms_eq, foldl_filterMap_sum, zero_add]
  unfold indices
  rw [List.map_map, ← List.foldl_map (g := fun a v : α => a + v), foldl_sum, zero_add]
  congr 1
  apply List.map_congr_left
  intro t ht
  have ht := List.mem_range.mp ht
  have hlt := rowMajor_lt hoi
  rw [hN] at hlt
  have hq : (t * N + rowMajor os o) / numel (Ci :: ks) = rowMajor os o ∧
      (t * N + rowMajor os o) % numel (Ci :: ks) = t := by
    rcases h with h | h
    · rw [h] at ht ⊢
      obtain rfl : t = 0 := by omega
      simp [Nat.mod_one]
    · rw [h] at hlt ⊢
      rw [show rowMajor os o = 0 by omega, Nat.mul_one, Nat.add_zero]
      exact ⟨Nat.div_eq_of_lt ht, Nat.mod_eq_of_lt ht⟩
  rw [hq.1, hq.2, unravel_rowMajor hoi]
  simp only [Function.comp]
  have r := unravel_inRange ht
  cases hu : unravel (Ci :: ks) t with
  | nil => rw [hu] at r; exact r.elim
  | cons ic k =>
    simp only [tapVal, convTerm]
    cases tapIndex s p d ns o k with
    | none => simp
    | some i => simp [mul_comm]

/-- **C102, convolution, where it is right**: with one output position per image or one tap per output
position (a 1×1 kernel on one channel), in a commutative semiring, `conv2d` of the BLAS build is the
cross-correlation.  Missing: all other sizes, for which the matrix of taps is read as if it were
transposed (`C102_conv_wrong`). -/
theorem C102_conv_partial [CommSemiring α] {x w : Tensor α} {X W : List Nat → α}
    {s p d B Ci Co : Nat} {ns ks : List Nat} (hx : Reads x X) (hw : Reads w W) (px : Packed x)
    (pw : Packed w) (dx : x.dims = B :: Ci :: ns) (dw : w.dims = Co :: Ci :: ks) (hn : ns.length = 2)
    (hk : ks.length = 2) (hs : 0 < s) (hC : 0 < Ci) (hv : KernelFits p d ns ks)
    (hb : ∀ n ∈ ns, n + 2 * p < 2 ^ 31) {init : Nat → List α} (hi : ∀ n, (init n).length = n)
    (h1 : numel (Ci :: ks) = 1 ∨ numel (convOuts s p d ns ks) = 1) :
    ∃ y, conv2d 0 (· + ·) (· * ·) init x w s p d = .ok y ∧ y.dims = B :: Co :: convOuts s p d ns ks ∧
      ∀ b oc o, b < B → oc < Co → InRange o (convOuts s p d ns ks) →
        y.elem (b :: oc :: o) = some (crossCorr s p d Ci ns ks X W b oc o) := by
  obtain ⟨y, y1, y2, _, y3⟩ := C102_conv 0 (· + ·) (· * ·) hx hw px pw dx dw hn hk hs hC hv hb hi
  refine ⟨y, y1, y2, fun b oc o h2 h3 h4 => ?_⟩
  rw [y3 b oc o h2 h3 h4, ← taps_sum X W b oc (convOuts_length hv) (by omega) h4 rfl h1]

/-- Two channels, a 1×1 kernel that selects the first channel, two positions: the plain build returns the
first channel, the BLAS build the first position of both channels. -/
theorem C102_conv_wrong :
    let x : Tensor Nat := ⟨[1, 2, 3, 4], Layout.fromShape [1, 2, 1, 2]⟩
    let w : Tensor Nat := ⟨[1, 0], Layout.fromShape [1, 2, 1, 1]⟩
    (x.conv 0 (· + ·) (· * ·) 2 w 1 0 1).map (·.storage) = .ok [1, 2] ∧
    (conv2d 0 (· + ·) (· * ·) (List.replicate · 0) x w 1 0 1).map (·.storage) = .ok [1, 3] := by
  decide +kernel

/-- A kernel of the shape used in every image network: 2×2 on one channel with stride 2. -/
theorem C102_conv_stride_wrong :
    let x : Tensor Nat := ⟨[1, 2, 3, 4, 5, 6, 7, 8], Layout.fromShape [1, 1, 2, 4]⟩
    let w : Tensor Nat := ⟨[1, 0, 0, 0], Layout.fromShape [1, 1, 2, 2]⟩
    (x.conv 0 (· + ·) (· * ·) 2 w 2 0 1).map (·.storage) = .ok [1, 3] ∧
    (conv2d 0 (· + ·) (· * ·) (List.replicate · 0) x w 2 0 1).map (·.storage) = .ok [1, 2] := by
  decide +kernel

/-! ## The weight gradient -/

/-- Repeated accumulation into all cells of a matrix. -/
theorem acc_fold {f : List α → Nat → Res (List α)} {S : Nat} {V : Nat → Nat → α} {add : α → α → α} (zero : α)
    (B : Nat) (hf : ∀ (C : List α) b, b < B → C.length = S → ∃ C', f C b = .ok C' ∧ C'.length = S ∧
      ∀ q, q < S → C'[q]? = C[q]?.map fun c => add c (V b q)) :
    ∃ C', Res.foldL f (List.replicate S zero) (List.range B) = .ok C' ∧ C'.length = S ∧
      ∀ q, q < S → C'[q]? = some ((List.range B).foldl (fun acc b => add acc (V b q)) zero) := by
  have key : ∀ n, n ≤ B → ∃ C', Res.foldL f (List.replicate S zero) (List.range n) = .ok C' ∧ C'.length = S ∧
      ∀ q, q < S → C'[q]? = some ((List.range n).foldl (fun acc b => add acc (V b q)) zero) := by
    intro n
    induction n with
    | zero =>
      intro _
      refine ⟨_, rfl, by simp, fun q hq => ?_⟩
      simp [hq]
    | succ n ih =>
      intro hn
      obtain ⟨C1, e1, e2, e3⟩ := ih (by omega)
      obtain ⟨C2, g1, g2, g3⟩ := hf C1 n (by omega) e2
      refine ⟨C2, ?_, g2, fun q hq => ?_⟩
      · rw [List.range_succ, foldL_append, e1, Res.ok_bind, Res.foldL, g1]
        rfl
      · rw [g3 q hq, e3 q hq, List.range_succ, List.foldl_append]
        rfl
  exact key B (Nat.le_refl _)

/-- **C102, weight gradient**: what `conv2d_grad_weight` of the BLAS build computes when the output
gradient is row-major: for weight `t` the products of the gradient at output position `n` with entry
`t * N + n` of the matrix of taps, instead of entry `n * K + t`. -/
theorem C102_grad_weight {x g : Tensor α} {X G : List Nat → α} (zero : α) (add mul : α → α → α)
    {s p d B Ci Co : Nat} {ns ks os : List Nat} (hx : Reads x X) (hg : Reads g G) (px : Packed x)
    (hxs : x.layout.strides.length = x.dims.length) (dx : x.dims = B :: Ci :: ns)
    (dg : g.dims = B :: Co :: os) (hgs : g.layout.strides = Layout.computeStrides (B :: Co :: os))
    (hn : ns.length = 2) (hk : ks.length = 2) (ho : os.length = 2) (hp : p < 2 ^ 31) (hf : Fits s d os ks ns)
    (hN : 0 < numel os) (hK : 0 < numel (Ci :: ks)) :
    ∃ y, conv2dGradW zero add mul x g (Co :: Ci :: ks) s p d = .ok y ∧ y.dims = Co :: Ci :: ks ∧ y.WF ∧
      ∀ oc ick, oc < Co → InRange ick (Ci :: ks) → y.elem (oc :: ick) =
        some ((List.range B).foldl (fun acc b => add acc ((List.range (numel os)).foldl (fun acc n =>
          let q := rowMajor (Ci :: ks) ick * numel os + n
          add acc (mul (G (b :: oc :: unravel os n)) (tapVal zero s p d ns X b
            (unravel os (q / numel (Ci :: ks))) (unravel (Ci :: ks) (q % numel (Ci :: ks)))))) zero)) zero) := by
  generalize hKe : numel (Ci :: ks) = K at *
  generalize hNe : numel os = N at *
  have hKs : Ci * shapeSize ks = K := by rw [shapeSize_eq, ← hKe]; rfl
  let V : Nat → Nat → α := fun b q => (List.range N).foldl (fun acc n =>
    add acc (mul (G (b :: q / K :: unravel os n)) (tapVal zero s p d ns X b
      (unravel os ((q % K * N + n) / K)) (unravel (Ci :: ks) ((q % K * N + n) % K))))) zero
  let m : ConvGradMeta := ⟨numel (Co :: Ci :: ks), B, Ci, Co, mkAxes s p d ns ks os, g.layout.strides,
    x.layout.offset, g.layout.offset⟩
  have hgt : ∀ b oc n, b < B → oc < Co → n < N →
      readC g.storage (g.layout.offset + b * (Co * N) + oc * N + n) = .ok (G (b :: oc :: unravel os n)) := by
    intro b oc n h0 h1 h2
    have hn' : n < numel os := by omega
    have r := unravel_inRange hn'
    have hr : InRange (b :: oc :: unravel os n) (B :: Co :: os) := ⟨h0, h1, r⟩
    have := readC_eq_ok.mpr (hg (b :: oc :: unravel os n) (by rw [dg]; exact hr))
    rw [hgs, dot_computeStrides] at this
    simp only [rowMajor, numel, rowMajor_unravel hn', hNe] at this
    simpa [Nat.add_assoc] using this
  obtain ⟨C, c1, c2, c3⟩ := acc_fold (f := gradImage zero add mul x.storage g.storage m) (S := Co * K)
    (V := V) (add := add) zero B (by
      intro C b hbB hCl
      obtain ⟨col, e1, e2, e3⟩ := im2col_ok zero hx px dx (by omega) (by omega) hp hf hbB (ks := ks)
      rw [hKe, hNe] at e2 e3
      unfold gradImage
      simp only [m]
      rw [mkAxes_k (by omega) (by omega), mkAxes_o (by omega) (by omega), mkAxes_n (by omega) (by omega), e1,
        Res.ok_bind, hKs, shapeSize_eq, hNe]
      have hcl : ∀ n t, n < N → t < K → t * N + n < N * K := by
        intro n t h1 h2
        rw [Nat.mul_comm N K]
        exact flat_lt h2 h1
      obtain ⟨C', g1, g2, g3, g4⟩ := gemm_ok (zero := zero) (add := add) (mul := mul) (ta := false)
        (tb := true) (beta := true) (M := Co) (N := K) (K := N) (a0 := g.layout.offset + b * (Co * N))
        (lda := N) (b0 := 0) (ldb := N) (c0 := 0) (A := g.storage) (B := col) (C := C)
        (by simp [legal]; omega)
        (fun i k h1 h2 => by simpa [opAddr] using readC_lt (hgt b i k hbB h1 h2))
        (fun k j h1 h2 => by simpa [opAddr, e2] using hcl k j h1 h2) (by omega)
      refine ⟨C', g1, by omega, fun q hq => ?_⟩
      have h1 : q / K < Co := Nat.div_lt_of_lt_mul (by rwa [Nat.mul_comm])
      have h2 := Nat.mod_lt q hK
      have := g3 (q / K) (q % K) h1 h2
      rw [Nat.mul_comm (q / K) K, Nat.div_add_mod, Nat.zero_add] at this
      rw [this]
      congr 1
      funext c
      simp only [upd, if_true, V]
      congr 1
      apply List.foldl_ext
      intro acc n hn'
      have hn' := List.mem_range.mp hn'
      simp only [opAddr, Bool.false_eq_true, if_false, if_true, Nat.zero_add]
      rw [prodAt_eq (hgt b _ _ hbB h1 hn') (readC_eq_ok.mpr (e3 _ (hcl n (q % K) hn' h2)))])
  refine ⟨⟨C, Layout.fromShape (Co :: Ci :: ks)⟩, ?_, rfl, fresh_wf ?_, ?_⟩
  · unfold conv2dGradW convGradKernel
    rw [if_neg (by rw [dx, dg]; simp; omega), decodeConvGrad_metadata (Or.inr (Or.inl rfl)) dx dg rfl
      (by simp; omega) hxs (by rw [hgs, computeStrides_length]; exact congrArg List.length dg.symm) hn ho,
      Res.ok_bind]
    dsimp only
    rw [mkAxes_o (by simp; omega) (by omega), if_pos]
    · rw [show List.replicate (numel (Co :: Ci :: ks)) zero = List.replicate (Co * K) zero by
        rw [← hKe]; rfl]
      show Res.bind (Res.foldL (gradImage zero add mul x.storage g.storage m) _ _) _ = _
      rw [c1, Res.ok_bind]
    · rw [hgs]
      obtain ⟨o, o', rfl⟩ := length_two ho
      simp [Layout.computeStrides, shapeSize_eq, numel]
      constructor <;> ring
  · rw [c2, ← hKe]; rfl
  · intro oc ick h1 h2
    have hlt := rowMajor_lt h2
    rw [hKe] at hlt
    have := c3 (oc * K + rowMajor (Ci :: ks) ick) (flat_lt h1 hlt)
    show Tensor.elem ⟨C, ⟨Co :: Ci :: ks, Layout.computeStrides (Co :: Ci :: ks), 0⟩⟩ _ = _
    rw [elem_rowMajor, Nat.zero_add, show rowMajor (Co :: Ci :: ks) (oc :: ick) =
      oc * numel (Ci :: ks) + rowMajor (Ci :: ks) ick from rfl, hKe, this]
    simp only [V]
    rw [Nat.add_comm (oc * K), Nat.add_mul_mod_self_right, Nat.mod_eq_of_lt hlt,
      Nat.add_mul_div_right _ _ hK, Nat.div_eq_of_lt hlt, Nat.zero_add]

/-- **C102, weight gradient, where it is right**: with one output position or one tap, for any strides of
the output gradient, in a commutative semiring, the products summed are those of the plain build
(`convGradW_ok`; their sum is the adjoint of the convolution, C61).  Missing: all other sizes
(`C102_grad_weight_wrong`). -/
theorem C102_grad_weight_partial [CommSemiring α] {x g : Tensor α} {X G : List Nat → α}
    {s p d B Ci Co : Nat} {ns ks os : List Nat} (hx : Reads x X) (hg : Reads g G) (px : Packed x)
    (hxs : x.layout.strides.length = x.dims.length) (hgs : g.layout.strides.length = g.dims.length)
    (dx : x.dims = B :: Ci :: ns) (dg : g.dims = B :: Co :: os)
    (hn : ns.length = 2) (hk : ks.length = 2) (ho : os.length = 2) (hp : p < 2 ^ 31) (hf : Fits s d os ks ns)
    (hN : 0 < numel os) (hK : 0 < numel (Ci :: ks)) (h1 : numel (Ci :: ks) = 1 ∨ numel os = 1) :
    ∃ y, conv2dGradW 0 (· + ·) (· * ·) x g (Co :: Ci :: ks) s p d = .ok y ∧ y.dims = Co :: Ci :: ks ∧
      ∀ oc ic k, oc < Co → ic < Ci → InRange k ks → y.elem (oc :: ic :: k) =
        some ((gradWTerms (· * ·) s p d B ns os X G oc ic k).foldl (· + ·) 0) := by
  by_cases hc : g.layout.strides = Layout.computeStrides (B :: Co :: os)
  · obtain ⟨y, y1, y2, _, y3⟩ := C102_grad_weight 0 (· + ·) (· * ·) hx hg px hxs dx dg hc hn hk ho hp hf hN hK
    refine ⟨y, y1, y2, fun oc ic k h2 h3 h4 => ?_⟩
    have hr : InRange (ic :: k) (Ci :: ks) := ⟨h3, h4⟩
    rw [y3 oc (ic :: k) h2 hr]
    congr 1
    rw [← List.foldl_map (g := fun a v : α => a + v), foldl_sum, foldl_sum, zero_add, zero_add]
    unfold gradWTerms
    rw [sum_flatMap']
    show lsum _ _ = _
    apply lsum_congr
    intro b _
    rw [← List.foldl_map (g := fun a v : α => a + v), foldl_sum, zero_add, sum_filterMap']
    unfold indices lsum
    rw [List.map_map]
    congr 1
    apply List.map_congr_left
    intro n hn'
    have hn' := List.mem_range.mp hn'
    have hlt := rowMajor_lt hr
    have hq : (rowMajor (Ci :: ks) (ic :: k) * numel os + n) / numel (Ci :: ks) = n ∧
        (rowMajor (Ci :: ks) (ic :: k) * numel os + n) % numel (Ci :: ks) = rowMajor (Ci :: ks) (ic :: k) := by
      rcases h1 with h | h
      · rw [h] at hlt ⊢
        rw [show rowMajor (Ci :: ks) (ic :: k) = 0 by omega]
        simp [Nat.mod_one]
      · rw [h] at hn' ⊢
        obtain rfl : n = 0 := by omega
        rw [Nat.mul_one, Nat.add_zero]
        exact ⟨Nat.div_eq_of_lt hlt, Nat.mod_eq_of_lt hlt⟩
    dsimp only
    rw [hq.1, hq.2, unravel_rowMajor hr]
    simp only [Function.comp, tapVal]
    cases tapIndex s p d ns (unravel os n) k with
    | none => simp
    | some i => simp [mul_comm]
  · obtain ⟨out, e1, e2⟩ := convGradW_ok (Or.inr (Or.inl rfl)) 0 (· + ·) (· * ·) hx hg px hxs hgs dx dg hn hk ho hp hf
    refine ⟨_, ?_, rfl, e2⟩
    rw [← e1]
    unfold conv2dGradW Tensor.convGradW convGradKernel
    rw [decodeConvGrad_metadata (Or.inr (Or.inl rfl)) dx dg rfl (by simp; omega) hxs hgs hn ho, Res.ok_bind]
    dsimp only
    rw [mkAxes_o (by simp; omega) (by omega), if_neg (c := _ = _)]
    rw [show g.layout.strides = _ ↔ _ from Iff.rfl]
    intro h
    apply hc
    rw [h]
    obtain ⟨o, o', rfl⟩ := length_two ho
    simp [Layout.computeStrides, shapeSize_eq, numel]
    constructor <;> ring

/-- Two channels, a 1×1 kernel, two positions. -/
theorem C102_grad_weight_wrong :
    let x : Tensor Nat := ⟨[1, 2, 3, 4], Layout.fromShape [1, 2, 1, 2]⟩
    let g : Tensor Nat := ⟨[1, 0], Layout.fromShape [1, 1, 1, 2]⟩
    (x.convGradW 0 (· + ·) (· * ·) 2 g [1, 2, 1, 1] 1 0 1).map (·.storage) = .ok [1, 3] ∧
    (conv2dGradW 0 (· + ·) (· * ·) x g [1, 2, 1, 1] 1 0 1).map (·.storage) = .ok [1, 2] := by
  decide +kernel

/-! ## Multiplication by a scalar -/

/-- **C102, scalar**: `mul_scalar` of the BLAS build computes the same as the plain build, for all tensors
(other than a view of rank 0 at a non-zero offset, left out as in the theorems about unary operators). -/
theorem C102_mul_scalar {t : Tensor α} {xs : List α} (ht : t.WF) (hx : t.HasValues xs)
    (h0 : t.dims ≠ [] ∨ t.layout.offset = 0) (mul : α → α → α) (c : α) (cores : Nat) (buf : List α)
    (hb : buf.length = numel t.dims) :
    mulScalarKernel cores mul c t.storage (unaryMetadata t.layout t.layout) buf = .ok (xs.map (mul · c)) ∧
    unaryKernel cores (mul · c) t.storage (unaryMetadata t.layout t.layout) buf = .ok (xs.map (mul · c)) := by
  have hu := unaryKernel_ok (f := (mul · c)) ht hx h0 cores buf hb
  refine ⟨?_, hu⟩
  have hoff : (if 0 < t.layout.dims.length then t.layout.offset else 0) = t.layout.offset := by
    split
    · rfl
    · rename_i hc
      rcases h0 with h0 | h0
      · exact absurd (List.length_pos_iff.mpr h0) hc
      · exact h0.symm
  unfold mulScalarKernel
  rw [decodeUnary_unaryMetadata ht.1]
  simp only [Res.ok_bind, hoff, Layout.size, shapeSize_eq]
  split
  case isTrue hc =>
    simp only [Bool.and_eq_true, beq_iff_eq] at hc
    rw [runLoop_list (zs := xs) hx.1]
    · rfl
    · intro i hi
      have := HasValues.readC_cont ht hx hc.1 hi
      rwa [hc.2, Nat.zero_add] at this
  case isFalse => exact hu

/-! ## The full claim is false -/

/-- The full claim: whatever the fresh buffer contains, where the plain build succeeds the BLAS build
returns the same tensor, for products of matrices, batches of matrices, convolutions and weight
gradients. -/
def Spec.SameAsPlain (α : Type) : Prop :=
  ∀ (zero : α) (add mul : α → α → α) (cores : Nat) (init : Nat → List α) (a b c : Tensor α)
    (wd : List Nat) (s p d : Nat), (∀ n, (init n).length = n) → a.WF → b.WF →
    (a.dot2d cores zero add mul b = .ok c → dot2d cores zero add mul init a b = .ok c) ∧
    (a.matmulBatched cores zero add mul b = .ok c → matmulBatched cores zero add mul init a b = .ok c) ∧
    (a.conv zero add mul 2 b s p d = .ok c → conv2d zero add mul init a b s p d = .ok c) ∧
    (a.convGradW zero add mul 2 b wd s p d = .ok c → conv2dGradW zero add mul a b wd s p d = .ok c)

theorem C102_full_false : ¬ SameAsPlain Nat := by
  intro h
  have hw : (⟨[1, 2, 3, 4], Layout.fromShape [2, 2, 1, 1]⟩ : Tensor Nat).WF := fresh_wf (by decide)
  have h1 := (h 0 (· + ·) (· * ·) 1 (List.replicate · 0) ⟨[1, 2, 3, 4], Layout.fromShape [2, 2, 1, 1]⟩
    ⟨[1, 2, 3, 4], Layout.fromShape [2, 2, 1, 1]⟩ ⟨[1, 4, 9, 16], Layout.fromShape [2, 2, 1, 1]⟩ [] 1 0 1
    (by simp) hw hw).2.1 (by decide +kernel)
  revert h1
  decide +kernel

/-! ## Concrete cases -/

/-- The hypotheses of `C102_one_batch_partial` for a batch of three products with a broadcast right-hand
side, and both builds return the same. -/
example : Tensor.broadcastDims [3] [] = .ok [3] ∧ BroadcastsTo [] [3] ∧
    (matmulBatched 2 0 (· + ·) (· * ·) (List.replicate · 7) (countUp [3, 2, 2] 1) (countUp [2, 1] 4)).map (·.storage) =
      .ok [14, 32, 50, 68, 86, 104] ∧
    ((countUp [3, 2, 2] 1).matmulBatched 2 0 (· + ·) (· * ·) (countUp [2, 1] 4)).map (·.storage) =
      .ok [14, 32, 50, 68, 86, 104] := by
  refine ⟨by decide, ⟨by decide, by simp⟩, by decide +kernel, by decide +kernel⟩

/-- `C102_heads_collapse` on two heads: both get the product of head 0. -/
example : (matmulBatched 1 0 (· + ·) (· * ·) (List.replicate · 7) (countUp [1, 2, 1, 2] 1)
      (countUp [1, 2, 2, 1] 1)).map (·.storage) = .ok [1 * 1 + 2 * 2, 1 * 1 + 2 * 2] ∧
    ((countUp [1, 2, 1, 2] 1).matmulBatched 1 0 (· + ·) (· * ·) (countUp [1, 2, 2, 1] 1)).map (·.storage) =
      .ok [1 * 1 + 2 * 2, 3 * 3 + 4 * 4] := by
  decide +kernel

/-- The hypotheses of `C102_batches` for two equal batch sizes. -/
example : ∀ bi, InRange bi [2, 2] → InRange (readAt [2, 2] bi) [2, 2] := by
  intro bi h
  match bi, h with
  | [x, y], ⟨h1, h2, _⟩ => exact ⟨h2, h1, trivial⟩

/-- The hypotheses of `C102_conv_partial`: a kernel as large as the padded input (one output position),
two images, two channels; and of `C102_grad_weight_partial` for the same sizes. -/
example : KernelFits 1 1 [2, 2] [4, 4] ∧ numel (convOuts 1 1 1 [2, 2] [4, 4]) = 1 ∧
    (∀ n ∈ [2, 2], n + 2 * 1 < 2 ^ 31) ∧ Fits 1 1 [1, 1] [4, 4] [2, 2] ∧
    conv2d 0 (· + ·) (· * ·) (List.replicate · 7) (countUp [2, 2, 2, 2] 1) (countUp [1, 2, 4, 4] 1) 1 1 1 =
      (countUp [2, 2, 2, 2] 1).conv 0 (· + ·) (· * ·) 2 (countUp [1, 2, 4, 4] 1) 1 1 1 ∧
    conv2dGradW 0 (· + ·) (· * ·) (countUp [2, 2, 2, 2] 1) (countUp [2, 1, 1, 1] 1) [1, 2, 4, 4] 1 1 1 =
      (countUp [2, 2, 2, 2] 1).convGradW 0 (· + ·) (· * ·) 2 (countUp [2, 1, 1, 1] 1) [1, 2, 4, 4] 1 1 1 := by
  refine ⟨.cons (by decide) (.cons (by decide) .nil), by decide, by decide, ?_, by decide +kernel,
    by decide +kernel⟩
  have hv : KernelFits 1 1 [2, 2] [4, 4] := .cons (by decide) (.cons (by decide) .nil)
  exact fits_conv (s := 1) hv (by decide)

/-- `C102_mul_scalar` on a contiguous tensor (scaled in place) and on a transposed one (plain kernel). -/
example :
    mulScalarKernel 4 (· * ·) 3 [1, 2, 3, 4] (unaryMetadata ⟨[2, 2], [2, 1], 0⟩ ⟨[2, 2], [2, 1], 0⟩) [0, 0, 0, 0] =
      .ok [3, 6, 9, 12] ∧
    mulScalarKernel 4 (· * ·) 3 [1, 2, 3, 4] (unaryMetadata ⟨[2, 2], [1, 2], 0⟩ ⟨[2, 2], [1, 2], 0⟩) [0, 0, 0, 0] =
      .ok [3, 9, 6, 12] := by
  decide +kernel

end Hodu.Blas
