import Verif.Lemmas.Matmul
import Verif.Props.Elementwise
import Verif.Props.Reduce
import Mathlib.Tactic.IntervalCases

/-!
# Property C32: matrix products
-/

namespace Hodu
open Spec

/-! ## Specification -/

/-- `x₀y₀ + x₁y₁ + …`, added from the left, starting from `zero`. -/
def Spec.sumProd (zero : α) (add mul : α → α → α) (xs ys : List α) : α :=
  (List.zipWith mul xs ys).foldl add zero

/-- `C[b,i,j] = Σ_k A[b,i,k] * B[b,k,j]`: `la` and `lb` are the batch shapes of the operands, `batch`
the batch shape of the result. -/
def Spec.IsMatProd (zero : α) (add mul : α → α → α) (a b c : Tensor α) (la lb batch : List Nat)
    (M K N : Nat) : Prop :=
  c.dims = batch ++ [M, N] ∧ c.WF ∧
  ∀ bi i j, InRange bi batch → i < M → j < N → ∃ xs ys : List α,
    xs.length = K ∧ ys.length = K ∧
    (∀ k, k < K → a.elem (broadcastIndex la bi ++ [i, k]) = xs[k]?) ∧
    (∀ k, k < K → b.elem (broadcastIndex lb bi ++ [k, j]) = ys[k]?) ∧
    c.elem (bi ++ [i, j]) = some (sumProd zero add mul xs ys)

/-! ## Helpers -/

theorem rowMajor_append {a b : List Nat} {x y : List Nat} (h : x.length = a.length) :
    rowMajor (a ++ b) (x ++ y) = rowMajor a x * numel b + rowMajor b y := by
  induction a generalizing x with
  | nil =>
    have : x = [] := List.eq_nil_of_length_eq_zero h
    subst this
    simp [rowMajor]
  | cons d ds ih =>
    cases x with
    | nil => simp at h
    | cons i is =>
      simp only [List.cons_append, rowMajor, numel_append, ih (by simpa using h)]
      rw [Nat.add_mul, Nat.mul_assoc]
      omega

theorem inRange_mat {b batch : List Nat} {i j M N : Nat} (hb : InRange b batch) (hi : i < M) (hj : j < N) :
    InRange (b ++ [i, j]) (batch ++ [M, N]) :=
  (inRange_append hb.length).mpr ⟨hb, hi, hj, trivial⟩

theorem inRange_mat_split {idx batch : List Nat} {M N : Nat} (h : InRange idx (batch ++ [M, N])) :
    ∃ b i j, idx = b ++ [i, j] ∧ InRange b batch ∧ i < M ∧ j < N := by
  have hl := h.length
  simp only [List.length_append, List.length_cons, List.length_nil] at hl
  have hsplit := List.take_append_drop batch.length idx
  have hdl : (idx.drop batch.length).length = 2 := by simp; omega
  match hd : idx.drop batch.length, hdl with
  | [i, j], _ =>
    rw [hd] at hsplit
    rw [← hsplit] at h
    obtain ⟨h1, h2, h3, _⟩ := (inRange_append (by simp; omega)).mp h
    exact ⟨_, i, j, hsplit.symm, h1, h2, h3⟩

theorem split_last2 {xs : List Nat} (h : 2 ≤ xs.length) :
    xs = xs.take (xs.length - 2) ++ [xs.getD (xs.length - 2) 0, xs.getD (xs.length - 1) 0] := by
  have hsplit := List.take_append_drop (xs.length - 2) xs
  have hdl : (xs.drop (xs.length - 2)).length = 2 := by simp; omega
  match hd : xs.drop (xs.length - 2), hdl with
  | [i, j], _ =>
    rw [hd] at hsplit
    have hi : xs[xs.length - 2]? = some i := by
      have := congrArg (·[0]?) hd
      simpa using this
    have hj : xs[xs.length - 1]? = some j := by
      have := congrArg (·[1]?) hd
      simp only [List.getElem?_drop] at this
      rw [show xs.length - 2 + 1 = xs.length - 1 by omega] at this
      simpa using this
    rw [List.getD_eq_getElem?_getD, hi, List.getD_eq_getElem?_getD, hj]
    exact hsplit.symm

theorem take_append2 {xs ys : List α} {n : Nat} (h : n = xs.length) : (xs ++ ys).take n = xs := by
  subst h; simp

theorem broadcastIndex_range {dims target idx : List Nat} (h : BroadcastsTo dims target)
    (hi : InRange idx target) : InRange (broadcastIndex dims idx) dims := by
  obtain ⟨s, -, -, h3⟩ := (broadcastTo_spec (l := Layout.fromShape dims) (target := target)
    (computeStrides_length dims)).1 h
  exact (h3 idx hi).1

theorem broadcastIndex_append {dims idx : List Nat} {M K i k : Nat} (hl : dims.length ≤ idx.length)
    (hi : i < M) (hk : k < K) :
    broadcastIndex (dims ++ [M, K]) (idx ++ [i, k]) = broadcastIndex dims idx ++ [i, k] := by
  unfold broadcastIndex
  rw [show (idx ++ [i, k]).length - (dims ++ [M, K]).length = idx.length - dims.length by simp,
    List.drop_append_of_le_length (by omega), List.zipWith_append (by simp; omega)]
  congr 1
  simp only [List.zipWith_cons_cons, List.zipWith_nil_right]
  rw [show (if M = 1 then 0 else i) = i by split <;> omega,
    show (if K = 1 then 0 else k) = k by split <;> omega]

theorem batchIdx_eq {dims tail bi : List Nat} (hl : dims.length ≤ bi.length) :
    batchIdx (dims ++ tail) bi dims.length = broadcastIndex dims bi := by
  unfold batchIdx broadcastIndex
  apply List.ext_getElem
  · simp; omega
  · intro d h1 h2
    simp only [List.length_map, List.length_range] at h1
    simp only [List.getElem_map, List.getElem_range, List.getElem_zipWith, List.getElem_drop]
    simp only [List.getD_eq_getElem?_getD]
    rw [List.getElem?_append_left h1, List.getElem?_eq_getElem h1,
      List.getElem?_eq_getElem (show bi.length - dims.length + d < bi.length by omega)]
    rfl

/-- Reading the pairs behind a cell of the product. -/
theorem prod_cells {zero : α} {add mul : α → α → α} {a b : Tensor α} {x y : List Nat} {K : Nat}
    {i j : Nat} {la ra : Nat → Nat}
    (ha : ∀ k, k < K → (a.elem (x ++ [i, k])).isSome ∧
      a.layout.offset + dot (x ++ [i, k]) a.layout.strides = la k)
    (hb : ∀ k, k < K → (b.elem (y ++ [k, j])).isSome ∧
      b.layout.offset + dot (y ++ [k, j]) b.layout.strides = ra k) :
    ∃ xs ys : List α, xs.length = K ∧ ys.length = K ∧
      (∀ k, k < K → a.elem (x ++ [i, k]) = xs[k]?) ∧ (∀ k, k < K → b.elem (y ++ [k, j]) = ys[k]?) ∧
      (List.range K).foldl (fun acc k => add acc (prodAt zero mul a.storage b.storage (la k) (ra k))) zero =
        sumProd zero add mul xs ys := by
  have hea : ∀ k, k < K → a.elem (x ++ [i, k]) = a.storage[la k]? := by
    intro k hk
    rw [Tensor.elem, (ha k hk).2]
  have heb : ∀ k, k < K → b.elem (y ++ [k, j]) = b.storage[ra k]? := by
    intro k hk
    rw [Tensor.elem, (hb k hk).2]
  have hla : ∀ k, k < K → la k < a.storage.length := by
    intro k hk
    rw [← (ha k hk).2]
    exact Tensor.elem_lt (ha k hk).1
  have hra : ∀ k, k < K → ra k < b.storage.length := by
    intro k hk
    rw [← (hb k hk).2]
    exact Tensor.elem_lt (hb k hk).1
  refine ⟨(List.range K).map fun k => a.storage.getD (la k) zero,
    (List.range K).map fun k => b.storage.getD (ra k) zero, by simp, by simp, ?_, ?_, ?_⟩
  · intro k hk
    rw [hea k hk]
    simp [hk, hla k hk]
  · intro k hk
    rw [heb k hk]
    simp [hk, hra k hk]
  · unfold sumProd
    rw [List.zipWith_map, List.zipWith_self, List.foldl_map]
    apply List.foldl_ext
    intro acc k hk
    have hk : k < K := by simpa using hk
    congr 1
    simp [prodAt, readBoth, readC, hla k hk, hra k hk, Res.map]

/-! ## Two matrices -/

theorem rank2 {xs : List Nat} (h : xs.length = 2) : ∃ a b, xs = [a, b] := by
  match xs, h with
  | [a, b], _ => exact ⟨a, b, rfl⟩

/-- **C32, two matrices**: for all well-formed operands (any strides and offset) and any number of
cores, `dot_2d` fails exactly if the inner sizes differ and otherwise yields the matrix product; in
particular the row-parallel, the register-blocked and the strided path agree, including the order of
the additions. -/
theorem C32_dot {a b : Tensor α} {M K K' N : Nat} (ha : a.WF) (hb : b.WF) (hda : a.dims = [M, K])
    (hdb : b.dims = [K', N]) (zero : α) (add mul : α → α → α) (cores : Nat) :
    (K ≠ K' → a.matmul cores zero add mul b = .err) ∧
    (K = K' → ∃ c, a.matmul cores zero add mul b = .ok c ∧
      IsMatProd zero add mul a b c [] [] [] M K N) := by
  have hm : a.matmul cores zero add mul b = a.dot2d cores zero add mul b := by
    unfold Tensor.matmul
    rw [hda, hdb]
  rw [hm]
  unfold Tensor.dot2d
  rw [hda, hdb]
  simp only [readR, List.getElem?_cons_zero, List.getElem?_cons_succ, Res.ok_bind]
  constructor
  · intro h; rw [if_pos h]
  · rintro rfl
    rw [if_neg (by simp)]
    obtain ⟨lm, lk, hls⟩ := rank2 (xs := a.layout.strides) (by rw [ha.1, hda]; rfl)
    obtain ⟨rk, rn, hrs⟩ := rank2 (xs := b.layout.strides) (by rw [hb.1, hdb]; rfl)
    have hda' : a.layout.dims = [M, K] := hda
    have hdb' : b.layout.dims = [K, N] := hdb
    let md : List Nat := [M, K, N, lm, lk, rk, rn, a.layout.offset, b.layout.offset]
    have hmd : dotMetadata a.layout b.layout = .ok md := by
      simp [dotMetadata, Layout.ndim, hda', hdb', hls, hrs, readR, md]
    have hdec : decodeDot md = .ok ⟨M, K, N, lm, lk, rk, rn, a.layout.offset, b.layout.offset⟩ := by
      simp [decodeDot, readC, md]
    have hela : ∀ i k, i < M → k < K → (a.elem ([] ++ [i, k])).isSome ∧
        a.layout.offset + dot ([] ++ [i, k]) a.layout.strides = a.layout.offset + i * lm + k * lk := by
      intro i k hi hk
      refine ⟨ha.2 _ (by rw [hda]; exact ⟨hi, hk, trivial⟩), ?_⟩
      rw [hls]
      simp [dot]; omega
    have helb : ∀ k j, k < K → j < N → (b.elem ([] ++ [k, j])).isSome ∧
        b.layout.offset + dot ([] ++ [k, j]) b.layout.strides = b.layout.offset + k * rk + j * rn := by
      intro k j hk hj
      refine ⟨hb.2 _ (by rw [hdb]; exact ⟨hk, hj, trivial⟩), ?_⟩
      rw [hrs]
      simp [dot]; omega
    obtain ⟨s, h1, h2, h3⟩ := dotKernel_ok (zero := zero) (add := add) (mul := mul)
      (lhs := a.storage) (rhs := b.storage) cores hdec
      (fun i k hi hk => by
        have := hela i k hi hk
        simp only
        rw [← this.2]
        exact Tensor.elem_lt this.1)
      (fun k j hk hj => by
        have := helb k j hk hj
        simp only
        rw [← this.2]
        exact Tensor.elem_lt this.1)
    simp only at h2 h3
    refine ⟨⟨s, Layout.fromShape [M, N]⟩, ?_, rfl, fresh_wf (by simp [numel, h2]), ?_⟩
    · unfold callOpsDot
      rw [if_neg (by simp [Layout.ndim, hda', hdb']), hmd, Res.ok_bind, h1]
      rfl
    · intro bi i j hbi hi hj
      have : bi = [] := by cases bi <;> simp_all [InRange]
      subst this
      obtain ⟨xs, ys, g1, g2, g3, g4, g5⟩ := prod_cells (zero := zero) (add := add) (mul := mul)
        (a := a) (b := b) (x := []) (y := []) (i := i) (j := j)
        (fun k hk => hela i k hi hk) (fun k hk => helb k j hk hj)
      refine ⟨xs, ys, g1, g2, g3, g4, ?_⟩
      rw [← g5, ← h3 i j hi hj]
      show Tensor.elem ⟨s, ⟨[M, N], Layout.computeStrides [M, N], 0⟩⟩ _ = _
      rw [elem_rowMajor]
      simp [rowMajor, numel]

/-- Non-vacuity: a transposed left operand and a sliced right operand (offset 3) take the strided
path; a contiguous pair takes the blocked path. -/
example :
    let a : Tensor Nat := ⟨[1, 2, 3, 4, 5, 6], ⟨[3, 2], [1, 3], 0⟩⟩
    let b : Tensor Nat := ⟨[0, 0, 0, 7, 8, 9, 10], ⟨[2, 2], [2, 1], 3⟩⟩
    a.WF ∧ b.WF ∧ (a.matmul 8 0 (· + ·) (· * ·) b).map (·.storage) =
      .ok [7 + 36, 8 + 40, 14 + 45, 16 + 50, 21 + 54, 24 + 60] := by
  refine ⟨⟨rfl, ?_⟩, ⟨rfl, ?_⟩, by decide +kernel⟩
  · rintro idx h
    obtain ⟨bi, i, j, rfl, h1, h2, h3⟩ := inRange_mat_split (batch := []) h
    have : bi = [] := by cases bi <;> simp_all [InRange]
    subst this
    simp only [List.nil_append]
    interval_cases i <;> interval_cases j <;> decide
  · rintro idx h
    obtain ⟨bi, i, j, rfl, h1, h2, h3⟩ := inRange_mat_split (batch := []) h
    have : bi = [] := by cases bi <;> simp_all [InRange]
    subst this
    simp only [List.nil_append]
    interval_cases i <;> interval_cases j <;> decide

/-- **C32, any schedule of the row workers**: in the row-parallel branch of both kernels with any
number `T ≥ 1` of workers, all interleavings of the workers' writes leave the same buffer, whose cell
`(i, j)` is the single-threaded result. -/
theorem C32_row_workers_any_order {zero : α} {add mul : α → α → α} {lhs rhs : List α} {M K N T : Nat}
    (hT : 0 < T) (hl : M * K ≤ lhs.length) (hr : K * N ≤ rhs.length) :
    ∃ wss, Res.mapL (rowWorker zero add mul lhs rhs M K N T) (List.range T) = .ok wss ∧
      ∃ out, (∀ ws buf, ws.Perm wss.flatten → buf.length = M * N → applyWrites buf ws = .ok out) ∧
        out.length = M * N ∧
        ∀ i j, i < M → j < N → ∃ xs ys, xs.length = K ∧ ys.length = K ∧
          (∀ k, k < K → lhs[i * K + k]? = xs[k]?) ∧ (∀ k, k < K → rhs[k * N + j]? = ys[k]?) ∧
          out[i * N + j]? = some (sumProd zero add mul xs ys) := by
  have hflat : ∀ {A B a b : Nat}, a < A → b < B → a * B + b < A * B := by
    intro A B a b ha hb
    calc a * B + b < a * B + B := by omega
      _ = (a + 1) * B := (Nat.succ_mul a B).symm
      _ ≤ A * B := Nat.mul_le_mul_right _ ha
  obtain ⟨wss, h1, h2⟩ := rowThreads_any (zero := zero) (add := add) (mul := mul) (lhs := lhs)
    (rhs := rhs) (M := M) (K := K) (N := N) hT
    (g := fun i j => (List.range K).foldl (fun acc k =>
      add acc (prodAt zero mul lhs rhs (i * K + k) (k * N + j))) zero) (by
      intro i j hi hj
      exact dotSum_ok (fun k hk => Nat.lt_of_lt_of_le (hflat hi hk) hl)
        (fun k hk => Nat.lt_of_lt_of_le (hflat hk hj) hr))
  refine ⟨wss, h1, _, h2, by rw [List.length_map, tilePairs_length], ?_⟩
  intro i j hi hj
  have hdot : ∀ (x y s t o : Nat), o + dot ([] ++ [x, y]) [s, t] = o + (x * s + y * t) := by
    intros; simp [dot]
  obtain ⟨xs, ys, g1, g2, g3, g4, g5⟩ := prod_cells (zero := zero) (add := add) (mul := mul)
    (a := ⟨lhs, ⟨[M, K], [K, 1], 0⟩⟩) (b := ⟨rhs, ⟨[K, N], [N, 1], 0⟩⟩) (x := []) (y := [])
    (K := K) (i := i) (j := j) (la := fun k => i * K + k) (ra := fun k => k * N + j)
    (fun k hk => by
      have := Nat.lt_of_lt_of_le (hflat hi hk) hl
      simp [Tensor.elem, dot, this])
    (fun k hk => by
      have := Nat.lt_of_lt_of_le (hflat hk hj) hr
      simp [Tensor.elem, dot, this])
  refine ⟨xs, ys, g1, g2, ?_, ?_, ?_⟩
  · intro k hk
    rw [← g3 k hk]
    simp [Tensor.elem, dot]
  · intro k hk
    rw [← g4 k hk]
    simp [Tensor.elem, dot]
  · rw [List.getElem?_map, tilePairs_get hi hj, ← g5]
    rfl

/-- Non-vacuity: three workers on five rows. -/
example :
    (Res.mapL (rowWorker 0 (· + ·) (· * ·) [1, 2, 3, 4, 5, 6, 7, 8, 9, 10] [1, 10] 5 2 1 3)
      (List.range 3)).map (·.map (·.map Prod.fst)) = .ok [[0], [1], [2, 3, 4]] := by decide +kernel

/-! ## Batches -/

theorem matmulBatch_self {batch : List Nat} {M K N : Nat} (hb : batch.length < 2 ^ 31) :
    matmulBatch (batch ++ [M, K]) (batch ++ [K, N]) = .ok batch := by
  unfold matmulBatch
  simp only [List.length_append, List.length_cons, List.length_nil, Nat.zero_add, Nat.reduceAdd,
    Nat.add_sub_cancel, Nat.max_self]
  have h : ∀ (t : List Nat) (i : Nat), i < batch.length →
      batchDim (batch ++ t) batch.length batch.length i = batch.getD i 0 := by
    intro t i hi
    unfold batchDim
    simp only [Int.sub_self, Int.zero_add]
    rw [castUsize_nat (by omega), if_pos hi]
    simp only [List.getD_eq_getElem?_getD]
    rw [List.getElem?_append_left hi]
  rw [Res.mapL_eq_ok_of (g := fun i => batch.getD i 0)]
  · congr 1
    apply List.ext_getElem
    · simp
    · intro i h1 h2
      simp [h2]
  · intro i hi
    have hi : i < batch.length := by simpa using hi
    rw [h _ i hi, h _ i hi]
    simp

theorem decodeMatmul_eq {l r : Layout} {batch : List Nat} {n M K N : Nat}
    (hl : l.strides.length = l.dims.length) (hr : r.strides.length = r.dims.length) :
    decodeMatmul ([n, l.dims.length, r.dims.length, batch.length] ++ l.dims ++ r.dims ++ batch ++
      l.strides ++ r.strides ++ [l.offset, r.offset, M, K, N]) =
      .ok ⟨n, l.dims, r.dims, batch, l.strides, r.strides, l.offset, r.offset, M, K, N⟩ := by
  rw [show [n, l.dims.length, r.dims.length, batch.length] ++ l.dims ++ r.dims ++ batch ++
      l.strides ++ r.strides ++ [l.offset, r.offset, M, K, N] =
    n :: l.dims.length :: r.dims.length :: batch.length :: (l.dims ++ (r.dims ++ (batch ++
      (l.strides ++ (r.strides ++ [l.offset, r.offset, M, K, N]))))) by simp]
  generalize hmd : (n :: l.dims.length :: r.dims.length :: batch.length :: (l.dims ++ (r.dims ++ (batch ++
      (l.strides ++ (r.strides ++ [l.offset, r.offset, M, K, N])))))) = md
  have a0 : At md 0 (n :: l.dims.length :: r.dims.length :: batch.length :: (l.dims ++ (r.dims ++ (batch ++
      (l.strides ++ (r.strides ++ [l.offset, r.offset, M, K, N])))))) := by
    rw [hmd]; exact At.start md
  have a1 := a0.next 1 rfl
  have a2 := a1.next 2 rfl
  have a3 := a2.next 3 rfl
  have a4 := a3.next 4 rfl
  have a5 := a4.skip rfl (4 + l.dims.length) rfl
  have a6 := a5.skip rfl (4 + l.dims.length + r.dims.length) rfl
  have a7 := a6.skip rfl (4 + l.dims.length + r.dims.length + batch.length) rfl
  have a8 := a7.skip hl (4 + l.dims.length + r.dims.length + batch.length + l.dims.length) rfl
  have a9 := a8.skip hr
    (4 + l.dims.length + r.dims.length + batch.length + l.dims.length + r.dims.length) rfl
  have b1 := a9.next _ rfl
  have b2 := b1.next (4 + l.dims.length + r.dims.length + batch.length + l.dims.length + r.dims.length + 2) rfl
  have b3 := b2.next (4 + l.dims.length + r.dims.length + batch.length + l.dims.length + r.dims.length + 3) rfl
  have b4 := b3.next (4 + l.dims.length + r.dims.length + batch.length + l.dims.length + r.dims.length + 4) rfl
  unfold decodeMatmul
  rw [a0.read, Res.ok_bind, a1.read, Res.ok_bind, a2.read, Res.ok_bind, a3.read, Res.ok_bind,
    a4.slice rfl, Res.ok_bind, a5.slice rfl, Res.ok_bind, a6.slice rfl, Res.ok_bind, a7.slice hl,
    Res.ok_bind, a8.slice hr, Res.ok_bind, a9.read, Res.ok_bind, b1.read, Res.ok_bind, b2.read,
    Res.ok_bind, b3.read, Res.ok_bind, b4.read, Res.ok_bind]

/-- The kernel on operands whose batch shapes broadcast to `batch`. -/
theorem matmulKernel_ok {a b : Tensor α} {la lb batch : List Nat} {M K N : Nat} {md : List Nat}
    {buf : List α} (ha : a.WF) (hb : b.WF) (hda : a.dims = la ++ [M, K]) (hdb : b.dims = lb ++ [K, N])
    (hla : BroadcastsTo la batch) (hlb : BroadcastsTo lb batch) (h16 : batch.length ≤ 16)
    (zero : α) (add mul : α → α → α) (cores : Nat) (hbuf : buf.length = numel (batch ++ [M, N]))
    (hmd : decodeMatmul md = .ok ⟨numel (batch ++ [M, N]), a.layout.dims, b.layout.dims, batch,
      a.layout.strides, b.layout.strides, a.layout.offset, b.layout.offset, M, K, N⟩) :
    ∃ s, matmulKernel cores zero add mul a.storage b.storage md buf = .ok s ∧
      IsMatProd zero add mul a b ⟨s, Layout.fromShape (batch ++ [M, N])⟩ la lb batch M K N := by
  have hda' : a.layout.dims = la ++ [M, K] := hda
  have hdb' : b.layout.dims = lb ++ [K, N] := hdb
  have hsla : a.layout.strides.length = la.length + 2 := by rw [ha.1, hda]; simp
  have hslb : b.layout.strides.length = lb.length + 2 := by rw [hb.1, hdb]; simp
  have hsa := split_last2 (xs := a.layout.strides) (by omega)
  have hsb := split_last2 (xs := b.layout.strides) (by omega)
  rw [hsla, show la.length + 2 - 2 = la.length by omega,
    show la.length + 2 - 1 = la.length + 1 by omega] at hsa
  rw [hslb, show lb.length + 2 - 2 = lb.length by omega,
    show lb.length + 2 - 1 = lb.length + 1 by omega] at hsb
  -- addresses
  have hea : ∀ x i k, InRange x la → i < M → k < K → (a.elem (x ++ [i, k])).isSome ∧
      a.layout.offset + dot (x ++ [i, k]) a.layout.strides =
        a.layout.offset + dot x (a.layout.strides.take la.length) +
          i * a.layout.strides.getD la.length 0 + k * a.layout.strides.getD (la.length + 1) 0 := by
    intro x i k hx hi hk
    refine ⟨ha.2 _ (by rw [hda]; exact inRange_mat hx hi hk), ?_⟩
    conv_lhs => rw [hsa]
    rw [dot_append (by rw [hx.length]; simp; omega)]
    simp [dot]; omega
  have heb : ∀ x k j, InRange x lb → k < K → j < N → (b.elem (x ++ [k, j])).isSome ∧
      b.layout.offset + dot (x ++ [k, j]) b.layout.strides =
        b.layout.offset + dot x (b.layout.strides.take lb.length) +
          k * b.layout.strides.getD lb.length 0 + j * b.layout.strides.getD (lb.length + 1) 0 := by
    intro x i k hx hi hk
    refine ⟨hb.2 _ (by rw [hdb]; exact inRange_mat hx hi hk), ?_⟩
    conv_lhs => rw [hsb]
    rw [dot_append (by rw [hx.length]; simp; omega)]
    simp [dot]; omega
  unfold matmulKernel
  rw [hmd, Res.ok_bind]
  generalize hme : (⟨numel (batch ++ [M, N]), a.layout.dims, b.layout.dims, batch, a.layout.strides,
    b.layout.strides, a.layout.offset, b.layout.offset, M, K, N⟩ : MatmulMeta) = me
  have me1 : me.numEls = numel (batch ++ [M, N]) := by rw [← hme]
  have me2 : me.ld = la ++ [M, K] := by rw [← hme, ← hda']
  have me3 : me.rd = lb ++ [K, N] := by rw [← hme, ← hdb']
  have me4 : me.batch = batch := by rw [← hme]
  have me5 : me.ls = a.layout.strides := by rw [← hme]
  have me6 : me.rs = b.layout.strides := by rw [← hme]
  have me7 : me.lo = a.layout.offset := by rw [← hme]
  have me8 : me.ro = b.layout.offset := by rw [← hme]
  have me9 : me.M = M ∧ me.K = K ∧ me.N = N := by rw [← hme]; exact ⟨rfl, rfl, rfl⟩
  obtain ⟨mM, mK, mN⟩ := me9
  have hcomm : ∀ (s : List α) (g : List Nat → Nat → Nat → α), s.length = numel (batch ++ [M, N]) →
      (∀ bi i j, InRange bi batch → i < M → j < N →
        s[rowMajor (batch ++ [M, N]) (bi ++ [i, j])]? = some ((List.range K).foldl (fun acc k =>
          add acc (prodAt zero mul a.storage b.storage
            (a.layout.offset + dot (broadcastIndex la bi) (a.layout.strides.take la.length) +
              i * a.layout.strides.getD la.length 0 + k * a.layout.strides.getD (la.length + 1) 0)
            (b.layout.offset + dot (broadcastIndex lb bi) (b.layout.strides.take lb.length) +
              k * b.layout.strides.getD lb.length 0 + j * b.layout.strides.getD (lb.length + 1) 0)))
          zero)) →
      IsMatProd zero add mul a b ⟨s, Layout.fromShape (batch ++ [M, N])⟩ la lb batch M K N := by
    intro s g hs h
    refine ⟨rfl, fresh_wf hs.symm, ?_⟩
    intro bi i j hbi hi hj
    obtain ⟨xs, ys, g1, g2, g3, g4, g5⟩ := prod_cells (zero := zero) (add := add) (mul := mul)
      (a := a) (b := b) (i := i) (j := j)
      (fun k hk => hea _ i k (broadcastIndex_range hla hbi) hi hk)
      (fun k hk => heb _ k j (broadcastIndex_range hlb hbi) hk hj)
    refine ⟨xs, ys, g1, g2, g3, g4, ?_⟩
    rw [← g5, ← h bi i j hbi hi hj]
    show Tensor.elem ⟨s, ⟨batch ++ [M, N], Layout.computeStrides (batch ++ [M, N]), 0⟩⟩ _ = _
    rw [elem_rowMajor]
    simp
  by_cases hf : me.fast = true
  · rw [if_pos hf]
    have hf' := hf
    simp only [MatmulMeta.fast, Bool.and_eq_true, beq_iff_eq, me2, me3, me4, me5, me6, me7, me8, mK, mN,
      List.length_append, List.length_cons, List.length_nil] at hf'
    obtain ⟨⟨⟨⟨⟨⟨e1, e2⟩, e3⟩, e4⟩, e5⟩, e6⟩, e7⟩ := hf'
    have hbn : batch = [] := List.eq_nil_of_length_eq_zero e7
    subst hbn
    have hlan : la = [] := List.eq_nil_of_length_eq_zero (by simpa using hla.1)
    have hlbn : lb = [] := List.eq_nil_of_length_eq_zero (by simpa using hlb.1)
    subst hlan hlbn
    simp only [List.length_nil, Nat.zero_add, Nat.reduceAdd, Nat.reduceSub] at e1 e2 e3 e4
    have ea : ∀ i k, a.layout.offset + dot (broadcastIndex [] []) (a.layout.strides.take 0) +
        i * a.layout.strides.getD 0 0 + k * a.layout.strides.getD 1 0 = i * K + k := by
      intro i k; rw [e1, e3, e5]; simp [dot]
    have eb : ∀ k j, b.layout.offset + dot (broadcastIndex [] []) (b.layout.strides.take 0) +
        k * b.layout.strides.getD 0 0 + j * b.layout.strides.getD 1 0 = k * N + j := by
      intro i k; rw [e2, e4, e6]; simp [dot]
    have hcell : ∀ i j, i < M → j < N → rowCell zero add mul a.storage b.storage K N i j =
        .ok ((List.range K).foldl (fun acc k =>
          add acc (prodAt zero mul a.storage b.storage (i * K + k) (k * N + j))) zero) := by
      intro i j hi hj
      refine dotSum_ok (fun k hk => ?_) (fun k hk => ?_)
      · have := hea [] i k trivial hi hk
        have h2 := ea i k
        simp only [broadcastIndex, List.zipWith_nil_left] at h2
        simp only [List.length_nil] at this
        rw [← h2, ← this.2]
        exact Tensor.elem_lt this.1
      · have := heb [] k j trivial hk hj
        have h2 := eb k j
        simp only [broadcastIndex, List.zipWith_nil_left] at h2
        simp only [List.length_nil] at this
        rw [← h2, ← this.2]
        exact Tensor.elem_lt this.1
    rw [mM, mK, mN]
    have hfin : ∃ s, (if 1 < rowThreadCount cores M 128 then
          rowThreads zero add mul a.storage b.storage M K N (rowThreadCount cores M 128) buf
        else Res.mapL (fun p : Nat × Nat => rowCell zero add mul a.storage b.storage K N p.1 p.2)
          (tilePairs M N)) = .ok s ∧ s = (tilePairs M N).map fun p =>
            (List.range K).foldl (fun acc k =>
              add acc (prodAt zero mul a.storage b.storage (p.1 * K + k) (k * N + p.2))) zero := by
      by_cases hT : 1 < rowThreadCount cores M 128
      · rw [if_pos hT]
        obtain ⟨wss, h1, h2⟩ := rowThreads_any (rowThreadCount_pos hT)
          (g := fun i j => (List.range K).foldl (fun acc k =>
            add acc (prodAt zero mul a.storage b.storage (i * K + k) (k * N + j))) zero) hcell
        unfold rowThreads
        rw [h1, Res.ok_bind]
        exact ⟨_, h2 _ _ (List.Perm.refl _) (by rw [hbuf]; simp [numel]), rfl⟩
      · rw [if_neg hT]
        refine ⟨_, Res.mapL_eq_ok_of ?_, rfl⟩
        rintro ⟨i, j⟩ hp
        obtain ⟨hi, hj⟩ := mem_tilePairs.mp hp
        exact hcell i j hi hj
    obtain ⟨s, hs, rfl⟩ := hfin
    refine ⟨_, hs, ?_⟩
    apply hcomm _ (fun _ _ _ => zero)
    · rw [List.length_map, tilePairs_length]; simp [numel]
    · intro bi i j hbi hi hj
      have : bi = [] := List.eq_nil_of_length_eq_zero hbi.length
      subst this
      simp only [List.nil_append, List.length_nil, Nat.zero_add, ea, eb]
      rw [show rowMajor [M, N] [i, j] = i * N + j by simp [rowMajor, numel], List.getElem?_map,
        tilePairs_get hi hj]
      rfl
  · rw [if_neg hf]
    unfold guard16
    rw [me4, if_neg (by omega), me1]
    have hval : ∀ bi i j, InRange bi batch → i < M → j < N →
        matmulCell zero add mul a.storage b.storage me (rowMajor (batch ++ [M, N]) (bi ++ [i, j])) =
        .ok ((List.range K).foldl (fun acc k =>
          add acc (prodAt zero mul a.storage b.storage
            (a.layout.offset + dot (broadcastIndex la bi) (a.layout.strides.take la.length) +
              i * a.layout.strides.getD la.length 0 + k * a.layout.strides.getD (la.length + 1) 0)
            (b.layout.offset + dot (broadcastIndex lb bi) (b.layout.strides.take lb.length) +
              k * b.layout.strides.getD lb.length 0 + j * b.layout.strides.getD (lb.length + 1) 0)))
          zero) := by
      intro bi i j hbi hi hj
      have hrm : rowMajor (batch ++ [M, N]) (bi ++ [i, j]) =
          i * N + j + rowMajor batch bi * (M * N) := by
        rw [rowMajor_append hbi.length]
        simp [rowMajor, numel]; omega
      have hlt : i * N + j < M * N := by
        calc i * N + j < i * N + N := by omega
          _ = (i + 1) * N := (Nat.succ_mul i N).symm
          _ ≤ M * N := Nat.mul_le_mul_right _ hi
      have q1 : (i * N + j + rowMajor batch bi * (M * N)) % (M * N) = i * N + j := by
        rw [Nat.add_mul_mod_self_right, Nat.mod_eq_of_lt hlt]
      have q2 : (i * N + j + rowMajor batch bi * (M * N)) / (M * N) = rowMajor batch bi := by
        rw [Nat.add_mul_div_right _ _ (by omega), Nat.div_eq_of_lt hlt]; omega
      have q3 : (i * N + j) / N = i := by
        rw [Nat.add_comm, Nat.add_mul_div_right _ _ (by omega), Nat.div_eq_of_lt hj]; omega
      have q4 : (i * N + j) % N = j := by
        rw [Nat.add_comm, Nat.add_mul_mod_self_right, Nat.mod_eq_of_lt hj]
      have hbl := hbi.length
      have hl1 : la.length ≤ bi.length := by rw [hbl]; exact hla.1
      have hl2 : lb.length ≤ bi.length := by rw [hbl]; exact hlb.1
      unfold matmulCell
      simp only [mM, mK, mN, me2, me3, me4, me5, me6, me7, me8, hrm, q1, q2, q3, q4,
        cUnravel_rowMajor hbi, List.length_append, List.length_cons, List.length_nil, Nat.zero_add,
        Nat.reduceAdd, Nat.add_sub_cancel, batchIdx_eq hl1, batchIdx_eq hl2, cFlat_eq]
      refine dotSum_ok (fun k hk => ?_) (fun k hk => ?_)
      · have := hea _ i k (broadcastIndex_range hla hbi) hi hk
        rw [← this.2]
        exact Tensor.elem_lt this.1
      · have := heb _ k j (broadcastIndex_range hlb hbi) hk hj
        rw [← this.2]
        exact Tensor.elem_lt this.1
    obtain ⟨s, h1, h2, h3⟩ := runLoop_elem (out := batch ++ [M, N])
      (val := matmulCell zero add mul a.storage b.storage me) (by
        intro idx hidx
        obtain ⟨bi, i, j, rfl, g1, g2, g3⟩ := inRange_mat_split hidx
        exact ⟨_, hval bi i j g1 g2 g3⟩)
    refine ⟨s, h1, hcomm s (fun _ _ _ => zero) h2 ?_⟩
    intro bi i j hbi hi hj
    rw [← h3 _ (inRange_mat hbi hi hj) _ (hval bi i j hbi hi hj)]
    show _ = Tensor.elem ⟨s, ⟨batch ++ [M, N], Layout.computeStrides (batch ++ [M, N]), 0⟩⟩ _
    rw [elem_rowMajor]
    simp

theorem broadcastsTo_mat {la batch : List Nat} {M K : Nat} :
    BroadcastsTo (la ++ [M, K]) (batch ++ [M, K]) ↔ BroadcastsTo la batch := by
  constructor
  · rintro ⟨h1, h2⟩
    refine ⟨by simpa using h1, ?_⟩
    intro k d hk
    have hlt : k < la.length := (List.getElem?_eq_some_iff.mp hk).1
    have hl : la.length ≤ batch.length := by simpa using h1
    have := h2 k d (by rw [List.getElem?_append_left hlt]; exact hk)
    simp only [List.length_append, List.length_cons, List.length_nil] at this
    rw [show batch.length + (0 + 1 + 1) - (la.length + (0 + 1 + 1)) = batch.length - la.length by omega,
      List.getElem?_append_left (by omega)] at this
    exact this
  · rintro ⟨h1, h2⟩
    refine ⟨by simpa using h1, ?_⟩
    intro k d hk
    simp only [List.length_append, List.length_cons, List.length_nil]
    rw [show batch.length + (0 + 1 + 1) - (la.length + (0 + 1 + 1)) = batch.length - la.length by omega]
    by_cases hlt : k < la.length
    · rw [List.getElem?_append_left hlt] at hk
      rw [List.getElem?_append_left (by omega)]
      exact h2 k d hk
    · rw [List.getElem?_append_right (by omega)] at hk
      rw [List.getElem?_append_right (by omega)]
      rw [show k + (batch.length - la.length) - batch.length = k - la.length by omega]
      exact Or.inr hk

/-- `matmul_batched` on operands whose batch shapes have the common shape `batch`. -/
theorem matmulBatched_ok {a b : Tensor α} {la lb batch : List Nat} {M K N : Nat} (ha : a.WF) (hb : b.WF)
    (hda : a.dims = la ++ [M, K]) (hdb : b.dims = lb ++ [K, N])
    (hbc : Tensor.broadcastDims la lb = .ok batch) (hla : BroadcastsTo la batch)
    (hlb : BroadcastsTo lb batch) (h16 : batch.length ≤ 16)
    (zero : α) (add mul : α → α → α) (cores : Nat) :
    ∃ c, a.matmulBatched cores zero add mul b = .ok c ∧ IsMatProd zero add mul a b c la lb batch M K N := by
  obtain ⟨a', a1, a2, a3, a4⟩ := (C05_broadcast ha (batch ++ [M, K])).2
    (by rw [hda]; exact broadcastsTo_mat.mpr hla)
  obtain ⟨b', b1, b2, b3, b4⟩ := (C05_broadcast hb (batch ++ [K, N])).2
    (by rw [hdb]; exact broadcastsTo_mat.mpr hlb)
  have a2' : a'.layout.dims = batch ++ [M, K] := a2
  have b2' : b'.layout.dims = batch ++ [K, N] := b2
  have hself : BroadcastsTo batch batch := ⟨Nat.le_refl _, by
    intro k d hk; right; simpa using hk⟩
  let md := [numel (batch ++ [M, N]), a'.layout.dims.length, b'.layout.dims.length, batch.length] ++
    a'.layout.dims ++ b'.layout.dims ++ batch ++ a'.layout.strides ++ b'.layout.strides ++
    [a'.layout.offset, b'.layout.offset, M, K, N]
  have hg : ∀ (x y : Nat), (batch ++ [x, y]).getD ((batch ++ [x, y]).length - 2) 0 = x ∧
      (batch ++ [x, y]).getD ((batch ++ [x, y]).length - 1) 0 = y := by
    intro x y
    constructor
    · simp [List.getD_eq_getElem?_getD]
    · simp only [List.getD_eq_getElem?_getD, List.length_append, List.length_cons, List.length_nil]
      rw [List.getElem?_append_right (by omega)]
      rw [show batch.length + (0 + 1 + 1) - 1 - batch.length = 1 by omega]
      rfl
  have hmd : matmulMetadata a'.layout b'.layout (numel (batch ++ [M, N])) = .ok md := by
    unfold matmulMetadata
    simp only [Layout.ndim, a2', b2', (hg M K).1, (hg M K).2, (hg K N).1, (hg K N).2]
    rw [if_neg (by simp), if_neg (by simp), matmulBatch_self (by omega)]
    simp only [md, a2', b2', Res.ok_bind]
  obtain ⟨s, s1, s2⟩ := matmulKernel_ok (md := md) (la := batch) (lb := batch)
    (buf := List.replicate (numel (batch ++ [M, N])) zero) a3 b3 a2 b2 hself hself h16
    zero add mul cores (by simp) (decodeMatmul_eq a3.1 b3.1)
  have hcall : callOpsMatmul cores zero add mul a' b' = .ok s := by
    unfold callOpsMatmul
    simp only [Layout.ndim, a2', b2', (hg M K).1, (hg M K).2, (hg K N).1, (hg K N).2]
    rw [if_neg (by simp), if_neg (by simp), matmulBatch_self (by omega), Res.ok_bind]
    simp only [shapeSize_eq]
    rw [hmd, Res.ok_bind, s1]
  refine ⟨⟨s, Layout.fromShape (batch ++ [M, N])⟩, ?_, s2.1, s2.2.1, ?_⟩
  · unfold Tensor.matmulBatched
    have hg2 : ∀ (l : List Nat) (x y : Nat), (l ++ [x, y]).getD ((l ++ [x, y]).length - 2) 0 = x ∧
        (l ++ [x, y]).getD ((l ++ [x, y]).length - 1) 0 = y ∧
        (l ++ [x, y]).take ((l ++ [x, y]).length - 2) = l := by
      intro l x y
      refine ⟨by simp [List.getD_eq_getElem?_getD], ?_, by simp⟩
      simp only [List.getD_eq_getElem?_getD, List.length_append, List.length_cons, List.length_nil]
      rw [List.getElem?_append_right (by omega)]
      rw [show l.length + (0 + 1 + 1) - 1 - l.length = 1 by omega]
      rfl
    simp only [hda, hdb, (hg2 la M K).1, (hg2 la M K).2.1, (hg2 la M K).2.2, (hg2 lb K N).1,
      (hg2 lb K N).2.1, (hg2 lb K N).2.2]
    rw [if_neg (by simp), if_neg (by simp), hbc, Res.ok_bind, a1, Res.ok_bind, b1, Res.ok_bind, hcall,
      Res.ok_bind]
  · intro bi i j hbi hi hj
    obtain ⟨xs, ys, g1, g2, g3, g4, g5⟩ := s2.2.2 bi i j hbi hi hj
    have hla' : la.length ≤ bi.length := by rw [hbi.length]; exact hla.1
    have hlb' : lb.length ≤ bi.length := by rw [hbi.length]; exact hlb.1
    refine ⟨xs, ys, g1, g2, ?_, ?_, g5⟩
    · intro k hk
      rw [← g3 k hk, broadcastIndex_self hbi, (a4 _ (inRange_mat hbi hi hk)).2, hda,
        broadcastIndex_append hla' hi hk]
    · intro k hk
      rw [← g4 k hk, broadcastIndex_self hbi, (b4 _ (inRange_mat hbi hk hj)).2, hdb,
        broadcastIndex_append hlb' hk hj]

theorem matmul_rank {a b : Tensor α} {la lb : List Nat} {M K K' N : Nat} (zero : α) (add mul : α → α → α)
    (cores : Nat) (hda : a.dims = la ++ [M, K]) (hdb : b.dims = lb ++ [K', N]) :
    a.matmul cores zero add mul b =
      if la = [] ∧ lb = [] then a.dot2d cores zero add mul b else a.matmulBatched cores zero add mul b := by
  unfold Tensor.matmul
  rw [hda, hdb]
  have hex : ∀ (l : List Nat) (x y : Nat), ∃ p q r, l ++ [x, y] = p :: q :: r := by
    intro l x y
    match l with
    | [] => exact ⟨_, _, _, rfl⟩
    | [p] => exact ⟨_, _, _, rfl⟩
    | p :: q :: r => exact ⟨_, _, _, rfl⟩
  obtain ⟨p, q, r, h1⟩ := hex la.tail M K
  obtain ⟨p', q', r', h2⟩ := hex lb.tail K' N
  match la, lb, h1, h2 with
  | [], [], _, _ => rfl
  | [], x :: l, _, h2 =>
    simp only [List.tail_cons] at h2
    simp only [List.cons_append, h2]
    rfl
  | x :: l, [], h1, _ =>
    simp only [List.tail_cons] at h1
    simp only [List.cons_append, h1]
    rfl
  | x :: l, x' :: l', h1, h2 =>
    simp only [List.tail_cons] at h1 h2
    simp only [List.cons_append, h1, h2]
    rfl

/-- The full claim: for all well-formed operands of rank at least 2. -/
def Spec.MatmulCorrect (α : Type) : Prop :=
  ∀ (a b : Tensor α) (la lb : List Nat) (M K K' N : Nat) (zero : α) (add mul : α → α → α) (cores : Nat),
    a.WF → b.WF → a.dims = la ++ [M, K] → b.dims = lb ++ [K', N] →
    ((K ≠ K' ∨ ¬ Compatible la lb) → a.matmul cores zero add mul b = .err) ∧
    (K = K' → Compatible la lb → ∃ batch c, CommonShape la lb batch ∧
      a.matmul cores zero add mul b = .ok c ∧ IsMatProd zero add mul a b c la lb batch M K N)

/-- **C32 for batches**: all well-formed operands of rank at least 2 (any layout), any number of cores:
an error exactly if the inner sizes differ or the batch shapes are incompatible, otherwise the batched
matrix product.  Missing: batch dimensions of size 0 (`C32_zero_batch_wrong`) and more than 16 batch
dimensions (`C32_rank_wrong`); for both the claim is false. -/
theorem C32_matmul_partial {a b : Tensor α} {la lb : List Nat} {M K K' N : Nat} (zero : α)
    (add mul : α → α → α) (cores : Nat) (ha : a.WF) (hb : b.WF) (hda : a.dims = la ++ [M, K])
    (hdb : b.dims = lb ++ [K', N]) (hpa : ∀ d ∈ la, 0 < d) (hpb : ∀ d ∈ lb, 0 < d)
    (h16 : la.length ≤ 16 ∧ lb.length ≤ 16) :
    ((K ≠ K' ∨ ¬ Compatible la lb) → a.matmul cores zero add mul b = .err) ∧
    (K = K' → Compatible la lb → ∃ batch c, CommonShape la lb batch ∧
      a.matmul cores zero add mul b = .ok c ∧ IsMatProd zero add mul a b c la lb batch M K N) := by
  obtain ⟨hok, herr⟩ := C06_broadcast_dims_partial la lb hpa hpb
  rw [matmul_rank zero add mul cores hda hdb]
  by_cases hnil : la = [] ∧ lb = []
  · rw [if_pos hnil]
    obtain ⟨rfl, rfl⟩ := hnil
    have hc : CommonShape [] [] [] := by
      obtain ⟨out, h1, h2⟩ := hok (fun k => Or.inl rfl)
      have : out = [] := List.eq_nil_of_length_eq_zero (by simpa using h2.1)
      exact this ▸ h2
    have hcomp : Compatible [] [] := fun k => Or.inl rfl
    obtain ⟨d1, d2⟩ := C32_dot ha hb hda hdb zero add mul cores
    have hm : a.matmul cores zero add mul b = a.dot2d cores zero add mul b := by
      rw [matmul_rank zero add mul cores hda hdb, if_pos ⟨rfl, rfl⟩]
    rw [← hm]
    refine ⟨?_, ?_⟩
    · rintro (h | h)
      · exact d1 h
      · exact absurd hcomp h
    · intro h _
      obtain ⟨c, c1, c2⟩ := d2 h
      exact ⟨[], c, hc, c1, c2⟩
  · rw [if_neg hnil]
    have hg2 : ∀ (l : List Nat) (x y : Nat), (l ++ [x, y]).getD ((l ++ [x, y]).length - 2) 0 = x ∧
        (l ++ [x, y]).getD ((l ++ [x, y]).length - 1) 0 = y ∧
        (l ++ [x, y]).take ((l ++ [x, y]).length - 2) = l := by
      intro l x y
      refine ⟨by simp [List.getD_eq_getElem?_getD], ?_, by simp⟩
      simp only [List.getD_eq_getElem?_getD, List.length_append, List.length_cons, List.length_nil]
      rw [List.getElem?_append_right (by omega)]
      rw [show l.length + (0 + 1 + 1) - 1 - l.length = 1 by omega]
      rfl
    constructor
    · intro h
      unfold Tensor.matmulBatched
      simp only [hda, hdb, (hg2 la M K).1, (hg2 la M K).2.1, (hg2 la M K).2.2, (hg2 lb K' N).1,
        (hg2 lb K' N).2.1, (hg2 lb K' N).2.2]
      rw [if_neg (by simp)]
      by_cases hk : K ≠ K'
      · rw [if_pos hk]
      · rw [if_neg hk, herr (h.resolve_left hk)]; rfl
    · rintro rfl hcomp
      obtain ⟨batch, h1, h2⟩ := hok hcomp
      obtain ⟨c, c1, c2⟩ := matmulBatched_ok ha hb hda hdb h1 (broadcastsTo_left h2)
        (broadcastsTo_right hcomp h2) (by rw [h2.1]; omega) zero add mul cores
      exact ⟨batch, c, h2, c1, c2⟩

/-- Non-vacuity: batch shapes `[2, 1]` and `[3]`, the left operand a transposed view. -/
example :
    let a : Tensor Nat := ⟨[1, 2, 3, 4], ⟨[2, 1, 1, 2], [1, 4, 4, 2], 0⟩⟩
    let b : Tensor Nat := ⟨[1, 10, 2, 20, 3, 30], ⟨[3, 2, 1], [2, 1, 1], 0⟩⟩
    (∀ d ∈ [2, 1], 0 < d) ∧ Tensor.broadcastDims [2, 1] [3] = .ok [2, 3] ∧
    (a.matmul 8 0 (· + ·) (· * ·) b).map (fun c => (c.dims, c.storage)) =
      .ok ([2, 3, 1, 1], [31, 62, 93, 42, 84, 126]) := by decide +kernel

/-- Errors: inner sizes, batch sizes. -/
example :
    let a : Tensor Nat := ⟨[1, 2, 3, 4], ⟨[2, 1, 2], [2, 2, 1], 0⟩⟩
    let b : Tensor Nat := ⟨[1, 2, 3, 4, 5, 6], ⟨[3, 2, 1], [2, 1, 1], 0⟩⟩
    let c : Tensor Nat := ⟨[1, 2, 3, 4, 5, 6], ⟨[2, 3, 1], [3, 1, 1], 0⟩⟩
    a.matmul 8 0 (· + ·) (· * ·) b = .err ∧ a.matmul 8 0 (· + ·) (· * ·) c = .err := by decide +kernel

theorem WF_of_numel_zero {t : Tensor α} (hs : t.layout.strides.length = t.dims.length)
    (h : numel t.dims = 0) : t.WF :=
  ⟨hs, fun _ hi => absurd (rowMajor_lt hi) (by omega)⟩

/-- **C32 is false for a batch dimension of size 0 against size 1**: the batch shapes `[0]` and `[1]`
are compatible (common shape `[0]`) but `matmul` fails. -/
theorem C32_zero_batch_wrong :
    ∃ a b : Tensor Nat, a.WF ∧ b.WF ∧ a.dims = [0] ++ [1, 1] ∧ b.dims = [1] ++ [1, 1] ∧
      Compatible [0] [1] ∧ ∀ cores, a.matmul cores 0 (· + ·) (· * ·) b = .err := by
  refine ⟨⟨[], ⟨[0, 1, 1], [1, 1, 1], 0⟩⟩, ⟨[5], Layout.fromShape [1, 1, 1]⟩,
    WF_of_numel_zero rfl rfl, fresh_wf (by decide), rfl, rfl, ?_, ?_⟩
  · intro k
    match k with
    | 0 => exact Or.inr (Or.inr rfl)
    | k + 1 => exact Or.inl (by simp [dimFromRight])
  · intro cores
    rfl

/-- **C32 is false for more than 16 batch dimensions**: the kernel's index array has 16 entries, so the
product of two tensors of rank 19 is undefined behaviour. -/
theorem C32_rank_wrong :
    ∃ a b : Tensor Nat, a.WF ∧ b.WF ∧ a.dims = List.replicate 17 1 ++ [1, 1] ∧
      b.dims = List.replicate 17 1 ++ [1, 1] ∧ a.matmul 1 0 (· + ·) (· * ·) b = .ub :=
  ⟨⟨[2], Layout.fromShape (List.replicate 17 1 ++ [1, 1])⟩,
    ⟨[5], Layout.fromShape (List.replicate 17 1 ++ [1, 1])⟩, fresh_wf (by decide), fresh_wf (by decide),
    rfl, rfl, by decide +kernel⟩

/-- The full claim does not hold. -/
theorem C32_full_false : ¬ Spec.MatmulCorrect Nat := by
  intro h
  obtain ⟨a, b, ha, hb, hda, hdb, hc, he⟩ := C32_zero_batch_wrong
  obtain ⟨_, c, _, hok, _⟩ := (h a b [0] [1] 1 1 1 1 0 (· + ·) (· * ·) 1 ha hb hda hdb).2 rfl hc
  rw [he 1] at hok
  cases hok

/-! ## Vectors -/

/-- **C32, matrix times vector**: an error exactly if the inner sizes differ. -/
theorem C32_matvec {a v : Tensor α} {M K K' : Nat} (ha : a.WF) (hv : v.WF) (hda : a.dims = [M, K])
    (hdv : v.dims = [K']) (zero : α) (add mul : α → α → α) (cores : Nat) :
    (K ≠ K' → a.matmul cores zero add mul v = .err) ∧
    (K = K' → ∃ c, a.matmul cores zero add mul v = .ok c ∧ c.WF ∧ c.dims = [M] ∧
      ∀ i, i < M → ∃ xs ys : List α, xs.length = K ∧ ys.length = K ∧
        (∀ k, k < K → a.elem [i, k] = xs[k]?) ∧ (∀ k, k < K → v.elem [k] = ys[k]?) ∧
        c.elem [i] = some (sumProd zero add mul xs ys)) := by
  have hm : a.matmul cores zero add mul v = if K ≠ K' then .err
      else (v.reshape [K', 1]).bind fun b' => (a.dot2d cores zero add mul b').bind fun r =>
        r.squeeze [-1] := by
    unfold Tensor.matmul
    rw [hda, hdv]
  rw [hm]
  constructor
  · intro h; rw [if_pos h]
  · rintro rfl
    rw [if_neg (by simp)]
    obtain ⟨w, w1, w2, w3, w4⟩ := (C02_reshape hv [K, 1]).2 (by rw [hdv]; simp [numel])
    obtain ⟨r, r1, r2, r3, r4⟩ := (C32_dot ha w3 hda w2 zero add mul cores).2 rfl
    rw [matmul_rank zero add mul cores (la := []) (lb := []) hda w2, if_pos ⟨rfl, rfl⟩] at r1
    simp only [List.nil_append] at r2
    obtain ⟨c, c1, c2, c3, c4⟩ := (C07_squeeze_partial r3 [-1] (by simp) (by rw [r2]; simp)
      (by simp [I32])).2 [1] rfl (by simp)
      (by
        intro k h1 h2
        have : k = 0 := by simpa using h1
        subst this
        rw [r2]
        simp [IsAxis]) (by rw [r2]; simp)
    rw [r2] at c3 c4
    have hd : c.dims = [M] := c3
    refine ⟨c, by rw [w1, Res.ok_bind, r1, Res.ok_bind, c1], c2, hd, ?_⟩
    intro i hi
    obtain ⟨xs, ys, g1, g2, g3, g4, g5⟩ := r4 [] i 0 trivial hi (by omega)
    refine ⟨xs, ys, g1, g2, g3, ?_, ?_⟩
    · intro k hk
      rw [← g4 k hk]
      symm
      apply w4
      · rw [hdv]; exact ⟨hk, trivial⟩
      · exact ⟨hk, by omega, trivial⟩
      · rw [hdv]; simp [rowMajor, numel, broadcastIndex]
    · rw [← g5]
      apply c4
      · exact ⟨hi, by omega, trivial⟩
      · rw [hd]; exact ⟨hi, trivial⟩
      · rw [hd]; simp [rowMajor, numel]

example :
    let a : Tensor Nat := ⟨[1, 2, 3, 4, 5, 6], ⟨[3, 2], [1, 3], 0⟩⟩
    let v : Tensor Nat := ⟨[9, 7, 9, 8], ⟨[2], [2], 1⟩⟩
    a.dims = [3, 2] ∧ v.dims = [2] ∧
    (a.matmul 8 0 (· + ·) (· * ·) v).map (fun c => (c.dims, c.storage)) =
      .ok ([3], [7 + 32, 14 + 40, 21 + 48]) := by decide +kernel

/-- **C32, vector times matrix**. -/
theorem C32_vecmat {v b : Tensor α} {K K' N : Nat} (hv : v.WF) (hb : b.WF) (hdv : v.dims = [K])
    (hdb : b.dims = [K', N]) (zero : α) (add mul : α → α → α) (cores : Nat) :
    (K ≠ K' → v.matmul cores zero add mul b = .err) ∧
    (K = K' → ∃ c, v.matmul cores zero add mul b = .ok c ∧ c.WF ∧ c.dims = [N] ∧
      ∀ j, j < N → ∃ xs ys : List α, xs.length = K ∧ ys.length = K ∧
        (∀ k, k < K → v.elem [k] = xs[k]?) ∧ (∀ k, k < K → b.elem [k, j] = ys[k]?) ∧
        c.elem [j] = some (sumProd zero add mul xs ys)) := by
  have hm : v.matmul cores zero add mul b = if K ≠ K' then .err
      else (v.reshape [1, K]).bind fun a' => (a'.dot2d cores zero add mul b).bind fun r =>
        r.squeeze [0] := by
    unfold Tensor.matmul
    rw [hdb, hdv]
  rw [hm]
  constructor
  · intro h; rw [if_pos h]
  · rintro rfl
    rw [if_neg (by simp)]
    obtain ⟨w, w1, w2, w3, w4⟩ := (C02_reshape hv [1, K]).2 (by rw [hdv]; simp [numel])
    obtain ⟨r, r1, r2, r3, r4⟩ := (C32_dot w3 hb w2 hdb zero add mul cores).2 rfl
    rw [matmul_rank zero add mul cores (la := []) (lb := []) w2 hdb, if_pos ⟨rfl, rfl⟩] at r1
    simp only [List.nil_append] at r2
    obtain ⟨c, c1, c2, c3, c4⟩ := (C07_squeeze_partial r3 [0] (by simp) (by rw [r2]; simp)
      (by simp [I32])).2 [0] rfl (by simp)
      (by
        intro k h1 h2
        have : k = 0 := by simpa using h1
        subst this
        rw [r2]
        simp [IsAxis]) (by rw [r2]; simp)
    rw [r2] at c3 c4
    have hd : c.dims = [N] := c3
    refine ⟨c, by rw [w1, Res.ok_bind, r1, Res.ok_bind, c1], c2, hd, ?_⟩
    intro j hj
    obtain ⟨xs, ys, g1, g2, g3, g4, g5⟩ := r4 [] 0 j trivial (by omega) hj
    refine ⟨xs, ys, g1, g2, ?_, g4, ?_⟩
    · intro k hk
      rw [← g3 k hk]
      symm
      apply w4
      · rw [hdv]; exact ⟨hk, trivial⟩
      · exact ⟨by omega, hk, trivial⟩
      · rw [hdv]; simp [rowMajor, numel, broadcastIndex]
    · rw [← g5]
      apply c4
      · exact ⟨by omega, hj, trivial⟩
      · rw [hd]; exact ⟨hj, trivial⟩
      · rw [hd]; simp [rowMajor, numel]

example :
    let v : Tensor Nat := ⟨[9, 7, 9, 8], ⟨[2], [2], 1⟩⟩
    let b : Tensor Nat := ⟨[1, 2, 3, 4, 5, 6], ⟨[2, 3], [1, 2], 0⟩⟩
    v.dims = [2] ∧ b.dims = [2, 3] ∧
    (v.matmul 8 0 (· + ·) (· * ·) b).map (fun c => (c.dims, c.storage)) =
      .ok ([3], [7 + 16, 21 + 32, 35 + 48]) := by decide +kernel

/-- **The inner product of two vectors is wrong when the first is a slice**: the product tensor keeps
the offset of the first operand over a fresh buffer, so the sum reads past its end. -/
theorem C32_vecdot_slice_wrong :
    ∃ v : Tensor Nat, v.WF ∧ v.dims = [2] ∧ v.elem [0] = some 3 ∧ v.elem [1] = some 4 ∧
      v.matmul 1 0 (· + ·) (· * ·) v = .ub := by
  refine ⟨⟨[1, 2, 3, 4], ⟨[2], [1], 2⟩⟩, ⟨rfl, ?_⟩, rfl, rfl, rfl, by decide +kernel⟩
  intro idx h
  match idx, h with
  | [i], h =>
    have : i < 2 := h.1
    interval_cases i <;> decide

/-- A scalar operand and a mix of a vector with rank 3 or more are errors. -/
theorem C32_rank_errors {a b : Tensor α} (zero : α) (add mul : α → α → α) (cores : Nat) :
    (a.dims = [] ∨ b.dims = [] → a.matmul cores zero add mul b = .err) ∧
    (a.dims.length = 1 → 3 ≤ b.dims.length → a.matmul cores zero add mul b = .err) ∧
    (3 ≤ a.dims.length → b.dims.length = 1 → a.matmul cores zero add mul b = .err) := by
  refine ⟨?_, ?_, ?_⟩
  · unfold Tensor.matmul
    rintro (h | h)
    · rw [h]
    · rw [h]
      match a.dims with
      | [] => rfl
      | _ :: _ => rfl
  · intro h1 h2
    unfold Tensor.matmul
    match ha : a.dims, hb : b.dims, h1, h2 with
    | [x], y :: z :: w :: l, _, _ => simp [Tensor.matmulBatched, ha]
  · intro h1 h2
    unfold Tensor.matmul
    match ha : a.dims, hb : b.dims, h1, h2 with
    | y :: z :: w :: l, [x], _, _ => simp [Tensor.matmulBatched, hb]

example : (⟨[1, 2], ⟨[2], [1], 0⟩⟩ : Tensor Nat).matmul 1 0 (· + ·) (· * ·)
    ⟨[1, 2], ⟨[1, 2, 1], [2, 1, 1], 0⟩⟩ = .err := by decide +kernel

end Hodu
