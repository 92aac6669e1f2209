import Verif.Lemmas.TypedMat
import Verif.Props.Selection

/-!
# C87: the linear layer and attention

`Linear` computes `x · Wᵀ + b` row by row.  `scaled_dot_product_attention` computes
`softmax(Q Kᵀ / √d) V` for tensors of type `f64`, without masks; multi-head attention applies it to the
slices of the projections.  For every other element type the scaling is rejected.  The causal mask marks
the right positions, but `masked_fill` fills the others (C85).
-/

open Finset

namespace Hodu
open Spec

/-! ## Specification -/

/-- One output of a linear layer: the product of row `o` of the weight with the input, plus the bias. -/
noncomputable def Spec.linearAt (K : Nat) (W : List Nat → ℝ) (B : List Nat → ℝ) (x : Nat → ℝ) (o : Nat) :
    ℝ := ∑ k ∈ range K, x k * W [o, k] + B [o]

/-- The scaled score of a query `q` and a key. -/
noncomputable def Spec.score (dk : Nat) (q key : Nat → ℝ) : ℝ := (∑ d ∈ range dk, q d * key d) / √dk

/-- What a query attends to: the average of the values `v t` of the allowed positions, weighted with
the exponentials of the scores. -/
noncomputable def Spec.attended (n : Nat) (s : Nat → ℝ) (allowed : Nat → Prop) [DecidablePred allowed]
    (v : Nat → ℝ) : ℝ :=
  (∑ t ∈ (range n).filter allowed, Real.exp (s t) * v t) /
    ∑ t ∈ (range n).filter allowed, Real.exp (s t)

/-- The bias of a layer: `B`, or zero if it has none. -/
def BiasVal (b : Option (TT ℝ)) (dt : DType) (O : Nat) (B : List Nat → ℝ) : Prop :=
  match b with
  | none => ∀ i, B i = 0
  | some b => TVal b dt [O] B

variable {E : Rt ℝ} {dt : DType}

/-! ## Linear -/

theorem dropLast_snoc2 (b : List Nat) (i j : Nat) : (b ++ [i, j]).dropLast = b ++ [i] := by
  rw [show b ++ [i, j] = (b ++ [i]) ++ [j] by simp, List.dropLast_concat]

theorem getLastD_snoc2 (b : List Nat) (i j : Nat) : (b ++ [i, j]).getLastD 0 = j := by simp

theorem drop_snoc2 {b l : List Nat} (hb : InRange b l) (i j : Nat) :
    (b ++ [i, j]).drop (l ++ [i]).length = [j] := by
  rw [← show b.length + 1 = (l ++ [i]).length by simp [hb.length],
    show b ++ [i, j] = (b ++ [i]) ++ [j] by simp, List.drop_left' (by simp)]

/-- `Linear::forward` (`transpose(-2, -1)`) and the projections of attention (`transpose(0, 1)`): each
row of the input is multiplied with the rows of the weight and the bias is added.  Missing: inputs of
rank 1, floating-point rounding, layers with dimensions of size 0. -/
theorem C87_linear_partial (hE : E.Real) (hf : dt.isFloat = true) {p q : Int}
    (hp : (p = -2 ∧ q = -1) ∨ (p = 0 ∧ q = 1)) {x w : TT ℝ} {b : Option (TT ℝ)} {lead : List Nat}
    {M K O : Nat} {X W B : List Nat → ℝ} (hx : TVal x dt (lead ++ [M, K]) X) (hw : TVal w dt [O, K] W)
    (hb : BiasVal b dt O B) (hpl : ∀ d ∈ lead, 0 < d) (hM : 0 < M) (hO : 0 < O) (h16 : lead.length ≤ 16) :
    ∃ r, E.linear p q w b x = .ok r ∧ TVal r dt (lead ++ [M, O]) (fun idx =>
      linearAt K W B (fun k => X (idx.dropLast ++ [k])) (idx.getLastD 0)) := by
  obtain ⟨wt, w1, w2⟩ := hw.transposeW hp
  obtain ⟨o, o1, o2⟩ := TVal.matmul hE hf (lb := []) hx w2 hpl (by simp) h16 ⟨by simp, by simp⟩
  have o3 : TVal o dt (lead ++ [M, O]) (fun idx =>
      ∑ k ∈ range K, X (idx.dropLast ++ [k]) * W [idx.getLastD 0, k]) := o2.congr fun idx hi => by
    obtain ⟨bi, i, j, rfl, hbi, hi, hj⟩ := inRange_mat_split hi
    rw [at2_append hbi.length, dropLast_snoc2, getLastD_snoc2]
    refine Finset.sum_congr rfl fun k _ => ?_
    have : broadcastIndex [] bi = [] := by simp [broadcastIndex]
    simp [this]
  cases b with
  | none =>
    refine ⟨o, by simp [Rt.linear, w1, o1], o3.congr fun idx _ => ?_⟩
    simp [linearAt, show B [_] = 0 from hb _]
  | some b =>
    have hb : TVal b dt [O] B := hb
    have ho : lead ++ [M, O] = (lead ++ [M]) ++ [O] := by simp
    obtain ⟨r, r1, r2⟩ := TVal.bin E hf (o := .add) (by simp) o3 hb
      (by rw [ho]; exact broadcastsTo_trailing _ _) (by
        intro d hd
        simp only [List.mem_append, List.mem_cons, List.not_mem_nil, or_false] at hd
        rcases hd with hd | rfl | rfl
        · exact hpl d hd
        · exact hM
        · exact hO) (by simpa using hO)
    refine ⟨r, by simp [Rt.linear, w1, o1, r1], r2.congr fun idx hi => ?_⟩
    obtain ⟨k, κ, lo, hi', hA⟩ := hE
    rw [broadcastIndex_trailing (lead := lead ++ [M]) (by rw [← ho]; exact hi), hA]
    obtain ⟨bi, i, j, rfl, hbi, hi, hj⟩ := inRange_mat_split hi
    rw [getLastD_snoc2, dropLast_snoc2]
    have hd : (bi ++ [i, j]).drop (lead ++ [M]).length = [j] := by
      rw [show bi ++ [i, j] = (bi ++ [i]) ++ [j] by simp, List.drop_left' (by simp [hbi.length])]
    rw [hd]
    rfl

/-- The layer on a single vector. -/
theorem C87_linear_vector (hE : E.Real) (hf : dt.isFloat = true) {p q : Int}
    (hp : (p = -2 ∧ q = -1) ∨ (p = 0 ∧ q = 1)) {x w : TT ℝ} {b : Option (TT ℝ)}
    {K O : Nat} {X W B : List Nat → ℝ} (hx : TVal x dt [K] X) (hw : TVal w dt [O, K] W)
    (hb : BiasVal b dt O B) (hO : 0 < O) :
    ∃ r, E.linear p q w b x = .ok r ∧ TVal r dt [O] (fun idx =>
      linearAt K W B (fun k => X [k]) (idx.getD 0 0)) := by
  obtain ⟨wt, w1, w2⟩ := hw.transposeW hp
  obtain ⟨o, o1, o2⟩ := TVal.vecmat hE hf hx w2
  cases b with
  | none =>
    refine ⟨o, by simp [Rt.linear, w1, o1], o2.congr fun idx _ => ?_⟩
    simp [linearAt, show B [_] = 0 from hb _]
  | some b =>
    have hb : TVal b dt [O] B := hb
    obtain ⟨r, r1, r2⟩ := TVal.bin_same E hf (o := .add) (by simp) o2 hb (by simpa using hO)
    refine ⟨r, by simp [Rt.linear, w1, o1, r1], r2.congr fun idx hi => ?_⟩
    obtain ⟨k, κ, lo, hi', hA⟩ := hE
    rw [hA]
    match idx, hi with
    | [j], _ => rfl

/-- A layer whose weight does not fit the input is rejected. -/
theorem C87_linear_mismatch (E : Rt ℝ) {p q : Int} (hp : (p = -2 ∧ q = -1) ∨ (p = 0 ∧ q = 1))
    {x w : TT ℝ} {b : Option (TT ℝ)} {lead : List Nat} {M K K' O : Nat} {X W : List Nat → ℝ}
    (hx : TVal x dt (lead ++ [M, K]) X) (hw : TVal w dt [O, K'] W) (hK : K ≠ K')
    (hpl : ∀ d ∈ lead, 0 < d) (h16 : lead.length ≤ 16) : E.linear p q w b x = .err := by
  obtain ⟨wt, w1, t, rfl, w2⟩ := hw.transposeW hp
  obtain ⟨s, rfl, hx⟩ := hx
  have hm := (C32_matmul_partial (E.A.cst .zero) (E.A.bin .add) (E.A.bin .mul) E.cores hx.wf w2.wf
    hx.dims (lb := []) w2.dims hpl (by simp) ⟨h16, by simp⟩).1 (Or.inl hK)
  simp only [Rt.linear, w1, Res.ok_bind, Rt.matmul, hm]
  split
  · rfl
  · split <;> rfl

/-! ## Attention -/

/-- The scaled scores. -/
theorem scores_val (hE : E.Real) {q k : TT ℝ} {l : List Nat} {m n D : Nat} {Q K : List Nat → ℝ}
    (hq : TVal q .f64 (l ++ [m, D]) Q) (hk : TVal k .f64 (l ++ [n, D]) K) (hpl : ∀ d ∈ l, 0 < d)
    (h16 : l.length ≤ 16) (ninf : ℝ) : ∃ r, E.attnScores ninf q k false = .ok r ∧
      TVal r .f64 (l ++ [m, n]) (at2 l.length fun b i j =>
        score D (fun d => Q (b ++ [i, d])) fun d => K (b ++ [j, d])) := by
  obtain ⟨kt, k1, k2⟩ := hk.transposeLast
  obtain ⟨s, s1, s2⟩ := TVal.matmul hE rfl hq k2 hpl hpl h16 (broadcastsTo_self l)
  obtain ⟨r, r1, r2⟩ := TVal.scal E rfl (o := .mul) (by simp) s2 (E.attnScale q).val
  refine ⟨r, ?_, r2.congr fun idx hi => ?_⟩
  · have : E.attnScale q = ⟨.f64, (E.attnScale q).val⟩ := rfl
    rw [Rt.attnScores, k1, Res.ok_bind, s1, Res.ok_bind, this, r1]
    rfl
  · obtain ⟨bi, i, j, rfl, hbi, hi, hj⟩ := inRange_mat_split hi
    obtain ⟨kc, κ, lo, hi', hA⟩ := hE
    rw [at2_append hbi.length, at2_append hbi.length, Rt.attnScale, hq.dims, hA]
    simp only [realOps, realBin, realCst, realUn, score, broadcastIndex_self hbi]
    rw [show (l ++ [m, D]).getLastD 1 = D by simp, mul_one_div]
    congr 1
    refine Finset.sum_congr rfl fun d _ => ?_
    rw [at2_append hbi.length]

/-- From the scores to the result. -/
theorem attend_val (hE : E.Real) (hf : dt.isFloat = true) {s v : TT ℝ} {l : List Nat} {m n dv : Nat}
    {S V : List Nat → ℝ} (hs : TVal s dt (l ++ [m, n]) S) (hv : TVal v dt (l ++ [n, dv]) V)
    (hpl : ∀ d ∈ l, 0 < d) (hm : 0 < m) (hn : 0 < n) (h14 : l.length ≤ 14) :
    ∃ r, ((E.softmax s (-1)).bind fun w => E.matmul w v) = .ok r ∧
      TVal r dt (l ++ [m, dv]) (at2 l.length fun b i c =>
        (∑ t ∈ range n, Real.exp (S (b ++ [i, t])) * V (b ++ [t, c])) /
          ∑ t ∈ range n, Real.exp (S (b ++ [i, t]))) := by
  have hs' : TVal s dt ((l ++ [m]) ++ [n]) S := by simpa using hs
  obtain ⟨w, w1, w2⟩ := hs'.softmaxLast hE hf (by simp; omega) (by
    intro y hy
    rcases List.mem_append.mp hy with hy | hy
    · exact hpl y hy
    · rw [List.mem_singleton.mp hy]; exact hm) hn
  have w3 : TVal w dt (l ++ [m, n]) (fun i =>
      Real.exp (S i) / ∑ t ∈ range n, Real.exp (S (i.dropLast ++ [t]))) := by simpa using w2
  obtain ⟨r, r1, r2⟩ := TVal.matmul hE hf w3 hv hpl hpl (by omega) (broadcastsTo_self l)
  refine ⟨r, by rw [w1]; exact r1, r2.congr fun idx hi => ?_⟩
  obtain ⟨bi, i, j, rfl, hbi, hi, hj⟩ := inRange_mat_split hi
  rw [at2_append hbi.length, at2_append hbi.length, Finset.sum_div]
  refine Finset.sum_congr rfl fun t _ => ?_
  rw [dropLast_snoc2, broadcastIndex_self hbi, div_mul_eq_mul_div]
  simp

theorem attended_all (n : Nat) (s v : Nat → ℝ) : attended n s (fun _ => True) v =
    (∑ t ∈ range n, Real.exp (s t) * v t) / ∑ t ∈ range n, Real.exp (s t) := by
  simp [attended]

/-- `scaled_dot_product_attention` without masks: every query gets the average of the values, weighted by
the exponentials of the scaled scores.  Missing: other element types than `f64`
(`C87_attention_type_false`), the causal mask (`C87_causal_false`), the attention mask
(`C87_mask_false`), dropout, batches that need broadcasting, rounding. -/
theorem C87_attention_partial (hE : E.Real) {q k v : TT ℝ} {l : List Nat} {m n D dv : Nat}
    {Q K V : List Nat → ℝ} (hq : TVal q .f64 (l ++ [m, D]) Q) (hk : TVal k .f64 (l ++ [n, D]) K)
    (hv : TVal v .f64 (l ++ [n, dv]) V) (hpl : ∀ d ∈ l, 0 < d) (hm : 0 < m) (hn : 0 < n)
    (h14 : l.length ≤ 14) (ninf : ℝ) :
    ∃ r, E.attention ninf q k v none false = .ok r ∧ r.dtype = .f64 ∧ r.dims = l ++ [m, dv] ∧
      TVal r .f64 (l ++ [m, dv]) (at2 l.length fun b i c =>
        attended n (fun t => score D (fun d => Q (b ++ [i, d])) fun d => K (b ++ [t, d]))
          (fun _ => True) fun t => V (b ++ [t, c])) := by
  obtain ⟨s, s1, s2⟩ := scores_val hE hq hk hpl (by omega) ninf
  obtain ⟨r, r1, r2⟩ := attend_val hE rfl s2 hv hpl hm hn h14
  refine ⟨r, by rw [Rt.attention, s1]; exact r1, r2.dtype, r2.dims, r2.congr fun idx hi => ?_⟩
  obtain ⟨bi, i, j, rfl, hbi, hi, hj⟩ := inRange_mat_split hi
  rw [at2_append hbi.length, at2_append hbi.length, attended_all]
  congr 1 <;> refine Finset.sum_congr rfl fun t _ => ?_
  all_goals rw [at2_append hbi.length]

/-! ## Multi-head attention -/

/-- `[b, s, h * d]` reshaped to `[b, s, h, d]`, axes 1 and 2 exchanged. -/
theorem split_val {α : Type} {x : TT α} {b s H D : Nat} {F : List Nat → α}
    (h : TVal x dt [b, s, H * D] F) (L : Rt.Mha α) (h1 : L.heads = H) (h2 : L.headDim = D) :
    ∃ r, L.split b s x = .ok r ∧ TVal r dt [b, H, s, D] (fun i =>
      F [i.getD 0 0, i.getD 2 0, i.getD 1 0 * D + i.getD 3 0]) := by
  obtain ⟨y, y1, y2⟩ := h.reshape (e := [b, s, H, D])
    (G := fun i => F [i.getD 0 0, i.getD 1 0, i.getD 2 0 * D + i.getD 3 0])
    (by simp [numel]) (by
      intro i j hi hj he
      match j, hj with
      | [p, q, u, v], ⟨hp, hq, hu, hv, _⟩ =>
        have hj : InRange [p, q, u * D + v] [b, s, H * D] := by
          refine ⟨hp, hq, ?_, trivial⟩
          calc u * D + v < u * D + D := by omega
            _ = (u + 1) * D := by ring
            _ ≤ H * D := Nat.mul_le_mul_right _ hu
        rw [rowMajor_inj hi hj (by rw [he]; simp [rowMajor, numel])]
        rfl)
  obtain ⟨r, r1, r2⟩ := y2.transpose12
  refine ⟨r, ?_, r2.congr fun idx _ => rfl⟩
  simp only [Rt.Mha.split, h1, h2, y1, Res.ok_bind, r1]

/-- The heads put side by side again. -/
theorem merge_val {α : Type} {x : TT α} {b s H D : Nat} {F : List Nat → α} (h : TVal x dt [b, H, s, D] F) :
    ∃ y r, x.transpose 1 2 = .ok y ∧ y.reshape [b, s, H * D] = .ok r ∧
      TVal r dt [b, s, H * D] (fun i =>
        F [i.getD 0 0, i.getD 2 0 / D, i.getD 1 0, i.getD 2 0 % D]) := by
  obtain ⟨y, y1, y2⟩ := h.transpose12
  obtain ⟨r, r1, r2⟩ := y2.reshape (e := [b, s, H * D])
    (G := fun i => F [i.getD 0 0, i.getD 2 0 / D, i.getD 1 0, i.getD 2 0 % D])
    (by simp [numel]) (by
      intro i j hi hj he
      match j, hj with
      | [p, q, u], ⟨hp, hq, hu, _⟩ =>
        have hD : 0 < D := by
          rcases Nat.eq_zero_or_pos D with rfl | h
          · simp at hu
          · exact h
        have hj : InRange [p, q, u / D, u % D] [b, s, H, D] :=
          ⟨hp, hq, Nat.div_lt_of_lt_mul (by rw [Nat.mul_comm]; exact hu), Nat.mod_lt _ hD, trivial⟩
        rw [rowMajor_inj hi hj (by
          rw [he]
          have := Nat.div_add_mod u D
          simp only [rowMajor, numel, Nat.mul_one]
          nlinarith)]
        rfl)
  exact ⟨y, r, y1, r1, r2⟩

/-- Multi-head attention without masks: column `h * D + c` of the concatenated heads is what head `h`
attends to, for the slices of the three projections that belong to it; the result is projected again.
Missing: as in `C87_attention_partial`. -/
theorem C87_mha_partial (hE : E.Real) (L : Rt.Mha ℝ) {b s t H D dq dk dv O : Nat} {q k v : TT ℝ}
    {Q K V Wq Wk Wv Wo Bq Bk Bv Bo : List Nat → ℝ}
    (hq : TVal q .f64 [b, s, dq] Q) (hk : TVal k .f64 [b, t, dk] K) (hv : TVal v .f64 [b, t, dv] V)
    (hH : L.heads = H) (hD : L.headDim = D) (hE' : L.embed = H * D)
    (hwq : TVal L.q.1 .f64 [H * D, dq] Wq) (hbq : BiasVal L.q.2 .f64 (H * D) Bq)
    (hwk : TVal L.k.1 .f64 [H * D, dk] Wk) (hbk : BiasVal L.k.2 .f64 (H * D) Bk)
    (hwv : TVal L.v.1 .f64 [H * D, dv] Wv) (hbv : BiasVal L.v.2 .f64 (H * D) Bv)
    (hwo : TVal L.o.1 .f64 [O, H * D] Wo) (hbo : BiasVal L.o.2 .f64 O Bo)
    (pb : 0 < b) (ps : 0 < s) (pt : 0 < t) (pH : 0 < H) (pD : 0 < D) (pO : 0 < O) (ninf : ℝ) :
    ∃ r, E.mha L ninf q k v none false = .ok r ∧ TVal r .f64 [b, s, O] (fun idx =>
      let B := idx.getD 0 0
      let i := idx.getD 1 0
      linearAt (H * D) Wo Bo (fun e =>
        let h := e / D
        attended t
          (fun j => score D (fun d => linearAt dq Wq Bq (fun x => Q [B, i, x]) (h * D + d))
            fun d => linearAt dk Wk Bk (fun x => K [B, j, x]) (h * D + d))
          (fun _ => True)
          fun j => linearAt dv Wv Bv (fun x => V [B, j, x]) e) (idx.getD 2 0)) := by
  have pHD : 0 < H * D := Nat.mul_pos pH pD
  have pl : ∀ d ∈ [b], 0 < d := by simpa using pb
  obtain ⟨q1, a1, a2⟩ := C87_linear_partial hE rfl (p := 0) (q := 1) (Or.inr ⟨rfl, rfl⟩) (lead := [b])
    hq hwq hbq pl ps pHD (by simp)
  obtain ⟨k1, b1, b2⟩ := C87_linear_partial hE rfl (p := 0) (q := 1) (Or.inr ⟨rfl, rfl⟩) (lead := [b])
    hk hwk hbk pl pt pHD (by simp)
  obtain ⟨v1, c1, c2⟩ := C87_linear_partial hE rfl (p := 0) (q := 1) (Or.inr ⟨rfl, rfl⟩) (lead := [b])
    hv hwv hbv pl pt pHD (by simp)
  obtain ⟨q2, d1, d2⟩ := split_val (s := s) a2 L hH hD
  obtain ⟨k2, e1, e2⟩ := split_val (s := t) b2 L hH hD
  obtain ⟨v2, f1, f2⟩ := split_val (s := t) c2 L hH hD
  obtain ⟨o, g1, -, -, g2⟩ := C87_attention_partial hE (l := [b, H]) d2 e2 f2 (by simp [pb, pH]) ps pt
    (by simp) ninf
  obtain ⟨y, r, h1, h2, h3⟩ := merge_val g2
  obtain ⟨z, z1, z2⟩ := C87_linear_partial hE rfl (p := 0) (q := 1) (Or.inr ⟨rfl, rfl⟩) (lead := [b])
    h3 hwo hbo pl ps pO (by simp)
  refine ⟨z, ?_, z2.congr fun idx hi => ?_⟩
  · simp only [Rt.mha, hq.dims, hk.dims]
    simp [readR, a1, b1, c1, d1, e1, f1, g1, h1, hE', h2, z1]
  · match idx, hi with
    | [B, i, o], ⟨hB, hi, ho, _⟩ =>
      have : (([B, i, o] : List Nat).getLastD 0) = o := rfl
      rw [this]
      unfold linearAt
      congr 1
      refine Finset.sum_congr rfl fun e _ => ?_
      congr 1
      have hd : e / D * D + e % D = e := by rw [Nat.mul_comm]; exact Nat.div_add_mod e D
      simp [at2, hd]

/-! ## Element types -/

theorem TT.transpose_dtype {α : Type} {x r : TT α} {a b : Int} (h : x.transpose a b = .ok r) :
    r.dtype = x.dtype := by
  unfold TT.transpose at h
  split at h
  all_goals
    obtain ⟨t, -, h⟩ := Res.bind_eq_ok.mp h
    cases h
    rfl

theorem TT.reshape_dtype {α : Type} {x r : TT α} {d : List Nat} (h : x.reshape d = .ok r) :
    r.dtype = x.dtype := by
  unfold TT.reshape at h
  split at h
  all_goals
    obtain ⟨t, -, h⟩ := Res.bind_eq_ok.mp h
    cases h
    rfl

theorem Rt.matmul_dtype {α : Type} {E : Rt α} {a b r : TT α} (h : E.matmul a b = .ok r) :
    r.dtype = a.dtype ∧ b.dtype = a.dtype := by
  unfold Rt.matmul at h
  split at h
  · cases h
  · rename_i hd
    split at h
    · cases h
    · split at h
      · obtain ⟨t, -, h⟩ := Res.bind_eq_ok.mp h
        obtain ⟨u, -, h⟩ := Res.bind_eq_ok.mp h
        cases h
        exact ⟨rfl, (not_not.mp hd).symm⟩
      · cases h

theorem Rt.linear_dtype {α : Type} {E : Rt α} {p q : Int} {w x r : TT α} {b : Option (TT α)}
    (h : E.linear p q w b x = .ok r) : r.dtype = x.dtype := by
  unfold Rt.linear at h
  obtain ⟨t, -, h⟩ := Res.bind_eq_ok.mp h
  obtain ⟨u, h1, h⟩ := Res.bind_eq_ok.mp h
  split at h
  · cases h
    exact (Rt.matmul_dtype h1).1
  · rw [(E.bin_dtype h).1, (Rt.matmul_dtype h1).1]

/-- Attention of anything but `f64` fails: the scale is an `f64` scalar. -/
theorem C87_attention_type_false {α : Type} (E : Rt α) (ninf : α) (q k v : TT α) (mask : Option (TT α))
    (causal : Bool) (h : q.dtype ≠ .f64) (r : TT α) : E.attention ninf q k v mask causal ≠ .ok r := by
  intro h0
  unfold Rt.attention Rt.attnScores at h0
  obtain ⟨s, h1, -⟩ := Res.bind_eq_ok.mp h0
  obtain ⟨kt, -, h1⟩ := Res.bind_eq_ok.mp h1
  obtain ⟨m, h2, h1⟩ := Res.bind_eq_ok.mp h1
  obtain ⟨u, h3, -⟩ := Res.bind_eq_ok.mp h1
  rw [E.scal_type .mul m (E.attnScale q) (by
    rw [(Rt.matmul_dtype h2).1]; exact fun e => h e.symm)] at h3
  cases h3

/-- So does multi-head attention. -/
theorem C87_mha_type_false {α : Type} (E : Rt α) (L : Rt.Mha α) (ninf : α) (q k v : TT α)
    (mask : Option (TT α)) (causal : Bool) (h : q.dtype ≠ .f64) (r : TT α) :
    E.mha L ninf q k v mask causal ≠ .ok r := by
  intro h0
  unfold Rt.mha at h0
  obtain ⟨b, -, h0⟩ := Res.bind_eq_ok.mp h0
  obtain ⟨s, -, h0⟩ := Res.bind_eq_ok.mp h0
  obtain ⟨t, -, h0⟩ := Res.bind_eq_ok.mp h0
  obtain ⟨q1, h1, h0⟩ := Res.bind_eq_ok.mp h0
  obtain ⟨k1, -, h0⟩ := Res.bind_eq_ok.mp h0
  obtain ⟨v1, -, h0⟩ := Res.bind_eq_ok.mp h0
  obtain ⟨q2, h2, h0⟩ := Res.bind_eq_ok.mp h0
  obtain ⟨k2, -, h0⟩ := Res.bind_eq_ok.mp h0
  obtain ⟨v2, -, h0⟩ := Res.bind_eq_ok.mp h0
  obtain ⟨o, h3, -⟩ := Res.bind_eq_ok.mp h0
  obtain ⟨y, h4, h5⟩ := Res.bind_eq_ok.mp h2
  exact C87_attention_type_false E ninf q2 k2 v2 mask causal
    (by rw [TT.transpose_dtype h5, TT.reshape_dtype h4, Rt.linear_dtype h1]; exact h) o h3

/-- An attention mask of anything but `f64` is rejected. -/
theorem C87_mask_type {α : Type} (E : Rt α) (ninf : α) (m s : TT α) (h : m.dtype ≠ .f64) (r : TT α) :
    E.attnMask ninf (some m) s ≠ .ok r := by
  intro h0
  obtain ⟨z, h1, -⟩ := Res.bind_eq_ok.mp h0
  unfold Rt.cmpScal at h1
  rw [if_pos (fun e => h e.symm)] at h1
  split at h1 <;> cases h1

/-! ## Masks -/

section
variable {α : Type} {A : Rt α}

/-- The causal mask marks the keys after the query. -/
theorem C87_causal_mask {m n : Nat} (hm : 0 < m) (hn : 0 < n)
    (hgt : ∀ a b : Nat, A.A.cmp .gt (A.A.ofNat a) (A.A.ofNat b) = decide (b < a)) :
    ∃ r, A.causalMask m n = .ok r ∧ BVal r [m, n] (fun i => decide (i.getD 0 0 < i.getD 1 0)) := by
  have har : ∀ n, 0 < n → ∃ r, A.arange32 n = .ok r ∧
      TVal r .i32 [n] (fun i => A.A.ofNat (i.getD 0 0)) := by
    intro n hn
    refine ⟨_, by rw [Rt.arange32, if_neg (by omega)], _, rfl, Val.fresh (by simp [numel]) ?_⟩
    intro idx hi
    match idx, hi with
    | [a], ⟨ha, _⟩ =>
      have ha : a < n := ha
      simp [rowMajor, numel, List.getElem?_range ha]
  obtain ⟨r, r1, r2⟩ := har m hm
  obtain ⟨c, c1, c2⟩ := har n hn
  obtain ⟨rows, a1, a2⟩ := r2.reshape (e := [m, 1]) (G := fun i => A.A.ofNat (i.getD 0 0))
    (by simp [numel]) (by
      intro i j hi hj he
      match i, hi, j, hj with
      | [x], _, [y, z], ⟨hy, hz, _⟩ =>
        have hz : z < 1 := hz
        have : x = y := by
          obtain rfl : z = 0 := by omega
          simpa [rowMajor, numel] using he
        subst this
        rfl)
  obtain ⟨cols, b1, b2⟩ := c2.reshape (e := [1, n]) (G := fun i => A.A.ofNat (i.getD 1 0))
    (by simp [numel]) (by
      intro i j hi hj he
      match i, hi, j, hj with
      | [x], _, [y, z], ⟨hy, hz, _⟩ =>
        have hy : y < 1 := hy
        have : x = z := by
          obtain rfl : y = 0 := by omega
          simpa [rowMajor, numel] using he
        subst this
        rfl)
  obtain ⟨rb, d1, d2⟩ := a2.broadcast (d := [m, n]) ⟨by simp, by
    intro k y hk
    match k, hk with
    | 0, hk => simp at hk; subst hk; simp
    | 1, hk => simp at hk; subst hk; simp⟩
  obtain ⟨cb, e1, e2⟩ := b2.broadcast (d := [m, n]) ⟨by simp, by
    intro k y hk
    match k, hk with
    | 0, hk => simp at hk; subst hk; simp
    | 1, hk => simp at hk; subst hk; simp⟩
  obtain ⟨s, rfl, d2⟩ := d2
  obtain ⟨t, rfl, e2⟩ := e2
  obtain ⟨o, o1, o2⟩ := e2.compare d2 (by simp [hm, hn]) (A.A.cmp .gt)
  have hb : ∃ l, Dispatch.backend (.cmp .gt) .i32 = .ok l := ⟨_, Dispatch.backend_ok rfl rfl rfl rfl⟩
  obtain ⟨l, hl⟩ := hb
  refine ⟨.bool o, ?_, o, rfl, o2.congr fun idx hi => ?_⟩
  · have hv : Dispatch.validate .i32 (.cmp .gt) = true := rfl
    simp [Rt.causalMask, r1, c1, a1, b1, d1, e1, Rt.cmp, TT.dtype, hv, o1, Rt.cmpOp, hl]
  · match idx, hi with
    | [i, j], ⟨hi, hj, _⟩ =>
      have h1 : broadcastIndex [1, n] [i, j] = [0, j] := by
        simp only [broadcastIndex, List.length_cons, List.length_nil, Nat.sub_self, List.drop_zero,
          List.zipWith_cons_cons, List.zipWith_nil_right]
        by_cases h : n = 1
        · subst h
          have : j = 0 := by omega
          simp [this]
        · simp [h]
      have h2 : broadcastIndex [m, 1] [i, j] = [i, 0] := by
        simp only [broadcastIndex, List.length_cons, List.length_nil, Nat.sub_self, List.drop_zero,
          List.zipWith_cons_cons, List.zipWith_nil_right]
        by_cases h : m = 1
        · subst h
          have : i = 0 := by omega
          simp [this]
        · simp [h]
      rw [h1, h2, hgt]
      rfl

/-- What the causal branch does to scores `S`, in any arithmetic: position `j` of query `i` becomes
`c * S + (1 - c) * ninf`, with `c = 1` for the keys after the query. -/
theorem causal_fill {s : TT α} {l : List Nat} {m n : Nat} {S : List Nat → α}
    (hs : TVal s .f64 (l ++ [m, n]) S) (hpl : ∀ d ∈ l, 0 < d) (hm : 0 < m) (hn : 0 < n)
    (hgt : ∀ a b : Nat, A.A.cmp .gt (A.A.ofNat a) (A.A.ofNat b) = decide (b < a)) (ninf : α) :
    ∃ r, ((A.causalMask m n).bind fun c => A.maskedFill s c ⟨.f64, ninf⟩) = .ok r ∧
      TVal r .f64 (l ++ [m, n]) (at2 l.length fun b i j =>
        A.A.bin .add (A.A.bin .mul (A.A.ofBool (decide (i < j))) (S (b ++ [i, j])))
          (A.A.bin .mul (A.A.bin .sub (A.A.cst .one) (A.A.ofBool (decide (i < j)))) ninf)) := by
  obtain ⟨c, c1, c2⟩ := C87_causal_mask (A := A) hm hn hgt
  have hp : ∀ d ∈ l ++ [m, n], 0 < d := by
    intro d hd
    simp only [List.mem_append, List.mem_cons, List.not_mem_nil, or_false] at hd
    rcases hd with hd | rfl | rfl
    · exact hpl d hd
    · exact hm
    · exact hn
  obtain ⟨r, r1, r2⟩ := where3_val A (dt := .f64) rfl hs c2 (hs.fullLike ninf)
    (broadcastsTo_trailing l [m, n]) (broadcastsTo_self _) hp (by simp [hm, hn]) hp
  refine ⟨r, by rw [c1]; exact r1, r2.congr fun idx hi => ?_⟩
  rw [broadcastIndex_trailing hi]
  obtain ⟨bi, i, j, rfl, hbi, hi, hj⟩ := inRange_mat_split hi
  rw [at2_append hbi.length, List.drop_left' hbi.length]
  rfl

/-- With minus infinity as the fill value, in IEEE arithmetic: the keys a query may attend to get minus
infinity, the keys it may not attend to get NaN. -/
theorem C87_causal_nan {s : TT α} {l : List Nat} {m n : Nat} {S : List Nat → α}
    (hs : TVal s .f64 (l ++ [m, n]) S) (hpl : ∀ d ∈ l, 0 < d) (hm : 0 < m) (hn : 0 < n)
    (hgt : ∀ a b : Nat, A.A.cmp .gt (A.A.ofNat a) (A.A.ofNat b) = decide (b < a)) {ninf nan : α}
    (h1 : A.A.bin .sub (A.A.cst .one) (A.A.cst .one) = A.A.cst .zero)
    (h2 : A.A.bin .mul (A.A.cst .zero) ninf = nan) (h3 : ∀ v, A.A.bin .add v nan = nan)
    (h4 : A.A.bin .mul (A.A.bin .sub (A.A.cst .one) (A.A.cst .zero)) ninf = ninf)
    (h5 : ∀ i, InRange i (l ++ [m, n]) →
      A.A.bin .add (A.A.bin .mul (A.A.cst .zero) (S i)) ninf = ninf) :
    ∃ r, ((A.causalMask m n).bind fun c => A.maskedFill s c ⟨.f64, ninf⟩) = .ok r ∧
      TVal r .f64 (l ++ [m, n]) (at2 l.length fun _ i j => if i < j then nan else ninf) := by
  obtain ⟨r, r1, r2⟩ := causal_fill hs hpl hm hn hgt ninf
  refine ⟨r, r1, r2.congr fun idx hi => ?_⟩
  obtain ⟨bi, i, j, rfl, hbi, hi', hj⟩ := inRange_mat_split hi
  rw [at2_append hbi.length, at2_append hbi.length]
  by_cases h : i < j
  · simp [h, FOps.ofBool, h1, h2, h3]
  · simp [h, FOps.ofBool, h4, h5 _ hi]

end

/-- The causal branch over the real numbers, for a fill value `ninf`: exactly the keys a query must not
attend to keep their scores. -/
theorem C87_causal_value (hE : E.Real) {q k : TT ℝ} {l : List Nat} {m n D : Nat} {Q K : List Nat → ℝ}
    (hq : TVal q .f64 (l ++ [m, D]) Q) (hk : TVal k .f64 (l ++ [n, D]) K) (hpl : ∀ d ∈ l, 0 < d)
    (hm : 0 < m) (hn : 0 < n) (h16 : l.length ≤ 16) (ninf : ℝ) :
    ∃ r, E.attnScores ninf q k true = .ok r ∧ TVal r .f64 (l ++ [m, n]) (at2 l.length fun b i j =>
      if i < j then score D (fun d => Q (b ++ [i, d])) fun d => K (b ++ [j, d]) else ninf) := by
  obtain ⟨s, s1, s2⟩ := scores_val hE hq hk hpl h16 ninf
  obtain ⟨kc, κ, lo, hi', hA⟩ := hE
  obtain ⟨r, r1, r2⟩ := causal_fill (A := E) s2 hpl hm hn (by
    intro a b
    rw [hA]
    simp [realOps, realCmp]) ninf
  refine ⟨r, ?_, r2.congr fun idx hi => ?_⟩
  · unfold Rt.attnScores at s1 ⊢
    simp only [Res.bind_eq_ok] at s1
    obtain ⟨kt, k1, u, u1, w, w1, w2⟩ := s1
    obtain rfl : w = s := by simpa using w2
    rw [k1, Res.ok_bind, u1, Res.ok_bind, w1, Res.ok_bind, s2.dims]
    rw [if_pos rfl, if_neg (by simp)]
    have e1 : (l ++ [m, n]).getD ((l ++ [m, n]).length - 2) 0 = m := by simp
    have e2 : (l ++ [m, n]).getD ((l ++ [m, n]).length - 1) 0 = n := by simp
    rw [e1, e2, r1]
  · obtain ⟨bi, i, j, rfl, hbi, hi, hj⟩ := inRange_mat_split hi
    rw [at2_append hbi.length, at2_append hbi.length, at2_append hbi.length, hA]
    by_cases h : i < j <;> simp [h, realOps, realBin, FOps.ofBool, realCst]

/-- The attention mask over the real numbers: exactly the positions that are to be masked out (the mask
is 0 there) keep their scores. -/
theorem C87_mask_value (hE : E.Real) {s m : TT ℝ} {d e : List Nat} {S M : List Nat → ℝ}
    (hs : TVal s .f64 d S) (hm : TVal m .f64 e M) (he : BroadcastsTo e d) (hpd : ∀ x ∈ d, 0 < x)
    (hpe : ∀ x ∈ e, 0 < x) (ninf : ℝ) :
    ∃ r, E.attnMask ninf (some m) s = .ok r ∧ TVal r .f64 d (fun i =>
      if M (broadcastIndex e i) = 0 then S i else ninf) := by
  obtain ⟨z, z1, z2⟩ := TVal.cmpScal E (dt := .f64) rfl .eq hm (E.A.cst .zero)
  obtain ⟨r, r1, r2⟩ := C85_masked_fill_value hE (dt := .f64) rfl hs z2 he hpd hpe ninf
  refine ⟨r, by rw [Rt.attnMask, z1]; exact r1, r2.congr fun idx _ => ?_⟩
  obtain ⟨kc, κ, lo, hi', hA⟩ := hE
  rw [hA]
  by_cases h : M (broadcastIndex e idx) = 0 <;> simp [filled, h, realOps, realCmp, realCst]

/-! ## The property, and where it fails -/

/-- The property: every float type, with and without the causal mask. -/
def Spec.C87_full : Prop :=
  ∀ (E : Rt ℝ), E.Real → ∀ (dt : DType), dt.isFloat = true → ∀ (q k v : TT ℝ) (l : List Nat)
    (m n D dv : Nat) (Q K V : List Nat → ℝ), TVal q dt (l ++ [m, D]) Q → TVal k dt (l ++ [n, D]) K →
    TVal v dt (l ++ [n, dv]) V → (∀ d ∈ l, 0 < d) → 0 < m → 0 < n → l.length ≤ 14 →
    ∀ (ninf : ℝ) (causal : Bool),
    ∃ r, E.attention ninf q k v none causal = .ok r ∧ TVal r dt (l ++ [m, dv]) (at2 l.length fun b i c =>
      attended n (fun t => score D (fun d => Q (b ++ [i, d])) fun d => K (b ++ [t, d]))
        (fun t => causal = true → t ≤ i) fun t => V (b ++ [t, c]))

theorem C87_full_false : ¬ C87_full := by
  intro h
  have hv : ∀ n, TVal (TT.full [n, 1] ⟨DType.f32, (0 : ℝ)⟩) .f32 ([] ++ [n, 1]) (fun _ => 0) :=
    fun n => TVal.full .f32 [n, 1] 0
  obtain ⟨r, h1, -⟩ := h realRt realRt_real .f32 rfl _ _ _ [] 2 2 1 1 _ _ _ (hv 2) (hv 2) (hv 2)
    (by simp) (by omega) (by omega) (by simp) 0 false
  exact C87_attention_type_false realRt 0 _ _ _ none false (by rw [(hv 2).dtype]; decide) r h1

/-- Exact arithmetic with infinities, knowing `exp 0 = 1`, `exp (-∞) = 0` and `√1 = 1`. -/
def attRt : Rt XQ :=
  ⟨{ extOps with
     un := fun o x => match o, x with
       | .exp, .fin q => if q = 0 then .fin 1 else .nan
       | .exp, .inf true => .fin 0
       | .sqrt, .fin q => if q = 1 then .fin 1 else .nan
       | o, x => extOps.un o x }, 1, .nan, fun _ _ x => x⟩

/-- A matrix of type `f64` with one column. -/
def col64 {α : Type} (l : List α) : TT α := .num .f64 ⟨l, Layout.fromShape [l.length, 1]⟩

/-- Two queries and two keys with equal scores: without a mask both get the mean of the values; with the
causal mask, the first should get the first value and both get NaN. -/
theorem C87_causal_false :
    attRt.attention (.inf true) (col64 [.fin 0, .fin 0]) (col64 [.fin 1, .fin 2])
        (col64 [.fin 3, .fin 5]) none false = .ok (col64 [.fin 4, .fin 4]) ∧
    attRt.attention (.inf true) (col64 [.fin 0, .fin 0]) (col64 [.fin 1, .fin 2])
        (col64 [.fin 3, .fin 5]) none true = .ok (col64 [.nan, .nan]) := by
  decide +kernel

/-- A mask that allows every key, of the same type: the result should be that without a mask. -/
theorem C87_mask_false :
    attRt.attention (.inf true) (col64 [.fin 0, .fin 0]) (col64 [.fin 1, .fin 2])
        (col64 [.fin 3, .fin 5]) (some (col64 [.fin 1, .fin 1])) false = .ok (col64 [.nan, .nan]) := by
  decide +kernel

/-! ## The hypotheses are met -/

/-- The arithmetic hypotheses of `C87_causal_nan`. -/
example : (∀ a b : Nat, attRt.A.cmp .gt (attRt.A.ofNat a) (attRt.A.ofNat b) = decide (b < a)) ∧
    attRt.A.bin .sub (attRt.A.cst .one) (attRt.A.cst .one) = attRt.A.cst .zero ∧
    attRt.A.bin .mul (attRt.A.cst .zero) (.inf true) = .nan ∧
    (∀ v, attRt.A.bin .add v .nan = .nan) ∧
    attRt.A.bin .mul (attRt.A.bin .sub (attRt.A.cst .one) (attRt.A.cst .zero)) (.inf true) = .inf true ∧
    ∀ q : ℚ, attRt.A.bin .add (attRt.A.bin .mul (attRt.A.cst .zero) (.fin q)) (.inf true) =
      .inf true := by
  refine ⟨fun a b => ?_, by decide +kernel, by decide +kernel, fun v => by cases v <;> rfl,
    by decide +kernel, fun q => ?_⟩
  · show XQ.lt (.fin b) (.fin a) = _
    simp [XQ.lt]
  · show XQ.add (XQ.mul (.fin 0) (.fin q)) (.inf true) = _
    simp [XQ.mul, XQ.add]

/-- The hypotheses of the multi-head theorem: one sequence of two positions, two heads of size one, with
a bias on the first projection only. -/
example : ∃ (L : Rt.Mha ℝ) (x : TT ℝ) (X W B : List Nat → ℝ), TVal x .f64 [1, 2, 3] X ∧
    L.heads = 2 ∧ L.headDim = 1 ∧ L.embed = 2 * 1 ∧ TVal L.q.1 .f64 [2 * 1, 3] W ∧
    BiasVal L.q.2 .f64 (2 * 1) B ∧ TVal L.k.1 .f64 [2 * 1, 3] W ∧
    BiasVal L.k.2 .f64 (2 * 1) (fun _ => 0) ∧ TVal L.o.1 .f64 [3, 2 * 1] (fun _ => 2) ∧
    X [0, 1, 2] ≠ 0 :=
  ⟨⟨(TT.full [2, 3] ⟨.f64, 1⟩, some (TT.full [2] ⟨.f64, 7⟩)), (TT.full [2, 3] ⟨.f64, 1⟩, none),
    (TT.full [2, 3] ⟨.f64, 1⟩, none), (TT.full [3, 2] ⟨.f64, 2⟩, none), 2, 2, 1⟩,
    TT.full [1, 2, 3] ⟨.f64, 5⟩, fun _ => 5, fun _ => 1, fun _ => 7, TVal.full .f64 _ _, rfl, rfl, rfl,
    TVal.full .f64 _ _, TVal.full .f64 _ _, TVal.full .f64 _ _, fun _ => rfl, TVal.full .f64 _ _,
    by norm_num⟩

/-- Those of the linear layer and of attention: tensors with batch, rows and columns. -/
example : TVal (TT.full [2, 3, 4] ⟨.f64, (5 : ℝ)⟩) .f64 ([2] ++ [3, 4]) (fun _ => 5) ∧
    TVal (TT.full [6, 4] ⟨.f64, (3 : ℝ)⟩) .f64 [6, 4] (fun _ => 3) ∧
    BiasVal (some (TT.full [6] ⟨.f64, 1⟩)) .f64 6 (fun _ => 1) ∧ realRt.Real :=
  ⟨TVal.full .f64 _ _, TVal.full .f64 _ _, TVal.full .f64 _ _, realRt_real⟩

end Hodu
