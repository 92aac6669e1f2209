import Verif.Model.LinalgRules
import Verif.Props.Linalg
import Verif.Props.MatmulGrad
import Verif.Lemmas.Compose
import Mathlib.Analysis.Calculus.FDeriv.Mul
import Mathlib.Analysis.Calculus.Deriv.Comp
import Mathlib.Analysis.Calculus.Deriv.Add
import Mathlib.Analysis.Calculus.Deriv.Mul
import Mathlib.Analysis.Matrix.Normed
import Mathlib.Topology.Algebra.Module.FiniteDimension
import Mathlib.LinearAlgebra.Matrix.NonsingularInverse

/-!
# C71: the backward rules of det, inv and trace
-/

namespace Hodu
open Spec

variable {α R : Type}

/-! ## Composition -/

theorem Val.of [Zero α] {t : Tensor α} {d : List Nat} (h : t.WF) (hd : t.dims = d)
    (ho : t.layout.isContiguous = false ∨ t.layout.offset = 0) : Val t d (at0 t) :=
  ⟨h, hd, ho, fun _ hi => elem_at0 h (by rw [hd]; exact hi)⟩

theorem contiguous_offset {t c : Tensor α} (ht : t.WF)
    (ho : t.layout.isContiguous = false ∨ t.layout.offset = 0) (h : t.contiguous = .ok c) : c.layout.offset = 0 := by
  obtain ⟨s, o, c1, c2, c3⟩ := contiguous_spec ht
  rw [h] at c1
  cases c1
  rcases c3 with ⟨c3, _⟩ | ⟨_, c3, c4⟩
  · exact c3
  · rcases ho with hoff | hoff
    · rw [hoff] at c4; simp at c4
    · show o = 0
      omega

theorem unsqueeze_offset {t r : Tensor α} {d : Int} (ht : t.WF)
    (ho : t.layout.isContiguous = false ∨ t.layout.offset = 0) (h : t.unsqueeze d = .ok r) : r.layout.offset = 0 := by
  rw [Tensor.unsqueeze, Tensor.viewVia] at h
  cases hc : t.contiguous with
  | ok c =>
    rw [hc, Res.ok_bind] at h
    unfold Layout.unsqueeze at h
    simp only at h
    generalize (if d < 0 then castUsize ((c.layout.ndim : Int) + d + 1) else castUsize d) = k at h
    split_ifs at h
    all_goals first
      | (cases h; done)
      | (rw [Res.ok_bind] at h; cases h; exact (contiguous_offset ht ho hc :))
  | _ => rw [hc] at h; cases h

theorem transpose_offset {t r : Tensor α} {d e : Int} (ht : t.WF)
    (ho : t.layout.isContiguous = false ∨ t.layout.offset = 0) (h : t.transpose d e = .ok r) : r.layout.offset = 0 := by
  rw [Tensor.transpose, Tensor.viewVia] at h
  cases hc : t.contiguous with
  | ok c =>
    rw [hc, Res.ok_bind] at h
    unfold Layout.transpose at h
    split_ifs at h
    · cases h
    · cases h1 : normalizeAxis c.layout.dims d with
      | none => rw [h1] at h; cases h
      | some a =>
        cases h2 : normalizeAxis c.layout.dims e with
        | none => rw [h1, h2] at h; cases h
        | some b =>
          rw [h1, h2] at h
          cases h
          exact (contiguous_offset ht ho hc :)
  | _ => rw [hc] at h; cases h

/-- `unsqueeze(-1)`. -/
theorem unsqueezeLast {t : Tensor α} (ht : t.WF) (hrank : t.dims.length < 2 ^ 31 - 1)
    (ho : t.layout.isContiguous = false ∨ t.layout.offset = 0) :
    ∃ r, t.unsqueeze (-1) = .ok r ∧ r.WF ∧ r.dims = t.dims ++ [1] ∧ r.layout.offset = 0 ∧
      ∀ i, InRange i t.dims → r.elem (i ++ [0]) = t.elem i := by
  obtain ⟨r, h1, h2, h3, h4⟩ := (C07_unsqueeze ht (-1) hrank (by simp [I32])).2 t.dims.length
    ⟨by omega, .inr (by omega)⟩
  have h3 : r.dims = t.dims ++ [1] := by rw [h3]; simp
  refine ⟨r, h1, h2, h3, unsqueeze_offset ht ho h1, fun i hi => ?_⟩
  have hr : InRange (i ++ [0]) (t.dims ++ [1]) := by
    rw [inRange_append hi.length]
    exact ⟨hi, by simp [InRange]⟩
  refine h4 i _ hi (by rw [h3]; exact hr) ?_
  rw [h3, rowMajor_append hi.length]
  simp [rowMajor, numel]

theorem unsqueezeTwice {t : Tensor α} (ht : t.WF) (hrank : t.dims.length < 2 ^ 31 - 2)
    (ho : t.layout.isContiguous = false ∨ t.layout.offset = 0) :
    ∃ s r, t.unsqueeze (-1) = .ok s ∧ s.unsqueeze (-1) = .ok r ∧ r.WF ∧ r.dims = t.dims ++ [1, 1] ∧
      r.layout.offset = 0 ∧ ∀ i, InRange i t.dims → r.elem (i ++ [0, 0]) = t.elem i := by
  obtain ⟨s, a1, a2, a3, a4, a5⟩ := unsqueezeLast ht (by omega) ho
  obtain ⟨r, b1, b2, b3, b4, b5⟩ := unsqueezeLast a2 (by rw [a3]; simp; omega) (.inr a4)
  refine ⟨s, r, a1, b1, b2, by rw [b3, a3]; simp, b4, fun i hi => ?_⟩
  have := b5 (i ++ [0]) (by rw [a3, inRange_append hi.length]; exact ⟨hi, by simp [InRange]⟩)
  rw [a5 i hi, List.append_assoc] at this
  exact this

theorem broadcastsTo_ones (bd : List Nat) (m n : Nat) : BroadcastsTo (bd ++ [1, 1]) (bd ++ [m, n]) := by
  refine ⟨by simp, fun k d hk => ?_⟩
  simp only [List.length_append, List.length_cons, List.length_nil, Nat.sub_self, Nat.add_zero]
  by_cases h : k < bd.length
  · right
    rw [List.getElem?_append_left h] at hk ⊢
    exact hk
  · left
    rw [List.getElem?_append_right (by omega)] at hk
    have hk := List.mem_of_getElem? hk
    simpa using hk

theorem broadcastIndex_ones {bd b : List Nat} {i j : Nat} (hb : InRange b bd) :
    broadcastIndex (bd ++ [1, 1]) (b ++ [i, j]) = b ++ [0, 0] := by
  have h := broadcastIndex_self hb
  unfold broadcastIndex at h ⊢
  have hl := hb.length
  have h0 : (b ++ [i, j]).length - (bd ++ [1, 1]).length = 0 := by simp; omega
  rw [h0, List.drop_zero,
    List.zipWith_append hl.symm]
  rw [show b.length - bd.length = 0 by omega, List.drop_zero] at h
  rw [h]
  rfl

theorem pos_mat {bd : List Nat} {m n : Nat} (h : ∀ d ∈ bd, 0 < d) (hm : 0 < m) (hn : 0 < n) :
    ∀ d ∈ bd ++ [m, n], 0 < d := by
  intro d hd
  simp only [List.mem_append, List.mem_cons, List.not_mem_nil, or_false] at hd
  rcases hd with hd | rfl | rfl
  · exact h d hd
  · exact hm
  · exact hn

/-! ## det -/

theorem inv_layout {o : Arith α} {t y : Tensor α} (h : t.inv o = .ok y) : y.layout = Layout.fromShape t.dims := by
  simp only [Tensor.inv, Res.bind_eq_ok] at h
  obtain ⟨_, _, _, _, h⟩ := h
  cases h
  rfl

theorem det_layout {o : Arith α} {t y : Tensor α} (h : t.det o = .ok y) :
    y.layout = Layout.fromShape (linOutDims t.dims) := by
  simp only [Tensor.det, Res.bind_eq_ok] at h
  obtain ⟨_, _, _, _, h⟩ := h
  cases h
  rfl

/-- The determinant is affine in every entry; the slope is the cofactor. -/
theorem det_add_single [CommRing R] {n : Nat} (M : Matrix (Fin n) (Fin n) R) (i j : Fin n) (t : R) :
    (M + Matrix.single i j t).det = M.det + t * M.adjugate j i := by
  have e : M + Matrix.single i j t = M.updateRow i (M i + t • Pi.single j 1) := by
    ext a b
    by_cases h : a = i
    · subst h
      by_cases hb : j = b
      · subst hb; simp [Matrix.single]
      · simp [Matrix.single, hb, Ne.symm hb]
    · simp [Matrix.single, h, Ne.symm h]
  rw [e, Matrix.det_updateRow_add, Matrix.det_updateRow_smul, Matrix.adjugate_apply]
  congr 2
  rw [Matrix.updateRow_eq_self]

section Field
variable {K : Type} [Field K] [LinearOrder K] [IsStrictOrderedRing K]

/-- The values of the det rule on a batch. -/
theorem detVjp_vals (tiny : Option K) (cores : Nat) (fill : K) {x y g : Tensor K} {bd gd : List Nat} {n : Nat}
    (hx : x.WF) (hd : x.dims = bd ++ [n, n]) (hpos : ∀ d ∈ bd, 0 < d)
    (hinv : ∀ b (M : Matrix (Fin n) (Fin n) K), InRange b bd → MatrixAt x b M → M.det ≠ 0)
    (hrank : gd.length < 2 ^ 31 - 2) (hgp : ∀ d ∈ gd, 0 < d)
    (hy : y.WF) (hyd : y.dims = gd) (hyo : y.layout.offset = 0) (hg : g.WF) (hgd : g.dims = gd)
    (hgo : g.layout.isContiguous = false ∨ g.layout.offset = 0) :
    ∃ a s2, x.inv (fieldArith tiny) = .ok a ∧ a.WF ∧ a.dims = bd ++ [n, n] ∧
      (∀ b (M : Matrix (Fin n) (Fin n) K), InRange b bd → MatrixAt x b M →
        ∃ N : Matrix (Fin n) (Fin n) K, MatrixAt a b N ∧ N * M = 1 ∧ M * N = 1) ∧
      ∃ at', Val at' (bd ++ [n, n]) (at0 at') ∧
        (∀ b i j, InRange b bd → i < n → j < n → at'.elem (b ++ [i, j]) = a.elem (b ++ [j, i])) ∧
        Val s2 (gd ++ [1, 1]) (at0 s2) ∧
        (∀ b, InRange b gd → s2.elem (b ++ [0, 0]) = some (at0 g b * at0 y b)) ∧
        detVjp (fieldArith tiny) cores fill x y g = Tensor.binary cores (· * ·) fill at' s2 := by
  obtain ⟨a, a1, a2, a3, a4⟩ := C67_inv_partial tiny hx hd (fun d hd => (hpos d hd).ne') hinv
  obtain ⟨at', t1, t2, t3, t4⟩ := transposeLast a2 a3
  have ao : a.layout.offset = 0 := by rw [inv_layout a1]; rfl
  obtain ⟨s, s1, s2⟩ := (Val.of hg hgd hgo).binary_same (Val.of hy hyd (.inr hyo)) hgp cores (· * ·) fill
  obtain ⟨u, r, u1, u2, u3, u4, u5, u6⟩ := unsqueezeTwice s2.wf (by rw [s2.dims]; exact hrank) s2.off
  rw [s2.dims] at u4 u6
  refine ⟨a, r, a1, a2, a3, a4, at', Val.of t2 t3 (.inr (transpose_offset a2 (.inr ao) t1)), t4,
    Val.of u3 u4 (.inr u5), fun b hb => by rw [u6 b hb, s2.vals b hb], ?_⟩
  have s1' : Tensor.binary cores (fieldArith tiny).mul fill g y = .ok s := s1
  rw [detVjp, a1, Res.ok_bind, t1, Res.ok_bind, s1', Res.ok_bind, u1, Res.ok_bind, u2, Res.ok_bind]
  rfl

/-- **C71, det**: for a non-empty batch (at least three dimensions, none of size 0) of invertible matrices the
gradient has the shape of the input, and its entry is the slope of `g · det` in the matrix entry.
Missing: a single matrix (`C71_det_matrix_shape`), singular matrices (`C71_det_singular_fails`), sizes 4 and up
with the threshold of the determinant kernel (C66). -/
theorem C71_det_partial (tiny : Option K) (cores : Nat) (fill : K) {x g : Tensor K} {bd : List Nat} {n : Nat}
    (hx : x.WF) (hd : x.dims = bd ++ [n, n]) (hbd : bd ≠ []) (hpos : ∀ d ∈ bd, 0 < d) (hn : 0 < n)
    (hrank : bd.length < 2 ^ 31 - 2) (ht : n ≤ 3 ∨ tiny = none)
    (hinv : ∀ b (M : Matrix (Fin n) (Fin n) K), InRange b bd → MatrixAt x b M → M.det ≠ 0)
    (hg : g.WF) (hgd : g.dims = bd) (hgo : g.layout.isContiguous = false ∨ g.layout.offset = 0) :
    ∃ y r, x.det (fieldArith tiny) = .ok y ∧ detVjp (fieldArith tiny) cores fill x y g = .ok r ∧ r.WF ∧
      r.dims = x.dims ∧
      ∀ b (M : Matrix (Fin n) (Fin n) K) (i j : Fin n) (c : K), InRange b bd → MatrixAt x b M →
        g.elem b = some c →
        ∃ v, r.elem (b ++ [(i : Nat), (j : Nat)]) = some v ∧
          ∀ t, c * (M + Matrix.single i j t).det = c * M.det + v * t := by
  have hy : ∃ y, x.det (fieldArith tiny) = .ok y ∧ y.WF ∧ y.dims = perMatrix bd ∧
      ∀ b (M : Matrix (Fin n) (Fin n) K), InRange b bd → MatrixAt x b M →
        y.elem (perMatrixIndex bd b) = some M.det := by
    rcases ht with h | rfl
    · exact C66_det_small_partial (fieldArith_isRing tiny) hx hd h (fun d hd => (hpos d hd).ne')
    · exact C66_det_exotic_partial hx hd (fun d hd => (hpos d hd).ne') hinv
  obtain ⟨y, y1, y2, y3, y4⟩ := hy
  simp only [perMatrix, perMatrixIndex, if_neg hbd] at y3 y4
  obtain ⟨a, s, a1, a2, a3, a4, at', t1, t2, s1, s2, e⟩ := detVjp_vals tiny cores fill hx hd hpos hinv hrank
    hpos y2 y3 (by rw [det_layout y1]; rfl) hg hgd hgo
  obtain ⟨r, r1, r2⟩ := t1.binary s1 (broadcastsTo_ones bd n n) (pos_mat hpos hn hn)
    (pos_mat hpos one_pos one_pos) cores (· * ·) fill
  refine ⟨y, r, y1, by rw [e, r1], r2.wf, by rw [r2.dims, hd], fun b M i j c hb hM hc => ?_⟩
  obtain ⟨N, hN, hNM, hMN⟩ := a4 b M hb hM
  refine ⟨_, r2.vals _ (inRange_mat hb i.2 j.2), fun t => ?_⟩
  rw [broadcastIndex_ones hb]
  have e1 : at0 at' (b ++ [(i : Nat), (j : Nat)]) = N j i := by
    rw [at0, t2 b i j hb i.2 j.2, hN j i]; rfl
  have e2 : at0 s (b ++ [0, 0]) = c * M.det := by
    rw [at0, s2 b hb, at0, at0, hc, y4 b M hb hM]; rfl
  have e3 : M.adjugate j i = M.det * N j i := by
    have : M.adjugate = M.det • N := by
      calc M.adjugate = M.adjugate * (M * N) := by rw [hMN, mul_one]
        _ = M.det • N := by rw [← mul_assoc, Matrix.adjugate_mul, Matrix.smul_mul, one_mul]
    rw [this]; rfl
  rw [e1, e2, det_add_single, e3]
  ring

/-- **C71 is false for a single matrix**: the gradient of every invertible `[n, n]` matrix gets the shape
`[1, n, n]`. -/
theorem C71_det_matrix_shape (tiny : Option K) (cores : Nat) (fill : K) {x y g r : Tensor K} {n : Nat}
    (hx : x.WF) (hd : x.dims = [n, n]) (hn : 0 < n)
    (hinv : ∀ M : Matrix (Fin n) (Fin n) K, MatrixAt x [] M → M.det ≠ 0)
    (hy : x.det (fieldArith tiny) = .ok y) (hyw : y.WF) (hg : g.WF) (hgd : g.dims = y.dims)
    (hgo : g.layout.isContiguous = false ∨ g.layout.offset = 0)
    (hr : detVjp (fieldArith tiny) cores fill x y g = .ok r) : r.dims = [1, n, n] := by
  have hyl := det_layout hy
  have hyd : y.dims = [1] := by rw [Tensor.dims, hyl, hd]; rfl
  obtain ⟨a, s, a1, a2, a3, a4, at', t1, t2, s1, s2, e⟩ := detVjp_vals tiny cores fill (bd := []) hx hd
    (by simp) (fun b M hb => by
      match b, hb with
      | [], _ => exact hinv M) (gd := [1]) (by simp) (by simp) hyw hyd (by rw [hyl]; rfl) hg (by rw [hgd, hyd]) hgo
  rw [e] at hr
  have hc : CommonShape [n, n] [1, 1, 1] [1, n, n] ∧ Compatible [n, n] [1, 1, 1] := by
    refine ⟨⟨rfl, fun k => ?_⟩, fun k => ?_⟩
    · match k with
      | 0 | 1 | 2 => by_cases h : n = 1 <;> simp [dimFromRight, h]
      | k + 3 => simp [dimFromRight]
    · match k with
      | 0 | 1 | 2 => simp [dimFromRight]
      | k + 3 => simp [dimFromRight]
  obtain ⟨r', h1, h2, _⟩ := (C10_buffer t1.wf s1.wf (by rw [t1.dims]; simp [hn]) (by rw [s1.dims]; simp) (· * ·)
    cores fill).2 (by rw [t1.dims, s1.dims]; exact hc.2)
  rw [hr] at h1
  cases h1
  rw [t1.dims, s1.dims] at h2
  exact h2.unique hc.1

/-! ## inv -/

/-- The pairing of two matrices. -/
def Spec.frob {n : Nat} (A B : Matrix (Fin n) (Fin n) K) : K := ∑ i, ∑ j, A i j * B i j

omit [LinearOrder K] [IsStrictOrderedRing K] in
theorem frob_eq_trace {n : Nat} (A B : Matrix (Fin n) (Fin n) K) : frob A B = (A.transpose * B).trace := by
  rw [frob, Finset.sum_comm]
  simp [Matrix.trace, Matrix.mul_apply]

theorem lsum_range_fin [AddCommMonoid R] (n : Nat) (f : Nat → R) :
    lsum (List.range n) f = ∑ i : Fin n, f i := by
  rw [Fin.sum_univ_eq_sum_range]
  induction n with
  | zero => rfl
  | succ n ih =>
    rw [Finset.sum_range_succ, ← ih, lsum, List.range_succ, List.map_append, List.sum_append]
    simp

omit [IsStrictOrderedRing K] in
/-- The values of the inv rule. -/
theorem invVjp_vals (tiny : Option K) (cores : Nat) (fill : K) {y g : Tensor K} {bd : List Nat} {n : Nat}
    (hy : y.WF) (hyd : y.dims = bd ++ [n, n]) (hpos : ∀ d ∈ bd, 0 < d) (h16 : bd.length ≤ 16)
    (hg : g.WF) (hgd : g.dims = bd ++ [n, n]) :
    ∃ r, invVjp (fieldArith tiny) cores fill y g = .ok r ∧ r.WF ∧ r.dims = bd ++ [n, n] ∧
      ∀ b (N G : Matrix (Fin n) (Fin n) K), InRange b bd → MatrixAt y b N → MatrixAt g b G →
        MatrixAt r b (-(N.transpose * G * N.transpose)) := by
  obtain ⟨yt, t1, t2, t3, t4⟩ := transposeLast hy hyd
  obtain ⟨p, p1, p2, p3, p4⟩ := matmul_vals_same cores t2 hg t3 hgd hpos h16
  obtain ⟨q, q1, q2, q3, q4⟩ := matmul_vals_same cores p2 t2 p3 t3 hpos h16
  obtain ⟨r, r1, r3, r2, r4⟩ := C11_unary_partial q2 (.inl (by rw [q3]; simp)) (fun v : K => -v) cores fill
  refine ⟨r, ?_, r2, by rw [r3, q3], fun b N G hb hN hG i j => ?_⟩
  · rw [invVjp, t1, Res.ok_bind]
    have p1' : yt.matmul cores (fieldArith tiny).zero (fieldArith tiny).add (fieldArith tiny).mul g = .ok p := p1
    have q1' : p.matmul cores (fieldArith tiny).zero (fieldArith tiny).add (fieldArith tiny).mul yt = .ok q := q1
    rw [p1', Res.ok_bind, q1', Res.ok_bind]
    exact r1
  · have hT : ∀ k l : Fin n, at0 yt (b ++ [(k : Nat), (l : Nat)]) = N.transpose k l := by
      intro k l
      rw [at0, t4 b k l hb k.2 l.2, hN l k]; rfl
    have hp : ∀ k l : Fin n, at0 p (b ++ [(k : Nat), (l : Nat)]) = (N.transpose * G) k l := by
      intro k l
      rw [at0, p4 b k l hb k.2 l.2, Option.getD_some, Matrix.mul_apply, lsum_range_fin]
      apply Finset.sum_congr rfl
      intro m _
      rw [hT, at0, hG m l]; rfl
    obtain ⟨v, v1, v2⟩ := r4 (b ++ [(i : Nat), (j : Nat)]) (by rw [q3]; exact inRange_mat hb i.2 j.2)
    rw [q4 b i j hb i.2 j.2] at v1
    cases v1
    rw [v2, Matrix.neg_apply, Matrix.mul_apply, lsum_range_fin]
    congr 2
    apply Finset.sum_congr rfl
    intro m _
    rw [hp, hT]

/-- **C71, inv**: for matrices `M` with inverse `N`, the gradient `D` pairs with a change `E` of `M` as the upstream
gradient `G` pairs with the resulting first-order change `N'` of the inverse (`M N' + E N = 0`).
Missing: dimensions of size 0 and rank above 16 (C32), matrices the kernel cannot invert (C67). -/
theorem C71_inv_partial (tiny : Option K) (cores : Nat) (fill : K) {x g : Tensor K} {bd : List Nat} {n : Nat}
    (hx : x.WF) (hd : x.dims = bd ++ [n, n]) (hpos : ∀ d ∈ bd, 0 < d) (h16 : bd.length ≤ 16)
    (hinv : ∀ b (M : Matrix (Fin n) (Fin n) K), InRange b bd → MatrixAt x b M → M.det ≠ 0)
    (hg : g.WF) (hgd : g.dims = x.dims) :
    ∃ y r, x.inv (fieldArith tiny) = .ok y ∧ invVjp (fieldArith tiny) cores fill y g = .ok r ∧ r.WF ∧
      r.dims = x.dims ∧
      ∀ b (M G : Matrix (Fin n) (Fin n) K), InRange b bd → MatrixAt x b M → MatrixAt g b G →
        ∃ N D : Matrix (Fin n) (Fin n) K, MatrixAt y b N ∧ M * N = 1 ∧ MatrixAt r b D ∧
          ∀ E N' : Matrix (Fin n) (Fin n) K, M * N' + E * N = 0 → frob G N' = frob D E := by
  obtain ⟨y, y1, y2, y3, y4⟩ := C67_inv_partial tiny hx hd (fun d hd => (hpos d hd).ne') hinv
  obtain ⟨r, r1, r2, r3, r4⟩ := invVjp_vals tiny cores fill y2 y3 hpos h16 hg (by rw [hgd, hd])
  refine ⟨y, r, y1, r1, r2, by rw [r3, hd], fun b M G hb hM hG => ?_⟩
  obtain ⟨N, hN, hNM, hMN⟩ := y4 b M hb hM
  refine ⟨N, _, hN, hMN, r4 b N G hb hN hG, fun E N' h => ?_⟩
  have hN' : N' = -(N * E * N) := by
    have : N * (M * N' + E * N) = 0 := by rw [h, mul_zero]
    rw [mul_add, ← mul_assoc, hNM, one_mul, ← mul_assoc] at this
    exact eq_neg_of_add_eq_zero_left this
  rw [hN', frob_eq_trace, frob_eq_trace]
  simp only [Matrix.transpose_neg, Matrix.transpose_mul, Matrix.transpose_transpose, Matrix.mul_neg,
    Matrix.neg_mul, Matrix.trace_neg]
  congr 1
  rw [← mul_assoc, Matrix.trace_mul_comm]
  simp only [mul_assoc]

end Field

section Real

attribute [local instance] Matrix.linftyOpNormedRing Matrix.linftyOpNormedAlgebra

/-- The first-order change of the real matrix inverse, in terms of the pairing used in `C71_inv_partial`. -/
theorem hasDerivAt_frob_inv {n : Nat} {M N : Matrix (Fin n) (Fin n) ℝ} (h : M * N = 1)
    (G E : Matrix (Fin n) (Fin n) ℝ) :
    HasDerivAt (fun t : ℝ => frob G (M + t • E)⁻¹) (frob G (-(N * E * N))) 0 := by
  let u : (Matrix (Fin n) (Fin n) ℝ)ˣ := ⟨M, N, h, mul_eq_one_comm.mp h⟩
  have h1 : HasDerivAt (fun t : ℝ => M + t • E) E 0 := by
    have := ((hasDerivAt_id (0 : ℝ)).smul_const E).const_add M
    rw [one_smul] at this
    exact this
  have h2 := hasFDerivAt_ringInverse (𝕜 := ℝ) u
  have h3 : HasFDerivAt Ring.inverse (-ContinuousLinearMap.mulLeftRight ℝ (Matrix (Fin n) (Fin n) ℝ) ↑u⁻¹ ↑u⁻¹)
      (M + (0 : ℝ) • E) := by simpa [u] using h2
  have h4 := h3.comp_hasDerivAt (0 : ℝ) h1
  let L : Matrix (Fin n) (Fin n) ℝ →ₗ[ℝ] ℝ :=
    { toFun := frob G
      map_add' := fun A B => by simp [frob, mul_add, Finset.sum_add_distrib]
      map_smul' := fun c A => by simp [frob, Finset.mul_sum, mul_left_comm] }
  have h5 := (LinearMap.toContinuousLinearMap L).hasFDerivAt.comp_hasDerivAt (0 : ℝ) h4
  have e : (fun t : ℝ => frob G (M + t • E)⁻¹) =
      (LinearMap.toContinuousLinearMap L) ∘ Ring.inverse ∘ fun t : ℝ => M + t • E := by
    funext t
    rw [Matrix.nonsing_inv_eq_ringInverse]
    rfl
  rw [e]
  refine h5.congr_deriv ?_
  show frob G _ = _
  simp [u]

/-- **C71, inv over the reals**: the gradient is the derivative of the upstream gradient paired with the inverse,
in every direction. -/
theorem C71_inv_derivative_partial (tiny : Option ℝ) (cores : Nat) (fill : ℝ) {x g : Tensor ℝ} {bd : List Nat}
    {n : Nat} (hx : x.WF) (hd : x.dims = bd ++ [n, n]) (hpos : ∀ d ∈ bd, 0 < d) (h16 : bd.length ≤ 16)
    (hinv : ∀ b (M : Matrix (Fin n) (Fin n) ℝ), InRange b bd → MatrixAt x b M → M.det ≠ 0)
    (hg : g.WF) (hgd : g.dims = x.dims) :
    ∃ y r, x.inv (fieldArith tiny) = .ok y ∧ invVjp (fieldArith tiny) cores fill y g = .ok r ∧ r.WF ∧
      r.dims = x.dims ∧
      ∀ b (M G : Matrix (Fin n) (Fin n) ℝ), InRange b bd → MatrixAt x b M → MatrixAt g b G →
        ∃ D : Matrix (Fin n) (Fin n) ℝ, MatrixAt r b D ∧
          ∀ E : Matrix (Fin n) (Fin n) ℝ, HasDerivAt (fun t : ℝ => frob G (M + t • E)⁻¹) (frob D E) 0 := by
  obtain ⟨y, r, h1, h2, h3, h4, h5⟩ := C71_inv_partial tiny cores fill hx hd hpos h16 hinv hg hgd
  refine ⟨y, r, h1, h2, h3, h4, fun b M G hb hM hG => ?_⟩
  obtain ⟨N, D, _, hMN, hD, hE⟩ := h5 b M G hb hM hG
  refine ⟨D, hD, fun E => ?_⟩
  rw [← hE E (-(N * E * N)) (by rw [mul_neg, ← mul_assoc, ← mul_assoc, hMN, one_mul, neg_add_cancel])]
  exact hasDerivAt_frob_inv hMN G E

end Real

/-! ## trace -/

theorem Val.broadcast_layout {t : Tensor α} {d : List Nat} {F : List Nat → α} (h : Val t d F)
    {target : List Nat} (hb : BroadcastsTo d target) {r : Tensor α} (hr : t.broadcast target = .ok r) :
    r.layout.offset = 0 ∧
      ∀ idx, InRange idx target → dot idx r.layout.strides = rowMajor d (broadcastIndex d idx) := by
  obtain ⟨s, o, c1, c2, c3⟩ := contiguous_spec h.wf
  have ho : o = 0 := contiguous_offset h.wf h.off c1
  subst ho
  obtain ⟨st, b1, b2, b3⟩ := (broadcastTo_spec (l := ⟨t.dims, Layout.computeStrides t.dims, 0⟩)
    (target := target) (computeStrides_length _)).1 (by simpa [h.dims] using hb)
  simp only [Tensor.broadcast, Tensor.viewVia, c1, Res.ok_bind, b1] at hr
  cases hr
  refine ⟨rfl, fun idx hi => ?_⟩
  rw [(b3 idx hi).2, dot_computeStrides, h.dims]

/-- The result of a binary operation is laid out as the broadcast left operand. -/
theorem binary_layout {cores : Nat} {f : α → α → R} {fill : R} {a b : Tensor α} {r : Tensor R}
    (h : Tensor.binary cores f fill a b = .ok r) : ∃ out l, a.broadcast out = .ok l ∧ r.layout = l.layout := by
  simp only [Tensor.binary, Tensor.broadcast2, Res.bind_eq_ok] at h
  obtain ⟨q, ⟨out, _, l, h1, l', _, hq⟩, s, _, h⟩ := h
  cases hq
  cases h
  exact ⟨out, l, h1, rfl⟩

theorem eye_val [Zero R] [One R] (n : Nat) :
    Val (Tensor.eye (0 : R) 1 n) [n, n] fun i => if i.getD 0 0 = i.getD 1 0 then 1 else 0 := by
  apply Val.fresh
  · simp [numel]
  · intro idx hi
    match idx, hi with
    | [i, j], ⟨h1, h2, _⟩ =>
      have hlt : i * n + j < n * n := by nlinarith
      have e : rowMajor [n, n] [i, j] = i * n + j := by simp [rowMajor, numel]
      rw [e, List.getElem?_map, List.getElem?_range hlt]
      have e1 : (i * n + j) / n = i := by
        rw [Nat.add_comm, Nat.add_mul_div_right _ _ (by omega), Nat.div_eq_of_lt h2, Nat.zero_add]
      have e2 : (i * n + j) % n = j := by
        rw [Nat.add_comm, Nat.add_mul_mod_self_right, Nat.mod_eq_of_lt h2]
      simp [e1, e2]

theorem inRange_zeros {d : List Nat} (h : ∀ x ∈ d, 0 < x) : InRange (List.replicate d.length 0) d := by
  induction d with
  | nil => trivial
  | cons a d ih => exact ⟨h a (by simp), ih fun x hx => h x (by simp [hx])⟩

theorem rowMajor_zeros (d : List Nat) : rowMajor d (List.replicate d.length 0) = 0 := by
  induction d with
  | nil => rfl
  | cons a d ih => simp [List.replicate_succ, rowMajor, ih]

/-- What the trace rule computes for an upstream gradient of shape `gd`: a tensor of shape `gd ++ [n, n]`
(`[1, n, n]` for a single matrix), every matrix of which holds the *first* upstream entry on its diagonal. -/
theorem C71_trace_value [CommSemiring R] (cores : Nat) (fill : R) {g : Tensor R} {inDims gd : List Nat} {n : Nat}
    (hl : inDims.getD (inDims.length - 1) 0 = n) (hn : 0 < n) (hg : g.WF) (hgd : g.dims = gd)
    (hgo : g.layout.isContiguous = false ∨ g.layout.offset = 0) (hpos : ∀ d ∈ gd, 0 < d)
    (hrank : gd.length < 2 ^ 31 - 2) :
    ∃ r, traceVjp cores (· * ·) 0 1 fill g inDims = .ok r ∧ r.dims = gd ++ [n, n] ∧
      ∀ b i j, InRange b gd → i < n → j < n → r.elem (b ++ [i, j]) =
        some (if i = j then at0 g (List.replicate gd.length 0) else 0) := by
  obtain ⟨s, t, h1, h2, h3, h4, h5, h6⟩ := unsqueezeTwice hg (by rw [hgd]; exact hrank) hgo
  rw [hgd] at h4 h6
  have he := eye_val (R := R) n
  have hbt : BroadcastsTo [n, n] (gd ++ [n, n]) := by
    have := (broadcastsTo_mat (la := []) (batch := gd) (M := n) (K := n)).mpr ⟨by simp, fun k d hk => by simp at hk⟩
    simpa using this
  have hc : CommonShape [n, n] (gd ++ [1, 1]) (gd ++ [n, n]) ∧ Compatible [n, n] (gd ++ [1, 1]) := by
    have hd : ∀ (a b : Nat) k, dimFromRight (gd ++ [a, b]) k = match k with
        | 0 => b
        | 1 => a
        | k + 2 => dimFromRight gd k := by
      intro a b k
      match k with
      | 0 => simp [dimFromRight]
      | 1 => simp [dimFromRight]
      | k + 2 => simp [dimFromRight]
    have hd' : ∀ k, dimFromRight [n, n] k = match k with
        | 0 => n
        | 1 => n
        | k + 2 => 1 := by
      intro k
      match k with
      | 0 => simp [dimFromRight]
      | 1 => simp [dimFromRight]
      | k + 2 => simp [dimFromRight]
    refine ⟨⟨by simp, fun k => ?_⟩, fun k => ?_⟩
    · rw [hd, hd, hd']
      match k with
      | 0 | 1 => by_cases h : n = 1 <;> simp [h]
      | k + 2 => simp
    · rw [hd, hd']
      match k with
      | 0 | 1 | k + 2 => simp
  obtain ⟨r, r1, r2, r3, r4, _⟩ := (C10_buffer he.wf h3 (by rw [he.dims]; simp [hn])
    (by rw [h4]; exact pos_mat hpos one_pos one_pos) (· * ·) cores fill).2 (by rw [he.dims, h4]; exact hc.2)
  rw [he.dims, h4] at r2 r4
  have hrd : r.dims = gd ++ [n, n] := r2.unique hc.1
  refine ⟨r, ?_, hrd, fun b i j hb hi hj => ?_⟩
  · rw [traceVjp, h1, Res.ok_bind, h2, Res.ok_bind, hl, r1]
  · obtain ⟨out, l, l1, l2⟩ := binary_layout r1
    have hout : out = gd ++ [n, n] := by
      have : l.dims = out := by
        obtain ⟨l', e1, e2, _⟩ := he.broadcast (target := out) (by
          by_contra hno
          have := (broadcastTo_spec (l := ⟨[n, n], Layout.computeStrides [n, n], 0⟩) (target := out)
            (computeStrides_length _)).2 hno
          obtain ⟨s', o', c1, _, _⟩ := contiguous_spec he.wf
          have ho := contiguous_offset he.wf he.off c1
          simp only at ho
          subst ho
          rw [he.dims] at c1
          simp only [Tensor.broadcast, Tensor.viewVia, c1, Res.ok_bind, this] at l1
          cases l1)
        rw [l1] at e1; cases e1
        exact e2.dims
      rw [← this, ← hrd, Tensor.dims, Tensor.dims, l2]
    subst hout
    obtain ⟨o1, o2⟩ := he.broadcast_layout hbt l1
    set z := List.replicate gd.length 0 with hz
    have hzr := inRange_zeros hpos
    obtain ⟨x, y, x1, y1, v⟩ := r4 (z ++ [i, j]) (by rw [hrd]; exact inRange_mat hzr hi hj)
    have hbi : ∀ c : List Nat, broadcastIndex [n, n] (c ++ [i, j]) = [i, j] := by
      intro c
      have := broadcastIndex_append (dims := []) (idx := c) (by simp) hi hj
      simpa [broadcastIndex] using this
    rw [hbi, he.vals [i, j] ⟨hi, hj, trivial⟩] at x1
    rw [broadcastIndex_ones hzr, h6 _ hzr, elem_at0 hg (by rw [hgd]; exact hzr)] at y1
    cases x1
    cases y1
    rw [Tensor.elem, l2, o1, o2 _ (inRange_mat hb hi hj), hbi, Nat.zero_add]
    rw [hrd, rowMajor_append hzr.length, rowMajor_zeros, Nat.zero_mul, Nat.zero_add] at v
    rw [v]
    by_cases hij : i = j <;> simp [hij, hz]

/-- **C71, trace**: for a batch of exactly one matrix (at least three dimensions) the gradient has the shape of the
input, and its entry is the slope of `g · trace` in the matrix entry.
Missing: a single matrix, whose gradient gets the shape `[1, n, n]`, and larger batches, where all matrices get the
gradient of the first (`C71_trace_value`). -/
theorem C71_trace_partial [CommRing R] (cores : Nat) (fill : R) {x g : Tensor R} {bd : List Nat} {n : Nat}
    (hx : x.WF) (hd : x.dims = bd ++ [n, n]) (hbd : bd ≠ []) (hone : ∀ d ∈ bd, d = 1) (hn : 0 < n)
    (hrank : bd.length < 2 ^ 31 - 2) (hg : g.WF) (hgd : g.dims = bd)
    (hgo : g.layout.isContiguous = false ∨ g.layout.offset = 0) :
    ∃ y r, x.trace 0 (· + ·) = .ok y ∧ y.dims = g.dims ∧
      traceVjp cores (· * ·) 0 1 fill g x.dims = .ok r ∧ r.dims = x.dims ∧
      ∀ b (M : Matrix (Fin n) (Fin n) R) (i j : Fin n) (c : R), InRange b bd → MatrixAt x b M →
        g.elem b = some c →
        ∃ v, r.elem (b ++ [(i : Nat), (j : Nat)]) = some v ∧ y.elem b = some M.trace ∧
          ∀ t, c * (M + Matrix.single i j t).trace = c * M.trace + v * t := by
  have hpos : ∀ d ∈ bd, 0 < d := fun d h => by rw [hone d h]; exact one_pos
  obtain ⟨y, y1, _, y3, y4⟩ := C68_trace_partial hx hd (fun d h => (hpos d h).ne')
  simp only [perMatrix, perMatrixIndex, if_neg hbd] at y3 y4
  obtain ⟨r, r1, r2, r3⟩ := C71_trace_value cores fill (inDims := x.dims) (n := n) (by rw [hd]; simp) hn hg hgd
    hgo hpos hrank
  refine ⟨y, r, y1, by rw [y3, hgd], r1, by rw [r2, hd], fun b M i j c hb hM hc => ?_⟩
  have hb0 : b = List.replicate bd.length 0 := by
    clear * - hb hone
    induction bd generalizing b with
    | nil => cases b with
      | nil => rfl
      | cons _ _ => exact absurd hb (by simp [InRange])
    | cons d bd ih =>
      cases b with
      | nil => exact absurd hb (by simp [InRange])
      | cons a b =>
        have h1 := hone d (by simp)
        have h2 := hb.1
        rw [ih (fun d h => hone d (by simp [h])) _ hb.2]
        simp [List.replicate_succ]
        omega
  refine ⟨_, r3 b i j hb i.2 j.2, y4 b M hb hM, fun t => ?_⟩
  rw [Matrix.trace_add, mul_add, ← hb0, at0, hc, Option.getD_some]
  congr 1
  by_cases hij : i = j
  · subst hij
    simp
  · rw [if_neg (fun h => hij (Fin.ext h)), Matrix.trace_single_eq_of_ne _ _ _ hij]
    simp

/-! ## Cases and refutations -/

/-- The elements in row-major order. -/
def Tensor.listed (t : Tensor α) : List α := (indices t.dims).filterMap t.elem

/-- **C71, full claim for trace** (false): every batch shape. -/
def C71_full : Prop :=
  ∀ (x g : Tensor ℚ) (bd : List Nat) (n : Nat), x.WF → x.dims = bd ++ [n, n] → 0 < n → (∀ d ∈ bd, 0 < d) →
    g.WF → g.dims = perMatrix bd → g.layout.offset = 0 →
    ∃ r, traceVjp 1 (· * ·) 0 1 0 g x.dims = .ok r ∧ r.dims = x.dims ∧
      ∀ b i, InRange b bd → i < n → r.elem (b ++ [i, i]) = g.elem (perMatrixIndex bd b)

/-- **C71 is false.** With two matrices both get the first upstream entry. -/
theorem C71_full_false : ¬ C71_full ∧
    (traceVjp 1 (· * ·) (0 : ℚ) 1 0 ⟨[10, 20], Layout.fromShape [2]⟩ [2, 2, 2]).bind (fun r => .ok r.listed) =
      .ok [10, 0, 0, 10, 10, 0, 0, 10] := by
  refine ⟨fun h => ?_, by decide +kernel⟩
  obtain ⟨r, h1, _, h2⟩ := h ⟨[1, 2, 3, 4, 5, 6, 7, 8], Layout.fromShape [2, 2, 2]⟩
    ⟨[10, 20], Layout.fromShape [2]⟩ [2] 2 (fresh_wf rfl) rfl (by decide) (by decide) (fresh_wf rfl) rfl rfl
  have e : traceVjp 1 (· * ·) (0 : ℚ) 1 0 ⟨[10, 20], Layout.fromShape [2]⟩ [2, 2, 2] =
    .ok ⟨[10, 0, 0, 10, 20, 0, 0, 20], ⟨[2, 2, 2], [0, 2, 1], 0⟩⟩ := by decide +kernel
  have h1' : traceVjp 1 (· * ·) (0 : ℚ) 1 0 ⟨[10, 20], Layout.fromShape [2]⟩ [2, 2, 2] = .ok r := h1
  rw [e] at h1'
  cases h1'
  have := h2 [1] 0 (by decide) (by decide)
  revert this
  decide +kernel

/-- A single matrix: the gradient of the trace has the wrong rank. -/
theorem C71_trace_matrix_shape :
    (traceVjp 1 (· * ·) (0 : ℚ) 1 0 ⟨[10], Layout.fromShape [1]⟩ [2, 2]).bind (fun r => .ok r.dims) =
      .ok [1, 2, 2] := by decide +kernel

/-- A batch with the singular matrix `diag(1, 0)`: the gradient of its determinant is `diag(0, 1)`, the rule
(with NaN for a division by zero) gives no number at all. -/
theorem C71_det_singular_nan :
    (detVjp nanArith 1 none ⟨[some 1, some 0, some 0, some 0], Layout.fromShape [1, 2, 2]⟩
      ⟨[some 0], Layout.fromShape [1]⟩ ⟨[some 1], Layout.fromShape [1]⟩).bind (fun r => .ok r.listed) =
      .ok [none, none, none, none] := by decide +kernel

/-- A case of `C71_det_partial`: two matrices, with upstream entries 1 and 10. -/
example : (detVjp ratArith 1 0 ⟨[1, 2, 3, 4, 2, 0, 0, 5], Layout.fromShape [2, 2, 2]⟩
      ⟨[-2, 10], Layout.fromShape [2]⟩ ⟨[1, 10], Layout.fromShape [2]⟩).bind (fun r => .ok r.listed) =
    .ok [4, -3, -2, 1, 50, 0, 0, 20] := by decide +kernel

/-- The batch with the one matrix `[[2, 1], [0, 5]]`. -/
theorem exBatch_det {K : Type} [Field K] [CharZero K] : ∀ b (M : Matrix (Fin 2) (Fin 2) K), InRange b [1] →
    MatrixAt ⟨[2, 1, 0, 5], Layout.fromShape [1, 2, 2]⟩ b M → M.det ≠ 0 := by
  intro b M hb hM
  match b, hb with
  | [0], _ =>
    have h00 := hM 0 0
    have h01 := hM 0 1
    have h10 := hM 1 0
    have h11 := hM 1 1
    simp [Tensor.elem, Layout.fromShape, Layout.computeStrides, dot] at h00 h01 h10 h11
    rw [Matrix.det_fin_two, ← h00, ← h01, ← h10, ← h11]
    norm_num
  | [i + 1], hb => exact absurd hb.1 (by omega)

/-- The hypotheses of `C71_det_partial` hold for it. -/
example (g : Tensor ℚ) (hg : g.WF) (hgd : g.dims = [1]) (hgo : g.layout.isContiguous = false ∨ g.layout.offset = 0) :
    ∃ y r, Tensor.det ratArith ⟨[2, 1, 0, 5], Layout.fromShape [1, 2, 2]⟩ = .ok y ∧
      detVjp ratArith 4 0 ⟨[2, 1, 0, 5], Layout.fromShape [1, 2, 2]⟩ y g = .ok r ∧ r.dims = [1, 2, 2] :=
  let ⟨y, r, h1, h2, _, h3, _⟩ := C71_det_partial (some (1 / 10 ^ 15)) 4 0 (bd := [1]) (n := 2)
    (x := ⟨[2, 1, 0, 5], Layout.fromShape [1, 2, 2]⟩) (g := g) (fresh_wf rfl) rfl (by decide) (by decide) (by decide)
    (by decide) (.inl (by decide)) exBatch_det hg hgd hgo
  ⟨y, r, h1, h2, h3⟩

/-- The hypotheses of `C71_inv_derivative_partial` hold for it. -/
example (g : Tensor ℝ) (hg : g.WF) (hgd : g.dims = [1, 2, 2]) :
    ∃ y r, Tensor.inv (fieldArith none) (⟨[2, 1, 0, 5], Layout.fromShape [1, 2, 2]⟩ : Tensor ℝ) = .ok y ∧
      invVjp (fieldArith none) 4 0 y g = .ok r ∧ r.dims = [1, 2, 2] :=
  let ⟨y, r, h1, h2, _, h3, _⟩ := C71_inv_derivative_partial none 4 0 (bd := [1]) (n := 2)
    (x := ⟨[2, 1, 0, 5], Layout.fromShape [1, 2, 2]⟩) (g := g) (fresh_wf rfl) rfl (by decide) (by decide)
    exBatch_det hg hgd
  ⟨y, r, h1, h2, h3⟩

/-- A case of `C71_inv_partial`. -/
example : (invVjp ratArith 1 0 ⟨[1/2, 0, 0, 1/5], Layout.fromShape [2, 2]⟩
      ⟨[1, 2, 3, 4], Layout.fromShape [2, 2]⟩).bind (fun r => .ok r.listed) =
    .ok [-1/4, -1/5, -3/10, -4/25] := by decide +kernel

/-- A case of `C71_trace_partial`. -/
example : (traceVjp 1 (· * ·) (0 : ℚ) 1 0 ⟨[10], Layout.fromShape [1]⟩ [1, 2, 2]).bind (fun r => .ok r.listed) =
      .ok [10, 0, 0, 10] := by decide +kernel

end Hodu
