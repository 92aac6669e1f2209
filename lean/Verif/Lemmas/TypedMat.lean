import Verif.Model.Attention
import Verif.Lemmas.TypedRed
import Verif.Lemmas.NormCells
import Verif.Props.MatmulGrad

/-!
# Values of transposes, products and softmax of typed tensors
-/

open Finset

namespace Hodu

open Spec

section

variable {α : Type}

/-- Exchanging two axes; `g` maps an index of the result to the index it shows. -/
theorem Val.transpose {t : Tensor α} {d e : List Nat} {F : List Nat → α} (h : Val t d F) {x y : Int}
    {a b : Nat} (hn : 2 ≤ d.length) (ha : IsAxis d.length x a) (hb : IsAxis d.length y b)
    (hl : e.length = d.length)
    (he : ∀ k, k < d.length → e.getD k 0 = d.getD (if k = a then b else if k = b then a else k) 0)
    {g : List Nat → List Nat} (hg : ∀ j, InRange j e → InRange (g j) d ∧
      ∀ k, k < d.length → j.getD k 0 = (g j).getD (if k = a then b else if k = b then a else k) 0) :
    ∃ r, t.transpose x y = .ok r ∧ Val r e (fun j => F (g j)) := by
  have hd := h.dims
  obtain ⟨r, h1, h2, h3, h4, h5⟩ := (C03_transpose h.wf x y).2 a b (by rw [hd]; exact hn)
    (by rw [hd]; exact ha) (by rw [hd]; exact hb)
  rw [hd] at h3 h4 h5
  have hde : r.dims = e := by
    apply List.ext_getElem (by omega)
    intro k k1 k2
    have u := h5 k (by omega)
    rw [← he k (by omega)] at u
    simpa [List.getD_eq_getElem?_getD, List.getElem?_eq_getElem k1, List.getElem?_eq_getElem k2] using u
  refine ⟨r, h1, h2, hde, Or.inr ?_, fun j hj => ?_⟩
  · obtain ⟨s, v1, -⟩ := h.viewC
    rw [Tensor.transpose, v1] at h1
    obtain ⟨l, l1, l2⟩ := Res.bind_eq_ok.mp h1
    cases l2
    unfold Layout.transpose at l1
    split at l1
    · cases l1
    · split at l1
      · cases l1; rfl
      · cases l1
  · obtain ⟨g1, g2⟩ := hg j hj
    rw [h4 (g j) j g1 (by rw [hde]; exact hj) g2, h.vals _ g1]

/-- A function of a leading index and the last two. -/
def at2 {β : Type} (n : Nat) (f : List Nat → Nat → Nat → β) (idx : List Nat) : β :=
  f (idx.take n) (idx.getD n 0) (idx.getD (n + 1) 0)

theorem at2_append {β : Type} {n : Nat} {f : List Nat → Nat → Nat → β} {b : List Nat} {i j : Nat}
    (h : b.length = n) : at2 n f (b ++ [i, j]) = f b i j := by
  subst h
  simp [at2]

/-- Exchanging the last two axes. -/
theorem Val.transposeLast {t : Tensor α} {l : List Nat} {M K : Nat} {F : List Nat → α}
    (h : Val t (l ++ [M, K]) F) : ∃ r, t.transpose (-2) (-1) = .ok r ∧
      Val r (l ++ [K, M]) (at2 l.length fun b k i => F (b ++ [i, k])) := by
  obtain ⟨r, h1, h2, h3, h4⟩ := Hodu.transposeLast h.wf h.dims
  refine ⟨r, h1, h2, h3, Or.inr ?_, fun j hj => ?_⟩
  · obtain ⟨s, v1, -⟩ := h.viewC
    rw [Tensor.transpose, v1] at h1
    obtain ⟨l, l1, l2⟩ := Res.bind_eq_ok.mp h1
    cases l2
    unfold Layout.transpose at l1
    split at l1
    · cases l1
    · split at l1
      · cases l1; rfl
      · cases l1
  · obtain ⟨b, i, k, rfl, hb, hi, hk⟩ := inRange_mat_split hj
    rw [h4 b i k hb hi hk, h.vals _ (inRange_mat hb hk hi), at2_append hb.length]

/-- On a matrix, `transpose(0, 1)` is `transpose(-2, -1)`. -/
theorem transpose_01 {t : Tensor α} {d : List Nat} {F : List Nat → α} (h : Val t d F)
    (hd : d.length = 2) : t.transpose 0 1 = t.transpose (-2) (-1) := by
  obtain ⟨s, v1, -⟩ := h.viewC
  rw [Tensor.transpose, Tensor.transpose, v1, v1]
  simp [Layout.transpose, normalizeAxis, Layout.ndim, hd]

/-- The result of a product of matrices is fresh. -/
theorem matmul_offset {a b c : Tensor α} {la lb : List Nat} {M K K' N : Nat} {zero : α}
    {add mul : α → α → α} {cores : Nat} (hda : a.dims = la ++ [M, K]) (hdb : b.dims = lb ++ [K', N])
    (h : a.matmul cores zero add mul b = .ok c) : c.layout.offset = 0 := by
  rw [matmul_rank zero add mul cores hda hdb] at h
  split at h
  · unfold Tensor.dot2d at h
    simp only [Res.bind_eq_ok] at h
    obtain ⟨_, _, _, _, _, _, _, _, h⟩ := h
    split at h
    · cases h
    · obtain ⟨s, -, h⟩ := Res.bind_eq_ok.mp h
      cases h
      rfl
  · unfold Tensor.matmulBatched at h
    simp only at h
    split at h
    · cases h
    · split at h
      · cases h
      · simp only [Res.bind_eq_ok] at h
        obtain ⟨_, _, _, _, _, _, s, -, h⟩ := h
        cases h
        rfl

end

/-! ### Over the reals -/

variable {E : Rt ℝ} {dt : DType}

theorem lsum_range (K : Nat) (f : Nat → ℝ) : lsum (List.range K) f = ∑ k ∈ range K, f k := by
  induction K with
  | zero => simp [lsum]
  | succ K ih => rw [lsum, List.range_succ, Finset.sum_range_succ, ← ih]; simp [lsum]

theorem Val.at0 {t : Tensor ℝ} {d : List Nat} {F : List Nat → ℝ} (h : Val t d F) {i : List Nat}
    (hi : InRange i d) : at0 t i = F i := by
  simp [Spec.at0, h.vals i hi]

/-- The batched product; the batch of the second operand is broadcast to that of the first. -/
theorem Val.matmul {a b : Tensor ℝ} {la lb : List Nat} {M K N : Nat} {F G : List Nat → ℝ} (cores : Nat)
    (ha : Val a (la ++ [M, K]) F) (hb : Val b (lb ++ [K, N]) G) (hpa : ∀ d ∈ la, 0 < d)
    (hpb : ∀ d ∈ lb, 0 < d) (h16 : la.length ≤ 16) (hbr : BroadcastsTo lb la) :
    ∃ c, a.matmul cores 0 (· + ·) (· * ·) b = .ok c ∧
      Val c (la ++ [M, N]) (at2 la.length fun bi i j =>
        ∑ k ∈ range K, F (bi ++ [i, k]) * G (broadcastIndex lb bi ++ [k, j])) := by
  obtain ⟨h1, h2⟩ := commonShape_of_broadcastsTo hbr
  have hl := hbr.1
  obtain ⟨c, g1, g2, g3, g4⟩ := matmul_vals cores ha.wf hb.wf ha.dims hb.dims hpa hpb ⟨h16, by omega⟩ h1
    h2 (broadcastsTo_self la) hbr
  refine ⟨c, g1, g2, g3, Or.inr (matmul_offset ha.dims hb.dims g1), fun idx hi => ?_⟩
  obtain ⟨bi, i, j, rfl, hbi, hi, hj⟩ := inRange_mat_split hi
  rw [g4 bi i j hbi hi hj, at2_append hbi.length, lsum_range]
  congr 1
  refine Finset.sum_congr rfl fun k hk => ?_
  have hk := Finset.mem_range.mp hk
  rw [broadcastIndex_self hbi, ha.at0 (inRange_mat hbi hi hk),
    hb.at0 (inRange_mat (inRange_broadcastIndex hbr hbi) hk hj)]

theorem backend_matmul {dt : DType} (hf : dt.isFloat = true) :
    Dispatch.validate dt (.matrix .matmul) = true ∧
      ∃ l, Dispatch.backend (.matrix .matmul) dt = .ok l := by
  have hv : Dispatch.validate dt (.matrix .matmul) = true := by
    cases dt <;> simp [DType.isFloat] at hf <;> rfl
  exact ⟨hv, _, Dispatch.backend_ok hv rfl rfl rfl⟩

theorem TVal.matmul (hE : E.Real) (hf : dt.isFloat = true) {a b : TT ℝ} {la lb : List Nat} {M K N : Nat}
    {F G : List Nat → ℝ} (ha : TVal a dt (la ++ [M, K]) F) (hb : TVal b dt (lb ++ [K, N]) G)
    (hpa : ∀ d ∈ la, 0 < d) (hpb : ∀ d ∈ lb, 0 < d) (h16 : la.length ≤ 16) (hbr : BroadcastsTo lb la) :
    ∃ r, E.matmul a b = .ok r ∧
      TVal r dt (la ++ [M, N]) (at2 la.length fun bi i j =>
        ∑ k ∈ range K, F (bi ++ [i, k]) * G (broadcastIndex lb bi ++ [k, j])) := by
  obtain ⟨k, κ, lo, hi, hA⟩ := hE
  obtain ⟨s, rfl, ha⟩ := ha
  obtain ⟨t, rfl, hb⟩ := hb
  obtain ⟨c, h1, h2⟩ := ha.matmul E.cores hb hpa hpb h16 hbr
  obtain ⟨hv, l, hl⟩ := backend_matmul hf
  refine ⟨.num dt c, ?_, c, rfl, h2⟩
  have h1' : s.matmul E.cores (E.A.cst .zero) (E.A.bin .add) (E.A.bin .mul) t = .ok c := by
    rw [hA]; exact h1
  simp [Rt.matmul, TT.dtype, hv, h1', hl]

theorem TVal.transposeLast {α : Type} {x : TT α} {l : List Nat} {M K : Nat} {F : List Nat → α}
    (h : TVal x dt (l ++ [M, K]) F) : ∃ r, x.transpose (-2) (-1) = .ok r ∧
      TVal r dt (l ++ [K, M]) (at2 l.length fun b k i => F (b ++ [i, k])) := by
  obtain ⟨t, rfl, h⟩ := h
  obtain ⟨r, h1, h2⟩ := h.transposeLast
  exact ⟨.num dt r, by simp [TT.transpose, h1], r, rfl, h2⟩

/-- The transposed weight of a linear layer, in either spelling. -/
theorem TVal.transposeW {α : Type} {x : TT α} {M K : Nat} {F : List Nat → α} {p q : Int}
    (h : TVal x dt [M, K] F) (hp : (p = -2 ∧ q = -1) ∨ (p = 0 ∧ q = 1)) :
    ∃ r, x.transpose p q = .ok r ∧ TVal r dt [K, M] (fun i => F [i.getD 1 0, i.getD 0 0]) := by
  obtain ⟨r, h1, h2⟩ := TVal.transposeLast (l := []) h
  refine ⟨r, ?_, h2.congr fun idx _ => rfl⟩
  rcases hp with ⟨rfl, rfl⟩ | ⟨rfl, rfl⟩
  · exact h1
  · obtain ⟨t, rfl, h⟩ := h
    rw [← h1]
    simp only [TT.transpose]
    rw [transpose_01 h rfl]

/-- Exchanging the two middle axes of rank 4. -/
theorem TVal.transpose12 {α : Type} {x : TT α} {a b c d : Nat} {F : List Nat → α}
    (h : TVal x dt [a, b, c, d] F) : ∃ r, x.transpose 1 2 = .ok r ∧
      TVal r dt [a, c, b, d] (fun i => F [i.getD 0 0, i.getD 2 0, i.getD 1 0, i.getD 3 0]) := by
  obtain ⟨t, rfl, h⟩ := h
  obtain ⟨r, h1, h2⟩ := h.transpose (x := 1) (y := 2) (a := 1) (b := 2) (e := [a, c, b, d])
    (g := fun i => [i.getD 0 0, i.getD 2 0, i.getD 1 0, i.getD 3 0]) (by simp)
    ⟨by simp, Or.inl rfl⟩ ⟨by simp, Or.inl rfl⟩ rfl
    (by
      intro k hk
      simp only [List.length_cons, List.length_nil] at hk
      obtain rfl | rfl | rfl | rfl : k = 0 ∨ k = 1 ∨ k = 2 ∨ k = 3 := by omega
      all_goals rfl)
    (by
      intro j hj
      match j, hj with
      | [p, q, u, v], ⟨hp, hq, hu, hv, _⟩ =>
        refine ⟨⟨hp, hu, hq, hv, trivial⟩, fun k hk => ?_⟩
        simp only [List.length_cons, List.length_nil] at hk
        obtain rfl | rfl | rfl | rfl : k = 0 ∨ k = 1 ∨ k = 2 ∨ k = 3 := by omega
        all_goals rfl)
  exact ⟨.num dt r, by simp [TT.transpose, h1], r, rfl, h2⟩

theorem Rt.softmax_num {α : Type} {E : Rt α} (hf : dt.isFloat = true) (s : Tensor α) (a : Int) :
    E.softmax (.num dt s) a =
      (s.softmax E.A E.cores E.fill a).bind fun r => .ok (.num dt r) := by
  simp only [Rt.softmax, Tensor.softmax, TT.dims, E.red_num hf, Res.bind_assoc, Res.ok_bind,
    E.bin_num hf (o := .sub) (by simp), E.bin_num hf (o := .div) (by simp), E.un_num hf]

/-- Softmax over the last axis. -/
theorem TVal.softmaxLast (hE : E.Real) (hf : dt.isFloat = true) {x : TT ℝ} {d : List Nat} {n : Nat}
    {F : List Nat → ℝ} (h : TVal x dt (d ++ [n]) F) (hr : d.length < 16) (hpd : ∀ y ∈ d, 0 < y)
    (hn : 0 < n) : ∃ r, E.softmax x (-1) = .ok r ∧ TVal r dt (d ++ [n])
      (fun i => Real.exp (F i) / ∑ t ∈ range n, Real.exp (F (i.dropLast ++ [t]))) := by
  obtain ⟨kc, κ, lo, hi, hA⟩ := hE
  obtain ⟨t, rfl, h⟩ := h
  obtain ⟨r, h1, h2⟩ := softmax_val kc κ lo hi h (by simp; omega) (a := -1) (k := d.length)
    ⟨by simp, Or.inr (by simp)⟩ (by
      intro y hy
      rcases List.mem_append.mp hy with hy | hy
      · exact hpd y hy
      · rw [List.mem_singleton.mp hy]; exact hn) E.cores E.fill
  refine ⟨.num dt r, by rw [Rt.softmax_num hf, hA, h1]; rfl, r, rfl, h2.congr fun idx hi => ?_⟩
  obtain ⟨b, a, rfl, hb, ha⟩ := inRange_of_snoc hi
  rw [sumExp_last F hb, List.dropLast_concat, ← lsum_range]

/-- `squeeze([0])` of a tensor whose first dimension is 1. -/
theorem Val.squeezeFirst {α : Type} {t : Tensor α} {d : List Nat} {F : List Nat → α}
    (h : Val t (1 :: d) F) : ∃ r, t.squeeze [0] = .ok r ∧ Val r d (fun i => F (0 :: i)) := by
  obtain ⟨s, h1, h2⟩ := h.viewC
  refine ⟨⟨s, ⟨d, Layout.computeStrides d, 0⟩⟩, ?_, Val.of_rowMajor fun idx hi => ?_⟩
  · rw [Tensor.squeeze, h1]
    have hsq : Layout.squeezeAxes (1 :: d) [0] = .ok [0] := by
      simp [Layout.squeezeAxes, castUsize]
    simp only [Layout.squeeze, isContiguous_computeStrides, hsq]
    simp [Layout.removeAll]
  · have := h2 (0 :: idx) ⟨by omega, hi⟩
    simpa [rowMajor] using this

/-- A vector times a matrix. -/
theorem TVal.vecmat (hE : E.Real) (hf : dt.isFloat = true) {a b : TT ℝ} {K N : Nat}
    {F G : List Nat → ℝ} (ha : TVal a dt [K] F) (hb : TVal b dt [K, N] G) :
    ∃ r, E.matmul a b = .ok r ∧
      TVal r dt [N] (fun i => ∑ k ∈ range K, F [k] * G [k, i.getD 0 0]) := by
  obtain ⟨k, κ, lo, hi, hA⟩ := hE
  obtain ⟨s, rfl, ha⟩ := ha
  obtain ⟨t, rfl, hb⟩ := hb
  obtain ⟨s', a1, a2⟩ := ha.reshape (e := [1, K]) (G := fun i => F [i.getD 1 0]) (by simp [numel])
    (by
      intro i j hi hj he
      match i, hi, j, hj with
      | [x], _, [y, z], ⟨hy, hz, _⟩ =>
        have hy : y < 1 := hy
        have : x = z := by
          obtain rfl : y = 0 := by omega
          simpa [rowMajor, numel] using he
        subst this
        rfl)
  obtain ⟨c, h1, h2⟩ := a2.matmul (la := []) (lb := []) E.cores hb (by simp) (by simp) (by simp)
    ⟨by simp, by simp⟩
  rw [matmul_rank 0 (· + ·) (· * ·) E.cores (la := []) (lb := []) a2.dims hb.dims, if_pos ⟨rfl, rfl⟩] at h1
  obtain ⟨r, r1, r2⟩ := Val.squeezeFirst (d := [N]) h2
  obtain ⟨hv, l, hl⟩ := backend_matmul hf
  refine ⟨.num dt r, ?_, r, rfl, r2.congr fun idx hi => ?_⟩
  · have hm : s.matmul E.cores 0 (· + ·) (· * ·) t = .ok r := by
      unfold Tensor.matmul
      rw [hb.dims, ha.dims]
      simp [a1, h1, r1]
    have hm' : s.matmul E.cores (E.A.cst .zero) (E.A.bin .add) (E.A.bin .mul) t = .ok r := by
      rw [hA]; exact hm
    simp [Rt.matmul, TT.dtype, hv, hm', hl]
  · match idx, hi with
    | [j], _ => simp [at2, broadcastIndex]

end Hodu
