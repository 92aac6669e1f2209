import Verif.Model.MatrixRules
import Verif.Props.Matmul
import Verif.Props.ConvAdjoint
import Verif.Props.ShapeGrad
import Verif.Lemmas.Compose
import Mathlib.Data.List.GetD

/-!
# C77: the backward rules of the matrix products
-/

namespace Hodu
open Spec

variable {α R : Type}

/-- `ga` and `gb` are the gradients of `f(a, b)` for the output gradient `g`: of the shapes of `a` and `b`,
and adjoint to `f` in either argument, for all tensors of the same shapes in any layout. -/
def Spec.IsBilinearVjp [CommSemiring R] (f : Tensor R → Tensor R → Res (Tensor R)) (a b g ga gb : Tensor R) :
    Prop :=
  ga.WF ∧ gb.WF ∧ ga.dims = a.dims ∧ gb.dims = b.dims ∧
  (∀ a', a'.WF → a'.dims = a.dims →
    ∃ y, f a' b = .ok y ∧ y.dims = g.dims ∧ inner g y = inner ga a') ∧
  (∀ b', b'.WF → b'.dims = b.dims →
    ∃ y, f a b' = .ok y ∧ y.dims = g.dims ∧ inner g y = inner gb b')

/-- The value of a tensor at a position. -/
abbrev Spec.at0 [Zero R] (t : Tensor R) (i : List Nat) : R := (t.elem i).getD 0

theorem elem_at0 [Zero R] {t : Tensor R} (ht : t.WF) {i : List Nat} (hi : InRange i t.dims) :
    t.elem i = some (at0 t i) := by
  obtain ⟨v, hv⟩ := Option.isSome_iff_exists.mp (ht.2 i hi)
  simp [at0, hv]

theorem sumOver_append [AddCommMonoid R] (l m : List Nat) (f : List Nat → R) :
    sumOver (l ++ m) f = sumOver l fun x => sumOver m fun y => f (x ++ y) := by
  induction l generalizing f with
  | nil =>
    rw [List.nil_append]
    simp [sumOver, indices, numel, unravel]
  | cons d l ih =>
    rw [List.cons_append, sumOver_cons, sumOver_cons]
    congr 1
    apply List.map_congr_left
    intro i _
    rw [ih]
    rfl

theorem sumOver_mat [CommSemiring R] (l : List Nat) (M N : Nat) (f : List Nat → R) :
    sumOver (l ++ [M, N]) f = sumOver l fun x => lsum (List.range M) fun i => lsum (List.range N) fun j =>
      f (x ++ [i, j]) := by
  rw [sumOver_append]
  congr 1
  funext x
  rw [sumOver_cons]
  apply lsum_congr
  intro i _
  rw [sumOver_cons]
  apply lsum_congr
  intro j _
  simp [sumOver, indices, numel, unravel]

/-- Exchanging the last two axes. -/
theorem transposeLast {t : Tensor α} {l : List Nat} {M K : Nat} (ht : t.WF) (hd : t.dims = l ++ [M, K]) :
    ∃ r, t.transpose (-2) (-1) = .ok r ∧ r.WF ∧ r.dims = l ++ [K, M] ∧
      ∀ bi k i, InRange bi l → k < K → i < M → r.elem (bi ++ [k, i]) = t.elem (bi ++ [i, k]) := by
  have hlen : t.dims.length = l.length + 2 := by rw [hd]; simp
  obtain ⟨r, h1, h2, h3, h4, h5⟩ := (C03_transpose ht (-2) (-1)).2 l.length (l.length + 1) (by omega)
    ⟨by omega, .inr (by omega)⟩ ⟨by omega, .inr (by omega)⟩
  have hsw : ∀ (bi : List Nat) (x y k : Nat), bi.length = l.length → k < l.length + 2 →
      (bi ++ [y, x]).getD k 0 = (bi ++ [x, y]).getD (if k = l.length then l.length + 1 else
        if k = l.length + 1 then l.length else k) 0 := by
    intro bi x y k hb hk
    have e : ∀ u v m, m = 0 ∨ m = 1 → (bi ++ [u, v]).getD (l.length + m) 0 = if m = 0 then u else v := by
      intro u v m hm
      rw [← hb, List.getD_append_right _ _ _ _ (by omega)]
      rcases hm with rfl | rfl <;> simp
    by_cases h0 : k = l.length
    · rw [if_pos h0, h0, e _ _ 1 (by simp)]
      have := e y x 0 (by simp)
      simpa using this
    · rw [if_neg h0]
      by_cases h1 : k = l.length + 1
      · rw [if_pos h1, h1, e _ _ 1 (by simp)]
        have := e x y 0 (by simp)
        simpa using this.symm
      · rw [if_neg h1, List.getD_append _ _ _ _ (by omega), List.getD_append _ _ _ _ (by omega)]
  have hrd : r.dims = l ++ [K, M] := by
    apply ext_getD (by rw [h3, hlen]; simp)
    intro k hk
    have hk' : k < l.length + 2 := by simpa using hk
    rw [h5 k (by omega), hd, ← hsw l M K k rfl hk']
  refine ⟨r, h1, h2, hrd, fun bi k i hb hk hi => ?_⟩
  apply h4 _ _ (by rw [hd]; exact inRange_mat hb hi hk) (by rw [hrd]; exact inRange_mat hb hk hi)
  intro m hm
  exact hsw bi i k m hb.length (by omega)

theorem sumProd_eq [CommSemiring R] {K : Nat} {xs ys : List R} {F G : Nat → R} (h1 : xs.length = K)
    (h2 : ys.length = K) (hx : ∀ k, k < K → xs[k]? = some (F k)) (hy : ∀ k, k < K → ys[k]? = some (G k)) :
    sumProd 0 (· + ·) (· * ·) xs ys = lsum (List.range K) fun k => F k * G k := by
  rw [sumProd, foldl_add_eq_sum, lsum]
  congr 1
  apply List.ext_getElem (by simp [h1, h2])
  intro k hk1 hk2
  simp only [List.length_map, List.length_range] at hk2
  have e1 := hx k hk2
  have e2 := hy k hk2
  rw [List.getElem?_eq_getElem (by omega)] at e1 e2
  rw [List.getElem_zipWith, Option.some.inj e1, Option.some.inj e2]
  simp

/-- The batched product as a function of its operands' values. -/
theorem matmul_vals [CommSemiring R] {a b : Tensor R} {la lb batch : List Nat} {M K N : Nat} (cores : Nat)
    (ha : a.WF) (hb : b.WF) (hda : a.dims = la ++ [M, K]) (hdb : b.dims = lb ++ [K, N])
    (hpa : ∀ d ∈ la, 0 < d) (hpb : ∀ d ∈ lb, 0 < d) (h16 : la.length ≤ 16 ∧ lb.length ≤ 16)
    (hc : Compatible la lb) (hs : CommonShape la lb batch) (hba : BroadcastsTo la batch)
    (hbb : BroadcastsTo lb batch) :
    ∃ c, a.matmul cores 0 (· + ·) (· * ·) b = .ok c ∧ c.WF ∧ c.dims = batch ++ [M, N] ∧
      ∀ bi i j, InRange bi batch → i < M → j < N → c.elem (bi ++ [i, j]) =
        some (lsum (List.range K) fun k =>
          at0 a (broadcastIndex la bi ++ [i, k]) * at0 b (broadcastIndex lb bi ++ [k, j])) := by
  obtain ⟨batch', c, g1, g2, g3, g4, g5⟩ := (C32_matmul_partial 0 (· + ·) (· * ·) cores ha hb hda hdb hpa hpb h16).2
    rfl hc
  obtain rfl : batch' = batch := g1.unique hs
  refine ⟨c, g2, g4, g3, fun bi i j hbi hi hj => ?_⟩
  obtain ⟨xs, ys, x1, y1, x2, y2, e⟩ := g5 bi i j hbi hi hj
  rw [e]
  congr 1
  apply sumProd_eq x1 y1
  · intro k hk
    rw [← x2 k hk, elem_at0 ha]
    rw [hda]; exact inRange_mat (inRange_broadcastIndex hba hbi) hi hk
  · intro k hk
    rw [← y2 k hk, elem_at0 hb]
    rw [hdb]; exact inRange_mat (inRange_broadcastIndex hbb hbi) hk hj

/-- The same for equal batch shapes. -/
theorem matmul_vals_same [CommSemiring R] {a b : Tensor R} {l : List Nat} {M K N : Nat} (cores : Nat)
    (ha : a.WF) (hb : b.WF) (hda : a.dims = l ++ [M, K]) (hdb : b.dims = l ++ [K, N])
    (hp : ∀ d ∈ l, 0 < d) (h16 : l.length ≤ 16) :
    ∃ c, a.matmul cores 0 (· + ·) (· * ·) b = .ok c ∧ c.WF ∧ c.dims = l ++ [M, N] ∧
      ∀ bi i j, InRange bi l → i < M → j < N → c.elem (bi ++ [i, j]) =
        some (lsum (List.range K) fun k => at0 a (bi ++ [i, k]) * at0 b (bi ++ [k, j])) := by
  obtain ⟨h1, h2⟩ := commonShape_of_broadcastsTo (broadcastsTo_self l)
  obtain ⟨c, g1, g2, g3, g4⟩ := matmul_vals cores ha hb hda hdb hp hp ⟨h16, h16⟩ h1 h2
    (broadcastsTo_self l) (broadcastsTo_self l)
  refine ⟨c, g1, g2, g3, fun bi i j hbi hi hj => ?_⟩
  rw [g4 bi i j hbi hi hj, broadcastIndex_self hbi]

/-- The values the rule computes. -/
theorem matmulVjp_vals [CommSemiring R] {a b g : Tensor R} {l : List Nat} {M K N : Nat} (cores : Nat)
    (ha : a.WF) (hb : b.WF) (hg : g.WF) (hda : a.dims = l ++ [M, K]) (hdb : b.dims = l ++ [K, N])
    (hdg : g.dims = l ++ [M, N]) (hp : ∀ d ∈ l, 0 < d) (h16 : l.length ≤ 16) :
    ∃ da db, matmulVjp cores 0 (· + ·) (· * ·) a b g = .ok (da, db) ∧
      (l = [] → dotVjp cores 0 (· + ·) (· * ·) a b g = .ok (da, db)) ∧
      da.WF ∧ db.WF ∧ da.dims = a.dims ∧ db.dims = b.dims ∧
      (∀ bi i k, InRange bi l → i < M → k < K → at0 da (bi ++ [i, k]) =
        lsum (List.range N) fun j => at0 g (bi ++ [i, j]) * at0 b (bi ++ [k, j])) ∧
      (∀ bi k j, InRange bi l → k < K → j < N → at0 db (bi ++ [k, j]) =
        lsum (List.range M) fun i => at0 a (bi ++ [i, k]) * at0 g (bi ++ [i, j])) := by
  obtain ⟨bt, b1, b2, b3, b4⟩ := transposeLast hb hdb
  obtain ⟨at', a1, a2, a3, a4⟩ := transposeLast ha hda
  obtain ⟨da, c1, c2, c3, c4⟩ := matmul_vals_same cores hg b2 hdg b3 hp h16
  obtain ⟨db, d1, d2, d3, d4⟩ := matmul_vals_same cores a2 hg a3 hdg hp h16
  refine ⟨da, db, ?_, ?_, c2, d2, by rw [c3, hda], by rw [d3, hdb], ?_, ?_⟩
  · rw [matmulVjp, b1, Res.ok_bind, c1, Res.ok_bind, a1, Res.ok_bind, d1, Res.ok_bind,
      Tensor.sumToShape, if_pos (by rw [c3, hda]), Res.ok_bind, Tensor.sumToShape,
      if_pos (by rw [d3, hdb]), Res.ok_bind]
  · rintro rfl
    rw [dotVjp, b1, Res.ok_bind, Tensor.dotOp, if_pos (by rw [hdg, b3]; simp), c1, Res.ok_bind, a1,
      Res.ok_bind, Tensor.dotOp, if_pos (by rw [hdg, a3]; simp), d1, Res.ok_bind]
  · intro bi i k hbi hi hk
    rw [at0, c4 bi i k hbi hi hk, Option.getD_some]
    apply lsum_congr
    intro j hj
    rw [at0, at0, b4 bi j k hbi (List.mem_range.mp hj) hk]
  · intro bi k j hbi hk hj
    rw [at0, d4 bi k j hbi hk hj, Option.getD_some]
    apply lsum_congr
    intro i hi
    rw [at0, a4 bi k i hbi hk (List.mem_range.mp hi)]

/-- Both adjoint identities, for equal batch shapes. -/
theorem matmul_adjoint [CommSemiring R] (l : List Nat) (M K N : Nat) (A B G : List Nat → R) :
    (sumOver (l ++ [M, N]) fun p => G p * (lsum (List.range K) fun k =>
        A (p.take l.length ++ [p.getD l.length 0, k]) * B (p.take l.length ++ [k, p.getD (l.length + 1) 0]))) =
      (sumOver (l ++ [M, K]) fun p => (lsum (List.range N) fun j =>
        G (p.take l.length ++ [p.getD l.length 0, j]) * B (p.take l.length ++ [p.getD (l.length + 1) 0, j])) * A p) ∧
    (sumOver (l ++ [M, N]) fun p => G p * (lsum (List.range K) fun k =>
        A (p.take l.length ++ [p.getD l.length 0, k]) * B (p.take l.length ++ [k, p.getD (l.length + 1) 0]))) =
      sumOver (l ++ [K, N]) fun p => (lsum (List.range M) fun i =>
        A (p.take l.length ++ [i, p.getD l.length 0]) * G (p.take l.length ++ [i, p.getD (l.length + 1) 0])) * B p := by
  have e0 : ∀ (x : List Nat) (u v : Nat), x.length = l.length →
      (x ++ [u, v]).take l.length = x ∧ (x ++ [u, v]).getD l.length 0 = u ∧
        (x ++ [u, v]).getD (l.length + 1) 0 = v := by
    intro x u v hx
    refine ⟨by rw [← hx]; simp, ?_, ?_⟩
    · rw [← hx, List.getD_append_right _ _ _ _ (by omega)]; simp
    · rw [← hx, List.getD_append_right _ _ _ _ (by omega)]; simp
  have lhs : (sumOver (l ++ [M, N]) fun p => G p * (lsum (List.range K) fun k =>
        A (p.take l.length ++ [p.getD l.length 0, k]) * B (p.take l.length ++ [k, p.getD (l.length + 1) 0]))) =
      sumOver l fun x => lsum (List.range M) fun i => lsum (List.range N) fun j => lsum (List.range K) fun k =>
        G (x ++ [i, j]) * (A (x ++ [i, k]) * B (x ++ [k, j])) := by
    rw [sumOver_mat]
    apply sumOver_congr
    intro x hx
    apply lsum_congr; intro i _
    apply lsum_congr; intro j _
    obtain ⟨f1, f2, f3⟩ := e0 x i j hx.length
    rw [f1, f2, f3, mul_lsum]
  rw [lhs]
  constructor
  · rw [sumOver_mat]
    apply sumOver_congr
    intro x hx
    apply lsum_congr; intro i _
    rw [lsum_comm]
    apply lsum_congr; intro k _
    obtain ⟨f1, f2, f3⟩ := e0 x i k hx.length
    rw [f1, f2, f3, lsum_mul]
    apply lsum_congr; intro j _
    ring
  · rw [sumOver_mat]
    apply sumOver_congr
    intro x hx
    have : (lsum (List.range M) fun i => lsum (List.range N) fun j => lsum (List.range K) fun k =>
        G (x ++ [i, j]) * (A (x ++ [i, k]) * B (x ++ [k, j]))) =
        lsum (List.range M) fun i => lsum (List.range K) fun k => lsum (List.range N) fun j =>
        G (x ++ [i, j]) * (A (x ++ [i, k]) * B (x ++ [k, j])) := by
      apply lsum_congr; intro i _; rw [lsum_comm]
    rw [this, lsum_comm]
    apply lsum_congr; intro k _
    rw [lsum_comm]
    apply lsum_congr; intro j _
    obtain ⟨f1, f2, f3⟩ := e0 x k j hx.length
    rw [f1, f2, f3, lsum_mul]
    apply lsum_congr; intro i _
    ring

/-- An inner product of tensors with a batch shape, from values at split positions. -/
theorem inner_mat [CommSemiring R] {s t : Tensor R} {l : List Nat} {M N : Nat} {F : List Nat → R}
    (hd : s.dims = l ++ [M, N])
    (hF : ∀ bi i j, InRange bi l → i < M → j < N → at0 t (bi ++ [i, j]) = F (bi ++ [i, j])) :
    inner s t = sumOver (l ++ [M, N]) fun p => at0 s p * F p := by
  unfold inner
  rw [hd, sumOver_mat, sumOver_mat]
  apply sumOver_congr
  intro x hx
  apply lsum_congr; intro i hi
  apply lsum_congr; intro j hj
  have := hF x i j hx (List.mem_range.mp hi) (List.mem_range.mp hj)
  rw [at0] at this
  rw [this]

theorem inner_comm [CommSemiring R] {s t : Tensor R} (h : s.dims = t.dims) : inner s t = inner t s := by
  unfold inner
  rw [h]
  congr 1
  funext i
  exact mul_comm _ _

/-- The adjoint identities for the rule's results. -/
theorem matmulVjp_isVjp [CommSemiring R] {a b g : Tensor R} {l : List Nat} {M K N : Nat} (cores : Nat)
    (ha : a.WF) (hb : b.WF) (hg : g.WF) (hda : a.dims = l ++ [M, K]) (hdb : b.dims = l ++ [K, N])
    (hdg : g.dims = l ++ [M, N]) (hp : ∀ d ∈ l, 0 < d) (h16 : l.length ≤ 16) :
    ∃ da db, matmulVjp cores 0 (· + ·) (· * ·) a b g = .ok (da, db) ∧
      (l = [] → dotVjp cores 0 (· + ·) (· * ·) a b g = .ok (da, db)) ∧
      IsBilinearVjp (fun a b => a.matmul cores 0 (· + ·) (· * ·) b) a b g da db := by
  obtain ⟨da, db, h1, h1', h2, h3, h4, h5, h6, h7⟩ := matmulVjp_vals cores ha hb hg hda hdb hdg hp h16
  have e0 : ∀ (x : List Nat) (u v : Nat), x.length = l.length →
      (x ++ [u, v]).take l.length = x ∧ (x ++ [u, v]).getD l.length 0 = u ∧
        (x ++ [u, v]).getD (l.length + 1) 0 = v := by
    intro x u v hx
    refine ⟨by rw [← hx]; simp, ?_, ?_⟩
    · rw [← hx, List.getD_append_right _ _ _ _ (by omega)]; simp
    · rw [← hx, List.getD_append_right _ _ _ _ (by omega)]; simp
  refine ⟨da, db, h1, h1', h2, h3, h4, h5, fun a' ha' hda' => ?_, fun b' hb' hdb' => ?_⟩
  · obtain ⟨y, y1, y2, y3, y4⟩ := matmul_vals_same cores ha' hb (by rw [hda', hda]) hdb hp h16
    refine ⟨y, y1, by rw [y3, hdg], ?_⟩
    rw [inner_mat (F := fun p => lsum (List.range K) fun k =>
        at0 a' (p.take l.length ++ [p.getD l.length 0, k]) *
          at0 b (p.take l.length ++ [k, p.getD (l.length + 1) 0])) hdg,
      inner_comm (by rw [h4, hda']), inner_mat (M := M) (N := K) (F := fun p => lsum (List.range N) fun j =>
        at0 g (p.take l.length ++ [p.getD l.length 0, j]) *
          at0 b (p.take l.length ++ [p.getD (l.length + 1) 0, j])) (by rw [hda', hda]),
      (matmul_adjoint l M K N (at0 a') (at0 b) (at0 g)).1]
    · congr 1; funext p; exact mul_comm _ _
    · intro bi i k hbi hi hk
      obtain ⟨f1, f2, f3⟩ := e0 bi i k hbi.length
      simp only [f1, f2, f3]
      exact h6 bi i k hbi hi hk
    · intro bi i j hbi hi hj
      obtain ⟨f1, f2, f3⟩ := e0 bi i j hbi.length
      simp only [f1, f2, f3]
      rw [at0, y4 bi i j hbi hi hj, Option.getD_some]
  · obtain ⟨y, y1, y2, y3, y4⟩ := matmul_vals_same cores ha hb' hda (by rw [hdb', hdb]) hp h16
    refine ⟨y, y1, by rw [y3, hdg], ?_⟩
    rw [inner_mat (F := fun p => lsum (List.range K) fun k =>
        at0 a (p.take l.length ++ [p.getD l.length 0, k]) *
          at0 b' (p.take l.length ++ [k, p.getD (l.length + 1) 0])) hdg,
      inner_comm (by rw [h5, hdb']), inner_mat (M := K) (N := N) (F := fun p => lsum (List.range M) fun i =>
        at0 a (p.take l.length ++ [i, p.getD l.length 0]) *
          at0 g (p.take l.length ++ [i, p.getD (l.length + 1) 0])) (by rw [hdb', hdb]),
      (matmul_adjoint l M K N (at0 a) (at0 b') (at0 g)).2]
    · congr 1; funext p; exact mul_comm _ _
    · intro bi k j hbi hk hj
      obtain ⟨f1, f2, f3⟩ := e0 bi k j hbi.length
      simp only [f1, f2, f3]
      exact h7 bi k j hbi hk hj
    · intro bi i j hbi hi hj
      obtain ⟨f1, f2, f3⟩ := e0 bi i j hbi.length
      simp only [f1, f2, f3]
      rw [at0, y4 bi i j hbi hi hj, Option.getD_some]

theorem inner_eq_allIndices [CommSemiring R] (s t : Tensor R) :
    inner s t = ((allIndices s.dims).map fun j => (t.elem j).getD 0 * (s.elem j).getD 0).sum := by
  unfold inner sumOver allIndices indices
  congr 2
  funext j
  exact mul_comm _ _

/-- The gradient of a view is adjoint to it. -/
theorem Spec.ViewGrad.adjoint [CommSemiring R] {x y g r : Tensor R} {π : List Nat → List Nat}
    (h : ViewGrad x y g r π) (hd : y.dims = g.dims) : inner g y = inner r x := by
  obtain ⟨js, a, b, c⟩ := pairing_fibre h.sums (fun i => (x.elem i).getD 0) (allIndices r.dims)
    (nodup_allIndices _) (fun i hi => mem_allIndices.mp hi)
  rw [inner_eq_allIndices, inner_eq_allIndices, ← c]
  have e : ((allIndices g.dims).map fun j => (y.elem j).getD 0 * (g.elem j).getD 0) =
      (allIndices g.dims).map fun j => (x.elem (π j)).getD 0 * (g.elem j).getD 0 := by
    apply List.map_congr_left
    intro j hj
    rw [(h.reads j (by rw [hd]; exact mem_allIndices.mp hj)).2]
  rw [e]
  apply List.Perm.sum_eq
  apply List.Perm.map
  rw [List.perm_ext_iff_of_nodup (nodup_allIndices _) a]
  intro j
  rw [mem_allIndices, b, mem_allIndices]
  exact ⟨fun h' => ⟨h', h.sums.maps j h'⟩, fun h' => h'.1⟩

/-- Two tensors with the same values have the same inner products. -/
theorem inner_congr_right [CommSemiring R] {g y y' : Tensor R} (h : ∀ i, InRange i g.dims → y.elem i = y'.elem i) :
    inner g y = inner g y' := by
  unfold inner
  apply sumOver_congr
  intro i hi
  rw [h i hi]

/-- Broadcasting the batch dimensions first does not change the product. -/
theorem matmul_broadcast [CommSemiring R] {a b a' b' : Tensor R} {la lb batch : List Nat} {M K N : Nat}
    (cores : Nat) (ha : a.WF) (hb : b.WF) (hda : a.dims = la ++ [M, K]) (hdb : b.dims = lb ++ [K, N])
    (hpa : ∀ d ∈ la, 0 < d) (hpb : ∀ d ∈ lb, 0 < d) (hp : ∀ d ∈ batch, 0 < d) (h16 : batch.length ≤ 16)
    (hc : Compatible la lb) (hs : CommonShape la lb batch)
    (ea : a.broadcast (batch ++ [M, K]) = .ok a') (eb : b.broadcast (batch ++ [K, N]) = .ok b') :
    ∃ c c', a.matmul cores 0 (· + ·) (· * ·) b = .ok c ∧ a'.matmul cores 0 (· + ·) (· * ·) b' = .ok c' ∧
      c.dims = batch ++ [M, N] ∧ ∀ i, InRange i (batch ++ [M, N]) → c.elem i = c'.elem i := by
  have hba := broadcastsTo_left hs
  have hbb := broadcastsTo_right hc hs
  have hba' : BroadcastsTo a.dims (batch ++ [M, K]) := by rw [hda]; exact broadcastsTo_mat.mpr hba
  have hbb' : BroadcastsTo b.dims (batch ++ [K, N]) := by rw [hdb]; exact broadcastsTo_mat.mpr hbb
  obtain ⟨a'', a1, a2, a3, a4⟩ := (C05_broadcast ha _).2 hba'
  obtain ⟨b'', b1, b2, b3, b4⟩ := (C05_broadcast hb _).2 hbb'
  rw [ea] at a1; cases a1
  rw [eb] at b1; cases b1
  obtain ⟨c, c1, c2, c3, c4⟩ := matmul_vals cores ha hb hda hdb hpa hpb
    ⟨le_trans hba.1 h16, le_trans hbb.1 h16⟩ hc hs hba hbb
  obtain ⟨c', d1, d2, d3, d4⟩ := matmul_vals_same cores a3 b3 a2 b2 hp h16
  refine ⟨c, c', c1, d1, c3, fun i hi => ?_⟩
  obtain ⟨bi, i, j, rfl, hbi, hi, hj⟩ := inRange_mat_split hi
  rw [c4 bi i j hbi hi hj, d4 bi i j hbi hi hj]
  congr 1
  apply lsum_congr
  intro k hk
  have hk := List.mem_range.mp hk
  have l1 := hba.1
  have l2 := hbb.1
  rw [at0, at0, at0, at0, (a4 _ (inRange_mat hbi hi hk)).2, (b4 _ (inRange_mat hbi hk hj)).2, hda, hdb,
    broadcastIndex_append (by rw [hbi.length]; exact l1) hi hk,
    broadcastIndex_append (by rw [hbi.length]; exact l2) hk hj]

/-! ## The property -/

/-- **C77, full claim** (false): the tape's gradient of every batched product is adjoint to it. -/
def C77_full (R : Type) [CommSemiring R] : Prop :=
  ∀ (a b g : Tensor R) (la lb batch : List Nat) (M K N cores : Nat), a.WF → b.WF → g.WF →
    a.dims = la ++ [M, K] → b.dims = lb ++ [K, N] → Compatible la lb → CommonShape la lb batch →
    g.dims = batch ++ [M, N] →
    ∃ da db, matmulGrad cores 0 (· + ·) (· * ·) a b g batch M K N = .ok (da, db) ∧
      IsBilinearVjp (fun a b => a.matmul cores 0 (· + ·) (· * ·) b) a b g da db

/-- **C77, product of two matrices** (`MatrixOp::Dot`, the operation recorded for it): for all sizes
including 0, layouts and worker counts. -/
theorem C77_dot [CommSemiring R] {a b g : Tensor R} {M K N : Nat} (cores : Nat) (ha : a.WF) (hb : b.WF)
    (hg : g.WF) (hda : a.dims = [M, K]) (hdb : b.dims = [K, N]) (hdg : g.dims = [M, N]) :
    ∃ da db, dotVjp cores 0 (· + ·) (· * ·) a b g = .ok (da, db) ∧
      IsBilinearVjp (fun a b => a.matmul cores 0 (· + ·) (· * ·) b) a b g da db := by
  obtain ⟨da, db, _, h2, h3⟩ := matmulVjp_isVjp (l := []) cores ha hb hg hda hdb hdg (by simp) (by simp)
  exact ⟨da, db, h2 rfl, h3⟩

/-- **C77, the recorded batched product** (`MatrixOp::Matmul`: both operands already have the common
batch shape). Missing from the full claim: batch dimensions of size 0 and more than 16 of them. -/
theorem C77_matmul_partial [CommSemiring R] {a b g : Tensor R} {l : List Nat} {M K N : Nat} (cores : Nat)
    (ha : a.WF) (hb : b.WF) (hg : g.WF) (hda : a.dims = l ++ [M, K]) (hdb : b.dims = l ++ [K, N])
    (hdg : g.dims = l ++ [M, N]) (hp : ∀ d ∈ l, 0 < d) (h16 : l.length ≤ 16) :
    ∃ da db, matmulVjp cores 0 (· + ·) (· * ·) a b g = .ok (da, db) ∧
      IsBilinearVjp (fun a b => a.matmul cores 0 (· + ·) (· * ·) b) a b g da db := by
  obtain ⟨da, db, h1, _, h3⟩ := matmulVjp_isVjp cores ha hb hg hda hdb hdg hp h16
  exact ⟨da, db, h1, h3⟩

/-- **C77, batched product with broadcasting**: through the broadcasts the operands pass before the
product, the gradients have the shapes of the operands themselves and are adjoint to `a.matmul b`.
Missing from the full claim: dimensions of size 0 and rank above 16. -/
theorem C77_broadcast_partial [CommSemiring R] {a b g : Tensor R} {la lb batch : List Nat} {M K N : Nat}
    (cores : Nat) (ha : a.WF) (hb : b.WF) (hg : g.WF) (hda : a.dims = la ++ [M, K])
    (hdb : b.dims = lb ++ [K, N]) (hdg : g.dims = batch ++ [M, N]) (hc : Compatible la lb)
    (hs : CommonShape la lb batch) (hpa : ∀ d ∈ la, 0 < d) (hpb : ∀ d ∈ lb, 0 < d)
    (hp : ∀ d ∈ batch, 0 < d) (hM : 0 < M) (hK : 0 < K) (hN : 0 < N) (h16 : batch.length + 2 ≤ 16) :
    ∃ da db, matmulGrad cores 0 (· + ·) (· * ·) a b g batch M K N = .ok (da, db) ∧
      IsBilinearVjp (fun a b => a.matmul cores 0 (· + ·) (· * ·) b) a b g da db := by
  have hba' : BroadcastsTo a.dims (batch ++ [M, K]) := by
    rw [hda]; exact broadcastsTo_mat.mpr (broadcastsTo_left hs)
  have hbb' : BroadcastsTo b.dims (batch ++ [K, N]) := by
    rw [hdb]; exact broadcastsTo_mat.mpr (broadcastsTo_right hc hs)
  obtain ⟨a', a1, a2, a3, a4⟩ := (C05_broadcast ha _).2 hba'
  obtain ⟨b', b1, b2, b3, b4⟩ := (C05_broadcast hb _).2 hbb'
  obtain ⟨da', db', h1, h2, h3, h4, h5, h6, h7⟩ :=
    C77_matmul_partial cores a3 b3 hg a2 b2 hdg hp (by omega)
  have hz : ∀ (U V : Nat), 0 < U → 0 < V → ∀ d ∈ batch ++ [U, V], 0 < d := by
    intro U V hU hV d hd
    rcases List.mem_append.mp hd with h | h
    · exact hp d h
    · simp only [List.mem_cons, List.not_mem_nil, or_false] at h
      rcases h with rfl | rfl <;> assumption
  have hra : da'.dims = batch ++ [M, K] := by rw [h4, a2]
  have hrb : db'.dims = batch ++ [K, N] := by rw [h5, b2]
  obtain ⟨da, k1, k2⟩ := C78_broadcast_partial ha a1 h2 h4 (by rw [hra]; simpa using h16)
    (by rw [hra]; exact hz M K hM hK)
  obtain ⟨db, m1, m2⟩ := C78_broadcast_partial hb b1 h3 h5 (by rw [hrb]; simpa using h16)
    (by rw [hrb]; exact hz K N hK hN)
  refine ⟨da, db, ?_, k2.sums.wf, m2.sums.wf, k2.dims, m2.dims, ?_, ?_⟩
  · rw [matmulGrad, a1, Res.ok_bind, b1, Res.ok_bind, h1, Res.ok_bind, k1, Res.ok_bind, m1, Res.ok_bind]
  · intro x hx hdx
    obtain ⟨x', x1, x2, x3, x4⟩ := (C05_broadcast hx _).2 (by rw [hdx]; exact hba')
    obtain ⟨c, c', e1, e2, e3, e4⟩ := matmul_broadcast cores hx hb (by rw [hdx, hda]) hdb hpa hpb hp
      (by omega) hc hs x1 b1
    obtain ⟨y, f1, f2, f3⟩ := h6 x' x3 (by rw [x2, a2])
    simp only at f1
    rw [e2] at f1; cases f1
    refine ⟨c, e1, by rw [e3, hdg], ?_⟩
    rw [inner_congr_right (y' := c') (by rw [hdg]; exact e4), f3]
    obtain ⟨r, r1, r2⟩ := C78_broadcast_partial hx x1 h2 (by rw [h4, a2, x2]) (by rw [hra]; simpa using h16)
      (by rw [hra]; exact hz M K hM hK)
    rw [hdx, k1] at r1; cases r1
    exact r2.adjoint (by rw [x2, hra])
  · intro x hx hdx
    obtain ⟨x', x1, x2, x3, x4⟩ := (C05_broadcast hx _).2 (by rw [hdx]; exact hbb')
    obtain ⟨c, c', e1, e2, e3, e4⟩ := matmul_broadcast cores ha hx hda (by rw [hdx, hdb]) hpa hpb hp
      (by omega) hc hs a1 x1
    obtain ⟨y, f1, f2, f3⟩ := h7 x' x3 (by rw [x2, b2])
    simp only at f1
    rw [e2] at f1; cases f1
    refine ⟨c, e1, by rw [e3, hdg], ?_⟩
    rw [inner_congr_right (y' := c') (by rw [hdg]; exact e4), f3]
    obtain ⟨r, r1, r2⟩ := C78_broadcast_partial hx x1 h3 (by rw [h5, b2, x2]) (by rw [hrb]; simpa using h16)
      (by rw [hrb]; exact hz K N hK hN)
    rw [hdx, m1] at r1; cases r1
    exact r2.adjoint (by rw [x2, hrb])

/-- A case that meets the hypotheses: `[2, 1, 2] · [2, 2]`, the second operand shared by the batch. -/
example : ∃ da db, matmulGrad 2 0 (· + ·) (· * ·) (cnt [2, 1, 2]) (cnt [2, 2]) (cnt [2, 1, 2]) [2] 1 2 2 =
      .ok (da, db) ∧
    IsBilinearVjp (fun a b => a.matmul 2 0 (· + ·) (· * ·) b) (cnt [2, 1, 2]) (cnt [2, 2]) (cnt [2, 1, 2])
      da db :=
  C77_broadcast_partial (la := [2]) (lb := []) (batch := [2]) (M := 1) (K := 2)
    (N := 2) 2 (cnt_wf [2, 1, 2]) (cnt_wf [2, 2]) (cnt_wf [2, 1, 2]) rfl rfl rfl
    (by intro k; exact .inr (.inr (by simp [dimFromRight]))) ⟨rfl, by intro k; match k with
      | 0 => rfl
      | k + 1 => simp [dimFromRight]⟩ (by simp) (by simp) (by simp) (by omega) (by omega) (by omega) (by simp)

/-- The gradients of that case. -/
example : (match matmulGrad 2 0 (· + ·) (· * ·) (cnt [2, 1, 2]) (cnt [2, 2]) (cnt [2, 1, 2]) [2] 1 2 2 with
    | .ok (da, db) => (da.storage, da.dims, db.storage, db.dims)
    | _ => default) = ([1, 3, 3, 13], [2, 1, 2], [4, 6, 6, 10], [2, 2]) := by decide +kernel

/-- **C77 is false for more than 16 batch dimensions**: the gradient of a product of two tensors of rank
19 is undefined behaviour (as is the product itself, C32). -/
theorem C77_rank_wrong :
    matmulVjp 1 0 (· + ·) (· * ·) (cnt (List.replicate 17 1 ++ [1, 1])) (cnt (List.replicate 17 1 ++ [1, 1]))
      (cnt (List.replicate 17 1 ++ [1, 1])) = .ub := by
  decide +kernel

/-- The full claim does not hold: a batch dimension of size 0 is an error (C32). -/
theorem C77_full_false : ¬ C77_full Nat := by
  intro h
  obtain ⟨a, b, ha, hb, hda, hdb, hc, he⟩ := C32_zero_batch_wrong
  obtain ⟨da, db, _, _, _, _, _, h1, _⟩ := h a b a [0] [1] [0] 1 1 1 1 ha hb ha hda hdb hc
    ⟨rfl, fun k => by match k with
      | 0 => rfl
      | k + 1 => simp [dimFromRight]⟩ hda
  obtain ⟨y, h2, _⟩ := h1 a ha rfl
  simp only [he 1] at h2
  cases h2

end Hodu
