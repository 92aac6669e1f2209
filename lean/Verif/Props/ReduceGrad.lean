import Verif.Lemmas.ReduceGrad
import Verif.Lemmas.RatOps

/-!
# Gradients of reductions: C69
-/

namespace Hodu
open Spec

/-! ## Cells do not depend on `keep_dim` -/

theorem reduceIndex_eq_iff {K d j j' : List Nat} {keep : Bool} (hj : InRange j d)
    (hj' : InRange j' d) :
    reduceIndex K keep j' = reduceIndex K keep j ↔ ∀ p, p ∉ K → j'[p]? = j[p]? := by
  obtain ⟨b, hb⟩ := exists_base (K := K) (keep := keep) (inRange_reduceIndex (K := K) (keep := keep) hj)
  have h1 := (hb.iff j hj.length).mp rfl
  rw [hb.iff j' hj'.length]
  constructor
  · intro h p hp; rw [h p hp, h1 p hp]
  · intro h p hp; rw [h p hp, h1 p hp]

theorem cell_keep_perm {K d j : List Nat} (keep keep' : Bool) (hj : InRange j d) :
    (cell K keep d (reduceIndex K keep j)).Perm (cell K keep' d (reduceIndex K keep' j)) := by
  apply cell_perm (nodup_cell ..)
  intro i
  rw [mem_cell]
  constructor
  · rintro ⟨h1, h2⟩
    exact ⟨h1, (reduceIndex_eq_iff hj h1).mpr ((reduceIndex_eq_iff hj h1).mp h2)⟩
  · rintro ⟨h1, h2⟩
    exact ⟨h1, (reduceIndex_eq_iff hj h1).mpr ((reduceIndex_eq_iff hj h1).mp h2)⟩

theorem namesAxes_self {n : Nat} {ds : List Int} {K : List Nat} (h : NamesAxes n ds K) :
    NamesAxes n (K.map Int.ofNat) K := by
  rcases h with ⟨rfl, rfl⟩ | ⟨h1, h2⟩
  · by_cases hn : n = 0
    · subst hn; exact Or.inl ⟨rfl, rfl⟩
    · right
      refine ⟨by simpa using hn, ?_⟩
      rw [List.forall₂_map_left_iff]
      apply List.forall₂_same.mpr
      intro k hk
      exact ⟨by simpa using hk, Or.inl rfl⟩
  · right
    have hlt := (show NamesAxes n ds K from Or.inr ⟨h1, h2⟩).lt
    refine ⟨?_, ?_⟩
    · cases h2 with
      | nil => exact absurd rfl h1
      | cons _ _ => simp
    · rw [List.forall₂_map_left_iff]
      apply List.forall₂_same.mpr
      intro k hk
      exact ⟨hlt k hk, Or.inl rfl⟩

theorem vjpDims_eq {n : Nat} {ds : List Int} {K : List Nat} (h : NamesAxes n ds K) :
    vjpDims n K = K := by
  unfold vjpDims
  split
  · rename_i hK
    have hK : K = [] := by simpa using hK
    rcases h with ⟨-, rfl⟩ | ⟨h1, h2⟩
    · rfl
    · subst hK
      cases h2
      exact absurd rfl h1
  · rfl

/-! ## What the rules compute -/

section
variable (k : KernelConsts) (κ : GConst → ℝ) (lo hi : ℝ)

/-- The number the rule of each reduction puts at position `j`, in terms of the cell of `j`. -/
noncomputable def ruleVal (o : ROp) (cellVals : List ℝ) (xj gj : ℝ) : ℝ :=
  match o with
  | .sum => gj
  | .mean => gj * (1 / cellVals.length)
  | .prod => redR .prod cellVals / xj * gj
  | .norm => xj / redR .norm cellVals * gj
  | .var => (xj - meanR cellVals) * ((1 + 1) / cellVals.length) * gj
  | .std => (xj - meanR cellVals) / redR .std cellVals * (1 / cellVals.length) * gj
  | .max => gj * (realOps k κ lo hi).ofBool (realCmp .eq xj (redR .max cellVals)) /
      (cellVals.map fun v => (realOps k κ lo hi).ofBool (realCmp .eq v (redR .max cellVals))).sum
  | .min => gj * (realOps k κ lo hi).ofBool (realCmp .eq xj (redR .min cellVals)) /
      (cellVals.map fun v => (realOps k κ lo hi).ofBool (realCmp .eq v (redR .min cellVals))).sum
  | .logsum => 1 / Real.exp (redR .logsum cellVals) * gj
  | .logsumexp => Real.exp xj / Real.exp (redR .logsumexp cellVals) * gj

variable {x out g : Tensor ℝ} {d K : List Nat} {X G : List Nat → ℝ} {ds : List Int} {keep : Bool}

theorem broadcast_aligned {t : Tensor ℝ} {F : List Nat → ℝ} (ht : Val t (reduceShape K keep d) F)
    (ha : Aligned K keep d) :
    ∃ r, t.broadcast d = .ok r ∧ Val r d (fun j => F (reduceIndex K keep j)) := by
  obtain ⟨r, h1, h2, _⟩ := ht.broadcast ha.1
  exact ⟨r, h1, h2.congr fun j hj => by rw [ha.2 j hj]⟩

/-- The backward rules compute `ruleVal` at every position, provided the reduced shape broadcasts
back to the input shape in the right way. -/
theorem reduceVjp_val (hx : Val x d X) (hr : d.length ≤ 16) (hax : NamesAxes d.length ds K)
    (hn : K.Nodup) (hpd : ∀ y ∈ d, 0 < y) (o : ROp)
    (hout : Val out (reduceShape K keep d) (fun idx => redR o ((cell K keep d idx).map X)))
    (hg : Val g (reduceShape K keep d) G) (ha : Aligned K keep d)
    (hv : o = .var ∨ o = .std → Aligned K false d) (cores : Nat) (fill : ℝ) :
    ∃ r, reduceVjp (realOps k κ lo hi) cores fill o x out g K = .ok r ∧
      Val r d (fun j => ruleVal k κ lo hi o ((cell K keep d (reduceIndex K keep j)).map X) (X j)
        (G (reduceIndex K keep j))) := by
  have hK := vjpDims_eq hax
  have hax' := namesAxes_self hax
  have hcount : ∀ j, InRange j d →
      ((cell K keep d (reduceIndex K keep j)).map X).length = reduceCount d K := by
    intro j hj
    rw [List.length_map, length_cell hn hax.lt (inRange_reduceIndex hj)]
  have hmean : ∀ j, InRange j d → meanR ((cell K false d (reduceIndex K false j)).map X) =
      meanR ((cell K keep d (reduceIndex K keep j)).map X) := by
    intro j hj
    exact redR_perm ((cell_keep_perm false keep hj).map X) .mean
  unfold reduceVjp
  simp only [hx.dims, hK]
  cases o
  case sum =>
    obtain ⟨r, h1, h2⟩ := broadcast_aligned hg ha
    exact ⟨r, h1, h2.congr fun j hj => rfl⟩
  case mean =>
    obtain ⟨s, h1, h2⟩ := hg.unary cores
      (fun v => realBin .mul v (realBin .div 1 ((reduceCount d K : ℕ) : ℝ))) fill
    obtain ⟨r, h3, h4⟩ := broadcast_aligned h2 ha
    refine ⟨r, ?_, h4.congr fun j hj => ?_⟩
    · simp only [realOps, realCst]
      rw [h1, Res.ok_bind, h3]
    · simp only [ruleVal, hcount j hj]; rfl
  case prod =>
    obtain ⟨bo, h1, h2⟩ := broadcast_aligned hout ha
    obtain ⟨q, h3, h4⟩ := h2.binary_same hx hpd cores (realBin .div) fill
    obtain ⟨bg, h5, h6⟩ := broadcast_aligned hg ha
    obtain ⟨r, h7, h8⟩ := h4.binary_same h6 hpd cores (realBin .mul) fill
    refine ⟨r, ?_, h8.congr fun j hj => rfl⟩
    simp only [realOps, h1, h3, h5, h7, Res.ok_bind]
  case norm =>
    obtain ⟨bo, h1, h2⟩ := broadcast_aligned hout ha
    obtain ⟨q, h3, h4⟩ := hx.binary_same h2 hpd cores (realBin .div) fill
    obtain ⟨bg, h5, h6⟩ := broadcast_aligned hg ha
    obtain ⟨r, h7, h8⟩ := h4.binary_same h6 hpd cores (realBin .mul) fill
    refine ⟨r, ?_, h8.congr fun j hj => rfl⟩
    simp only [realOps, h1, h3, h5, h7, Res.ok_bind]
  case var =>
    have ha' := hv (Or.inl rfl)
    obtain ⟨m, h1, h2⟩ := hx.red (keep := false) hr hax' hn hpd k κ lo hi .mean (by simp)
    obtain ⟨bm, h3, h4⟩ := broadcast_aligned h2 ha'
    obtain ⟨df, h5, h6⟩ := hx.binary_same h4 hpd cores (realBin .sub) fill
    obtain ⟨s, h7, h8⟩ := h6.unary cores
      (fun v => realBin .mul v (realBin .div (realBin .add 1 1) ((reduceCount d K : ℕ) : ℝ))) fill
    obtain ⟨bg, h9, h10⟩ := broadcast_aligned hg ha
    obtain ⟨r, h11, h12⟩ := h8.binary_same h10 hpd cores (realBin .mul) fill
    refine ⟨r, ?_, h12.congr fun j hj => ?_⟩
    · rw [h1]
      simp only [realOps, realCst, h3, h5, h7, h9, h11, Res.ok_bind]
    · simp only [ruleVal, hcount j hj, ← hmean j hj]; rfl
  case std =>
    have ha' := hv (Or.inr rfl)
    obtain ⟨m, h1, h2⟩ := hx.red (keep := false) hr hax' hn hpd k κ lo hi .mean (by simp)
    obtain ⟨bm, h3, h4⟩ := broadcast_aligned h2 ha'
    obtain ⟨df, h5, h6⟩ := hx.binary_same h4 hpd cores (realBin .sub) fill
    obtain ⟨bs, h13, h14⟩ := broadcast_aligned hout ha
    obtain ⟨q, h15, h16⟩ := h6.binary_same h14 hpd cores (realBin .div) fill
    obtain ⟨s, h7, h8⟩ := h16.unary cores
      (fun v => realBin .mul v (realBin .div 1 ((reduceCount d K : ℕ) : ℝ))) fill
    obtain ⟨bg, h9, h10⟩ := broadcast_aligned hg ha
    obtain ⟨r, h11, h12⟩ := h8.binary_same h10 hpd cores (realBin .mul) fill
    refine ⟨r, ?_, h12.congr fun j hj => ?_⟩
    · rw [h1]
      simp only [realOps, realCst, h3, h5, h7, h9, h11, h13, h15, Res.ok_bind]
    · simp only [ruleVal, hcount j hj, ← hmean j hj]; rfl
  case logsum =>
    obtain ⟨s, h1, h2⟩ := hout.unary cores (realUn k .exp) fill
    obtain ⟨bs, h3, h4⟩ := broadcast_aligned h2 ha
    obtain ⟨q, h5, h6⟩ := h4.unary cores (realUn k .recip) fill
    obtain ⟨bg, h7, h8⟩ := broadcast_aligned hg ha
    obtain ⟨r, h9, h10⟩ := h6.binary_same h8 hpd cores (realBin .mul) fill
    refine ⟨r, ?_, h10.congr fun j hj => rfl⟩
    simp only [realOps, h1, h3, h5, h7, h9, Res.ok_bind]
  case logsumexp =>
    obtain ⟨ex, h1, h2⟩ := hx.unary cores (realUn k .exp) fill
    obtain ⟨s, h3, h4⟩ := hout.unary cores (realUn k .exp) fill
    obtain ⟨bs, h5, h6⟩ := broadcast_aligned h4 ha
    obtain ⟨q, h7, h8⟩ := h2.binary_same h6 hpd cores (realBin .div) fill
    obtain ⟨bg, h9, h10⟩ := broadcast_aligned hg ha
    obtain ⟨r, h11, h12⟩ := h8.binary_same h10 hpd cores (realBin .mul) fill
    refine ⟨r, ?_, h12.congr fun j hj => rfl⟩
    simp only [realOps, h1, h3, h5, h7, h9, h11, Res.ok_bind]
  case max =>
    obtain ⟨bo, h1, h2⟩ := broadcast_aligned hout ha
    obtain ⟨m, h3, h4⟩ := hx.compare h2 hpd (realCmp .eq)
    obtain ⟨mf, h5, h6⟩ := h4.unary cores (realOps k κ lo hi).ofBool fill
    obtain ⟨c, h7, h8⟩ := h6.red (keep := true) hr hax' hn hpd k κ lo hi .sum (by simp)
    obtain ⟨bc, h9, h10⟩ := broadcast_aligned h8 (aligned_keep K d)
    obtain ⟨bg, h11, h12⟩ := broadcast_aligned hg ha
    obtain ⟨mg, h13, h14⟩ := h12.binary_same h6 hpd cores (realBin .mul) fill
    obtain ⟨r, h15, h16⟩ := h14.binary_same h10 hpd cores (realBin .div) fill
    refine ⟨r, ?_, h16.congr fun j hj => ?_⟩
    · dsimp only
      rw [h1, Res.ok_bind, show (realOps k κ lo hi).cmp .eq = realCmp .eq from rfl, h3, Res.ok_bind,
        h5, Res.ok_bind, h7, Res.ok_bind, h9, Res.ok_bind, h11, Res.ok_bind,
        show (realOps k κ lo hi).bin .mul = realBin .mul from rfl, h13, Res.ok_bind,
        show (realOps k κ lo hi).bin .div = realBin .div from rfl, h15]
    · simp only [ruleVal]
      show _ * _ / _ = _
      congr 1
      simp only [redR]
      rw [((cell_keep_perm true keep hj).map _).sum_eq, List.map_map]
      congr 1
      apply List.map_congr_left
      intro i hi
      simp only [Function.comp, (mem_cell.mp hi).2]
  case min =>
    obtain ⟨bo, h1, h2⟩ := broadcast_aligned hout ha
    obtain ⟨m, h3, h4⟩ := hx.compare h2 hpd (realCmp .eq)
    obtain ⟨mf, h5, h6⟩ := h4.unary cores (realOps k κ lo hi).ofBool fill
    obtain ⟨c, h7, h8⟩ := h6.red (keep := true) hr hax' hn hpd k κ lo hi .sum (by simp)
    obtain ⟨bc, h9, h10⟩ := broadcast_aligned h8 (aligned_keep K d)
    obtain ⟨bg, h11, h12⟩ := broadcast_aligned hg ha
    obtain ⟨mg, h13, h14⟩ := h12.binary_same h6 hpd cores (realBin .mul) fill
    obtain ⟨r, h15, h16⟩ := h14.binary_same h10 hpd cores (realBin .div) fill
    refine ⟨r, ?_, h16.congr fun j hj => ?_⟩
    · dsimp only
      rw [h1, Res.ok_bind, show (realOps k κ lo hi).cmp .eq = realCmp .eq from rfl, h3, Res.ok_bind,
        h5, Res.ok_bind, h7, Res.ok_bind, h9, Res.ok_bind, h11, Res.ok_bind,
        show (realOps k κ lo hi).bin .mul = realBin .mul from rfl, h13, Res.ok_bind,
        show (realOps k κ lo hi).bin .div = realBin .div from rfl, h15]
    · simp only [ruleVal]
      show _ * _ / _ = _
      congr 1
      simp only [redR]
      rw [((cell_keep_perm true keep hj).map _).sum_eq, List.map_map]
      congr 1
      apply List.map_congr_left
      intro i hi
      simp only [Function.comp, (mem_cell.mp hi).2]

theorem ofBool_real (b : Bool) : (realOps k κ lo hi).ofBool b = if b then 1 else 0 := by
  cases b <;> rfl

/-- `ruleVal` depends on the cell only through its elements. -/
theorem ruleVal_perm {l l' : List ℝ} (h : l.Perm l') (o : ROp) (a b : ℝ) :
    ruleVal k κ lo hi o l a b = ruleVal k κ lo hi o l' a b := by
  have hm : meanR l = meanR l' := redR_perm h .mean
  cases o <;> simp only [ruleVal, redR_perm h, h.length_eq, hm] <;>
    rw [(h.map _).sum_eq]

/-- The number the rule computes is the gradient times the derivative. -/
theorem ruleVal_eq (o : ROp) (v gj : ℝ) (ws : List ℝ) (hreg : RegularR o v ws) :
    ruleVal k κ lo hi o (v :: ws) v gj = gj * dR o v ws := by
  cases o
  case sum => simp [ruleVal, dR]
  case mean => rfl
  case prod =>
    have hv : v ≠ 0 := hreg
    simp only [ruleVal, dR, redR, List.prod_cons]
    field_simp
  case norm => simp only [ruleVal, dR]; ring
  case var => simp only [ruleVal, dR]; ring
  case std =>
    simp only [ruleVal, dR]
    rw [div_mul_div_comm, mul_one, mul_comm (redR ROp.std _)]
    ring
  case logsum =>
    have h0 : 0 < (v :: ws).sum := hreg
    simp only [ruleVal, dR, redR, Real.exp_log h0]
    ring
  case logsumexp =>
    simp only [ruleVal, dR, redR, Real.exp_log (sum_exp_pos (l := v :: ws) (by simp))]
    ring
  case max =>
    have hg := maxR_isGreatest (l := v :: ws) (by simp)
    simp only [ruleVal, dR, redR, ofBool_real]
    by_cases hv : ∀ w ∈ ws, w ≤ v
    · have hlt : ∀ w ∈ ws, w < v := by
        rcases hreg with h | ⟨w, hw, h⟩
        · exact fun w hw => lt_of_le_of_ne (hv w hw) (h w hw)
        · exact absurd (hv w hw) (not_le.mpr h)
      have hm : maxR (v :: ws) = v := maxR_unique (by simp) fun w hw => by
        rcases List.mem_cons.mp hw with rfl | hw
        · rfl
        · exact hv w hw
      have h0 : (ws.map fun w => if realCmp .eq w v = true then (1 : ℝ) else 0) =
          ws.map fun _ => 0 := by
        apply List.map_congr_left
        intro w hw
        simp [realCmp, (hlt w hw).ne]
      rw [if_pos hv, hm, List.map_cons, List.sum_cons, h0]
      simp [realCmp]
    · have hne : v ≠ maxR (v :: ws) := by
        intro h
        apply hv
        intro w hw
        rw [h]
        exact hg.2 w (by simp [hw])
      rw [if_neg hv]
      simp [realCmp, hne]
  case min =>
    have hg := minR_isLeast (l := v :: ws) (by simp)
    simp only [ruleVal, dR, redR, ofBool_real]
    by_cases hv : ∀ w ∈ ws, v ≤ w
    · have hlt : ∀ w ∈ ws, v < w := by
        rcases hreg with h | ⟨w, hw, h⟩
        · exact fun w hw => lt_of_le_of_ne (hv w hw) (fun he => h w hw he.symm)
        · exact absurd (hv w hw) (not_le.mpr h)
      have hm : minR (v :: ws) = v := minR_unique (by simp) fun w hw => by
        rcases List.mem_cons.mp hw with rfl | hw
        · rfl
        · exact hv w hw
      have h0 : (ws.map fun w => if realCmp .eq w v = true then (1 : ℝ) else 0) =
          ws.map fun _ => 0 := by
        apply List.map_congr_left
        intro w hw
        simp [realCmp, (hlt w hw).ne']
      rw [if_pos hv, hm, List.map_cons, List.sum_cons, h0]
      simp [realCmp]
    · have hne : v ≠ minR (v :: ws) := by
        intro h
        apply hv
        intro w hw
        rw [h]
        exact hg.2 w (by simp [hw])
      rw [if_neg hv]
      simp [realCmp, hne]

end

/-! ## C69 -/

/-- `keep_dim` was set, or the reduced dimensions are the leading ones (in particular: all of them).
The rules of the variance and the standard deviation recompute the mean without `keep_dim`, so for
them only the second case counts. -/
def Spec.GradShape (o : ROp) (K : List Nat) (keep : Bool) (n : Nat) : Prop :=
  (keep = true ∧ o ≠ .var ∧ o ≠ .std) ∨ ∃ m, m ≤ n ∧ ∀ k, k ∈ K ↔ k < m

/-- **C69 (partial)**: for a reduction of a tensor of real numbers over distinct axes, with `keep_dim`
or over leading axes, the reduction has the textbook value of each cell, its backward rule succeeds
with a tensor of the input's shape, and the value at position `j` is the incoming gradient of the
cell of `j` times the derivative of that cell's value with respect to the element at `j` — at every
position where the reduction is differentiable (and, for the product, the element is not 0).

Missing from the full property: other axes without `keep_dim` (`C69_full_false`), variance and
standard deviation over non-leading axes, a product with a zero element, rank above 16, zero sizes,
contiguous views with an offset (see C10), rounding. -/
theorem C69_reduce_gradient_partial (k : KernelConsts) (κ : GConst → ℝ) (lo hi : ℝ)
    {x g : Tensor ℝ} {d K : List Nat} {X G : List Nat → ℝ} {ds : List Int} {keep : Bool}
    (hx : Val x d X) (hg : Val g (reduceShape K keep d) G) (hr : d.length ≤ 16)
    (hax : NamesAxes d.length ds K) (hn : K.Nodup) (hpd : ∀ y ∈ d, 0 < y) (o : ROp)
    (hs : GradShape o K keep d.length)
    (hb : o = .max ∨ o = .min → ∀ j, InRange j d → lo ≤ X j ∧ X j ≤ hi) (cores : Nat) (fill : ℝ) :
    ∃ out r, x.red (realOps k κ lo hi) o ds keep = .ok out ∧
      (∀ idx, InRange idx (reduceShape K keep d) →
        out.elem idx = some (redR o ((cell K keep d idx).map X))) ∧
      reduceVjp (realOps k κ lo hi) cores fill o x out g K = .ok r ∧ r.WF ∧ r.dims = d ∧
      ∀ j rest, InRange j d → (cell K keep d (reduceIndex K keep j)).Perm (j :: rest) →
        RegularR o (X j) (rest.map X) →
        ∃ D, r.elem j = some (G (reduceIndex K keep j) * D) ∧
          HasDerivAt (fun s => redR o
            ((cell K keep d (reduceIndex K keep j)).map (Function.update X j s))) D (X j) := by
  have ha : Aligned K keep d ∧ (o = .var ∨ o = .std → Aligned K false d) := by
    rcases hs with ⟨rfl, h1, h2⟩ | ⟨m, hm, hK⟩
    · exact ⟨aligned_keep K d, fun h => by rcases h with h | h <;> contradiction⟩
    · exact ⟨aligned_leading hK d hm keep, fun _ => aligned_leading hK d hm false⟩
  obtain ⟨out, h1, h2⟩ := hx.red (keep := keep) hr hax hn hpd k κ lo hi o hb
  obtain ⟨r, h3, h4⟩ := reduceVjp_val k κ lo hi hx hr hax hn hpd o h2 hg ha.1 ha.2 cores fill
  refine ⟨out, r, h1, h2.vals, h3, h4.wf, h4.dims, ?_⟩
  intro j rest hj hp hreg
  have hnr : j ∉ rest := by
    have := hp.nodup_iff.mp (nodup_cell ..)
    exact (List.nodup_cons.mp this).1
  refine ⟨dR o (X j) (rest.map X), ?_, cell_hasDerivAt o X hp hnr hreg⟩
  rw [h4.vals j hj, ruleVal_perm k κ lo hi (hp.map X), List.map_cons, ruleVal_eq k κ lo hi o _ _ _ hreg]

/-- The positions of `C69_reduce_gradient_partial` exist: every position is the first of a
permutation of its cell. -/
theorem C69_cells {K d j : List Nat} {keep : Bool} (hj : InRange j d) :
    ∃ rest, (cell K keep d (reduceIndex K keep j)).Perm (j :: rest) :=
  (cell_split hj).imp fun _ h => h.1

/-- **C69, ties**: where several elements of a cell share the maximum, the gradient of the cell is
divided equally among them; the others get 0. -/
theorem C69_max_ties (k : KernelConsts) (κ : GConst → ℝ) (lo hi : ℝ) {x g : Tensor ℝ}
    {d K : List Nat} {X G : List Nat → ℝ} {ds : List Int} {keep : Bool}
    (hx : Val x d X) (hg : Val g (reduceShape K keep d) G) (hr : d.length ≤ 16)
    (hax : NamesAxes d.length ds K) (hn : K.Nodup) (hpd : ∀ y ∈ d, 0 < y)
    (hs : GradShape .max K keep d.length)
    (hb : ∀ j, InRange j d → lo ≤ X j ∧ X j ≤ hi) (cores : Nat) (fill : ℝ) :
    ∃ out r, x.red (realOps k κ lo hi) .max ds keep = .ok out ∧
      reduceVjp (realOps k κ lo hi) cores fill .max x out g K = .ok r ∧ r.dims = d ∧
      ∀ j M, InRange j d → M ∈ (cell K keep d (reduceIndex K keep j)).map X →
        (∀ v ∈ (cell K keep d (reduceIndex K keep j)).map X, v ≤ M) →
        r.elem j = some (if X j = M then G (reduceIndex K keep j) /
          (((cell K keep d (reduceIndex K keep j)).filter fun i => decide (X i = M)).length : ℕ)
          else 0) := by
  have ha : Aligned K keep d := by
    rcases hs with ⟨rfl, h1, h2⟩ | ⟨m, hm, hK⟩
    · exact aligned_keep K d
    · exact aligned_leading hK d hm keep
  obtain ⟨out, h1, h2⟩ := hx.red (keep := keep) hr hax hn hpd k κ lo hi .max (fun _ => hb)
  obtain ⟨r, h3, h4⟩ := reduceVjp_val k κ lo hi hx hr hax hn hpd .max h2 hg ha (by simp) cores fill
  refine ⟨out, r, h1, h3, h4.dims, ?_⟩
  intro j M hj hM hle
  rw [h4.vals j hj]
  simp only [ruleVal, redR, ofBool_real, maxR_unique hM hle, List.map_map]
  have hc : ∀ l : List (List Nat), (l.map ((fun v => if realCmp .eq v M = true then (1 : ℝ) else 0) ∘ X)).sum =
      ((l.filter fun i => decide (X i = M)).length : ℕ) := by
    intro l
    induction l with
    | nil => simp
    | cons a l ih =>
      rw [List.map_cons, List.sum_cons, ih]
      by_cases h : X a = M
      · simp [realCmp, h]; ring
      · simp [realCmp, h]
  rw [hc]
  by_cases h : X j = M
  · simp [realCmp, h]
  · simp [realCmp, h]

/-- The gradient `r` of a sum puts the incoming gradient of its cell at every position. -/
def Spec.SumGradient (d K : List Nat) (keep : Bool) (g r : Tensor (Option ℚ)) : Prop :=
  r.dims = d ∧ ∀ j, InRange j d → r.elem j = g.elem (reduceIndex K keep j)

/-- **C69, full property**, for the sum: over any axes, with or without `keep_dim`. -/
def C69_full : Prop :=
  ∀ (x g : Tensor (Option ℚ)) (K : List Nat) (keep : Bool), x.WF → g.WF →
    (∀ y ∈ x.dims, 0 < y) → K.Nodup → K ≠ [] → (∀ k ∈ K, k < x.dims.length) →
    g.dims = reduceShape K keep x.dims →
    ∃ out r, x.red ratOps .sum (K.map Int.ofNat) keep = .ok out ∧
      reduceVjp ratOps 1 none .sum x out g K = .ok r ∧ SumGradient x.dims K keep g r

/-- The tensor of shape `d` with the given elements. -/
def ratTensor (d : List Nat) (vs : List ℚ) : Tensor (Option ℚ) := ⟨vs.map some, Layout.fromShape d⟩

/-- **C69 is false as stated**: the rules broadcast the gradient back without restoring the reduced
dimensions.  For a 2×2 matrix summed over its last axis without `keep_dim` the gradient of row 0 is
given to column 0: `[[5, 7], [5, 7]]` instead of `[[5, 5], [7, 7]]`. -/
theorem C69_full_false : ¬ C69_full ∧
    reduceVjp ratOps 1 none .sum (ratTensor [2, 2] [1, 2, 3, 4]) (ratTensor [2] [3, 7])
      (ratTensor [2] [5, 7]) [1] = .ok ⟨[some 5, some 7], ⟨[2, 2], [0, 1], 0⟩⟩ := by
  have h2 : reduceVjp ratOps 1 none .sum (ratTensor [2, 2] [1, 2, 3, 4]) (ratTensor [2] [3, 7])
      (ratTensor [2] [5, 7]) [1] = .ok ⟨[some 5, some 7], ⟨[2, 2], [0, 1], 0⟩⟩ := by decide +kernel
  refine ⟨fun h => ?_, h2⟩
  obtain ⟨out, r, h3, h4, h5, h6⟩ := h (ratTensor [2, 2] [1, 2, 3, 4]) (ratTensor [2] [5, 7]) [1] false
    (fresh_wf_list _ _ (by decide)) (fresh_wf_list _ _ (by decide)) (by decide) (by decide)
    (by decide) (by decide) (by decide)
  have h7 : reduceVjp ratOps 1 none .sum (ratTensor [2, 2] [1, 2, 3, 4]) out
      (ratTensor [2] [5, 7]) [1] = .ok ⟨[some 5, some 7], ⟨[2, 2], [0, 1], 0⟩⟩ := h2
  rw [h4] at h7
  cases h7
  have := h6 [0, 1] (by decide)
  revert this
  decide +kernel

/-- Further failures: a 2×3 matrix summed over its last axis without `keep_dim` has no gradient at all
(the rule fails); the rule of the variance fails or gives wrong numbers even with `keep_dim`, because
it recomputes the mean without it (the true gradient of the example is `[[-1, 1], [-1, 1]]`); the
rule of the product is not a number where an element is 0, although the derivative is the product of
the others. -/
theorem C69_failures :
    reduceVjp ratOps 1 none .sum (ratTensor [2, 3] [1, 2, 3, 4, 5, 6]) (ratTensor [2] [6, 15])
      (ratTensor [2] [1, 1]) [1] = .err ∧
    (ratTensor [2, 3] [1, 2, 3, 4, 5, 6]).red ratOps .var [1] true =
      .ok (ratTensor [2, 1] [2 / 3, 2 / 3]) ∧
    reduceVjp ratOps 1 none .var (ratTensor [2, 3] [1, 2, 3, 4, 5, 6])
      (ratTensor [2, 1] [2 / 3, 2 / 3]) (ratTensor [2, 1] [1, 1]) [1] = .err ∧
    (reduceVjp ratOps 1 none .var (ratTensor [2, 2] [1, 3, 5, 7])
      (ratTensor [2, 1] [1, 1]) (ratTensor [2, 1] [1, 1]) [1]).bind (fun r => .ok r.storage) =
      .ok [some (-1), some (-3), some 3, some 1] ∧
    (reduceVjp ratOps 1 none .prod (ratTensor [2] [0, 3]) (ratTensor [] [0]) (ratTensor [] [1])
      [0]).bind (fun r => .ok r.storage) = .ok [none, some 0] := by
  decide +kernel

/-- The hypotheses of C69 at a maximum of a 2×3 matrix over its last axis, with `keep_dim`, and of
its variance over the first axis. -/
example :
    let x : Tensor ℝ := ⟨[1, 5, 2, 4, 3, 6], Layout.fromShape [2, 3]⟩
    x.WF ∧ IsAxis 2 (-1) 1 ∧ GradShape .max [1] true 2 ∧ GradShape .var [0] true 2 ∧
      ¬ GradShape .sum [1] false 2 ∧
      cell [1] true [2, 3] (reduceIndex [1] true [0, 1]) = [[0, 0], [0, 1], [0, 2]] ∧
      RegularR .max 5 [1, 2] := by
  refine ⟨fresh_wf_list _ _ (by decide), by unfold IsAxis; decide, Or.inl (by decide),
    Or.inr ⟨1, by decide, fun k => ?_⟩, ?_, by decide, Or.inl ?_⟩
  · simp
  · rintro (⟨h, _⟩ | ⟨m, _, h⟩)
    · exact absurd h (by decide)
    · have h1 := (h 1).mp (by decide)
      have h0 := (h 0).mpr (by omega)
      simp at h0
  · intro w hw
    simp at hw
    rcases hw with rfl | rfl <;> norm_num

end Hodu
