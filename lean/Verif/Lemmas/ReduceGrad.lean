import Verif.Lemmas.Compose
import Verif.Lemmas.RealOps
import Mathlib.Tactic.Ring
import Mathlib.Tactic.Linarith
import Mathlib.Tactic.FieldSimp
import Mathlib.Tactic.Positivity

/-!
# Lemmas for the gradients of reductions (C69) and for softmax (C70)
-/

namespace Hodu
open Spec

/-! ## Cells -/

/-- The input positions which a reduction over the dimensions `K` combines into position `idx`. -/
def Spec.cell (K : List Nat) (keep : Bool) (d idx : List Nat) : List (List Nat) :=
  (allIndices d).filter fun j => decide (reduceIndex K keep j = idx)

theorem mem_cell {K d idx j : List Nat} {keep : Bool} :
    j ∈ cell K keep d idx ↔ InRange j d ∧ reduceIndex K keep j = idx := by
  simp [cell, mem_allIndices]

theorem nodup_cell (K d idx : List Nat) (keep : Bool) : (cell K keep d idx).Nodup :=
  (nodup_allIndices d).filter _

theorem cell_perm {K d idx : List Nat} {keep : Bool} {L : List (List Nat)} (hn : L.Nodup)
    (hm : ∀ j, j ∈ L ↔ InRange j d ∧ reduceIndex K keep j = idx) : L.Perm (cell K keep d idx) :=
  (List.perm_ext_iff_of_nodup hn (nodup_cell ..)).mpr fun j => by rw [hm, mem_cell]

theorem exists_base {K d idx : List Nat} {keep : Bool} (h : InRange idx (reduceShape K keep d)) :
    ∃ b, IsBase K keep d idx b := by
  cases keep
  · exact ⟨_, isBase_drop h⟩
  · exact ⟨_, isBase_keep h⟩

/-- The cell of a position has as many elements as the product of the reduced sizes. -/
theorem length_cell {K d idx : List Nat} {keep : Bool} (hn : K.Nodup) (hk : ∀ k ∈ K, k < d.length)
    (h : InRange idx (reduceShape K keep d)) : (cell K keep d idx).length = reduceCount d K := by
  obtain ⟨b, hb⟩ := exists_base h
  have hf := fibre_of_base hb hn hk
  rw [← (cell_perm hf.nodup hf.mem).length_eq, List.length_map, List.length_range, reduceCount]
  rw [show (K.map fun k => d.getD k 1) = K.map fun k => d.getD k 0 by
    apply List.map_congr_left
    intro k hkk
    simp [List.getD_eq_getElem?_getD, List.getElem?_eq_getElem (hk k hkk)]]
  exact (shapeSize_eq _).symm

/-- The cell containing `j`, with `j` first. -/
theorem cell_split {K d j : List Nat} {keep : Bool} (hj : InRange j d) :
    ∃ rest, (cell K keep d (reduceIndex K keep j)).Perm (j :: rest) ∧ j ∉ rest := by
  have hm : j ∈ cell K keep d (reduceIndex K keep j) := mem_cell.mpr ⟨hj, rfl⟩
  refine ⟨(cell K keep d (reduceIndex K keep j)).erase j, List.perm_cons_erase hm, ?_⟩
  exact (nodup_cell ..).not_mem_erase

/-! ## Alignment of a reduced shape with the input shape -/

/-- Broadcasting the reduced shape back gives every input position the value of its own cell. -/
def Aligned (K : List Nat) (keep : Bool) (d : List Nat) : Prop :=
  BroadcastsTo (reduceShape K keep d) d ∧
    ∀ j, InRange j d → broadcastIndex (reduceShape K keep d) j = reduceIndex K keep j

theorem aligned_keep (K d : List Nat) : Aligned K true d := by
  constructor
  · constructor
    · simp [reduceShape, unitAxes]
    · intro k x hk
      simp only [reduceShape, unitAxes, if_true] at hk ⊢
      rw [List.getElem?_mapIdx] at hk
      by_cases hkK : k ∈ K
      · left
        cases hd : d[k]? <;> simp_all
      · right
        cases hd : d[k]? <;> simp_all
  · intro j hj
    simp only [reduceShape, reduceIndex, unitAxes, zeroAxes, if_true, broadcastIndex,
      List.length_mapIdx]
    rw [hj.length, Nat.sub_self, List.drop_zero]
    apply List.ext_getElem?
    intro k
    rw [List.getElem?_zipWith, List.getElem?_mapIdx, List.getElem?_mapIdx]
    cases hd : d[k]? with
    | none =>
      have : j[k]? = none := by
        rw [List.getElem?_eq_none_iff] at hd ⊢
        rw [hj.length]; exact hd
      simp [this]
    | some x =>
      obtain ⟨c, h1, h2⟩ := inRange_get hj hd
      by_cases hkK : k ∈ K
      · simp [h1, hkK]
      · simp only [h1, hkK, Option.map_some, if_false]
        split
        · simp; omega
        · rfl

theorem dropAxes_leading {K : List Nat} {m : Nat} (hK : ∀ k, k ∈ K ↔ k < m) (i : Nat) (l : List Nat) :
    dropAxes K i l = l.drop (m - i) := by
  induction l generalizing i with
  | nil => simp [dropAxes]
  | cons x xs ih =>
    rw [dropAxes, ih]
    by_cases hi : i < m
    · rw [if_pos ((hK i).mpr hi), show m - i = (m - (i + 1)) + 1 by omega, List.drop_succ_cons]
    · rw [if_neg (fun h => hi ((hK i).mp h)), show m - (i + 1) = 0 by omega,
        show m - i = 0 by omega]
      rfl

theorem aligned_leading {K : List Nat} {m : Nat} (hK : ∀ k, k ∈ K ↔ k < m) (d : List Nat)
    (hm : m ≤ d.length) (keep : Bool) : Aligned K keep d := by
  cases keep
  · simp only [Aligned, reduceShape, reduceIndex, Bool.false_eq_true, if_false,
      dropAxes_leading hK, Nat.sub_zero]
    constructor
    · constructor
      · simp
      · intro k x hk
        right
        rw [List.getElem?_drop] at hk
        rw [List.length_drop, show k + (d.length - (d.length - m)) = m + k by omega]
        exact hk
    · intro j hj
      have hl := hj.length
      simp only [broadcastIndex, List.length_drop]
      rw [show j.length - (d.length - m) = m by omega]
      apply List.ext_getElem?
      intro k
      rw [List.getElem?_zipWith, List.getElem?_drop, List.getElem?_drop]
      cases hd : d[m + k]? with
      | none =>
        have : j[m + k]? = none := by
          rw [List.getElem?_eq_none_iff] at hd ⊢
          omega
        simp [this]
      | some x =>
        obtain ⟨c, h1, h2⟩ := inRange_get hj hd
        simp only [h1]
        split
        · simp; omega
        · rfl
  · exact aligned_keep K d

theorem pos_reduceShape {K d : List Nat} {keep : Bool} (hp : ∀ x ∈ d, 0 < x) :
    ∀ x ∈ reduceShape K keep d, 0 < x := by
  intro x hx
  cases keep
  · simp only [reduceShape, Bool.false_eq_true, if_false] at hx
    have : ∀ (i : Nat) (l : List Nat), x ∈ dropAxes K i l → x ∈ l := by
      intro i l
      induction l generalizing i with
      | nil => simp [dropAxes]
      | cons y ys ih =>
        rw [dropAxes]
        split
        · intro h; exact List.mem_cons_of_mem _ (ih _ h)
        · intro h
          rcases List.mem_cons.mp h with rfl | h
          · simp
          · exact List.mem_cons_of_mem _ (ih _ h)
    exact hp x (this _ _ hx)
  · simp only [reduceShape, if_true, unitAxes] at hx
    rw [List.mem_mapIdx] at hx
    obtain ⟨i, h, rfl⟩ := hx
    split
    · omega
    · exact hp _ (List.getElem_mem _)

/-! ## Reductions over the reals -/

/-- The largest element of a non-empty list. -/
noncomputable def Spec.maxR : List ℝ → ℝ
  | [] => 0
  | a :: l => l.foldr max a

/-- The smallest element of a non-empty list. -/
noncomputable def Spec.minR : List ℝ → ℝ
  | [] => 0
  | a :: l => l.foldr min a

/-- The arithmetic mean. -/
noncomputable def Spec.meanR (l : List ℝ) : ℝ := l.sum / l.length

/-- The textbook reductions of a list of real numbers; the variance is the mean squared deviation from
the mean. -/
noncomputable def Spec.redR : ROp → List ℝ → ℝ
  | .sum, l => l.sum
  | .mean, l => meanR l
  | .max, l => maxR l
  | .min, l => minR l
  | .prod, l => l.prod
  | .var, l => (l.map fun v => (v - meanR l) ^ 2).sum / l.length
  | .std, l => √((l.map fun v => (v - meanR l) ^ 2).sum / l.length)
  | .norm, l => √(l.map fun v => v ^ 2).sum
  | .logsum, l => Real.log l.sum
  | .logsumexp, l => Real.log (l.map Real.exp).sum

theorem maxR_isGreatest {l : List ℝ} (h : l ≠ []) : maxR l ∈ l ∧ ∀ v ∈ l, v ≤ maxR l := by
  cases l with
  | nil => exact absurd rfl h
  | cons a l =>
    simp only [maxR]
    clear h
    induction l with
    | nil => simp
    | cons b l ih =>
      simp only [List.foldr_cons]
      obtain ⟨h1, h2⟩ := ih
      constructor
      · rcases max_choice b (l.foldr max a) with h | h
        · rw [h]; simp
        · rw [h]
          rcases List.mem_cons.mp h1 with h1 | h1
          · rw [h1]; simp
          · simp [h1]
      · intro v hv
        rcases List.mem_cons.mp hv with rfl | hv
        · exact (h2 _ (by simp)).trans (le_max_right _ _)
        · rcases List.mem_cons.mp hv with rfl | hv
          · exact le_max_left _ _
          · exact (h2 _ (by simp [hv])).trans (le_max_right _ _)

theorem maxR_unique {l : List ℝ} {m : ℝ} (h1 : m ∈ l) (h2 : ∀ v ∈ l, v ≤ m) : maxR l = m := by
  have h := maxR_isGreatest (List.ne_nil_of_mem h1)
  exact le_antisymm (h2 _ h.1) (h.2 _ h1)

theorem minR_isLeast {l : List ℝ} (h : l ≠ []) : minR l ∈ l ∧ ∀ v ∈ l, minR l ≤ v := by
  cases l with
  | nil => exact absurd rfl h
  | cons a l =>
    simp only [minR]
    clear h
    induction l with
    | nil => simp
    | cons b l ih =>
      simp only [List.foldr_cons]
      obtain ⟨h1, h2⟩ := ih
      constructor
      · rcases min_choice b (l.foldr min a) with h | h
        · rw [h]; simp
        · rw [h]
          rcases List.mem_cons.mp h1 with h1 | h1
          · rw [h1]; simp
          · simp [h1]
      · intro v hv
        rcases List.mem_cons.mp hv with rfl | hv
        · exact (min_le_right _ _).trans (h2 _ (by simp))
        · rcases List.mem_cons.mp hv with rfl | hv
          · exact min_le_left _ _
          · exact (min_le_right _ _).trans (h2 _ (by simp [hv]))

theorem minR_unique {l : List ℝ} {m : ℝ} (h1 : m ∈ l) (h2 : ∀ v ∈ l, m ≤ v) : minR l = m := by
  have h := minR_isLeast (List.ne_nil_of_mem h1)
  exact le_antisymm (h.2 _ h1) (h2 _ h.1)

/-- The textbook reductions do not depend on the order. -/
theorem redR_perm {l l' : List ℝ} (h : l.Perm l') (o : ROp) : redR o l = redR o l' := by
  have hm : meanR l = meanR l' := by simp only [meanR, h.sum_eq, h.length_eq]
  cases o <;> simp only [redR]
  · exact h.sum_eq
  · exact hm
  · by_cases hl : l = []
    · subst hl; rw [List.nil_perm.mp h]
    · have hg := maxR_isGreatest hl
      exact (maxR_unique (h.mem_iff.mp hg.1) fun v hv => hg.2 v (h.mem_iff.mpr hv)).symm
  · by_cases hl : l = []
    · subst hl; rw [List.nil_perm.mp h]
    · have hg := minR_isLeast hl
      exact (minR_unique (h.mem_iff.mp hg.1) fun v hv => hg.2 v (h.mem_iff.mpr hv)).symm
  · exact h.prod_eq
  · rw [hm, h.length_eq, (h.map _).sum_eq]
  · rw [hm, h.length_eq, (h.map _).sum_eq]
  · rw [(h.map _).sum_eq]
  · rw [h.sum_eq]
  · rw [(h.map _).sum_eq]

section Forward

variable (k : KernelConsts) (κ : GConst → ℝ) (lo hi : ℝ)

theorem foldl_add_eq (l : List ℝ) (a : ℝ) : l.foldl (fun x y => x + y) a = a + l.sum := by
  induction l generalizing a with
  | nil => simp
  | cons x xs ih => rw [List.foldl_cons, ih]; simp; ring

theorem foldl_mulR (l : List ℝ) (a : ℝ) : l.foldl (fun x y => x * y) a = a * l.prod := by
  induction l generalizing a with
  | nil => simp
  | cons x xs ih => rw [List.foldl_cons, ih]; simp; ring

theorem sumL_real (l : List ℝ) : (realOps k κ lo hi).sumL l = l.sum := by
  show l.foldl (fun x y => x + y) 0 = l.sum
  rw [foldl_add_eq, zero_add]

theorem sum_dev (m : ℝ) (l : List ℝ) : (l.map fun v => (v - m) ^ 2).sum =
    (l.map fun v => v * v).sum - 2 * m * l.sum + l.length * m ^ 2 := by
  induction l with
  | nil => simp
  | cons x xs ih => simp only [List.map_cons, List.sum_cons, ih, List.length_cons]; push_cast; ring

/-- The one-pass variance of the kernel is the textbook variance. -/
theorem varL_real {l : List ℝ} (h : l ≠ []) : (realOps k κ lo hi).varL l = redR .var l := by
  have hn : (l.length : ℝ) ≠ 0 := by
    have := List.length_pos_iff.mpr h
    positivity
  simp only [FOps.varL, sumL_real, redR, sum_dev, meanR]
  simp only [realOps, realBin]
  field_simp
  ring

theorem maxL_fold {l : List ℝ} (acc : ℝ) :
    (l.foldl (fun acc v => if realCmp .gt v acc then v else acc) acc = acc ∨
      l.foldl (fun acc v => if realCmp .gt v acc then v else acc) acc ∈ l) ∧
    acc ≤ l.foldl (fun acc v => if realCmp .gt v acc then v else acc) acc ∧
    ∀ v ∈ l, v ≤ l.foldl (fun acc v => if realCmp .gt v acc then v else acc) acc := by
  induction l generalizing acc with
  | nil => simp
  | cons x xs ih =>
    simp only [List.foldl_cons]
    obtain ⟨h1, h2, h3⟩ := ih (if realCmp .gt x acc = true then x else acc)
    have hle : acc ≤ (if realCmp .gt x acc = true then x else acc) ∧
        x ≤ (if realCmp .gt x acc = true then x else acc) := by
      by_cases hx : acc < x
      · simp [realCmp, hx, hx.le]
      · simp [realCmp, hx, not_lt.mp hx]
    refine ⟨?_, hle.1.trans h2, ?_⟩
    · rcases h1 with h1 | h1
      · rw [h1]
        split
        · right; simp
        · left; rfl
      · right; exact List.mem_cons_of_mem _ h1
    · intro v hv
      rcases List.mem_cons.mp hv with rfl | hv
      · exact hle.2.trans h2
      · exact h3 v hv

theorem minL_fold {l : List ℝ} (acc : ℝ) :
    (l.foldl (fun acc v => if realCmp .lt v acc then v else acc) acc = acc ∨
      l.foldl (fun acc v => if realCmp .lt v acc then v else acc) acc ∈ l) ∧
    l.foldl (fun acc v => if realCmp .lt v acc then v else acc) acc ≤ acc ∧
    ∀ v ∈ l, l.foldl (fun acc v => if realCmp .lt v acc then v else acc) acc ≤ v := by
  induction l generalizing acc with
  | nil => simp
  | cons x xs ih =>
    simp only [List.foldl_cons]
    obtain ⟨h1, h2, h3⟩ := ih (if realCmp .lt x acc = true then x else acc)
    have hle : (if realCmp .lt x acc = true then x else acc) ≤ acc ∧
        (if realCmp .lt x acc = true then x else acc) ≤ x := by
      by_cases hx : x < acc
      · simp [realCmp, hx, hx.le]
      · simp [realCmp, hx, not_lt.mp hx]
    refine ⟨?_, h2.trans hle.1, ?_⟩
    · rcases h1 with h1 | h1
      · rw [h1]
        split
        · right; simp
        · left; rfl
      · right; exact List.mem_cons_of_mem _ h1
    · intro v hv
      rcases List.mem_cons.mp hv with rfl | hv
      · exact h2.trans hle.2
      · exact h3 v hv

/-- The start values of the max and min kernels are below and above all elements. -/
def Bounded (lo hi : ℝ) (l : List ℝ) : Prop := ∀ v ∈ l, lo ≤ v ∧ v ≤ hi

theorem maxL_real {l : List ℝ} (h : l ≠ []) (hb : Bounded lo hi l) :
    (realOps k κ lo hi).maxL l = maxR l := by
  obtain ⟨h1, h2, h3⟩ := maxL_fold (l := l) lo
  show l.foldl _ lo = _
  refine (maxR_unique ?_ h3).symm
  rcases h1 with h1 | h1
  · have hg := maxR_isGreatest h
    have h4 := h3 _ hg.1
    have h5 := (hb _ hg.1).1
    rw [h1] at h4
    have : lo = maxR l := le_antisymm h5 h4
    show l.foldl _ lo ∈ l
    refine (show l.foldl (fun acc v => if realCmp .gt v acc then v else acc) lo ∈ l from ?_)
    rw [h1, this]
    exact hg.1
  · exact h1

theorem minL_real {l : List ℝ} (h : l ≠ []) (hb : Bounded lo hi l) :
    (realOps k κ lo hi).minL l = minR l := by
  obtain ⟨h1, h2, h3⟩ := minL_fold (l := l) hi
  show l.foldl _ hi = _
  refine (minR_unique ?_ h3).symm
  rcases h1 with h1 | h1
  · have hg := minR_isLeast h
    have h4 := h3 _ hg.1
    have h5 := (hb _ hg.1).2
    rw [h1] at h4
    have : hi = minR l := le_antisymm h4 h5
    show l.foldl _ hi ∈ l
    refine (show l.foldl (fun acc v => if realCmp .lt v acc then v else acc) hi ∈ l from ?_)
    rw [h1, this]
    exact hg.1
  · exact h1

theorem sum_exp_pos {l : List ℝ} (h : l ≠ []) : 0 < (l.map Real.exp).sum := by
  cases l with
  | nil => exact absurd rfl h
  | cons x xs =>
    clear h
    induction xs generalizing x with
    | nil => simpa using Real.exp_pos x
    | cons y ys ih =>
      have := ih y
      simp only [List.map_cons, List.sum_cons] at this ⊢
      have := Real.exp_pos x
      linarith

/-- The reduction kernels compute the textbook reductions. -/
theorem redL_real {l : List ℝ} (h : l ≠ []) {o : ROp}
    (hb : o = .max ∨ o = .min → Bounded lo hi l) : (realOps k κ lo hi).redL o l = redR o l := by
  cases o
  case sum => simp [FOps.redL, redR, sumL_real]
  case mean => simp [FOps.redL, redR, sumL_real, meanR]; rfl
  case max => exact maxL_real k κ lo hi h (hb (Or.inl rfl))
  case min => exact minL_real k κ lo hi h (hb (Or.inr rfl))
  case prod =>
    show l.foldl (fun x y => x * y) 1 = l.prod
    rw [foldl_mulR, one_mul]
  case var => exact varL_real k κ lo hi h
  case std => simp only [FOps.redL, varL_real k κ lo hi h]; rfl
  case norm =>
    simp only [FOps.redL, sumL_real, redR, pow_two]; rfl
  case logsum => simp only [FOps.redL, sumL_real, redR]; rfl
  case logsumexp =>
    simp only [FOps.redL, sumL_real, redR]
    generalize (realOps k κ lo hi).maxL l = m
    show m + Real.log (l.map fun v => Real.exp (v - m)).sum = _
    have h1 : (l.map fun v => Real.exp (v - m)).sum = Real.exp (-m) * (l.map Real.exp).sum := by
      rw [← List.sum_map_mul_left]
      congr 1
      apply List.map_congr_left
      intro v _
      rw [← Real.exp_add]; ring_nf
    rw [h1, Real.log_mul (Real.exp_ne_zero _) (sum_exp_pos h).ne', Real.log_exp]
    ring

end Forward

/-- A reduction of a tensor of real numbers has the textbook value of its cell at every position. -/
theorem Val.red {x : Tensor ℝ} {d : List Nat} {X : List Nat → ℝ} (h : Val x d X) {ds : List Int}
    {K : List Nat} {keep : Bool} (hr : d.length ≤ 16) (hax : NamesAxes d.length ds K) (hn : K.Nodup)
    (hpd : ∀ y ∈ d, 0 < y) (k : KernelConsts) (κ : GConst → ℝ) (lo hi : ℝ) (o : ROp)
    (hb : o = .max ∨ o = .min → ∀ j, InRange j d → lo ≤ X j ∧ X j ≤ hi) :
    ∃ r, x.red (realOps k κ lo hi) o ds keep = .ok r ∧
      Val r (reduceShape K keep d) (fun idx => redR o ((cell K keep d idx).map X)) := by
  obtain ⟨r, L, h1, h2, h3⟩ := h.reduce (keep := keep) hr hax hn hpd ((realOps k κ lo hi).redL o)
  refine ⟨r, h1, h3.congr ?_⟩
  intro idx hi'
  obtain ⟨a, b⟩ := h2 idx hi'
  have hp := cell_perm a b
  have hne : (L idx).map X ≠ [] := by
    have hl := length_cell hn hax.lt hi'
    have hpos : 0 < reduceCount d K := by
      unfold reduceCount
      rw [← List.prod_eq_foldl]
      apply List.prod_pos
      intro y hy
      simp only [List.mem_map] at hy
      obtain ⟨q, hq, rfl⟩ := hy
      rw [List.getD_eq_getElem?_getD, List.getElem?_eq_getElem (hax.lt q hq)]
      exact hpd _ (List.getElem_mem _)
    intro h0
    have := congrArg List.length h0
    rw [List.length_map, hp.length_eq, hl] at this
    simp at this
    omega
  rw [redL_real k κ lo hi hne, redR_perm (hp.map X)]
  intro ho v hv
  obtain ⟨j, hj, rfl⟩ := List.mem_map.mp hv
  exact hb ho j ((b j).mp hj).1

/-! ## Derivatives -/

open Classical in
/-- The derivative of a textbook reduction with respect to one of its elements, `v`, the others being
`ws`. -/
noncomputable def Spec.dR (o : ROp) (v : ℝ) (ws : List ℝ) : ℝ :=
  match o with
  | .sum => 1
  | .mean => 1 / (v :: ws).length
  | .max => if ∀ w ∈ ws, w ≤ v then 1 else 0
  | .min => if ∀ w ∈ ws, v ≤ w then 1 else 0
  | .prod => ws.prod
  | .var => 2 * (v - meanR (v :: ws)) / (v :: ws).length
  | .std => (v - meanR (v :: ws)) / ((v :: ws).length * redR .std (v :: ws))
  | .norm => v / redR .norm (v :: ws)
  | .logsum => 1 / (v :: ws).sum
  | .logsumexp => Real.exp v / ((v :: ws).map Real.exp).sum

/-- Where the reduction is differentiable with respect to `v` and the rule of the code applies. -/
def Spec.RegularR (o : ROp) (v : ℝ) (ws : List ℝ) : Prop :=
  match o with
  | .max => (∀ w ∈ ws, w ≠ v) ∨ ∃ w ∈ ws, v < w
  | .min => (∀ w ∈ ws, w ≠ v) ∨ ∃ w ∈ ws, w < v
  | .prod => v ≠ 0
  | .std => redR .std (v :: ws) ≠ 0
  | .norm => redR .norm (v :: ws) ≠ 0
  | .logsum => 0 < (v :: ws).sum
  | _ => True

theorem var_eq (s : ℝ) (ws : List ℝ) : redR .var (s :: ws) =
    ((ws.map fun v => v * v).sum + s * s) / (ws.length + 1) -
      ((ws.sum + s) / (ws.length + 1)) ^ 2 := by
  have hn : ((ws.length : ℝ) + 1) ≠ 0 := by positivity
  simp only [redR, sum_dev, meanR, List.map_cons, List.sum_cons, List.length_cons]
  push_cast
  field_simp
  ring

theorem var_hasDerivAt (v : ℝ) (ws : List ℝ) :
    HasDerivAt (fun s => redR .var (s :: ws)) (dR .var v ws) v := by
  have hn : ((ws.length : ℝ) + 1) ≠ 0 := by positivity
  simp only [var_eq]
  have h1 : HasDerivAt (fun s : ℝ => ((ws.map fun v => v * v).sum + s * s) / (ws.length + 1))
      ((1 * v + v * 1) / (ws.length + 1)) v :=
    (((hasDerivAt_id v).mul (hasDerivAt_id v)).const_add _).div_const _
  have h2 : HasDerivAt (fun s : ℝ => ((ws.sum + s) / (ws.length + 1)) ^ 2)
      ((2 : ℕ) * ((ws.sum + v) / (ws.length + 1)) ^ (2 - 1) * (1 / (ws.length + 1))) v :=
    (((hasDerivAt_id v).const_add ws.sum).div_const ((ws.length : ℝ) + 1)).pow 2
  refine (h1.sub h2).congr_deriv ?_
  simp only [dR, meanR, List.length_cons, List.sum_cons]
  push_cast
  field_simp
  ring

theorem eventually_gt_list (ws : List ℝ) (v : ℝ) (h : ∀ w ∈ ws, w < v) :
    ∀ᶠ s in nhds v, ∀ w ∈ ws, w < s := by
  induction ws with
  | nil => simp
  | cons a l ih =>
    have h1 := ih fun w hw => h w (by simp [hw])
    have h2 : ∀ᶠ s in nhds v, a < s := lt_mem_nhds (h a (by simp))
    filter_upwards [h1, h2] with s h3 h4 w hw
    rcases List.mem_cons.mp hw with rfl | hw
    · exact h4
    · exact h3 w hw

theorem eventually_lt_list (ws : List ℝ) (v : ℝ) (h : ∀ w ∈ ws, v < w) :
    ∀ᶠ s in nhds v, ∀ w ∈ ws, s < w := by
  induction ws with
  | nil => simp
  | cons a l ih =>
    have h1 := ih fun w hw => h w (by simp [hw])
    have h2 : ∀ᶠ s in nhds v, s < a := gt_mem_nhds (h a (by simp))
    filter_upwards [h1, h2] with s h3 h4 w hw
    rcases List.mem_cons.mp hw with rfl | hw
    · exact h4
    · exact h3 w hw

theorem sq_sum_nonneg (l : List ℝ) : 0 ≤ (l.map fun v => v ^ 2).sum := by
  induction l with
  | nil => simp
  | cons x xs ih => simp only [List.map_cons, List.sum_cons]; positivity

/-- The textbook reductions have the stated derivatives. -/
theorem redR_hasDerivAt (o : ROp) (v : ℝ) (ws : List ℝ) (hreg : RegularR o v ws) :
    HasDerivAt (fun s => redR o (s :: ws)) (dR o v ws) v := by
  cases o
  case sum =>
    simp only [redR, dR, List.sum_cons]
    exact (hasDerivAt_id v).add_const _
  case mean =>
    simp only [redR, meanR, dR, List.sum_cons, List.length_cons]
    exact ((hasDerivAt_id v).add_const _).div_const _
  case prod =>
    simp only [redR, dR, List.prod_cons]
    simpa using (hasDerivAt_id v).mul_const ws.prod
  case var => exact var_hasDerivAt v ws
  case std =>
    have h0 : redR .var (v :: ws) ≠ 0 := by
      intro h0
      apply hreg
      show √(redR .var (v :: ws)) = 0
      rw [h0, Real.sqrt_zero]
    refine ((var_hasDerivAt v ws).sqrt h0).congr_deriv ?_
    simp only [dR]
    show _ = _ / (_ * √(redR .var (v :: ws)))
    have hn : (((v :: ws).length : ℕ) : ℝ) ≠ 0 := by simp; positivity
    have hs : √(redR .var (v :: ws)) ≠ 0 := hreg
    field_simp
  case norm =>
    simp only [redR, dR, List.map_cons, List.sum_cons]
    have h0 : v ^ 2 + (ws.map fun v => v ^ 2).sum ≠ 0 := by
      intro h0
      apply hreg
      simp only [redR, List.map_cons, List.sum_cons, h0, Real.sqrt_zero]
    have h1 : HasDerivAt (fun s : ℝ => s ^ 2 + (ws.map fun v => v ^ 2).sum) ((2 : ℕ) * v ^ (2 - 1)) v :=
      (hasDerivAt_pow 2 v).add_const _
    convert h1.sqrt h0 using 1
    have : √(v ^ 2 + (ws.map fun v => v ^ 2).sum) ≠ 0 := by
      have h2 : redR .norm (v :: ws) ≠ 0 := hreg
      simpa only [redR, List.map_cons, List.sum_cons] using h2
    field_simp
    push_cast
    ring
  case logsum =>
    simp only [redR, dR, List.sum_cons]
    have h0 : v + ws.sum ≠ 0 := by
      have : 0 < (v :: ws).sum := hreg
      simpa using this.ne'
    exact ((hasDerivAt_id v).add_const _).log h0
  case logsumexp =>
    simp only [redR, dR, List.map_cons, List.sum_cons]
    have h0 : Real.exp v + (ws.map Real.exp).sum ≠ 0 := by
      have := sum_exp_pos (l := v :: ws) (by simp)
      simpa using this.ne'
    exact ((Real.hasDerivAt_exp v).add_const _).log h0
  case max =>
    simp only [redR, dR]
    by_cases hv : ∀ w ∈ ws, w ≤ v
    · rw [if_pos hv]
      have hlt : ∀ w ∈ ws, w < v := by
        rcases hreg with h | ⟨w, hw, h⟩
        · exact fun w hw => lt_of_le_of_ne (hv w hw) (h w hw)
        · exact absurd (hv w hw) (not_le.mpr h)
      refine (hasDerivAt_id v).congr_of_eventuallyEq ?_
      filter_upwards [eventually_gt_list ws v hlt] with s hs
      exact maxR_unique (by simp) fun w hw => by
        rcases List.mem_cons.mp hw with rfl | hw
        · rfl
        · exact (hs w hw).le
    · rw [if_neg hv]
      have ⟨w, hw, hvw⟩ : ∃ w ∈ ws, v < w := by
        by_contra hc
        push Not at hc
        exact hv hc
      have hg := maxR_isGreatest (List.ne_nil_of_mem hw)
      refine (hasDerivAt_const v (maxR ws)).congr_of_eventuallyEq ?_
      have h2 : ∀ᶠ s in nhds v, s < w := gt_mem_nhds hvw
      filter_upwards [h2] with s hs
      exact maxR_unique (List.mem_cons_of_mem _ hg.1) fun u hu => by
        rcases List.mem_cons.mp hu with rfl | hu
        · exact hs.le.trans (hg.2 _ hw)
        · exact hg.2 _ hu
  case min =>
    simp only [redR, dR]
    by_cases hv : ∀ w ∈ ws, v ≤ w
    · rw [if_pos hv]
      have hlt : ∀ w ∈ ws, v < w := by
        rcases hreg with h | ⟨w, hw, h⟩
        · exact fun w hw => lt_of_le_of_ne (hv w hw) (fun he => h w hw he.symm)
        · exact absurd (hv w hw) (not_le.mpr h)
      refine (hasDerivAt_id v).congr_of_eventuallyEq ?_
      filter_upwards [eventually_lt_list ws v hlt] with s hs
      exact minR_unique (by simp) fun w hw => by
        rcases List.mem_cons.mp hw with rfl | hw
        · rfl
        · exact (hs w hw).le
    · rw [if_neg hv]
      have ⟨w, hw, hvw⟩ : ∃ w ∈ ws, w < v := by
        by_contra hc
        push Not at hc
        exact hv hc
      have hg := minR_isLeast (List.ne_nil_of_mem hw)
      refine (hasDerivAt_const v (minR ws)).congr_of_eventuallyEq ?_
      have h2 : ∀ᶠ s in nhds v, w < s := lt_mem_nhds hvw
      filter_upwards [h2] with s hs
      exact minR_unique (List.mem_cons_of_mem _ hg.1) fun u hu => by
        rcases List.mem_cons.mp hu with rfl | hu
        · exact (hg.2 _ hw).trans hs.le
        · exact hg.2 _ hu

/-- The derivative along one position of the cell. -/
theorem cell_hasDerivAt (o : ROp) {K d j : List Nat} {keep : Bool}
    (X : List Nat → ℝ) {rest : List (List Nat)}
    (hp : (cell K keep d (reduceIndex K keep j)).Perm (j :: rest)) (hr : j ∉ rest)
    (hreg : RegularR o (X j) (rest.map X)) :
    HasDerivAt (fun s => redR o ((cell K keep d (reduceIndex K keep j)).map (Function.update X j s)))
      (dR o (X j) (rest.map X)) (X j) := by
  have h := redR_hasDerivAt o (X j) (rest.map X) hreg
  convert h using 2 with s
  rw [redR_perm (hp.map _)]
  simp only [List.map_cons, Function.update_self]
  congr 2
  apply List.map_congr_left
  intro i hi
  exact Function.update_of_ne (fun h : i = j => hr (h ▸ hi)) _ _

end Hodu
