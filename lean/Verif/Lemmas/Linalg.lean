import Verif.Model.Linalg
import Verif.Lemmas.Conv
import Mathlib.LinearAlgebra.Matrix.Block
import Mathlib.LinearAlgebra.Matrix.NonsingularInverse
import Mathlib.Algebra.BigOperators.Field
import Mathlib.Tactic.Ring
import Mathlib.Tactic.Linarith
import Mathlib.Tactic.FieldSimp

/-!
# Lemmas for the determinant and inverse kernels
-/

namespace Hodu
open Spec

/-! ## Temporary matrices as functions of row and column -/

/-- The list `A` holds the `n` rows of `w` elements of `M`. -/
def Rep (A : List α) (n w : Nat) (M : Nat → Nat → α) : Prop :=
  A.length = n * w ∧ ∀ i j : Nat, i < n → j < w → A[i * w + j]? = some (M i j)

theorem cell_lt {n w i j : Nat} (hi : i < n) (hj : j < w) : i * w + j < n * w := by
  have : (i + 1) * w ≤ n * w := Nat.mul_le_mul_right _ hi
  rw [Nat.succ_mul] at this
  omega

theorem cell_inj {w i j i' j' : Nat} (hj : j < w) (hj' : j' < w) (h : i * w + j = i' * w + j') :
    i = i' ∧ j = j' := by
  have h1 : (i * w + j) / w = i := by
    rw [Nat.mul_comm, Nat.mul_add_div (by omega), Nat.div_eq_of_lt hj, Nat.add_zero]
  have h2 : (i' * w + j') / w = i' := by
    rw [Nat.mul_comm, Nat.mul_add_div (by omega), Nat.div_eq_of_lt hj', Nat.add_zero]
  have h3 : i = i' := by rw [← h1, ← h2, h]
  subst h3
  exact ⟨rfl, by omega⟩

theorem Rep.congr {A : List α} {n w : Nat} {M N : Nat → Nat → α} (h : Rep A n w M)
    (e : ∀ i j, i < n → j < w → M i j = N i j) : Rep A n w N :=
  ⟨h.1, fun i j hi hj => by rw [h.2 i j hi hj, e i j hi hj]⟩

theorem Rep.get {A : List α} {n w i j : Nat} {M : Nat → Nat → α} (h : Rep A n w M) (hi : i < n) (hj : j < w) :
    matGet A w i j = .ok (M i j) := by
  unfold matGet
  rw [readC_eq_ok]
  exact h.2 i j hi hj

/-- `M` with one element replaced. -/
def updAt (M : Nat → Nat → α) (i j : Nat) (v : α) : Nat → Nat → α :=
  fun i' j' => if i' = i ∧ j' = j then v else M i' j'

theorem Rep.set {A : List α} {n w i j : Nat} {M : Nat → Nat → α} (h : Rep A n w M) (hi : i < n) (hj : j < w)
    (v : α) : matSet A w i j v = .ok (A.set (i * w + j) v) ∧ Rep (A.set (i * w + j) v) n w (updAt M i j v) := by
  have hlt : i * w + j < A.length := by rw [h.1]; exact cell_lt hi hj
  refine ⟨by unfold matSet; rw [if_pos hlt], by rw [List.length_set, h.1], ?_⟩
  intro i' j' hi' hj'
  unfold updAt
  by_cases e : i' = i ∧ j' = j
  · obtain ⟨rfl, rfl⟩ := e
    rw [List.getElem?_set_self hlt, if_pos ⟨rfl, rfl⟩]
  · rw [if_neg e, List.getElem?_set_ne, h.2 i' j' hi' hj']
    intro e2
    have := cell_inj hj hj' e2
    exact e ⟨this.1.symm, this.2.symm⟩

/-- Row operation: `row i` at the columns `js` becomes `f` of itself. -/
theorem foldL_row {n w i : Nat} {f : List α → Nat → Res (List α)} {g : Nat → α}
    (hi : i < n) : ∀ (js : List Nat) (A : List α) (M : Nat → Nat → α), js.Nodup → (∀ j ∈ js, j < w) →
    Rep A n w M →
    (∀ j ∈ js, ∀ (A : List α) (N : Nat → Nat → α), Rep A n w N → (∀ i', i' ≠ i → ∀ j', N i' j' = M i' j') →
      N i j = M i j → f A j = matSet A w i j (g j)) →
    ∃ A', Res.foldL f A js = .ok A' ∧ Rep A' n w fun i' j' => if i' = i ∧ j' ∈ js then g j' else M i' j'
  | [], A, M, _, _, h, _ => ⟨A, rfl, h.congr fun i' j' _ _ => by simp⟩
  | j :: js, A, M, hn, hw, h, hf => by
    obtain ⟨hn1, hn2⟩ := List.nodup_cons.mp hn
    obtain ⟨e1, e2⟩ := h.set hi (hw j (by simp)) (g j)
    obtain ⟨A', h1, h2⟩ := foldL_row (g := g) hi js (A.set (i * w + j) (g j)) (updAt M i j (g j)) hn2
      (fun x hx => hw x (by simp [hx])) e2 (fun x hx B N hB hN1 hN2 => by
        refine hf x (by simp [hx]) B N hB (fun i' hi' j' => ?_) ?_
        · rw [hN1 i' hi' j']; unfold updAt; rw [if_neg (fun e => hi' e.1)]
        · rw [hN2]; unfold updAt; rw [if_neg]
          rintro ⟨_, rfl⟩
          exact hn1 hx)
    refine ⟨A', ?_, h2.congr fun i' j' _ _ => ?_⟩
    · rw [Res.foldL, hf j (by simp) A M h (fun _ _ _ => rfl) rfl, e1, Res.ok_bind, h1]
    · unfold updAt
      by_cases a : i' = i
      · by_cases b : j' ∈ js
        · simp [a, b]
        · by_cases c : j' = j
          · simp [a, c]
          · simp [a, b, c]
      · simp [a]

theorem rowSwap_spec {n w k p : Nat} (hk : k < n) (hp : p < n) (hkp : k ≠ p) :
    ∀ (js : List Nat) (A : List α) (M : Nat → Nat → α), js.Nodup → (∀ j ∈ js, j < w) → Rep A n w M →
    ∃ A', Res.foldL (fun A j => (matGet A w k j).bind fun tmp => (matGet A w p j).bind fun v =>
        (matSet A w k j v).bind fun A => matSet A w p j tmp) A js = .ok A' ∧
      Rep A' n w fun i j => if j ∈ js then (if i = k then M p j else if i = p then M k j else M i j) else M i j
  | [], A, M, _, _, h => ⟨A, rfl, h.congr fun i' j' _ _ => by simp⟩
  | j :: js, A, M, hn, hw, h => by
    obtain ⟨hn1, hn2⟩ := List.nodup_cons.mp hn
    have hj := hw j (by simp)
    obtain ⟨e1, e2⟩ := h.set hk hj (M p j)
    obtain ⟨e3, e4⟩ := e2.set hp hj (M k j)
    obtain ⟨A', h1, h2⟩ := rowSwap_spec hk hp hkp js _ _ hn2 (fun x hx => hw x (by simp [hx])) e4
    refine ⟨A', ?_, h2.congr fun i' j' _ _ => ?_⟩
    · rw [Res.foldL, h.get hk hj, Res.ok_bind, h.get hp hj, Res.ok_bind, e1, Res.ok_bind, e3, Res.ok_bind, h1]
    · unfold updAt
      by_cases b : j' = j
      · subst b
        have hkp' : p ≠ k := fun e => hkp e.symm
        by_cases c : i' = k
        · subst c; simp [hn1, hkp]
        · by_cases d : i' = p
          · subst d; simp [hn1, c]
          · simp [hn1, c, d]
      · simp [b]

section Field
variable {K : Type} [Field K] [LinearOrder K] [IsStrictOrderedRing K]

/-- Exact arithmetic with the singularity threshold `tiny`.  Division by zero, which gives inf or NaN for
floats, is a failure here: there is no such number in `K`. -/
def fieldArith (tiny : Option K) : Arith K where
  zero := 0
  one := 1
  add := (· + ·)
  sub := (· - ·)
  mul := (· * ·)
  div a b := if b = 0 then .ub else .ok (a / b)
  neg := (- ·)
  lt a b := decide (a < b)
  tiny := tiny

theorem fieldArith_abs (tiny : Option K) (v : K) : (fieldArith tiny).abs v = |v| := by
  unfold Arith.abs fieldArith
  simp only [decide_eq_true_eq]
  split
  · rename_i h; rw [abs_of_neg h]
  · rename_i h; rw [abs_of_nonneg (le_of_not_gt h)]

/-- The pivot search finds a row with the largest absolute value. -/
theorem pivotSearch_spec {tiny : Option K} {A : List K} {n w k : Nat} {M : Nat → Nat → K} (h : Rep A n w M)
    (hk : k < n) (hw : k < w) :
    ∃ p, pivotSearch (fieldArith tiny) A w k n = .ok p ∧ k ≤ p ∧ p < n ∧
      ∀ i, k ≤ i → i < n → |M i k| ≤ |M p k| := by
  have key : ∀ (is : List Nat) (p : Nat), (∀ i ∈ is, i < n ∧ k ≤ i) → k ≤ p → p < n →
      ∃ q, Res.foldL (fun (s : K × Nat) i => (matGet A w i k).bind fun v =>
        .ok (if (fieldArith tiny).lt s.1 ((fieldArith tiny).abs v) then ((fieldArith tiny).abs v, i) else s))
        (|M p k|, p) is = .ok (|M q k|, q) ∧ k ≤ q ∧ q < n ∧ |M p k| ≤ |M q k| ∧
        ∀ i ∈ is, |M i k| ≤ |M q k| := by
    intro is
    induction is with
    | nil => intro p _ h1 h2; exact ⟨p, rfl, h1, h2, le_refl _, by simp⟩
    | cons i is ih =>
      intro p hi h1 h2
      obtain ⟨hi1, hi2⟩ := hi i (by simp)
      rw [Res.foldL, h.get hi1 hw, Res.ok_bind, Res.ok_bind, fieldArith_abs]
      by_cases hlt : |M p k| < |M i k|
      · obtain ⟨q, a, b, c, d, e⟩ := ih i (fun x hx => hi x (by simp [hx])) hi2 hi1
        refine ⟨q, ?_, b, c, le_trans (le_of_lt hlt) d, ?_⟩
        · rw [if_pos (by simp [fieldArith, hlt])]
          exact a
        · intro x hx
          rcases List.mem_cons.mp hx with rfl | hx
          · exact d
          · exact e x hx
      · obtain ⟨q, a, b, c, d, e⟩ := ih p (fun x hx => hi x (by simp [hx])) h1 h2
        refine ⟨q, ?_, b, c, d, ?_⟩
        · rw [if_neg (by simp [fieldArith, hlt])]
          exact a
        · intro x hx
          rcases List.mem_cons.mp hx with rfl | hx
          · exact le_trans (le_of_not_gt hlt) d
          · exact e x hx
  obtain ⟨q, a, b, c, d, e⟩ := key ((List.range n).drop (k + 1)) k (fun i hi => by
    rw [List.mem_drop_iff_getElem] at hi
    obtain ⟨j, hj, rfl⟩ := hi
    simp at hj ⊢
    omega) (Nat.le_refl _) hk
  refine ⟨q, ?_, b, c, ?_⟩
  · unfold pivotSearch
    rw [h.get hk hw, Res.ok_bind, fieldArith_abs, a, Res.ok_bind]
  · intro i h1 h2
    rcases Nat.eq_or_lt_of_le h1 with rfl | h1
    · exact d
    · apply e i
      rw [List.mem_drop_iff_getElem]
      exact ⟨i - (k + 1), by simp; omega, by simp; omega⟩

theorem mem_drop_range {n k i : Nat} : i ∈ (List.range n).drop k ↔ k ≤ i ∧ i < n := by
  rw [List.mem_drop_iff_getElem]
  constructor
  · rintro ⟨j, hj, rfl⟩
    simp at hj ⊢
    omega
  · rintro ⟨h1, h2⟩
    exact ⟨i - k, by simp; omega, by simp; omega⟩

theorem rowSub_spec {tiny : Option K} {A : List K} {n w i k : Nat} {M : Nat → Nat → K} (h : Rep A n w M) (hi : i < n)
    (hk : k < n) (hik : i ≠ k) (f : K) {js : List Nat} (hn : js.Nodup) (hw : ∀ j ∈ js, j < w) :
    ∃ A', rowSub (fieldArith tiny) A w i k f js = .ok A' ∧
      Rep A' n w fun i' j => if i' = i ∧ j ∈ js then M i j - f * M k j else M i' j := by
  unfold rowSub
  refine foldL_row (g := fun j => M i j - f * M k j) hi js A M hn hw h ?_
  intro j hj B N hB h1 h2
  have hjw := hw j hj
  simp only [hB.get hi hjw, hB.get hk hjw, Res.ok_bind, h2, h1 k (Ne.symm hik)]
  rfl

/-- The square part of a temporary matrix. -/
def toMat (n : Nat) (M : Nat → Nat → K) : Matrix (Fin n) (Fin n) K := fun i j => M i j

omit [LinearOrder K] [IsStrictOrderedRing K] in
theorem det_swap_rows {n k p : Nat} {M N : Nat → Nat → K} (hk : k < n) (hp : p < n) (hkp : k ≠ p)
    (h : ∀ i j, i < n → j < n → N i j = if i = k then M p j else if i = p then M k j else M i j) :
    (toMat n N).det = -(toMat n M).det := by
  have : toMat n N = (toMat n M).submatrix (Equiv.swap ⟨k, hk⟩ ⟨p, hp⟩) id := by
    ext i j
    rw [Matrix.submatrix_apply, id]
    show N i j = M _ j
    rw [h i j i.2 j.2]
    by_cases a : i = ⟨k, hk⟩
    · subst a; simp [Equiv.swap_apply_left]
    · by_cases b : i = ⟨p, hp⟩
      · subst b
        rw [Equiv.swap_apply_right, if_neg (fun e => hkp e.symm), if_pos rfl]
      · rw [Equiv.swap_apply_of_ne_of_ne a b, if_neg (fun e => a (Fin.ext e)), if_neg (fun e => b (Fin.ext e))]
  rw [this, Matrix.det_permute, Equiv.Perm.sign_swap (fun e => hkp (by simpa using e))]
  simp

omit [LinearOrder K] [IsStrictOrderedRing K] in
theorem det_row_sub {n i k : Nat} {M N : Nat → Nat → K} (hi : i < n) (hk : k < n) (hik : i ≠ k) (f : K)
    (h : ∀ i' j, i' < n → j < n → N i' j = if i' = i then M i j - f * M k j else M i' j) :
    (toMat n N).det = (toMat n M).det := by
  have : toMat n N = (toMat n M).updateRow ⟨i, hi⟩ ((toMat n M) ⟨i, hi⟩ + (-f) • (toMat n M) ⟨k, hk⟩) := by
    ext i' j
    rw [Matrix.updateRow_apply]
    show N i' j = _
    rw [h i' j i'.2 j.2]
    by_cases a : i' = ⟨i, hi⟩
    · subst a
      rw [if_pos rfl, if_pos rfl]
      simp [toMat]
      ring
    · rw [if_neg (fun e => a (Fin.ext e)), if_neg a]
      rfl
  rw [this, Matrix.det_updateRow_add_smul_self _ (fun e => hik (by simpa using e))]

omit [LinearOrder K] [IsStrictOrderedRing K] in
/-- A matrix whose first `k` columns vanish from row `k` on, and whose column `k` does as well, is singular. -/
theorem det_zero_of_column {n k : Nat} {M : Nat → Nat → K} (hk : k < n)
    (h : ∀ i j, k ≤ i → i < n → j < k → M i j = 0) (hc : ∀ i, k ≤ i → i < n → M i k = 0) :
    (toMat n M).det = 0 := by
  rw [Matrix.twoBlockTriangular_det (toMat n M) (fun i => (i : Nat) < k) (fun i hi j hj =>
    h i j (Nat.le_of_not_lt hi) i.2 hj)]
  have : (Matrix.toSquareBlockProp (toMat n M) fun i => ¬ (i : Nat) < k).det = 0 := by
    apply Matrix.det_eq_zero_of_column_eq_zero ⟨⟨k, hk⟩, Nat.lt_irrefl k⟩
    intro i
    exact hc i.1 (Nat.le_of_not_lt i.2) i.1.2
  rw [this, mul_zero]

/-- Pivot search and exchange: the matrix with two rows exchanged or unchanged. -/
theorem pivotStep_spec {tiny : Option K} {A : List K} {n w k : Nat} {M : Nat → Nat → K} (h : Rep A n w M) (hk : k < n)
    (hnw : n ≤ w) :
    ∃ A' b N p, pivotStep (fieldArith tiny) A w k n = .ok (A', b) ∧ Rep A' n w N ∧ k ≤ p ∧ p < n ∧
      (b = true ↔ p ≠ k) ∧
      (∀ i j, N i j = if j < w then (if i = k then M p j else if i = p then M k j else M i j) else M i j) ∧
      ∀ i, k ≤ i → i < n → |N i k| ≤ |N k k| := by
  obtain ⟨p, h1, h2, h3, h4⟩ := pivotSearch_spec (tiny := tiny) h hk (by omega)
  unfold pivotStep
  rw [h1, Res.ok_bind]
  have hmax : ∀ (N : Nat → Nat → K), (∀ i j, N i j = if j < w then
      (if i = k then M p j else if i = p then M k j else M i j) else M i j) →
      ∀ i, k ≤ i → i < n → |N i k| ≤ |N k k| := by
    intro N hN i hi1 hi2
    have hkk : N k k = M p k := by rw [hN, if_pos (by omega), if_pos rfl]
    rw [hkk, hN, if_pos (by omega)]
    split
    · exact le_refl _
    · split
      · exact h4 k (Nat.le_refl _) hk
      · exact h4 i hi1 hi2
  by_cases hp : p = k
  · subst hp
    rw [if_neg (by simp)]
    refine ⟨A, false, M, p, rfl, h, h2, h3, by simp, ?_, ?_⟩
    · intro i j
      by_cases a : i = p
      · subst a; simp
      · simp [a]
    · exact h4
  · rw [if_pos hp]
    obtain ⟨A', e1, e2⟩ := rowSwap_spec hk h3 (Ne.symm hp) (List.range w) A M List.nodup_range
      (by simp) h
    unfold rowSwap
    rw [e1, Res.ok_bind]
    refine ⟨A', true, fun i j => if j < w then (if i = k then M p j else if i = p then M k j else M i j)
      else M i j, p, rfl, e2.congr fun i j _ _ => by simp, h2, h3, by simp [hp], fun i j => rfl, hmax _ fun i j => rfl⟩

/-- Elimination below the pivot. -/
theorem detEliminate_spec {tiny : Option K} {n k : Nat} {pivot : K} (hk : k < n) (hp : pivot ≠ 0) :
    ∀ (is : List Nat) (A : List K) (M : Nat → Nat → K), is.Nodup → (∀ i ∈ is, k < i ∧ i < n) → Rep A n n M →
    (∀ j, j < k → M k j = 0) →
    ∃ A' N, Res.foldL (fun A i => (matGet A n i k).bind fun a => ((fieldArith tiny).div a pivot).bind fun factor =>
        rowSub (fieldArith tiny) A n i k factor ((List.range n).drop k)) A is = .ok A' ∧ Rep A' n n N ∧
      (toMat n N).det = (toMat n M).det ∧
      ∀ i j, N i j = if i ∈ is ∧ k ≤ j ∧ j < n then M i j - M i k / pivot * M k j else M i j
  | [], A, M, _, _, h, _ => ⟨A, M, rfl, h, rfl, by simp⟩
  | i :: is, A, M, hn, hi, h, hz => by
    obtain ⟨hn1, hn2⟩ := List.nodup_cons.mp hn
    obtain ⟨hik, hin⟩ := hi i (by simp)
    have hik' : i ≠ k := by omega
    obtain ⟨B, e1, e2⟩ := rowSub_spec (tiny := tiny) h hin hk hik' (M i k / pivot) (js := (List.range n).drop k)
      ((List.drop_sublist _ _).nodup List.nodup_range) (fun j hj => (mem_drop_range.mp hj).2)
    obtain ⟨A', N, a1, a2, a3, a4⟩ := detEliminate_spec (tiny := tiny) hk hp is B _ hn2
      (fun x hx => hi x (by simp [hx])) e2 (fun j hj => by
        rw [if_neg (fun e => hik' e.1.symm)]
        exact hz j hj)
    refine ⟨A', N, ?_, a2, ?_, ?_⟩
    · rw [Res.foldL, h.get hin hk, Res.ok_bind]
      show ((if pivot = 0 then Res.ub else Res.ok (M i k / pivot)).bind _).bind _ = _
      rw [if_neg hp, Res.ok_bind, e1, Res.ok_bind]
      exact a1
    · rw [a3]
      apply det_row_sub hin hk hik' (M i k / pivot)
      intro i' j _ hj
      simp only [mem_drop_range]
      by_cases c : i' = i
      · subst c
        by_cases d : k ≤ j
        · simp [d, hj]
        · simp [d, hz j (by omega)]
      · simp [c]
    · intro i' j
      rw [a4]
      simp only [mem_drop_range]
      have hki : ¬ k = i := fun e => hik' e.symm
      by_cases c : i' = i
      · subst c
        by_cases d : k ≤ j ∧ j < n
        · simp [hn1, d]
        · simp [hn1, d]
      · simp [c, hki]

/-- The elimination loop from column `k` on. -/
theorem detLoop_spec {n : Nat} {tiny : Option K} (ht : ∀ t, tiny = some t → 0 < t) {D : K}
    (hD : tiny = none → D ≠ 0) :
    ∀ (m k : Nat) (A : List K) (M : Nat → Nat → K) (d : K) (s : Nat), k + m = n → Rep A n n M →
    (∀ i j, j < k → j < i → i < n → M i j = 0) → d = ∏ i ∈ Finset.range k, M i i →
    (-1) ^ s * (toMat n M).det = D →
    ∃ r, detLoop (fieldArith tiny) n ((List.range n).drop k) A d s = .ok r ∧
      (r = D ∨ (r = 0 ∧ tiny ≠ none))
  | 0, k, A, M, d, s, hkm, h, hz, hd, hdet => by
    have : k = n := by omega
    subst this
    rw [show (List.range k).drop k = [] by simp]
    refine ⟨_, rfl, Or.inl ?_⟩
    rw [← hdet]
    have hu : (toMat k M).det = ∏ i : Fin k, M i i :=
      Matrix.det_of_isUpperTriangular (M := toMat k M) (fun i j hij => hz i j j.2 hij i.2)
    rw [hu, hd, Finset.prod_range]
    unfold detSign
    by_cases hs : s % 2 = 0
    · rw [if_neg (by simp [hs]), (Nat.even_iff.mpr hs).neg_one_pow, one_mul]
    · rw [if_pos hs, (Nat.odd_iff.mpr (by omega)).neg_one_pow, neg_one_mul]
      rfl
  | m + 1, k, A, M, d, s, hkm, h, hz, hd, hdet => by
    have hk : k < n := by omega
    rw [show (List.range n).drop k = k :: (List.range n).drop (k + 1) by
      rw [List.drop_eq_getElem_cons (by simpa using hk)]; simp]
    obtain ⟨A1, b, M1, p, e1, e2, e3, e4, e5, e6, e7⟩ := pivotStep_spec (tiny := tiny) h hk (Nat.le_refl n)
    have hz1 : ∀ i j, j < k → j < i → i < n → M1 i j = 0 := by
      intro i j h1 h2 h3
      rw [e6, if_pos (by omega)]
      split
      · exact hz p j h1 (by omega) e4
      · split
        · exact hz k j h1 h1 hk
        · exact hz i j h1 h2 h3
    have hdiag : ∀ i, i < k → M1 i i = M i i := by
      intro i hi
      rw [e6, if_pos (by omega), if_neg (by omega), if_neg (by omega)]
    have hdet1 : (-1) ^ (if b then s + 1 else s) * (toMat n M1).det = D := by
      by_cases hb : b = true
      · rw [if_pos hb]
        have hpk := e5.mp hb
        rw [det_swap_rows hk e4 (Ne.symm hpk) (M := M) (N := M1) (fun i j _ hj => by rw [e6, if_pos hj]),
          ← hdet, pow_succ]
        ring
      · rw [if_neg hb, ← hdet]
        have hpk : p = k := by
          by_contra hne
          exact hb (e5.mpr hne)
        subst hpk
        have : toMat n M1 = toMat n M := by
          ext i j
          show M1 i j = M i j
          rw [e6, if_pos j.2]
          by_cases a : (i : Nat) = p
          · rw [if_pos a, a]
          · rw [if_neg a, if_neg a]
        rw [this]
    rw [detLoop, e1, Res.ok_bind, e2.get hk hk, Res.ok_bind]
    by_cases htiny : detTiny (fieldArith tiny) (M1 k k) = true
    · rw [if_pos htiny]
      refine ⟨0, rfl, Or.inr ⟨rfl, ?_⟩⟩
      rintro rfl
      simp [detTiny, fieldArith] at htiny
    · rw [if_neg htiny]
      have hp : M1 k k ≠ 0 := by
        intro h0
        cases htn : tiny with
        | some t =>
          apply htiny
          subst htn
          unfold detTiny
          show decide ((fieldArith (some t)).abs (M1 k k) < t) = true
          rw [fieldArith_abs, h0, abs_zero, decide_eq_true_eq]
          exact ht t rfl
        | none =>
          apply hD htn
          rw [← hdet1, det_zero_of_column hk (fun i j h1 h2 h3 => hz1 i j h3 (by omega) h2) (fun i h1 h2 => by
            have := e7 i h1 h2
            rw [h0, abs_zero] at this
            exact abs_eq_zero.mp (le_antisymm this (abs_nonneg _))), mul_zero]
      unfold detEliminate
      obtain ⟨A2, M2, a1, a2, a3, a4⟩ := detEliminate_spec (tiny := tiny) hk hp ((List.range n).drop (k + 1)) A1 M1
        ((List.drop_sublist _ _).nodup List.nodup_range) (fun i hi => mem_drop_range.mp hi) e2
        (fun j hj => hz1 k j hj hj hk)
      rw [a1, Res.ok_bind]
      refine detLoop_spec ht hD m (k + 1) A2 M2 _ _ (by omega) a2 ?_ ?_ (by rw [a3]; exact hdet1)
      · intro i j h1 h2 h3
        rw [a4]
        by_cases hjk : j = k
        · subst hjk
          rw [if_pos ⟨mem_drop_range.mpr ⟨h2, h3⟩, Nat.le_refl _, hk⟩]
          field_simp
          ring
        · have : j < k := by omega
          rw [if_neg (fun e => by omega), hz1 i j this h2 h3]
      · show d * M1 k k = _
        rw [Finset.prod_range_succ, hd]
        have hkk : M2 k k = M1 k k := by
          rw [a4, if_neg (fun e => by have := mem_drop_range.mp e.1; omega)]
        rw [hkk]
        congr 1
        apply Finset.prod_congr rfl
        intro i hi
        rw [Finset.mem_range] at hi
        rw [a4, if_neg (fun e => by have := mem_drop_range.mp e.1; omega), hdiag i hi]

/-! ## Gauss-Jordan -/

theorem rowScale_spec {tiny : Option K} {A : List K} {n w k : Nat} {M : Nat → Nat → K} (h : Rep A n w M) (hk : k < n)
    {pivot : K} (hp : pivot ≠ 0) :
    ∃ A', rowScale (fieldArith tiny) A w k pivot = .ok A' ∧
      Rep A' n w fun i j => if i = k ∧ j ∈ List.range w then M k j / pivot else M i j := by
  unfold rowScale
  refine foldL_row (g := fun j => M k j / pivot) hk (List.range w) A M List.nodup_range (by simp) h ?_
  intro j hj B N hB _ h2
  have hjw : j < w := by simpa using hj
  simp only [hB.get hk hjw, Res.ok_bind, h2]
  show Res.bind (if pivot = 0 then Res.ub else Res.ok (M k j / pivot)) _ = _
  rw [if_neg hp, Res.ok_bind]

/-- Elimination of column `k` in the rows `is`. -/
theorem invEliminate_spec {tiny : Option K} {n k : Nat} (hk : k < n) :
    ∀ (is : List Nat) (A : List K) (M : Nat → Nat → K), is.Nodup → (∀ i ∈ is, i < n) → Rep A n (2 * n) M →
    ∃ A' N, Res.foldL (fun A i => if i ≠ k then (matGet A (2 * n) i k).bind fun factor =>
        rowSub (fieldArith tiny) A (2 * n) i k factor (List.range (2 * n)) else .ok A) A is = .ok A' ∧
      Rep A' n (2 * n) N ∧ (toMat n N).det = (toMat n M).det ∧
      ∀ i j, N i j = if i ∈ is ∧ i ≠ k ∧ j < 2 * n then M i j - M i k * M k j else M i j
  | [], A, M, _, _, h => ⟨A, M, rfl, h, rfl, by simp⟩
  | i :: is, A, M, hn, hi, h => by
    obtain ⟨hn1, hn2⟩ := List.nodup_cons.mp hn
    have hin := hi i (by simp)
    by_cases hik : i = k
    · subst hik
      obtain ⟨A', N, a1, a2, a3, a4⟩ := invEliminate_spec (tiny := tiny) hk is A M hn2
        (fun x hx => hi x (by simp [hx])) h
      refine ⟨A', N, ?_, a2, a3, ?_⟩
      · rw [Res.foldL, if_neg (by simp), Res.ok_bind, a1]
      · intro i' j
        rw [a4]
        by_cases c : i' = i
        · simp [c]
        · simp [c]
    · obtain ⟨B, e1, e2⟩ := rowSub_spec (tiny := tiny) h hin hk hik (M i k) (js := List.range (2 * n))
        List.nodup_range (by simp)
      obtain ⟨A', N, a1, a2, a3, a4⟩ := invEliminate_spec (tiny := tiny) hk is B _ hn2
        (fun x hx => hi x (by simp [hx])) e2
      refine ⟨A', N, ?_, a2, ?_, ?_⟩
      · rw [Res.foldL, if_pos hik, h.get hin (by omega), Res.ok_bind, e1, Res.ok_bind, a1]
      · rw [a3]
        apply det_row_sub hin hk hik (M i k)
        intro i' j _ hj
        have : j < 2 * n := by omega
        simp only [List.mem_range, this, and_true]
      · intro i' j
        rw [a4]
        have hki : ¬ k = i := fun e => hik e.symm
        by_cases c : i' = i
        · subst c
          by_cases d : j < 2 * n
          · simp [hn1, hik, d]
          · simp [d]
        · simp [c, hki]

omit [LinearOrder K] [IsStrictOrderedRing K] in
theorem det_row_scale {n k : Nat} {M N : Nat → Nat → K} (hk : k < n) (c : K)
    (h : ∀ i j, i < n → j < n → N i j = if i = k then M k j / c else M i j) :
    (toMat n N).det = c⁻¹ * (toMat n M).det := by
  have : toMat n N = (toMat n M).updateRow ⟨k, hk⟩ (c⁻¹ • (toMat n M) ⟨k, hk⟩) := by
    ext i j
    rw [Matrix.updateRow_apply]
    show N i j = _
    rw [h i j i.2 j.2]
    by_cases a : i = ⟨k, hk⟩
    · subst a
      rw [if_pos rfl, if_pos rfl]
      simp [toMat, div_eq_inv_mul]
    · rw [if_neg (fun e => a (Fin.ext e)), if_neg a]
      rfl
  rw [this, Matrix.det_updateRow_smul, Matrix.updateRow_eq_self]

/-- The Gauss-Jordan loop from column `k` on: the right half times the original matrix stays the left half,
which becomes the identity. -/
theorem invLoop_spec {n : Nat} {tiny : Option K} (M0 : Nat → Nat → K) :
    ∀ (m k : Nat) (A : List K) (M : Nat → Nat → K), k + m = n → Rep A n (2 * n) M →
    (∀ i j, i < n → j < k → M i j = if i = j then 1 else 0) → (toMat n M).det ≠ 0 →
    (∀ i j, i < n → j < n → M i j = ∑ l ∈ Finset.range n, M i (n + l) * M0 l j) →
    ∃ A' N, invLoop (fieldArith tiny) n ((List.range n).drop k) A = .ok A' ∧ Rep A' n (2 * n) N ∧
      (∀ i j, i < n → j < n → N i j = if i = j then 1 else 0) ∧
      (∀ i j, i < n → j < n → N i j = ∑ l ∈ Finset.range n, N i (n + l) * M0 l j)
  | 0, k, A, M, hkm, h, hu, hdet, hrel => by
    have : k = n := by omega
    subst this
    rw [show (List.range k).drop k = [] by simp]
    exact ⟨A, M, rfl, h, hu, hrel⟩
  | m + 1, k, A, M, hkm, h, hu, hdet, hrel => by
    have hk : k < n := by omega
    rw [show (List.range n).drop k = k :: (List.range n).drop (k + 1) by
      rw [List.drop_eq_getElem_cons (by simpa using hk)]; simp]
    obtain ⟨A1, b, M1, p, e1, e2, e3, e4, e5, e6, e7⟩ := pivotStep_spec (tiny := tiny) h hk (w := 2 * n) (by omega)
    have hlt : ∀ j, j < n → j < 2 * n := fun j hj => by omega
    have hu1 : ∀ i j, i < n → j < k → M1 i j = if i = j then 1 else 0 := by
      intro i j hi hj
      rw [e6, if_pos (by omega)]
      by_cases a : i = k
      · rw [if_pos a, hu p j e4 hj, if_neg (by omega), if_neg (by omega)]
      · rw [if_neg a]
        by_cases c : i = p
        · rw [if_pos c, hu k j hk hj, if_neg (by omega), if_neg (by omega)]
        · rw [if_neg c, hu i j hi hj]
    have hdet1 : (toMat n M1).det ≠ 0 := by
      by_cases hpk : p = k
      · subst hpk
        have : toMat n M1 = toMat n M := by
          ext i j
          show M1 i j = M i j
          rw [e6, if_pos (hlt j j.2)]
          by_cases a : (i : Nat) = p
          · rw [if_pos a, a]
          · rw [if_neg a, if_neg a]
        rw [this]; exact hdet
      · rw [det_swap_rows hk e4 (Ne.symm hpk) (M := M) (N := M1) (fun i j _ hj => by rw [e6, if_pos (hlt j hj)])]
        exact neg_ne_zero.mpr hdet
    have hrel1 : ∀ i j, i < n → j < n → M1 i j = ∑ l ∈ Finset.range n, M1 i (n + l) * M0 l j := by
      intro i j hi hj
      have row : ∃ q, q < n ∧ ∀ j, j < 2 * n → M1 i j = M q j := by
        by_cases a : i = k
        · exact ⟨p, e4, fun j hj => by rw [e6, if_pos hj, if_pos a]⟩
        · by_cases c : i = p
          · exact ⟨k, hk, fun j hj => by rw [e6, if_pos hj, if_neg a, if_pos c]⟩
          · exact ⟨i, hi, fun j hj => by rw [e6, if_pos hj, if_neg a, if_neg c]⟩
      obtain ⟨q, hq, hrow⟩ := row
      rw [hrow j (hlt j hj), hrel q j hq hj]
      apply Finset.sum_congr rfl
      intro l hl
      rw [Finset.mem_range] at hl
      rw [hrow (n + l) (by omega)]
    have hp : M1 k k ≠ 0 := by
      intro h0
      apply hdet1
      apply det_zero_of_column hk
      · intro i j h1 h2 h3
        rw [hu1 i j h2 h3, if_neg (by omega)]
      · intro i h1 h2
        have := e7 i h1 h2
        rw [h0, abs_zero] at this
        exact abs_eq_zero.mp (le_antisymm this (abs_nonneg _))
    obtain ⟨A2, f1, f2⟩ := rowScale_spec (tiny := tiny) e2 hk hp
    generalize hM2 : (fun i j => if i = k ∧ j ∈ List.range (2 * n) then M1 k j / M1 k k else M1 i j) = M2 at f2
    have hM2' : ∀ i j, j < 2 * n → M2 i j = if i = k then M1 k j / M1 k k else M1 i j := by
      intro i j hj
      rw [← hM2]
      simp only [List.mem_range, hj, and_true]
    obtain ⟨A3, M3, g1, g2, g3, g4⟩ := invEliminate_spec (tiny := tiny) hk (List.range n) A2 M2 List.nodup_range
      (by simp) f2
    have hM3 : ∀ i j, i < n → j < 2 * n → M3 i j = if i = k then M2 k j else M2 i j - M2 i k * M2 k j := by
      intro i j hi hj
      rw [g4]
      by_cases a : i = k
      · subst a; simp
      · simp [a, hi, hj]
    rw [invLoop, e1, Res.ok_bind, e2.get hk (by omega), Res.ok_bind, f1, Res.ok_bind]
    unfold invEliminate
    rw [g1, Res.ok_bind]
    refine invLoop_spec M0 m (k + 1) A3 M3 (by omega) g2 ?_ ?_ ?_
    · intro i j hi hj
      rw [hM3 i j hi (by omega)]
      by_cases hjk : j = k
      · subst hjk
        have hkk : M2 j j = 1 := by rw [hM2' j j (by omega), if_pos rfl]; exact div_self hp
        rw [hkk]
        by_cases a : i = j
        · rw [if_pos a, if_pos a]
        · rw [if_neg a, if_neg a]; ring
      · have hj' : j < k := by omega
        have hkj : M2 k j = 0 := by
          rw [hM2' k j (by omega), if_pos rfl, hu1 k j hk hj', if_neg (by omega), zero_div]
        rw [hkj]
        by_cases a : i = k
        · rw [if_pos a, if_neg (by omega)]
        · rw [if_neg a, mul_zero, sub_zero, hM2' i j (by omega), if_neg a, hu1 i j hi hj']
    · rw [g3, det_row_scale hk (M1 k k) (M := M1) (N := M2) (fun i j _ hj => hM2' i j (hlt j hj))]
      exact mul_ne_zero (inv_ne_zero hp) hdet1
    · have hrel2 : ∀ i j, i < n → j < n → M2 i j = ∑ l ∈ Finset.range n, M2 i (n + l) * M0 l j := by
        intro i j hi hj
        rw [hM2' i j (hlt j hj)]
        by_cases a : i = k
        · rw [if_pos a, hrel1 k j hk hj, Finset.sum_div]
          apply Finset.sum_congr rfl
          intro l hl
          rw [Finset.mem_range] at hl
          rw [hM2' i (n + l) (by omega), if_pos a]
          ring
        · rw [if_neg a, hrel1 i j hi hj]
          apply Finset.sum_congr rfl
          intro l hl
          rw [Finset.mem_range] at hl
          rw [hM2' i (n + l) (by omega), if_neg a]
      intro i j hi hj
      rw [hM3 i j hi (hlt j hj)]
      by_cases a : i = k
      · rw [if_pos a, hrel2 k j hk hj]
        apply Finset.sum_congr rfl
        intro l hl
        rw [Finset.mem_range] at hl
        rw [hM3 i (n + l) hi (by omega), if_pos a]
      · rw [if_neg a, hrel2 i j hi hj, hrel2 k j hk hj, Finset.mul_sum, ← Finset.sum_sub_distrib]
        apply Finset.sum_congr rfl
        intro l hl
        rw [Finset.mem_range] at hl
        rw [hM3 i (n + l) hi (by omega), if_neg a]
        ring

end Field

end Hodu
