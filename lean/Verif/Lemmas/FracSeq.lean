import Verif.Model.Pooling
import Mathlib.Algebra.Order.Floor.Semiring
import Mathlib.Data.Rat.Cast.Order
import Mathlib.Tactic.Linarith
import Mathlib.Tactic.FieldSimp
import Mathlib.Tactic.Positivity

/-!
# The boundaries of the fractional pooling
-/

namespace Hodu

/-- What is used of the rounding of `f64` arithmetic: it is monotone, exact on small integers and has a relative error
of at most `2 ^ -53` on `[1, 2 ^ 53]`. -/
structure Spec.IsRounding (fl : ℚ → ℚ) : Prop where
  mono : ∀ x y, x ≤ y → fl x ≤ fl y
  exact : ∀ n : Nat, n ≤ 2 ^ 53 → fl n = n
  near : ∀ x, 1 ≤ x → x ≤ 2 ^ 53 → |fl x - x| ≤ x / 2 ^ 53

/-- The boundaries split `0 .. d` into `q` consecutive intervals that are not empty and of nearly equal size. -/
structure Spec.Splits (d q : Nat) (b : Nat → Nat) : Prop where
  first : b 0 = 0
  last : b q = d
  step : ∀ i, i < q → b i < b (i + 1)
  close : ∀ i, i ≤ q → |(b i : ℚ) - i * d / q| < 1

open Spec

theorem roundAway_zero : roundAway 0 = 0 := by
  unfold roundAway
  rw [Nat.floor_eq_zero]; norm_num

theorem roundAway_mono {x y : ℚ} (h : x ≤ y) : roundAway x ≤ roundAway y := Nat.floor_mono (by linarith)

theorem roundAway_step {x y : ℚ} (hx : 0 ≤ x) (h : x + 1 ≤ y) : roundAway x + 1 ≤ roundAway y := by
  unfold roundAway
  rw [← Nat.floor_add_one (by linarith)]
  exact Nat.floor_mono (by linarith)

theorem roundAway_near {x : ℚ} (hx : 0 ≤ x) : |(roundAway x : ℚ) - x| ≤ 1 / 2 := by
  unfold roundAway
  have h1 := Nat.floor_le (a := x + 1 / 2) (by linarith)
  have h2 := Nat.lt_floor_add_one (x + 1 / 2)
  rw [abs_le]; constructor <;> linarith

variable {fl : ℚ → ℚ} {d q : Nat}

/-- The argument of the rounding to an integer. -/
def fracPoint (fl : ℚ → ℚ) (d q i : Nat) : ℚ := fl (fl ((d : ℚ) / q) * i)

theorem fracPoint_near (h : IsRounding fl) (hq : 0 < q) (hqd : q ≤ d) (hd : d < 2 ^ 24) {i : Nat} (hi : i ≤ q) :
    |fracPoint fl d q i - i * d / q| ≤ 3 * d / 2 ^ 53 ∧ 0 ≤ fracPoint fl d q i := by
  have hq' : (0 : ℚ) < q := by exact_mod_cast hq
  have hqd' : (q : ℚ) ≤ d := by exact_mod_cast hqd
  have hd' : (d : ℚ) < 2 ^ 24 := by exact_mod_cast hd
  have hr : 1 ≤ (d : ℚ) / q := by rw [le_div_iff₀ hq']; linarith
  have hq1 : (1 : ℚ) ≤ q := by exact_mod_cast hq
  have hrd : (d : ℚ) / q ≤ d := div_le_self (by linarith) hq1
  have hn := h.near _ hr (by linarith)
  rcases Nat.eq_zero_or_pos i with rfl | hi0
  · have h0 : fl 0 = 0 := by simpa using h.exact 0 (by norm_num)
    simp only [fracPoint, Nat.cast_zero, mul_zero, h0, zero_mul, zero_div, sub_zero, abs_zero, le_refl, and_true]
    positivity
  have hi1 : (1 : ℚ) ≤ i := by exact_mod_cast hi0
  have hiq : (i : ℚ) ≤ q := by exact_mod_cast hi
  generalize ha : fl ((d : ℚ) / q) = a at hn
  have ha1 : 1 ≤ a := by
    have h1 := h.mono 1 _ hr
    have h2 := h.exact 1 (by norm_num)
    rw [ha] at h1; push_cast at h2; linarith
  rw [abs_le] at hn
  generalize hρ : (d : ℚ) / q = ρ at hn hr hrd
  have hρd : ρ * q = d := by rw [← hρ]; field_simp
  have hai : 1 ≤ a * i := by nlinarith
  have h3 : ρ * i ≤ d := by rw [← hρd]; exact mul_le_mul_of_nonneg_left hiq (by linarith)
  have h4 : a * i ≤ ρ * i + ρ * i / 2 ^ 53 := by
    have := mul_le_mul_of_nonneg_right hn.2 (by linarith : (0 : ℚ) ≤ i)
    have e : ρ / 2 ^ 53 * i = ρ * i / 2 ^ 53 := by ring
    rw [e] at this; linarith [sub_mul a ρ i]
  have h5 : ρ * i - ρ * i / 2 ^ 53 ≤ a * i := by
    have := mul_le_mul_of_nonneg_right hn.1 (by linarith : (0 : ℚ) ≤ i)
    have e : -(ρ / 2 ^ 53) * i = -(ρ * i / 2 ^ 53) := by ring
    rw [e] at this; linarith [sub_mul a ρ i]
  have hm := h.near (a * i) hai (by linarith)
  have h0 := h.mono 1 _ hai
  have h01 := h.exact 1 (by norm_num)
  push_cast at h01
  rw [abs_le] at hm
  unfold fracPoint
  rw [ha]
  refine ⟨?_, by linarith⟩
  have e : (i : ℚ) * d / q = ρ * i := by rw [← hρ]; ring
  rw [e, abs_le]
  constructor <;> linarith

theorem fracPoint_step (h : IsRounding fl) (hq : 0 < q) (hqd : q ≤ d) (hd : d < 2 ^ 24) {i : Nat} (hi : i < q) :
    fracPoint fl d q i + 1 ≤ fracPoint fl d q (i + 1) := by
  rcases Nat.lt_or_eq_of_le hqd with hlt | rfl
  · obtain ⟨h1, -⟩ := fracPoint_near h hq hqd hd hi.le
    obtain ⟨h2, -⟩ := fracPoint_near h hq hqd hd (i := i + 1) hi
    have hq' : (0 : ℚ) < q := by exact_mod_cast hq
    have hd' : (d : ℚ) < 2 ^ 24 := by exact_mod_cast hd
    have hqd' : (q : ℚ) + 1 ≤ d := by exact_mod_cast hlt
    have hρ : 1 + 1 / (q : ℚ) ≤ d / q := by
      rw [le_div_iff₀ hq']; field_simp; linarith
    have hinv : 6 * (d : ℚ) / 2 ^ 53 ≤ 1 / q := by
      rw [div_le_div_iff₀ (by norm_num) hq']
      nlinarith
    rw [abs_le] at h1 h2
    push_cast at h2
    have e : ((i : ℚ) + 1) * d / q = i * d / q + d / q := by ring
    rw [e] at h2
    linarith
  · have h1 := h.exact 1 (by norm_num)
    have hq' : (q : ℚ) ≠ 0 := by exact_mod_cast hq.ne'
    push_cast at h1
    unfold fracPoint
    rw [div_self hq', h1, one_mul, one_mul, h.exact i (by omega), h.exact (i + 1) (by omega)]
    push_cast; rfl

theorem fracSeq_get {i : Nat} (hi : i ≤ q) : (fracSeq fl d q).getD i 0 =
    if i = q then d else min (roundAway (fracPoint fl d q i)) d := by
  unfold fracSeq fracPoint
  simp only [List.getD_eq_getElem?_getD, List.getElem?_set]
  split
  · rename_i h
    rw [if_pos h.symm]
    simp
  · rename_i h
    rw [if_neg (fun e => h e.symm)]
    simp [Nat.lt_succ_of_le hi]

theorem fracPoint_mono (h : IsRounding fl) (hq : 0 < q) (hqd : q ≤ d) (hd : d < 2 ^ 24) {i j : Nat} (hij : i ≤ j)
    (hj : j ≤ q) : fracPoint fl d q i ≤ fracPoint fl d q j := by
  induction j with
  | zero => obtain rfl : i = 0 := by omega
            exact le_rfl
  | succ j ih =>
    rcases Nat.lt_or_eq_of_le hij with hlt | rfl
    · have := fracPoint_step h hq hqd hd (i := j) hj
      have := ih (by omega) (by omega)
      linarith
    · exact le_rfl

/-- The sequence splits the axis. -/
theorem fracSeq_splits (h : IsRounding fl) (hq : 0 < q) (hqd : q ≤ d) (hd : d < 2 ^ 24) :
    Splits d q (fun i => (fracSeq fl d q).getD i 0) := by
  have hd' : (d : ℚ) < 2 ^ 24 := by exact_mod_cast hd
  have hq' : (0 : ℚ) < q := by exact_mod_cast hq
  have hlast : ∀ i, i < q → roundAway (fracPoint fl d q i) + 1 ≤ d := by
    intro i hi
    have h1 := fracPoint_mono h hq hqd hd (i := i + 1) (j := q) hi le_rfl
    have h2 := fracPoint_step h hq hqd hd hi
    obtain ⟨h3, -⟩ := fracPoint_near h hq hqd hd (i := q) le_rfl
    rw [mul_div_cancel_left₀ _ hq'.ne', abs_le] at h3
    unfold roundAway
    have h4 := (fracPoint_near h hq hqd hd hi.le).2
    rw [Nat.succ_le_iff, Nat.floor_lt (by linarith)]
    linarith
  refine ⟨?_, ?_, ?_, ?_⟩
  · rw [fracSeq_get (Nat.zero_le _), if_neg hq.ne]
    have h0 : fl 0 = 0 := by simpa using h.exact 0 (by norm_num)
    have : fracPoint fl d q 0 = 0 := by simp [fracPoint, h0]
    rw [this, roundAway_zero]; simp
  · simp only [fracSeq_get le_rfl, if_true]
  · intro i hi
    rw [fracSeq_get hi.le, fracSeq_get (i := i + 1) hi, if_neg hi.ne]
    have h1 := hlast i hi
    rw [min_eq_left (by omega)]
    split
    · omega
    · have h3 := hlast (i + 1) (by omega)
      have := roundAway_step (fracPoint_near h hq hqd hd hi.le).2 (fracPoint_step h hq hqd hd hi)
      omega
  · intro i hi
    rw [fracSeq_get hi]
    split
    · rename_i e; subst e
      rw [mul_div_cancel_left₀ _ hq'.ne', sub_self]; norm_num
    · rename_i hne
      obtain ⟨h1, h2⟩ := fracPoint_near h hq hqd hd hi
      have h3 := roundAway_near h2
      have h4 := hlast i (by omega)
      rw [min_eq_left (by omega)]
      rw [abs_le] at h1 h3
      rw [abs_lt]
      constructor <;> linarith

end Hodu
