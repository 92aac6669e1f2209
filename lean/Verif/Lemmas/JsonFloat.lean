import Verif.Lemmas.Float
import Verif.Model.JsonFormat
import Mathlib.Algebra.Order.Field.Rat
import Mathlib.Tactic.NormNum
import Mathlib.Tactic.Positivity

/-!
# How far the JSON parser's floating-point numbers are from what was printed
-/

namespace Hodu.Flt

theorem mag_le_succ (f : Fmt) (p : Nat) : mag f p ≤ mag f (p + 1) := by
  obtain ⟨e, s, hp, hs, hes⟩ := split f p
  rw [hp, Nat.add_assoc, mag_eq f hs.le hes, mag_eq f (s := s + 1) hs (by omega)]
  exact Nat.mul_le_mul_right _ (Nat.mul_le_mul_right _ (by omega))

theorem mag_mono (f : Fmt) {p q : Nat} (h : p ≤ q) : mag f p ≤ mag f q := by
  induction h with
  | refl => exact Nat.le_refl _
  | step _ ih => exact Nat.le_trans ih (mag_le_succ f _)

theorem mag_pos (f : Fmt) {p : Nat} (h : 0 < p) : 2 ^ f.unit ≤ mag f p := by
  refine Nat.le_trans ?_ (mag_mono f h)
  have := mag_eq f (e := 0) (s := 1) Nat.one_le_two_pow (Or.inl rfl)
  simp only [Nat.zero_mul, Nat.zero_add, Nat.pow_zero, Nat.mul_one, Nat.one_mul] at this
  rw [this]

theorem mag_zero (f : Fmt) : mag f 0 = 0 := by simp [mag, Nat.two_pow_pos]

theorem lt_top_of_mag {q : Nat} (h : mag f64 q < 2 ^ 2098) : q < f64.top := by
  by_contra hc
  have h1 := mag_mono f64 (Nat.le_of_not_lt hc)
  have h2 : mag f64 f64.top = 2 ^ 2098 := by decide +kernel
  omega

/-- A rounded quotient that is at least `2 ^ 53` units was not subnormal. -/
theorem normal_of_mag {n d : Nat} (hd : 0 < d) (h : 2 ^ 53 ≤ mag f64 (enc f64 n d)) :
    2 ^ f64.man * (d * 2 ^ f64.unit) ≤ n := by
  by_contra hc
  obtain ⟨e, s, hs, hes, h1, h2⟩ := scale f64 n hd
  have hs52 : s < 2 ^ f64.man := by
    by_contra hs'
    have : 2 ^ f64.man * (d * 2 ^ f64.unit) ≤ s * (d * 2 ^ f64.unit * 2 ^ e) :=
      Nat.mul_le_mul (Nat.le_of_not_lt hs') (Nat.le_mul_of_pos_right _ (Nat.two_pow_pos _))
    omega
  have he : e = 0 := by omega
  subst he
  rw [enc_of f64 hd hs hes h1 h2] at h
  have hle : mag f64 (0 * 2 ^ f64.man + (s + 1)) = s + 1 := by
    rw [mag_eq f64 (by omega) (Or.inl rfl)]
    simp [f64]
  have : s + 1 ≤ 2 ^ 52 := hs52
  simp only at h
  split at h
  · rw [Nat.add_assoc, hle] at h
    omega
  · have := mag_le_succ f64 (0 * 2 ^ f64.man + s)
    rw [Nat.add_assoc, hle] at this
    omega

/-- Rounding error over the rationals. -/
theorem enc_error_rat {n d : Nat} (hd : 0 < d) (hn : 2 ^ f64.man * (d * 2 ^ f64.unit) ≤ n) :
    (mag f64 (enc f64 n d) : ℚ) * d ≤ (1 + 1 / 2 ^ 53) * n ∧
    (1 - 1 / 2 ^ 53) * (n : ℚ) ≤ mag f64 (enc f64 n d) * d := by
  obtain ⟨h1, h2⟩ := enc_error f64 hd hn
  generalize mag f64 (enc f64 n d) = m at *
  have e1 : (2 : Nat) ^ (f64.man + 1) = 9007199254740992 := by decide
  rw [e1] at h1 h2
  have h1' : (9007199254740992 : ℚ) * (m * d) ≤ (9007199254740992 + 1) * n := by exact_mod_cast h1
  have h2' : (9007199254740991 : ℚ) * n ≤ 9007199254740992 * (m * d) := by exact_mod_cast h2
  norm_num
  constructor <;> linarith

end Hodu.Flt

namespace Hodu.Json
open Flt

/-- What the printer of a floating-point magnitude must satisfy: few digits, and the decimal lies
nearest to the number it stands for. -/
def Spec.Printed (pr : Nat → Nat × Int) (p : Nat) : Prop :=
  (pr p).1 < 10 ^ 19 ∧ (p = 0 → (pr p).1 = 0) ∧
  p = if 0 ≤ (pr p).2 then enc f64 ((pr p).1 * 10 ^ (pr p).2.natAbs * 2 ^ 1074) 1
    else enc f64 ((pr p).1 * 2 ^ 1074) (10 ^ (pr p).2.natAbs)

theorem div_close {a b c x n t : ℚ} (ht : 0 < t) (hn : 0 ≤ n) (hc : 0 ≤ c) (hx : 0 ≤ x)
    (ha1 : a ≤ (1 + 1 / 2 ^ 53) * n) (ha2 : (1 - 1 / 2 ^ 53) * n ≤ a)
    (hb1 : b ≤ (1 + 1 / 2 ^ 53) * t) (hb2 : (1 - 1 / 2 ^ 53) * t ≤ b)
    (hc1 : c * b ≤ (1 + 1 / 2 ^ 53) * a) (hc2 : (1 - 1 / 2 ^ 53) * a ≤ c * b)
    (hx1 : x * t ≤ (1 + 1 / 2 ^ 53) * n) (hx2 : (1 - 1 / 2 ^ 53) * n ≤ x * t) :
    c ≤ (1 + 1 / 2 ^ 50) * x ∧ (1 - 1 / 2 ^ 50) * x ≤ c := by
  constructor
  · have h1 : c * ((1 - 1 / 2 ^ 53) * t) ≤ c * b := mul_le_mul_of_nonneg_left hb2 hc
    have h2 : (1 - 1 / 2 ^ 53) ^ 2 * (c * t) ≤ (1 + 1 / 2 ^ 53) ^ 2 * (x * t) := by
      norm_num at *; linarith
    have h3 : (1 - 1 / 2 ^ 53) ^ 2 * c * t ≤ (1 + 1 / 2 ^ 53) ^ 2 * x * t := by linarith
    have h4 := le_of_mul_le_mul_right h3 ht
    norm_num at *; linarith
  · have h1 : c * b ≤ c * ((1 + 1 / 2 ^ 53) * t) := mul_le_mul_of_nonneg_left hb1 hc
    have h2 : (1 - 1 / 2 ^ 53) ^ 2 * (x * t) ≤ (1 + 1 / 2 ^ 53) ^ 2 * (c * t) := by
      norm_num at *; linarith
    have h3 : (1 - 1 / 2 ^ 53) ^ 2 * x * t ≤ (1 + 1 / 2 ^ 53) ^ 2 * c * t := by linarith
    have h4 := le_of_mul_le_mul_right h3 ht
    norm_num at *; linarith

theorem mul_close {a b c x n t k : ℚ} (hk : 0 < k) (ht : 0 < t) (hn : 0 ≤ n) (hx : 0 ≤ x)
    (ha1 : a ≤ (1 + 1 / 2 ^ 53) * n) (ha2 : (1 - 1 / 2 ^ 53) * n ≤ a)
    (hb1 : b ≤ (1 + 1 / 2 ^ 53) * t) (hb2 : (1 - 1 / 2 ^ 53) * t ≤ b)
    (hc1 : c * k ≤ (1 + 1 / 2 ^ 53) * (a * b)) (hc2 : (1 - 1 / 2 ^ 53) * (a * b) ≤ c * k)
    (hx1 : x * k ≤ (1 + 1 / 2 ^ 53) * (n * t)) (hx2 : (1 - 1 / 2 ^ 53) * (n * t) ≤ x * k) :
    c ≤ (1 + 1 / 2 ^ 50) * x ∧ (1 - 1 / 2 ^ 50) * x ≤ c := by
  have hnt : 0 ≤ n * t := mul_nonneg hn ht.le
  have ha0 : 0 ≤ a := le_trans (mul_nonneg (by norm_num) hn) ha2
  have hb0 : 0 ≤ b := le_trans (mul_nonneg (by norm_num) ht.le) hb2
  have hu : a * b ≤ (1 + 1 / 2 ^ 53) ^ 2 * (n * t) := by
    calc a * b ≤ ((1 + 1 / 2 ^ 53) * n) * ((1 + 1 / 2 ^ 53) * t) :=
          mul_le_mul ha1 hb1 hb0 (mul_nonneg (by norm_num) hn)
      _ = _ := by ring
  have hl : (1 - 1 / 2 ^ 53) ^ 2 * (n * t) ≤ a * b := by
    calc (1 - 1 / 2 ^ 53) ^ 2 * (n * t) = ((1 - 1 / 2 ^ 53) * n) * ((1 - 1 / 2 ^ 53) * t) := by ring
      _ ≤ a * b := mul_le_mul ha2 hb2 (mul_nonneg (by norm_num) ht.le) ha0
  constructor
  · have h3 : c * k ≤ ((1 + 1 / 2 ^ 50) * x) * k := by norm_num at *; linarith
    exact le_of_mul_le_mul_right h3 hk
  · have h3 : ((1 - 1 / 2 ^ 50) * x) * k ≤ c * k := by norm_num at *; linarith
    exact le_of_mul_le_mul_right h3 hk

theorem pow10_close (j : Nat) :
    (mag f64 (pow10 j) : ℚ) ≤ (1 + 1 / 2 ^ 53) * (10 ^ j * 2 ^ 1074 : Nat) ∧
    (1 - 1 / 2 ^ 53) * ((10 ^ j * 2 ^ 1074 : Nat) : ℚ) ≤ mag f64 (pow10 j) := by
  have h : 2 ^ f64.man * (1 * 2 ^ f64.unit) ≤ 10 ^ j * 2 ^ 1074 := by
    calc 2 ^ f64.man * (1 * 2 ^ f64.unit) = 1 * 2 ^ 52 := by decide
      _ ≤ 10 ^ j * 2 ^ 1074 := Nat.mul_le_mul (Nat.one_le_pow _ _ (by omega))
          (Nat.pow_le_pow_right (by omega) (by omega))
  have := enc_error_rat Nat.one_pos h
  simpa [pow10] using this

theorem enc_zero (f : Fmt) {d : Nat} (hd : 0 < d) : enc f 0 d = 0 := by
  have : 0 < d * 2 ^ f.unit := Nat.mul_pos hd (Nat.two_pow_pos _)
  simp [enc]

theorem half_le {a n : Nat} (h : (1 - 1 / 2 ^ 53) * (n : ℚ) ≤ a) : n ≤ 2 * a := by
  have h0 : (0 : ℚ) ≤ n := Nat.cast_nonneg _
  have : (n : ℚ) ≤ 2 * a := by norm_num at *; linarith
  exact_mod_cast this

theorem le_double {a n : Nat} (h : (a : ℚ) ≤ (1 + 1 / 2 ^ 53) * n) : a ≤ 2 * n := by
  have h0 : (0 : ℚ) ≤ n := Nat.cast_nonneg _
  have : (a : ℚ) ≤ 2 * n := by norm_num at *; linarith
  exact_mod_cast this

theorem regroup (a b c : Nat) :
    ((a * c : Nat) : ℚ) * ((b * c : Nat) : ℚ) = ((a * b * c : Nat) : ℚ) * (c : ℚ) := by
  push_cast
  ring

/-- The parser returns a number within a relative distance of `2 ^ -50` of the printed one, over
the range of the narrow formats. -/
theorem fromParts_close {pr : Nat → Nat × Int} {p : Nat} (hp : Spec.Printed pr p)
    (h : p = 0 ∨ (2 ^ 900 ≤ mag f64 p ∧ mag f64 p ≤ 2 ^ 1202)) :
    ∃ q, fromParts (pr p).1 (pr p).2 = some q ∧ q < f64.top ∧
      (mag f64 q : ℚ) ≤ (1 + 1 / 2 ^ 50) * mag f64 p ∧
      (1 - 1 / 2 ^ 50) * (mag f64 p : ℚ) ≤ mag f64 q := by
  obtain ⟨hs, hz, hr⟩ := hp
  generalize (pr p).1 = s at *
  generalize (pr p).2 = e at *
  rcases h with h | ⟨hlo, hhi⟩
  · rw [hz h, h]
    refine ⟨0, ?_, by decide, by simp [mag_zero], by simp [mag_zero]⟩
    have h0 : enc f64 (0 * 2 ^ 1074) 1 = 0 := by rw [Nat.zero_mul]; exact enc_zero _ Nat.one_pos
    unfold fromParts
    rw [h0]
    have hpow : 0 < mag f64 (pow10 e.natAbs) := by
      have h1 := half_le (pow10_close e.natAbs).2
      have : 0 < 10 ^ e.natAbs * 2 ^ 1074 := by positivity
      omega
    unfold scaleLoop
    split
    · split
      · simp only [fmul, mag_zero, Nat.zero_mul, enc_zero _ (Nat.two_pow_pos _)]
        rw [if_pos (by decide)]
      · simp only [fdiv, mag_zero, Nat.zero_mul, enc_zero _ hpow]
    · rw [if_pos rfl]
  · have hX0 : (0 : ℚ) ≤ mag f64 p := Nat.cast_nonneg _
    have hs1 : 1 ≤ s := by
      rcases Nat.eq_zero_or_pos s with h0 | h0
      · exfalso
        subst h0
        have : p = 0 := by
          rw [hr]
          split
          · rw [Nat.zero_mul, Nat.zero_mul]; exact enc_zero _ Nat.one_pos
          · rw [Nat.zero_mul]; exact enc_zero _ (by positivity)
        rw [this, mag_zero] at hlo
        exact absurd hlo (by decide +kernel)
      · exact h0
    have hN : 2 ^ 1074 ≤ s * 2 ^ 1074 := Nat.le_mul_of_pos_left _ hs1
    have hNn : 2 ^ f64.man * (1 * 2 ^ f64.unit) ≤ s * 2 ^ 1074 :=
      Nat.le_trans (by decide +kernel) hN
    obtain ⟨ha1, ha2⟩ := enc_error_rat Nat.one_pos hNn
    rw [Nat.cast_one, mul_one] at ha1 ha2
    obtain ⟨hb1, hb2⟩ := pow10_close e.natAbs
    have hA := half_le ha2
    have hBlo := half_le hb2
    have hBhi := le_double hb1
    have h10 : 1 ≤ 10 ^ e.natAbs := Nat.one_le_pow _ _ (by omega)
    have hfin : ∀ q, (mag f64 q : ℚ) ≤ (1 + 1 / 2 ^ 50) * mag f64 p → q < f64.top := by
      intro q hq
      apply lt_top_of_mag
      have : (mag f64 q : ℚ) ≤ 2 * mag f64 p := by norm_num at *; linarith
      have : mag f64 q ≤ 2 * mag f64 p := by exact_mod_cast this
      have h3 : 2 * mag f64 p ≤ 2 * 2 ^ 1202 := Nat.mul_le_mul_left _ hhi
      have h4 : 2 * 2 ^ 1202 < 2 ^ 2098 := by decide +kernel
      exact Nat.lt_of_le_of_lt (Nat.le_trans this h3) h4
    by_cases he : 0 ≤ e
    · rw [if_pos he] at hr
      have hnx : 2 ^ f64.man * (1 * 2 ^ f64.unit) ≤ s * 10 ^ e.natAbs * 2 ^ 1074 := by
        apply normal_of_mag Nat.one_pos
        rw [← hr]
        exact Nat.le_trans (by decide +kernel) hlo
      obtain ⟨hx1, hx2⟩ := enc_error_rat Nat.one_pos hnx
      rw [← hr, Nat.cast_one, mul_one] at hx1 hx2
      have hj : e.natAbs ≤ 308 := by
        by_contra hc
        have h1 := half_le hx2
        have h2 : 10 ^ 309 ≤ 10 ^ e.natAbs := Nat.pow_le_pow_right (by omega) (by omega)
        have h3 : 1 * 10 ^ 309 * 2 ^ 1074 ≤ s * 10 ^ e.natAbs * 2 ^ 1074 :=
          Nat.mul_le_mul_right _ (Nat.mul_le_mul hs1 h2)
        have h4 : 2 * 2 ^ 1202 < 1 * 10 ^ 309 * 2 ^ 1074 := by decide +kernel
        have h5 : 2 * mag f64 p ≤ 2 * 2 ^ 1202 := Nat.mul_le_mul_left _ hhi
        exact absurd (Nat.le_trans h3 (Nat.le_trans h1 h5)) (Nat.not_le.mpr h4)
      have hnc : 2 ^ f64.man * (2 ^ 1074 * 2 ^ f64.unit) ≤
          mag f64 (enc f64 (s * 2 ^ 1074) 1) * mag f64 (pow10 e.natAbs) := by
        have h1 : 2 ^ 1073 ≤ mag f64 (enc f64 (s * 2 ^ 1074) 1) := by
          have : 2 * 2 ^ 1073 ≤ 2 * mag f64 (enc f64 (s * 2 ^ 1074) 1) :=
            Nat.le_trans (by decide +kernel) (Nat.le_trans hN hA)
          exact Nat.le_of_mul_le_mul_left this (by omega)
        have h2 : 2 ^ 1073 ≤ mag f64 (pow10 e.natAbs) := by
          have : 2 * 2 ^ 1073 ≤ 2 * mag f64 (pow10 e.natAbs) :=
            Nat.le_trans (Nat.le_trans (by decide +kernel) (Nat.mul_le_mul_right (2 ^ 1074) h10)) hBlo
          exact Nat.le_of_mul_le_mul_left this (by omega)
        exact Nat.le_trans (by decide +kernel) (Nat.mul_le_mul h1 h2)
      obtain ⟨K, hK⟩ : ∃ K : Nat, K = 2 ^ 1074 := ⟨_, rfl⟩
      have hK0 : 0 < K := by rw [hK]; exact Nat.two_pow_pos 1074
      rw [← hK] at hnc
      obtain ⟨hc1, hc2⟩ := enc_error_rat hK0 hnc
      rw [hK] at hc1 hc2
      have key : ((s * 2 ^ 1074 : Nat) : ℚ) * ((10 ^ e.natAbs * 2 ^ 1074 : Nat) : ℚ) =
          ((s * 10 ^ e.natAbs * 2 ^ 1074 : Nat) : ℚ) * ((2 ^ 1074 : Nat) : ℚ) :=
        regroup s (10 ^ e.natAbs) (2 ^ 1074)
      have hcl : (mag f64 (fmul (enc f64 (s * 2 ^ 1074) 1) (pow10 e.natAbs)) : ℚ) ≤
            (1 + 1 / 2 ^ 50) * mag f64 p ∧ (1 - 1 / 2 ^ 50) * (mag f64 p : ℚ) ≤
            mag f64 (fmul (enc f64 (s * 2 ^ 1074) 1) (pow10 e.natAbs)) := by
        refine mul_close (k := ((2 ^ 1074 : Nat) : ℚ)) (t := ((10 ^ e.natAbs * 2 ^ 1074 : Nat) : ℚ))
          (n := ((s * 2 ^ 1074 : Nat) : ℚ)) (Nat.cast_pos.mpr (Nat.two_pow_pos _)) (Nat.cast_pos.mpr (by positivity))
          (Nat.cast_nonneg _) hX0 ha1 ha2 hb1 hb2 ?_ ?_ ?_ ?_
        · rw [Nat.cast_mul] at hc1; exact hc1
        · rw [Nat.cast_mul] at hc2; exact hc2
        · rw [key, ← mul_assoc]
          exact mul_le_mul_of_nonneg_right hx1 (Nat.cast_nonneg _)
        · rw [key, ← mul_assoc]
          exact mul_le_mul_of_nonneg_right hx2 (Nat.cast_nonneg _)
      refine ⟨_, ?_, hfin _ hcl.1, hcl⟩
      unfold fromParts scaleLoop
      rw [if_pos hj, if_pos he]
      simp only
      rw [if_pos (hfin _ hcl.1)]
    · rw [if_neg he] at hr
      have hnx : 2 ^ f64.man * (10 ^ e.natAbs * 2 ^ f64.unit) ≤ s * 2 ^ 1074 := by
        apply normal_of_mag (by positivity)
        rw [← hr]
        exact Nat.le_trans (by decide +kernel) hlo
      obtain ⟨hx1, hx2⟩ := enc_error_rat (by positivity) hnx
      rw [← hr] at hx1 hx2
      have hxn : mag f64 p * 10 ^ e.natAbs ≤ 2 * (s * 2 ^ 1074) := by
        rw [← Nat.cast_mul] at hx1
        exact le_double hx1
      have hn10 : 2 ^ 900 * 10 ^ e.natAbs ≤ 2 * (s * 2 ^ 1074) :=
        Nat.le_trans (Nat.mul_le_mul_right _ hlo) hxn
      have hj : e.natAbs ≤ 308 := by
        by_contra hc
        have h2 : 10 ^ 309 ≤ 10 ^ e.natAbs := Nat.pow_le_pow_right (by omega) (by omega)
        have h3 : 2 ^ 900 * 10 ^ 309 ≤ 2 ^ 900 * 10 ^ e.natAbs := Nat.mul_le_mul_left _ h2
        have h4 : 2 * (s * 2 ^ 1074) ≤ 2 * (10 ^ 19 * 2 ^ 1074) :=
          Nat.mul_le_mul_left _ (Nat.mul_le_mul_right _ hs.le)
        have h5 : 2 * (10 ^ 19 * 2 ^ 1074) < 2 ^ 900 * 10 ^ 309 := by decide +kernel
        exact absurd (Nat.le_trans h3 (Nat.le_trans hn10 h4)) (Nat.not_le.mpr h5)
      have hBpos : 0 < mag f64 (pow10 e.natAbs) := by
        have : 0 < 10 ^ e.natAbs * 2 ^ 1074 := by positivity
        omega
      have hnc : 2 ^ f64.man * (mag f64 (pow10 e.natAbs) * 2 ^ f64.unit) ≤
          mag f64 (enc f64 (s * 2 ^ 1074) 1) * 2 ^ 1074 := by
        generalize mag f64 (enc f64 (s * 2 ^ 1074) 1) = A at *
        generalize mag f64 (pow10 e.natAbs) = B at *
        have h1 : 2 ^ 900 * 10 ^ e.natAbs ≤ 4 * A := by
          have := Nat.le_trans hn10 (Nat.mul_le_mul_left 2 hA)
          rwa [← Nat.mul_assoc] at this
        have h2 : 2 ^ f64.man * (B * 2 ^ f64.unit) ≤
            2 ^ f64.man * (2 * (10 ^ e.natAbs * 2 ^ 1074) * 2 ^ f64.unit) :=
          Nat.mul_le_mul_left _ (Nat.mul_le_mul_right _ hBhi)
        have h3 : 4 * (2 ^ f64.man * (2 * (10 ^ e.natAbs * 2 ^ 1074) * 2 ^ f64.unit)) ≤
            2 ^ 900 * 10 ^ e.natAbs * 2 ^ 1074 := by
          calc 4 * (2 ^ f64.man * (2 * (10 ^ e.natAbs * 2 ^ 1074) * 2 ^ f64.unit))
              = (8 * 2 ^ f64.man * 2 ^ f64.unit) * 10 ^ e.natAbs * 2 ^ 1074 := by ring
            _ ≤ 2 ^ 900 * 10 ^ e.natAbs * 2 ^ 1074 :=
              Nat.mul_le_mul_right _ (Nat.mul_le_mul_right _ (by decide +kernel))
        have h4 : 2 ^ 900 * 10 ^ e.natAbs * 2 ^ 1074 ≤ 4 * (A * 2 ^ 1074) := by
          rw [← Nat.mul_assoc]
          exact Nat.mul_le_mul_right _ h1
        have h5 := Nat.le_of_mul_le_mul_left (Nat.le_trans h3 h4) (by omega)
        exact Nat.le_trans h2 h5
      obtain ⟨hc1, hc2⟩ := enc_error_rat hBpos hnc
      have hk : (0 : ℚ) < ((2 ^ 1074 : Nat) : ℚ) := Nat.cast_pos.mpr (Nat.two_pow_pos _)
      have hcl : (mag f64 (fdiv (enc f64 (s * 2 ^ 1074) 1) (pow10 e.natAbs)) : ℚ) ≤
            (1 + 1 / 2 ^ 50) * mag f64 p ∧ (1 - 1 / 2 ^ 50) * (mag f64 p : ℚ) ≤
            mag f64 (fdiv (enc f64 (s * 2 ^ 1074) 1) (pow10 e.natAbs)) := by
        rw [Nat.cast_mul] at hb1 hb2 hc1 hc2
        change _ at hc1
        generalize ((2 ^ 1074 : Nat) : ℚ) = k at *
        refine div_close (b := mag f64 (pow10 e.natAbs) / k) (t := ((10 ^ e.natAbs : Nat) : ℚ))
          (n := ((s * 2 ^ 1074 : Nat) : ℚ)) (Nat.cast_pos.mpr (by positivity))
          (Nat.cast_nonneg _) (Nat.cast_nonneg _) hX0 ha1 ha2 ?_ ?_ ?_ ?_ hx1 hx2
        · rw [div_le_iff₀ hk]; linarith
        · rw [le_div_iff₀ hk]; linarith
        · rw [← mul_div_assoc, div_le_iff₀ hk]; unfold fdiv; linarith
        · rw [← mul_div_assoc, le_div_iff₀ hk]; unfold fdiv; linarith
      refine ⟨_, ?_, hfin _ hcl.1, hcl⟩
      unfold fromParts scaleLoop
      rw [if_pos hj, if_neg he]

end Hodu.Json
