import Verif.Model.Float
import Mathlib.Tactic.Linarith
import Mathlib.Tactic.Ring

/-!
# Rounding to nearest: exactness, stability and error bound
-/

namespace Hodu.Flt

theorem mag_eq (f : Fmt) {e s : Nat} (hs : s ≤ 2 ^ (f.man + 1)) (h : e = 0 ∨ 2 ^ f.man ≤ s) :
    mag f (e * 2 ^ f.man + s) = s * 2 ^ e * 2 ^ f.unit := by
  have hp : 0 < 2 ^ f.man := Nat.two_pow_pos _
  rw [Nat.pow_succ] at hs
  unfold mag
  congr 1
  generalize 2 ^ f.man = M at *
  by_cases hlt : s < M
  · rcases h with h | h
    · subst h; simp [hlt]
    · omega
  · by_cases hM : s = M * 2
    · subst hM
      rw [if_neg (by nlinarith)]
      have h1 : (e * M + M * 2) = M * (e + 2) := by ring
      rw [h1, Nat.mul_mod_right, Nat.mul_div_cancel_left _ hp]
      simp only [Nat.add_zero, Nat.add_one_sub_one, show e + 2 - 1 = e + 1 from rfl]
      ring
    · obtain ⟨r, rfl⟩ : ∃ r, s = M + r := ⟨s - M, by omega⟩
      have hr : r < M := by omega
      rw [if_neg (by nlinarith [Nat.zero_le (e * M)])]
      have h1 : e * M + (M + r) = r + M * (e + 1) := by ring
      rw [h1, Nat.add_mul_mod_self_left, Nat.mod_eq_of_lt hr, Nat.add_mul_div_left _ _ hp,
        Nat.div_eq_of_lt hr]
      simp

theorem split (f : Fmt) (p : Nat) : ∃ e s, p = e * 2 ^ f.man + s ∧ s < 2 ^ (f.man + 1) ∧
    (e = 0 ∨ 2 ^ f.man ≤ s) := by
  have hp : 0 < 2 ^ f.man := Nat.two_pow_pos _
  rw [Nat.pow_succ]
  generalize 2 ^ f.man = M at *
  have h := Nat.div_add_mod p M
  have h2 := Nat.mod_lt p hp
  cases hq : p / M with
  | zero => exact ⟨0, p, by omega, by rw [hq] at h; omega, Or.inl rfl⟩
  | succ e =>
    refine ⟨e, M + p % M, ?_, by omega, Or.inr (by omega)⟩
    rw [hq] at h
    have : M * (e + 1) = e * M + M := by ring
    omega

/-- What `enc` computes once the scale is known. -/
theorem enc_of (f : Fmt) {n d e s : Nat} (hd : 0 < d) (hs : s < 2 ^ (f.man + 1))
    (h : e = 0 ∨ 2 ^ f.man ≤ s) (h1 : s * (d * 2 ^ f.unit * 2 ^ e) ≤ n)
    (h2 : n < (s + 1) * (d * 2 ^ f.unit * 2 ^ e)) :
    enc f n d = (let r := n - s * (d * 2 ^ f.unit * 2 ^ e)
      let p := e * 2 ^ f.man + s
      if d * 2 ^ f.unit * 2 ^ e < 2 * r ∨ (2 * r = d * 2 ^ f.unit * 2 ^ e ∧ p % 2 = 1) then p + 1
      else p) := by
  have hU : 0 < d * 2 ^ f.unit := Nat.mul_pos hd (Nat.two_pow_pos _)
  have hDpos : 0 < d * 2 ^ f.unit * 2 ^ e := Nat.mul_pos hU (Nat.two_pow_pos _)
  have hq1 : s * 2 ^ e ≤ n / (d * 2 ^ f.unit) := by
    rw [Nat.le_div_iff_mul_le hU]
    calc s * 2 ^ e * (d * 2 ^ f.unit) = s * (d * 2 ^ f.unit * 2 ^ e) := by ring
      _ ≤ n := h1
  have hq2 : n / (d * 2 ^ f.unit) < (s + 1) * 2 ^ e := by
    rw [Nat.div_lt_iff_lt_mul hU]
    calc n < (s + 1) * (d * 2 ^ f.unit * 2 ^ e) := h2
      _ = (s + 1) * 2 ^ e * (d * 2 ^ f.unit) := by ring
  have he : Nat.log2 (n / (d * 2 ^ f.unit)) - f.man = e := by
    have hup : n / (d * 2 ^ f.unit) < 2 ^ (f.man + 1 + e) := by
      refine Nat.lt_of_lt_of_le hq2 ?_
      rw [Nat.pow_add]
      exact Nat.mul_le_mul_right _ hs
    by_cases hz : n / (d * 2 ^ f.unit) = 0
    · rw [hz] at hq1 ⊢
      rcases h with h | h
      · subst h; simp
      · have : 0 < s * 2 ^ e :=
          Nat.mul_pos (Nat.lt_of_lt_of_le (Nat.two_pow_pos _) h) (Nat.two_pow_pos _)
        omega
    · have hl : Nat.log2 (n / (d * 2 ^ f.unit)) < f.man + 1 + e := (Nat.log2_lt hz).mpr hup
      rcases h with h | h
      · subst h; omega
      · have : f.man + e ≤ Nat.log2 (n / (d * 2 ^ f.unit)) := by
          rw [Nat.le_log2 hz, Nat.pow_add]
          exact Nat.le_trans (Nat.mul_le_mul_right _ h) hq1
        omega
  have hdiv : n / (d * 2 ^ f.unit * 2 ^ e) = s := by
    apply Nat.div_eq_of_lt_le
    · exact h1
    · exact h2
  have hmod : n % (d * 2 ^ f.unit * 2 ^ e) = n - s * (d * 2 ^ f.unit * 2 ^ e) := by
    have := Nat.div_add_mod n (d * 2 ^ f.unit * 2 ^ e)
    rw [hdiv] at this
    rw [Nat.mul_comm] at this
    omega
  simp only [enc, he, hdiv, hmod]

/-- The scale at which `enc` works. -/
theorem scale (f : Fmt) (n : Nat) {d : Nat} (hd : 0 < d) : ∃ e s, s < 2 ^ (f.man + 1) ∧
    (e = 0 ∨ 2 ^ f.man ≤ s) ∧ s * (d * 2 ^ f.unit * 2 ^ e) ≤ n ∧
    n < (s + 1) * (d * 2 ^ f.unit * 2 ^ e) := by
  have hU : 0 < d * 2 ^ f.unit := Nat.mul_pos hd (Nat.two_pow_pos _)
  generalize hq : n / (d * 2 ^ f.unit) = q
  generalize he : Nat.log2 q - f.man = e
  have hDpos : 0 < d * 2 ^ f.unit * 2 ^ e := Nat.mul_pos hU (Nat.two_pow_pos _)
  refine ⟨e, n / (d * 2 ^ f.unit * 2 ^ e), ?_, ?_, Nat.div_mul_le_self _ _, ?_⟩
  · rw [← Nat.div_div_eq_div_mul, hq, Nat.div_lt_iff_lt_mul (Nat.two_pow_pos _), ← Nat.pow_add]
    by_cases hz : q = 0
    · subst hz; exact Nat.two_pow_pos _
    · exact (Nat.log2_lt hz).mp (by omega)
  · by_cases hz : e = 0
    · exact Or.inl hz
    · right
      rw [← Nat.div_div_eq_div_mul, hq, Nat.le_div_iff_mul_le (Nat.two_pow_pos _), ← Nat.pow_add]
      have hq0 : q ≠ 0 := by
        intro hc
        subst hc
        simp at he
        omega
      exact (Nat.le_log2 hq0).mp (by omega)
  · exact Nat.lt_mul_of_div_lt (Nat.lt_succ_self _) hDpos

/-- A number close enough to a representable value rounds to it. -/
theorem enc_near (f : Fmt) {p k : Nat} (h : k = mag f p ∨
    (k < mag f p ∧ (mag f p - k) * 2 ^ (f.man + 2) < mag f p) ∨
    (mag f p < k ∧ (k - mag f p) * 2 ^ (f.man + 2) < mag f p)) : enc f k 1 = p := by
  obtain ⟨e, s, hp, hs, hes⟩ := split f p
  have hm : mag f p = s * 2 ^ e * 2 ^ f.unit := by rw [hp]; exact mag_eq f hs.le hes
  have hD : 0 < 1 * 2 ^ f.unit * 2 ^ e :=
    Nat.mul_pos (Nat.mul_pos Nat.one_pos (Nat.two_pow_pos _)) (Nat.two_pow_pos _)
  have hm' : mag f p = s * (1 * 2 ^ f.unit * 2 ^ e) := by rw [hm]; ring
  by_cases hge : mag f p ≤ k
  · have hlt : 2 * (k - mag f p) < 1 * 2 ^ f.unit * 2 ^ e := by
      rcases h with h | h | h
      · subst h; simpa using hD
      · omega
      · have h3 : (k - mag f p) * 2 ^ (f.man + 2) < 2 ^ (f.man + 1) * (1 * 2 ^ f.unit * 2 ^ e) :=
          Nat.lt_of_lt_of_le h.2 (by rw [hm']; exact Nat.mul_le_mul_right _ hs.le)
        have h4 : 2 ^ (f.man + 1) * (2 * (k - mag f p)) <
            2 ^ (f.man + 1) * (1 * 2 ^ f.unit * 2 ^ e) := by
          calc 2 ^ (f.man + 1) * (2 * (k - mag f p)) = (k - mag f p) * 2 ^ (f.man + 2) := by ring
            _ < _ := h3
        exact Nat.lt_of_mul_lt_mul_left h4
    rw [enc_of f Nat.one_pos hs hes (by omega) (by rw [Nat.succ_mul]; omega)]
    simp only [← hm', ← hp]
    rw [if_neg (by omega)]
  · have hk : k < mag f p := by omega
    obtain ⟨-, h⟩ : k < mag f p ∧ (mag f p - k) * 2 ^ (f.man + 2) < mag f p := by
      rcases h with h | h | h
      · omega
      · exact h
      · omega
    have hp0 : p ≠ 0 := by
      rintro rfl
      simp [mag, Nat.two_pow_pos] at hk
    obtain ⟨e', s', hp', hs', hes'⟩ := split f (p - 1)
    have hp1 : p = e' * 2 ^ f.man + (s' + 1) := by omega
    have hm2 : mag f p = (s' + 1) * (1 * 2 ^ f.unit * 2 ^ e') := by
      rw [hp1, mag_eq f (by omega) (by omega)]
      ring
    have hD' : 0 < 1 * 2 ^ f.unit * 2 ^ e' :=
      Nat.mul_pos (Nat.mul_pos Nat.one_pos (Nat.two_pow_pos _)) (Nat.two_pow_pos _)
    have hlt : 2 * (mag f p - k) < 1 * 2 ^ f.unit * 2 ^ e' := by
      have h3 : (mag f p - k) * 2 ^ (f.man + 2) < 2 ^ (f.man + 1) * (1 * 2 ^ f.unit * 2 ^ e') :=
        Nat.lt_of_lt_of_le h (by rw [hm2]; exact Nat.mul_le_mul_right _ hs')
      have h4 : 2 ^ (f.man + 1) * (2 * (mag f p - k)) <
          2 ^ (f.man + 1) * (1 * 2 ^ f.unit * 2 ^ e') := by
        calc 2 ^ (f.man + 1) * (2 * (mag f p - k)) = (mag f p - k) * 2 ^ (f.man + 2) := by ring
          _ < _ := h3
      exact Nat.lt_of_mul_lt_mul_left h4
    rw [Nat.succ_mul] at hm2
    rw [enc_of f (e := e') (s := s') Nat.one_pos hs' hes' (by omega) (by rw [Nat.succ_mul]; omega)]
    simp only
    rw [if_pos (Or.inl (by omega))]
    omega

theorem enc_mag (f : Fmt) (p : Nat) : enc f (mag f p) 1 = p := enc_near f (Or.inl rfl)

/-- Rounding error: at most half a unit in the last place, for numbers that are not subnormal. -/
theorem enc_error (f : Fmt) {n d : Nat} (hd : 0 < d) (hn : 2 ^ f.man * (d * 2 ^ f.unit) ≤ n) :
    2 ^ (f.man + 1) * (mag f (enc f n d) * d) ≤ (2 ^ (f.man + 1) + 1) * n ∧
    (2 ^ (f.man + 1) - 1) * n ≤ 2 ^ (f.man + 1) * (mag f (enc f n d) * d) := by
  obtain ⟨e, s, hs, hes, h1, h2⟩ := scale f n hd
  have hs' : 2 ^ f.man ≤ s := by
    rcases hes with h | h
    · subst h
      simp only [Nat.pow_zero, Nat.mul_one] at h2
      have := Nat.lt_of_mul_lt_mul_right (Nat.lt_of_le_of_lt hn h2)
      omega
    · exact h
  have henc := enc_of f hd hs hes h1 h2
  have hma := mag_eq f hs.le hes
  have hmb := mag_eq f (e := e) (s := s + 1) hs (by omega)
  rw [Nat.succ_mul] at h2
  generalize hD : d * 2 ^ f.unit * 2 ^ e = D at *
  have hn2 : 2 ^ f.man * D ≤ n := Nat.le_trans (Nat.mul_le_mul_right _ hs') h1
  have e1 : s * 2 ^ e * 2 ^ f.unit * d = s * D := by rw [← hD]; ring
  have e2 : (s + 1) * 2 ^ e * 2 ^ f.unit * d = s * D + D := by rw [← hD]; ring
  have hP : 1 ≤ 2 ^ (f.man + 1) := Nat.one_le_two_pow
  have hP2 : 2 ^ (f.man + 1) = 2 * 2 ^ f.man := by ring
  rw [henc]
  generalize 2 ^ f.man = M at *
  generalize 2 ^ (f.man + 1) = P at *
  obtain ⟨r, rfl⟩ : ∃ r, n = s * D + r := ⟨n - s * D, by omega⟩
  have hr : s * D + r - s * D = r := by omega
  simp only [hr]
  obtain ⟨P', rfl⟩ : ∃ P', P = P' + 1 := ⟨P - 1, by omega⟩
  simp only [Nat.add_sub_cancel]
  split
  · rw [show e * M + s + 1 = e * M + (s + 1) by omega, hmb, e2]
    have : D ≤ 2 * r := by omega
    constructor <;> nlinarith
  · rw [hma, e1]
    have : 2 * r ≤ D := by omega
    constructor <;> nlinarith

/-- A number with few enough significant bits is not changed by rounding. -/
theorem mag_enc_exact (f : Fmt) {s j : Nat} (hs : s < 2 ^ (f.man + 1)) :
    mag f (enc f (s * 2 ^ (f.unit + j)) 1) = s * 2 ^ (f.unit + j) := by
  obtain ⟨e, t, ht, het, h1, h2⟩ := scale f (s * 2 ^ (f.unit + j)) Nat.one_pos
  rw [enc_of f Nat.one_pos ht het h1 h2]
  have hej : e ≤ j ∨ s = 0 := by
    by_cases h0 : s = 0
    · exact Or.inr h0
    left
    by_contra hc
    rcases het with h | h
    · omega
    · have h3 : 2 ^ f.man * (1 * 2 ^ f.unit * 2 ^ e) ≤ s * 2 ^ (f.unit + j) :=
        Nat.le_trans (Nat.mul_le_mul_right _ h) h1
      have h4 : 2 ^ (f.man + 1) * 2 ^ (f.unit + j) ≤ 2 ^ f.man * (1 * 2 ^ f.unit * 2 ^ e) := by
        calc 2 ^ (f.man + 1) * 2 ^ (f.unit + j) = 2 ^ (f.man + f.unit + (j + 1)) := by
              rw [← Nat.pow_add]; congr 1; omega
          _ ≤ 2 ^ (f.man + f.unit + e) := Nat.pow_le_pow_right (by omega) (by omega)
          _ = _ := by rw [Nat.pow_add, Nat.pow_add]; ring
      have h5 := Nat.le_of_mul_le_mul_right (Nat.le_trans h4 h3) (Nat.two_pow_pos _)
      omega
  have hdvd : (1 * 2 ^ f.unit * 2 ^ e) ∣ s * 2 ^ (f.unit + j) := by
    rcases hej with h | h
    · exact Dvd.dvd.mul_left (by rw [Nat.one_mul, ← Nat.pow_add]; exact Nat.pow_dvd_pow 2 (by omega)) _
    · subst h; simp
  obtain ⟨c, hc⟩ := hdvd
  generalize hD : 1 * 2 ^ f.unit * 2 ^ e = D at *
  have hDpos : 0 < D := by
    rw [← hD]
    exact Nat.mul_pos (Nat.mul_pos Nat.one_pos (Nat.two_pow_pos _)) (Nat.two_pow_pos _)
  have hct : c = t := by
    rw [hc, Nat.mul_comm t] at h1
    rw [hc, Nat.mul_comm (t + 1)] at h2
    have := Nat.le_of_mul_le_mul_left h1 hDpos
    have := Nat.lt_of_mul_lt_mul_left h2
    omega
  subst hct
  have hr : s * 2 ^ (f.unit + j) - c * D = 0 := by rw [hc, Nat.mul_comm]; omega
  simp only [hr]
  rw [if_neg (by omega), mag_eq f ht.le het, hc, ← hD]
  ring

end Hodu.Flt
