import Verif.Model.Creation
import Verif.Props.Cast

/-!
# C98: created tensors hold what their constructor says
-/

namespace Hodu.Creation
open Flt Cast Spec Cast.Spec Flt.Spec

/-! ## Rounding of quotients -/

/-- The result of rounding `n / d` is at least as near to it as every other number of the format. -/
theorem enc_nearest_div (f : Fmt) (n : Nat) {d : Nat} (hd : 0 < d) (q : Nat) :
    ((mag f (enc f n d) * d : Nat) - n : Int).natAbs ≤ ((mag f q * d : Nat) - n : Int).natAbs := by
  obtain ⟨e, s, hs, hes, h1, h2⟩ := scale f n hd
  have henc := enc_of f hd hs hes h1 h2
  have hma := mag_eq f hs.le hes
  have hmb := mag_eq f (e := e) (s := s + 1) hs (by omega)
  rw [Nat.succ_mul] at h2
  have hD : 0 < d * 2 ^ f.unit * 2 ^ e := by positivity
  have e1 : mag f (e * 2 ^ f.man + s) * d = s * (d * 2 ^ f.unit * 2 ^ e) := by rw [hma]; ring
  have e2 : mag f (e * 2 ^ f.man + s + 1) * d = s * (d * 2 ^ f.unit * 2 ^ e) + d * 2 ^ f.unit * 2 ^ e := by
    rw [Nat.add_assoc, hmb]; ring
  generalize hDD : d * 2 ^ f.unit * 2 ^ e = D at *
  generalize e * 2 ^ f.man + s = p at *
  generalize s * D = m at *
  obtain ⟨r, rfl⟩ : ∃ r, n = m + r := ⟨n - m, by omega⟩
  simp only [show m + r - m = r by omega] at henc
  have hlo : ∀ q, q < p → mag f q * d < m := fun q hq => e1 ▸ Nat.mul_lt_mul_of_pos_right (mag_strictMono f hq) hd
  have hhi : ∀ q, p + 1 < q → m + D < mag f q * d := fun q hq => e2 ▸ Nat.mul_lt_mul_of_pos_right (mag_strictMono f hq) hd
  rw [henc]
  split
  · rw [e2]
    rcases Nat.lt_trichotomy q p with h | h | h
    · have := hlo q h; omega
    · subst h; omega
    · rcases Nat.lt_or_eq_of_le h with h | h
      · have := hhi q h; omega
      · have h : q = p + 1 := by omega
        subst h; omega
  · rw [e1]
    rcases Nat.lt_trichotomy q p with h | h | h
    · have := hlo q h; omega
    · subst h; omega
    · rcases Nat.lt_or_eq_of_le h with h | h
      · have := hhi q h; omega
      · have h : q = p + 1 := by omega
        subst h; omega

theorem enc_exact (f : Fmt) {n d q : Nat} (hd : 0 < d) (h : n = mag f q * d) : enc f n d = q := by
  have := enc_nearest_div f n hd q
  rw [h] at this ⊢
  have e : mag f (enc f (mag f q * d) d) * d = mag f q * d := by omega
  exact mag_inj f (Nat.eq_of_mul_eq_mul_right hd e)

/-! ## Whole numbers up to `2 ^ 24` -/

/-- The `f32` with the value `z`. -/
def Has (b : Nat) (z : Int) : Prop := b < 2 ^ 32 ∧ fval Flt.f32 b = some z

theorem pow_join {n a b c : Nat} (h : a + (b + c) = 1074) : n * 2 ^ a * 2 ^ b * 2 ^ c = n * one := by
  rw [one_eq, Nat.mul_assoc, Nat.mul_assoc, ← Nat.pow_add, ← Nat.pow_add, h]

theorem mag_whole {n : Nat} (h : n ≤ 2 ^ 24) : ∃ q, q < Flt.f32.top ∧ mag Flt.f32 q = n * one := by
  by_cases h0 : n = 0
  · exact ⟨0, by decide, by rw [mag_zero, h0, Nat.zero_mul]⟩
  · have hk : 2 ^ n.log2 ≤ n := Nat.log2_self_le h0
    have hk2 : n < 2 ^ (n.log2 + 1) := Nat.lt_log2_self
    have hk3 : n.log2 ≤ 24 := by
      by_contra hc
      have : 2 ^ 25 ≤ 2 ^ n.log2 := Nat.pow_le_pow_right (by decide) (by omega)
      omega
    by_cases h24 : n = 2 ^ 24
    · exact ⟨0x4B800000, by decide, by rw [h24, one_eq]; decide +kernel⟩
    have hk4 : n.log2 ≤ 23 := by
      by_contra hc
      have : 2 ^ 24 ≤ 2 ^ n.log2 := Nat.pow_le_pow_right (by decide) (by omega)
      omega
    refine ⟨(n.log2 + 126) * 2 ^ Flt.f32.man + n * 2 ^ (23 - n.log2), ?_, ?_⟩
    · have hs : n * 2 ^ (23 - n.log2) < 2 ^ 24 := by
        have : n * 2 ^ (23 - n.log2) < 2 ^ (n.log2 + 1) * 2 ^ (23 - n.log2) := Nat.mul_lt_mul_of_pos_right hk2 (Nat.two_pow_pos _)
        rw [← Nat.pow_add, show n.log2 + 1 + (23 - n.log2) = 24 by omega] at this
        exact this
      have : Flt.f32.top = 255 * 2 ^ 23 := rfl
      have : Flt.f32.man = 23 := rfl
      rw [this]
      omega
    · have hs : n * 2 ^ (23 - n.log2) ≤ 2 ^ (Flt.f32.man + 1) := by
        have : n * 2 ^ (23 - n.log2) ≤ 2 ^ (n.log2 + 1) * 2 ^ (23 - n.log2) := Nat.mul_le_mul_right _ hk2.le
        rw [← Nat.pow_add, show n.log2 + 1 + (23 - n.log2) = 24 by omega] at this
        exact this
      have hl : 2 ^ Flt.f32.man ≤ n * 2 ^ (23 - n.log2) := by
        have : 2 ^ n.log2 * 2 ^ (23 - n.log2) ≤ n * 2 ^ (23 - n.log2) := Nat.mul_le_mul_right _ hk
        rw [← Nat.pow_add, show n.log2 + (23 - n.log2) = 23 by omega] at this
        exact this
      rw [mag_eq Flt.f32 hs (.inr hl)]
      exact pow_join (by have : Flt.f32.unit = 925 := rfl; omega)


/-- Some `f32` is as large as `z`. -/
def Rep (z : Int) : Prop := ∃ q, q < Flt.f32.top ∧ mag Flt.f32 q = z.natAbs

theorem rep_whole {v : Int} (h : v.natAbs ≤ 2 ^ 24) : Rep (v * one) := by
  obtain ⟨q, h1, h2⟩ := mag_whole h
  exact ⟨q, h1, by rw [h2, Int.natAbs_mul]; rfl⟩

theorem Has.rep {b : Nat} {z : Int} (h : Has b z) : Rep z :=
  let ⟨h1, h2, _, _⟩ := fval_split h.2
  ⟨_, h1, h2.symm⟩

theorem Has.finite {b : Nat} {z : Int} (h : Has b z) :
    isNan b = false ∧ isInf b = false ∧ sval b = z ∧ (isNeg b = true → z ≤ 0) ∧ (isNeg b = false → 0 ≤ z) ∧
      (b % 2 ^ 31 = 0 ↔ z = 0) := by
  obtain ⟨h1, h2, h3, h4⟩ := fval_split h.2
  have h5 := fval_zero h.2
  rw [show Flt.f32.width = 31 from rfl] at h1 h2 h3 h4 h5
  refine ⟨by unfold isNan; simp only [decide_eq_false_iff_not]; omega, by unfold isInf; simp only [decide_eq_false_iff_not]; omega,
    ?_, ?_, ?_, h5⟩
  · unfold sval isNeg
    by_cases hs : b / 2 ^ 31 = 0
    · rw [if_neg (by simp only [decide_eq_true_eq]; omega), h3 hs]
    · rw [if_pos (by simp only [decide_eq_true_eq]; omega), h4 hs]
  · intro hn
    have hs : b / 2 ^ 31 ≠ 0 := by simpa [isNeg] using hn
    rw [h4 hs]; omega
  · intro hn
    have hs : b / 2 ^ 31 = 0 := by simpa [isNeg] using hn
    rw [h3 hs]; omega

theorem signed_has {neg : Bool} {q : Nat} {z : Int} (hq : q < Flt.f32.top) (h : mag Flt.f32 q = z.natAbs)
    (hp : neg = false → 0 ≤ z) (hn : neg = true → z ≤ 0) : Has (signed neg q) z := by
  cases neg with
  | false =>
    obtain ⟨e1, e2⟩ := fval_mk Flt.f32 (s := 0) (q := q) (z := z) (by decide) hq (by decide) (fun _ => by have := hp rfl; omega)
      (fun h => by omega)
    rw [Nat.zero_mul] at e1 e2
    rw [signed, if_neg (by decide)]
    exact ⟨e2, e1⟩
  | true =>
    obtain ⟨e1, e2⟩ := fval_mk Flt.f32 (s := 1) (q := q) (z := z) (by decide) hq (by decide) (fun h => by omega)
      (fun _ => by have := hn rfl; omega)
    rw [Nat.one_mul] at e1 e2
    exact ⟨e2, e1⟩

theorem round_has (neg0 : Bool) {n : Int} {d : Nat} (hd : 0 < d) {z : Int} (hz : Rep z) (h : n = z * d) : Has (round neg0 n d) z := by
  obtain ⟨q, h1, h2⟩ := hz
  have hd' : (0 : Int) < d := by exact_mod_cast hd
  have he : enc Flt.f32 n.natAbs d = q := enc_exact Flt.f32 hd (by rw [h2, h, Int.natAbs_mul]; rfl)
  unfold round
  rw [he, Nat.min_eq_left h1.le]
  refine signed_has h1 h2 ?_ ?_
  · intro hn
    simp only [Bool.or_eq_false_iff, decide_eq_false_iff_not] at hn
    by_contra hc
    have := mul_neg_of_neg_of_pos (show z < 0 by omega) hd'
    omega
  · intro hn
    by_contra hc
    have := mul_pos (show 0 < z by omega) hd'
    simp only [Bool.or_eq_true, decide_eq_true_eq, Bool.and_eq_true, beq_iff_eq] at hn
    omega

theorem fadd_has {a b : Nat} {x y : Int} (ha : Has a x) (hb : Has b y) (h : Rep (x + y)) : Has (fadd a b) (x + y) := by
  obtain ⟨a1, a2, a3, _⟩ := ha.finite
  obtain ⟨b1, b2, b3, _⟩ := hb.finite
  unfold fadd
  simp only [a1, a2, a3, b1, b2, b3, Bool.or_self, Bool.false_and, Bool.or_false, Bool.false_eq_true, if_false]
  exact round_has _ Nat.one_pos h (by simp)

theorem fneg_has {b : Nat} {y : Int} (hb : Has b y) : Has (fneg b) (-y) := by
  obtain ⟨h1, h2, h3, h4⟩ := fval_split hb.2
  obtain ⟨_, _, _, b4, b5, _⟩ := hb.finite
  rw [show Flt.f32.width = 31 from rfl] at h1 h2
  have e : fneg b = signed (!isNeg b) (b % 2 ^ 31) := by
    unfold fneg signed
    cases isNeg b <;> simp [Nat.add_comm]
  rw [e]
  exact signed_has h1 (by rw [← h2, Int.natAbs_neg]) (fun h => by have := b4 (by simpa using h); omega)
    (fun h => by have := b5 (by simpa using h); omega)

theorem fsub_has {a b : Nat} {x y : Int} (ha : Has a x) (hb : Has b y) (h : Rep (x - y)) : Has (fsub a b) (x - y) := by
  unfold fsub
  rw [hb.finite.1]
  exact fadd_has ha (fneg_has hb) h

theorem fmul_has {a b : Nat} {x y z : Int} (ha : Has a x) (hb : Has b y) (hz : Rep z) (h : x * y = z * one) : Has (fmul a b) z := by
  obtain ⟨a1, a2, a3, _⟩ := ha.finite
  obtain ⟨b1, b2, b3, _⟩ := hb.finite
  unfold fmul
  simp only [a1, a2, a3, b1, b2, b3, Bool.or_self, Bool.false_and, Bool.or_false, Bool.false_eq_true, if_false]
  rw [← one_eq]
  exact round_has _ Cast.one_pos hz h

/-- Division of numbers of the same sign, or of zero. -/
theorem fdiv_same {a b : Nat} {x y : Int} (ha : Has a x) (hb : Has b y) (hy : y ≠ 0) :
    fdiv a b = round (isNeg a != isNeg b) (x * one * (if y < 0 then -1 else 1)) y.natAbs := by
  obtain ⟨a1, a2, a3, a4, a5, a6⟩ := ha.finite
  obtain ⟨b1, b2, b3, b4, b5, b6⟩ := hb.finite
  have hb0 : (b % 2 ^ 31 == 0) = false := by simpa using fun h => hy (b6.mp h)
  have hs : isNeg b = decide (y < 0) := by
    cases h : isNeg b with
    | true => have := b4 h; symm; simp; omega
    | false => have := b5 h; symm; simp; omega
  unfold fdiv
  simp only [a1, a2, a3, b1, b2, b3, hb0, Bool.or_self, Bool.false_and, Bool.and_false, Bool.or_false, Bool.false_eq_true, if_false]
  rw [hs, one_eq]
  simp only [decide_eq_true_eq]
  push_cast
  rfl

theorem fdiv_has {a b : Nat} {x y z : Int} (ha : Has a x) (hb : Has b y) (hy : y ≠ 0) (hz : Rep z) (h : x * one = z * y) :
    Has (fdiv a b) z := by
  rw [fdiv_same ha hb hy]
  refine round_has _ (Int.natAbs_pos.mpr hy) hz ?_
  rw [h]
  split
  · rw [show ((y.natAbs : Nat) : Int) = -y by omega]; ring
  · rw [show ((y.natAbs : Nat) : Int) = y by omega]; ring

/-! ## Rounding up a quotient -/

/-- A number of the format above `m`, no further than half a step of `1 / P`. -/
theorem step_above {m P : Nat} (hP : 0 < P) (hP2 : P ≤ 2 ^ 24) (h : m * P < 2 ^ 24) :
    ∃ q u, mag Flt.f32 q = m * one + u ∧ 0 < u ∧ u * P < 2 * one := by
  have h1 := Cast.one_pos
  rcases Nat.eq_zero_or_pos m with rfl | hm
  · refine ⟨103 * 2 ^ 23, mag Flt.f32 (103 * 2 ^ 23), by rw [Nat.zero_mul, Nat.zero_add], lt_of_lt_of_le (Nat.two_pow_pos _) (mag_pos Flt.f32 (p := 103 * 2 ^ 23) (by decide)), ?_⟩
    have e : mag Flt.f32 (103 * 2 ^ 23) * 2 ^ 24 = one := by rw [one_eq]; decide +kernel
    have : mag Flt.f32 (103 * 2 ^ 23) * P ≤ mag Flt.f32 (103 * 2 ^ 23) * 2 ^ 24 := Nat.mul_le_mul_left _ hP2
    omega
  · have hk : 2 ^ m.log2 ≤ m := Nat.log2_self_le (by omega)
    have hk2 : m < 2 ^ (m.log2 + 1) := Nat.lt_log2_self
    have hm24 : m < 2 ^ 24 := lt_of_le_of_lt (Nat.le_mul_of_pos_right m hP) h
    have hk4 : m.log2 ≤ 23 := by
      by_contra hc
      have : 2 ^ 24 ≤ 2 ^ m.log2 := Nat.pow_le_pow_right (by decide) (by omega)
      omega
    have hs : m * 2 ^ (23 - m.log2) + 1 ≤ 2 ^ (Flt.f32.man + 1) := by
      have : m * 2 ^ (23 - m.log2) < 2 ^ (m.log2 + 1) * 2 ^ (23 - m.log2) := Nat.mul_lt_mul_of_pos_right hk2 (Nat.two_pow_pos _)
      rw [← Nat.pow_add, show m.log2 + 1 + (23 - m.log2) = 24 by omega] at this
      exact this
    have hl : 2 ^ Flt.f32.man ≤ m * 2 ^ (23 - m.log2) := by
      have : 2 ^ m.log2 * 2 ^ (23 - m.log2) ≤ m * 2 ^ (23 - m.log2) := Nat.mul_le_mul_right _ hk
      rw [← Nat.pow_add, show m.log2 + (23 - m.log2) = 23 by omega] at this
      exact this
    have hu : Flt.f32.unit = 925 := rfl
    refine ⟨(m.log2 + 126) * 2 ^ Flt.f32.man + (m * 2 ^ (23 - m.log2) + 1), 2 ^ (m.log2 + 126) * 2 ^ Flt.f32.unit, ?_, by positivity, ?_⟩
    · rw [mag_eq Flt.f32 hs (.inr (by omega)), Nat.succ_mul, Nat.add_mul]
      rw [pow_join (n := m) (a := 23 - m.log2) (b := m.log2 + 126) (c := Flt.f32.unit) (by omega)]
    · have e : 2 ^ (m.log2 + 126) * 2 ^ Flt.f32.unit * 2 ^ 23 = 2 ^ m.log2 * one := by
        rw [one_eq, ← Nat.pow_add, ← Nat.pow_add, ← Nat.pow_add]
        exact congrArg (fun n => 2 ^ n) (by omega)
      have h3 : 2 ^ m.log2 * P < 2 ^ 24 := lt_of_le_of_lt (Nat.mul_le_mul_right _ hk) h
      refine lt_of_mul_lt_mul_right (a := 2 ^ 23) ?_ (by positivity)
      generalize 2 ^ (m.log2 + 126) * 2 ^ Flt.f32.unit = u at *
      calc u * P * 2 ^ 23 = u * 2 ^ 23 * P := by ring
        _ = 2 ^ m.log2 * P * one := by rw [e]; ring
        _ < 2 ^ 24 * one := Nat.mul_lt_mul_of_pos_right h3 h1
        _ = 2 * one * 2 ^ 23 := by ring

/-- The rounded quotient of whole numbers lies between the same whole numbers as the quotient. -/
theorem quotient_between {X P m : Nat} (hP : 0 < P) (hP2 : P ≤ 2 ^ 24) (hX : X ≤ 2 ^ 24) (h1 : m * P < X) (h2 : X ≤ (m + 1) * P) :
    m * one < mag Flt.f32 (enc Flt.f32 (X * one * one) (P * one)) ∧
      mag Flt.f32 (enc Flt.f32 (X * one * one) (P * one)) ≤ (m + 1) * one ∧ enc Flt.f32 (X * one * one) (P * one) < Flt.f32.top := by
  have hone := Cast.one_pos
  have hd : 0 < P * one := Nat.mul_pos hP hone
  have hm : m + 1 ≤ 2 ^ 24 := by
    have : m * 1 ≤ m * P := Nat.mul_le_mul_left _ hP
    omega
  obtain ⟨q, u, q1, q2, q3⟩ := step_above hP hP2 (lt_of_lt_of_le h1 hX)
  obtain ⟨k, k1, k2⟩ := mag_whole hm
  have n1 := enc_nearest_div Flt.f32 (X * one * one) hd q
  have n2 := enc_nearest_div Flt.f32 (X * one * one) hd k
  rw [q1] at n1
  rw [k2] at n2
  have hup : mag Flt.f32 (enc Flt.f32 (X * one * one) (P * one)) ≤ (m + 1) * one := by
    by_contra hc
    have g1 : (m + 1) * one * (P * one) < mag Flt.f32 (enc Flt.f32 (X * one * one) (P * one)) * (P * one) :=
      Nat.mul_lt_mul_of_pos_right (by omega) hd
    have g2 : X * one * one ≤ (m + 1) * one * (P * one) := by
      calc X * one * one ≤ (m + 1) * P * one * one := Nat.mul_le_mul_right _ (Nat.mul_le_mul_right _ h2)
        _ = (m + 1) * one * (P * one) := by ring
    generalize (m + 1) * one * (P * one) = a1 at *
    generalize mag Flt.f32 (enc Flt.f32 (X * one * one) (P * one)) * (P * one) = a2 at *
    generalize X * one * one = a3 at *
    clear n1
    omega
  refine ⟨?_, hup, ?_⟩
  · by_contra hc
    have g1 : mag Flt.f32 (enc Flt.f32 (X * one * one) (P * one)) * (P * one) ≤ m * one * (P * one) := Nat.mul_le_mul_right _ (by omega)
    have g2 : (m * P + 1) * one * one ≤ X * one * one := Nat.mul_le_mul_right _ (Nat.mul_le_mul_right _ h1)
    have g3 : (m * P + 1) * one * one = m * one * (P * one) + one * one := by ring
    have g4 : (m * one + u) * (P * one) = m * one * (P * one) + u * P * one := by ring
    have g5 : u * P * one < 2 * one * one := Nat.mul_lt_mul_of_pos_right q3 hone
    have g6 : 2 * one * one = one * one + one * one := by ring
    have g7 : 0 < one * one := Nat.mul_pos hone hone
    have g8 : 0 < u * P * one := Nat.mul_pos (Nat.mul_pos q2 hP) hone
    rw [g4] at n1
    rw [g3] at g2
    rw [g6] at g5
    clear n2 g3 g4 g6
    generalize mag Flt.f32 (enc Flt.f32 (X * one * one) (P * one)) * (P * one) = a2 at *
    generalize m * one * (P * one) = a1 at *
    generalize X * one * one = a3 at *
    generalize u * P * one = a4 at *
    generalize one * one = a5 at *
    clear hup hc
    omega
  · by_contra hc
    have := mag_strictMono Flt.f32 (lt_of_lt_of_le k1 (Nat.le_of_not_lt hc))
    omega

theorem ceil_eq {v : Int} {m : Nat} (h1 : (m * one : Nat) < v) (h2 : v ≤ ((m + 1) * one : Nat)) : -(-v / (one : Int)) = m + 1 := by
  have ho : (0 : Int) < one := by exact_mod_cast Cast.one_pos
  push_cast at h1 h2
  have : -v / (one : Int) = -(m + 1) := by
    rw [Int.ediv_eq_iff_of_pos ho]
    constructor
    · nlinarith
    · nlinarith
  omega

theorem min_small {m : Nat} (h : m + 1 ≤ 2 ^ 24) : min ((m : Int) + 1).toNat (2 ^ 64 - 1) = m + 1 := by omega

theorem ceil_div {a b : Nat} {X P : Int} {m : Nat} (ha : Has a (X * one)) (hb : Has b (P * one)) (hs : 0 < X * P)
    (hX : X.natAbs ≤ 2 ^ 24) (hP2 : P.natAbs ≤ 2 ^ 24) (h1 : m * P.natAbs < X.natAbs) (h2 : X.natAbs ≤ (m + 1) * P.natAbs) :
    ceilUsize (fdiv a b) = m + 1 := by
  have ho : (0 : Int) < one := by exact_mod_cast Cast.one_pos
  have hP0 : P ≠ 0 := by rintro rfl; simp at hs
  have hy : P * one ≠ 0 := mul_ne_zero hP0 ho.ne'
  obtain ⟨b1, b2, b3⟩ := quotient_between (Int.natAbs_pos.mpr hP0) hP2 hX h1 h2
  have hpos : X * one * one * (if P * one < 0 then -1 else 1) = ((X.natAbs * one * one : Nat) : Int) := by
    push_cast
    rcases lt_or_gt_of_ne hP0 with h | h
    · have hX0 : X < 0 := by nlinarith
      rw [if_pos (by nlinarith), abs_of_neg hX0]; ring
    · have hX0 : 0 < X := by nlinarith
      rw [if_neg (by nlinarith), abs_of_pos hX0]; ring
  have hden : (P * one).natAbs = P.natAbs * one := by rw [Int.natAbs_mul]; rfl
  have hh : Has (fdiv a b) ((mag Flt.f32 (enc Flt.f32 (X.natAbs * one * one) (P.natAbs * one)) : Nat) : Int) := by
    rw [fdiv_same ha hb hy, hpos, hden]
    unfold round
    rw [Int.natAbs_natCast, Nat.min_eq_left b3.le]
    have hX0 : 0 < X.natAbs := by omega
    have hn : 0 < X.natAbs * one * one := Nat.mul_pos (Nat.mul_pos hX0 Cast.one_pos) Cast.one_pos
    refine signed_has b3 (by rw [Int.natAbs_natCast]) (fun _ => by omega) fun h => ?_
    simp only [Bool.or_eq_true, decide_eq_true_eq, Bool.and_eq_true, beq_iff_eq] at h
    omega
  obtain ⟨f1, f2, f3, _⟩ := hh.finite
  unfold ceilUsize
  rw [f1, f2, f3, ← one_eq]
  simp only [Bool.false_eq_true, if_false]
  rw [ceil_eq (m := m) (by exact_mod_cast b1) (by exact_mod_cast b2)]
  have hm : m + 1 ≤ 2 ^ 24 := by
    have : m * 1 ≤ m * P.natAbs := Nat.mul_le_mul_left _ (Int.natAbs_pos.mpr hP0)
    omega
  exact min_small hm

/-! ## Scalars -/

theorem smallToF32_has {f : Fmt} (hw : f.top ≤ 2 ^ f.width) {x : Nat} {z : Int} (hx : x < 2 ^ (f.width + 1)) (hv : fval f x = some z)
    (hr : Rep z) : Has (smallToF32 f x) z := by
  obtain ⟨h1, h2, h3, h4⟩ := fval_split hv
  obtain ⟨q, q1, q2⟩ := hr
  have hq : enc Flt.f32 (mag f (x % 2 ^ f.width)) 1 = q := enc_exact Flt.f32 Nat.one_pos (by rw [q2, h2, Nat.mul_one])
  unfold smallToF32
  rw [if_pos h1, hq]
  refine signed_has q1 q2 (fun h => ?_) (fun h => ?_)
  · rw [h3 (by simpa using h)]; omega
  · rw [h4 (by simpa using h)]; omega

/-- Reading a scalar that holds a number of the `f32` format. -/
theorem toF32_has {s : Sca} {z : Int} (hx : s.bits < 2 ^ bits s.dt) (hv : value s.dt s.bits = some z) (hr : Rep z) : Has s.toF32 z := by
  obtain ⟨dt, x⟩ := s
  have hwh : isWhole dt = true → Has (intToFloat Flt.f32 (intVal dt x)) z := by
    intro hw
    have e := value_whole hw x
    rw [hv, (whole_eq hw hx).1] at e
    obtain ⟨q, q1, q2⟩ := hr
    have e := Option.some.inj e
    obtain ⟨r1, r2⟩ := intToFloat_exact (f := Flt.f32) (by decide) (v := intVal dt x) q1 (by rw [q2, e])
    rw [e]
    exact ⟨r2, r1⟩
  cases dt with
  | bool =>
    have hv : some (if x = 0 then (0 : Int) else one) = some z := hv
    have hv := Option.some.inj hv
    show Has (if x ≠ 0 then 0x3F800000 else 0) z
    by_cases h : x = 0
    · rw [if_pos h] at hv; rw [if_neg (by simpa using h), ← hv]; exact ⟨by decide, value_zero⟩
    · rw [if_neg h] at hv; rw [if_pos h, ← hv]; exact ⟨by decide, value_one⟩
  | f8e4m3 => exact smallToF32_has (by decide) hx hv hr
  | f8e5m2 => exact smallToF32_has (by decide) hx hv hr
  | bf16 => exact smallToF32_has (by decide) hx hv hr
  | f16 => exact smallToF32_has (by decide) hx hv hr
  | f32 => exact ⟨hx, hv⟩
  | f64 =>
    obtain ⟨q, q1, q2⟩ := hr
    exact asFloat_exact (src := .f64) hx hv (fun h => by simp at h) q1 q2
  | u8 => exact hwh rfl
  | u16 => exact hwh rfl
  | u32 => exact hwh rfl
  | u64 => exact hwh rfl
  | i8 => exact hwh rfl
  | i16 => exact hwh rfl
  | i32 => exact hwh rfl
  | i64 => exact hwh rfl

/-! ## Conversion to the requested type -/

theorem ofF32_ok {dt : DType} {d data : List Nat} (cores fill : Nat) (hl : numel d = data.length) {F : Nat → Int}
    (hF : ∀ i b, data[i]? = some b → Has b (F i))
    (hrep : dt ≠ .f32 → ∀ i, i < data.length → ∃ q, q < 2 ^ bits dt ∧ value dt q = some (F i))
    (hwr : dt ≠ .f32 → ∀ i, i < data.length → Writable dt (F i)) :
    ∃ r, ofF32 cores fill dt d data = .ok (dt, r) ∧ r.WF ∧ r.dims = d ∧
      ∀ idx, InRange idx d → ∃ x, r.elem idx = some x ∧ value dt x = some (F (rowMajor d idx)) := by
  have ht : (⟨data, Layout.fromShape d⟩ : Tensor Nat).WF := fresh_wf hl
  have hel : ∀ idx, (⟨data, Layout.fromShape d⟩ : Tensor Nat).elem idx = data[rowMajor d idx]? := by
    intro idx
    simp only [Layout.fromShape, elem_rowMajor]
    rw [Nat.zero_add]
  unfold ofF32
  by_cases h : dt = .f32
  · subst h
    refine ⟨_, by rw [if_neg (by simp)], ht, rfl, fun idx hi => ?_⟩
    have hlt := rowMajor_lt hi
    refine ⟨data[rowMajor d idx]'(by omega), by rw [hel, List.getElem?_eq_getElem], ?_⟩
    exact (hF _ _ (List.getElem?_eq_getElem (by omega))).2
  · have hc : ∀ idx x, InRange idx d → data[rowMajor d idx]? = some x →
        ∃ r, castElem .f32 dt x = .ok r ∧ value dt r = some (F (rowMajor d idx)) := by
      intro idx x hi hx
      have hlt := rowMajor_lt hi
      obtain ⟨h1, h2⟩ := hF _ _ hx
      obtain ⟨q, q1, q2⟩ := hrep h (rowMajor d idx) (by omega)
      exact C96_exact_partial (src := .f32) h1 h2 q1 q2 (fun h => by simp at h) (hwr h _ (by omega))
    obtain ⟨r, r1, r2, r3, r4⟩ := C96_tensor_partial (src := .f32) (dst := dt) ht (.inr rfl) cores fill
      (fun idx x hi hx => by
        rw [hel] at hx
        obtain ⟨r, e, _⟩ := hc idx x hi hx
        exact ⟨r, e⟩)
      (fun idx x hi hx => by
        rw [hel] at hx
        exact ⟨(hF _ _ hx).1, fun h => by simp at h⟩)
    refine ⟨r, by rw [if_pos h, r1]; rfl, r2, r3, fun idx hi => ?_⟩
    obtain ⟨x, v, e1, e2, e3⟩ := r4 idx hi
    rw [hel] at e1
    obtain ⟨r', g1, g2⟩ := hc idx x hi e1
    rw [g1] at e2
    exact ⟨r', by rw [e3, Res.ok.inj e2], g2⟩

/-! ## Comparisons -/

theorem key_le {a b : Nat} {x y : Int} (ha : Has a x) (hb : Has b y) : key a ≤ key b ↔ x ≤ y := by
  obtain ⟨_, _, a3, a4, a5⟩ := ha.finite
  obtain ⟨_, _, b3, b4, b5⟩ := hb.finite
  have hm : ∀ p q, mag Flt.f32 p ≤ mag Flt.f32 q ↔ p ≤ q := fun p q => (mag_strictMono Flt.f32).le_iff_le
  have h0 := mag_zero Flt.f32
  have m1 := hm (a % 2 ^ 31) (b % 2 ^ 31)
  have m2 := hm (b % 2 ^ 31) (a % 2 ^ 31)
  have m3 := hm (a % 2 ^ 31) 0
  have m4 := hm (b % 2 ^ 31) 0
  rw [h0] at m3 m4
  rw [← a3, ← b3]
  unfold key sval
  generalize a % 2 ^ 31 = p at *
  generalize b % 2 ^ 31 = q at *
  generalize mag Flt.f32 p = M at *
  generalize mag Flt.f32 q = N at *
  clear hm h0 a3 a4 a5 b3 b4 b5 ha hb
  cases isNeg a <;> cases isNeg b <;> simp only [Bool.false_eq_true, if_false, if_true] <;> omega

theorem key_zero {a : Nat} {x : Int} (ha : Has a x) : (0 < key a ↔ 0 < x) ∧ (key a < 0 ↔ x < 0) := by
  have h1 := key_le (a := 0) ⟨by decide, value_zero⟩ ha
  have h2 := key_le (b := 0) ha ⟨by decide, value_zero⟩
  have h0 : key 0 = 0 := by decide
  rw [h0] at h1 h2
  omega

theorem fge_iff {a b : Nat} {x y : Int} (ha : Has a x) (hb : Has b y) : fge a b = decide (y ≤ x) := by
  unfold fge
  rw [ha.finite.1, hb.finite.1]
  simp [key_le hb ha]

theorem fpos_iff {a : Nat} {x : Int} (ha : Has a x) : fpos a = decide (0 < x) := by
  unfold fpos
  rw [ha.finite.1]
  simp [(key_zero ha).1]

theorem fneg0_iff {a : Nat} {x : Int} (ha : Has a x) : fneg0 a = decide (x < 0) := by
  unfold fneg0
  rw [ha.finite.1]
  simp [(key_zero ha).2]

theorem fzero_iff {a : Nat} {x : Int} (ha : Has a x) : fzero a = decide (x = 0) := by
  unfold fzero
  rw [Bool.eq_iff_iff, beq_iff_eq, decide_eq_true_eq]
  exact ha.finite.2.2.2.2.2

/-! ## Sequences -/

/-- `a` comes before `b` when walking with steps of `p`. -/
def Spec.Before (p a b : Int) : Prop := (0 < p ∧ a < b) ∨ (p < 0 ∧ b < a)

open Creation.Spec

/-- **C98, rejected ranges**: a step of zero, and ranges whose start does not come before their end, are errors, for all finite bounds. -/
theorem C98_arange_error {start stop step : Sca} {x y z : Int} (b1 : start.bits < 2 ^ bits start.dt) (b2 : stop.bits < 2 ^ bits stop.dt)
    (b3 : step.bits < 2 ^ bits step.dt) (v1 : value start.dt start.bits = some x) (v2 : value stop.dt stop.bits = some y)
    (v3 : value step.dt step.bits = some z) (r1 : Rep x) (r2 : Rep y) (r3 : Rep z) (h : ¬ Before z x y) (cores fill : Nat) :
    arange cores fill start stop step = .err := by
  have h1 := toF32_has b1 v1 r1
  have h2 := toF32_has b2 v2 r2
  have h3 := toF32_has b3 v3 r3
  unfold arange
  simp only [fzero_iff h3, fpos_iff h3, fneg0_iff h3, fge_iff h1 h2, fge_iff h2 h1]
  unfold Before at h
  by_cases hz : z = 0
  · rw [if_pos (by simpa using hz)]
  · rw [if_neg (by simpa using hz), if_pos]
    simp only [Bool.or_eq_true, Bool.and_eq_true, decide_eq_true_eq]
    omega

theorem intToFloat_has {i : Int} (h : i.natAbs ≤ 2 ^ 24) : Has (intToFloat Flt.f32 i) (i * one) := by
  obtain ⟨q, q1, q2⟩ := rep_whole h
  obtain ⟨r1, r2⟩ := intToFloat_exact (f := Flt.f32) (by decide) q1 q2
  exact ⟨r2, r1⟩

/-- One element of a sequence. -/
theorem term_has {s p : Nat} {S P : Int} {i : Nat} (hs : Has s (S * one)) (hp : Has p (P * one)) (hi : i ≤ 2 ^ 24)
    (h1 : (P * i).natAbs ≤ 2 ^ 24) (h2 : (S + i * P).natAbs ≤ 2 ^ 24) :
    Has (fadd s (fmul p (intToFloat Flt.f32 i))) ((S + i * P) * one) := by
  have hi' := intToFloat_has (i := (i : Int)) (by rw [Int.natAbs_natCast]; exact hi)
  have hm : Has (fmul p (intToFloat Flt.f32 i)) ((P * i) * one) := fmul_has hp hi' (rep_whole h1) (by ring)
  have e : (S + i * P) * one = S * one + (P * i) * (one : Int) := by ring
  rw [e]
  exact fadd_has hs hm (by rw [← e]; exact rep_whole h2)

/-- The number of terms, from what it means. -/
theorem terms_bounds {S E P : Int} {n : Nat} (hn : ∀ i : Nat, i < n ↔ Before P (S + i * P) E) (h : Before P S E) :
    ∃ m, n = m + 1 ∧ m * P.natAbs < (E - S).natAbs ∧ (E - S).natAbs ≤ (m + 1) * P.natAbs ∧ 0 < (E - S) * P := by
  have h0 : 0 < n := (hn 0).mpr (by simpa using h)
  obtain ⟨m, rfl⟩ : ∃ m, n = m + 1 := ⟨n - 1, by omega⟩
  have h1 := (hn m).mp (by omega)
  have h2 : ¬ Before P (S + (m + 1 : Nat) * P) E := fun hb => absurd ((hn (m + 1)).mpr hb) (by omega)
  refine ⟨m, rfl, ?_⟩
  unfold Before at h h1 h2
  rcases h with ⟨p, q⟩ | ⟨p, q⟩
  · have g1 : S + m * P < E := by omega
    have g2 : E ≤ S + (m + 1 : Nat) * P := by
      by_contra hc
      exact h2 (.inl ⟨p, by omega⟩)
    refine ⟨?_, ?_, mul_pos (by omega) p⟩ <;> zify <;> rw [abs_of_pos p, abs_of_pos (show 0 < E - S by omega)]
    · linarith
    · push_cast at g2; linarith
  · have g1 : E < S + m * P := by omega
    have g2 : S + (m + 1 : Nat) * P ≤ E := by
      by_contra hc
      exact h2 (.inr ⟨p, by omega⟩)
    refine ⟨?_, ?_, mul_pos_of_neg_of_neg (by omega) p⟩ <;> zify <;> rw [abs_of_neg p, abs_of_neg (show E - S < 0 by omega)]
    · linarith
    · push_cast at g2; linarith

/-- **C98, `arange` of whole numbers up to `2 ^ 24`**: the terms `S, S + P, …` that come before `E`, all of them, in the promoted type,
if that type holds them.  Missing: other numbers (`C98_arange_false`). -/
theorem C98_arange_partial {start stop step : Sca} {S E P : Int} {n : Nat} (b1 : start.bits < 2 ^ bits start.dt)
    (b2 : stop.bits < 2 ^ bits stop.dt) (b3 : step.bits < 2 ^ bits step.dt) (v1 : value start.dt start.bits = some (S * one))
    (v2 : value stop.dt stop.bits = some (E * one)) (v3 : value step.dt step.bits = some (P * one)) (hS : S.natAbs ≤ 2 ^ 24)
    (hE : E.natAbs ≤ 2 ^ 24) (hP : P.natAbs ≤ 2 ^ 24) (hES : (E - S).natAbs ≤ 2 ^ 24) (hB : Before P S E)
    (hn : ∀ i : Nat, i < n ↔ Before P (S + i * P) E)
    (hrep : ∀ i, i < n → ∃ q, q < 2 ^ bits (pickType start.dt [stop.dt, step.dt]) ∧
      value (pickType start.dt [stop.dt, step.dt]) q = some ((S + i * P) * one))
    (hwr : ∀ i : Nat, i < n → Writable (pickType start.dt [stop.dt, step.dt]) ((S + i * P) * one)) (cores fill : Nat) :
    ∃ r, arange cores fill start stop step = .ok (pickType start.dt [stop.dt, step.dt], r) ∧ r.WF ∧ r.dims = [n] ∧
      ∀ i, i < n → ∃ x, r.elem [i] = some x ∧ value (pickType start.dt [stop.dt, step.dt]) x = some ((S + i * P) * one) := by
  have ho : (0 : Int) < one := by exact_mod_cast Cast.one_pos
  have h1 := toF32_has b1 v1 (rep_whole hS)
  have h2 := toF32_has b2 v2 (rep_whole hE)
  have h3 := toF32_has b3 v3 (rep_whole hP)
  obtain ⟨m, rfl, m1, m2, m3⟩ := terms_bounds hn hB
  have hsub : Has (fsub stop.toF32 start.toF32) ((E - S) * one) := by
    have e : (E - S) * one = E * one - S * (one : Int) := by ring
    rw [e]
    exact fsub_has h2 h1 (by rw [← e]; exact rep_whole hES)
  have hsz : ceilUsize (fdiv (fsub stop.toF32 start.toF32) step.toF32) = m + 1 := ceil_div hsub h3 m3 hES hP m1 m2
  have hP0 : P ≠ 0 := by rintro rfl; simp at m3
  have hm : m + 1 ≤ 2 ^ 24 := by
    have : m * 1 ≤ m * P.natAbs := Nat.mul_le_mul_left _ (Int.natAbs_pos.mpr hP0)
    omega
  have l1 : ∀ a : Int, a * one < 0 ↔ a < 0 := fun a => by
    constructor
    · intro h; by_contra hc; have := mul_nonneg (show 0 ≤ a by omega) ho.le; omega
    · intro h; exact mul_neg_of_neg_of_pos h ho
  have l2 : ∀ a : Int, 0 < a * one ↔ 0 < a := fun a => by
    constructor
    · intro h; by_contra hc; have := mul_nonpos_of_nonpos_of_nonneg (show a ≤ 0 by omega) ho.le; omega
    · intro h; exact mul_pos h ho
  have l3 : ∀ a b : Int, a * one ≤ b * one ↔ a ≤ b := fun a b => mul_le_mul_iff_left₀ ho
  have hterm : ∀ i, i < m + 1 → Has (fadd start.toF32 (fmul step.toF32 (intToFloat Flt.f32 i))) ((S + i * P) * one) := by
    intro i hi
    have hb := (hn i).mp hi
    have e1 : (P * i).natAbs ≤ 2 ^ 24 := by
      have : i * P.natAbs ≤ m * P.natAbs := Nat.mul_le_mul_right _ (by omega)
      rw [Int.natAbs_mul, Int.natAbs_natCast, Nat.mul_comm]; omega
    refine term_has h1 h3 (by omega) e1 ?_
    have e2 : (i : Int) * P = P * i := by ring
    rw [e2] at hb ⊢
    unfold Before at hb hB
    have e3 : 0 < P → 0 ≤ P * i := fun h => mul_nonneg h.le (by omega)
    have e4 : P < 0 → P * i ≤ 0 := fun h => mul_nonpos_of_nonpos_of_nonneg h.le (by omega)
    generalize P * (i : Int) = k at *
    omega
  have hdata : ∀ (i : Nat) b, ((List.range (m + 1)).map fun (i : Nat) => fadd start.toF32 (fmul step.toF32 (intToFloat Flt.f32 i)))[i]? = some b →
      Has b ((S + i * P) * one) := by
    intro i b hb
    rw [List.getElem?_map, Option.map_eq_some_iff] at hb
    obtain ⟨k, hk, rfl⟩ := hb
    obtain ⟨hk1, hk2⟩ := List.getElem?_eq_some_iff.mp hk
    rw [List.length_range] at hk1
    rw [List.getElem_range] at hk2
    subst hk2
    exact hterm _ hk1
  obtain ⟨r, r1, r2, r3, r4⟩ := ofF32_ok (dt := pickType start.dt [stop.dt, step.dt]) (d := [m + 1])
    (data := (List.range (m + 1)).map fun (i : Nat) => fadd start.toF32 (fmul step.toF32 (intToFloat Flt.f32 i))) cores fill (by simp [numel]) hdata
    (fun _ i hi => hrep i (by simpa using hi)) (fun _ i hi => hwr i (by simpa using hi))
  refine ⟨r, ?_, r2, r3, fun i hi => ?_⟩
  · unfold arange
    simp only [fzero_iff h3, fpos_iff h3, fneg0_iff h3, fge_iff h1 h2, fge_iff h2 h1, hsz]
    rw [if_neg, if_neg, if_neg]
    · exact r1
    · omega
    · simp only [Bool.or_eq_true, Bool.and_eq_true, decide_eq_true_eq, l1, l2, l3]
      unfold Before at hB
      omega
    · simp only [decide_eq_true_eq]
      exact mul_ne_zero hP0 ho.ne'
  · have := r4 [i] (by simpa [InRange] using hi)
    simpa [rowMajor, numel] using this

theorem value_between {dt : DType} (hw : isWhole dt = true) {x y : Nat} {S E k : Int} (hx : x < 2 ^ bits dt) (hy : y < 2 ^ bits dt)
    (v1 : value dt x = some (S * one)) (v2 : value dt y = some (E * one)) (h1 : min S E ≤ k) (h2 : k ≤ max S E) :
    ∃ q, q < 2 ^ bits dt ∧ value dt q = some (k * one) := by
  have ho : (one : Int) ≠ 0 := by exact_mod_cast Cast.one_pos.ne'
  have e1 : whole dt x = S := mul_right_cancel₀ ho (Option.some.inj ((value_whole hw x).symm.trans v1))
  have e2 : whole dt y = E := mul_right_cancel₀ ho (Option.some.inj ((value_whole hw y).symm.trans v2))
  obtain ⟨w1, w2, w3⟩ := whole_eq hw hx
  obtain ⟨u1, u2, u3⟩ := whole_eq hw hy
  obtain ⟨t1, _, t3⟩ := toInt_spec hw k
  exact ⟨_, t1, by rw [value_whole hw, t3 (by omega) (by omega)]⟩

theorem writable_whole {dt : DType} (hw : isWhole dt = true) (z : Int) : Writable dt z := by
  intro c hc
  rcases whole_cases hw with rfl | rfl | rfl | rfl | rfl | rfl | rfl | rfl <;> simp [smallOf] at hc

theorem pickType_same (dt : DType) : pickType dt [dt, dt] = dt ∧ pickType dt [dt] = dt := by cases dt <;> decide

/-- **C98, `arange` of integer types**: no hypothesis about the terms is left. -/
theorem C98_arange_integers_partial {dt : DType} (hw : isWhole dt = true) {s e p : Nat} {S E P : Int} {n : Nat} (b1 : s < 2 ^ bits dt)
    (b2 : e < 2 ^ bits dt) (b3 : p < 2 ^ bits dt) (v1 : whole dt s = S) (v2 : whole dt e = E) (v3 : whole dt p = P)
    (hS : S.natAbs ≤ 2 ^ 24) (hE : E.natAbs ≤ 2 ^ 24) (hP : P.natAbs ≤ 2 ^ 24) (hES : (E - S).natAbs ≤ 2 ^ 24) (hB : Before P S E)
    (hn : ∀ i : Nat, i < n ↔ Before P (S + i * P) E) (cores fill : Nat) :
    ∃ r, arange cores fill ⟨dt, s⟩ ⟨dt, e⟩ ⟨dt, p⟩ = .ok (dt, r) ∧ r.WF ∧ r.dims = [n] ∧
      ∀ i, i < n → ∃ x, r.elem [i] = some x ∧ whole dt x = S + i * P := by
  have ho : (one : Int) ≠ 0 := by exact_mod_cast Cast.one_pos.ne'
  have w1 : value dt s = some (S * one) := by rw [value_whole hw, v1]
  have w2 : value dt e = some (E * one) := by rw [value_whole hw, v2]
  have w3 : value dt p = some (P * one) := by rw [value_whole hw, v3]
  have key := C98_arange_partial (start := ⟨dt, s⟩) (stop := ⟨dt, e⟩) (step := ⟨dt, p⟩) b1 b2 b3 w1 w2 w3 hS hE hP hES hB hn
  simp only [(pickType_same dt).1] at key
  obtain ⟨r, r1, r2, r3, r4⟩ := key (fun i hi => by
      have hb := (hn i).mp hi
      refine value_between hw b1 b2 w1 w2 ?_ ?_
      all_goals
        unfold Before at hb hB
        have e3 : 0 < P → 0 ≤ (i : Int) * P := fun h => mul_nonneg (by omega) h.le
        have e4 : P < 0 → (i : Int) * P ≤ 0 := fun h => mul_nonpos_of_nonneg_of_nonpos (by omega) h.le
        generalize (i : Int) * P = k at *
        omega) (fun i _ => writable_whole hw _) cores fill
  refine ⟨r, r1, r2, r3, fun i hi => ?_⟩
  obtain ⟨x, x1, x2⟩ := r4 i hi
  rw [value_whole hw] at x2
  exact ⟨x, x1, mul_right_cancel₀ ho (Option.some.inj x2)⟩

/-- **C98, `linspace`**: `steps` numbers from `S` to `E` in equal distances, if these are whole numbers up to `2 ^ 24`.  Missing: other
numbers (`C98_linspace_false`). -/
theorem C98_linspace_partial {start stop : Sca} {S E D : Int} {steps : Nat} (b1 : start.bits < 2 ^ bits start.dt)
    (b2 : stop.bits < 2 ^ bits stop.dt) (v1 : value start.dt start.bits = some (S * one)) (v2 : value stop.dt stop.bits = some (E * one))
    (hS : S.natAbs ≤ 2 ^ 24) (hE : E.natAbs ≤ 2 ^ 24) (hES : (E - S).natAbs ≤ 2 ^ 24) (hst : 0 < steps) (hst2 : steps ≤ 2 ^ 24)
    (hD : steps = 1 ∨ E - S = (steps - 1 : Nat) * D)
    (hrep : ∀ i, i < steps → ∃ q, q < 2 ^ bits (pickType start.dt [stop.dt]) ∧
      value (pickType start.dt [stop.dt]) q = some ((S + i * D) * one))
    (hwr : ∀ i : Nat, i < steps → Writable (pickType start.dt [stop.dt]) ((S + i * D) * one)) (cores fill : Nat) :
    ∃ r, linspace cores fill start stop steps = .ok (pickType start.dt [stop.dt], r) ∧ r.WF ∧ r.dims = [steps] ∧
      ∀ i, i < steps → ∃ x, r.elem [i] = some x ∧ value (pickType start.dt [stop.dt]) x = some ((S + i * D) * one) := by
  have ho : (0 : Int) < one := by exact_mod_cast Cast.one_pos
  have h1 := toF32_has b1 v1 (rep_whole hS)
  have h2 := toF32_has b2 v2 (rep_whole hE)
  have fin : ∀ data : List Nat, data.length = steps → (∀ (i : Nat) b, data[i]? = some b → Has b ((S + i * D) * one)) →
      ∃ r, ofF32 cores fill (pickType start.dt [stop.dt]) [steps] data = .ok (pickType start.dt [stop.dt], r) ∧ r.WF ∧ r.dims = [steps] ∧
        ∀ i, i < steps → ∃ x, r.elem [i] = some x ∧ value (pickType start.dt [stop.dt]) x = some ((S + i * D) * one) := by
    intro data hl hd
    obtain ⟨r, r1, r2, r3, r4⟩ := ofF32_ok (dt := pickType start.dt [stop.dt]) (d := [steps]) (data := data) cores fill
      (by simp [numel, hl]) hd (fun _ i hi => hrep i (by omega)) (fun _ i hi => hwr i (by omega))
    refine ⟨r, r1, r2, r3, fun i hi => ?_⟩
    have := r4 [i] (by simpa [InRange] using hi)
    simpa [rowMajor, numel] using this
  unfold linspace
  simp only []
  rw [if_neg (by omega), if_neg (by omega)]
  by_cases hs1 : steps = 1
  · rw [if_pos hs1]
    refine fin _ (by simp [hs1]) fun i b hb => ?_
    have hi : i = 0 := by
      by_contra hc
      rw [List.getElem?_eq_none (by simp; omega)] at hb
      cases hb
    subst hi
    rw [← Option.some.inj hb]
    simpa using h1
  · rw [if_neg hs1]
    have hD : E - S = (steps - 1 : Nat) * D := by rcases hD with h | h <;> [exact absurd h hs1; exact h]
    have hDn : (steps - 1) * D.natAbs = (E - S).natAbs := by rw [hD, Int.natAbs_mul, Int.natAbs_natCast]
    have hsub : Has (fsub stop.toF32 start.toF32) ((E - S) * one) := by
      have e : (E - S) * one = E * one - S * (one : Int) := by ring
      rw [e]
      exact fsub_has h2 h1 (by rw [← e]; exact rep_whole hES)
    have hden := intToFloat_has (i := ((steps - 1 : Nat) : Int)) (by rw [Int.natAbs_natCast]; omega)
    have hD24 : D.natAbs ≤ 2 ^ 24 := by
      have : 1 * D.natAbs ≤ (steps - 1) * D.natAbs := Nat.mul_le_mul_right _ (by omega)
      omega
    have hp : Has (fdiv (fsub stop.toF32 start.toF32) (intToFloat Flt.f32 (steps - 1 : Nat))) (D * one) :=
      fdiv_has hsub hden (mul_ne_zero (by omega) ho.ne') (rep_whole hD24) (by rw [hD]; ring)
    refine fin _ (by simp) fun i b hb => ?_
    rw [List.getElem?_map, Option.map_eq_some_iff] at hb
    obtain ⟨k, hk, rfl⟩ := hb
    obtain ⟨hk1, hk2⟩ := List.getElem?_eq_some_iff.mp hk
    rw [List.length_range] at hk1
    rw [List.getElem_range] at hk2
    subst hk2
    have e1 : (D * i).natAbs ≤ 2 ^ 24 := by
      have : i * D.natAbs ≤ (steps - 1) * D.natAbs := Nat.mul_le_mul_right _ (by omega)
      rw [Int.natAbs_mul, Int.natAbs_natCast, Nat.mul_comm]; omega
    refine term_has h1 hp (by omega) e1 ?_
    have e2 : (i : Int) * D = D * i := by ring
    have e3 : 0 ≤ D → 0 ≤ D * i ∧ D * i ≤ E - S := fun h => ⟨mul_nonneg h (by omega), by
      rw [hD, mul_comm]; exact mul_le_mul_of_nonneg_right (by omega) h⟩
    have e4 : D ≤ 0 → D * i ≤ 0 ∧ E - S ≤ D * i := fun h => ⟨mul_nonpos_of_nonpos_of_nonneg h (by omega), by
      rw [hD, mul_comm D]; exact mul_le_mul_of_nonpos_right (by omega) h⟩
    rw [e2]
    generalize D * (i : Int) = k at *
    clear hD
    omega

/-- **C98, `linspace` of no elements** is an error. -/
theorem C98_linspace_error (cores fill : Nat) (start stop : Sca) : linspace cores fill start stop 0 = .err := rfl

/-! ## Filling -/

theorem writeAll_spec (v : α) : ∀ (ps : List Nat) (b : List α), (∀ p ∈ ps, p < b.length) →
    ∃ s, writeAll v ps b = .ok s ∧ s.length = b.length ∧ ∀ p, p < b.length → s[p]? = if p ∈ ps then some v else b[p]?
  | [], b, _ => ⟨b, rfl, rfl, fun p _ => by simp⟩
  | q :: ps, b, h => by
    obtain ⟨s, h1, h2, h3⟩ := writeAll_spec v ps (b.set q v) fun p hp => by
      rw [List.length_set]; exact h p (List.mem_cons_of_mem _ hp)
    rw [List.length_set] at h2 h3
    refine ⟨s, by rw [writeAll, if_pos (h q List.mem_cons_self), h1], h2, fun p hp => ?_⟩
    rw [h3 p hp]
    by_cases hm : p ∈ ps
    · simp [hm]
    · by_cases hq : p = q
      · subst hq
        simp [hm, List.getElem?_set_self hp]
      · simp [hm, hq, List.getElem?_set_ne (Ne.symm hq)]

/-- The positions `const_set` writes, up to their order. -/
theorem constSet_positions {l : Layout} (hl : l.strides.length = l.dims.length) (ho : l.dims ≠ [] ∨ l.offset = 0) (cores : Nat) (v : α)
    (buf : List α) :
    ∃ ps, constSet cores v (unaryMetadata l l) buf = writeAll v ps buf ∧
      ∀ p, p ∈ ps ↔ ∃ idx, InRange idx l.dims ∧ p = l.offset + dot idx l.strides := by
  have hoff : (if 0 < l.dims.length then l.offset else 0) = l.offset := by
    rcases ho with h | h
    · rw [if_pos (List.length_pos_iff.mpr h)]
    · rw [h, ite_self]
  have hmem : ∀ f : Nat → Nat, (∀ i, i < numel l.dims → f i = l.offset + dot (unravel l.dims i) l.strides) →
      ∀ p, p ∈ (List.range (numel l.dims)).map f ↔ ∃ idx, InRange idx l.dims ∧ p = l.offset + dot idx l.strides := by
    intro f hf p
    rw [List.mem_map]
    constructor
    · rintro ⟨i, hi, rfl⟩
      rw [List.mem_range] at hi
      exact ⟨_, unravel_inRange hi, hf i hi⟩
    · rintro ⟨idx, hi, rfl⟩
      exact ⟨rowMajor l.dims idx, List.mem_range.mpr (rowMajor_lt hi), by rw [hf _ (rowMajor_lt hi), unravel_rowMajor hi]⟩
  unfold constSet
  rw [decodeUnary_unaryMetadata hl, hoff]
  simp only [Res.ok_bind, Layout.size, shapeSize_eq]
  split
  · rename_i hc
    have h := hmem (l.offset + ·) fun i hi => by rw [← kernelIndex_cont hl hi hc]
    split
    · rename_i hT
      refine ⟨_, rfl, ?_⟩
      have e : (List.range (getOptimalThreads cores (numel l.dims) 100000)).flatMap
          (share (numel l.dims) (getOptimalThreads cores (numel l.dims) 100000)) = List.range (numel l.dims) := by
        rw [List.flatMap_def]
        show (List.map (fun t => List.range' (chunkStart _ _ t) (chunkEnd _ _ t - chunkStart _ _ t)) _).flatten = _
        rw [chunks_flatten, chunkStart_last _ _ (by omega)]
      rw [e]
      exact h
    · exact ⟨_, rfl, h⟩
  · exact ⟨_, rfl, hmem _ fun i hi => by rw [getStridedIndex_eq_dot hl hi]⟩

/-- **C98, filling a view**: the elements of the view take the value and the rest of the buffer stays, for every layout, size and number
of threads.  Missing: views without dimensions that do not start their buffer (`C98_fill_false`). -/
theorem C98_fill_partial {t : Tensor α} (ht : t.WF) (ho : t.dims ≠ [] ∨ t.layout.offset = 0) (cores : Nat) (v : α) :
    ∃ s, constSet cores v (unaryMetadata t.layout t.layout) t.storage = .ok s ∧ s.length = t.storage.length ∧
      (∀ idx, InRange idx t.dims → (⟨s, t.layout⟩ : Tensor α).elem idx = some v) ∧
      (∀ p, (∀ idx, InRange idx t.dims → p ≠ t.layout.offset + dot idx t.layout.strides) → s[p]? = t.storage[p]?) := by
  obtain ⟨ps, h1, h2⟩ := constSet_positions ht.1 ho cores v t.storage
  have hin : ∀ idx, InRange idx t.dims → t.layout.offset + dot idx t.layout.strides < t.storage.length := by
    intro idx hi
    have := ht.2 idx hi
    unfold Tensor.elem at this
    by_contra hc
    rw [List.getElem?_eq_none (by omega)] at this
    simp at this
  obtain ⟨s, g1, g2, g3⟩ := writeAll_spec v ps t.storage fun p hp => by
    obtain ⟨idx, hi, rfl⟩ := (h2 p).mp hp
    exact hin idx hi
  refine ⟨s, by rw [h1, g1], g2, fun idx hi => ?_, fun p hp => ?_⟩
  · show s[_]? = _
    rw [g3 _ (hin idx hi), if_pos ((h2 _).mpr ⟨idx, hi, rfl⟩)]
  · by_cases hlt : p < t.storage.length
    · rw [g3 p hlt, if_neg]
      intro hm
      obtain ⟨idx, hi, e⟩ := (h2 p).mp hm
      exact hp idx hi e
    · rw [List.getElem?_eq_none (by omega), List.getElem?_eq_none (by omega)]

/-- **C98, the order of the writes does not matter**: whatever interleaving of the workers, the buffer is the same. -/
theorem C98_fill_schedule (v : α) {ps qs : List Nat} (h : ps.Perm qs) (b : List α) (hb : ∀ p ∈ ps, p < b.length) :
    writeAll v ps b = writeAll v qs b := by
  obtain ⟨s, h1, h2, h3⟩ := writeAll_spec v ps b hb
  obtain ⟨s', g1, g2, g3⟩ := writeAll_spec v qs b fun p hp => hb p (h.mem_iff.mpr hp)
  rw [h1, g1]
  congr 1
  apply List.ext_getElem? fun p => ?_
  by_cases hp : p < b.length
  · rw [h3 p hp, g3 p hp]
    simp only [h.mem_iff]
  · rw [List.getElem?_eq_none (by omega), List.getElem?_eq_none (by omega)]

/-- **C98, `full`**: the shape asked for, every element the value, the type of the value. -/
theorem C98_full (cores : Nat) (d : List Nat) (v : Sca) :
    ∃ r, full cores d v = .ok (v.dt, r) ∧ r.WF ∧ r.dims = d ∧ ∀ idx, InRange idx d → r.elem idx = some v.bits := by
  have ht : (⟨List.replicate (numel d) 0, Layout.fromShape d⟩ : Tensor Nat).WF := fresh_wf (by simp)
  obtain ⟨s, h1, h2, h3, _⟩ := C98_fill_partial ht (.inr rfl) cores v.bits
  refine ⟨⟨s, Layout.fromShape d⟩, ?_, fresh_wf (by simpa using h2.symm), rfl, h3⟩
  unfold full
  simp only [shapeSize_eq]
  rw [show constSet cores v.bits (unaryMetadata (Layout.fromShape d) (Layout.fromShape d)) (List.replicate (numel d) 0) = .ok s from h1]
  rfl

theorem oneBits_spec (dt : DType) : oneBits dt < 2 ^ bits dt ∧ value dt (oneBits dt) = some (one : Int) := by
  refine ⟨by cases dt <;> decide, ?_⟩
  rw [one_eq]
  cases dt <;> simp only [value] <;> try (decide +kernel)
  all_goals (rw [one_eq]; decide +kernel)

/-- **C98, `ones`**: every element is one. -/
theorem C98_ones (cores : Nat) (d : List Nat) (dt : DType) :
    ∃ r, ones cores d dt = .ok (dt, r) ∧ r.WF ∧ r.dims = d ∧
      ∀ idx, InRange idx d → ∃ x, r.elem idx = some x ∧ value dt x = some (one : Int) := by
  obtain ⟨r, h1, h2, h3, h4⟩ := C98_full cores d ⟨dt, oneBits dt⟩
  exact ⟨r, h1, h2, h3, fun idx hi => ⟨_, h4 idx hi, (oneBits_spec dt).2⟩⟩

theorem zero_spec (dt : DType) : value dt 0 = some 0 := by
  have h : ∀ f : Fmt, 0 < f.top → fval f 0 = some 0 := by
    intro f hf
    unfold fval
    rw [Nat.zero_mod, Nat.zero_div, if_pos hf, mag_zero]
    rfl
  by_cases hw : isWhole dt = true
  · rw [value_whole hw, (whole_zero hw (Nat.two_pow_pos _)).mpr rfl, Int.zero_mul]
  · cases dt with
    | bool => simp only [value, if_true]
    | f8e4m3 => exact h _ (by decide)
    | f8e5m2 => exact h _ (by decide)
    | bf16 => exact h _ (by decide)
    | f16 => exact h _ (by decide)
    | f32 => exact h _ (by decide)
    | f64 => exact h _ (by decide)
    | _ => exact absurd rfl hw

/-- **C98, `zeros`**: every element is zero. -/
theorem C98_zeros (d : List Nat) (dt : DType) :
    (zeros d dt).1 = dt ∧ (zeros d dt).2.WF ∧ (zeros d dt).2.dims = d ∧
      ∀ idx, InRange idx d → ∃ x, (zeros d dt).2.elem idx = some x ∧ value dt x = some 0 := by
  refine ⟨rfl, fresh_wf (by simp [shapeSize_eq]), rfl, fun idx hi => ⟨0, ?_, zero_spec dt⟩⟩
  simp only [zeros, Layout.fromShape, elem_rowMajor]
  rw [Nat.zero_add, shapeSize_eq, List.getElem?_replicate, if_pos (rowMajor_lt hi)]

/-! ## Identity matrices -/

theorem eyeLoop_spec (m : Nat) : ∀ (is data : List Nat), (∀ i ∈ is, i * m + i < data.length) →
    ∃ s, eyeLoop m is data = .ok s ∧ s.length = data.length ∧
      ∀ p, p < data.length → s[p]? = if (∃ i ∈ is, p = i * m + i) then some 0x3F800000 else data[p]?
  | [], data, _ => ⟨data, rfl, rfl, fun p _ => by simp⟩
  | i :: is, data, h => by
    obtain ⟨s, h1, h2, h3⟩ := eyeLoop_spec m is (data.set (i * m + i) 0x3F800000) fun k hk => by
      rw [List.length_set]; exact h k (List.mem_cons_of_mem _ hk)
    rw [List.length_set] at h2 h3
    refine ⟨s, by rw [eyeLoop, if_pos (h i List.mem_cons_self), h1], h2, fun p hp => ?_⟩
    rw [h3 p hp]
    by_cases hm : ∃ k ∈ is, p = k * m + k
    · rw [if_pos hm, if_pos]
      obtain ⟨k, hk, e⟩ := hm
      exact ⟨k, List.mem_cons_of_mem _ hk, e⟩
    · rw [if_neg hm]
      by_cases hq : p = i * m + i
      · rw [if_pos ⟨i, List.mem_cons_self, hq⟩, ← hq, List.getElem?_set_self hp]
      · rw [if_neg, List.getElem?_set_ne (Ne.symm hq)]
        rintro ⟨k, hk, e⟩
        rcases List.mem_cons.mp hk with rfl | hk
        · exact hq e
        · exact hm ⟨k, hk, e⟩

theorem writable_one (dt : DType) : Writable dt (one : Int) ∧ Writable dt 0 := by
  refine ⟨fun c hc => .inr ?_, fun c hc => .inl rfl⟩
  rw [Int.natAbs_natCast, one_eq]
  cases dt <;> simp only [smallOf, Option.some.injEq, reduceCtorEq] at hc <;> subst hc <;> decide +kernel

/-- **C98, identity matrices**: ones on the diagonal and zeros elsewhere, for every size and element type. -/
theorem C98_eye (cores fill n m : Nat) (dt : DType) :
    ∃ r, eyeNm cores fill n m dt = .ok (dt, r) ∧ r.WF ∧ r.dims = [n, m] ∧
      ∀ i j, i < n → j < m → ∃ x, r.elem [i, j] = some x ∧ value dt x = some (if i = j then (one : Int) else 0) := by
  obtain ⟨s, h1, h2, h3⟩ := eyeLoop_spec m (List.range (min n m)) (List.replicate (n * m) 0) (by
    intro i hi
    rw [List.mem_range] at hi
    rw [List.length_replicate]
    have : (i + 1) * m ≤ n * m := Nat.mul_le_mul_right _ (by omega)
    rw [Nat.succ_mul] at this
    omega)
  rw [List.length_replicate] at h2 h3
  obtain ⟨r, r1, r2, r3, r4⟩ := ofF32_ok (dt := dt) (d := [n, m]) (data := s) cores fill (by simp [numel, h2])
    (F := fun p => if ∃ i ∈ List.range (min n m), p = i * m + i then (one : Int) else 0)
    (fun p b hb => by
      have hp : p < n * m := by
        rw [← h2]
        exact (List.getElem?_eq_some_iff.mp hb).1
      rw [h3 p hp] at hb
      by_cases h : ∃ i ∈ List.range (min n m), p = i * m + i
      · simp only [if_pos h] at hb ⊢
        rw [← Option.some.inj hb]
        exact ⟨by decide, value_one⟩
      · simp only [if_neg h] at hb ⊢
        rw [List.getElem?_replicate, if_pos hp] at hb
        rw [← Option.some.inj hb]
        exact ⟨by decide, value_zero⟩)
    (fun _ p _ => by
      by_cases h : ∃ i ∈ List.range (min n m), p = i * m + i
      · simp only [if_pos h]
        exact ⟨_, oneBits_spec dt⟩
      · simp only [if_neg h]
        exact ⟨0, Nat.two_pow_pos _, zero_spec dt⟩)
    (fun _ p _ => by
      by_cases h : ∃ i ∈ List.range (min n m), p = i * m + i
      · simp only [if_pos h]
        exact (writable_one dt).1
      · simp only [if_neg h]
        exact (writable_one dt).2)
  refine ⟨r, by rw [eyeNm, h1]; exact r1, r2, r3, fun i j hi hj => ?_⟩
  obtain ⟨x, x1, x2⟩ := r4 [i, j] (by simp [InRange, hi, hj])
  refine ⟨x, x1, ?_⟩
  rw [x2]
  simp only [rowMajor, numel, Nat.mul_one, Nat.add_zero, List.mem_range]
  congr 1
  by_cases hij : i = j
  · subst hij
    rw [if_pos ⟨i, by omega, rfl⟩, if_pos rfl]
  · rw [if_neg hij, if_neg]
    rintro ⟨k, hk, e⟩
    have e1 : (i * m + j) / m = i := by
      rw [Nat.mul_comm, Nat.mul_add_div (by omega), Nat.div_eq_of_lt hj, Nat.add_zero]
    have e2 : (k * m + k) / m = k := by
      rw [Nat.mul_comm, Nat.mul_add_div (by omega), Nat.div_eq_of_lt (by omega), Nat.add_zero]
    rw [e, e2] at e1
    subst e1
    omega

/-! ## What does not hold -/

/-- The full claim about `arange`: whatever numbers the bounds are, no element reaches the end. -/
def C98_arange_full : Prop :=
  ∀ (cores fill s e p : Nat) (r : Tensor Nat), arange cores fill ⟨.f32, s⟩ ⟨.f32, e⟩ ⟨.f32, p⟩ = .ok (.f32, r) → fpos p = true →
    ∀ i x, r.elem [i] = some x → fge x e = false

/-- `arange(1.0, 1.2, 0.1)` has a third element, and it is `1.2`. -/
theorem C98_arange_false : ¬ C98_arange_full := by
  intro h
  have e : arange 1 0 ⟨.f32, 0x3F800000⟩ ⟨.f32, 0x3F99999A⟩ ⟨.f32, 0x3DCCCCCD⟩ =
      .ok (.f32, ⟨[0x3F800000, 0x3F8CCCCD, 0x3F99999A], Layout.fromShape [3]⟩) := by decide +kernel
  have := h 1 0 0x3F800000 0x3F99999A 0x3DCCCCCD _ e (by decide +kernel) 2 0x3F99999A (by decide)
  exact absurd this (by decide +kernel)

/-- Integers are calculated in `f32`: `arange(16777216, 16777219, 1)` of `i32` has four elements, one of them twice and the last past the
end. -/
theorem C98_arange_integers_false :
    arange 4 0 ⟨.i32, 16777216⟩ ⟨.i32, 16777219⟩ ⟨.i32, 1⟩ =
      .ok (.i32, ⟨[16777216, 16777216, 16777218, 16777220], Layout.fromShape [4]⟩) := by decide +kernel

/-- The type of the sequence is that of the start alone if none is a float: `arange(0_u8, 300_i32, 100_i32)` converts 200 and 100, but
`arange(0_u8, 301_i32, 300_i32)` would have to convert 300 to `u8`, which is undefined. -/
theorem C98_arange_type_false :
    (∃ r, arange 4 0 ⟨.u8, 0⟩ ⟨.i32, 300⟩ ⟨.i32, 100⟩ = .ok (.u8, r) ∧ r.storage = [0, 100, 200]) ∧
    arange 4 0 ⟨.u8, 0⟩ ⟨.i32, 301⟩ ⟨.i32, 300⟩ = .ub :=
  ⟨⟨⟨[0, 100, 200], Layout.fromShape [3]⟩, by decide +kernel⟩, by decide +kernel⟩

/-- An infinite end is not rejected: the vector is too long for its allocation.  A not-a-number gives an empty tensor. -/
theorem C98_arange_infinite :
    arange 4 0 ⟨.f32, 0⟩ ⟨.f32, 0x7F800000⟩ ⟨.f32, 0x3F800000⟩ = .panic ∧
    (∃ r, arange 4 0 ⟨.f32, 0⟩ ⟨.f32, qnan⟩ ⟨.f32, 0x3F800000⟩ = .ok (.f32, r) ∧ r.dims = [0]) :=
  ⟨by decide +kernel, ⟨⟨[], Layout.fromShape [0]⟩, by decide +kernel⟩⟩

/-- `linspace(0, 1, 42)` ends just below one, and `linspace(-3e38, 3e38, 2)` starts with a not-a-number. -/
theorem C98_linspace_false :
    (∃ r, linspace 4 0 ⟨.f32, 0⟩ ⟨.f32, 0x3F800000⟩ 42 = .ok (.f32, r) ∧ r.elem [41] = some 0x3F7FFFFF) ∧
    (∃ r, linspace 4 0 ⟨.f32, 0xFF61B1E6⟩ ⟨.f32, 0x7F61B1E6⟩ 2 = .ok (.f32, r) ∧ r.elem [0] = some qnan) := by
  have e1 : ∃ r, (linspace 4 0 ⟨.f32, 0⟩ ⟨.f32, 0x3F800000⟩ 42).bind (fun r => .ok (r.1, r.2.elem [41])) = .ok r ∧
      r = (.f32, some 0x3F7FFFFF) := ⟨_, by decide +kernel, rfl⟩
  have e2 : ∃ r, (linspace 4 0 ⟨.f32, 0xFF61B1E6⟩ ⟨.f32, 0x7F61B1E6⟩ 2).bind (fun r => .ok (r.1, r.2.elem [0])) = .ok r ∧
      r = (.f32, some qnan) := ⟨_, by decide +kernel, rfl⟩
  have obs : ∀ (x : Res (DType × Tensor Nat)) (f : Tensor Nat → Option Nat) (y : DType × Option Nat),
      x.bind (fun r => .ok (r.1, f r.2)) = .ok y → ∃ r, x = .ok (y.1, r) ∧ f r = y.2 := by
    intro x f y h
    cases x with
    | ok r =>
      have h := Res.ok.inj h
      exact ⟨r.2, by rw [← h], by rw [← h]⟩
    | _ => cases h
  obtain ⟨_, h1, rfl⟩ := e1
  obtain ⟨_, h2, rfl⟩ := e2
  exact ⟨obs _ (·.elem [41]) _ h1, obs _ (·.elem [0]) _ h2⟩

/-- `full_like` does not take the type of the tensor. -/
theorem C98_full_like_false :
    ∃ r, fullLike 4 (.f32, ⟨[0, 0], Layout.fromShape [2]⟩) ⟨.u8, 7⟩ = .ok (.u8, r) ∧ r.storage = [7, 7] :=
  ⟨⟨[7, 7], Layout.fromShape [2]⟩, by decide +kernel⟩

/-- A view without dimensions: the start of the buffer is filled instead. -/
theorem C98_fill_false :
    constSet 4 9 (unaryMetadata ⟨[], [], 2⟩ ⟨[], [], 2⟩) [1, 2, 3] = .ok [9, 2, 3] := by decide +kernel

/-! ## Examples -/

/-- A transposed view of the last two rows of a matrix is filled. -/
example : constSet 4 9 (unaryMetadata ⟨[2, 2], [1, 2], 2⟩ ⟨[2, 2], [1, 2], 2⟩) [1, 2, 3, 4, 5, 6] = .ok [1, 2, 9, 9, 9, 9] := by decide +kernel

example : (share 7 3 0, share 7 3 1, share 7 3 2) = ([0, 1, 2], [3, 4], [5, 6]) := by decide

example : (⟨[1, 2, 3, 4, 5, 6], ⟨[2, 2], [1, 2], 2⟩⟩ : Tensor Nat).dims ≠ [] := by decide

/-- `arange(10, -1, -3)` is `10, 7, 4, 1`. -/
example : arange 4 0 ⟨.i32, 10⟩ ⟨.i32, 0xFFFFFFFF⟩ ⟨.i32, 0xFFFFFFFD⟩ = .ok (.i32, ⟨[10, 7, 4, 1], Layout.fromShape [4]⟩) := by decide +kernel

example : Before (-3) 10 (-1) ∧ ∀ i : Nat, i < 4 ↔ Before (-3) (10 + i * (-3)) (-1) := by
  refine ⟨.inr (by decide), fun i => ?_⟩
  unfold Before
  omega

example : ∃ r, arange 4 0 ⟨.i32, 10⟩ ⟨.i32, 0xFFFFFFFF⟩ ⟨.i32, 0xFFFFFFFD⟩ = .ok (.i32, r) ∧ r.WF ∧ r.dims = [4] ∧
    ∀ i, i < 4 → ∃ x, r.elem [i] = some x ∧ whole .i32 x = 10 + i * (-3) :=
  C98_arange_integers_partial (S := 10) (E := -1) (P := -3) rfl (by decide) (by decide) (by decide) (by decide) (by decide) (by decide)
    (by decide) (by decide) (by decide) (by decide) (.inr (by decide)) (fun i => by unfold Before; omega) 4 0

/-- `linspace(0, 12, 5)` is `0, 3, 6, 9, 12`. -/
example : linspace 4 0 ⟨.u8, 0⟩ ⟨.u8, 12⟩ 5 = .ok (.u8, ⟨[0, 3, 6, 9, 12], Layout.fromShape [5]⟩) := by decide +kernel

example : arange 4 0 ⟨.i32, 3⟩ ⟨.i32, 3⟩ ⟨.i32, 1⟩ = .err ∧ arange 4 0 ⟨.i32, 3⟩ ⟨.i32, 5⟩ ⟨.i32, 0⟩ = .err ∧ ¬ Before 1 3 3 := by
  refine ⟨by decide +kernel, by decide +kernel, ?_⟩
  unfold Before
  omega

example : eyeNm 4 0 2 3 .f16 = .ok (.f16, ⟨[0x3C00, 0, 0, 0, 0x3C00, 0], Layout.fromShape [2, 3]⟩) := by decide +kernel

example : ones 4 [2] .bf16 = .ok (.bf16, ⟨[0x3F80, 0x3F80], Layout.fromShape [2]⟩) := by decide +kernel

end Hodu.Creation
