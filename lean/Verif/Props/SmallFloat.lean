import Mathlib.Tactic.IntervalCases
import Mathlib.Tactic.Ring
import Verif.Lemmas.Float
import Verif.Model.SmallFloat

/-!
# C76: conversions of the reduced-precision element types in the CPU kernels
-/

namespace Hodu.Flt

/-! ## Specification -/

/-- `mag f r` is the largest value of the format not above `x`, or the smallest not below it. -/
def Spec.Faithful (f : Fmt) (r x : Nat) : Prop :=
  (mag f r ≤ x ∧ x < mag f (r + 1)) ∨ (0 < r ∧ mag f (r - 1) < x ∧ x ≤ mag f r)

/-- No value of the format is nearer to `x` than `mag f r`. -/
def Spec.Nearest (f : Fmt) (r x : Nat) : Prop :=
  ∀ q, ((mag f r : Int) - x).natAbs ≤ ((mag f q : Int) - x).natAbs

open Spec

/-! ## Lemmas -/

theorem mag_lt_succ (f : Fmt) (p : Nat) : mag f p < mag f (p + 1) := by
  obtain ⟨e, s, hp, hs, hes⟩ := split f p
  have h1 : mag f p = s * 2 ^ e * 2 ^ f.unit := by rw [hp]; exact mag_eq f hs.le hes
  have h2 : mag f (p + 1) = (s + 1) * 2 ^ e * 2 ^ f.unit := by
    rw [hp, Nat.add_assoc]
    exact mag_eq f hs (by rcases hes with h | h <;> omega)
  rw [h1, h2]
  exact Nat.mul_lt_mul_of_pos_right (Nat.mul_lt_mul_of_pos_right (Nat.lt_succ_self s) (Nat.two_pow_pos _))
    (Nat.two_pow_pos _)

theorem mag_strictMono (f : Fmt) : StrictMono (mag f) := strictMono_nat_of_lt_succ (mag_lt_succ f)

theorem faithful_exact {f : Fmt} {r q : Nat} (h : Faithful f r (mag f q)) : r = q := by
  rcases h with ⟨h1, h2⟩ | ⟨h0, h1, h2⟩
  · have := (mag_strictMono f).le_iff_le.mp h1
    have := (mag_strictMono f).lt_iff_lt.mp h2
    omega
  · have := (mag_strictMono f).lt_iff_lt.mp h1
    have := (mag_strictMono f).le_iff_le.mp h2
    omega

theorem nearest_of_half {f : Fmt} {r x : Nat} (h : Faithful f r x)
    (hhi : mag f r ≤ x → 2 * (x - mag f r) ≤ mag f (r + 1) - mag f r)
    (hlo : x < mag f r → 2 * (mag f r - x) ≤ mag f r - mag f (r - 1)) : Nearest f r x := by
  intro q
  have hmono := (mag_strictMono f).monotone
  rcases Nat.lt_or_ge x (mag f r) with hx | hx
  · have h1 := hlo hx
    have h0 : 0 < r ∧ mag f (r - 1) < x := by
      rcases h with h | h
      · omega
      · exact ⟨h.1, h.2.1⟩
    rcases Nat.lt_or_ge q r with hq | hq
    · have := hmono (show q ≤ r - 1 by omega)
      omega
    · have := hmono hq
      omega
  · have h1 := hhi hx
    have h2 := mag_lt_succ f r
    rcases Nat.lt_or_ge r q with hq | hq
    · have := hmono (show r + 1 ≤ q by omega)
      omega
    · have := hmono hq
      omega

theorem round24_exact {x : Nat} (j : Nat) (hx : x < 2 ^ 24) : round24 (x * 2 ^ j) = x * 2 ^ j := by
  unfold round24
  split
  · rfl
  · rename_i h
    have hx0 : x ≠ 0 := by rintro rfl; simp at h
    have hlog : Nat.log2 (x * 2 ^ j) < 24 + j := by
      rw [Nat.log2_lt (by positivity), Nat.pow_add]
      exact Nat.mul_lt_mul_of_pos_right hx (Nat.two_pow_pos _)
    have hd : 2 ^ (Nat.log2 (x * 2 ^ j) - 23) ∣ x * 2 ^ j :=
      Dvd.dvd.mul_left (pow_dvd_pow 2 (by omega)) x
    have hr : x * 2 ^ j % 2 ^ (Nat.log2 (x * 2 ^ j) - 23) = 0 := Nat.mod_eq_zero_of_dvd hd
    simp only [hr]
    rw [if_pos (.inl (by simp)), Nat.div_mul_cancel hd]

/-- The mantissa bits of a number in the normal range: rounded half up, and cut off. -/
theorem mantBits_normal {m t : Nat} (hm : m ≤ 10) (ht : t < 2 ^ 23) :
    mantBits m (2 ^ 23 + t) 0 = ((min (2 ^ m - 1) ((2 * t + 2 ^ (23 - m)) / (2 * 2 ^ (23 - m))) : Nat) : Int) := by
  have e0 : ((2 ^ 23 + t : Nat) : Int) - 2 ^ (23 + 0) = (t : Nat) := by push_cast; ring
  have e1 : flInt (t : Nat) = (t : Nat) := by
    unfold flInt
    rw [if_neg (by omega), Int.natAbs_natCast]
    have := round24_exact (x := t) 0 (by omega)
    simp only [Nat.pow_zero, Nat.mul_one] at this
    rw [this]
  have hD : (2 : Nat) ^ 23 = 2 ^ m * 2 ^ (23 - m) := by rw [← Nat.pow_add]; congr 1; omega
  have hD' : (2 : Nat) ^ 23 = 2 ^ (m + 1) * 2 ^ (22 - m) := by rw [← Nat.pow_add]; congr 1; omega
  have hle : (2 : Nat) ^ (22 - m) ≤ 2 ^ 22 := Nat.pow_le_pow_right (by decide) (by omega)
  have e2 : ((t : Nat) : Int) * 2 ^ (m + 1) + 2 ^ (23 + 0) = (((t + 2 ^ (22 - m)) * 2 ^ (m + 1) : Nat) : Int) := by
    have : ((2 : Int) ^ (23 + 0)) = ((2 ^ (m + 1) * 2 ^ (22 - m) : Nat) : Int) := by rw [← hD']; norm_num
    rw [this]; push_cast; ring
  have e3 : flInt (((t + 2 ^ (22 - m)) * 2 ^ (m + 1) : Nat) : Int) = (((t + 2 ^ (22 - m)) * 2 ^ (m + 1) : Nat) : Int) := by
    unfold flInt
    rw [if_neg (by omega), Int.natAbs_natCast, round24_exact _ (by omega)]
  have e4 : ((((t + 2 ^ (22 - m)) * 2 ^ (m + 1) : Nat) : Int)).tdiv (2 ^ (24 + 0)) =
      (((2 * t + 2 ^ (23 - m)) / (2 * 2 ^ (23 - m)) : Nat) : Int) := by
    rw [show ((2 : Int) ^ (24 + 0)) = ((2 ^ 24 : Nat) : Int) by norm_num, ← Int.ofNat_tdiv]
    congr 1
    have h1 : (t + 2 ^ (22 - m)) * 2 ^ (m + 1) = 2 ^ m * (2 * t + 2 ^ (23 - m)) := by
      rw [show 23 - m = 22 - m + 1 by omega]; ring
    have h2 : (2 : Nat) ^ 24 = 2 ^ m * (2 * 2 ^ (23 - m)) := by
      rw [show (24 : Nat) = 23 + 1 from rfl, Nat.pow_succ, hD]; ring
    rw [h1, h2, Nat.mul_div_mul_left _ _ (Nat.two_pow_pos _)]
  unfold mantBits
  simp only [e0, e1, e2, e3, e4]
  have hp : (1 : Nat) ≤ 2 ^ m := Nat.one_le_two_pow
  have hc : ((2 : Int) ^ m) = ((2 ^ m : Nat) : Int) := by norm_num
  rw [hc]
  split <;> omega

/-- The format a header implements (all-ones exponents are infinities and NaNs). -/
def SmallFmt.fmt (c : SmallFmt) : Fmt := ⟨c.man, c.unit, c.maxExp * 2 ^ c.man, c.width⟩

/-- The three headers. -/
def IsSmall (c : SmallFmt) : Prop := c = cF16 ∨ c = cF8E4M3 ∨ c = cF8E5M2

/-- What the proofs need of the constants. -/
structure SmallFmt.Good (c : SmallFmt) : Prop where
  man : c.man ≤ 10
  unit : c.unit + c.adj + c.man = 1074
  width : (c.maxExp + 1) * 2 ^ c.man = 2 ^ c.width
  adj : c.adj ≤ 14
  exp : 0 < c.maxExp
  over : c.maxExp ≤ 31
  minNormal : mag f32 ((127 - c.adj) * 2 ^ 23) = 2 ^ c.man * 2 ^ c.unit
  hi : mag c.fmt (c.fmt.top - 1) ≤ mag f32 c.hi
  top : mag c.fmt (c.fmt.top - 1) < mag f32 ((126 - c.adj + c.maxExp) * 2 ^ 23)
  lo : c.lo ≤ (127 - c.adj) * 2 ^ 23
  fits : (126 - c.adj + c.maxExp) * 2 ^ 23 ≤ 255 * 2 ^ 23

theorem IsSmall.good {c : SmallFmt} (h : IsSmall c) : c.Good := by
  rcases h with rfl | rfl | rfl <;> constructor <;> decide +kernel

theorem or_add {a b i : Nat} (h : b < 2 ^ i) : (a <<< i) ||| b = a * 2 ^ i + b := by
  rw [← Nat.shiftLeft_add_eq_or_of_lt h, Nat.shiftLeft_eq]

theorem emod32 {n : Nat} (h : n < 2 ^ 32) : ((n : Int) % 2 ^ 32).toNat = n := by omega

theorem floatToSmall_lo {c : SmallFmt} {b : Nat} (h0 : 0 < b % 2 ^ 31) (h1 : b % 2 ^ 31 < 255 * 2 ^ 23)
    (h2 : b % 2 ^ 31 ≤ c.hi) (h3 : b % 2 ^ 31 < c.lo) : floatToSmall c b = b / 2 ^ 31 * 2 ^ c.width := by
  unfold floatToSmall
  dsimp only
  rw [if_neg (by omega), if_neg (by omega), if_neg (by omega), if_pos h3, Nat.shiftLeft_eq]

theorem floatToSmall_over {c : SmallFmt} {b : Nat} (h0 : 0 < b % 2 ^ 31) (hl : c.lo ≤ b % 2 ^ 31)
    (h : c.hi < b % 2 ^ 31 ∨ (c.maxExp : Int) ≤ (b % 2 ^ 31 / 2 ^ 23 : Nat) - 126 + c.adj) :
    floatToSmall c b = c.nan ∨ floatToSmall c b = ((b / 2 ^ 31) <<< c.width) ||| c.over := by
  unfold floatToSmall
  dsimp only
  rw [if_neg (by omega)]
  by_cases h1 : 255 * 2 ^ 23 < b % 2 ^ 31
  · rw [if_pos h1]; exact .inl rfl
  rw [if_neg h1]
  by_cases h2 : b % 2 ^ 31 = 255 * 2 ^ 23 ∨ c.hi < b % 2 ^ 31
  · rw [if_pos h2]; exact .inr rfl
  rw [if_neg h2, if_neg (by omega), if_pos (by omega)]
  exact .inr rfl

/-- The result in the normal range. -/
theorem floatToSmall_normal {c : SmallFmt} (hc : IsSmall c) {b : Nat} (hb : b < 2 ^ 32)
    (hmin : 2 ^ c.man * 2 ^ c.unit ≤ mag f32 (b % 2 ^ 31))
    (hmax : mag f32 (b % 2 ^ 31) ≤ mag c.fmt (c.fmt.top - 1)) :
    ∃ E t mb, b % 2 ^ 31 = E * 2 ^ 23 + t ∧ t < 2 ^ 23 ∧ 127 ≤ E + c.adj ∧ E + c.adj < 126 + c.maxExp ∧
      mb = min (2 ^ c.man - 1) ((2 * t + 2 ^ (23 - c.man)) / (2 * 2 ^ (23 - c.man))) ∧
      floatToSmall c b = (b / 2 ^ 31) * 2 ^ c.width + ((E + c.adj - 126) * 2 ^ c.man + mb) ∧
      (E + c.adj - 126) * 2 ^ c.man + mb < 2 ^ c.width := by
  have g := hc.good
  set p := b % 2 ^ 31 with hp
  have hm32 := mag_strictMono f32
  have h1 : (127 - c.adj) * 2 ^ 23 ≤ p := by
    rw [← hm32.le_iff_le, g.minNormal]; exact hmin
  have h2 : p < (126 - c.adj + c.maxExp) * 2 ^ 23 := by
    rw [← hm32.lt_iff_lt]; exact hmax.trans_lt g.top
  have h3 : p ≤ c.hi := by
    rw [← hm32.le_iff_le]; exact hmax.trans g.hi
  have h4 := g.lo
  have h5 := g.fits
  have h6 := g.adj
  have h7 := g.over
  have h8 := g.exp
  have hE1 : 127 - c.adj ≤ p / 2 ^ 23 := (Nat.le_div_iff_mul_le (by decide)).mpr h1
  have hE2 : p / 2 ^ 23 < 126 - c.adj + c.maxExp := (Nat.div_lt_iff_lt_mul (by decide)).mpr h2
  have ht : p % 2 ^ 23 < 2 ^ 23 := Nat.mod_lt _ (by decide)
  refine ⟨p / 2 ^ 23, p % 2 ^ 23, _, by omega, ht, by omega, by omega, rfl, ?_⟩
  set mb := min (2 ^ c.man - 1) ((2 * (p % 2 ^ 23) + 2 ^ (23 - c.man)) / (2 * 2 ^ (23 - c.man))) with hmb
  have hpm : 1 ≤ 2 ^ c.man := Nat.one_le_two_pow
  have hmbl : mb < 2 ^ c.man := by omega
  have hman : (2 : Nat) ^ c.man ≤ 2 ^ 10 := Nat.pow_le_pow_right (by decide) g.man
  have hx : (p / 2 ^ 23 + c.adj - 126) + 1 ≤ c.maxExp := by omega
  have hlt : (p / 2 ^ 23 + c.adj - 126) * 2 ^ c.man + mb < 2 ^ c.width := by
    rw [← g.width]
    have := Nat.mul_le_mul_right (2 ^ c.man) hx
    rw [Nat.add_mul] at this
    rw [Nat.add_mul]
    omega
  refine ⟨?_, hlt⟩
  unfold floatToSmall
  simp only [← hp]
  have hp0 : 0 < (127 - c.adj) * 2 ^ 23 := by omega
  rw [if_neg (by omega), if_neg (by omega), if_neg (by omega), if_neg (by omega), if_neg (by omega)]
  have hexp : ((p / 2 ^ 23 : Nat) : Int) - 126 + c.adj = ((p / 2 ^ 23 + c.adj - 126 : Nat) : Int) := by omega
  rw [hexp, show (-((p / 2 ^ 23 + c.adj - 126 : Nat) : Int)).toNat = 0 by omega, mantBits_normal g.man ht, ← hmb]
  have e1 : ((mb : Int) % 2 ^ 32).toNat = mb := emod32 (by omega)
  rw [e1, Int.toNat_natCast, Nat.or_assoc, or_add hmbl, or_add hlt, Nat.mod_eq_of_lt]
  have hs : b / 2 ^ 31 < 2 := by omega
  have hw : (2 : Nat) ^ (c.width + 1) = 2 ^ c.width * 2 := Nat.pow_succ ..
  rw [hw]
  have : b / 2 ^ 31 = 0 ∨ b / 2 ^ 31 = 1 := by omega
  rcases this with h | h <;> rw [h] <;> omega

/-- **C76, conversion to half and 8-bit floats** (partial: magnitudes between the smallest normal and the largest
finite number): the sign is kept, the result is finite, it is one of the two numbers around the argument, and unless
its mantissa is all ones no number of the format is nearer.
Missing, because false: subnormal and too large magnitudes, ties to even and the carry into the exponent
(`C76_full_false`). -/
theorem C76_narrow_partial {c : SmallFmt} (hc : IsSmall c) {b : Nat} (hb : b < 2 ^ 32)
    (hmin : 2 ^ c.man * 2 ^ c.unit ≤ mag f32 (b % 2 ^ 31))
    (hmax : mag f32 (b % 2 ^ 31) ≤ mag c.fmt (c.fmt.top - 1)) :
    ∃ r, floatToSmall c b = (b / 2 ^ 31) * 2 ^ c.width + r ∧ 2 ^ c.man ≤ r ∧ r < c.fmt.top ∧
      Faithful c.fmt r (mag f32 (b % 2 ^ 31)) ∧
      (r % 2 ^ c.man ≠ 2 ^ c.man - 1 → Nearest c.fmt r (mag f32 (b % 2 ^ 31))) := by
  have g := hc.good
  obtain ⟨E, t, mb, hp, ht, hE1, hE2, hmb, hr, -⟩ := floatToSmall_normal hc hb hmin hmax
  have hpm : 1 ≤ 2 ^ c.man := Nat.one_le_two_pow
  have hmbl : mb < 2 ^ c.man := by omega
  refine ⟨_, hr, ?_, ?_, ?_⟩
  · have : 1 * 2 ^ c.man ≤ (E + c.adj - 126) * 2 ^ c.man := Nat.mul_le_mul_right _ (by omega)
    omega
  · have := Nat.mul_le_mul_right (2 ^ c.man) (show E + c.adj - 126 + 1 ≤ c.maxExp by omega)
    rw [Nat.add_mul] at this
    show _ < c.maxExp * 2 ^ c.man
    omega
  -- the values in units of `U`
  have hD : (2 : Nat) ^ 23 = 2 ^ c.man * 2 ^ (23 - c.man) := by
    rw [← Nat.pow_add]; congr 1; have := g.man; omega
  set D := 2 ^ (23 - c.man) with hDdef
  have hDpos : 0 < D := Nat.two_pow_pos _
  have hE : 1 ≤ E := by have := g.adj; omega
  have hx : mag f32 (b % 2 ^ 31) = (2 ^ 23 + t) * 2 ^ (E - 1 + f32.unit) := by
    rw [hp, show E * 2 ^ 23 + t = (E - 1) * 2 ^ f32.man + (2 ^ 23 + t) by
      show _ = (E - 1) * 2 ^ 23 + _
      have : E = E - 1 + 1 := by omega
      omega]
    rw [mag_eq f32 (by show _ ≤ 2 ^ 24; omega) (.inr (by show 2 ^ 23 ≤ _; omega)), Nat.mul_assoc, ← Nat.pow_add]
  have hmag : ∀ s, s ≤ 2 ^ c.man → mag c.fmt ((E + c.adj - 126) * 2 ^ c.man + s) = (2 ^ c.man + s) * D * 2 ^ (E - 1 + f32.unit) := by
    intro s hs
    have e : (E + c.adj - 126) * 2 ^ c.man + s = (E + c.adj - 127) * 2 ^ c.fmt.man + (2 ^ c.man + s) := by
      show _ = (E + c.adj - 127) * 2 ^ c.man + _
      have : E + c.adj - 126 = E + c.adj - 127 + 1 := by omega
      rw [this, Nat.add_mul]; omega
    rw [e, mag_eq c.fmt (by show _ ≤ 2 ^ (c.man + 1); rw [Nat.pow_succ]; omega) (.inr (by show 2 ^ c.man ≤ _; omega)),
      Nat.mul_assoc, Nat.mul_assoc, ← Nat.pow_add, hDdef, ← Nat.pow_add]
    have hexp : E + c.adj - 127 + c.fmt.unit = 23 - c.man + (E - 1 + f32.unit) := by
      show E + c.adj - 127 + c.unit = 23 - c.man + (E - 1 + 925)
      have := g.unit
      have := g.man
      omega
    rw [hexp]
  have hU : 0 < 2 ^ (E - 1 + f32.unit) := Nat.two_pow_pos _
  generalize 2 ^ (E - 1 + f32.unit) = U at hx hmag hU
  set r := (E + c.adj - 126) * 2 ^ c.man + mb with hrdef
  have m0 : mag c.fmt r = (2 ^ c.man + mb) * D * U := hmag mb hmbl.le
  have m1 : mag c.fmt (r + 1) = (2 ^ c.man + mb) * D * U + D * U := by
    rw [hrdef, Nat.add_assoc, hmag (mb + 1) hmbl]; ring
  have mm : 1 ≤ mb → mag c.fmt (r - 1) + D * U = (2 ^ c.man + mb) * D * U := by
    intro h
    rw [show r - 1 = (E + c.adj - 126) * 2 ^ c.man + (mb - 1) by omega, hmag (mb - 1) (by omega)]
    obtain ⟨k, rfl⟩ : ∃ k, mb = k + 1 := ⟨mb - 1, by omega⟩
    rw [Nat.add_sub_cancel]; ring
  have hX : mag f32 (b % 2 ^ 31) = 2 ^ c.man * D * U + t * U := by rw [hx, hD]; ring
  rw [hX]
  have hM : (2 ^ c.man + mb) * D * U = 2 ^ c.man * D * U + mb * D * U := by ring
  rw [hM] at m0 m1 mm
  generalize 2 ^ c.man * D * U = B at *
  -- mb against t
  set q := (2 * t + D) / (2 * D) with hq
  have q1 : q * (2 * D) ≤ 2 * t + D := Nat.div_mul_le_self _ _
  have q2 : 2 * t + D < q * (2 * D) + 2 * D := by
    have := Nat.lt_div_mul_add (a := 2 * t + D) (b := 2 * D) (by omega)
    omega
  have htD : t < 2 ^ c.man * D := by rw [← hD]; exact ht
  have qD : q * (2 * D) = 2 * (q * D) := by ring
  rw [qD] at q1 q2
  rcases Nat.lt_or_ge q (2 ^ c.man) with hql | hqg
  · -- no carry
    have hmq : mb = q := by omega
    have key1 : 2 * (mb * D) ≤ 2 * t + D := by rw [hmq]; exact q1
    have key2 : 2 * t < 2 * (mb * D) + D := by rw [hmq]; omega
    have k1 : 2 * (mb * D * U) ≤ 2 * (t * U) + D * U := by
      have := Nat.mul_le_mul_right U key1
      have e1 : 2 * (mb * D) * U = 2 * (mb * D * U) := by ring
      have e2 : (2 * t + D) * U = 2 * (t * U) + D * U := by ring
      omega
    have k2 : 2 * (t * U) < 2 * (mb * D * U) + D * U := by
      have := Nat.mul_lt_mul_of_pos_right key2 hU
      have e1 : 2 * t * U = 2 * (t * U) := by ring
      have e2 : (2 * (mb * D) + D) * U = 2 * (mb * D * U) + D * U := by ring
      omega
    have hDU : 0 < D * U := Nat.mul_pos hDpos hU
    have hfaith : Faithful c.fmt r (B + t * U) := by
      rcases Nat.lt_or_ge (t * U) (mb * D * U) with h | h
      · right
        have hmb1 : 1 ≤ mb := by
          rcases Nat.eq_zero_or_pos mb with h0 | h0
          · rw [h0] at h; simp at h
          · exact h0
        have := mm hmb1
        refine ⟨by omega, ?_, ?_⟩ <;> omega
      · left
        constructor <;> omega
    refine ⟨hfaith, fun _ => nearest_of_half hfaith (fun h => ?_) (fun h => ?_)⟩
    · rw [m1, m0]; omega
    · have hmb1 : 1 ≤ mb := by
        rcases Nat.eq_zero_or_pos mb with h0 | h0
        · rw [m0, h0] at h; simp at h
        · exact h0
      have := mm hmb1
      rw [m0] at h ⊢
      omega
  · -- the mantissa is cut off
    have hmq : mb = 2 ^ c.man - 1 := by omega
    have h1 : mb * D + D = 2 ^ c.man * D := by
      rw [hmq, Nat.sub_mul, Nat.one_mul]
      exact Nat.sub_add_cancel (Nat.le_mul_of_pos_left D (by omega))
    have h2 : 2 ^ c.man * D ≤ q * D := Nat.mul_le_mul_right _ hqg
    have k1 : mb * D ≤ t := by omega
    have k2 : t < mb * D + D := by omega
    have k1' := Nat.mul_le_mul_right U k1
    have k2' := Nat.mul_lt_mul_of_pos_right k2 hU
    rw [Nat.add_mul] at k2'
    refine ⟨.inl ⟨by omega, by omega⟩, fun hne => absurd ?_ hne⟩
    rw [hrdef, Nat.mul_comm, Nat.mul_add_mod, Nat.mod_eq_of_lt hmbl, hmq]

/-- **C76, conversion from half and 8-bit floats**: exact, sign included, for every finite number. -/
theorem C76_widen {c : SmallFmt} (hc : IsSmall c) {v : Nat} (hv : v < 2 ^ (c.width + 1))
    (hfin : v % 2 ^ c.width < c.fmt.top) :
    smallToFloat c v / 2 ^ 31 = v / 2 ^ c.width ∧ smallToFloat c v < 2 ^ 32 ∧
      mag f32 (smallToFloat c v % 2 ^ 31) = mag c.fmt (v % 2 ^ c.width) := by
  have g := hc.good
  set p := v % 2 ^ c.width with hp
  set s := v / 2 ^ c.width with hs
  have hs2 : s < 2 := by
    rw [hs, Nat.div_lt_iff_lt_mul (Nat.two_pow_pos _)]
    rw [Nat.pow_succ] at hv; omega
  have hpm : 0 < 2 ^ c.man := Nat.two_pow_pos _
  have hexp : v / 2 ^ c.man % (c.maxExp + 1) = p / 2 ^ c.man := by
    rw [hp, ← g.width, Nat.mul_comm, Nat.mod_mul_right_div_self]
  have hmant : v % 2 ^ c.man = p % 2 ^ c.man := by
    rw [hp, ← g.width, Nat.mul_comm, Nat.mod_mul_right_mod]
  have hlt : p / 2 ^ c.man < c.maxExp := (Nat.div_lt_iff_lt_mul hpm).mpr hfin
  have hman : (2 : Nat) ^ c.man ≤ 2 ^ 10 := Nat.pow_le_pow_right (by decide) g.man
  have hml : p % 2 ^ c.man < 2 ^ c.man := Nat.mod_lt _ hpm
  have hunit : f32.unit ≤ c.unit := by
    have h1 := g.unit; have h2 := g.adj; have h3 := g.man
    show 925 ≤ c.unit
    omega
  have henc : ∀ a j, a < 2 ^ 24 → mag f32 (enc f32 (a * 2 ^ (c.unit + j)) 1) = a * 2 ^ (c.unit + j) := by
    intro a j ha
    have := mag_enc_exact f32 (s := a) (j := c.unit - f32.unit + j) ha
    rwa [show f32.unit + (c.unit - f32.unit + j) = c.unit + j by omega] at this
  -- the pattern without the sign
  obtain ⟨w, hw1, hw2⟩ : ∃ w, smallToFloat c v = s * 2 ^ 31 + w ∧ mag f32 w = mag c.fmt p := by
    unfold smallToFloat
    simp only [hexp, hmant, ← hs, Nat.mod_eq_of_lt hs2]
    rw [if_neg (by omega)]
    have hmagp : mag c.fmt p = (if p < 2 ^ c.man then p else
        (2 ^ c.man + p % 2 ^ c.man) * 2 ^ (p / 2 ^ c.man - 1)) * 2 ^ c.unit := rfl
    split
    · rename_i h0
      have hsmall : p < 2 ^ c.man := by
        rcases Nat.lt_or_ge p (2 ^ c.man) with h | h
        · exact h
        · have := Nat.div_pos h hpm; omega
      rw [hmagp, if_pos hsmall, Nat.mod_eq_of_lt hsmall]
      split
      · rename_i h; exact ⟨0, by omega, by rw [h, Nat.zero_mul]; decide +kernel⟩
      · refine ⟨_, rfl, ?_⟩
        have := henc p 0 (by omega)
        simpa using this
    · rename_i h0
      have hbig : ¬ p < 2 ^ c.man := fun h => h0 (Nat.div_eq_of_lt h)
      refine ⟨_, rfl, ?_⟩
      rw [henc _ _ (by omega), hmagp, if_neg hbig]
      rw [Nat.mul_assoc, ← Nat.pow_add, Nat.add_comm c.unit]
  have hwlt : w < 2 ^ 31 := by
    have h1 : mag f32 w < mag f32 (255 * 2 ^ 23) := by
      rw [hw2]
      have h2 : mag c.fmt p ≤ mag c.fmt (c.fmt.top - 1) := (mag_strictMono _).monotone (by omega)
      exact (h2.trans_lt g.top).trans_le ((mag_strictMono f32).monotone g.fits)
    have := (mag_strictMono f32).lt_iff_lt.mp h1
    omega
  rw [hw1]
  refine ⟨by omega, by omega, ?_⟩
  rw [show (s * 2 ^ 31 + w) % 2 ^ 31 = w by omega, hw2]

/-- **C76, round trip** (partial: normal numbers). Missing, because false: negative zero, subnormal numbers and
infinities. -/
theorem C76_roundtrip_partial {c : SmallFmt} (hc : IsSmall c) {v : Nat} (hv : v < 2 ^ (c.width + 1))
    (hnorm : 2 ^ c.man ≤ v % 2 ^ c.width) (hfin : v % 2 ^ c.width < c.fmt.top) :
    floatToSmall c (smallToFloat c v) = v := by
  obtain ⟨h1, h2, h3⟩ := C76_widen hc hv hfin
  have hmono := (mag_strictMono c.fmt).monotone
  have hmin : mag c.fmt (2 ^ c.man) = 2 ^ c.man * 2 ^ c.unit := by
    have := mag_eq c.fmt (e := 0) (s := 2 ^ c.man) (by show _ ≤ 2 ^ (c.man + 1); rw [Nat.pow_succ]; omega) (.inl rfl)
    simpa [SmallFmt.fmt] using this
  obtain ⟨r, r1, _, _, r2, _⟩ := C76_narrow_partial hc h2
    (by rw [h3, ← hmin]; exact hmono hnorm) (by rw [h3]; exact hmono (by omega))
  rw [h3] at r2
  rw [r1, h1, faithful_exact r2]
  have := Nat.div_add_mod v (2 ^ c.width)
  rw [Nat.mul_comm] at this
  exact this

/-- **C76, bfloat16**: the conversion to bfloat16 rounds towards zero and keeps the sign. -/
theorem C76_bf16_truncates {b : Nat} (hfin : b % 2 ^ 31 < f32.top) :
    ∃ r, floatToBf16 b = (b / 2 ^ 31) * 2 ^ 15 + r ∧ r < bf16.top ∧
      mag bf16 r ≤ mag f32 (b % 2 ^ 31) ∧ mag f32 (b % 2 ^ 31) < mag bf16 (r + 1) := by
  have hmag : ∀ r, mag bf16 r = mag f32 (r * 2 ^ 16) := by
    intro r
    obtain ⟨e, s, h1, h2, h3⟩ := split bf16 r
    rw [h1, mag_eq bf16 h2.le h3]
    change r = e * 2 ^ 7 + s at h1
    change s < 2 ^ 8 at h2
    change e = 0 ∨ 2 ^ 7 ≤ s at h3
    have e1 : (e * 2 ^ bf16.man + s) * 2 ^ 16 = e * 2 ^ f32.man + s * 2 ^ 16 := by
      show (e * 2 ^ 7 + s) * 2 ^ 16 = e * 2 ^ 23 + s * 2 ^ 16
      omega
    rw [e1, mag_eq f32 (by show _ ≤ 2 ^ 24; omega) (by rcases h3 with h | h; exact .inl h; right; show 2 ^ 23 ≤ _; omega)]
    rw [show bf16.unit = 16 + f32.unit from rfl, Nat.pow_add 2 16]
    ring
  have hf : f32.top = 255 * 2 ^ 23 := rfl
  have hbt : bf16.top = 255 * 2 ^ 7 := rfl
  refine ⟨b % 2 ^ 31 / 2 ^ 16, by unfold floatToBf16; omega, by omega, ?_, ?_⟩
  · rw [hmag]; exact (mag_strictMono f32).monotone (by omega)
  · rw [hmag]; exact mag_strictMono f32 (by omega)

/-- bfloat16 survives the round trip, NaNs included. -/
theorem C76_bf16_roundtrip {v : Nat} : floatToBf16 (bf16ToFloat v) = v := by
  unfold floatToBf16 bf16ToFloat
  omega

/-! ## Concrete cases -/

/-- One and a half, as `float` and as half. -/
example : ∃ r, floatToSmall cF16 0x3FC00000 = r ∧ Nearest cF16.fmt r (mag f32 0x3FC00000) := by
  obtain ⟨r, h1, _, _, _, h2⟩ := C76_narrow_partial (.inl rfl) (b := 0x3FC00000) (by decide) (by decide +kernel)
    (by decide +kernel)
  have h3 : floatToSmall cF16 0x3FC00000 = 0x3E00 := by decide +kernel
  have hr : r = 0x3E00 := by
    rw [h3] at h1
    simp [cF16] at h1
    omega
  subst hr
  exact ⟨_, h3, h2 (by decide)⟩

example : floatToSmall cF8E5M2 (smallToFloat cF8E5M2 0xC5) = 0xC5 :=
  C76_roundtrip_partial (.inr (.inr rfl)) (by decide) (by decide) (by decide)

example : mag f32 (smallToFloat cF8E4M3 0x85 % 2 ^ 31) = mag cF8E4M3.fmt 5 :=
  (C76_widen (.inr (.inl rfl)) (v := 0x85) (by decide) (by decide)).2.2

example : floatToBf16 0xC0490FDB = 0xC049 := by decide

/-! ## What is false -/

/-- **C76, full claim** (false): every finite `float` is rounded to nearest, ties to even, too large ones to
infinity. -/
def C76_full (c : SmallFmt) : Prop :=
  ∀ b < 2 ^ 32, b % 2 ^ 31 < f32.top →
    floatToSmall c b = (b / 2 ^ 31) * 2 ^ c.width + min (enc c.fmt (mag f32 (b % 2 ^ 31)) 1) c.fmt.top

/-- **C76 is false for every format**: one plus three quarters of a unit below two is cut off instead of carried
into the exponent. -/
theorem C76_full_false : ¬ C76_full cF16 ∧ ¬ C76_full cF8E4M3 ∧ ¬ C76_full cF8E5M2 := by
  refine ⟨fun h => ?_, fun h => ?_, fun h => ?_⟩
  · have := h 0x3FFFF000 (by decide) (by decide)
    revert this; decide +kernel
  · have := h 0x3FFC0000 (by decide) (by decide)
    revert this; decide +kernel
  · have := h 0x3FF00000 (by decide) (by decide)
    revert this; decide +kernel

/-- Ties are not rounded to even: `1 + 2^-11` becomes `1 + 2^-10`. -/
theorem C76_f16_tie_wrong : floatToSmall cF16 0x3F801000 = 0x3C01 ∧ enc f16 (mag f32 0x3F801000) 1 = 0x3C00 := by
  decide +kernel

/-- Every subnormal half becomes zero on its way through the kernel. -/
theorem C76_f16_subnormal_lost {v : Nat} (hv : v < 2 ^ 16) (h0 : 0 < v % 2 ^ 15) (h : v % 2 ^ 15 < 2 ^ 10) :
    floatToSmall cF16 (smallToFloat cF16 v) = v / 2 ^ 15 * 2 ^ 15 := by
  have htop : cF16.fmt.top = 31 * 2 ^ 10 := rfl
  obtain ⟨h1, h2, h3⟩ := C76_widen (c := cF16) (.inl rfl) (v := v) hv
    (by rw [htop]; show v % 2 ^ 15 < _; omega)
  change mag f32 (smallToFloat cF16 v % 2 ^ 31) = mag cF16.fmt (v % 2 ^ 15) at h3
  change smallToFloat cF16 v / 2 ^ 31 = v / 2 ^ 15 at h1
  have hlo : smallToFloat cF16 v % 2 ^ 31 < 0x38800000 := by
    rw [← (mag_strictMono f32).lt_iff_lt, h3]
    refine lt_of_lt_of_eq (mag_strictMono cF16.fmt h) (by decide +kernel)
  have hpos : 0 < smallToFloat cF16 v % 2 ^ 31 := by
    rw [← (mag_strictMono f32).lt_iff_lt, h3]
    refine lt_of_eq_of_lt (by decide +kernel) (mag_strictMono cF16.fmt h0)
  rw [floatToSmall_lo hpos (by omega) (by show _ ≤ 0x477FE000; omega) hlo, h1]
  rfl

/-- A NaN pattern of the headers' decoders. -/
def isNan32 (b : Nat) : Prop := 255 * 2 ^ 23 < b % 2 ^ 31
instance (b : Nat) : Decidable (isNan32 b) := inferInstanceAs (Decidable (_ < _))

/-- In `f8e4m3` every number of magnitude 256 or more, infinity included, becomes NaN. -/
theorem C76_e4m3_overflow_nan {b : Nat} (hb : b < 2 ^ 32) (h : 0x43800000 ≤ b % 2 ^ 31) :
    isNan32 (smallToFloat cF8E4M3 (floatToSmall cF8E4M3 b)) := by
  have hs : b / 2 ^ 31 = 0 ∨ b / 2 ^ 31 = 1 := by omega
  have hout : floatToSmall cF8E4M3 b = 0x7F ∨ floatToSmall cF8E4M3 b = 0xFF := by
    rcases floatToSmall_over (c := cF8E4M3) (b := b) (by omega) (by show 0x3B000000 ≤ _; omega)
      (.inr (by show ((15 : Nat) : Int) ≤ _ - 126 + ((6 : Nat) : Int); omega)) with h | h
    · exact .inl h
    · rw [h]; rcases hs with h | h <;> rw [h] <;> decide
  rcases hout with h | h <;> rw [h] <;> decide +kernel

/-- Rounding to 24 bits changes a number by at most one part in `2 ^ 24`. -/
theorem round24_err (n : Nat) : n * (2 ^ 24 - 1) ≤ 2 ^ 24 * round24 n ∧ 2 ^ 24 * round24 n ≤ n * (2 ^ 24 + 1) := by
  unfold round24
  split
  · constructor <;> omega
  · rename_i h
    have hn : n ≠ 0 := by omega
    have hlog : 24 ≤ Nat.log2 n := (Nat.le_log2 hn).mpr (by omega)
    have hself : 2 ^ Nat.log2 n ≤ n := Nat.log2_self_le hn
    have hk : 2 ^ Nat.log2 n = 2 ^ 23 * 2 ^ (Nat.log2 n - 23) := by rw [← Nat.pow_add]; congr 1; omega
    rw [hk] at hself
    dsimp only
    generalize 2 ^ (Nat.log2 n - 23) = K at *
    have hd := Nat.div_add_mod n K
    rw [Nat.mul_comm] at hd
    have hr : n % K < K := Nat.mod_lt _ (by
      rcases Nat.eq_zero_or_pos K with h0 | h0
      · subst h0; simp at hk
      · exact h0)
    rw [Nat.add_mul]
    generalize n / K * K = Q at *
    generalize n % K = R at *
    split <;> constructor <;> omega

/-- The mantissa bits of the smallest numbers `float_to_f8e4m3` converts are negative. -/
theorem mantBits_e4m3 {t k : Nat} (ht : t < 2 ^ 23) (hk : k = 2 ∨ (k = 1 ∧ t ≤ 5242880)) :
    -5 ≤ mantBits 3 (2 ^ 23 + t) k ∧ mantBits 3 (2 ^ 23 + t) k ≤ -1 := by
  have hneg : ∀ n : Nat, 0 < n → flInt (-(n : Int)) = -(round24 n : Int) := by
    intro n hn
    unfold flInt
    rw [if_pos (by omega), Int.natAbs_neg, Int.natAbs_natCast]
  have htd : ∀ n d : Nat, (-(n : Int)).tdiv d = -((n / d : Nat) : Int) := by
    intro n d; rw [Int.neg_tdiv, ← Int.ofNat_tdiv]
  rcases hk with rfl | ⟨rfl, ht2⟩
  · have e0 : ((2 ^ 23 + t : Nat) : Int) - 2 ^ (23 + 2) = -((2 ^ 25 - 2 ^ 23 - t : Nat) : Int) := by omega
    have r1 := round24_err (2 ^ 25 - 2 ^ 23 - t)
    set a := round24 (2 ^ 25 - 2 ^ 23 - t) with ha
    have e1 : -(a : Int) * 2 ^ (3 + 1) + 2 ^ (23 + 2) = -((16 * a - 2 ^ 25 : Nat) : Int) := by omega
    have r2 := round24_err (16 * a - 2 ^ 25)
    unfold mantBits
    dsimp only
    rw [e0, hneg _ (by omega), ← ha, e1, hneg _ (by omega),
      show ((2 : Int) ^ (24 + 2)) = ((2 ^ 26 : Nat) : Int) by norm_num, htd]
    rw [if_neg (by omega)]
    omega
  · have e0 : ((2 ^ 23 + t : Nat) : Int) - 2 ^ (23 + 1) = -((2 ^ 23 - t : Nat) : Int) := by omega
    have r1 := round24_exact (x := 2 ^ 23 - t) 0 (by omega)
    simp only [Nat.pow_zero, Nat.mul_one] at r1
    have e1 : -((2 ^ 23 - t : Nat) : Int) * 2 ^ (3 + 1) + 2 ^ (23 + 1) = -(((2 ^ 23 - t - 2 ^ 20) * 2 ^ 4 : Nat) : Int) := by
      omega
    have r2 := round24_exact (x := 2 ^ 23 - t - 2 ^ 20) 4 (by omega)
    unfold mantBits
    dsimp only
    rw [e0, hneg _ (by omega), r1, e1, hneg _ (by omega), r2,
      show ((2 : Int) ^ (24 + 1)) = ((2 ^ 25 : Nat) : Int) by norm_num, htd]
    rw [if_neg (by omega)]
    omega

/-- In `f8e4m3` every number of magnitude between `2 ^ -9` and `13 * 2 ^ -11` becomes NaN. -/
theorem C76_e4m3_small_nan {b : Nat} (hb : b < 2 ^ 32) (h1 : 0x3B000000 ≤ b % 2 ^ 31)
    (h2 : b % 2 ^ 31 ≤ 0x3BD00000) : isNan32 (smallToFloat cF8E4M3 (floatToSmall cF8E4M3 b)) := by
  have hs : b / 2 ^ 31 = 0 ∨ b / 2 ^ 31 = 1 := by omega
  obtain ⟨g1, g2⟩ := mantBits_e4m3 (t := b % 2 ^ 31 % 2 ^ 23) (k := (-((b % 2 ^ 31 / 2 ^ 23 : Nat) - 126 + (6 : Nat) : Int)).toNat)
    (by omega) (by omega)
  have hr : floatToSmall cF8E4M3 b = (((b / 2 ^ 31) <<< 7) ||| (0 <<< 3) |||
      (mantBits 3 (2 ^ 23 + b % 2 ^ 31 % 2 ^ 23)
        (-((b % 2 ^ 31 / 2 ^ 23 : Nat) - 126 + (6 : Nat) : Int)).toNat % 2 ^ 32).toNat) % 2 ^ 8 := by
    unfold floatToSmall
    dsimp only
    have c1 : cF8E4M3.hi = 0x43E00000 := rfl
    have c2 : cF8E4M3.lo = 0x3B000000 := rfl
    have c3 : cF8E4M3.maxExp = 15 := rfl
    have c4 : cF8E4M3.adj = 6 := rfl
    rw [if_neg (by omega), if_neg (by omega), if_neg (by omega), if_neg (by omega), if_neg (by omega), c4,
      show ((b % 2 ^ 31 / 2 ^ 23 : Nat) - 126 + (6 : Nat) : Int).toNat = 0 by omega]
    rfl
  rw [hr]
  generalize mantBits 3 (2 ^ 23 + b % 2 ^ 31 % 2 ^ 23)
        (-((b % 2 ^ 31 / 2 ^ 23 : Nat) - 126 + (6 : Nat) : Int)).toNat = mb at g1 g2
  have : mb = -5 ∨ mb = -4 ∨ mb = -3 ∨ mb = -2 ∨ mb = -1 := by omega
  rcases hs with h | h <;> rw [h] <;> rcases this with rfl | rfl | rfl | rfl | rfl <;> decide +kernel

/-- In `f8e5m2` infinity and every number above 57344 becomes NaN. -/
theorem C76_e5m2_overflow_nan {b : Nat} (hb : b < 2 ^ 32) (h : 0x47600000 < b % 2 ^ 31) :
    isNan32 (smallToFloat cF8E5M2 (floatToSmall cF8E5M2 b)) := by
  have hs : b / 2 ^ 31 = 0 ∨ b / 2 ^ 31 = 1 := by omega
  have hout : floatToSmall cF8E5M2 b = 0x7F ∨ floatToSmall cF8E5M2 b = 0xFF := by
    rcases floatToSmall_over (c := cF8E5M2) (b := b) (by omega) (by show 0x37800000 ≤ _; omega) (.inl h) with h | h
    · exact .inl h
    · rw [h]; rcases hs with h | h <;> rw [h] <;> decide
  rcases hout with h | h <;> rw [h] <;> decide +kernel

/-- The largest `f8e4m3` of the host, 448, is read as NaN by the kernels. -/
theorem C76_e4m3_host_disagrees :
    0x7E < f8e4m3.top ∧ mag f8e4m3 0x7E = 448 * 2 ^ 1074 ∧ isNan32 (smallToFloat cF8E4M3 0x7E) := by
  decide +kernel

/-- bfloat16: a NaN whose payload is in the lower half becomes infinity. -/
theorem C76_bf16_nan_wrong : isNan32 0x7F800001 ∧ ¬ isNan32 (bf16ToFloat (floatToBf16 0x7F800001)) := by decide

/-- Negative zero becomes zero. -/
theorem C76_negative_zero : floatToSmall cF16 (smallToFloat cF16 0x8000) = 0 ∧
    floatToSmall cF8E4M3 (smallToFloat cF8E4M3 0x80) = 0 ∧ floatToSmall cF8E5M2 (smallToFloat cF8E5M2 0x80) = 0 := by
  decide +kernel

end Hodu.Flt
