import Mathlib.Data.Int.ModEq
import Mathlib.Tactic.Linarith
import Verif.Model.IntOps
import Verif.Props.CudaReduce

/-! # Property C122: element operations on integers and Booleans -/

namespace Hodu.IntOps

/-! ## Specification -/

/-- The mathematical result of an operation: division truncates, powers need an exponent that is not
negative. -/
def Spec.exact : Op → Int → Int → Option Int
  | .add, x, y => some (x + y)
  | .sub, x, y => some (x - y)
  | .mul, x, y => some (x * y)
  | .div, x, y => if y = 0 then none else some (x.tdiv y)
  | .rem, x, y => if y = 0 then none else some (x.tmod y)
  | .pow, x, y => if y < 0 then none else some (x ^ y.toNat)
  | .max, x, y => some (max x y)
  | .min, x, y => some (min x y)

open Spec

/-! ## Types -/

theorem conv_of_holds {t : Ty} (ht : t.Std) {v : Int} (h : t.Holds v) : t.conv v = v := by
  obtain ⟨s, b⟩ := t
  rcases ht with h1 | h1 | h1 | h1 <;> simp only at h1 <;> subst h1 <;> cases s <;>
    simp [Ty.Holds, Ty.lo, Ty.hi] at h <;> simp [Ty.conv, Ty.lo] <;> omega

theorem conv_holds {t : Ty} (ht : t.Std) (v : Int) : t.Holds (t.conv v) := by
  obtain ⟨s, b⟩ := t
  rcases ht with h1 | h1 | h1 | h1 <;> simp only at h1 <;> subst h1 <;> cases s <;>
    simp [Ty.Holds, Ty.lo, Ty.hi, Ty.conv] <;> omega

theorem conv_modEq (t : Ty) (v : Int) : t.conv v ≡ v [ZMOD 2 ^ t.bits] := by
  unfold Ty.conv
  have h : (v - t.lo) % 2 ^ t.bits ≡ v - t.lo [ZMOD 2 ^ t.bits] := Int.mod_modEq _ _
  simpa using h.add_right t.lo

theorem conv_congr {t : Ty} {a b : Int} (h : a ≡ b [ZMOD 2 ^ t.bits]) : t.conv a = t.conv b := by
  unfold Ty.conv
  have := h.sub_right t.lo
  rw [show (a - t.lo) % 2 ^ t.bits = (b - t.lo) % 2 ^ t.bits from this]

theorem promote_std {t : Ty} (ht : t.Std) : t.promote.Std := by
  unfold Ty.promote
  split
  · exact Or.inr (Or.inr (Or.inl rfl))
  · exact ht

/-- What fits in a type fits in its promotion. -/
theorem promote_holds {t : Ty} (ht : t.Std) {v : Int} (h : t.Holds v) : t.promote.Holds v := by
  obtain ⟨s, b⟩ := t
  rcases ht with h1 | h1 | h1 | h1 <;> simp only at h1 <;> subst h1 <;> cases s <;>
    simp [Ty.Holds, Ty.lo, Ty.hi] at h <;> simp [Ty.Holds, Ty.lo, Ty.hi, Ty.promote] <;> omega

theorem promote_bits {t : Ty} (ht : t.Std) : t.bits ≤ t.promote.bits := by
  unfold Ty.promote
  split
  · rename_i h; exact Nat.le_of_lt h
  · exact Nat.le_refl _

theorem modEq_of_le {a b : Int} {m n : Nat} (hmn : m ≤ n) (h : a ≡ b [ZMOD 2 ^ n]) :
    a ≡ b [ZMOD 2 ^ m] := h.of_dvd (pow_dvd_pow 2 hmn)

theorem arith_holds {t : Ty} {v : Int} (h : t.Holds v) : t.arith v = .ok v := by
  rw [Ty.arith, if_pos h]

theorem arith_unsigned {b : Nat} (ht : (⟨false, b⟩ : Ty).Std) (v : Int) :
    (⟨false, b⟩ : Ty).arith v = .ok ((⟨false, b⟩ : Ty).conv v) := by
  unfold Ty.arith
  split
  · rename_i h; rw [conv_of_holds ht h]
  · rfl

theorem arith_modEq {t : Ty} {v w : Int} (h : t.arith v = .ok w) : w ≡ v [ZMOD 2 ^ t.bits] := by
  unfold Ty.arith at h
  split at h
  · cases h; exact Int.ModEq.refl _
  · split at h
    · cases h
    · cases h; exact conv_modEq t v

/-- A defined expression converted back is the conversion of its mathematical value. -/
theorem arith_map {t : Ty} (ht : t.Std) {v w : Int} (h : (t.promote.arith v).map t.conv = .ok w) :
    w = t.conv v := by
  obtain ⟨u, hu, hw⟩ := Res.bind_eq_ok.mp (show (t.promote.arith v).bind (fun a => .ok (t.conv a)) = _ from h)
  cases hw
  exact conv_congr (modEq_of_le (promote_bits ht) (arith_modEq hu))

theorem arith_map_holds {t : Ty} (ht : t.Std) {v : Int} (h : t.Holds v) :
    (t.promote.arith v).map t.conv = .ok v := by
  rw [arith_holds (promote_holds ht h)]
  show Res.ok (t.conv v) = _
  rw [conv_of_holds ht h]

/-! ## Powers -/

theorem ipow_sound {mul : Int → Int → Res Int} {n : Nat}
    (hm : ∀ a b c, mul a b = .ok c → c ≡ a * b [ZMOD 2 ^ n]) :
    ∀ (fuel e : Nat) (r b v : Int), e < 2 ^ fuel → ipowLoop mul fuel r b e = .ok v →
      v ≡ r * b ^ e [ZMOD 2 ^ n]
  | 0, e, r, b, v, he, h => by
    have : e = 0 := by simpa using he
    subst this
    cases h
    simp [Int.ModEq.refl]
  | fuel + 1, e, r, b, v, he, h => by
    unfold ipowLoop at h
    split at h
    · rename_i h0
      subst h0
      cases h
      simp [Int.ModEq.refl]
    · obtain ⟨r', hr, h⟩ := Res.bind_eq_ok.mp h
      obtain ⟨b', hb, h⟩ := Res.bind_eq_ok.mp h
      have ih := ipow_sound hm fuel (e / 2) r' b' v (by omega) h
      have hb' := hm _ _ _ hb
      have hr' : r' ≡ r * b ^ (e % 2) [ZMOD 2 ^ n] := by
        split at hr
        · rename_i h1
          rw [h1, pow_one]
          exact hm _ _ _ hr
        · rename_i h1
          cases hr
          rw [show e % 2 = 0 by omega, pow_zero, mul_one]
      refine ih.trans ?_
      have := hr'.mul (hb'.pow (e / 2))
      refine this.trans ?_
      have e1 : b ^ e = b ^ (e % 2) * (b * b) ^ (e / 2) := by
        rw [← pow_two, ← pow_mul, ← pow_add]
        congr 1
        omega
      rw [e1, mul_assoc]

theorem ipow_result {mul : Int → Int → Res Int} {P : Int → Prop} (hm : ∀ a b c, mul a b = .ok c → P c) :
    ∀ (fuel e : Nat) (r b v : Int), P r → ipowLoop mul fuel r b e = .ok v → P v
  | 0, e, r, b, v, hr, h => by cases h; exact hr
  | fuel + 1, e, r, b, v, hr, h => by
    unfold ipowLoop at h
    split at h
    · cases h; exact hr
    · obtain ⟨r', h1, h⟩ := Res.bind_eq_ok.mp h
      obtain ⟨b', _, h⟩ := Res.bind_eq_ok.mp h
      refine ipow_result hm fuel _ r' b' v ?_ h
      split at h1
      · exact hm _ _ _ h1
      · cases h1; exact hr

/-- A multiplication defined on all values of a set makes the power defined. -/
theorem ipow_total {mul : Int → Int → Res Int} {P : Int → Prop}
    (hm : ∀ a b, P a → P b → ∃ c, mul a b = .ok c ∧ P c) :
    ∀ (fuel e : Nat) (r b : Int), P r → P b → ∃ v, ipowLoop mul fuel r b e = .ok v ∧ P v
  | 0, e, r, b, hr, _ => ⟨r, rfl, hr⟩
  | fuel + 1, e, r, b, hr, hb => by
    unfold ipowLoop
    split
    · exact ⟨r, rfl, hr⟩
    · obtain ⟨b', hb1, hb2⟩ := hm b b hb hb
      by_cases h1 : e % 2 = 1
      · obtain ⟨r', hr1, hr2⟩ := hm r b hr hb
        rw [if_pos h1, hr1, Res.ok_bind, hb1, Res.ok_bind]
        exact ipow_total hm fuel _ r' b' hr2 hb2
      · rw [if_neg h1, Res.ok_bind, hb1, Res.ok_bind]
        exact ipow_total hm fuel _ r b' hr hb2

/-- A multiplication exact up to a bound gives the exact power when the result, and the square of the
power, are within the bound. -/
theorem ipow_exact {mul : Int → Int → Res Int} {M : Nat} (hm : ∀ a b : Int, (a * b).natAbs ≤ M → mul a b = .ok (a * b)) :
    ∀ (fuel e : Nat) (r b : Int), e < 2 ^ fuel → b ≠ 0 → r.natAbs * b.natAbs ^ e ≤ M →
      (b.natAbs ^ e) ^ 2 ≤ M → ipowLoop mul fuel r b e = .ok (r * b ^ e)
  | 0, e, r, b, he, _, _, _ => by
    have : e = 0 := by simpa using he
    subst this
    simp [ipowLoop]
  | fuel + 1, e, r, b, he, hb, h1, h2 => by
    unfold ipowLoop
    split
    · rename_i h0; subst h0; simp
    · rename_i h0
      have hb1 : 1 ≤ b.natAbs := by omega
      have hpe : b.natAbs ≤ b.natAbs ^ e := Nat.le_self_pow h0 _
      have hsq : (b * b).natAbs ≤ M := by
        rw [Int.natAbs_mul, ← pow_two]
        exact Nat.le_trans (Nat.pow_le_pow_left hpe 2) h2
      have e1 : b ^ e = b ^ (e % 2) * (b * b) ^ (e / 2) := by
        rw [← pow_two, ← pow_mul, ← pow_add]
        congr 1
        omega
      have e2 : b.natAbs ^ e = b.natAbs ^ (e % 2) * (b * b).natAbs ^ (e / 2) := by
        rw [← Int.natAbs_pow, e1, Int.natAbs_mul, Int.natAbs_pow, Int.natAbs_pow]
      have hbb : b * b ≠ 0 := mul_ne_zero hb hb
      have h3 : ((b * b).natAbs ^ (e / 2)) ^ 2 ≤ M := by
        refine Nat.le_trans (Nat.pow_le_pow_left ?_ 2) h2
        rw [e2]
        exact Nat.le_mul_of_pos_left _ (Nat.pow_pos hb1)
      rw [show (mul b b) = .ok (b * b) from hm _ _ hsq]
      by_cases ho : e % 2 = 1
      · have hrb : (r * b).natAbs ≤ M := by
          rw [Int.natAbs_mul]
          exact Nat.le_trans (Nat.mul_le_mul_left _ hpe) h1
        rw [if_pos ho, hm _ _ hrb, Res.ok_bind, Res.ok_bind]
        rw [ipow_exact hm fuel (e / 2) (r * b) (b * b) (by omega) hbb ?_ h3]
        · rw [e1, ho, pow_one, mul_assoc]
        · rw [Int.natAbs_mul, mul_assoc]
          rw [e2, ho, pow_one] at h1
          exact h1
      · have h0' : e % 2 = 0 := by omega
        rw [if_neg ho, Res.ok_bind, Res.ok_bind]
        rw [ipow_exact hm fuel (e / 2) r (b * b) (by omega) hbb ?_ h3]
        · rw [e1, h0', pow_zero, one_mul]
        · rw [e2, h0', pow_zero, one_mul] at h1
          exact h1

theorem ipow_zero_base {mul : Int → Int → Res Int} (h1 : ∀ a, mul a 0 = .ok 0) :
    ∀ (fuel e : Nat) (r : Int), e < 2 ^ fuel → ipowLoop mul fuel r 0 e = .ok (r * 0 ^ e)
  | 0, e, r, he => by
    have : e = 0 := by simpa using he
    subst this
    simp [ipowLoop]
  | fuel + 1, e, r, he => by
    unfold ipowLoop
    split
    · rename_i h0; subst h0; simp
    · rename_i h0
      rw [h1]
      have hr : ∀ r : Int, r * 0 ^ e = 0 := fun r => by rw [zero_pow h0, mul_zero]
      rw [hr]
      by_cases ho : e % 2 = 1
      · rw [if_pos ho, h1, Res.ok_bind, Res.ok_bind, ipow_zero_base h1 fuel _ 0 (by omega), zero_mul]
      · rw [if_neg ho, Res.ok_bind, h1, Res.ok_bind, ipow_zero_base h1 fuel _ r (by omega),
          zero_pow (by omega), mul_zero]

/-- The exponent of a value of at most 64 bits. -/
theorem toNat_lt {t : Ty} (ht : t.Std) {y : Int} (hy : t.Holds y) : y.toNat < 2 ^ 64 := by
  obtain ⟨s, b⟩ := t
  rcases ht with h1 | h1 | h1 | h1 <;> simp only at h1 <;> subst h1 <;> cases s <;>
    simp [Ty.Holds, Ty.lo, Ty.hi] at hy <;> omega

theorem bits_le {t : Ty} (ht : t.Std) : t.bits ≤ 64 := by
  rcases ht with h | h | h | h <;> omega

/-- A defined power on the CPU is the mathematical one, reduced. -/
theorem cpu_pow_eq {t : Ty} (ht : t.Std) {x y v : Int} (hy : t.Holds y) (h0 : 0 ≤ y)
    (h : cpu t .pow x y = .ok v) : v = t.conv (x ^ y.toNat) := by
  obtain ⟨u, hu, hv⟩ := Res.bind_eq_ok.mp (show (if t.signed then ipowI64 x y else ipowU64 x y).bind
    (fun a => .ok (t.conv a)) = _ from h)
  cases hv
  refine conv_congr (modEq_of_le (bits_le ht) ?_)
  split at hu
  · unfold ipowI64 at hu
    rw [if_neg (by omega)] at hu
    have := ipow_sound (n := 64) (fun a b c h => arith_modEq h) 64 _ _ _ _ (toNat_lt ht hy) hu
    simpa using this
  · have := ipow_sound (n := 64) (fun a b c h => arith_modEq h) 64 _ _ _ _ (toNat_lt ht hy) hu
    simpa using this

/-- A defined power on a GPU is the mathematical one, reduced. -/
theorem ipowT_eq {t : Ty} (ht : t.Std) {x y v : Int} (hy : t.Holds y) (h : ipowT t x y = .ok v) :
    t.conv v = t.conv (x ^ y.toNat) := by
  refine conv_congr ?_
  have := ipow_sound (n := t.bits) (mul := fun a b => (t.promote.arith (a * b)).map t.conv)
    (fun a b c h => by rw [arith_map ht h]; exact conv_modEq t _) 64 _ _ _ _ (toNat_lt ht hy) h
  simpa using this

theorem ipowT_holds {t : Ty} (ht : t.Std) {x y v : Int} (h : ipowT t x y = .ok v) : t.Holds v := by
  refine ipow_result (P := t.Holds) (fun a b c h => by rw [arith_map ht h]; exact conv_holds ht _) 64 _ _ _ _ ?_ h
  obtain ⟨s, b⟩ := t
  rcases ht with h1 | h1 | h1 | h1 <;> simp only at h1 <;> subst h1 <;> cases s <;> decide

/-- The types in which `result *= base` is always defined. -/
def Spec.MulTotal (t : Ty) : Prop := t = ⟨false, 8⟩ ∨ t = ⟨true, 8⟩ ∨ t = ⟨true, 16⟩ ∨ t = ⟨false, 32⟩ ∨ t = ⟨false, 64⟩

theorem mulTotal_std {t : Ty} (h : MulTotal t) : t.Std := by
  rcases h with rfl | rfl | rfl | rfl | rfl <;> simp [Ty.Std]

theorem mul_range {a b : Int} {n : Int} (ha : -n ≤ a ∧ a ≤ n) (hb : -n ≤ b ∧ b ≤ n) : -(n * n) ≤ a * b ∧ a * b ≤ n * n := by
  constructor
  · nlinarith [mul_nonneg (show 0 ≤ n - a by omega) (show 0 ≤ n + b by omega), mul_nonneg (show 0 ≤ n + a by omega) (show 0 ≤ n - b by omega)]
  · nlinarith [mul_nonneg (show 0 ≤ n - a by omega) (show 0 ≤ n - b by omega), mul_nonneg (show 0 ≤ n + a by omega) (show 0 ≤ n + b by omega)]

theorem mulTotal_arith {t : Ty} (h : MulTotal t) {a b : Int} (ha : t.Holds a) (hb : t.Holds b) :
    ∃ c, (t.promote.arith (a * b)).map t.conv = .ok c ∧ t.Holds c := by
  have hs := mulTotal_std h
  have key : ∃ u, t.promote.arith (a * b) = .ok u := by
    rcases h with rfl | rfl | rfl | rfl | rfl
    · refine ⟨_, arith_holds ?_⟩
      simp [Ty.Holds, Ty.lo, Ty.hi] at ha hb
      have := mul_range (n := 255) (by omega : -255 ≤ a ∧ a ≤ 255) (by omega : -255 ≤ b ∧ b ≤ 255)
      simp [Ty.Holds, Ty.lo, Ty.hi, Ty.promote]
      omega
    · refine ⟨_, arith_holds ?_⟩
      simp [Ty.Holds, Ty.lo, Ty.hi] at ha hb
      have := mul_range (n := 255) (by omega : -255 ≤ a ∧ a ≤ 255) (by omega : -255 ≤ b ∧ b ≤ 255)
      simp [Ty.Holds, Ty.lo, Ty.hi, Ty.promote]
      omega
    · refine ⟨_, arith_holds ?_⟩
      simp [Ty.Holds, Ty.lo, Ty.hi] at ha hb
      have := mul_range (n := 32768) (by omega : -32768 ≤ a ∧ a ≤ 32768) (by omega : -32768 ≤ b ∧ b ≤ 32768)
      simp [Ty.Holds, Ty.lo, Ty.hi, Ty.promote]
      omega
    · exact ⟨_, arith_unsigned (b := 32) hs _⟩
    · exact ⟨_, arith_unsigned (b := 64) hs _⟩
  obtain ⟨u, hu⟩ := key
  exact ⟨t.conv u, by rw [hu]; rfl, conv_holds hs u⟩

theorem ipowT_total {t : Ty} (h : MulTotal t) {x y : Int} (hx : t.Holds x) (hy : t.Holds y) :
    ipowT t x y = .ok (t.conv (x ^ y.toNat)) := by
  have hs := mulTotal_std h
  have h1 : t.Holds 1 := by rcases h with rfl | rfl | rfl | rfl | rfl <;> decide
  obtain ⟨v, hv, hv'⟩ := ipow_total (P := t.Holds) (fun a b ha hb => mulTotal_arith h ha hb) 64 y.toNat 1 x h1 hx
  have := ipowT_eq hs hy hv
  rw [conv_of_holds hs hv'] at this
  rw [← this]
  exact hv

/-! ## C122, arithmetic -/

/-- **C122, exact results**: on all three back ends an operation whose mathematical result fits in the
type gives it; `rem` when the quotient is defined too, `pow` aside (see `C122_pow_exact_partial`). -/
theorem C122_exact_partial {t : Ty} (ht : t.Std) {op : Op} {x y v : Int}
    (he : exact op x y = some v) (hv : t.Holds v) (hp : op ≠ .pow)
    (hr : op = .rem → t.promote.Holds (x.tdiv y)) :
    cpu t op x y = .ok v ∧ cuda t op x y = .ok v ∧ metal t op x y = .ok v := by
  have hc : cpu t op x y = .ok v := by
    cases op with
    | add => cases he; exact arith_map_holds ht hv
    | sub =>
      cases he
      show subT t x y = _
      unfold subT
      rw [arith_map_holds ht hv]
      split
      · rfl
      · rename_i hs
        split
        · rfl
        · have h0 : 0 ≤ x - y := by
            have := hv.1
            simp only [Ty.lo] at this
            rw [if_neg hs] at this
            exact this
          congr 1
          omega
    | mul => cases he; exact arith_map_holds ht hv
    | div =>
      simp only [exact] at he
      split at he
      · cases he
      · rename_i h0
        cases he
        show (if y ≠ 0 then _ else _) = _
        rw [if_pos h0]
        exact arith_map_holds ht hv
    | rem =>
      simp only [exact] at he
      split at he
      · cases he
      · rename_i h0
        cases he
        show (if y ≠ 0 then _ else _) = _
        rw [if_pos h0, Ty.remn, Ty.quot, arith_holds (hr rfl)]
        show Res.ok (t.conv _) = _
        rw [conv_of_holds ht hv]
    | pow => exact absurd rfl hp
    | max =>
      cases he
      show Res.ok (if x > y then x else y) = .ok (max x y)
      rw [Int.max_def]
      congr 1
      split <;> split <;> omega
    | min =>
      cases he
      show Res.ok (if x < y then x else y) = .ok (min x y)
      rw [Int.min_def]
      congr 1
      split <;> split <;> omega
  refine ⟨hc, ?_, ?_⟩
  · cases op <;> first | exact hc | exact absurd rfl hp
  · cases op with
    | div =>
      simp only [exact] at he
      split at he
      · cases he
      · rename_i h0
        rw [← hc]
        show (if y = 0 then _ else _) = (if y ≠ 0 then _ else _)
        rw [if_neg h0, if_pos h0]
    | rem =>
      simp only [exact] at he
      split at he
      · cases he
      · rename_i h0
        rw [← hc]
        show (if y = 0 then _ else _) = (if y ≠ 0 then _ else _)
        rw [if_neg h0, if_pos h0]
    | pow => exact absurd rfl hp
    | _ => exact hc

/-- **C122, exact powers**: a power that fits in the type is exact on the CPU for all types other than
`i64`, and there when its square fits; on the GPUs for the types whose products are always defined. -/
theorem C122_pow_exact_partial {t : Ty} (ht : t.Std) {x y v : Int} (hx : t.Holds x) (hy : t.Holds y)
    (he : exact .pow x y = some v) (hv : t.Holds v) :
    (t ≠ ⟨true, 64⟩ ∨ v * v < 2 ^ 63 → cpu t .pow x y = .ok v) ∧
    (MulTotal t → cuda t .pow x y = .ok v ∧ metal t .pow x y = .ok v) := by
  simp only [exact] at he
  split at he
  · cases he
  rename_i h0
  cases he
  constructor
  · intro h64
    have hb := bits_le ht
    show (if t.signed then ipowI64 x y else ipowU64 x y).map t.conv = _
    by_cases hs : t.signed
    · have hsq : (x.natAbs ^ y.toNat) ^ 2 ≤ 2 ^ 63 - 1 := by
        have e : ((x.natAbs ^ y.toNat : Nat) : Int) ^ 2 = x ^ y.toNat * x ^ y.toNat := by
          rw [← Int.natAbs_pow, pow_two, ← Int.natCast_mul, Int.natAbs_mul_self]
        have hlt : x ^ y.toNat * x ^ y.toNat < 2 ^ 63 := by
          rcases h64 with h | h
          · have : -2 ^ 31 ≤ x ^ y.toNat ∧ x ^ y.toNat ≤ 2 ^ 31 := by
              obtain ⟨s, b⟩ := t
              simp only at hs
              subst hs
              rcases ht with h1 | h1 | h1 | h1 <;> simp only at h1 <;> subst h1
              · simp [Ty.Holds, Ty.lo, Ty.hi] at hv; omega
              · simp [Ty.Holds, Ty.lo, Ty.hi] at hv; omega
              · simp [Ty.Holds, Ty.lo, Ty.hi] at hv; omega
              · exact absurd rfl h
            have := (mul_range this this).2
            omega
          · exact h
        rw [← e] at hlt
        have : (x.natAbs ^ y.toNat) ^ 2 < 2 ^ 63 := by exact_mod_cast hlt
        omega
      have key : ipowI64 x y = .ok (x ^ y.toNat) := by
        unfold ipowI64
        rw [if_neg h0]
        by_cases hx0 : x = 0
        · subst hx0
          rw [ipow_zero_base (fun a => by rw [mul_zero]; rfl) 64 _ 1 (toNat_lt ht hy), one_mul]
        · have h1 : 1 ≤ x.natAbs ^ y.toNat := Nat.pow_pos (by omega)
          have := ipow_exact (M := 2 ^ 63 - 1) (mul := fun a b => (⟨true, 64⟩ : Ty).arith (a * b)) (fun a b h => arith_holds (by
            simp [Ty.Holds, Ty.lo, Ty.hi]; omega)) 64 y.toNat 1 x (toNat_lt ht hy) hx0
            (by
              rw [show (1 : Int).natAbs = 1 from rfl, one_mul]
              exact Nat.le_trans (Nat.le_self_pow (by decide) _) hsq) hsq
          rw [this, one_mul]
      rw [if_pos hs, key]
      show Res.ok (t.conv _) = _
      rw [conv_of_holds ht hv]
    · have hx0 : 0 ≤ x := by
        have := hx.1
        simp only [Ty.lo] at this
        rwa [if_neg hs] at this
      have ht64 : MulTotal ⟨false, 64⟩ := by simp [MulTotal]
      have hu : ∀ {z : Int}, t.Holds z → (⟨false, 64⟩ : Ty).Holds z := by
        intro z hz
        obtain ⟨s, b⟩ := t
        have hs : s = false := by simpa using hs
        subst hs
        rcases ht with h1 | h1 | h1 | h1 <;> simp only at h1 <;> subst h1 <;>
          simp [Ty.Holds, Ty.lo, Ty.hi] at hz <;> simp [Ty.Holds, Ty.lo, Ty.hi] <;> omega
      have hp := ipowT_total ht64 (hu hx) (hu hy)
      have hconv := conv_of_holds (mulTotal_std ht64) (hu hv)
      rw [hconv] at hp
      have he : ipowU64 x y = .ok (x ^ y.toNat) := by
        rw [← hp]
        unfold ipowU64 ipowT
        congr 1
        funext a b
        show _ = ((⟨false, 64⟩ : Ty).arith (a * b)).map _
        rw [arith_unsigned (mulTotal_std ht64)]
        show _ = Res.ok ((⟨false, 64⟩ : Ty).conv _)
        rw [conv_of_holds (mulTotal_std ht64) (conv_holds (mulTotal_std ht64) _)]
      rw [if_neg hs, he]
      show Res.ok (t.conv _) = _
      rw [conv_of_holds ht hv]
  · intro hm
    have := ipowT_total hm hx hy
    rw [conv_of_holds ht hv] at this
    refine ⟨?_, this⟩
    show (ipowT t x y).map t.conv = _
    rw [this]
    show Res.ok (t.conv _) = _
    rw [conv_of_holds ht hv]

/-- **C122, reduced results**: unsigned sums and products, and those of the narrow signed types, that do
not fit are reduced; `u16` products as long as they fit in `int`. -/
theorem C122_reduced_partial {t : Ty} (ht : t.Std) {x y : Int} (hx : t.Holds x) (hy : t.Holds y)
    (hs : t.signed = false ∨ t.bits < 32) :
    cpu t .add x y = .ok (t.conv (x + y)) ∧
    (t ≠ ⟨false, 16⟩ ∨ x * y < 2 ^ 31 → cpu t .mul x y = .ok (t.conv (x * y))) ∧
    (t.signed = false → cpu t .sub x y = .ok (max (x - y) 0)) := by
  have key : ∀ v, t.promote.Holds v ∨ t.promote.signed = false →
      (t.promote.arith v).map t.conv = .ok (t.conv v) := by
    intro v hv
    have : ∃ u, t.promote.arith v = .ok u := by
      unfold Ty.arith
      rcases hv with h | h
      · exact ⟨_, if_pos h⟩
      · split
        · exact ⟨_, rfl⟩
        · rw [if_neg (by simp [h])]; exact ⟨_, rfl⟩
    obtain ⟨u, hu⟩ := this
    have h2 : (t.promote.arith v).map t.conv = .ok (t.conv u) := by rw [hu]; rfl
    rw [h2, arith_map ht h2]
  refine ⟨key _ ?_, fun hm => key _ ?_, fun h0 => ?_⟩
  · obtain ⟨s, b⟩ := t
    rcases ht with h1 | h1 | h1 | h1 <;> simp only at h1 <;> subst h1 <;> cases s <;>
      simp [Ty.Holds, Ty.lo, Ty.hi] at hx hy <;> simp at hs <;>
      simp [Ty.Holds, Ty.lo, Ty.hi, Ty.promote] <;> omega
  · obtain ⟨s, b⟩ := t
    by_cases hb : b < 32
    · left
      have hr : -32768 ≤ x ∧ x ≤ 32768 → -32768 ≤ y ∧ y ≤ 32768 → (⟨true, 32⟩ : Ty).Holds (x * y) := by
        intro h1 h2
        have := mul_range (n := 32768) h1 h2
        simp [Ty.Holds, Ty.lo, Ty.hi]
        omega
      simp only [Ty.promote, if_pos hb]
      rcases ht with h1 | h1 | h1 | h1 <;> simp only at h1 <;> subst h1 <;> cases s
      · simp [Ty.Holds, Ty.lo, Ty.hi] at hx hy; exact hr (by omega) (by omega)
      · simp [Ty.Holds, Ty.lo, Ty.hi] at hx hy; exact hr (by omega) (by omega)
      · simp [Ty.Holds, Ty.lo, Ty.hi] at hx hy
        rcases hm with hm | hm
        · exact absurd rfl hm
        · have := mul_nonneg hx.1 hy.1
          simp [Ty.Holds, Ty.lo, Ty.hi]; omega
      · simp [Ty.Holds, Ty.lo, Ty.hi] at hx hy; exact hr (by omega) (by omega)
      all_goals omega
    · right
      have : s = false := by
        rcases hs with h | h
        · exact h
        · exact absurd h hb
      subst this
      simp [Ty.promote, hb]
  · show subT t x y = _
    unfold subT
    rw [if_neg (by simp [h0])]
    split
    · have hh : t.Holds (x - y) := by
        obtain ⟨s, b⟩ := t
        have : s = false := h0
        subst this
        simp [Ty.Holds, Ty.lo, Ty.hi] at hx hy ⊢
        omega
      rw [arith_map_holds ht hh]
      congr 1
      omega
    · congr 1
      omega

/-- **C122, one result on all back ends**: where the CPU and a GPU define a result, with an exponent
that is not negative, they define the same one. -/
theorem C122_agree_partial {t : Ty} (ht : t.Std) {op : Op} {x y v w : Int} (hy : t.Holds y)
    (hp : op = .pow → 0 ≤ y) (hc : cpu t op x y = .ok v) :
    (cuda t op x y = .ok w → v = w) ∧ (metal t op x y = .ok w → v = w) := by
  have same : cpu t op x y = .ok w → v = w := fun h => by rw [hc] at h; cases h; rfl
  constructor
  · intro hw
    cases op with
    | pow =>
      have h1 := cpu_pow_eq ht hy (hp rfl) hc
      obtain ⟨u, hu, hv⟩ := Res.bind_eq_ok.mp (show (ipowT t x y).bind (fun a => .ok (t.conv a)) = _ from hw)
      cases hv
      rw [h1, ipowT_eq ht hy hu]
    | _ => exact same hw
  · intro hw
    cases op with
    | pow =>
      have h1 := cpu_pow_eq ht hy (hp rfl) hc
      rw [h1, ← ipowT_eq ht hy hw, conv_of_holds ht (ipowT_holds ht hw)]
    | div =>
      have hw' : (if y = 0 then Res.ub else (t.quot x y).map t.conv) = .ok w := hw
      split at hw'
      · cases hw'
      · rename_i h0
        apply same
        show (if y ≠ 0 then _ else _) = _
        rw [if_pos h0]; exact hw'
    | rem =>
      have hw' : (if y = 0 then Res.ub else (t.remn x y).map t.conv) = .ok w := hw
      split at hw'
      · cases hw'
      · rename_i h0
        apply same
        show (if y ≠ 0 then _ else _) = _
        rw [if_pos h0]; exact hw'
    | _ => exact same hw

theorem ipowT_i64 {t : Ty} (ht : t.Std) (h : t = ⟨true, 64⟩) {x y : Int} (h0 : 0 ≤ y) :
    ipowT t x y = ipowI64 x y := by
  have hm : (fun a b => (t.promote.arith (a * b)).map t.conv) = fun a b => Ty.arith ⟨true, 64⟩ (a * b) := by
    funext a b
    have hp : t.promote = t := by rw [h]; rfl
    rw [hp, ← h]
    unfold Ty.arith
    split
    · rename_i hh
      show Res.ok (t.conv _) = _
      rw [conv_of_holds ht hh]
    · rw [if_pos (show t.signed = true by rw [h])]; rfl
  unfold ipowI64 ipowT
  rw [if_neg (by omega), hm]

/-- **C122, defined on all back ends**: a result the CPU defines is defined on CUDA and Metal; for `pow`
when the exponent is not negative and the type is neither `i32` nor `u16`; on Metal for `div` and `rem`
when the divisor is not zero. -/
theorem C122_defined_partial {t : Ty} (ht : t.Std) {op : Op} {x y v : Int} (hx : t.Holds x) (hy : t.Holds y)
    (hp : op = .pow → 0 ≤ y ∧ t ≠ ⟨true, 32⟩ ∧ t ≠ ⟨false, 16⟩) (hc : cpu t op x y = .ok v) :
    cuda t op x y = .ok v ∧ ((op = .div ∨ op = .rem → y ≠ 0) → metal t op x y = .ok v) := by
  by_cases hop : op = .pow
  · subst hop
    obtain ⟨h0, h1, h2⟩ := hp rfl
    have hpow : ipowT t x y = .ok v := by
      by_cases hm : MulTotal t
      · rw [ipowT_total hm hx hy, cpu_pow_eq ht hy h0 hc]
      · have h64 : t = ⟨true, 64⟩ := by
          obtain ⟨s, b⟩ := t
          rcases ht with h | h | h | h <;> simp only at h <;> subst h <;> cases s <;> simp [MulTotal] at hm h1 h2 ⊢
        have hs : t.signed = true := by rw [h64]
        have hc' : (if t.signed then ipowI64 x y else ipowU64 x y).map t.conv = .ok v := hc
        rw [if_pos hs, ← ipowT_i64 ht h64 h0] at hc'
        cases hu : ipowT t x y with
        | ok u =>
          rw [hu] at hc'
          have : t.conv u = v := by
            have := (show Res.ok (t.conv u) = .ok v from hc')
            exact Res.ok.inj this
          rw [← this, conv_of_holds ht (ipowT_holds ht hu)]
        | _ => rw [hu] at hc'; cases hc'
    refine ⟨?_, fun _ => hpow⟩
    show (ipowT t x y).map t.conv = _
    rw [hpow]
    show Res.ok (t.conv v) = _
    rw [conv_of_holds ht (ipowT_holds ht hpow)]
  · refine ⟨?_, fun hz => ?_⟩
    · cases op <;> first | exact hc | exact absurd rfl hop
    · cases op with
      | pow => exact absurd rfl hop
      | div =>
        rw [← hc]
        show (if y = 0 then _ else _) = (if y ≠ 0 then _ else _)
        rw [if_neg (hz (Or.inl rfl)), if_pos (hz (Or.inl rfl))]
      | rem =>
        rw [← hc]
        show (if y = 0 then _ else _) = (if y ≠ 0 then _ else _)
        rw [if_neg (hz (Or.inr rfl)), if_pos (hz (Or.inr rfl))]
      | _ => exact hc

/-- **C122, refuted for negative exponents**: every base to a negative power is 0 on the CPU and 1 on
both GPUs. -/
theorem C122_negative_exponent {t : Ty} (ht : t.Std) (hs : t.signed = true) {x y : Int} (h : y < 0) :
    cpu t .pow x y = .ok 0 ∧ cuda t .pow x y = .ok 1 ∧ metal t .pow x y = .ok 1 := by
  have e : y.toNat = 0 := by omega
  have hc : ∀ v : Int, v = 0 ∨ v = 1 → t.conv v = v := by
    intro v hv
    apply conv_of_holds ht
    obtain ⟨s, b⟩ := t
    rcases ht with h1 | h1 | h1 | h1 <;> simp only at h1 <;> subst h1 <;> cases s <;>
      rcases hv with rfl | rfl <;> decide
  refine ⟨?_, ?_, ?_⟩
  · show (if t.signed then ipowI64 x y else ipowU64 x y).map t.conv = _
    rw [if_pos hs, ipowI64, if_pos h]
    show Res.ok (t.conv 0) = _
    rw [hc 0 (Or.inl rfl)]
  · show (ipowT t x y).map t.conv = _
    rw [ipowT, e]
    show Res.ok (t.conv 1) = _
    rw [hc 1 (Or.inr rfl)]
  · show ipowT t x y = _
    rw [ipowT, e]; rfl

/-- **C122, refuted for a zero divisor**: the CPU and CUDA return 0, Metal divides. -/
theorem C122_zero_divisor (t : Ty) (x : Int) :
    cpu t .div x 0 = .ok 0 ∧ cuda t .div x 0 = .ok 0 ∧ metal t .div x 0 = .ub ∧
    cpu t .rem x 0 = .ok 0 ∧ cuda t .rem x 0 = .ok 0 ∧ metal t .rem x 0 = .ub := ⟨rfl, rfl, rfl, rfl, rfl, rfl⟩

/-- **C122, exactness refuted**: results that fit in the type and are nevertheless undefined: the base
is squared once too often (`2 ^ 40` in `i64` on all back ends, `2 ^ 17` in `i32` and `50000 ^ 1` in `u16`
on the GPUs), the quotient of a remainder overflows; and `u16` products overflow `int`. -/
theorem C122_exact_false :
    (exact .pow 2 40 = some (2 ^ 40) ∧ (⟨true, 64⟩ : Ty).Holds (2 ^ 40) ∧
      cpu ⟨true, 64⟩ .pow 2 40 = .ub ∧ cuda ⟨true, 64⟩ .pow 2 40 = .ub ∧ metal ⟨true, 64⟩ .pow 2 40 = .ub) ∧
    (exact .pow 2 17 = some (2 ^ 17) ∧ cpu ⟨true, 32⟩ .pow 2 17 = .ok (2 ^ 17) ∧
      cuda ⟨true, 32⟩ .pow 2 17 = .ub ∧ metal ⟨true, 32⟩ .pow 2 17 = .ub) ∧
    (exact .pow 50000 1 = some 50000 ∧ cpu ⟨false, 16⟩ .pow 50000 1 = .ok 50000 ∧
      cuda ⟨false, 16⟩ .pow 50000 1 = .ub ∧ metal ⟨false, 16⟩ .pow 50000 1 = .ub) ∧
    (exact .rem (-2 ^ 31) (-1) = some 0 ∧ cpu ⟨true, 32⟩ .rem (-2 ^ 31) (-1) = .ub) ∧
    (cpu ⟨false, 16⟩ .mul 65535 65535 = .ub ∧ cpu ⟨false, 8⟩ .mul 255 255 = .ok 1) := by
  decide +kernel

/-! ## C122, unary operations -/

/-- **C122, negation, absolute value, sign and square** of signed types: exact when the result fits,
reduced for the narrow types, undefined for `i32` and `i64` otherwise. -/
theorem C122_unary {t : Ty} (ht : t.Std) (hs : t.signed = true) {x : Int} (hx : t.Holds x) (op : Un) :
    let v : Int := match op with
      | .neg => -x
      | .abs => |x|
      | .sign => x.sign
      | .square => x * x
    cpuUn t op x = if t.promote.Holds v then Res.ok (t.conv v) else Res.ub := by
  have hsp : t.promote.signed = true := by
    unfold Ty.promote
    split
    · rfl
    · exact hs
  have key : ∀ v, (t.promote.arith v).map t.conv = if t.promote.Holds v then .ok (t.conv v) else .ub := by
    intro v
    unfold Ty.arith
    rw [hsp]
    split <;> rfl
  have hold : ∀ v, t.Holds v → Res.ok v = if t.promote.Holds v then .ok (t.conv v) else .ub := by
    intro v hv
    rw [if_pos (promote_holds ht hv), conv_of_holds ht hv]
  cases op with
  | neg => exact key _
  | abs =>
    show (if x < 0 then _ else _) = _
    split
    · rename_i h
      rw [key, show |x| = -x from abs_of_neg h]
    · rename_i h
      show _ = if t.promote.Holds |x| then Res.ok (t.conv |x|) else Res.ub
      rw [show |x| = x from abs_of_nonneg (by omega)]
      exact hold x hx
  | sign =>
    show Res.ok (if x > 0 then 1 else if x < 0 then -1 else 0) = if t.promote.Holds x.sign then .ok (t.conv x.sign) else .ub
    have hu : ∀ v : Int, v = 0 ∨ v = 1 ∨ v = -1 → t.Holds v := by
      intro v hv
      obtain ⟨s, b⟩ := t
      simp only at hs
      subst hs
      rcases ht with h1 | h1 | h1 | h1 <;> simp only at h1 <;> subst h1 <;>
        rcases hv with rfl | rfl | rfl <;> decide
    rcases lt_trichotomy x 0 with h | h | h
    · rw [if_neg (by omega), if_pos h, Int.sign_eq_neg_one_of_neg h]
      exact hold _ (hu _ (by simp))
    · subst h
      exact hold _ (hu _ (by simp))
    · rw [if_pos h, Int.sign_eq_one_of_pos h]
      exact hold _ (hu _ (by simp))
  | square => exact key _

/-! ## C122, scalar exponents -/

theorem powfLoop_exact : ∀ (fuel e : Nat) (r b : Int), e < 2 ^ fuel → b ≠ 0 →
    r.natAbs * b.natAbs ^ e ≤ 2 ^ 24 → powfLoop fuel r b e = r * b ^ e ∨ r = 0
  | 0, e, r, b, he, _, _ => by
    have : e = 0 := by simpa using he
    subst this
    simp [powfLoop]
  | fuel + 1, e, r, b, he, hb, h1 => by
    unfold powfLoop
    split
    · rename_i h0; subst h0; simp
    · rename_i h0
      by_cases hr0 : r = 0
      · exact Or.inr hr0
      left
      have hb1 : 1 ≤ b.natAbs := by omega
      have hpe : b.natAbs ≤ b.natAbs ^ e := Nat.le_self_pow h0 _
      have e1 : b ^ e = b ^ (e % 2) * (b * b) ^ (e / 2) := by
        rw [← pow_two, ← pow_mul, ← pow_add]
        congr 1
        omega
      have e2 : b.natAbs ^ e = b.natAbs ^ (e % 2) * (b * b).natAbs ^ (e / 2) := by
        rw [← Int.natAbs_pow, e1, Int.natAbs_mul, Int.natAbs_pow, Int.natAbs_pow]
      have hrb : e % 2 = 1 → Flt.flInt (r * b) = r * b := by
        intro _
        apply Cuda.flInt_small
        rw [Int.natAbs_mul]
        exact Nat.le_trans (Nat.mul_le_mul_left _ hpe) h1
      have hr' : (if e % 2 = 1 then Flt.flInt (r * b) else r) = r * b ^ (e % 2) := by
        split
        · rename_i h; rw [hrb h, h, pow_one]
        · rename_i h; rw [show e % 2 = 0 by omega, pow_zero, mul_one]
      rw [hr']
      have hrne : r * b ^ (e % 2) ≠ 0 := mul_ne_zero hr0 (pow_ne_zero _ hb)
      by_cases h2 : e / 2 = 0
      · rw [h2]
        have : ∀ f (r b : Int), powfLoop f r b 0 = r := by
          intro f r b
          cases f <;> simp [powfLoop]
        rw [this, e1, h2, pow_zero, mul_one]
      · have hsq : Flt.flInt (b * b) = b * b := by
          apply Cuda.flInt_small
          refine Nat.le_trans ?_ h1
          rw [e2]
          have g1 : (b * b).natAbs ≤ (b * b).natAbs ^ (e / 2) := Nat.le_self_pow h2 _
          have g2 : 1 ≤ b.natAbs ^ (e % 2) := Nat.pow_pos hb1
          have g3 : 1 ≤ r.natAbs := by omega
          calc (b * b).natAbs ≤ (b * b).natAbs ^ (e / 2) := g1
            _ ≤ b.natAbs ^ (e % 2) * (b * b).natAbs ^ (e / 2) := Nat.le_mul_of_pos_left _ g2
            _ ≤ _ := Nat.le_mul_of_pos_left _ g3
        rw [hsq]
        rcases powfLoop_exact fuel (e / 2) (r * b ^ (e % 2)) (b * b) (by omega) (mul_ne_zero hb hb) (by
          rw [Int.natAbs_mul, Int.natAbs_pow, mul_assoc, ← e2]; exact h1) with h | h
        · rw [h, mul_assoc, ← e1]
        · exact absurd h hrne

/-- **C122, powers with a scalar exponent** from 0 to 31 on the CPU are exact while base and result are at most
`2 ^ 24` in absolute value. -/
theorem C122_pow_scalar_partial {t : Ty} {x c : Int} (h0 : 0 ≤ c) (h31 : c < 32) (hx : x.natAbs ≤ 2 ^ 24)
    (hp : (x ^ c.toNat).natAbs ≤ 2 ^ 24) (hv : t.Holds (x ^ c.toNat)) :
    powScalar t x c = some (.ok (x ^ c.toNat)) := by
  unfold powScalar
  rw [if_neg (by omega), Cuda.flInt_small hx]
  by_cases c0 : c = 0
  · subst c0; rw [if_pos rfl, show (0 : Int).toNat = 0 from rfl, pow_zero]
  rw [if_neg c0]
  have hcn : c.toNat ≠ 0 := by omega
  by_cases x0 : x = 0
  · subst x0
    rw [if_pos rfl, if_pos (by omega), zero_pow hcn]
  rw [if_neg x0]
  by_cases x1 : x = 1
  · subst x1
    rw [if_pos rfl, one_pow]
  rw [if_neg x1]
  by_cases c1 : c = 1
  · subst c1
    have hx1 : x ^ (1 : Int).toNat = x := pow_one x
    rw [hx1] at hv ⊢
    rw [if_pos rfl]
    simp only [if_pos hv]
  rw [if_neg c1, if_pos h0]
  have := powfLoop_exact 6 c.toNat 1 x (by omega) x0 (by
    rw [show (1 : Int).natAbs = 1 from rfl, one_mul, ← Int.natAbs_pow]; exact hp)
  rcases this with h | h
  · rw [h, one_mul]
    simp only [if_pos hv]
  · exact absurd h (by decide)

/-- **C122, refuted for scalar exponents**: a tensor exponent and the same scalar exponent give different
results: `4097 ^ 2` is rounded, `(-1) ^ -1` is -1 and not 0, and `0 ^ -1` converts an infinity. -/
theorem C122_pow_scalar_false :
    (cpu ⟨true, 32⟩ .pow 4097 2 = .ok 16785409 ∧ powScalar ⟨true, 32⟩ 4097 2 = some (.ok 16785408)) ∧
    (cpu ⟨true, 32⟩ .pow (-1) (-1) = .ok 0 ∧ powScalar ⟨true, 32⟩ (-1) (-1) = some (.ok (-1))) ∧
    (cpu ⟨true, 32⟩ .pow 0 (-1) = .ok 0 ∧ powScalar ⟨true, 32⟩ 0 (-1) = some .ub) := by
  decide +kernel

/-! ## C122, Booleans -/

/-- **C122, Booleans**: apart from `rem`, the CPU operations are those of `u8` on 0 and 1, clamped at 1;
apart from `sub` and `pow`, Metal has the same. -/
theorem C122_bool_partial (op : Op) (x y : Bool) :
    (op ≠ .rem → ∃ v, cpu ⟨false, 8⟩ op x.toNat y.toNat = .ok v ∧ ((cpuBool op x y).toNat : Int) = min v 1) ∧
    (op ≠ .sub → op ≠ .pow → metalBool op x y = some (cpuBool op x y)) ∧
    (op ≠ .sub → op ≠ .pow → cpuBoolScalar op x y = cpuBool op x y) := by
  refine ⟨fun h => ?_, ?_, ?_⟩
  · cases op with
    | rem => exact absurd rfl h
    | add => cases x <;> cases y <;> exact ⟨_, rfl, by decide +kernel⟩
    | sub => cases x <;> cases y <;> exact ⟨_, rfl, by decide +kernel⟩
    | mul => cases x <;> cases y <;> exact ⟨_, rfl, by decide +kernel⟩
    | div => cases x <;> cases y <;> exact ⟨_, rfl, by decide +kernel⟩
    | pow => cases x <;> cases y <;> exact ⟨_, rfl, by decide +kernel⟩
    | max => cases x <;> cases y <;> exact ⟨_, rfl, by decide +kernel⟩
    | min => cases x <;> cases y <;> exact ⟨_, rfl, by decide +kernel⟩
  · cases op <;> cases x <;> cases y <;> decide
  · cases op <;> cases x <;> cases y <;> decide

/-- **C122, refuted for Booleans**: `false - true` is false on the CPU and true on Metal and with a scalar
operand; `false ^ false` is true with a tensor and false with a scalar exponent, and has no Metal kernel;
`true % false` is true where the integers give 0. -/
theorem C122_bool_false :
    (cpuBool .sub false true = false ∧ metalBool .sub false true = some true ∧ cpuBoolScalar .sub false true = true) ∧
    (cpuBool .pow false false = true ∧ cpuBoolScalar .pow false false = false ∧ metalBool .pow false false = none) ∧
    (cpuBool .rem true false = true ∧ cpu ⟨false, 8⟩ .rem 1 0 = .ok 0) := by
  decide +kernel

/-! ## Concrete cases -/

/-- The hypotheses of the exactness theorems: a product and a power that just fit. -/
example : (⟨true, 32⟩ : Ty).Std ∧ exact .mul 46340 46340 = some 2147395600 ∧ (⟨true, 32⟩ : Ty).Holds 2147395600 ∧
    exact .pow (-2) 31 = some (-2147483648) ∧ (⟨true, 32⟩ : Ty).Holds (-2147483648) ∧
    cpu ⟨true, 32⟩ .pow (-2) 31 = .ok (-2147483648) ∧ MulTotal ⟨true, 8⟩ := by
  refine ⟨by simp [Ty.Std], by decide +kernel, by decide, by decide +kernel, by decide, by decide +kernel, by simp [MulTotal]⟩

/-- A reduced sum and product of `i8`, and the hypothesis of `C122_pow_scalar_partial`. -/
example : cpu ⟨true, 8⟩ .add 100 100 = .ok (-56) ∧ cpu ⟨true, 8⟩ .mul 100 100 = .ok 16 ∧
    ((255 : Int) ^ (2 : Int).toNat).natAbs ≤ 2 ^ 24 ∧ (⟨true, 32⟩ : Ty).Holds ((255 : Int) ^ (2 : Int).toNat) := by
  decide +kernel

/-- Negation of the least `i8` is reduced, of the least `i32` undefined. -/
example : cpuUn ⟨true, 8⟩ .neg (-128) = .ok (-128) ∧ cpuUn ⟨true, 32⟩ .neg (-2 ^ 31) = .ub := by decide +kernel

end Hodu.IntOps
