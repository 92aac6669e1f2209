import Verif.Model.Cast
import Verif.Props.SmallFloat
import Verif.Props.Bitwise
import Verif.Lemmas.JsonFloat

/-!
# C96: changing the element type converts every element

Numbers are counted in multiples of `2 ^ -1074`, the smallest subnormal `double`, so that every finite element of every type is an
integer.
-/

namespace Hodu.Cast
open Flt Spec Flt.Spec

/-! ## Specification -/

/-- One, in multiples of `2 ^ -1074`. -/
@[irreducible] def Spec.one : Nat := 2 ^ 1074

/-- The finite number with the pattern `x` of a floating-point format. -/
def Spec.fval (f : Fmt) (x : Nat) : Option Int :=
  if x % 2 ^ f.width < f.top then some (if x / 2 ^ f.width = 0 then (mag f (x % 2 ^ f.width) : Int) else -(mag f (x % 2 ^ f.width) : Int))
  else none

/-- The number a pattern of an integer type stands for. -/
def Spec.whole (dt : DType) (x : Nat) : Int :=
  match dt with
  | .i8 => Int.bmod x (2 ^ 8)
  | .i16 => Int.bmod x (2 ^ 16)
  | .i32 => Int.bmod x (2 ^ 32)
  | .i64 => Int.bmod x (2 ^ 64)
  | _ => x

/-- The number a pattern stands for, if it is finite. -/
def Spec.value (dt : DType) (x : Nat) : Option Int :=
  match dt with
  | .bool => some (if x = 0 then 0 else one)
  | .f8e4m3 => fval Flt.f8e4m3 x
  | .f8e5m2 => fval Flt.f8e5m2 x
  | .bf16 => fval Flt.bf16 x
  | .f16 => fval Flt.f16 x
  | .f32 => fval Flt.f32 x
  | .f64 => fval Flt.f64 x
  | _ => some (whole dt x * one)

open Spec

theorem one_eq : one = 2 ^ 1074 := by unfold one; rfl

theorem one_pos : 0 < one := by rw [one_eq]; exact Nat.two_pow_pos _

/-! ## Rounding -/

/-- **Rounding to nearest, ties to even**: what the specification of IEEE 754 asks for. -/
theorem enc_nearest (f : Fmt) (n : Nat) :
    Nearest f (enc f n 1) n ∧
    (∀ q, q ≠ enc f n 1 → ((mag f q : Int) - n).natAbs = ((mag f (enc f n 1) : Int) - n).natAbs → enc f n 1 % 2 = 0) := by
  obtain ⟨e, s, hs, hes, h1, h2⟩ := scale f n Nat.one_pos
  have henc := enc_of f Nat.one_pos hs hes h1 h2
  have hma := mag_eq f hs.le hes
  have hmb := mag_eq f (e := e) (s := s + 1) hs (by omega)
  rw [Nat.succ_mul] at h2
  have hD : 0 < 1 * 2 ^ f.unit * 2 ^ e := by positivity
  generalize hDD : 1 * 2 ^ f.unit * 2 ^ e = D at *
  have e1 : s * 2 ^ e * 2 ^ f.unit = s * D := by rw [← hDD]; ring
  have e2 : (s + 1) * 2 ^ e * 2 ^ f.unit = s * D + D := by rw [← hDD]; ring
  rw [e1] at hma
  rw [e2, ← Nat.add_assoc] at hmb
  generalize e * 2 ^ f.man + s = p at *
  generalize s * D = m at *
  obtain ⟨r, rfl⟩ : ∃ r, n = m + r := ⟨n - m, by omega⟩
  simp only [show m + r - m = r by omega] at henc
  have hlo : ∀ q, q < p → mag f q < m := fun q hq => hma ▸ mag_strictMono f hq
  have hhi : ∀ q, p + 1 < q → m + D < mag f q := fun q hq => hmb ▸ mag_strictMono f hq
  rw [henc]
  split
  · rename_i hc
    constructor
    · intro q
      rcases Nat.lt_trichotomy q p with h | h | h
      · have := hlo q h; omega
      · subst h; omega
      · rcases Nat.lt_or_eq_of_le h with h | h
        · have := hhi q h; omega
        · have h : q = p + 1 := by omega
          subst h; omega
    · intro q hq he
      rcases Nat.lt_trichotomy q p with h | h | h
      · have := hlo q h; omega
      · subst h
        rw [hma, hmb] at he
        omega
      · have := hhi q (by omega); omega
  · rename_i hc
    constructor
    · intro q
      rcases Nat.lt_trichotomy q p with h | h | h
      · have := hlo q h; omega
      · subst h; omega
      · rcases Nat.lt_or_eq_of_le h with h | h
        · have := hhi q h; omega
        · have h : q = p + 1 := by omega
          subst h; omega
    · intro q hq he
      rcases Nat.lt_trichotomy q p with h | h | h
      · have := hlo q h; omega
      · omega
      · rcases Nat.lt_or_eq_of_le h with h | h
        · have := hhi q h; omega
        · subst h
          rw [hma, hmb] at he
          omega

theorem mag_inj (f : Fmt) {p q : Nat} (h : mag f p = mag f q) : p = q := (mag_strictMono f).injective h

theorem fval_mk (f : Fmt) {s q : Nat} {z : Int} (hs : s < 2) (hq : q < f.top) (hw : f.top ≤ 2 ^ f.width)
    (h0 : s = 0 → z = mag f q) (h1 : s = 1 → z = -(mag f q : Int)) :
    fval f (s * 2 ^ f.width + q) = some z ∧ s * 2 ^ f.width + q < 2 ^ (f.width + 1) := by
  have hlt : q < 2 ^ f.width := by omega
  have e1 : (s * 2 ^ f.width + q) % 2 ^ f.width = q := by
    rw [Nat.add_comm, Nat.add_mul_mod_self_right, Nat.mod_eq_of_lt hlt]
  have e2 : (s * 2 ^ f.width + q) / 2 ^ f.width = s := by
    rw [Nat.add_comm, Nat.add_mul_div_right _ _ (Nat.two_pow_pos _), Nat.div_eq_of_lt hlt, Nat.zero_add]
  refine ⟨?_, ?_⟩
  · unfold fval
    rw [e1, e2, if_pos hq]
    have : s = 0 ∨ s = 1 := by omega
    rcases this with rfl | rfl
    · simp [h0 rfl]
    · simp [h1 rfl]
  · rw [Nat.pow_succ]
    have : s = 0 ∨ s = 1 := by omega
    rcases this with rfl | rfl <;> omega

theorem fval_split {f : Fmt} {x : Nat} {z : Int} (h : fval f x = some z) :
    x % 2 ^ f.width < f.top ∧ z.natAbs = mag f (x % 2 ^ f.width) ∧
      (x / 2 ^ f.width = 0 → z = mag f (x % 2 ^ f.width)) ∧ (x / 2 ^ f.width ≠ 0 → z = -(mag f (x % 2 ^ f.width) : Int)) := by
  unfold fval at h
  split at h
  · rename_i hlt
    injection h with h
    refine ⟨hlt, ?_, fun h0 => ?_, fun h0 => ?_⟩
    · rw [← h]; split <;> simp
    · rw [← h, if_pos h0]
    · rw [← h, if_neg h0]
  · cases h

theorem signBit {x w : Nat} (h : x < 2 ^ (w + 1)) : x / 2 ^ w < 2 := by
  rw [Nat.pow_succ] at h
  exact Nat.div_lt_of_lt_mul (by omega)

theorem bf16_mag (r : Nat) : mag Flt.bf16 r = mag Flt.f32 (r * 2 ^ 16) := by
  obtain ⟨e, s, h1, h2, h3⟩ := split Flt.bf16 r
  rw [h1, mag_eq Flt.bf16 h2.le h3]
  have e1 : (e * 2 ^ Flt.bf16.man + s) * 2 ^ 16 = e * 2 ^ Flt.f32.man + s * 2 ^ 16 := by
    show (e * 2 ^ 7 + s) * 2 ^ 16 = e * 2 ^ 23 + s * 2 ^ 16
    ring
  have h2' : s < 2 ^ 8 := h2
  rw [e1, mag_eq Flt.f32 (by show _ ≤ 2 ^ 24; omega) (by
    rcases h3 with h | h
    · exact .inl h
    · right; have h : 2 ^ 7 ≤ s := h; show 2 ^ 23 ≤ _; omega)]
  have hu : 2 ^ Flt.bf16.unit = 2 ^ 16 * 2 ^ Flt.f32.unit := by
    rw [show Flt.bf16.unit = 16 + Flt.f32.unit from rfl, Nat.pow_add]
  rw [hu]
  ring

/-! ## The intermediate `float` -/

/-- The types whose numbers all are `float`s. -/
def Narrow32 (dt : DType) : Prop := dt = .f8e4m3 ∨ dt = .f8e5m2 ∨ dt = .bf16 ∨ dt = .f16 ∨ dt = .f32

/-- `f8e4m3` numbers that the kernels read as numbers: below 256 (see `C76_e4m3_host_disagrees`). -/
def Spec.Readable (dt : DType) (z : Int) : Prop := dt = .f8e4m3 → z.natAbs < 256 * one

theorem small_float {c : SmallFmt} (hc : IsSmall c) {f : Fmt} (hm : f.man = c.man) (hu : f.unit = c.unit) (hw : f.width = c.width)
    {x : Nat} {z : Int} (hx : x < 2 ^ (c.width + 1)) (hv : fval f x = some z) (hfin : x % 2 ^ c.width < c.fmt.top) :
    smallToFloat c x < 2 ^ 32 ∧ fval Flt.f32 (smallToFloat c x) = some z := by
  obtain ⟨h1, h2, h3⟩ := C76_widen hc hx hfin
  obtain ⟨g1, g2, g3, g4⟩ := fval_split hv
  have hmag : ∀ p, mag f p = mag c.fmt p := by
    intro p
    have e1 : c.fmt.man = c.man := rfl
    have e2 : c.fmt.unit = c.unit := rfl
    unfold mag
    rw [e1, e2, hm, hu]
  refine ⟨h2, ?_⟩
  have hlt : smallToFloat c x % 2 ^ 31 < Flt.f32.top := by
    by_contra hge
    have hge : Flt.f32.top ≤ smallToFloat c x % 2 ^ 31 := by omega
    have hmono := (mag_strictMono Flt.f32).monotone hge
    rw [h3] at hmono
    have hm2 : mag c.fmt (x % 2 ^ c.width) < mag c.fmt c.fmt.top := mag_strictMono _ hfin
    have : mag c.fmt c.fmt.top ≤ mag Flt.f32 Flt.f32.top := by
      rcases hc with rfl | rfl | rfl <;> decide +kernel
    omega
  unfold fval
  rw [show Flt.f32.width = 31 from rfl, if_pos hlt, h1, h3]
  rw [hw, hmag] at g3 g4
  by_cases h0 : x / 2 ^ c.width = 0
  · rw [if_pos h0, g3 h0]
  · rw [if_neg h0, g4 h0]

/-- The `float` of a narrow type has the same value. -/
theorem asFloat_narrow {src : DType} (hs : Narrow32 src) {x : Nat} {z : Int} (hx : x < 2 ^ bits src) (hv : value src x = some z)
    (hr : Readable src z) : asFloat src x < 2 ^ 32 ∧ fval Flt.f32 (asFloat src x) = some z := by
  rcases hs with rfl | rfl | rfl | rfl | rfl
  · refine small_float (c := cF8E4M3) (f := Flt.f8e4m3) (.inr (.inl rfl)) rfl rfl rfl hx hv ?_
    obtain ⟨_, g2, _, _⟩ := fval_split (f := Flt.f8e4m3) hv
    have hlt := hr rfl
    rw [g2] at hlt
    by_contra hge
    have hge : 120 ≤ x % 2 ^ Flt.f8e4m3.width := Nat.not_lt.mp hge
    have := (mag_strictMono Flt.f8e4m3).monotone hge
    have h256 : mag Flt.f8e4m3 120 = 256 * one := by rw [one_eq]; decide +kernel
    omega
  · exact small_float (c := cF8E5M2) (f := Flt.f8e5m2) (.inr (.inr rfl)) rfl rfl rfl hx hv (fval_split (f := Flt.f8e5m2) hv).1
  · obtain ⟨g1, g2, g3, g4⟩ := fval_split (f := Flt.bf16) hv
    have hx : x < 2 ^ 16 := hx
    have g1 : x % 2 ^ 15 < 255 * 2 ^ 7 := g1
    show x * 2 ^ 16 < 2 ^ 32 ∧ fval Flt.f32 (x * 2 ^ 16) = some z
    have e1 : x * 2 ^ 16 % 2 ^ 31 = x % 2 ^ 15 * 2 ^ 16 := by omega
    have e2 : x * 2 ^ 16 / 2 ^ 31 = x / 2 ^ 15 := by omega
    refine ⟨by omega, ?_⟩
    unfold fval
    rw [show Flt.f32.width = 31 from rfl, e1, e2, ← bf16_mag, if_pos (by show _ < 255 * 2 ^ 23; omega)]
    by_cases h0 : x / 2 ^ 15 = 0
    · rw [if_pos h0, g3 h0]; rfl
    · rw [if_neg h0, g4 h0]; rfl
  · exact small_float (c := cF16) (f := Flt.f16) (.inl rfl) rfl rfl rfl hx hv (fval_split (f := Flt.f16) hv).1
  · exact ⟨hx, hv⟩

/-- The integer types. -/
theorem whole_cases {dt : DType} (h : isWhole dt = true) :
    dt = .u8 ∨ dt = .u16 ∨ dt = .u32 ∨ dt = .u64 ∨ dt = .i8 ∨ dt = .i16 ∨ dt = .i32 ∨ dt = .i64 := by
  cases dt <;> first | (exact absurd h (by decide)) | simp

theorem bmod_eq {w x : Nat} (hw : 0 < w) (hx : x < 2 ^ w) :
    Int.bmod x (2 ^ w) = (if 2 ^ (w - 1) ≤ x then (x : Int) - 2 ^ w else x) := by
  obtain ⟨n, rfl⟩ : ∃ n, w = n + 1 := ⟨w - 1, by omega⟩
  rw [Nat.add_sub_cancel]
  have e : (2 : Nat) ^ (n + 1) = 2 * 2 ^ n := by rw [Nat.pow_succ]; omega
  have e' : (2 : Int) ^ (n + 1) = 2 * ((2 ^ n : Nat) : Int) := by push_cast; rw [pow_succ]; omega
  rw [e', e]
  rw [e] at hx
  generalize 2 ^ n = M at *
  have : (x : Int) % ((2 * M : Nat) : Int) = x := Int.emod_eq_of_lt (by omega) (by omega)
  unfold Int.bmod
  rw [this]
  simp only
  split <;> split <;> omega

theorem whole_eq {dt : DType} (h : isWhole dt = true) {x : Nat} (hx : x < 2 ^ bits dt) :
    whole dt x = intVal dt x ∧ intMin dt ≤ intVal dt x ∧ intVal dt x ≤ intMax dt := by
  have hb : 0 < bits dt := by cases dt <;> decide
  have key : whole dt x = intVal dt x := by
    unfold intVal
    by_cases hs : dt.isInt = true
    · have hw : whole dt x = Int.bmod x (2 ^ bits dt) := by
        rcases whole_cases h with rfl | rfl | rfl | rfl | rfl | rfl | rfl | rfl <;> first | (exact absurd hs (by decide)) | rfl
      rw [hw, bmod_eq hb hx]
      simp [hs]
    · rw [if_neg (fun hc => hs hc.1)]
      rcases whole_cases h with rfl | rfl | rfl | rfl | rfl | rfl | rfl | rfl <;> first | (exact absurd rfl hs) | rfl
  refine ⟨key, ?_⟩
  unfold intVal intMin intMax
  obtain ⟨n, hn⟩ : ∃ n, bits dt = n + 1 := ⟨bits dt - 1, by omega⟩
  rw [hn] at hx ⊢
  have e : (2 : Nat) ^ (n + 1) = 2 * 2 ^ n := by rw [Nat.pow_succ]; omega
  have e' : (2 : Int) ^ (n + 1) = 2 * ((2 ^ n : Nat) : Int) := by push_cast; rw [pow_succ]; omega
  have e2 : (2 : Int) ^ n = ((2 ^ n : Nat) : Int) := by push_cast; rfl
  rw [Nat.add_sub_cancel, e', e2]
  rw [e] at hx
  generalize 2 ^ n = M at *
  cases dt.isInt
  · simp; omega
  · simp only [true_and, if_true]
    split <;> omega

theorem value_whole {dt : DType} (h : isWhole dt = true) (x : Nat) : value dt x = some (whole dt x * one) := by
  rcases whole_cases h with rfl | rfl | rfl | rfl | rfl | rfl | rfl | rfl <;> simp only [value]

/-- Conversion to an integer type is the identity modulo a power of two. -/
theorem toInt_spec {dt : DType} (h : isWhole dt = true) (v : Int) :
    toInt dt v < 2 ^ bits dt ∧ (2 : Int) ^ bits dt ∣ whole dt (toInt dt v) - v ∧
      (intMin dt ≤ v → v ≤ intMax dt → whole dt (toInt dt v) = v) := by
  have hb : 0 < bits dt := by cases dt <;> decide
  have hpos : (0 : Int) < 2 ^ bits dt := by positivity
  have h0 := Int.emod_nonneg v hpos.ne'
  have h1 := Int.emod_lt_of_pos v hpos
  have hlt : toInt dt v < 2 ^ bits dt := by
    unfold toInt
    zify
    rw [Int.toNat_of_nonneg h0]
    exact_mod_cast h1
  obtain ⟨e1, e2, e3⟩ := whole_eq h hlt
  have hdiv : (2 : Int) ^ bits dt ∣ whole dt (toInt dt v) - v := by
    have hd : (2 : Int) ^ bits dt ∣ (toInt dt v : Int) - v := by
      unfold toInt
      rw [Int.toNat_of_nonneg h0]
      exact ⟨-(v / 2 ^ bits dt), by have := Int.mul_ediv_add_emod v (2 ^ bits dt); linarith⟩
    rw [e1]
    unfold intVal
    split
    · have : (toInt dt v : Int) - 2 ^ bits dt - v = (toInt dt v - v) - 2 ^ bits dt := by omega
      rw [this]
      exact Int.dvd_sub hd ⟨1, by omega⟩
    · exact hd
  refine ⟨hlt, hdiv, fun g1 g2 => ?_⟩
  have hw : intMax dt - intMin dt = 2 ^ bits dt - 1 := by
    unfold intMin intMax
    obtain ⟨n, hn⟩ : ∃ n, bits dt = n + 1 := ⟨bits dt - 1, by omega⟩
    rw [hn, Nat.add_sub_cancel, pow_succ]
    split <;> omega
  obtain ⟨k, hk⟩ := hdiv
  rw [e1] at hk ⊢
  have hk0 : k = 0 := by
    generalize (2 : Int) ^ bits dt = M at *
    have : M * k < M * 1 := by omega
    have h3 : M * (-1) < M * k := by omega
    have := lt_of_mul_lt_mul_left this hpos.le
    have := lt_of_mul_lt_mul_left h3 hpos.le
    omega
  rw [hk0] at hk
  omega

theorem signed_enc {f : Fmt} (hw : f.top ≤ 2 ^ f.width) {v : Int} {q : Nat} (hq : q < f.top) {z : Int} (hz : mag f q = z.natAbs)
    (hs : v < 0 ↔ z < 0) (he : enc f z.natAbs 1 = q) :
    fval f ((if v < 0 then 2 ^ f.width else 0) + enc f z.natAbs 1) = some z ∧
      (if v < 0 then 2 ^ f.width else 0) + enc f z.natAbs 1 < 2 ^ (f.width + 1) := by
  rw [he]
  by_cases hv : v < 0
  · have := fval_mk f (s := 1) (q := q) (z := z) (by omega) hq hw (by omega) (by have := hs.mp hv; omega)
    simpa [hv] using this
  · have := fval_mk f (s := 0) (q := q) (z := z) (by omega) hq hw (by have := mt hs.mpr hv; omega) (by omega)
    simpa [hv] using this

/-- An integer that the format can hold is converted exactly. -/
theorem intToFloat_exact {f : Fmt} (hw : f.top ≤ 2 ^ f.width) {v : Int} {q : Nat} (hq : q < f.top)
    (hz : mag f q = (v * one).natAbs) :
    fval f (intToFloat f v) = some (v * one) ∧ intToFloat f v < 2 ^ (f.width + 1) := by
  have hU : (0 : Int) < one := by exact_mod_cast one_pos
  have hn : (v * one).natAbs = v.natAbs * one := by
    rw [Int.natAbs_mul, Int.natAbs_natCast]
  unfold intToFloat
  rw [← one_eq, ← hn]
  refine signed_enc hw hq hz ?_ (by rw [← hz, enc_mag])
  constructor
  · intro h; nlinarith
  · intro h
    by_contra hc
    nlinarith

theorem float_one : enc Flt.f32 (2 ^ 1074) 1 = 0x3F800000 := by decide +kernel

theorem mag_one : mag Flt.f32 0x3F800000 = one := by rw [one_eq]; decide +kernel

theorem value_one : fval Flt.f32 0x3F800000 = some (one : Int) := by
  have := fval_mk Flt.f32 (s := 0) (q := 0x3F800000) (z := one) (by decide) (by decide) (by decide) (fun _ => by rw [mag_one])
    (fun h => by omega)
  simpa using this.1

theorem value_zero : fval Flt.f32 0 = some 0 := by
  have := fval_mk Flt.f32 (s := 0) (q := 0) (z := 0) (by decide) (by decide) (by decide) (fun _ => by rw [mag_zero]; rfl)
    (fun h => by omega)
  simpa using this.1

theorem asFloat_bool (x : Nat) : asFloat .bool x = if x = 0 then 0 else 0x3F800000 := by
  unfold asFloat
  simp only [float_one]
  by_cases h : x = 0 <;> simp [h]

/-- The `float` is exact whenever the value is one. -/
theorem asFloat_exact {src : DType} {x : Nat} {z : Int} (hx : x < 2 ^ bits src) (hv : value src x = some z)
    (hr : Readable src z) {q : Nat} (hq : q < Flt.f32.top) (hz : mag Flt.f32 q = z.natAbs) :
    asFloat src x < 2 ^ 32 ∧ fval Flt.f32 (asFloat src x) = some z := by
  by_cases hw : isWhole src = true
  · have e1 := value_whole hw x
    rw [hv, (whole_eq hw hx).1] at e1
    injection e1 with e1
    have h := intToFloat_exact (f := Flt.f32) (v := intVal src x) (by decide) hq (by rw [hz, e1])
    have ha : asFloat src x = intToFloat Flt.f32 (intVal src x) := by
      rcases whole_cases hw with rfl | rfl | rfl | rfl | rfl | rfl | rfl | rfl <;> rfl
    rw [ha, e1]
    exact ⟨h.2, h.1⟩
  · by_cases hn : Narrow32 src
    · exact asFloat_narrow hn hx hv hr
    · have hc : src = .bool ∨ src = .f64 := by
        cases src <;> simp_all [isWhole, DType.isInt, DType.isUint, Narrow32]
      rcases hc with rfl | rfl
      · simp only [value] at hv
        rw [← hv]
        rw [asFloat_bool]
        by_cases h0 : x = 0
        · rw [if_pos h0, if_pos h0]
          exact ⟨by decide, value_zero⟩
        · rw [if_neg h0, if_neg h0]
          exact ⟨by decide, value_one⟩
      · obtain ⟨g1, g2, g3, g4⟩ := fval_split (f := Flt.f64) hv
        have hs := signBit (w := 63) hx
        have he : enc Flt.f32 (mag Flt.f64 (x % 2 ^ 63)) 1 = q := by
          rw [show mag Flt.f64 (x % 2 ^ 63) = mag Flt.f32 q by rw [hz, g2]; rfl, enc_mag]
        have hD : doubleToFloat x = x / 2 ^ 63 * 2 ^ 31 + q := by
          unfold doubleToFloat
          simp only
          rw [if_pos (show x % 2 ^ 63 < Flt.f64.top from g1), he, Nat.min_eq_left hq.le]
        show doubleToFloat x < 2 ^ 32 ∧ fval Flt.f32 (doubleToFloat x) = some z
        have h := fval_mk Flt.f32 (s := x / 2 ^ 63) (q := q) (z := z) hs hq (by decide)
          (by intro h0; rw [g3 h0, hz, g2]) (by intro h0; rw [g4 (by rw [show Flt.f64.width = 63 from rfl, h0]; omega), hz, g2])
        rw [hD]
        exact ⟨h.2, h.1⟩

/-! ## Exact conversions -/

/-- Formats of the targets `f16`, `f8e4m3` and `f8e5m2` in the kernels. -/
def smallOf : DType → Option SmallFmt
  | .f16 => some cF16
  | .f8e4m3 => some cF8E4M3
  | .f8e5m2 => some cF8E5M2
  | _ => none

/-- Where the conversion to the small formats works: zero, and the magnitudes between the smallest normal and the largest finite
number of the format in the kernels. -/
def Spec.Writable (dst : DType) (z : Int) : Prop :=
  ∀ c, smallOf dst = some c → z = 0 ∨ (2 ^ c.man * 2 ^ c.unit ≤ z.natAbs ∧ z.natAbs ≤ mag c.fmt (c.fmt.top - 1))

theorem toSmall_exact {c : SmallFmt} (hc : IsSmall c) {f : Fmt} (hm : f.man = c.man) (hu : f.unit = c.unit) (hw : f.width = c.width)
    (ht : c.fmt.top ≤ f.top) (htw : f.top ≤ 2 ^ f.width) {b : Nat} {z : Int} (hb : b < 2 ^ 32) (hv : fval Flt.f32 b = some z)
    (hz : z = 0 ∨ (2 ^ c.man * 2 ^ c.unit ≤ z.natAbs ∧ z.natAbs ≤ mag c.fmt (c.fmt.top - 1)))
    {q : Nat} (hq : mag f q = z.natAbs) : fval f (floatToSmall c b) = some z := by
  obtain ⟨g1, g2, g3, g4⟩ := fval_split hv
  rw [show Flt.f32.width = 31 from rfl] at g1 g2 g3 g4
  have hmag : ∀ p, mag f p = mag c.fmt p := by
    intro p
    have e1 : c.fmt.man = c.man := rfl
    have e2 : c.fmt.unit = c.unit := rfl
    unfold mag
    rw [e1, e2, hm, hu]
  rcases hz with rfl | ⟨h1, h2⟩
  · have hp : b % 2 ^ 31 = 0 := by
      by_contra hne
      have := mag_pos Flt.f32 (Nat.pos_of_ne_zero hne)
      have hp := Nat.two_pow_pos Flt.f32.unit
      simp only [Int.natAbs_zero] at g2
      omega
    have : floatToSmall c b = 0 := by
      unfold floatToSmall
      simp only [hp, if_true]
    rw [this]
    have htop : 0 < f.top := by rcases hc with rfl | rfl | rfl <;> exact Nat.lt_of_lt_of_le (by decide) ht
    have := fval_mk f (s := 0) (q := 0) (z := 0) (by decide) htop htw (fun _ => by rw [mag_zero]; rfl) (fun h => by omega)
    simpa using this.1
  · rw [g2] at h1 h2
    obtain ⟨r, e1, e2, e3, e4, _⟩ := C76_narrow_partial hc hb h1 h2
    have hrq : r = q := by
      rw [← g2, ← hq, hmag] at e4
      rcases e4 with ⟨a1, a2⟩ | ⟨a0, a1, a2⟩
      · have b1 := (mag_strictMono c.fmt).le_iff_le.mp a1
        have b2 := (mag_strictMono c.fmt).lt_iff_lt.mp a2
        omega
      · have b1 := (mag_strictMono c.fmt).lt_iff_lt.mp a1
        have b2 := (mag_strictMono c.fmt).le_iff_le.mp a2
        omega
    have hs : b / 2 ^ 31 < 2 := by omega
    rw [e1, ← hw]
    refine (fval_mk f hs (by omega) htw (fun h0 => ?_) (fun h0 => ?_)).1
    · rw [g3 h0, ← g2, ← hq, hrq]
    · rw [g4 (by omega), ← g2, ← hq, hrq]

theorem toBf16_exact {b : Nat} {z : Int} (hb : b < 2 ^ 32) (hv : fval Flt.f32 b = some z) {q : Nat} (hq : q < Flt.bf16.top)
    (hz : mag Flt.bf16 q = z.natAbs) : fval Flt.bf16 (floatToBf16 b) = some z := by
  obtain ⟨g1, g2, g3, g4⟩ := fval_split hv
  rw [show Flt.f32.width = 31 from rfl] at g1 g2 g3 g4
  have hp : b % 2 ^ 31 = q * 2 ^ 16 := mag_inj Flt.f32 (by rw [← g2, ← hz, bf16_mag])
  have e1 : floatToBf16 b = b / 2 ^ 31 * 2 ^ 15 + q := by unfold floatToBf16; omega
  rw [e1]
  refine (fval_mk Flt.bf16 (s := b / 2 ^ 31) (by omega) hq (by decide) (fun h0 => ?_) (fun h0 => ?_)).1
  · rw [g3 h0, hp, ← bf16_mag]
  · rw [g4 (by omega), hp, ← bf16_mag]

theorem toDouble_exact {b : Nat} {z : Int} (hb : b < 2 ^ 32) (hv : fval Flt.f32 b = some z) {q : Nat} (hq : q < Flt.f64.top)
    (hz : mag Flt.f64 q = z.natAbs) : fval Flt.f64 (floatToDouble b) = some z := by
  obtain ⟨g1, g2, g3, g4⟩ := fval_split hv
  rw [show Flt.f32.width = 31 from rfl] at g1 g2 g3 g4
  have e1 : floatToDouble b = b / 2 ^ 31 * 2 ^ 63 + q := by
    unfold floatToDouble
    simp only
    rw [if_pos g1, ← g2, ← hz, enc_mag]
  rw [e1]
  refine (fval_mk Flt.f64 (s := b / 2 ^ 31) (by omega) hq (by decide) (fun h0 => ?_) (fun h0 => ?_)).1
  · rw [g3 h0, ← g2, hz]
  · rw [g4 (by omega), ← g2, hz]

/-- Dropping the fraction of a finite number, counted in multiples of `2 ^ -1074`. -/
def Spec.trunc (z : Int) : Int := z.tdiv one

theorem floatToInt_spec {f : Fmt} {dt : DType} {b : Nat} {z : Int} (hv : fval f b = some z) :
    floatToInt f dt b = if intMin dt ≤ trunc z ∧ trunc z ≤ intMax dt then .ok (toInt dt (trunc z)) else .ub := by
  obtain ⟨g1, g2, g3, g4⟩ := fval_split hv
  have hval : (if b / 2 ^ f.width = 0 then ((mag f (b % 2 ^ f.width) / 2 ^ 1074 : Nat) : Int)
      else -((mag f (b % 2 ^ f.width) / 2 ^ 1074 : Nat) : Int)) = trunc z := by
    rw [← one_eq]
    unfold trunc
    by_cases h0 : b / 2 ^ f.width = 0
    · rw [if_pos h0, g3 h0, Int.ofNat_tdiv]
    · rw [if_neg h0, g4 h0, Int.neg_tdiv, Int.ofNat_tdiv]
  unfold floatToInt
  simp only
  rw [hval]
  simp only [g1, true_and]

theorem fval_zero {f : Fmt} {b : Nat} {z : Int} (hv : fval f b = some z) : b % 2 ^ f.width = 0 ↔ z = 0 := by
  obtain ⟨g1, g2, g3, g4⟩ := fval_split hv
  constructor
  · intro h
    rw [h, mag_zero] at g2
    omega
  · intro h
    by_contra hne
    have := mag_pos f (Nat.pos_of_ne_zero hne)
    have hp := Nat.two_pow_pos f.unit
    rw [h] at g2
    simp only [Int.natAbs_zero] at g2
    omega

theorem src_cases (src : DType) : src = .bool ∨ src = .f64 ∨ Narrow32 src ∨ isWhole src = true := by
  cases src <;> simp [Narrow32, isWhole, DType.isInt, DType.isUint]

theorem whole_zero {dt : DType} (h : isWhole dt = true) {x : Nat} (hx : x < 2 ^ bits dt) : whole dt x = 0 ↔ x = 0 := by
  rw [(whole_eq h hx).1]
  unfold intVal
  have : ((2 ^ bits dt : Nat) : Int) = 2 ^ bits dt := by push_cast; rfl
  rw [← this]
  have h2 := Nat.two_pow_pos (bits dt - 1)
  generalize 2 ^ bits dt = M at *
  split
  · rename_i h; omega
  · omega

/-- **C96, conversion to `bool`**: true exactly for numbers other than zero. -/
theorem C96_bool {src : DType} {x : Nat} {z : Int} (hx : x < 2 ^ bits src) (hv : value src x = some z) (hr : Readable src z) :
    castElem src .bool x = .ok (if z = 0 then 0 else 1) := by
  show Res.ok (castBool src x) = _
  congr 1
  rcases src_cases src with rfl | rfl | hn | hw
  · simp only [value] at hv
    injection hv with hv
    have hp := one_pos
    simp only [castBool]
    by_cases h0 : x = 0
    · rw [if_pos h0, if_pos (by rw [← hv, if_pos h0])]
    · rw [if_neg h0, if_neg (by rw [← hv, if_neg h0]; omega)]
  · have := fval_zero (f := Flt.f64) hv
    rw [show Flt.f64.width = 63 from rfl] at this
    simp only [castBool, this]
  · have h := (asFloat_narrow hn hx hv hr).2
    have := fval_zero h
    rw [show Flt.f32.width = 31 from rfl] at this
    have hc : castBool src x = if asFloat src x % 2 ^ 31 = 0 then 0 else 1 := by
      rcases hn with rfl | rfl | rfl | rfl | rfl <;> rfl
    rw [hc]
    simp only [this]
  · have e := value_whole hw x
    rw [hv] at e
    injection e with e
    have hc : castBool src x = if x = 0 then 0 else 1 := by
      rcases whole_cases hw with rfl | rfl | rfl | rfl | rfl | rfl | rfl | rfl <;> rfl
    have hp := one_pos
    have : z = 0 ↔ x = 0 := by
      rw [e, ← whole_zero hw hx, mul_eq_zero]
      constructor
      · rintro (h | h)
        · exact h
        · omega
      · exact Or.inl
    rw [hc]
    simp only [this]

theorem castInt_float {src dst : DType} (hw : isWhole dst = true) {x : Nat} {z : Int} (hx : x < 2 ^ bits src)
    (hv : value src x = some z) (hr : Readable src z) (hs : src = .f64 ∨ Narrow32 src) :
    castElem src dst x = if intMin dst ≤ trunc z ∧ trunc z ≤ intMax dst then .ok (toInt dst (trunc z)) else .ub := by
  have hc : castElem src dst x = castInt src dst x := by
    rcases whole_cases hw with rfl | rfl | rfl | rfl | rfl | rfl | rfl | rfl <;> rfl
  rw [hc]
  rcases hs with rfl | hn
  · exact floatToInt_spec (f := Flt.f64) hv
  · have hc : castInt src dst x = floatToInt Flt.f32 dst (asFloat src x) := by
      rcases hn with rfl | rfl | rfl | rfl | rfl <;> rfl
    rw [hc]
    exact floatToInt_spec (asFloat_narrow hn hx hv hr).2

/-- **C96, from a float to an integer type**: the fraction is dropped if the rest fits; otherwise the behaviour is undefined. -/
theorem C96_float_to_int {src dst : DType} (hw : isWhole dst = true) {x : Nat} {z : Int} (hx : x < 2 ^ bits src)
    (hv : value src x = some z) (hr : Readable src z) (hs : src.isFloat = true) :
    (intMin dst ≤ trunc z → trunc z ≤ intMax dst → ∃ r, castElem src dst x = .ok r ∧ r < 2 ^ bits dst ∧ whole dst r = trunc z) ∧
    (¬ (intMin dst ≤ trunc z ∧ trunc z ≤ intMax dst) → castElem src dst x = .ub) := by
  have hs : src = .f64 ∨ Narrow32 src := by
    cases src <;> simp_all [DType.isFloat, Narrow32]
  rw [castInt_float hw hx hv hr hs]
  constructor
  · intro h1 h2
    rw [if_pos ⟨h1, h2⟩]
    obtain ⟨t1, _, t3⟩ := toInt_spec hw (trunc z)
    exact ⟨_, rfl, t1, t3 h1 h2⟩
  · intro h
    rw [if_neg h]

theorem castInt_whole {src dst : DType} (hs : isWhole src = true) (hw : isWhole dst = true) (x : Nat) :
    castElem src dst x = .ok (toInt dst (intVal src x)) := by
  rcases whole_cases hw with rfl | rfl | rfl | rfl | rfl | rfl | rfl | rfl <;>
    rcases whole_cases hs with rfl | rfl | rfl | rfl | rfl | rfl | rfl | rfl <;> rfl

/-- **C96, between integer types**: the same number modulo `2 ^ width`, the number itself if it fits. -/
theorem C96_int_to_int {src dst : DType} (hs : isWhole src = true) (hw : isWhole dst = true) {x : Nat} (hx : x < 2 ^ bits src) :
    ∃ r, castElem src dst x = .ok r ∧ r < 2 ^ bits dst ∧ (2 : Int) ^ bits dst ∣ whole dst r - whole src x ∧
      (intMin dst ≤ whole src x → whole src x ≤ intMax dst → whole dst r = whole src x) := by
  rw [castInt_whole hs hw, (whole_eq hs hx).1]
  obtain ⟨t1, t2, t3⟩ := toInt_spec hw (intVal src x)
  exact ⟨_, rfl, t1, t2, t3⟩

/-- **C96, exact conversions**: a number that the new type has is kept, from each of the fifteen types to each of them.
Missing: `f8e4m3` numbers from 256 on, and subnormal numbers of the types `f16`, `f8e4m3` and `f8e5m2` as targets; there the
conversion is wrong (`C96_full_false`, `C96_e4m3_false`). -/
theorem C96_exact_partial {src dst : DType} {x q : Nat} {z : Int} (hx : x < 2 ^ bits src) (hv : value src x = some z)
    (hq : q < 2 ^ bits dst) (hrep : value dst q = some z) (hr : Readable src z) (hwr : Writable dst z) :
    ∃ r, castElem src dst x = .ok r ∧ value dst r = some z := by
  have hp : (0 : Int) < one := by exact_mod_cast one_pos
  -- targets that go through a `float`
  have viaFloat : Narrow32 dst → asFloat src x < 2 ^ 32 ∧ fval Flt.f32 (asFloat src x) = some z := by
    intro hd
    have hrd : Readable dst z := by
      rintro rfl
      have h448 : mag cF8E4M3.fmt (cF8E4M3.fmt.top - 1) < 256 * one := by rw [one_eq]; decide +kernel
      rcases hwr cF8E4M3 rfl with rfl | ⟨_, h⟩
      · simp only [Int.natAbs_zero]; omega
      · omega
    obtain ⟨_, h2⟩ := asFloat_narrow hd hq hrep hrd
    obtain ⟨g1, g2, _, _⟩ := fval_split h2
    exact asFloat_exact hx hv hr g1 g2.symm
  rcases src_cases dst with rfl | rfl | hd | hw
  · refine ⟨_, C96_bool hx hv hr, ?_⟩
    simp only [value] at hrep ⊢
    injection hrep with hrep
    congr 1
    by_cases hz : z = 0
    · simp [hz]
    · rw [if_neg hz, if_neg (by decide), ← hrep, if_neg]
      rintro rfl
      exact hz (by rw [← hrep, if_pos rfl])
  · obtain ⟨g1, g2, _, _⟩ := fval_split (f := Flt.f64) hrep
    rcases src_cases src with rfl | rfl | hn | hs
    · refine ⟨_, rfl, ?_⟩
      have hb : asFloat .bool x < 2 ^ 32 ∧ fval Flt.f32 (asFloat .bool x) = some z := by
        simp only [value] at hv
        rw [← hv, asFloat_bool]
        by_cases h0 : x = 0
        · rw [if_pos h0, if_pos h0]; exact ⟨by decide, value_zero⟩
        · rw [if_neg h0, if_neg h0]; exact ⟨by decide, value_one⟩
      exact toDouble_exact hb.1 hb.2 g1 g2.symm
    · exact ⟨x, rfl, hv⟩
    · obtain ⟨h1, h2⟩ := asFloat_narrow hn hx hv hr
      refine ⟨floatToDouble (asFloat src x), ?_, toDouble_exact h1 h2 g1 g2.symm⟩
      rcases hn with rfl | rfl | rfl | rfl | rfl <;> rfl
    · have e := value_whole hs x
      rw [hv, (whole_eq hs hx).1] at e
      injection e with e
      refine ⟨intToFloat Flt.f64 (intVal src x), ?_, ?_⟩
      · rcases whole_cases hs with rfl | rfl | rfl | rfl | rfl | rfl | rfl | rfl <;> rfl
      · rw [e]
        exact (intToFloat_exact (f := Flt.f64) (by decide) g1 (by rw [← e, g2])).1
  · obtain ⟨h1, h2⟩ := viaFloat hd
    by_cases hsd : src = dst
    · subst hsd
      refine ⟨x, ?_, hv⟩
      rcases hd with rfl | rfl | rfl | rfl | rfl <;> rfl
    · rcases hd with rfl | rfl | rfl | rfl | rfl
      · obtain ⟨_, g2, _, _⟩ := fval_split (f := Flt.f8e4m3) hrep
        refine ⟨floatToSmall cF8E4M3 (asFloat src x), by simp [castElem, hsd], ?_⟩
        exact toSmall_exact (c := cF8E4M3) (f := Flt.f8e4m3) (.inr (.inl rfl)) rfl rfl rfl (by decide) (by decide) h1 h2
          (hwr _ rfl) g2.symm
      · obtain ⟨_, g2, _, _⟩ := fval_split (f := Flt.f8e5m2) hrep
        refine ⟨floatToSmall cF8E5M2 (asFloat src x), by simp [castElem, hsd], ?_⟩
        exact toSmall_exact (c := cF8E5M2) (f := Flt.f8e5m2) (.inr (.inr rfl)) rfl rfl rfl (by decide) (by decide) h1 h2
          (hwr _ rfl) g2.symm
      · obtain ⟨g1, g2, _, _⟩ := fval_split (f := Flt.bf16) hrep
        exact ⟨floatToBf16 (asFloat src x), by simp [castElem, hsd], toBf16_exact h1 h2 g1 g2.symm⟩
      · obtain ⟨_, g2, _, _⟩ := fval_split (f := Flt.f16) hrep
        refine ⟨floatToSmall cF16 (asFloat src x), by simp [castElem, hsd], ?_⟩
        exact toSmall_exact (c := cF16) (f := Flt.f16) (.inl rfl) rfl rfl rfl (by decide) (by decide) h1 h2
          (hwr _ rfl) g2.symm
      · exact ⟨_, rfl, h2⟩
  · have e := value_whole hw q
    rw [hrep] at e
    injection e with e
    obtain ⟨k1, k2, k3⟩ := whole_eq hw hq
    rw [← k1] at k2 k3
    have hcan : ∀ v, v * (one : Int) = z → whole dst q = v := by
      intro v h
      exact mul_right_cancel₀ hp.ne' (by rw [← e, h])
    rcases src_cases src with rfl | rfl | hn | hs
    · refine ⟨if x ≠ 0 then 1 else 0, ?_, ?_⟩
      · rcases whole_cases hw with rfl | rfl | rfl | rfl | rfl | rfl | rfl | rfl <;> rfl
      · rw [value_whole hw]
        simp only [value] at hv
        rw [← hv]
        have h1 : whole dst 1 = 1 := by rcases whole_cases hw with rfl | rfl | rfl | rfl | rfl | rfl | rfl | rfl <;> decide
        have h0 : whole dst 0 = 0 := by rcases whole_cases hw with rfl | rfl | rfl | rfl | rfl | rfl | rfl | rfl <;> decide
        by_cases hz : x = 0
        · simp [hz, h0]
        · simp [hz, h1]
    · have ht : trunc z = whole dst q := by rw [e]; exact Int.mul_tdiv_cancel _ hp.ne'
      obtain ⟨r, r1, _, r3⟩ := (C96_float_to_int (dst := dst) hw hx hv hr rfl).1 (by rw [ht]; exact k2) (by rw [ht]; exact k3)
      exact ⟨r, r1, by rw [value_whole hw, r3, ht, e]⟩
    · have ht : trunc z = whole dst q := by rw [e]; exact Int.mul_tdiv_cancel _ hp.ne'
      have hf : src.isFloat = true := by rcases hn with rfl | rfl | rfl | rfl | rfl <;> rfl
      obtain ⟨r, r1, _, r3⟩ := (C96_float_to_int (dst := dst) hw hx hv hr hf).1 (by rw [ht]; exact k2) (by rw [ht]; exact k3)
      exact ⟨r, r1, by rw [value_whole hw, r3, ht, e]⟩
    · have e2 := value_whole hs x
      rw [hv] at e2
      injection e2 with e2
      have hwe := hcan _ e2.symm
      obtain ⟨r, r1, _, _, r4⟩ := C96_int_to_int hs hw hx
      exact ⟨r, r1, by rw [value_whole hw, r4 (by rw [← hwe]; exact k2) (by rw [← hwe]; exact k3), e2]⟩

theorem intToFloat_nearest {f : Fmt} {src : DType} (hw : isWhole src = true) {x : Nat} {z : Int} (hx : x < 2 ^ bits src)
    (hv : value src x = some z) {P : Nat} (hP : P ≤ f.top) (hm : mag f P = 2 ^ 64 * one) :
    ∃ s q, intToFloat f (intVal src x) = s * 2 ^ f.width + min q f.top ∧ (0 < z → s = 0) ∧ (z < 0 → s = 1) ∧
      Nearest f q z.natAbs ∧
      (∀ p, p ≠ q → ((mag f p : Int) - z.natAbs).natAbs = ((mag f q : Int) - z.natAbs).natAbs → q % 2 = 0) := by
  obtain ⟨n1, n2⟩ := enc_nearest f z.natAbs
  have e := value_whole hw x
  rw [hv, (whole_eq hw hx).1] at e
  injection e with e
  have hp : (0 : Int) < one := by exact_mod_cast one_pos
  have hn : z.natAbs = (intVal src x).natAbs * 2 ^ 1074 := by
    rw [e, Int.natAbs_mul, Int.natAbs_natCast, one_eq]
  have hsgn : intVal src x < 0 ↔ z < 0 := by
    rw [e]
    constructor
    · intro h; nlinarith
    · intro h; by_contra hc; nlinarith
  have hsmall : enc f z.natAbs 1 ≤ f.top := by
    by_contra hgt
    have hz64 : z.natAbs ≤ mag f P := by
      rw [hm, hn, ← one_eq]
      refine Nat.mul_le_mul_right _ ?_
      obtain ⟨_, k2, k3⟩ := whole_eq hw hx
      revert k2 k3
      generalize intVal src x = v
      rcases whole_cases hw with rfl | rfl | rfl | rfl | rfl | rfl | rfl | rfl <;>
      · simp only [intMin, intMax, bits, DType.sizeInBytes, DType.isInt]
        norm_num
        omega
    have h1 := n1 P
    have h2 : mag f P < mag f (enc f z.natAbs 1) := mag_strictMono _ (by omega)
    omega
  refine ⟨if intVal src x < 0 then 1 else 0, enc f z.natAbs 1, ?_, ?_, ?_, n1, n2⟩
  · rw [Nat.min_eq_left hsmall]
    unfold intToFloat
    rw [← hn]
    split <;> simp
  · intro h; rw [if_neg (by rw [hsgn]; omega)]
  · intro h; rw [if_pos (hsgn.mpr h)]

/-- **C96, rounding to `float`**: nearest, ties to even; too large is infinite. -/
theorem C96_to_f32 {src : DType} {x : Nat} {z : Int} (hs : src = .f64 ∨ isWhole src = true) (hx : x < 2 ^ bits src)
    (hv : value src x = some z) :
    ∃ s q, castElem src .f32 x = .ok (s * 2 ^ 31 + min q Flt.f32.top) ∧ (0 < z → s = 0) ∧ (z < 0 → s = 1) ∧
      Nearest Flt.f32 q z.natAbs ∧
      (∀ p, p ≠ q → ((mag Flt.f32 p : Int) - z.natAbs).natAbs = ((mag Flt.f32 q : Int) - z.natAbs).natAbs → q % 2 = 0) := by
  rcases hs with rfl | hw
  · obtain ⟨n1, n2⟩ := enc_nearest Flt.f32 z.natAbs
    obtain ⟨g1, g2, g3, g4⟩ := fval_split (f := Flt.f64) hv
    rw [show Flt.f64.width = 63 from rfl] at g1 g2 g3 g4
    refine ⟨x / 2 ^ 63, enc Flt.f32 z.natAbs 1, ?_, ?_, ?_, n1, n2⟩
    · show Res.ok (doubleToFloat x) = _
      congr 1
      unfold doubleToFloat
      simp only
      rw [if_pos g1, g2]
    · intro h
      by_contra hne
      have := g4 hne
      omega
    · intro h
      have := signBit (w := 63) hx
      by_contra hne
      have := g3 (by omega)
      omega
  · obtain ⟨s, q, h1, h2⟩ := intToFloat_nearest (f := Flt.f32) hw hx hv (P := 0x5F800000) (by decide)
      (by rw [one_eq]; decide +kernel)
    refine ⟨s, q, ?_, h2⟩
    have hc : castElem src .f32 x = .ok (intToFloat Flt.f32 (intVal src x)) := by
      rcases whole_cases hw with rfl | rfl | rfl | rfl | rfl | rfl | rfl | rfl <;> rfl
    rw [hc, h1]
    rfl

/-- **C96, integers to `double`**: rounded to nearest, ties to even.  (From every other type the number is kept:
`C96_exact_partial`.) -/
theorem C96_to_f64 {src : DType} {x : Nat} {z : Int} (hw : isWhole src = true) (hx : x < 2 ^ bits src)
    (hv : value src x = some z) :
    ∃ s q, castElem src .f64 x = .ok (s * 2 ^ 63 + min q Flt.f64.top) ∧ (0 < z → s = 0) ∧ (z < 0 → s = 1) ∧
      Nearest Flt.f64 q z.natAbs ∧
      (∀ p, p ≠ q → ((mag Flt.f64 p : Int) - z.natAbs).natAbs = ((mag Flt.f64 q : Int) - z.natAbs).natAbs → q % 2 = 0) := by
  obtain ⟨s, q, h1, h2⟩ := intToFloat_nearest (f := Flt.f64) hw hx hv (P := 0x43F0000000000000) (by decide)
    (by rw [one_eq]; decide +kernel)
  refine ⟨s, q, ?_, h2⟩
  have hc : castElem src .f64 x = .ok (intToFloat Flt.f64 (intVal src x)) := by
    rcases whole_cases hw with rfl | rfl | rfl | rfl | rfl | rfl | rfl | rfl <;> rfl
  rw [hc, h1]
  rfl

/-- **C96, unchanged type**: the element is copied. -/
theorem castElem_self {dt : DType} {x : Nat} (hx : x < 2 ^ bits dt) (hb : dt = .bool → x ≤ 1) : castElem dt dt x = .ok x := by
  rcases src_cases dt with rfl | rfl | hn | hw
  · have := hb rfl
    show Res.ok (if x = 0 then 0 else 1) = _
    congr 1
    split <;> omega
  · rfl
  · rcases hn with rfl | rfl | rfl | rfl | rfl <;> rfl
  · rw [castInt_whole hw hw]
    congr 1
    unfold toInt intVal
    have : ((2 ^ bits dt : Nat) : Int) = 2 ^ bits dt := by push_cast; rfl
    rw [← this]
    split
    · rw [Int.sub_emod, Int.emod_self, Int.sub_zero, Int.emod_emod_of_dvd _ (dvd_refl _), Int.emod_eq_of_lt (by omega) (by omega)]
      rfl
    · rw [Int.emod_eq_of_lt (by omega) (by omega)]
      rfl

/-- **C96, infinities and not-a-numbers** between `float` and `double`, with their sign. -/
theorem C96_nonfinite {b : Nat} :
    (b % 2 ^ 63 = Flt.f64.top → castElem .f64 .f32 b = .ok (b / 2 ^ 63 * 2 ^ 31 + Flt.f32.top)) ∧
    (b % 2 ^ 31 = Flt.f32.top → castElem .f32 .f64 b = .ok (b / 2 ^ 31 * 2 ^ 63 + Flt.f64.top)) ∧
    (Flt.f64.top < b % 2 ^ 63 → ∃ n, castElem .f64 .f32 b = .ok (b / 2 ^ 63 * 2 ^ 31 + n) ∧ Flt.f32.top < n ∧ n < 2 ^ 31) ∧
    (Flt.f32.top < b % 2 ^ 31 → ∃ n, castElem .f32 .f64 b = .ok (b / 2 ^ 31 * 2 ^ 63 + n) ∧ Flt.f64.top < n ∧ n < 2 ^ 63) := by
  refine ⟨fun h => ?_, fun h => ?_, fun h => ⟨Flt.f32.top + (2 ^ 22 ||| (b % 2 ^ 63 % 2 ^ 52 / 2 ^ 29)), ?_, ?_, ?_⟩,
    fun h => ⟨Flt.f64.top + (2 ^ 51 ||| (b % 2 ^ 31 % 2 ^ 23 * 2 ^ 29)), ?_, ?_, ?_⟩⟩
  · show Res.ok (doubleToFloat b) = _
    unfold doubleToFloat
    simp only [h, if_neg (Nat.lt_irrefl _), if_true]
  · show Res.ok (floatToDouble b) = _
    unfold floatToDouble
    simp only [h, if_neg (Nat.lt_irrefl _), if_true]
  · show Res.ok (doubleToFloat b) = _
    unfold doubleToFloat
    simp only
    rw [if_neg (by omega), if_neg (by omega)]
  · have := Nat.left_le_or (n := 2 ^ 22) (m := b % 2 ^ 63 % 2 ^ 52 / 2 ^ 29)
    omega
  · have := Nat.or_lt_two_pow (x := 2 ^ 22) (y := b % 2 ^ 63 % 2 ^ 52 / 2 ^ 29) (n := 23) (by decide) (by omega)
    have : Flt.f32.top = 2 ^ 31 - 2 ^ 23 := rfl
    omega
  · show Res.ok (floatToDouble b) = _
    unfold floatToDouble
    simp only
    rw [if_neg (by omega), if_neg (by omega)]
  · have := Nat.left_le_or (n := 2 ^ 51) (m := b % 2 ^ 31 % 2 ^ 23 * 2 ^ 29)
    omega
  · have := Nat.or_lt_two_pow (x := 2 ^ 51) (y := b % 2 ^ 31 % 2 ^ 23 * 2 ^ 29) (n := 52) (by decide) (by omega)
    have : Flt.f64.top = 2 ^ 63 - 2 ^ 52 := rfl
    omega

example : castElem .f64 .f32 0xFFF0000000000001 = .ok 0xFFC00000 ∧ castElem .f32 .f64 0x7F800001 = .ok 0x7FF8000020000000 := by
  decide +kernel

/-! ## Whole tensors -/

theorem castKernel_ok {f : α → Res β} {t : Tensor α} {xs : List α} {zs : List β} (ht : t.WF) (hx : t.HasValues xs)
    (ho : t.dims ≠ [] ∨ t.layout.offset = 0)
    (hz : zs.length = numel t.dims) (hf : ∀ i x (hi : i < zs.length), xs[i]? = some x → f x = .ok zs[i]) (cores : Nat)
    (buf : List β) (hb : buf.length = numel t.dims) :
    castKernel cores f t.storage (unaryMetadata t.layout t.layout) buf = .ok zs := by
  have hxl := hx.1
  have hoff : (if 0 < t.layout.dims.length then t.layout.offset else 0) = t.layout.offset := by
    rcases ho with h | h
    · rw [if_pos (List.length_pos_iff.mpr h)]
    · rw [h, ite_self]
  unfold castKernel
  rw [decodeUnary_unaryMetadata ht.1, hoff]
  simp only [Res.ok_bind, Layout.size, shapeSize_eq]
  have hz' : zs.length = numel t.layout.dims := hz
  have hb' : buf.length = numel t.layout.dims := hb
  split
  · rename_i hc
    have hv : ∀ i (hi : i < zs.length), ((readC t.storage (t.layout.offset + i)).bind f) = .ok zs[i] := by
      intro i hi
      rw [HasValues.readC_cont ht hx hc (by omega), Res.ok_bind]
      exact hf i _ hi (List.getElem?_eq_getElem (by omega))
    split
    · rename_i hT
      exact runChunks_list (getOptimalThreads_pos hT) hz' hb' hv
    · exact runLoop_list hz' hv
  · refine runLoop_list hz' fun i hi => ?_
    rw [show t.layout.dims = t.dims from rfl, HasValues.readC_strided ht hx (by omega), Res.ok_bind]
    exact hf i _ hi (List.getElem?_eq_getElem (by omega))

theorem storageContiguous_ok {t : Tensor α} (ht : t.WF) (ho : t.dims ≠ [] ∨ t.layout.offset = 0) :
    ∃ s, Tensor.storageContiguous t.storage t.layout = .ok s ∧
      ∀ idx, InRange idx t.dims → s[rowMajor t.dims idx]? = t.elem idx := by
  unfold Tensor.storageContiguous
  by_cases hc : (t.layout.isContiguous && t.layout.offset == 0) = true
  · rw [if_pos hc]
    simp only [Bool.and_eq_true, beq_iff_eq] at hc
    have hs := (isContiguous_iff ht.1).mp hc.1
    refine ⟨_, rfl, fun idx _ => ?_⟩
    simp [Tensor.elem, hs, dot_computeStrides, hc.2, Tensor.dims]
  · rw [if_neg hc]
    have hd : t.dims ≠ [] := by
      rcases ho with h | h
      · exact h
      · intro hd
        exact hc (by simp [isContiguous_rank0 (l := t.layout) hd, h])
    obtain ⟨s, h1, _, h3⟩ := contiguousKernel_ok ht hd
    refine ⟨s, h1, fun idx hi => ?_⟩
    rw [h3 _ (rowMajor_lt hi), unravel_rowMajor hi]

/-- **C96, every element of a view is converted**, whatever its layout, size and the number of threads.  Missing: views without
dimensions that do not start their buffer (`C96_scalar_view_false`). -/
theorem C96_tensor_partial {src dst : DType} {t : Tensor Nat} (ht : t.WF) (ho : t.dims ≠ [] ∨ t.layout.offset = 0)
    (cores fill : Nat) (hdef : ∀ idx x, InRange idx t.dims → t.elem idx = some x → ∃ v, castElem src dst x = .ok v)
    (hself : ∀ idx x, InRange idx t.dims → t.elem idx = some x → x < 2 ^ bits src ∧ (src = .bool → x ≤ 1)) :
    ∃ r, toDtype cores fill src dst t = .ok r ∧ r.WF ∧ r.dims = t.dims ∧
      ∀ idx, InRange idx t.dims → ∃ x v, t.elem idx = some x ∧ castElem src dst x = .ok v ∧ r.elem idx = some v := by
  have fin : ∀ zs : List Nat, (∀ idx, InRange idx t.dims → ∃ x v, t.elem idx = some x ∧ castElem src dst x = .ok v ∧
        zs[rowMajor t.dims idx]? = some v) →
      (⟨zs, Layout.fromShape t.dims⟩ : Tensor Nat).WF ∧
      ∀ idx, InRange idx t.dims → ∃ x v, t.elem idx = some x ∧ castElem src dst x = .ok v ∧
        Tensor.elem ⟨zs, Layout.fromShape t.dims⟩ idx = some v := by
    intro zs h
    have h2 : ∀ idx, InRange idx t.dims → ∃ x v, t.elem idx = some x ∧ castElem src dst x = .ok v ∧
        Tensor.elem ⟨zs, Layout.fromShape t.dims⟩ idx = some v := by
      intro idx hi
      obtain ⟨x, v, e1, e2, e3⟩ := h idx hi
      refine ⟨x, v, e1, e2, ?_⟩
      simp only [Layout.fromShape, elem_rowMajor]
      rw [Nat.zero_add]
      exact e3
    refine ⟨⟨computeStrides_length _, fun idx hi => ?_⟩, h2⟩
    obtain ⟨_, _, _, _, e⟩ := h2 idx hi
    rw [e]; rfl
  by_cases hsd : src = dst
  · subst hsd
    obtain ⟨s, h1, h2⟩ := storageContiguous_ok ht ho
    refine ⟨⟨s, Layout.fromShape t.dims⟩, by simp [toDtype, h1], ?_⟩
    obtain ⟨f1, f2⟩ := fin s (by
      intro idx hi
      obtain ⟨x, hx⟩ := Option.isSome_iff_exists.mp (ht.2 idx hi)
      refine ⟨x, x, hx, ?_, by rw [h2 idx hi, hx]⟩
      exact castElem_self (hself idx x hi hx).1 (hself idx x hi hx).2)
    exact ⟨f1, rfl, f2⟩
  · obtain ⟨xs, hx⟩ := ht.hasValues
    have hex : ∀ i, i < numel t.dims → ∃ v, ∀ x, xs[i]? = some x → castElem src dst x = .ok v := by
      intro i hi
      obtain ⟨v, hv⟩ := hdef _ _ (unravel_inRange hi) (hx.get (i := i) (by rw [hx.1]; exact hi))
      refine ⟨v, fun x h1 => ?_⟩
      rw [List.getElem?_eq_getElem (by rw [hx.1]; exact hi)] at h1
      rw [← Option.some.inj h1]; exact hv
    obtain ⟨zs, hz, hzv⟩ := exists_list _ hex
    have hk := castKernel_ok ht hx ho hz (fun i x hi => hzv i hi x) cores (List.replicate t.layout.size fill)
      (by simp [Layout.size, shapeSize_eq, Tensor.dims])
    refine ⟨⟨zs, Layout.fromShape t.dims⟩, by simp [toDtype, hsd, hk], ?_⟩
    obtain ⟨f1, f2⟩ := fin zs (by
      intro idx hi
      have hlt := rowMajor_lt hi
      obtain ⟨x, hxe⟩ := Option.isSome_iff_exists.mp (ht.2 idx hi)
      exact ⟨x, zs[rowMajor t.dims idx]'(by omega), hxe, hzv _ (by omega) x (by rw [hx.2 idx hi, hxe]),
        List.getElem?_eq_getElem (by omega)⟩)
    exact ⟨f1, rfl, f2⟩

/-- **C96, copying to the device**: tensors in row-major order from the start of their buffer keep their elements.  Missing: all other
views (`C96_device_false`). -/
theorem C96_device_partial {t : Tensor α} (ht : t.WF) (hc : t.layout.isContiguous = true) (ho : t.layout.offset = 0) :
    ∃ r, toDevice t = .ok r ∧ r.dims = t.dims ∧ ∀ idx, InRange idx t.dims → r.elem idx = t.elem idx := by
  have h1 : Tensor.storageContiguous t.storage (Layout.fromShape t.dims) = .ok t.storage := by
    unfold Tensor.storageContiguous
    rw [if_pos]
    simp [Layout.fromShape, isContiguous_computeStrides]
  refine ⟨⟨t.storage, Layout.fromShape t.dims⟩, by simp [toDevice, h1], rfl, fun idx _ => ?_⟩
  have hs := (isContiguous_iff ht.1).mp hc
  simp [Layout.fromShape, Tensor.elem, hs, ho, Tensor.dims]

/-! ## Round trips -/

/-- **C96, there and back**: a number that the second type has comes back to itself. -/
theorem C96_back {src dst : DType} {x q : Nat} {z : Int} (hx : x < 2 ^ bits src) (hv : value src x = some z)
    (hq : q < 2 ^ bits dst) (hrep : value dst q = some z) (hr : Readable src z) (hwr : Writable dst z)
    (hr' : Readable dst z) (hwr' : Writable src z) {y : Nat} (h1 : castElem src dst x = .ok y) (hy : y < 2 ^ bits dst) :
    ∃ x', castElem dst src y = .ok x' ∧ value src x' = some z := by
  obtain ⟨r, e1, e2⟩ := C96_exact_partial hx hv hq hrep hr hwr
  rw [e1] at h1
  cases h1
  exact C96_exact_partial hy e2 hx hv hr' hwr'

/-! ## What is false -/

/-- **C96, full claim about numbers** (false): whatever the new type has is kept. -/
def C96_full : Prop :=
  ∀ (src dst : DType) (x q : Nat) (z : Int), x < 2 ^ bits src → value src x = some z → q < 2 ^ bits dst → value dst q = some z →
    ∃ r, castElem src dst x = .ok r ∧ value dst r = some z

/-- `2 ^ -24` is a `float` and the smallest half, but is converted to zero. -/
theorem C96_full_false : ¬ C96_full := by
  intro h
  have hz : mag Flt.f16 1 ≠ 0 := by
    have := mag_pos Flt.f16 (p := 1) (by decide)
    have hp := Nat.two_pow_pos Flt.f16.unit
    omega
  have hv : value .f32 0x33800000 = some (mag Flt.f16 1 : Int) := by
    show fval Flt.f32 _ = _
    decide +kernel
  have hq : value .f16 1 = some (mag Flt.f16 1 : Int) := by
    show fval Flt.f16 _ = _
    decide +kernel
  obtain ⟨r, e1, e2⟩ := h .f32 .f16 0x33800000 1 _ (by decide) hv (by decide) hq
  have e3 : castElem .f32 .f16 0x33800000 = .ok 0 := by decide +kernel
  rw [e3] at e1
  cases e1
  have : (0 : Nat) % 2 ^ Flt.f16.width = 0 := rfl
  have := (fval_zero (f := Flt.f16) e2).mp this
  omega

/-- The `f8e4m3` numbers 256 and 320 become an infinity and a not-a-number of type `float`, and with it every other type. -/
theorem C96_e4m3_false :
    fval Flt.f8e4m3 0x78 = some (256 * one : Int) ∧ castElem .f8e4m3 .f32 0x78 = .ok Flt.f32.top ∧
    fval Flt.f8e4m3 0x7A = some (320 * one : Int) ∧ (∃ r, castElem .f8e4m3 .f32 0x7A = .ok r ∧ Flt.f32.top < r) ∧
    castElem .f8e4m3 .i32 0x78 = .ub := by
  rw [one_eq]
  refine ⟨by decide +kernel, by decide +kernel, by decide +kernel, ⟨_, rfl, by decide +kernel⟩, by decide +kernel⟩

/-- Numbers outside of the integer type are undefined: 300 to `u8`, -1 to `u32`, an infinity and a not-a-number to `i64`. -/
theorem C96_float_to_int_undefined :
    castElem .f32 .u8 0x43960000 = .ub ∧ castElem .f32 .u32 0xBF800000 = .ub ∧ castElem .f32 .i64 0x7F800000 = .ub ∧
    castElem .f64 .i64 0x7FF8000000000000 = .ub ∧ castElem .f64 .i32 0x41E0000000000000 = .ub ∧
    castElem .f32 .u8 0xBF000000 = .ok 0 ∧ castElem .f64 .i32 0xC1E0000000000000 = .ok 0x80000000 := by decide +kernel

/-- Integers and doubles reach the small types through a `float`; `bf16` is then cut off, so that 259 becomes 258 where 260 is as near
and even, and a half rounds ties upwards, so that 2049 becomes 2050 where 2048 is as near and even. -/
theorem C96_rounding_false :
    castElem .i32 .bf16 259 = .ok 0x4381 ∧ enc Flt.bf16 (259 * 2 ^ 1074) 1 = 0x4382 ∧
    castElem .i32 .f16 2049 = .ok 0x6801 ∧ enc Flt.f16 (2049 * 2 ^ 1074) 1 = 0x6800 := by decide +kernel

/-- A tensor without dimensions picked out of a vector: the element at the start of the buffer is converted instead, also when the type
stays the same. -/
theorem C96_scalar_view_false :
    let t : Tensor Nat := ⟨[1, 2, 3], ⟨[], [], 2⟩⟩
    t.elem [] = some 3 ∧
    (∃ r, toDtype 4 0 .u8 .i32 t = .ok r ∧ r.elem [] = some 1) ∧ (∃ r, toDtype 4 0 .u8 .u8 t = .ok r ∧ r.elem [] = some 1) :=
  ⟨by decide, ⟨⟨[1], ⟨[], [], 0⟩⟩, by decide +kernel⟩, ⟨⟨[1], ⟨[], [], 0⟩⟩, by decide +kernel⟩⟩

/-- `to_device` of a transposed matrix permutes it; of a slice it returns the start of the buffer. -/
theorem C96_device_false :
    (∃ t r, (⟨[1, 2, 3, 4, 5, 6], Layout.fromShape [2, 3]⟩ : Tensor Nat).transpose 0 1 = .ok t ∧
      toDevice t = .ok r ∧ t.elem [0, 1] = some 4 ∧ r.elem [0, 1] = some 2) ∧
    (∃ t r, (⟨[1, 2, 3, 4], Layout.fromShape [4]⟩ : Tensor Nat).slice 0 2 (some 4) 1 = .ok t ∧
      toDevice t = .ok r ∧ t.elem [0] = some 3 ∧ r.elem [0] = some 1) :=
  ⟨⟨⟨[1, 2, 3, 4, 5, 6], ⟨[3, 2], [1, 3], 0⟩⟩, ⟨[1, 2, 3, 4, 5, 6], ⟨[3, 2], [2, 1], 0⟩⟩, by decide +kernel⟩,
    ⟨⟨[1, 2, 3, 4], ⟨[2], [1], 2⟩⟩, ⟨[1, 2, 3, 4], ⟨[2], [1], 0⟩⟩, by decide +kernel⟩⟩

/-! ## Non-vacuity -/

/-- -2.75 as a `double`, cut to -2 as an `i8`; the truncation is towards zero. -/
example : castElem .f64 .i8 0xC006000000000000 = .ok 254 ∧ whole .i8 254 = -2 ∧ trunc (-(11 * 2 ^ 1072)) = -2 := by
  refine ⟨by decide +kernel, by decide, ?_⟩
  unfold trunc; rw [one_eq]; decide +kernel

/-- `C96_exact_partial` on -1.5 from `f16` to `f8e5m2`. -/
example : ∃ r, castElem .f16 .f8e5m2 0xBE00 = .ok r ∧ value .f8e5m2 r = value .f16 0xBE00 := by
  have hv : value .f16 0xBE00 = some (-(mag Flt.f16 0x3E00 : Int)) := by show fval Flt.f16 _ = _; decide +kernel
  rw [hv]
  refine C96_exact_partial (q := 0xBE) (by decide) hv (by decide) (by show fval Flt.f8e5m2 _ = _; decide +kernel) (by intro h; cases h) ?_
  intro c hc
  cases hc
  exact .inr (by rw [Int.natAbs_neg, Int.natAbs_natCast]; decide +kernel)

/-- `C96_int_to_int`: 300 as `i32` is 44 as `u8`; -1 as `i8` is the largest `u64`. -/
example : castElem .i32 .u8 300 = .ok 44 ∧ castElem .i8 .u64 255 = .ok (2 ^ 64 - 1) ∧ whole .i8 255 = -1 := by decide +kernel

/-- `C96_to_f32` at a tie: 2^24 + 1 becomes 2^24. -/
example : castElem .i32 .f32 16777217 = .ok 0x4B800000 ∧ castElem .f64 .f32 0x4170000010000000 = .ok 0x4B800000 ∧
    castElem .f64 .f32 0x7FE0000000000000 = .ok Flt.f32.top := by decide +kernel

/-- `C96_to_f64` at a tie: 2^53 + 1. -/
example : castElem .u64 .f64 (2 ^ 53 + 1) = .ok 0x4340000000000000 := by decide +kernel

/-- `C96_tensor_partial` on a transposed matrix. -/
example :
    let t : Tensor Nat := ⟨[1, 2, 3, 4, 5, 255], ⟨[3, 2], [1, 3], 0⟩⟩
    t.layout.isContiguous = false ∧ toDtype 4 0 .i8 .i16 t = .ok ⟨[1, 4, 2, 5, 3, 65535], ⟨[3, 2], [2, 1], 0⟩⟩ ∧
    toDtype 4 0 .i8 .i8 t = .ok ⟨[1, 4, 2, 5, 3, 255], ⟨[3, 2], [2, 1], 0⟩⟩ := by decide +kernel

end Hodu.Cast
