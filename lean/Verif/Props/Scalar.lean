import Verif.Model.Scalar
import Verif.Props.Creation
import Verif.Props.JsonFormat
import Mathlib.Data.Int.ModEq

/-!
# C100: scalars convert by saturating and calculate exactly or not at all
-/

namespace Hodu.Scal
open Flt Cast Creation Spec Cast.Spec Flt.Spec

/-! ## Specification -/

/-- What a pattern stands for: not a number, an infinity with its sign, or a number in multiples of `2 ^ -1074`. -/
inductive Spec.Num where
  | nan
  | inf (negative : Bool)
  | fin (z : Int)
  deriving DecidableEq

/-- The meaning of a pattern of a format with infinities. -/
def Spec.fnum (f : Fmt) (x : Nat) : Num :=
  match fval f x with
  | some z => .fin z
  | none => if x % 2 ^ f.width = f.top then .inf (x / 2 ^ f.width ≠ 0) else .nan

/-- The meaning of an element. -/
def Spec.num (dt : DType) (x : Nat) : Num :=
  match dt with
  | .f8e4m3 => match fval Flt.f8e4m3 x with
    | some z => .fin z
    | none => .nan
  | .f8e5m2 => fnum Flt.f8e5m2 x
  | .bf16 => fnum Flt.bf16 x
  | .f16 => fnum Flt.f16 x
  | .f32 => fnum Flt.f32 x
  | .f64 => fnum Flt.f64 x
  | .bool => .fin (if x = 0 then 0 else one)
  | _ => .fin (whole dt x * one)

/-- The smallest and the largest number of an integer type. -/
def Spec.least : DType → Int
  | .i8 => -128
  | .i16 => -32768
  | .i32 => -2147483648
  | .i64 => -9223372036854775808
  | _ => 0
@[inherit_doc Spec.least] def Spec.greatest : DType → Int
  | .i8 => 127
  | .i16 => 32767
  | .i32 => 2147483647
  | .i64 => 9223372036854775807
  | .u8 => 255
  | .u16 => 65535
  | .u32 => 4294967295
  | _ => 18446744073709551615

/-- The integer nearest to zero between the number and zero, brought into the range of the type; no number is zero. -/
def Spec.saturate (dt : DType) : Num → Int
  | .nan => 0
  | .inf true => least dt
  | .inf false => greatest dt
  | .fin z => max (least dt) (min (greatest dt) (trunc z))

open Scal.Spec

/-! ## Floats -/

/-- The two formats of Rust itself. -/
def Wide (f : Fmt) : Prop := f = Flt.f32 ∨ f = Flt.f64

theorem Wide.top {f : Fmt} (h : Wide f) : f.top ≤ 2 ^ f.width ∧ 2 ^ 64 * one ≤ mag f f.top := by
  rcases h with rfl | rfl
  · exact ⟨by decide, by rw [one_eq]; decide +kernel⟩
  · exact ⟨by decide, by rw [one_eq]; decide +kernel⟩

theorem range_eq {dt : DType} (h : isWhole dt = true) : intMin dt = least dt ∧ intMax dt = greatest dt := by
  rcases whole_cases h with rfl | rfl | rfl | rfl | rfl | rfl | rfl | rfl <;> decide

theorem range_le {dt : DType} (h : isWhole dt = true) : least dt ≤ 0 ∧ 0 ≤ greatest dt ∧ -2 ^ 63 ≤ least dt ∧ greatest dt < 2 ^ 64 := by
  rcases whole_cases h with rfl | rfl | rfl | rfl | rfl | rfl | rfl | rfl <;> decide

/-- The value of a pattern that is not a not-a-number, an infinity counting as the next power of two. -/
def sv (f : Fmt) (b : Nat) : Int := if neg f b then -(mag f (b % 2 ^ f.width) : Int) else mag f (b % 2 ^ f.width)

/-- Bringing into range. -/
def clip (dt : DType) (v : Int) : Int := max (least dt) (min (greatest dt) v)

theorem trunc_mono {x y : Int} (h : x ≤ y) : trunc x ≤ trunc y := Int.tdiv_le_tdiv (by exact_mod_cast Cast.one_pos) h

theorem trunc_mul (v : Int) : trunc (v * one) = v := by
  have : (one : Int) ≠ 0 := by exact_mod_cast Cast.one_pos.ne'
  exact Int.mul_tdiv_cancel v this

theorem clip_mono {dt : DType} {x y : Int} (h : x ≤ y) : clip dt x ≤ clip dt y := by unfold clip; omega

theorem saturate_fnum {f : Fmt} (hf : Wide f) {dt : DType} (hw : isWhole dt = true) {b : Nat} (hn : nan f b = false) :
    saturate dt (fnum f b) = clip dt (trunc (sv f b)) := by
  obtain ⟨h1, h2⟩ := hf.top
  unfold nan at hn
  simp only [decide_eq_false_iff_not, Nat.not_lt] at hn
  unfold fnum fval sv neg
  by_cases hlt : b % 2 ^ f.width < f.top
  · rw [if_pos hlt]
    by_cases h0 : b / 2 ^ f.width = 0
    · simp [h0, saturate, clip]
    · simp [h0, saturate, clip]
  · rw [if_neg hlt]
    have he : b % 2 ^ f.width = f.top := by omega
    simp only [he, if_true]
    obtain ⟨r1, r2, r3, r4⟩ := range_le hw
    have hm : (2 : Int) ^ 64 * one ≤ mag f f.top := by exact_mod_cast h2
    by_cases h0 : b / 2 ^ f.width = 0
    · simp only [h0, ne_eq, not_true_eq_false, decide_false, Bool.false_eq_true, if_false, saturate]
      have := trunc_mono hm
      rw [trunc_mul] at this
      unfold clip
      omega
    · simp only [h0, ne_eq, not_false_eq_true, decide_true, if_true, saturate]
      have := trunc_mono (show -(mag f f.top : Int) ≤ (-2 ^ 64 : Int) * one by linarith)
      rw [trunc_mul] at this
      unfold clip
      omega

theorem asInt_num {f : Fmt} (hf : Wide f) {dt : DType} (hw : isWhole dt = true) (b : Nat) :
    asInt f dt b < 2 ^ bits dt ∧ whole dt (asInt f dt b) = saturate dt (fnum f b) := by
  obtain ⟨e1, e2⟩ := range_eq hw
  obtain ⟨r1, r2, r3, r4⟩ := range_le hw
  unfold asInt
  by_cases hn : nan f b = true
  · rw [if_pos hn]
    refine ⟨Nat.two_pow_pos _, ?_⟩
    have h0 : fnum f b = .nan := by
      unfold nan at hn
      simp only [decide_eq_true_eq] at hn
      unfold fnum fval
      rw [if_neg (by omega)]
      simp only
      rw [if_neg (by omega)]
    rw [h0]
    exact (whole_zero hw (Nat.two_pow_pos _)).mpr rfl
  · rw [if_neg hn]
    have hn : nan f b = false := by simpa using hn
    rw [saturate_fnum hf hw hn]
    have key : ∀ v, whole dt (toInt dt (clip dt v)) = clip dt v ∧ toInt dt (clip dt v) < 2 ^ bits dt := by
      intro v
      obtain ⟨t1, _, t3⟩ := toInt_spec hw (clip dt v)
      exact ⟨t3 (by rw [e1]; unfold clip; omega) (by rw [e2]; unfold clip; omega), t1⟩
    by_cases hi : inf f b = true
    · rw [if_pos hi]
      have hs := saturate_fnum hf hw hn
      have hv : fnum f b = .inf (neg f b) := by
        unfold inf at hi
        simp only [decide_eq_true_eq] at hi
        unfold fnum fval neg
        rw [if_neg (by omega)]
        simp only [hi, if_true]
      have hc : (if neg f b = true then intMin dt else intMax dt) = clip dt (trunc (sv f b)) := by
        rw [← hs, hv, e1, e2]
        cases neg f b <;> rfl
      rw [hc]
      exact ⟨(key _).2, (key _).1⟩
    · rw [if_neg hi]
      have hc : max (intMin dt) (min (intMax dt) (if neg f b = true then -((mag f (b % 2 ^ f.width) / 2 ^ 1074 : Nat) : Int)
          else ((mag f (b % 2 ^ f.width) / 2 ^ 1074 : Nat) : Int))) = clip dt (trunc (sv f b)) := by
        rw [e1, e2, ← one_eq]
        unfold clip trunc sv
        cases neg f b
        · simp [Int.ofNat_tdiv]
        · simp [Int.neg_tdiv, Int.ofNat_tdiv]
      simp only [hc]
      exact ⟨(key _).2, (key _).1⟩

theorem sv_mono {f : Fmt} {a b : Nat} (h : pos f a ≤ pos f b) : sv f a ≤ sv f b := by
  have hm : ∀ p q, mag f p ≤ mag f q ↔ p ≤ q := fun p q => (mag_strictMono f).le_iff_le
  have m1 := hm (a % 2 ^ f.width) (b % 2 ^ f.width)
  have m2 := hm (b % 2 ^ f.width) (a % 2 ^ f.width)
  have m3 := hm (a % 2 ^ f.width) 0
  have m4 := hm (b % 2 ^ f.width) 0
  rw [mag_zero] at m3 m4
  revert h
  unfold pos sv
  generalize a % 2 ^ f.width = p at *
  generalize b % 2 ^ f.width = q at *
  generalize mag f p = M at *
  generalize mag f q = N at *
  clear hm
  cases neg f a <;> cases neg f b <;> simp only [Bool.false_eq_true, if_false, if_true] <;> omega

/-- Bringing a float between bounds that stand for at least the range of the type does not change the integer. -/
theorem saturate_fclamp {f : Fmt} (hf : Wide f) {dt : DType} (hw : isWhole dt = true) {lo hi : Nat} (nl : nan f lo = false)
    (nh : nan f hi = false) (hlo : clip dt (trunc (sv f lo)) = least dt ∨ ∀ b, lt f b lo = true → clip dt (trunc (sv f lo)) = clip dt (trunc (sv f b)))
    (hhi : clip dt (trunc (sv f hi)) = greatest dt) (hlh : pos f lo ≤ pos f hi) (b : Nat) :
    saturate dt (fnum f (fclamp f b lo hi)) = saturate dt (fnum f b) := by
  have hl : ∀ v, least dt ≤ clip dt v ∧ clip dt v ≤ greatest dt := by
    intro v
    obtain ⟨r1, r2, _⟩ := range_le hw
    unfold clip
    omega
  have below : lt f b lo = true → nan f b = false ∧ clip dt (trunc (sv f lo)) = clip dt (trunc (sv f b)) := by
    intro h
    have h' := h
    unfold lt at h'
    simp only [Bool.and_eq_true, Bool.not_eq_true', decide_eq_true_eq] at h'
    refine ⟨h'.1.1, ?_⟩
    rcases hlo with e | e
    · have := clip_mono (dt := dt) (trunc_mono (sv_mono h'.2.le))
      have := (hl (trunc (sv f b))).1
      omega
    · exact e b h
  unfold fclamp
  simp only
  by_cases h1 : lt f b lo = true
  · rw [if_pos h1]
    have h2 : lt f hi lo = false := by
      unfold lt
      simp
      intros
      exact hlh
    rw [h2]
    simp only [Bool.false_eq_true, if_false]
    obtain ⟨n, e⟩ := below h1
    rw [saturate_fnum hf hw nl, saturate_fnum hf hw n, e]
  · rw [if_neg h1]
    by_cases h2 : lt f hi b = true
    · rw [if_pos h2]
      unfold lt at h2
      simp only [Bool.and_eq_true, Bool.not_eq_true', decide_eq_true_eq] at h2
      rw [saturate_fnum hf hw nh, saturate_fnum hf hw h2.1.2]
      have := clip_mono (dt := dt) (trunc_mono (sv_mono h2.2.le))
      have := (hl (trunc (sv f b))).2
      omega
    · rw [if_neg h2]

/-- The bounds of the code, per format and type. -/
theorem bounds_ok {f : Fmt} (hf : Wide f) {dt : DType} (hw : isWhole dt = true) :
    nan f (intToFloat f (intMin dt)) = false ∧ nan f (intToFloat f (intMax dt)) = false ∧
    clip dt (trunc (sv f (intToFloat f (intMin dt)))) = least dt ∧ clip dt (trunc (sv f (intToFloat f (intMax dt)))) = greatest dt ∧
    pos f (intToFloat f (intMin dt)) ≤ pos f (intToFloat f (intMax dt)) := by
  unfold trunc
  rw [one_eq]
  rcases hf with rfl | rfl <;> rcases whole_cases hw with rfl | rfl | rfl | rfl | rfl | rfl | rfl | rfl <;> decide +kernel

theorem clampAs_num {f : Fmt} (hf : Wide f) {dt : DType} (hw : isWhole dt = true) (b : Nat) :
    clampAs f dt b < 2 ^ bits dt ∧ whole dt (clampAs f dt b) = saturate dt (fnum f b) := by
  obtain ⟨h1, h2, h3, h4, h5⟩ := bounds_ok hf hw
  obtain ⟨g1, g2⟩ := asInt_num hf hw (fclamp f b (intToFloat f (intMin dt)) (intToFloat f (intMax dt)))
  exact ⟨g1, g2.trans (saturate_fclamp hf hw h1 h2 (.inl h3) h4 h5 b)⟩

theorem fmax0_num {f : Fmt} (hf : Wide f) (b : Nat) :
    saturate .u64 (fnum f (fmax0 f b)) = saturate .u64 (fnum f b) := by
  have z : nan f 0 = false ∧ sv f 0 = 0 := by
    constructor
    · rcases hf with rfl | rfl <;> decide
    · unfold sv neg
      simp [mag_zero]
  have t0 : trunc 0 = 0 := by unfold trunc; simp
  unfold fmax0
  split
  · rename_i hn
    have h0 : fnum f b = .nan := by
      unfold nan at hn
      simp only [decide_eq_true_eq] at hn
      unfold fnum fval
      rw [if_neg (by omega)]
      simp only
      rw [if_neg (by omega)]
    rw [saturate_fnum hf rfl z.1, h0, z.2, t0]
    rfl
  · split
    · rename_i hn hl
      have hn : nan f b = false := by simpa using hn
      rw [saturate_fnum hf rfl z.1, saturate_fnum hf rfl hn, z.2, t0]
      unfold lt at hl
      simp only [Bool.and_eq_true, Bool.not_eq_true', decide_eq_true_eq] at hl
      have := trunc_mono (sv_mono hl.2.le)
      rw [z.2, t0] at this
      unfold clip
      simp only [least, greatest]
      omega
    · rfl

/-! ## Small floats in larger ones -/

theorem rep_small {f : Fmt} (h1 : f.man ≤ 23) (h2 : 925 ≤ f.unit) (h3 : mag f f.top ≤ mag Flt.f32 Flt.f32.top) {p : Nat} (hp : p < f.top) :
    mag Flt.f32 (enc Flt.f32 (mag f p) 1) = mag f p ∧ enc Flt.f32 (mag f p) 1 < Flt.f32.top := by
  have hm : mag Flt.f32 (enc Flt.f32 (mag f p) 1) = mag f p := by
    obtain ⟨e, s, hp, hs, hes⟩ := split f p
    have h1 : mag f p = s * 2 ^ (Flt.f32.unit + (e + (f.unit - 925))) := by
      rw [hp, mag_eq f hs.le hes, Nat.mul_assoc, ← Nat.pow_add]
      have : Flt.f32.unit = 925 := rfl
      rw [this, show e + f.unit = 925 + (e + (f.unit - 925)) by omega]
    rw [h1]
    refine mag_enc_exact Flt.f32 (Nat.lt_of_lt_of_le hs (Nat.pow_le_pow_right (by omega) ?_))
    have : Flt.f32.man = 23 := rfl
    omega
  refine ⟨hm, ?_⟩
  have hlt : mag f p < mag Flt.f32 Flt.f32.top := lt_of_lt_of_le (mag_strictMono f hp) h3
  rw [← hm] at hlt
  exact (mag_strictMono Flt.f32).lt_iff_lt.mp hlt

theorem signed_fnum {neg : Bool} {p : Nat} : (signed neg p = (if neg then 1 else 0) * 2 ^ 31 + p) := by
  unfold signed
  cases neg <;> simp

theorem fnum_mk (f : Fmt) {s q : Nat} (hq : q < 2 ^ f.width) :
    fnum f (s * 2 ^ f.width + q) = if q < f.top then .fin (if s = 0 then (mag f q : Int) else -(mag f q : Int))
      else if q = f.top then .inf (s ≠ 0) else .nan := by
  have e1 : (s * 2 ^ f.width + q) % 2 ^ f.width = q := by
    rw [Nat.add_comm, Nat.add_mul_mod_self_right, Nat.mod_eq_of_lt hq]
  have e2 : (s * 2 ^ f.width + q) / 2 ^ f.width = s := by
    rw [Nat.add_comm, Nat.add_mul_div_right _ _ (Nat.two_pow_pos _), Nat.div_eq_of_lt hq, Nat.zero_add]
  unfold fnum fval
  rw [e1, e2]
  by_cases h : q < f.top
  · simp [h]
  · simp [h]

/-- What `num` says for the four small types. -/
theorem num_small {dt : DType} {f : Fmt} (h : small dt = some f) (x : Nat) :
    num dt x = if x % 2 ^ f.width < f.top then .fin (if x / 2 ^ f.width = 0 then (mag f (x % 2 ^ f.width) : Int) else -(mag f (x % 2 ^ f.width) : Int))
      else if x % 2 ^ f.width = f.top ∧ f ≠ Flt.f8e4m3 then .inf (x / 2 ^ f.width ≠ 0) else .nan := by
  cases dt <;> simp only [small, reduceCtorEq, Option.some.injEq] at h <;> subst h <;>
    simp only [num, fnum, fval]
  · by_cases h : x % 2 ^ Flt.f8e4m3.width < Flt.f8e4m3.top <;> simp [h]
  all_goals
    have hne : Flt.f8e5m2 ≠ Flt.f8e4m3 ∧ Flt.bf16 ≠ Flt.f8e4m3 ∧ Flt.f16 ≠ Flt.f8e4m3 := by decide
    split <;> rename_i he
    · split at he
      · rename_i hlt
        rw [if_pos hlt, ← Option.some.inj he]
      · cases he
    · split at he
      · cases he
      · rename_i hlt
        rw [if_neg hlt]
        simp only [hne, ne_eq, not_false_eq_true, and_true]

theorem small_facts {dt : DType} {f : Fmt} (h : small dt = some f) :
    f.man ≤ 23 ∧ 925 ≤ f.unit ∧ mag f f.top ≤ mag Flt.f32 Flt.f32.top ∧ f.top ≤ 2 ^ f.width ∧ mag f f.top ≤ mag Flt.f64 Flt.f64.top ∧
      Json.Narrow f ∧ bits dt = f.width + 1 := by
  cases dt <;> simp only [small, reduceCtorEq, Option.some.injEq] at h <;> subst h <;>
    exact ⟨by decide, by decide, by decide +kernel, by decide, by decide +kernel,
      ⟨by decide, by decide, by decide +kernel, by decide +kernel⟩, by decide⟩

theorem smallToF32_num {dt : DType} {f : Fmt} (h : small dt = some f) (x : Nat) : fnum Flt.f32 (smallToF32 f x) = num dt x := by
  obtain ⟨h1, h2, h3, h4, _⟩ := small_facts h
  rw [num_small h]
  unfold smallToF32
  rw [signed_fnum]
  by_cases hlt : x % 2 ^ f.width < f.top
  · obtain ⟨g1, g2⟩ := rep_small h1 h2 h3 hlt
    have := fnum_mk Flt.f32 (s := if decide (x / 2 ^ f.width ≠ 0) = true then 1 else 0) (q := enc Flt.f32 (mag f (x % 2 ^ f.width)) 1)
      (lt_of_lt_of_le g2 (by decide))
    rw [if_pos hlt, if_pos hlt]
    rw [show (2 : Nat) ^ 31 = 2 ^ Flt.f32.width from rfl, this, if_pos g2, g1]
    by_cases h0 : x / 2 ^ f.width = 0 <;> simp [h0]
  · rw [if_neg hlt, if_neg hlt]
    by_cases he : x % 2 ^ f.width = f.top ∧ f ≠ Flt.f8e4m3
    · rw [if_pos he, if_pos he, show (2 : Nat) ^ 31 = 2 ^ Flt.f32.width from rfl, fnum_mk Flt.f32 (by decide), if_neg (by omega), if_pos rfl]
      by_cases h0 : x / 2 ^ f.width = 0 <;> simp [h0]
    · rw [if_neg he, if_neg he, show (2 : Nat) ^ 31 = 2 ^ Flt.f32.width from rfl, fnum_mk Flt.f32 (by decide), if_neg (by decide), if_neg (by decide)]

theorem widen_num {dt : DType} {f : Fmt} (h : small dt = some f) (x : Nat) : fnum Flt.f64 (widen f x) = num dt x := by
  obtain ⟨h1, h2, _, h4, h5, h6, _⟩ := small_facts h
  rw [num_small h]
  unfold widen
  simp only
  rw [show (2 : Nat) ^ 63 = 2 ^ Flt.f64.width from rfl]
  by_cases hlt : x % 2 ^ f.width < f.top
  · have g1 := Json.mag_widen h6 (x % 2 ^ f.width)
    have g2 : enc Flt.f64 (mag f (x % 2 ^ f.width)) 1 < Flt.f64.top := by
      have hl := lt_of_lt_of_le (mag_strictMono f hlt) h5
      rw [← g1] at hl
      exact (mag_strictMono Flt.f64).lt_iff_lt.mp hl
    rw [if_pos hlt, if_pos hlt, fnum_mk Flt.f64 (lt_of_lt_of_le g2 (by decide)), if_pos g2, g1]
  · rw [if_neg hlt, if_neg hlt]
    by_cases he : x % 2 ^ f.width = f.top ∧ f ≠ Flt.f8e4m3
    · rw [if_pos he, if_pos he, fnum_mk Flt.f64 (by decide), if_neg (by decide), if_pos rfl]
    · rw [if_neg he, if_neg he, fnum_mk Flt.f64 (by decide), if_neg (by decide), if_neg (by decide)]

/-! ## To integers -/

theorem guard_ok {dst src : DType} (hd : isWhole dst = true) (hs : isWhole src = true) {v : Int} (h1 : intMin src ≤ v) (h2 : v ≤ intMax src) :
    (let w := if (guard dst src).1 then max (intMin dst) v else v
     if (guard dst src).2 then min (intMax dst) w else w) = clip dst v := by
  unfold clip
  obtain ⟨e1, e2⟩ := range_eq hd
  obtain ⟨e3, e4⟩ := range_eq hs
  rw [e1, e2]
  rw [e3] at h1
  rw [e4] at h2
  clear e1 e2 e3 e4
  rcases whole_cases hd with rfl | rfl | rfl | rfl | rfl | rfl | rfl | rfl <;>
    rcases whole_cases hs with rfl | rfl | rfl | rfl | rfl | rfl | rfl | rfl <;>
    simp only [least, greatest] at h1 h2 ⊢ <;> simp only [guard, Bool.false_eq_true, if_true, if_false] <;> omega

section
attribute [local irreducible] clampAs asInt fmax0

theorem floatTo_f64 {dst : DType} (hw : isWhole dst = true) (x : Nat) :
    floatTo dst .f64 x = clampAs Flt.f64 dst x ∨ floatTo dst .f64 x = asInt Flt.f64 dst x ∨
      (dst = .u64 ∧ floatTo dst .f64 x = asInt Flt.f64 dst (fmax0 Flt.f64 x)) := by
  rcases whole_cases hw with rfl | rfl | rfl | rfl | rfl | rfl | rfl | rfl
  · exact .inl rfl
  · exact .inl rfl
  · exact .inl rfl
  · exact .inr (.inr ⟨rfl, rfl⟩)
  · exact .inl rfl
  · exact .inl rfl
  · exact .inl rfl
  · exact .inr (.inl rfl)

theorem floatTo_f32 (x : Nat) :
    floatTo .u64 .f32 x = asInt Flt.f32 .u64 (fmax0 Flt.f32 x) ∧ floatTo .i64 .f32 x = asInt Flt.f32 .i64 x := ⟨rfl, rfl⟩

theorem floatTo_small {src : DType} {f : Fmt} (h : small src = some f) (x : Nat) :
    floatTo .u64 src x = asInt Flt.f64 .u64 (fmax0 Flt.f64 (widen f x)) ∧ floatTo .i64 src x = asInt Flt.f64 .i64 (widen f x) := by
  cases src <;> simp only [small, reduceCtorEq, Option.some.injEq] at h <;> subst h <;> exact ⟨rfl, rfl⟩

theorem floatTo_narrow {dst src : DType} (hw : isWhole dst = true) (hn : Narrow32 src) (x : Nat) (a : dst ≠ .u64) (b : dst ≠ .i64) :
    floatTo dst src x = clampAs Flt.f32 dst (Sca.toF32 ⟨src, x⟩) ∨ floatTo dst src x = asInt Flt.f32 dst (Sca.toF32 ⟨src, x⟩) := by
  rcases whole_cases hw with rfl | rfl | rfl | rfl | rfl | rfl | rfl | rfl
  · rcases hn with rfl | rfl | rfl | rfl | rfl <;> exact .inl rfl
  · rcases hn with rfl | rfl | rfl | rfl | rfl <;> exact .inl rfl
  · rcases hn with rfl | rfl | rfl | rfl | rfl <;> exact .inl rfl
  · exact absurd rfl a
  · rcases hn with rfl | rfl | rfl | rfl | rfl <;> exact .inl rfl
  · rcases hn with rfl | rfl | rfl | rfl | rfl <;> exact .inl rfl
  · rcases hn with rfl | rfl | rfl | rfl | rfl <;> exact .inr rfl
  · exact absurd rfl b
end

/-- **C100, to an integer**: every conversion drops the fraction and saturates; not a number becomes zero. -/
theorem C100_to_int {dst : DType} (hw : isWhole dst = true) {s : Sca} (hx : s.bits < 2 ^ bits s.dt) :
    toWhole dst s < 2 ^ bits dst ∧ whole dst (toWhole dst s) = saturate dst (num s.dt s.bits) := by
  obtain ⟨src, x⟩ := s
  simp only at hx ⊢
  unfold toWhole
  simp only
  rcases src_cases src with rfl | rfl | hn | hs
  · rw [if_pos rfl]
    have t : trunc (one : Int) = 1 := by have := trunc_mul 1; rwa [Int.one_mul] at this
    have t0 : trunc 0 = 0 := by unfold trunc; simp
    by_cases h : x = 0
    · subst h
      simp only [ne_eq, not_true_eq_false, if_false, num, if_true, saturate, t0]
      rcases whole_cases hw with rfl | rfl | rfl | rfl | rfl | rfl | rfl | rfl <;> decide
    · simp only [ne_eq, h, not_false_eq_true, if_true, if_false, num, saturate, t]
      rcases whole_cases hw with rfl | rfl | rfl | rfl | rfl | rfl | rfl | rfl <;> decide
  · rw [if_neg (by decide), if_pos (show DType.f64.isFloat = true from rfl)]
    show floatTo dst .f64 x < _ ∧ _ = saturate dst (fnum Flt.f64 x)
    rcases floatTo_f64 hw x with e | e | ⟨rfl, e⟩ <;> rw [e]
    · exact clampAs_num (.inr rfl) hw x
    · exact asInt_num (.inr rfl) hw x
    · obtain ⟨a1, a2⟩ := asInt_num (f := Flt.f64) (.inr rfl) hw (fmax0 Flt.f64 x)
      rw [fmax0_num (.inr rfl) x] at a2
      exact ⟨a1, a2⟩
  · have hfl : src.isFloat = true ∧ src ≠ .bool ∧ src ≠ .f64 := by rcases hn with rfl | rfl | rfl | rfl | rfl <;> decide
    rw [if_neg hfl.2.1, if_pos hfl.1]
    have hnum : fnum Flt.f32 (Sca.toF32 ⟨src, x⟩) = num src x := by
      rcases hn with rfl | rfl | rfl | rfl | rfl
      · exact smallToF32_num rfl x
      · exact smallToF32_num rfl x
      · exact smallToF32_num rfl x
      · exact smallToF32_num rfl x
      · rfl
    rw [← hnum]
    have c1 := clampAs_num (f := Flt.f32) (.inl rfl) hw (Sca.toF32 ⟨src, x⟩)
    have c2 := asInt_num (f := Flt.f32) (.inl rfl) hw (Sca.toF32 ⟨src, x⟩)
    by_cases a : dst = .u64
    · subst a
      rw [hnum]
      cases hsm : small src with
      | some f =>
        rw [(floatTo_small hsm x).1, ← widen_num hsm]
        exact ⟨(asInt_num (.inr rfl) hw _).1, (asInt_num (.inr rfl) hw _).2.trans (fmax0_num (.inr rfl) _)⟩
      | none =>
        have e : src = .f32 := by
          rcases hn with rfl | rfl | rfl | rfl | rfl
          all_goals first | rfl | cases hsm
        subst e
        rw [(floatTo_f32 x).1, show num .f32 x = fnum Flt.f32 x from rfl]
        obtain ⟨a1, a2⟩ := asInt_num (f := Flt.f32) (.inl rfl) hw (fmax0 Flt.f32 x)
        rw [fmax0_num (.inl rfl) x] at a2
        exact ⟨a1, a2⟩
    by_cases b : dst = .i64
    · subst b
      rw [hnum]
      cases hsm : small src with
      | some f =>
        rw [(floatTo_small hsm x).2, ← widen_num hsm]
        exact asInt_num (.inr rfl) hw _
      | none =>
        have e : src = .f32 := by
          rcases hn with rfl | rfl | rfl | rfl | rfl
          all_goals first | rfl | cases hsm
        subst e
        rw [(floatTo_f32 x).2, show num .f32 x = fnum Flt.f32 x from rfl]
        exact asInt_num (.inl rfl) hw x
    rcases floatTo_narrow hw hn x a b with e | e <;> rw [e]
    · exact c1
    · exact c2
  · have hfl : src.isFloat = false ∧ src ≠ .bool := by
      rcases whole_cases hs with rfl | rfl | rfl | rfl | rfl | rfl | rfl | rfl <;> decide
    rw [if_neg hfl.2, if_neg (by rw [hfl.1]; simp)]
    obtain ⟨w1, w2, w3⟩ := whole_eq hs hx
    have hg := guard_ok hw hs w2 w3
    simp only at hg
    rw [hg]
    have hnum : num src x = .fin (whole src x * one) := by
      rcases whole_cases hs with rfl | rfl | rfl | rfl | rfl | rfl | rfl | rfl <;> rfl
    rw [hnum, saturate, trunc_mul, w1]
    obtain ⟨t1, _, t3⟩ := toInt_spec hw (clip dst (intVal src x))
    obtain ⟨e1, e2⟩ := range_eq hw
    obtain ⟨r1, r2, _⟩ := range_le hw
    exact ⟨t1, t3 (by rw [e1]; unfold clip; omega) (by rw [e2]; unfold clip; omega)⟩

/-! ## To booleans and floats -/

theorem num_f32 {src : DType} (hn : Narrow32 src) (x : Nat) : fnum Flt.f32 (Sca.toF32 ⟨src, x⟩) = num src x := by
  rcases hn with rfl | rfl | rfl | rfl | rfl
  · exact smallToF32_num rfl x
  · exact smallToF32_num rfl x
  · exact smallToF32_num rfl x
  · exact smallToF32_num rfl x
  · rfl

theorem fnum_zero {f : Fmt} (h : 0 < f.top) (b : Nat) : b % 2 ^ f.width = 0 ↔ fnum f b = .fin 0 := by
  unfold fnum
  cases hv : fval f b with
  | some z =>
    rw [fval_zero hv]
    simp
  | none =>
    simp only
    constructor
    · intro h0
      unfold fval at hv
      rw [h0, if_pos h] at hv
      cases hv
    · intro h0
      split at h0 <;> cases h0

/-- **C100, to a boolean**: everything but zero is true, also what is not a number. -/
theorem C100_to_bool {s : Sca} (hx : s.bits < 2 ^ bits s.dt) : toBool s = true ↔ num s.dt s.bits ≠ .fin 0 := by
  obtain ⟨src, x⟩ := s
  simp only at hx ⊢
  rcases src_cases src with rfl | rfl | hn | hs
  · have h1 : one ≠ 0 := Cast.one_pos.ne'
    simp only [toBool, num]
    by_cases h : x = 0 <;> simp [h, h1]
  · have := fnum_zero (f := Flt.f64) (by decide) x
    rw [show Flt.f64.width = 63 from rfl] at this
    simp only [toBool, num, ne_eq, decide_eq_true_eq]
    rw [this]
  · have hb : toBool ⟨src, x⟩ = decide (Sca.toF32 ⟨src, x⟩ % 2 ^ 31 ≠ 0) := by
      rcases hn with rfl | rfl | rfl | rfl | rfl <;> simp only [toBool]
    have := fnum_zero (f := Flt.f32) (by decide) (Sca.toF32 ⟨src, x⟩)
    rw [show Flt.f32.width = 31 from rfl, num_f32 hn] at this
    rw [hb, decide_eq_true_eq, ne_eq, this]
  · have h1 : one ≠ 0 := Cast.one_pos.ne'
    have hnum : num src x = .fin (whole src x * one) := by
      rcases whole_cases hs with rfl | rfl | rfl | rfl | rfl | rfl | rfl | rfl <;> rfl
    have hb : toBool ⟨src, x⟩ = decide (x ≠ 0) := by
      rcases whole_cases hs with rfl | rfl | rfl | rfl | rfl | rfl | rfl | rfl <;> simp only [toBool]
    rw [hb, hnum, decide_eq_true_eq, ne_eq, ne_eq, Num.fin.injEq, Int.mul_eq_zero, whole_zero hs hx]
    simp [h1]

theorem widen_f32 (x : Nat) : fnum Flt.f64 (widen Flt.f32 x) = fnum Flt.f32 x := by
  have h6 : Json.Narrow Flt.f32 := ⟨by decide, by decide, by decide +kernel, by decide +kernel⟩
  have h5 : mag Flt.f32 Flt.f32.top ≤ mag Flt.f64 Flt.f64.top := by decide +kernel
  have hr : fnum Flt.f32 x = if x % 2 ^ Flt.f32.width < Flt.f32.top then .fin (if x / 2 ^ Flt.f32.width = 0 then (mag Flt.f32 (x % 2 ^ Flt.f32.width) : Int)
      else -(mag Flt.f32 (x % 2 ^ Flt.f32.width) : Int))
      else if x % 2 ^ Flt.f32.width = Flt.f32.top ∧ Flt.f32 ≠ Flt.f8e4m3 then .inf (x / 2 ^ Flt.f32.width ≠ 0) else .nan := by
    have hne : Flt.f32 ≠ Flt.f8e4m3 := by decide
    unfold fnum fval
    split <;> rename_i he
    · split at he
      · rename_i hlt
        rw [if_pos hlt, ← Option.some.inj he]
      · cases he
    · split at he
      · cases he
      · rename_i hlt
        rw [if_neg hlt]
        simp only [hne, ne_eq, not_false_eq_true, and_true]
  rw [hr]
  unfold widen
  simp only
  rw [show (2 : Nat) ^ 63 = 2 ^ Flt.f64.width from rfl]
  by_cases hlt : x % 2 ^ Flt.f32.width < Flt.f32.top
  · have g1 := Json.mag_widen h6 (x % 2 ^ Flt.f32.width)
    have g2 : enc Flt.f64 (mag Flt.f32 (x % 2 ^ Flt.f32.width)) 1 < Flt.f64.top := by
      have hl := lt_of_lt_of_le (mag_strictMono Flt.f32 hlt) h5
      rw [← g1] at hl
      exact (mag_strictMono Flt.f64).lt_iff_lt.mp hl
    rw [if_pos hlt, if_pos hlt, fnum_mk Flt.f64 (lt_of_lt_of_le g2 (by decide)), if_pos g2, g1]
  · rw [if_neg hlt, if_neg hlt]
    by_cases he : x % 2 ^ Flt.f32.width = Flt.f32.top ∧ Flt.f32 ≠ Flt.f8e4m3
    · rw [if_pos he, if_pos he, fnum_mk Flt.f64 (by decide), if_neg (by decide), if_pos rfl]
    · rw [if_neg he, if_neg he, fnum_mk Flt.f64 (by decide), if_neg (by decide), if_neg (by decide)]

/-- **C100, to `f64`**: floats and booleans keep their meaning; integers are rounded to nearest even. -/
theorem C100_to_f64 {s : Sca} (hx : s.bits < 2 ^ bits s.dt) :
    (isWhole s.dt = false → num .f64 (toF64 s) = num s.dt s.bits) ∧
    (isWhole s.dt = true → ∃ sg q, toF64 s = sg * 2 ^ 63 + min q Flt.f64.top ∧ (0 < whole s.dt s.bits → sg = 0) ∧
      (whole s.dt s.bits < 0 → sg = 1) ∧ Nearest Flt.f64 q (whole s.dt s.bits * one).natAbs ∧
      (∀ p, p ≠ q → ((mag Flt.f64 p : Int) - (whole s.dt s.bits * one).natAbs).natAbs =
        ((mag Flt.f64 q : Int) - (whole s.dt s.bits * one).natAbs).natAbs → q % 2 = 0)) := by
  obtain ⟨src, x⟩ := s
  simp only at hx ⊢
  constructor
  · intro hw
    cases src with
    | bool =>
      show fnum Flt.f64 (if x ≠ 0 then 0x3FF0000000000000 else 0) = .fin (if x = 0 then 0 else one)
      have z0 : fnum Flt.f64 0 = .fin 0 := (fnum_zero (by decide) 0).mp (by decide)
      have z1 : fnum Flt.f64 0x3FF0000000000000 = .fin one := by rw [one_eq]; decide +kernel
      by_cases h : x = 0
      · simp [h, z0]
      · simp [h, z1]
    | f8e4m3 => exact widen_num (dt := .f8e4m3) rfl x
    | f8e5m2 => exact widen_num (dt := .f8e5m2) rfl x
    | bf16 => exact widen_num (dt := .bf16) rfl x
    | f16 => exact widen_num (dt := .f16) rfl x
    | f32 => exact widen_f32 x
    | f64 => rfl
    | _ => cases hw
  · intro hw
    have hp : (0 : Int) < one := by exact_mod_cast Cast.one_pos
    obtain ⟨sg, q, h1, h2, h3, h4, h5⟩ := C96_to_f64 hw hx (value_whole hw x)
    have hc : castElem src .f64 x = .ok (toF64 ⟨src, x⟩) := by
      rcases whole_cases hw with rfl | rfl | rfl | rfl | rfl | rfl | rfl | rfl <;> rfl
    rw [hc] at h1
    exact ⟨sg, q, Res.ok.inj h1, fun h => h2 (mul_pos h hp), fun h => h3 (mul_neg_of_neg_of_pos h hp), h4, h5⟩

/-- **C100, to `f16` and `bf16`** of numbers that `f32` holds: rounded to nearest even.  Missing: numbers that `f32` does not hold
(`C100_half_false`). -/
theorem C100_to_half_partial {dst : DType} {f : Fmt} (hd : dst = .f16 ∧ f = Flt.f16 ∨ dst = .bf16 ∧ f = Flt.bf16) {s : Sca} {z : Int}
    (hne : s.dt ≠ dst) (hx : s.bits < 2 ^ bits s.dt) (hv : value s.dt s.bits = some z) (hr : Rep z) (fp8 : DType → Nat → Nat) :
    ∃ sg q, (toDtype fp8 dst s).bits = sg * 2 ^ f.width + min q f.top ∧ (toDtype fp8 dst s).dt = dst ∧ toHalf f dst s = (toDtype fp8 dst s).bits ∧
      (0 < z → sg = 0) ∧ (z < 0 → sg = 1) ∧
      Nearest f q z.natAbs ∧ (∀ p, p ≠ q → ((mag f p : Int) - z.natAbs).natAbs = ((mag f q : Int) - z.natAbs).natAbs → q % 2 = 0) := by
  have hh := toF32_has hx hv hr
  obtain ⟨g1, g2, g3, g4⟩ := fval_split hh.2
  rw [show Flt.f32.width = 31 from rfl] at g1 g2 g3 g4
  obtain ⟨n1, n2⟩ := enc_nearest f z.natAbs
  have e : toDtype fp8 dst s = ⟨dst, halfOf f s.toF32⟩ := by
    unfold toDtype
    rw [if_neg hne]
    rcases hd with ⟨rfl, rfl⟩ | ⟨rfl, rfl⟩ <;> rfl
  have hlt : s.toF32 / 2 ^ 31 < 2 := by have := hh.1; omega
  refine ⟨s.toF32 / 2 ^ 31, enc f z.natAbs 1, ?_, by rw [e], by rw [e]; unfold toHalf; rw [if_neg hne], ?_, ?_, n1, n2⟩
  · rw [e]
    unfold halfOf
    simp only
    rw [if_pos g1, ← g2]
  · intro h
    by_contra hc
    have := g4 hc
    omega
  · intro h
    by_contra hc
    have := g3 (by omega)
    omega

/-- **C100, from `f32`**: integers saturate, the others keep the meaning. -/
theorem C100_from_f32 (fp8 : DType → Nat → Nat) (b : Nat) (dt : DType) :
    (fromF32 fp8 b dt).dt = dt ∧ (isWhole dt = true → whole dt (fromF32 fp8 b dt).bits = saturate dt (num .f32 b)) ∧
    (dt = .bool → ((fromF32 fp8 b dt).bits = 1 ↔ num .f32 b ≠ .fin 0)) ∧ (dt = .f32 ∨ dt = .f64 → num dt (fromF32 fp8 b dt).bits = num .f32 b) := by
  refine ⟨rfl, fun hw => ?_, ?_, ?_⟩
  · have e : (fromF32 fp8 b dt).bits = asInt Flt.f32 dt b := by
      rcases whole_cases hw with rfl | rfl | rfl | rfl | rfl | rfl | rfl | rfl <;> simp only [fromF32]
    rw [e]
    exact (asInt_num (.inl rfl) hw b).2
  · rintro rfl
    have := fnum_zero (f := Flt.f32) (by decide) b
    rw [show Flt.f32.width = 31 from rfl] at this
    show (if b % 2 ^ 31 ≠ 0 then 1 else 0) = 1 ↔ fnum Flt.f32 b ≠ .fin 0
    rw [show (fnum Flt.f32 b ≠ .fin 0) = ¬ (fnum Flt.f32 b = .fin 0) from rfl, ← this]
    by_cases h : b % 2 ^ 31 = 0 <;> simp [h]
  · rintro (rfl | rfl)
    · rfl
    · exact widen_f32 b

/-! ## Arithmetic -/

/-- The exact result of an operator on integers. -/
def Spec.exact (op : Op) (a b : Int) : Option Int :=
  match op with
  | .add => some (a + b)
  | .sub => some (a - b)
  | .mul => some (a * b)
  | .div => if b = 0 then none else some (a.tdiv b)
  | .rem => if b = 0 then none else some (a.tmod b)

open Scal.Spec

/-- **C100, checked integer arithmetic** gives the exact result, and panics when there is none or the type cannot hold it.  (`i8::MIN % -1`
also panics: `C100_rem_false`.) -/
theorem C100_arith_checked (fl : Op → DType → Nat → Nat → Nat) (op : Op) {dt : DType} (hw : isWhole dt = true) {x y : Nat}
    (hx : x < 2 ^ bits dt) (hy : y < 2 ^ bits dt) :
    (∀ r, exact op (whole dt x) (whole dt y) = some r → least dt ≤ r → r ≤ greatest dt →
      ¬ (op = .rem ∧ whole dt x = least dt ∧ whole dt y = -1) →
      ∃ z, arith true fl op ⟨dt, x⟩ ⟨dt, y⟩ = .ok ⟨dt, z⟩ ∧ z < 2 ^ bits dt ∧ whole dt z = r) ∧
    ((∀ r, exact op (whole dt x) (whole dt y) = some r → r < least dt ∨ greatest dt < r) → arith true fl op ⟨dt, x⟩ ⟨dt, y⟩ = .panic) := by
  have hfl : dt.isFloat = false ∧ dt ≠ .bool := by
    rcases whole_cases hw with rfl | rfl | rfl | rfl | rfl | rfl | rfl | rfl <;> decide
  obtain ⟨e1, e2⟩ := range_eq hw
  obtain ⟨w1, w2, w3⟩ := whole_eq hw hx
  obtain ⟨v1, v2, v3⟩ := whole_eq hw hy
  obtain ⟨r1, r2, r3, r4⟩ := range_le hw
  unfold arith
  simp only [ne_eq, not_true_eq_false, if_false, hfl.2, hfl.1, Bool.false_eq_true]
  rw [w1, v1]
  rw [e1] at w2 v2
  rw [e2] at w3 v3
  generalize intVal dt x = a at *
  generalize intVal dt y = b at *
  have fin : ∀ r, least dt ≤ r → r ≤ greatest dt → ∃ z, (⟨dt, toInt dt r⟩ : Sca) = ⟨dt, z⟩ ∧ z < 2 ^ bits dt ∧ whole dt z = r := by
    intro r h1 h2
    obtain ⟨t1, _, t3⟩ := toInt_spec hw r
    exact ⟨_, rfl, t1, t3 (by omega) (by omega)⟩
  constructor
  · intro r hr h1 h2 h3
    obtain ⟨z, z1, z2, z3⟩ := fin r h1 h2
    refine ⟨z, ?_, z2, z3⟩
    rw [← z1]
    cases op with
    | add =>
      cases hr
      simp only [intOp, e1, e2]
      rw [if_pos ⟨h1, h2⟩]
      rfl
    | sub =>
      cases hr
      simp only [intOp, e1, e2]
      rw [if_pos ⟨h1, h2⟩]
      rfl
    | mul =>
      cases hr
      simp only [intOp, e1, e2]
      rw [if_pos ⟨h1, h2⟩]
      rfl
    | div =>
      simp only [exact] at hr
      split at hr
      · cases hr
      · cases hr
        simp only [intOp, e1, e2]
        rw [if_neg (by omega)]
        rfl
    | rem =>
      simp only [exact] at hr
      split at hr
      · cases hr
      · rename_i hb
        cases hr
        have hq : least dt ≤ a.tdiv b ∧ a.tdiv b ≤ greatest dt := by
          have hle := Int.natAbs_tdiv_le_natAbs a b
          by_cases hbm : b = -1
          · subst hbm
            rw [Int.tdiv_neg, Int.tdiv_one]
            have : a ≠ least dt := fun h => h3 ⟨rfl, h, rfl⟩
            have : least dt = 0 ∨ least dt = -greatest dt - 1 := by
              rcases whole_cases hw with rfl | rfl | rfl | rfl | rfl | rfl | rfl | rfl <;> decide
            omega
          · by_cases ha : a.tdiv b < 0 ∨ 0 ≤ a
            · have : least dt = 0 ∨ least dt = -greatest dt - 1 := by
                rcases whole_cases hw with rfl | rfl | rfl | rfl | rfl | rfl | rfl | rfl <;> decide
              rcases this with h0 | h0
              · have : 0 ≤ a.tdiv b := Int.tdiv_nonneg (by omega) (by omega)
                omega
              · omega
            · have h2 : a.tdiv b * b = a - a.tmod b := by have := Int.tdiv_mul_add_tmod a b; omega
              by_cases hb1 : b = 1
              · subst hb1
                rw [Int.tdiv_one]
                omega
              · have hbig : 2 ≤ b.natAbs := by omega
                have : a.natAbs = a.natAbs := rfl
                have h4 : (a.tdiv b).natAbs = a.natAbs / b.natAbs := Int.natAbs_tdiv a b
                have h5 : a.natAbs / b.natAbs ≤ a.natAbs / 2 := Nat.div_le_div_left hbig (by omega)
                have : least dt = 0 ∨ least dt = -greatest dt - 1 := by
                  rcases whole_cases hw with rfl | rfl | rfl | rfl | rfl | rfl | rfl | rfl <;> decide
                omega
        simp only [intOp, e1, e2]
        rw [if_neg (by omega)]
        rfl
  · intro h
    cases op with
    | add =>
      have := h _ rfl
      simp only [intOp, e1, e2]
      rw [if_neg (by omega)]
      rfl
    | sub =>
      have := h _ rfl
      simp only [intOp, e1, e2]
      rw [if_neg (by omega)]
      rfl
    | mul =>
      have := h _ rfl
      simp only [intOp, e1, e2]
      rw [if_neg (by omega)]
      rfl
    | div =>
      simp only [exact] at h
      simp only [intOp, e1, e2]
      by_cases hb : b = 0
      · rw [if_pos (.inl hb)]
        rfl
      · have := h (a.tdiv b) (by rw [if_neg hb])
        rw [if_pos (.inr this)]
        rfl
    | rem =>
      simp only [exact] at h
      simp only [intOp, e1, e2]
      by_cases hb : b = 0
      · rw [if_pos (.inl hb)]
        rfl
      · exfalso
        have := h (a.tmod b) (by rw [if_neg hb])
        have h1 := Int.tmod_lt_of_pos
        have hd := Int.natAbs_tmod a b
        have hle : (a.tmod b).natAbs ≤ a.natAbs := by rw [hd]; exact Nat.mod_le _ _
        rcases Int.lt_or_le a 0 with ha | ha
        · have : a.tmod b ≤ 0 := by
            have := Int.tmod_nonneg (a := -a) b (by omega)
            rw [Int.neg_tmod] at this
            omega
          omega
        · have := Int.tmod_nonneg b ha
          omega

/-- **C100, unchecked integer arithmetic** is exact modulo the size of the type. -/
theorem C100_arith_wrapping (fl : Op → DType → Nat → Nat → Nat) {op : Op} (ho : op = .add ∨ op = .sub ∨ op = .mul) {dt : DType}
    (hw : isWhole dt = true) {x y : Nat} (hx : x < 2 ^ bits dt) (hy : y < 2 ^ bits dt) {r : Int}
    (hr : exact op (whole dt x) (whole dt y) = some r) :
    ∃ z, arith false fl op ⟨dt, x⟩ ⟨dt, y⟩ = .ok ⟨dt, z⟩ ∧ z < 2 ^ bits dt ∧ (2 : Int) ^ bits dt ∣ whole dt z - r := by
  have hfl : dt.isFloat = false ∧ dt ≠ .bool := by
    rcases whole_cases hw with rfl | rfl | rfl | rfl | rfl | rfl | rfl | rfl <;> decide
  obtain ⟨w1, w2, w3⟩ := whole_eq hw hx
  obtain ⟨v1, v2, v3⟩ := whole_eq hw hy
  obtain ⟨t1, t2, t3⟩ := toInt_spec hw r
  have hin : intVal dt (toInt dt r) = whole dt (toInt dt r) := (whole_eq hw t1).1.symm
  have key : ∀ r', r' = r → ∃ z, ((if intMin dt ≤ r' ∧ r' ≤ intMax dt then Res.ok r' else if false = true then .panic else .ok (intVal dt (toInt dt r'))).bind
      fun r => Res.ok (⟨dt, toInt dt r⟩ : Sca)) = .ok ⟨dt, z⟩ ∧ z < 2 ^ bits dt ∧ (2 : Int) ^ bits dt ∣ whole dt z - r := by
    rintro r' rfl
    split
    · exact ⟨_, rfl, t1, t2⟩
    · rw [if_neg (by simp)]
      refine ⟨_, rfl, (toInt_spec hw _).1, ?_⟩
      obtain ⟨g1, g2, g3⟩ := whole_eq hw t1
      rw [(toInt_spec hw (intVal dt (toInt dt r'))).2.2 g2 g3, hin]
      exact t2
  unfold arith
  simp only [ne_eq, not_true_eq_false, if_false, hfl.2, hfl.1, Bool.false_eq_true]
  rw [w1, v1] at hr
  rcases ho with rfl | rfl | rfl
  · exact key _ (Option.some.inj hr)
  · exact key _ (Option.some.inj hr)
  · exact key _ (Option.some.inj hr)

/-- **C100, arithmetic of different types** always panics; the result has the type of the operands. -/
theorem C100_arith_types (checked : Bool) (fl : Op → DType → Nat → Nat → Nat) (op : Op) (a b : Sca) :
    (a.dt ≠ b.dt → arith checked fl op a b = .panic) ∧ (∀ r, arith checked fl op a b = .ok r → r.dt = a.dt ∧ a.dt = b.dt) := by
  unfold arith
  constructor
  · intro h
    rw [if_pos h]
  · intro r h
    split at h
    · cases h
    · rename_i hne
      have hne : a.dt = b.dt := by simpa using hne
      refine ⟨?_, hne⟩
      split at h
      · rename_i hb
        cases h
        exact hb.symm
      · split at h
        · cases h
          rfl
        · generalize intOp checked a.dt op (intVal a.dt a.bits) (intVal b.dt b.bits) = q at h
          cases q <;> cases h
          rfl

/-! ## Powers -/

theorem bind_ok {α β : Type} (a : α) (f : α → Res β) : (Res.ok a).bind f = f a := rfl

theorem le_mul_square {x p : Int} (hp : 1 ≤ p) : (0 ≤ x → x ≤ x * p) ∧ (x ≤ 0 → x * p ≤ x) := by
  constructor
  · intro h
    have := mul_le_mul_of_nonneg_left hp h
    omega
  · intro h
    have := mul_le_mul_of_nonpos_left hp h
    omega

/-- Ranges of integer types: unsigned, or one more below than above where the size is no square. -/
theorem range_square {dt : DType} (h : isWhole dt = true) :
    least dt = 0 ∨ (least dt = -greatest dt - 1 ∧ ∀ b : Int, b * b ≠ greatest dt + 1) := by
  have sq : ∀ (b : Int) (r : Nat) (G : Int), (r : Int) * r < G → G < (r + 1) * (r + 1) → b * b ≠ G := by
    intro b r G h1 h2 hb
    subst hb
    have e : b * b = (b.natAbs : Int) * b.natAbs := by rw [← Int.natAbs_mul_self]; push_cast; rfl
    rw [e] at h1 h2
    have h1' : r * r < b.natAbs * b.natAbs := by exact_mod_cast h1
    have h2' : b.natAbs * b.natAbs < (r + 1) * (r + 1) := by exact_mod_cast h2
    have := Nat.mul_self_lt_mul_self_iff.mp h1'
    have := Nat.mul_self_lt_mul_self_iff.mp h2'
    omega
  rcases whole_cases h with rfl | rfl | rfl | rfl | rfl | rfl | rfl | rfl
  · exact .inl rfl
  · exact .inl rfl
  · exact .inl rfl
  · exact .inl rfl
  · exact .inr ⟨rfl, fun b => sq b 11 _ (by decide) (by decide)⟩
  · exact .inr ⟨rfl, fun b => sq b 181 _ (by decide) (by decide)⟩
  · exact .inr ⟨rfl, fun b => sq b 46340 _ (by decide) (by decide)⟩
  · exact .inr ⟨rfl, fun b => sq b 3037000499 _ (by decide) (by decide)⟩

theorem mul_checked {dt : DType} (hw : isWhole dt = true) (a b : Int) :
    (least dt ≤ a * b → a * b ≤ greatest dt → intOp true dt .mul a b = .ok (a * b)) ∧
    (¬ (least dt ≤ a * b ∧ a * b ≤ greatest dt) → intOp true dt .mul a b = .panic) := by
  obtain ⟨e1, e2⟩ := range_eq hw
  simp only [intOp, e1, e2]
  constructor
  · intro h1 h2
    rw [if_pos ⟨h1, h2⟩]
  · intro h
    rw [if_neg h]
    rfl

theorem powLoop_checked {dt : DType} (hw : isWhole dt = true) : ∀ (n e : Nat) (base acc : Int), e < 2 ^ n →
    least dt ≤ acc → acc ≤ greatest dt → (acc = 0 → base = 0) →
    (least dt ≤ acc * base ^ e ∧ acc * base ^ e ≤ greatest dt → powLoop (intOp true dt .mul) n base acc e = .ok (acc * base ^ e)) ∧
    (¬ (least dt ≤ acc * base ^ e ∧ acc * base ^ e ≤ greatest dt) → powLoop (intOp true dt .mul) n base acc e = .panic) := by
  obtain ⟨r1, r2, _, _⟩ := range_le hw
  intro n
  induction n with
  | zero =>
    intro e base acc he h1 h2 h3
    obtain rfl : e = 0 := by simpa using he
    simp only [pow_zero, mul_one, powLoop]
    exact ⟨fun _ => trivial, fun h => absurd ⟨h1, h2⟩ h⟩
  | succ n ih =>
    intro e base acc he h1 h2 h3
    -- the rest of the loop, from the new accumulator
    have rest : ∀ acc' : Int, least dt ≤ acc' → acc' ≤ greatest dt → (acc' = 0 → base = 0) → acc' * (base * base) ^ (e / 2) = acc * base ^ e →
        (e ≤ 1 → acc' = acc * base ^ e) →
        (least dt ≤ acc * base ^ e ∧ acc * base ^ e ≤ greatest dt →
          (if e ≤ 1 then Res.ok acc' else (intOp true dt .mul base base).bind fun base => powLoop (intOp true dt .mul) n base acc' (e / 2)) =
            .ok (acc * base ^ e)) ∧
        (¬ (least dt ≤ acc * base ^ e ∧ acc * base ^ e ≤ greatest dt) →
          (if e ≤ 1 then Res.ok acc' else (intOp true dt .mul base base).bind fun base => powLoop (intOp true dt .mul) n base acc' (e / 2)) =
            .panic) := by
      intro acc' a1 a2 a3 a4 a5
      by_cases h : e ≤ 1
      · rw [if_pos h, ← a5 h]
        exact ⟨fun _ => rfl, fun hc => absurd ⟨a1, a2⟩ hc⟩
      · rw [if_neg h]
        obtain ⟨m1, m2⟩ := mul_checked hw base base
        obtain ⟨i1, i2⟩ := ih (e / 2) (base * base) acc' (by rw [Nat.pow_succ] at he; omega) a1 a2 (fun h => by rw [a3 h]; rfl)
        rw [a4] at i1 i2
        have hb : 0 ≤ base * base := mul_self_nonneg base
        by_cases hr : least dt ≤ base * base ∧ base * base ≤ greatest dt
        · rw [m1 hr.1 hr.2, bind_ok]
          exact ⟨i1, i2⟩
        · rw [m2 hr]
          refine ⟨fun hc => ?_, fun _ => rfl⟩
          exfalso
          -- the square is too large although the result is in range
          have hbase : base ≠ 0 := by
            rintro rfl
            exact hr ⟨by simpa using r1, by simpa using r2⟩
          have hacc : acc' ≠ 0 := fun h => hbase (a3 h)
          have hpos : 1 ≤ base * base := by
            have : base * base ≠ 0 := mul_ne_zero hbase hbase
            omega
          have hpow : base * base ≤ (base * base) ^ (e / 2) := by
            have := pow_le_pow_right₀ hpos (show 1 ≤ e / 2 by omega)
            rwa [pow_one] at this
          rw [← a4] at hc
          generalize (base * base) ^ (e / 2) = P at *
          have habs : P ≤ |acc' * P| := by
            rw [abs_mul, abs_of_nonneg (by omega : 0 ≤ P)]
            have : 1 ≤ |acc'| := Int.one_le_abs hacc
            nlinarith
          have hPle : P ≤ -least dt ∨ P ≤ greatest dt := by
            rcases abs_cases (acc' * P) with ⟨h, _⟩ | ⟨h, _⟩ <;> omega
          rcases range_square hw with hz | ⟨hz, hsq⟩
          · omega
          · have := hsq base
            omega
    unfold powLoop
    have hsplit : ∀ acc' : Int, acc' = (if e % 2 = 1 then acc * base else acc) → acc' * (base * base) ^ (e / 2) = acc * base ^ e ∧ (e ≤ 1 → acc' = acc * base ^ e) := by
      rintro acc' rfl
      have hsq : (base * base) ^ (e / 2) = base ^ (2 * (e / 2)) := by rw [pow_mul, sq]
      by_cases ho : e % 2 = 1
      · rw [if_pos ho, hsq]
        have : base ^ e = base * base ^ (2 * (e / 2)) := by
          conv_lhs => rw [show e = 2 * (e / 2) + 1 by omega]
          rw [pow_succ, mul_comm]
        refine ⟨by rw [this]; ring, fun h => ?_⟩
        have : e = 1 := by omega
        rw [this, pow_one]
      · rw [if_neg ho, hsq]
        have : 2 * (e / 2) = e := by omega
        refine ⟨by rw [this], fun h => ?_⟩
        have : e = 0 := by omega
        rw [this, pow_zero, mul_one]
    by_cases ho : e % 2 = 1
    · rw [if_pos ho]
      obtain ⟨s1, s2⟩ := hsplit (acc * base) (by rw [if_pos ho])
      obtain ⟨m1, m2⟩ := mul_checked hw acc base
      by_cases hr : least dt ≤ acc * base ∧ acc * base ≤ greatest dt
      · rw [m1 hr.1 hr.2, bind_ok]
        refine rest _ hr.1 hr.2 (fun h => ?_) s1 s2
        rcases Int.mul_eq_zero.mp h with h | h
        · exact h3 h
        · exact h
      · rw [m2 hr]
        refine ⟨fun hc => ?_, fun _ => rfl⟩
        exfalso
        have hbase : base ≠ 0 := by
          rintro rfl
          exact hr ⟨by simpa using r1, by simpa using r2⟩
        have hpos : 1 ≤ (base * base) ^ (e / 2) := by
          have h0 : 0 < base * base := by
            have := mul_self_nonneg base
            have : base * base ≠ 0 := mul_ne_zero hbase hbase
            omega
          have := pow_pos h0 (e / 2)
          omega
        rw [← s1] at hc
        obtain ⟨l1, l2⟩ := le_mul_square (x := acc * base) hpos
        generalize (acc * base) * (base * base) ^ (e / 2) = Y at *
        generalize acc * base = X at *
        rcases le_total 0 X with h | h
        · have := l1 h
          omega
        · have := l2 h
          omega
    · rw [if_neg ho, bind_ok]
      obtain ⟨s1, s2⟩ := hsplit acc (by rw [if_neg ho])
      exact rest acc h1 h2 h3 s1 s2

theorem mul_wrapping {dt : DType} (hw : isWhole dt = true) (a b : Int) :
    ∃ r, intOp false dt .mul a b = .ok r ∧ r ≡ a * b [ZMOD 2 ^ bits dt] ∧ least dt ≤ r ∧ r ≤ greatest dt := by
  obtain ⟨e1, e2⟩ := range_eq hw
  simp only [intOp]
  rw [e1, e2]
  split
  · rename_i h
    exact ⟨_, rfl, rfl, h.1, h.2⟩
  · obtain ⟨t1, t2, t3⟩ := toInt_spec hw (a * b)
    obtain ⟨g1, g2, g3⟩ := whole_eq hw t1
    rw [e1] at g2
    rw [e2] at g3
    refine ⟨_, rfl, ?_, g2, g3⟩
    rw [← g1]
    exact (Int.modEq_iff_dvd.mpr t2).symm

theorem powLoop_wrapping {dt : DType} (hw : isWhole dt = true) : ∀ (n e : Nat) (base acc : Int), e < 2 ^ n →
    least dt ≤ acc → acc ≤ greatest dt →
    ∃ r, powLoop (intOp false dt .mul) n base acc e = .ok r ∧ r ≡ acc * base ^ e [ZMOD 2 ^ bits dt] ∧ least dt ≤ r ∧ r ≤ greatest dt := by
  intro n
  induction n with
  | zero =>
    intro e base acc he h1 h2
    obtain rfl : e = 0 := by simpa using he
    exact ⟨acc, rfl, by rw [pow_zero, mul_one], h1, h2⟩
  | succ n ih =>
    intro e base acc he h1 h2
    unfold powLoop
    obtain ⟨acc', a1, a2, a3, a4⟩ : ∃ acc', (if e % 2 = 1 then intOp false dt .mul acc base else .ok acc) = .ok acc' ∧
        acc' ≡ acc * base ^ (e % 2) [ZMOD 2 ^ bits dt] ∧ least dt ≤ acc' ∧ acc' ≤ greatest dt := by
      by_cases ho : e % 2 = 1
      · rw [if_pos ho, ho, pow_one]
        exact mul_wrapping hw acc base
      · rw [if_neg ho, show e % 2 = 0 by omega, pow_zero, mul_one]
        exact ⟨acc, rfl, rfl, h1, h2⟩
    rw [a1, bind_ok]
    by_cases h : e ≤ 1
    · rw [if_pos h]
      have : e % 2 = e := by omega
      rw [this] at a2
      exact ⟨acc', rfl, a2, a3, a4⟩
    · rw [if_neg h]
      obtain ⟨b, b1, b2, _, _⟩ := mul_wrapping hw base base
      rw [b1, bind_ok]
      obtain ⟨r, g1, g2, g3, g4⟩ := ih (e / 2) b acc' (by rw [Nat.pow_succ] at he; omega) a3 a4
      refine ⟨r, g1, ?_, g3, g4⟩
      have hp : b ^ (e / 2) ≡ base ^ (2 * (e / 2)) [ZMOD 2 ^ bits dt] := by
        rw [pow_mul, sq]
        exact b2.pow _
      have : acc * base ^ e = acc * base ^ (e % 2) * base ^ (2 * (e / 2)) := by
        rw [mul_assoc, ← pow_add, show e % 2 + 2 * (e / 2) = e by omega]
      rw [this]
      exact g2.trans (a2.mul hp)

/-- **C100, powers of integers**: with overflow checks the exact power where the type holds it and a panic where not, without them the power
modulo the size of the type.  The exponent is taken modulo `2 ^ 32`, so that it is the given one only if that is not negative. -/
theorem C100_powi (fl : DType → Nat → Int → Nat) {dt : DType} (hw : isWhole dt = true) {x : Nat} (hx : x < 2 ^ bits dt) (exp : Int) {e : Nat}
    (he : (e : Int) = exp % 2 ^ 32) :
    (least dt ≤ whole dt x ^ e → whole dt x ^ e ≤ greatest dt →
      ∃ z, powi true fl ⟨dt, x⟩ exp = .ok ⟨dt, z⟩ ∧ z < 2 ^ bits dt ∧ whole dt z = whole dt x ^ e) ∧
    (¬ (least dt ≤ whole dt x ^ e ∧ whole dt x ^ e ≤ greatest dt) → powi true fl ⟨dt, x⟩ exp = .panic) ∧
    ∃ z, powi false fl ⟨dt, x⟩ exp = .ok ⟨dt, z⟩ ∧ z < 2 ^ bits dt ∧ (2 : Int) ^ bits dt ∣ whole dt z - whole dt x ^ e := by
  have hfl : dt.isFloat = false ∧ dt ≠ .bool := by
    rcases whole_cases hw with rfl | rfl | rfl | rfl | rfl | rfl | rfl | rfl <;> decide
  obtain ⟨e1, e2⟩ := range_eq hw
  obtain ⟨r1, r2, _, _⟩ := range_le hw
  have hone : least dt ≤ 1 ∧ 1 ≤ greatest dt := by
    rcases whole_cases hw with rfl | rfl | rfl | rfl | rfl | rfl | rfl | rfl <;> decide
  have hexp : toInt .u32 exp = e := by
    have : (2 : Int) ^ 32 = 4294967296 := by norm_num
    show (exp % (2 : Int) ^ 32).toNat = e
    rw [← he, Int.toNat_natCast]
  have hlt : e < 2 ^ 32 := by
    have := Int.emod_lt_of_pos exp (show (0 : Int) < 2 ^ 32 by norm_num)
    rw [← he] at this
    exact_mod_cast this
  obtain ⟨w1, w2, w3⟩ := whole_eq hw hx
  unfold powi
  simp only [hfl.2, hfl.1, if_false, Bool.false_eq_true]
  rw [hexp, ← w1]
  obtain ⟨c1, c2⟩ := powLoop_checked hw 32 e (whole dt x) 1 hlt hone.1 hone.2 (by intro h; cases h)
  obtain ⟨r, g1, g2, g3, g4⟩ := powLoop_wrapping hw 32 e (whole dt x) 1 hlt hone.1 hone.2
  rw [one_mul] at c1 c2 g2
  refine ⟨fun h1 h2 => ?_, fun h => ?_, ?_⟩
  · rw [c1 ⟨h1, h2⟩, bind_ok]
    obtain ⟨t1, _, t3⟩ := toInt_spec hw (whole dt x ^ e)
    exact ⟨_, rfl, t1, t3 (by omega) (by omega)⟩
  · rw [c2 h]
    rfl
  · rw [g1, bind_ok]
    obtain ⟨t1, _, t3⟩ := toInt_spec hw r
    refine ⟨_, rfl, t1, ?_⟩
    rw [t3 (by omega) (by omega)]
    exact Int.modEq_iff_dvd.mp g2.symm

/-! ## Whole numbers -/

theorem fnum_fin {f : Fmt} {b : Nat} {z : Int} (h : fnum f b = .fin z) : fval f b = some z := by
  unfold fnum at h
  cases hv : fval f b with
  | some w =>
    rw [hv] at h
    rw [Num.fin.inj h]
  | none =>
    rw [hv] at h
    simp only at h
    split at h <;> cases h

theorem whole_test {f : Fmt} {b : Nat} {z : Int} (h : fnum f b = .fin z) :
    ((!nan f b && (inf f b || mag f (b % 2 ^ f.width) % 2 ^ 1074 == 0)) = true) ↔ (one : Int) ∣ z := by
  obtain ⟨g1, g2, _, _⟩ := fval_split (fnum_fin h)
  have n1 : nan f b = false := by unfold nan; simp only [decide_eq_false_iff_not]; omega
  have n2 : inf f b = false := by unfold inf; simp only [decide_eq_false_iff_not]; omega
  rw [n1, n2, ← g2, ← one_eq, Bool.not_false, Bool.true_and, Bool.false_or, beq_iff_eq, ← Nat.dvd_iff_mod_eq_zero]
  exact Int.natCast_dvd.symm

/-- **C100, whole numbers** of finite scalars are recognised; booleans are none (`C100_integer_value_false` for infinities). -/
theorem C100_integer_value_partial {s : Sca} {z : Int} (hv : num s.dt s.bits = .fin z) (hb : s.dt ≠ .bool) :
    isIntegerValue s = true ↔ (one : Int) ∣ z := by
  obtain ⟨src, x⟩ := s
  simp only at hv hb
  rcases src_cases src with rfl | rfl | hn | hs
  · exact absurd rfl hb
  · exact whole_test (f := Flt.f64) hv
  · rw [← num_f32 hn] at hv
    have : isIntegerValue ⟨src, x⟩ = (!nan Flt.f32 (Sca.toF32 ⟨src, x⟩) && (inf Flt.f32 (Sca.toF32 ⟨src, x⟩) ||
        mag Flt.f32 (Sca.toF32 ⟨src, x⟩ % 2 ^ Flt.f32.width) % 2 ^ 1074 == 0)) := by
      rcases hn with rfl | rfl | rfl | rfl | rfl <;> rfl
    rw [this]
    exact whole_test hv
  · have h1 : isIntegerValue ⟨src, x⟩ = true := by
      rcases whole_cases hs with rfl | rfl | rfl | rfl | rfl | rfl | rfl | rfl <;> rfl
    have hnum : num src x = .fin (whole src x * one) := by
      rcases whole_cases hs with rfl | rfl | rfl | rfl | rfl | rfl | rfl | rfl <;> rfl
    rw [hnum] at hv
    rw [h1, ← Num.fin.inj hv]
    simp

/-- **C100, from `usize` and `isize`**: a number of the range is kept, others wrap (`C100_from_usize_false`). -/
theorem C100_from_int (fp8 : DType → Nat → Nat) (v : Int) {dt : DType} (hw : isWhole dt = true) :
    (fromInt fp8 v dt).dt = dt ∧ (fromInt fp8 v dt).bits < 2 ^ bits dt ∧ (2 : Int) ^ bits dt ∣ whole dt (fromInt fp8 v dt).bits - v ∧
    (least dt ≤ v → v ≤ greatest dt → whole dt (fromInt fp8 v dt).bits = v) := by
  obtain ⟨e1, e2⟩ := range_eq hw
  obtain ⟨t1, t2, t3⟩ := toInt_spec hw v
  have e : (fromInt fp8 v dt).bits = toInt dt v := by
    rcases whole_cases hw with rfl | rfl | rfl | rfl | rfl | rfl | rfl | rfl <;> simp only [fromInt]
  rw [e]
  exact ⟨rfl, t1, t2, fun h1 h2 => t3 (by omega) (by omega)⟩

/-! ## Square roots -/

/-- A fraction with denominator `2 ^ 12` and a numerator below `2 ^ 24` is an `f32`. -/
theorem mag_frac {n : Nat} (h0 : n ≠ 0) (h : n < 2 ^ 24) : ∃ q, q < Flt.f32.top ∧ mag Flt.f32 q * 2 ^ 12 = n * one := by
  have hk : 2 ^ n.log2 ≤ n := Nat.log2_self_le h0
  have hk2 : n < 2 ^ (n.log2 + 1) := Nat.lt_log2_self
  have hk4 : n.log2 ≤ 23 := by
    by_contra hc
    have : 2 ^ 24 ≤ 2 ^ n.log2 := Nat.pow_le_pow_right (by decide) (by omega)
    omega
  have hs : n * 2 ^ (23 - n.log2) < 2 ^ 24 := by
    have : n * 2 ^ (23 - n.log2) < 2 ^ (n.log2 + 1) * 2 ^ (23 - n.log2) := Nat.mul_lt_mul_of_pos_right hk2 (Nat.two_pow_pos _)
    rw [← Nat.pow_add, show n.log2 + 1 + (23 - n.log2) = 24 by omega] at this
    exact this
  refine ⟨(n.log2 + 114) * 2 ^ Flt.f32.man + n * 2 ^ (23 - n.log2), ?_, ?_⟩
  · have : Flt.f32.top = 255 * 2 ^ 23 := rfl
    have : Flt.f32.man = 23 := rfl
    rw [this]
    omega
  · have hl : 2 ^ Flt.f32.man ≤ n * 2 ^ (23 - n.log2) := by
      have : 2 ^ n.log2 * 2 ^ (23 - n.log2) ≤ n * 2 ^ (23 - n.log2) := Nat.mul_le_mul_right _ hk
      rw [← Nat.pow_add, show n.log2 + (23 - n.log2) = 23 by omega] at this
      exact this
    rw [mag_eq Flt.f32 hs.le (.inr hl), Nat.mul_assoc (_ * _), ← Nat.pow_add]
    exact pow_join (by have : Flt.f32.unit = 925 := rfl; omega)

/-- The root of the multiples, with the half unit. -/
def root (a : Nat) : Nat :=
  2 * (a * one * one).sqrt + (if (a * one * one).sqrt * (a * one * one).sqrt = a * one * one then 0 else 1)

theorem root_square (k : Nat) : root (k * k) = 2 * (k * one) := by
  have e : k * k * one * one = k * one * (k * one) := by ring
  unfold root
  rw [e, Nat.sqrt_eq, if_pos rfl, Nat.add_zero]

theorem root_between {a k U : Nat} (hU : one = 2 ^ 13 * U) (hpos : 0 < U) (h1 : k * k ≤ a) (h2 : a < (k + 1) * (k + 1)) (hk : k + 1 ≤ 2 ^ 12) :
    2 * (k * one) ≤ root a ∧ root a + 2 * U < 2 * ((k + 1) * one) := by
  have hle : k * one ≤ (a * one * one).sqrt := by
    rw [Nat.le_sqrt]
    calc k * one * (k * one) = k * k * (one * one) := by ring
      _ ≤ a * (one * one) := Nat.mul_le_mul_right _ h1
      _ = a * one * one := by ring
  have hR := Nat.sqrt_le (a * one * one)
  have hM : (a * one * one) + one * one ≤ (k + 1) * one * ((k + 1) * one) := by
    calc a * one * one + one * one = (a + 1) * (one * one) := by ring
      _ ≤ (k + 1) * (k + 1) * (one * one) := Nat.mul_le_mul_right _ h2
      _ = _ := by ring
  have hMone : (k + 1) * one ≤ 2 ^ 12 * one := Nat.mul_le_mul_right _ hk
  have h1p := Cast.one_pos
  have hX : root a ≤ 2 * (a * one * one).sqrt + 1 := by
    unfold root
    split <;> omega
  have hX2 : 2 * (a * one * one).sqrt ≤ root a := by
    unfold root
    omega
  generalize (a * one * one).sqrt = R at *
  generalize a * one * one = N at *
  generalize hMg : (k + 1) * one = M at *
  generalize k * one = K at *
  refine ⟨by omega, ?_⟩
  generalize one = W at *
  -- `R + U < M`
  have hlt : R + U < M := by
    by_contra hc
    have hRM : R < M := by
      by_contra hc2
      have : M * M ≤ R * R := Nat.mul_le_mul (by omega) (by omega)
      have : 0 < W * W := Nat.mul_pos h1p h1p
      omega
    -- `M * M ≤ R * R + U * (M + R)`
    obtain ⟨d, rfl⟩ : ∃ d, M = R + d := ⟨M - R, by omega⟩
    have hd : d ≤ U := by omega
    have e1 : (R + d) * (R + d) = R * R + d * (2 * R + d) := by ring
    have e2 : d * (2 * R + d) ≤ U * (2 * R + d) := Nat.mul_le_mul_right _ hd
    have e3 : U * (2 * R + d) < U * (2 ^ 13 * W) := Nat.mul_lt_mul_of_pos_left (by omega) hpos
    have e4 : U * (2 ^ 13 * W) = W * W := by rw [hU]; ring
    omega
  omega

theorem enc_root {a k : Nat} (h1 : k * k ≤ a) (h2 : a < (k + 1) * (k + 1)) (ha : a ≤ 2 ^ 24) :
    k * one ≤ mag Flt.f32 (enc Flt.f32 (root a) 2) ∧ mag Flt.f32 (enc Flt.f32 (root a) 2) < (k + 1) * one ∧
      enc Flt.f32 (root a) 2 < Flt.f32.top := by
  have h1p := Cast.one_pos
  have hk12 : k ≤ 2 ^ 12 := by
    by_contra hc
    have : 4097 * 4097 ≤ k * k := Nat.mul_le_mul (by omega) (by omega)
    omega
  obtain ⟨q, q1, q2⟩ := mag_whole (n := k) (by omega)
  obtain ⟨t, t1, t2⟩ := mag_whole (n := k + 1) (by omega)
  have n1 := enc_nearest_div Flt.f32 (root a) (d := 2) (by decide) q
  rw [q2] at n1
  have top : ∀ p, mag Flt.f32 p < (k + 1) * one → p < Flt.f32.top := by
    intro p hp
    rw [← t2] at hp
    exact lt_trans ((mag_strictMono Flt.f32).lt_iff_lt.mp hp) t1
  generalize he : enc Flt.f32 (root a) 2 = E at *
  by_cases hsq : a = k * k
  · subst hsq
    rw [root_square] at n1
    have e1 : (k + 1) * one = k * one + one := by ring
    have hm : mag Flt.f32 E = k * one := by
      generalize k * one = K at *
      generalize mag Flt.f32 E = m at *
      clear he q2 t2 top
      omega
    rw [hm]
    exact ⟨le_refl _, by omega, top E (by rw [hm]; omega)⟩
  · have hk : k + 1 ≤ 2 ^ 12 := by
      by_contra hc
      have : k = 4096 := by omega
      subst this
      omega
    have hU : one = 2 ^ 13 * 2 ^ 1061 := by rw [one_eq]; decide +kernel
    have hUp : 0 < 2 ^ 1061 := Nat.two_pow_pos _
    generalize 2 ^ 1061 = U at hU hUp
    obtain ⟨b1, b2⟩ := root_between hU hUp h1 h2 hk
    obtain ⟨y, y1, y2⟩ := mag_frac (n := (k + 1) * 2 ^ 12 - 1) (by omega) (by omega)
    have n2 := enc_nearest_div Flt.f32 (root a) (d := 2) (by decide) y
    rw [he] at n2
    have hy : mag Flt.f32 y + 2 * U = (k + 1) * one := by
      have e1 : ((k + 1) * 2 ^ 12 - 1) * one + one = (k + 1) * one * 2 ^ 12 := by
        have : (k + 1) * 2 ^ 12 - 1 + 1 = (k + 1) * 2 ^ 12 := by omega
        calc ((k + 1) * 2 ^ 12 - 1) * one + one = ((k + 1) * 2 ^ 12 - 1 + 1) * one := by ring
          _ = _ := by rw [this]; ring
      rw [← y2] at e1
      generalize (k + 1) * one = M at *
      generalize mag Flt.f32 y = m at *
      generalize one = W at *
      clear n1 n2 q2 t2 top he b1 b2
      omega
    have hlow : k * one ≤ mag Flt.f32 E := by
      generalize k * one = K at *
      generalize mag Flt.f32 E = m at *
      generalize root a = X at *
      clear n2 he q2 t2 top hy y2 hU b2
      omega
    have hup : mag Flt.f32 E < (k + 1) * one := by
      generalize (k + 1) * one = M at *
      generalize mag Flt.f32 E = m at *
      generalize mag Flt.f32 y = m2 at *
      generalize root a = X at *
      clear n1 he q2 t2 top y2 hU b1 hlow
      omega
    exact ⟨hlow, hup, top E hup⟩

theorem fclamp_pos {dt : DType} (hw : isWhole dt = true) {b : Nat} (h : b < 2 ^ 31) (hi : Nat) :
    fclamp Flt.f32 b 0 hi = fclamp Flt.f32 b (intToFloat Flt.f32 (intMin dt)) hi := by
  have hp : 0 ≤ pos Flt.f32 b := by
    unfold pos neg
    rw [show Flt.f32.width = 31 from rfl, Nat.div_eq_of_lt h]
    simp only [ne_eq, not_true_eq_false, decide_false, Bool.false_eq_true, if_false]
    omega
  have hl : ∀ lo, pos Flt.f32 lo ≤ 0 → lt Flt.f32 b lo = false := by
    intro lo hlo
    unfold lt
    rw [decide_eq_false (by omega), Bool.and_false]
  unfold fclamp
  rw [hl 0 (by decide), hl (intToFloat Flt.f32 (intMin dt)) (by
    rcases whole_cases hw with rfl | rfl | rfl | rfl | rfl | rfl | rfl | rfl <;> decide +kernel)]
  simp only [Bool.false_eq_true, if_false]

theorem fsqrt_whole {a : Nat} (h0 : 0 < a) (h : a ≤ 2 ^ 24) : fsqrt (intToFloat Flt.f32 a) = enc Flt.f32 (root a) 2 := by
  obtain ⟨q, q1, q2⟩ := mag_whole h
  obtain ⟨g1, _⟩ := intToFloat_exact (f := Flt.f32) (by decide) (v := (a : Int)) q1 (by rw [q2, Int.natAbs_mul]; rfl)
  obtain ⟨s1, s2, s3, s4⟩ := fval_split g1
  have s5 := fval_zero g1
  have hp : (0 : Int) < a * one := by
    have := Cast.one_pos
    exact_mod_cast Nat.mul_pos h0 this
  generalize intToFloat Flt.f32 (a : Int) = b at *
  have n1 : nan Flt.f32 b = false := by unfold nan; simp only [decide_eq_false_iff_not]; omega
  have n2 : inf Flt.f32 b = false := by unfold inf; simp only [decide_eq_false_iff_not]; omega
  have n3 : neg Flt.f32 b = false := by
    unfold neg
    simp only [decide_eq_false_iff_not, not_not]
    by_contra hc
    have := s4 hc
    omega
  have n4 : b % 2 ^ 31 ≠ 0 := by
    intro hc
    have := s5.mp hc
    omega
  have hm : mag Flt.f32 (b % 2 ^ 31) = a * one := by
    rw [show Flt.f32.width = 31 from rfl] at s2
    rw [← s2, Int.natAbs_mul]
    rfl
  unfold fsqrt root
  rw [n1, n2, n3, if_neg (by simp), if_neg n4, if_neg (by simp), if_neg (by simp)]
  simp only
  rw [← one_eq, hm]

theorem fsqrt_neg {v : Int} (h : v < 0) (h2 : -2 ^ 63 ≤ v) : fsqrt (intToFloat Flt.f32 v) = qnan := by
  have h1p := Cast.one_pos
  have hn : intToFloat Flt.f32 v = 2 ^ 31 + enc Flt.f32 (v.natAbs * one) 1 := by
    unfold intToFloat
    rw [if_pos h, one_eq]
    rfl
  obtain ⟨o, o1, o2⟩ := mag_whole (n := 1) (by decide)
  have ht : mag Flt.f32 (190 * 2 ^ 23) = 2 ^ 63 * one := by rw [one_eq]; decide +kernel
  have n1 := enc_nearest_div Flt.f32 (v.natAbs * one) (d := 1) (by decide) o
  have n2 := enc_nearest_div Flt.f32 (v.natAbs * one) (d := 1) (by decide) (190 * 2 ^ 23)
  rw [o2, Nat.one_mul] at n1
  rw [ht] at n2
  have hv1 : one ≤ v.natAbs * one := Nat.le_mul_of_pos_left _ (by omega)
  have hv2 : v.natAbs * one ≤ 2 ^ 63 * one := Nat.mul_le_mul_right _ (by omega)
  have b1 : enc Flt.f32 (v.natAbs * one) 1 ≠ 0 := by
    intro hc
    rw [hc, mag_zero] at n1
    generalize v.natAbs * one = X at *
    generalize one = W at *
    clear n2 ht o2 hv2 hn
    omega
  have b2 : enc Flt.f32 (v.natAbs * one) 1 ≤ 190 * 2 ^ 23 := by
    by_contra hc
    have := mag_strictMono Flt.f32 (show 190 * 2 ^ 23 < enc Flt.f32 (v.natAbs * one) 1 by omega)
    rw [ht] at this
    generalize v.natAbs * one = X at *
    generalize mag Flt.f32 (enc Flt.f32 X 1) = Y at *
    generalize 2 ^ 63 * one = Z at *
    clear n1 o2 hv1 ht
    omega
  rw [hn]
  generalize enc Flt.f32 (v.natAbs * one) 1 = p at *
  have hneg : neg Flt.f32 (2 ^ 31 + p) = true := by
    unfold neg
    rw [show Flt.f32.width = 31 from rfl]
    simp only [ne_eq, decide_eq_true_eq]
    omega
  unfold fsqrt
  split
  · rfl
  · rw [if_neg (show ¬ (2 ^ 31 + p) % 2 ^ 31 = 0 by omega)]

theorem qnan_clamp (dt : DType) (hi : Nat) : asInt Flt.f32 dt (fclamp Flt.f32 qnan 0 hi) = 0 := by
  have h : ∀ x, lt Flt.f32 x qnan = false := by
    intro x
    unfold lt
    rw [show nan Flt.f32 qnan = true by decide]
    simp
  have h' : lt Flt.f32 qnan 0 = false := by decide
  unfold fclamp
  rw [h']
  simp only [Bool.false_eq_true, if_false]
  rw [h, if_neg (by simp)]
  unfold asInt
  rw [show nan Flt.f32 qnan = true by decide]
  rfl

section
attribute [local irreducible] asInt fclamp fsqrt intToFloat
theorem intSqrt_eq (s : Sca) : (intSqrt s).bits =
    asInt Flt.f32 s.dt (fclamp Flt.f32 (fsqrt (intToFloat Flt.f32 (intVal s.dt s.bits))) 0 (intToFloat Flt.f32 (intMax s.dt))) := rfl
theorem clampAs_eq (dt : DType) (b : Nat) : asInt Flt.f32 dt (fclamp Flt.f32 b (intToFloat Flt.f32 (intMin dt)) (intToFloat Flt.f32 (intMax dt))) =
    clampAs Flt.f32 dt b := rfl
end

/-- **C100, roots of integers** up to `2 ^ 24` are the whole part of the root, and zero for negative numbers.  Missing: larger numbers
(`C100_sqrt_false`). -/
theorem C100_sqrt_partial {dt : DType} (hw : isWhole dt = true) {x : Nat} (hx : x < 2 ^ bits dt) (hle : whole dt x ≤ 2 ^ 24) :
    (intSqrt ⟨dt, x⟩).dt = dt ∧ ∃ k : Nat, whole dt (intSqrt ⟨dt, x⟩).bits = k ∧
      (0 ≤ whole dt x → (k * k : Int) ≤ whole dt x ∧ whole dt x < (k + 1) * (k + 1)) ∧ (whole dt x < 0 → k = 0) := by
  refine ⟨rfl, ?_⟩
  obtain ⟨w1, w2, w3⟩ := whole_eq hw hx
  obtain ⟨e1, e2⟩ := range_eq hw
  obtain ⟨r1, r2, r3, r4⟩ := range_le hw
  rw [intSqrt_eq]
  simp only
  rw [← w1]
  rcases lt_trichotomy (whole dt x) 0 with hn | hz | hp
  · refine ⟨0, ?_, fun h => absurd h (by omega), fun _ => rfl⟩
    rw [fsqrt_neg hn (by omega), qnan_clamp, (whole_zero hw (Nat.two_pow_pos _)).mpr rfl]
    rfl
  · refine ⟨0, ?_, fun _ => by rw [hz]; decide, fun _ => rfl⟩
    rw [hz]
    have i0 : intToFloat Flt.f32 0 = 0 := by decide +kernel
    have s0 : fsqrt 0 = 0 := by decide +kernel
    rw [i0, s0, fclamp_pos hw (by decide), clampAs_eq, (clampAs_num (.inl rfl) hw 0).2, (fnum_zero (f := Flt.f32) (by decide) 0).mp (by decide)]
    have t0 : trunc 0 = 0 := by unfold trunc; simp
    unfold saturate
    simp only [t0]
    omega
  · obtain ⟨a, ha⟩ : ∃ a : Nat, whole dt x = a := ⟨(whole dt x).toNat, by omega⟩
    rw [ha] at hle hp ⊢
    have hle' : a ≤ 2 ^ 24 := by exact_mod_cast hle
    have hp' : 0 < a := by exact_mod_cast hp
    have h1 := Nat.sqrt_le a
    have h3 : a < (a.sqrt + 1) * (a.sqrt + 1) := Nat.lt_succ_sqrt a
    obtain ⟨m1, m2, m3⟩ := enc_root h1 h3 hle'
    refine ⟨a.sqrt, ?_, fun _ => ⟨by exact_mod_cast h1, by exact_mod_cast h3⟩, fun h => absurd h (by omega)⟩
    rw [fsqrt_whole hp' hle', fclamp_pos hw (lt_trans m3 (by decide)), clampAs_eq, (clampAs_num (.inl rfl) hw _).2]
    have hf : fnum Flt.f32 (enc Flt.f32 (root a) 2) = .fin (mag Flt.f32 (enc Flt.f32 (root a) 2) : Int) := by
      have := fnum_mk Flt.f32 (s := 0) (q := enc Flt.f32 (root a) 2) (lt_trans m3 (by decide))
      rw [Nat.zero_mul, Nat.zero_add, if_pos m3, if_pos rfl] at this
      exact this
    rw [hf]
    have ht : trunc (mag Flt.f32 (enc Flt.f32 (root a) 2) : Int) = (a.sqrt : Int) := by
      unfold trunc
      rw [← Int.ofNat_tdiv]
      congr 1
      generalize mag Flt.f32 (enc Flt.f32 (root a) 2) = m at *
      generalize one = W at *
      exact Nat.div_eq_of_lt_le m1 m2
    unfold saturate
    simp only [ht]
    have hs : a.sqrt ≤ a := Nat.sqrt_le_self a
    rw [e2] at w3
    rw [← w1, ha] at w3
    omega

/-! ## Where it goes wrong -/

/-- `1 + 2 ^ -11 + 2 ^ -40` of type `f64` is nearer to `1 + 2 ^ -10` than to `1`, but `f32` first rounds it to the midpoint. -/
theorem C100_half_false (fp8 : DType → Nat → Nat) : ∃ s : Sca, s.dt = .f64 ∧ s.bits < 2 ^ 64 ∧ ∃ z : Int, value .f64 s.bits = some z ∧
    ¬ Nearest Flt.f16 ((toDtype fp8 .f16 s).bits % 2 ^ 15) z.natAbs := by
  refine ⟨⟨.f64, 0x3FF0020000001000⟩, rfl, by decide, (2 ^ 1074 + 2 ^ 1063 + 2 ^ 1034 : Nat), by decide +kernel, fun h => ?_⟩
  have h1 := h 0x3C01
  have e : (toDtype fp8 .f16 ⟨.f64, 0x3FF0020000001000⟩).bits = 0x3C00 := by
    show halfOf Flt.f16 (Sca.toF32 ⟨.f64, 0x3FF0020000001000⟩) = 0x3C00
    decide +kernel
  rw [e] at h1
  revert h1
  decide +kernel

/-- A number above 255 becomes a small `U8` with `from_usize`, while the conversion of the same number saturates; `From<usize>` drops the high
half. -/
theorem C100_from_usize_false (fp8 : DType → Nat → Nat) :
    (fromInt fp8 300 .u8).bits = 44 ∧ (toDtype fp8 .u8 ⟨.u32, 300⟩).bits = 255 ∧ (fromInt fp8 (-1) .u8).bits = 255 ∧
    (toDtype fp8 .u8 ⟨.i32, 2 ^ 32 - 1⟩).bits = 0 ∧ (ofUsize (2 ^ 32)).bits = 0 ∧ whole .i32 (ofIsize (2 ^ 31)).bits = -2 ^ 31 := by
  refine ⟨?_, ?_, ?_, ?_, ?_, ?_⟩
  · show toInt .u8 300 = 44
    decide
  · show toWhole .u8 ⟨.u32, 300⟩ = 255
    decide +kernel
  · show toInt .u8 (-1) = 255
    decide
  · show toWhole .u8 ⟨.i32, 2 ^ 32 - 1⟩ = 0
    decide +kernel
  · decide
  · decide

/-- An infinity counts as a whole number; true does not. -/
theorem C100_integer_value_false : isIntegerValue ⟨.f32, 0x7F800000⟩ = true ∧ num .f32 0x7F800000 = .inf false ∧ isIntegerValue ⟨.bool, 1⟩ = false := by
  refine ⟨by decide +kernel, by decide +kernel, rfl⟩

/-- The remainder of the least number by minus one is zero, but panics. -/
theorem C100_rem_false (checked : Bool) (fl : Op → DType → Nat → Nat → Nat) :
    exact .rem (whole .i8 128) (whole .i8 255) = some 0 ∧ arith checked fl .rem ⟨.i8, 128⟩ ⟨.i8, 255⟩ = .panic := by
  refine ⟨by decide, ?_⟩
  cases checked <;> rfl

/-- Two to the power of minus one is taken to the power `4294967295`: a panic, or zero without overflow checks; one over itself stays one. -/
theorem C100_powi_false (fl : DType → Nat → Int → Nat) :
    powi true fl ⟨.i32, 2⟩ (-1) = .panic ∧ powi false fl ⟨.i32, 2⟩ (-1) = .ok ⟨.i32, 0⟩ ∧
    powi false fl ⟨.i32, 3⟩ (-1) = .ok ⟨.i32, 2863311531⟩ ∧ powi true fl ⟨.i32, 1⟩ (-1) = .ok ⟨.i32, 1⟩ := by
  have p : ∀ c x, powi c fl ⟨.i32, x⟩ (-1) = (powLoop (intOp c .i32 .mul) 32 (intVal .i32 x) 1 (toInt .u32 (-1))).bind fun r => .ok ⟨.i32, toInt .i32 r⟩ :=
    fun _ _ => rfl
  have q1 : powLoop (intOp true .i32 .mul) 32 (intVal .i32 2) 1 (toInt .u32 (-1)) = .panic := by decide +kernel
  have q2 : powLoop (intOp false .i32 .mul) 32 (intVal .i32 2) 1 (toInt .u32 (-1)) = .ok 0 := by decide +kernel
  have q3 : powLoop (intOp false .i32 .mul) 32 (intVal .i32 3) 1 (toInt .u32 (-1)) = .ok (-1431655765) := by decide +kernel
  have q4 : powLoop (intOp true .i32 .mul) 32 (intVal .i32 1) 1 (toInt .u32 (-1)) = .ok 1 := by decide +kernel
  rw [p, p, p, p, q1, q2, q3, q4]
  exact ⟨rfl, rfl, rfl, rfl⟩

/-- The root of `4097 * 4097 - 1` comes out as `4097`, the root of the largest `U32` as `65536`, whose square is no `U32`. -/
theorem C100_sqrt_false : (intSqrt ⟨.i32, 16785408⟩).bits = 4097 ∧ (4097 * 4097 : Nat) = 16785408 + 1 ∧ (intSqrt ⟨.u32, 4294967295⟩).bits = 65536 := by
  refine ⟨by decide +kernel, by decide, by decide +kernel⟩

/-! ## The hypotheses are met -/

example : toWhole .i8 ⟨.f32, 0xC3168000⟩ = 128 := by decide +kernel                       -- -150.5 → -128
example : toWhole .u8 ⟨.f32, 0x40700000⟩ = 3 ∧ toWhole .u8 ⟨.f32, 0xBF800000⟩ = 0 := by constructor <;> decide +kernel
example : toBool ⟨.f32, 0x7FC00000⟩ = true ∧ toBool ⟨.f32, 0x80000000⟩ = false := by constructor <;> decide +kernel
example : Rep (3 * one) ∧ value .i32 3 = some (3 * one) := ⟨rep_whole (by decide), value_whole rfl 3⟩
example : exact .add (whole .u8 250) (whole .u8 5) = some 255 ∧ exact .add (whole .u8 250) (whole .u8 6) = some 256 := by decide
example : exact .div (whole .i8 128) (whole .i8 255) = some 128 := by decide
example : (whole .i8 254) ^ 7 = -128 ∧ ((7 : Nat) : Int) = 7 % 2 ^ 32 := by decide
example : (whole .i8 254) ^ 8 = 256 := by decide
example : powLoop (intOp true .i8 .mul) 32 (-2) 1 7 = .ok (-128) := by decide +kernel
example : (intSqrt ⟨.i32, 99⟩).bits = 9 ∧ (intSqrt ⟨.i32, 2 ^ 32 - 4⟩).bits = 0 := by constructor <;> decide +kernel
example : num .f16 0x3E00 = .fin (3 * 2 ^ 1073 : Nat) := by decide +kernel

end Hodu.Scal
