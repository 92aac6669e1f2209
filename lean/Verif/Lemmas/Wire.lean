import Verif.Model.Wire
import Verif.Props.ReadBack
import Verif.Props.Scalar

/-! Lemmas about the wire format. -/

namespace Hodu.Wire
open Flt Cast Creation Scal

/-! ## What can be written -/

/-- A number, that is, not NaN, of a small float format. -/
def Spec.Num (f : Fmt) (x : Nat) : Prop := x < 2 ^ (f.width + 1) ∧ (x % 2 ^ f.width < f.top ∨ (x % 2 ^ f.width = f.top ∧ f ≠ Flt.f8e4m3))

/-- A Unicode scalar value. -/
def Spec.Scalar (c : Nat) : Prop := c < 0x110000 ∧ ¬(0xD800 ≤ c ∧ c < 0xE000)

/-- Values that a program can hold, whose lengths fit 64 bits and whose small floats are not NaN. -/
def Spec.Valid : (t : Ty) → t.Val → Prop
  | .unit, _ => True
  | .bool, _ => True
  | .byte, (n : Nat) => n < 256
  | .uint bits, (n : Nat) => n < 2 ^ bits
  | .int bits, (z : Int) => -2 ^ bits ≤ 2 * z ∧ 2 * z < 2 ^ bits
  | .float k, (x : Nat) => x < 256 ^ k
  | .small dt, (x : Nat) => ∃ f, Scal.small dt = some f ∧ Spec.Num f x
  | .dtype F, (d : DType) => F.has d = true
  | .char, (c : Nat) => Spec.Scalar c
  | .str, (cs : List Nat) => (∀ c ∈ cs, Spec.Scalar c) ∧ (cs.flatMap utf8).length < 2 ^ 64
  | .opt t, (x : Option t.Val) => ∀ y, x = some y → Spec.Valid t y
  | .seq t, (xs : List t.Val) => xs.length < 2 ^ 64 ∧ ∀ x ∈ xs, Spec.Valid t x
  | .pair a b, (x : a.Val × b.Val) => Spec.Valid a x.1 ∧ Spec.Valid b x.2
  | .sum _ f, ⟨i, x⟩ => i.val < 2 ^ 32 ∧ Spec.Valid (f i) x

/-- `F8E4M3::from(f32)` and `F8E5M2::from(f32)` give back the number that was turned into an `f32`. -/
def Spec.Inverse (fp8 : DType → Nat → Nat) : Prop :=
  ∀ dt f x, (dt = .f8e4m3 ∨ dt = .f8e5m2) → Scal.small dt = some f → Spec.Num f x → fp8 dt (smallUp dt x) = x

open Wire.Spec

/-! ## Numbers -/

theorem varBytes_lt (bits : Nat) {n : Nat} (h : n < 2 ^ bits) : n < 128 ^ varBytes bits := by
  refine lt_of_lt_of_le h ?_
  rw [show (128 : Nat) = 2 ^ 7 by rfl, ← Nat.pow_mul]
  refine Nat.pow_le_pow_right (by omega) ?_
  unfold varBytes
  omega

theorem uintDec_enc (bits : Nat) (hb : bits ≠ 0) {n : Nat} (h : n < 2 ^ bits) (rest : List Nat) :
    uintDec bits (varintEnc (varBytes bits) n ++ rest) = some (n, rest) := by
  unfold uintDec
  rw [varint_roundtrip (varBytes_lt bits h) rest (by unfold varBytes; omega)]
  simp only [if_pos h]

theorem uintDec_enc' {bits n : Nat} (h : n < 2 ^ bits) (hb : bits ≠ 0 := by decide) (rest : List Nat) :
    uintDec bits (varintEnc (varBytes bits) n ++ rest) = some (n, rest) := uintDec_enc bits hb h rest

theorem unzigzag_zigzag (z : Int) : unzigzag (zigzag z) = z := by
  unfold zigzag unzigzag
  split <;> split <;> omega

theorem zigzag_lt {bits : Nat} {z : Int} (h : -2 ^ bits ≤ 2 * z ∧ 2 * z < 2 ^ bits) : zigzag z < 2 ^ bits := by
  have : ((2 ^ bits : Nat) : Int) = 2 ^ bits := by push_cast; rfl
  unfold zigzag
  generalize (2 : Int) ^ bits = B at *
  generalize 2 ^ bits = C at *
  split <;> omega

theorem takeN_append {n : Nat} {xs : List Nat} (h : xs.length = n) (rest : List Nat) : takeN n (xs ++ rest) = some (xs, rest) := by
  subst h
  simp [takeN]

theorem half_small {dt : DType} {f : Fmt} (h : Scal.small dt = some f) {x : Nat} (hx : Num f x) : halfOf f (smallToF32 f x) = x := by
  obtain ⟨h1, h2, h3, h4, _⟩ := small_facts h
  obtain ⟨g1, g2⟩ := hx
  have hw : 0 < 2 ^ f.width := Nat.two_pow_pos _
  have hs : x / 2 ^ f.width < 2 := by rw [Nat.div_lt_iff_lt_mul hw]; rw [Nat.pow_succ] at g1; omega
  have hd := Nat.div_add_mod x (2 ^ f.width)
  have key : ∀ m q, m < 2 ^ 31 → (if m < Flt.f32.top then min (enc f (mag Flt.f32 m) 1) f.top else if m = Flt.f32.top then f.top else f.top + 1) = q →
      q = x % 2 ^ f.width → halfOf f (signed (x / 2 ^ f.width ≠ 0) m) = x := by
    intro m q hm hq hq'
    unfold halfOf signed
    rcases Nat.lt_or_ge (x / 2 ^ f.width) 1 with h0 | h0
    · have h0 : x / 2 ^ f.width = 0 := Nat.lt_one_iff.1 h0
      rw [h0] at hd ⊢
      simp only [ne_eq, not_true_eq_false, decide_false, Bool.false_eq_true, if_false, Nat.zero_add]
      rw [Nat.mod_eq_of_lt hm, hq, hq', Nat.div_eq_of_lt hm]
      omega
    · have h0 : x / 2 ^ f.width = 1 := le_antisymm (Nat.lt_succ_iff.1 hs) h0
      rw [h0] at hd ⊢
      simp only [ne_eq, Nat.one_ne_zero, not_false_eq_true, decide_true, if_true]
      rw [Nat.add_mod_left, Nat.mod_eq_of_lt hm, hq, hq', Nat.add_div_left _ (by decide), Nat.div_eq_of_lt hm]
      omega
  unfold smallToF32
  rcases g2 with g2 | ⟨g2, g3⟩
  · rw [if_pos g2]
    obtain ⟨r1, r2⟩ := rep_small h1 h2 h3 g2
    refine key _ _ (lt_of_lt_of_le r2 (by decide)) (by rw [if_pos r2, r1, enc_mag]) (by rw [min_eq_left g2.le])
  · rw [if_neg (by omega), if_pos ⟨g2, g3⟩]
    exact key _ _ (by decide) (by rw [if_neg (by omega), if_pos rfl]) g2.symm

theorem smallToF32_lt {dt : DType} {f : Fmt} (h : Scal.small dt = some f) (x : Nat) : smallToF32 f x < 256 ^ 4 := by
  obtain ⟨h1, h2, h3, h4, _⟩ := small_facts h
  unfold smallToF32 signed
  have hb : (if decide (x / 2 ^ f.width ≠ 0) = true then 2 ^ 31 else 0) ≤ 2 ^ 31 := by split <;> omega
  have hm : (if x % 2 ^ f.width < f.top then enc Flt.f32 (mag f (x % 2 ^ f.width)) 1
    else if x % 2 ^ f.width = f.top ∧ f ≠ Flt.f8e4m3 then Flt.f32.top else Flt.f32.top + 2 ^ 22) < 2 ^ 31 := by
    split
    · next hlt => exact lt_of_lt_of_le (rep_small h1 h2 h3 hlt).2 (by decide)
    · split <;> decide
  omega

theorem smallUp_eq {dt : DType} {f : Fmt} (h : Scal.small dt = some f) (x : Nat) : smallUp dt x = smallToF32 f x := by
  cases dt <;> simp only [Scal.small, reduceCtorEq, Option.some.injEq] at h <;> subst h <;> rfl

theorem smallDown_up {fp8 : DType → Nat → Nat} (hf : Inverse fp8) {dt : DType} {f : Fmt} (h : Scal.small dt = some f) {x : Nat}
    (hx : Num f x) : smallDown fp8 dt (smallUp dt x) = x := by
  have h0 := h
  cases dt <;> simp only [Scal.small, reduceCtorEq, Option.some.injEq] at h <;> subst h
  · exact hf _ _ x (Or.inl rfl) h0 hx
  · exact hf _ _ x (Or.inr rfl) h0 hx
  · rw [smallUp_eq h0]; exact half_small h0 hx
  · rw [smallUp_eq h0]; exact half_small h0 hx

/-! ## Text -/

theorem utf8Next_utf8 {c : Nat} (h : Spec.Scalar c) (rest : List Nat) : utf8Next (utf8 c ++ rest) = some (c, rest) := by
  obtain ⟨h1, h2⟩ := h
  unfold utf8
  by_cases a1 : c < 0x80
  · rw [if_pos a1]; simp [utf8Next, a1]
  rw [if_neg a1]
  by_cases a2 : c < 0x800
  · rw [if_pos a2]
    simp only [List.cons_append, List.nil_append, utf8Next]
    rw [if_neg (by omega), if_pos (by omega), if_pos (by simp [isCont]; omega)]
    have hv : (0xC0 + c / 64 - 0xC0) * 64 + (0x80 + c % 64 - 0x80) = c := by omega
    rw [hv]
  rw [if_neg a2]
  by_cases a3 : c < 0x10000
  · rw [if_pos a3]
    simp only [List.cons_append, List.nil_append, utf8Next]
    rw [if_neg (by omega), if_neg (by omega), if_pos (by omega)]
    have hv : (0xE0 + c / 4096 - 0xE0) * 4096 + (0x80 + c / 64 % 64 - 0x80) * 64 + (0x80 + c % 64 - 0x80) = c := by omega
    rw [hv, if_pos]
    simp [isCont]; omega
  · rw [if_neg a3]
    simp only [List.cons_append, List.nil_append, utf8Next]
    rw [if_neg (by omega), if_neg (by omega), if_neg (by omega), if_pos (by omega)]
    have hv : (0xF0 + c / 262144 - 0xF0) * 262144 + (0x80 + c / 4096 % 64 - 0x80) * 4096 + (0x80 + c / 64 % 64 - 0x80) * 64 +
      (0x80 + c % 64 - 0x80) = c := by omega
    rw [hv, if_pos]
    simp [isCont]; omega

theorem utf8_length (c : Nat) : 1 ≤ (utf8 c).length ∧ (utf8 c).length ≤ 4 := by
  unfold utf8
  split_ifs <;> simp

theorem utf8_lt {c : Nat} (h : Spec.Scalar c) : ∀ b ∈ utf8 c, b < 256 := by
  obtain ⟨h1, _⟩ := h
  unfold utf8
  split_ifs <;> simp only [List.mem_cons, List.not_mem_nil, or_false] <;> intro b hb <;> omega

theorem utf8All_utf8 {cs : List Nat} (h : ∀ c ∈ cs, Spec.Scalar c) {n : Nat} (hn : cs.length ≤ n) : utf8All n (cs.flatMap utf8) = some cs := by
  induction cs generalizing n with
  | nil => cases n <;> rfl
  | cons c cs ih =>
    obtain ⟨n, rfl⟩ : ∃ m, n = m + 1 := ⟨n - 1, by simp at hn; omega⟩
    have hl := (utf8_length c).1
    have e := utf8Next_utf8 (h c (by simp)) (cs.flatMap utf8)
    rw [List.flatMap_cons]
    obtain ⟨a, as, ha⟩ : ∃ a as, utf8 c ++ cs.flatMap utf8 = a :: as := by
      cases hu : utf8 c with
      | nil => simp [hu] at hl
      | cons a as => exact ⟨a, _, rfl⟩
    rw [ha] at e ⊢
    unfold utf8All
    rw [e, Option.bind_some]
    dsimp only
    rw [ih (fun x hx => h x (by simp [hx])) (by simpa using hn)]
    rfl

theorem utf8_count (cs : List Nat) : cs.length ≤ (cs.flatMap utf8).length := by
  induction cs with
  | nil => simp
  | cons c cs ih => have := (utf8_length c).1; simp only [List.flatMap_cons, List.length_append, List.length_cons]; omega

theorem strDec_enc {cs : List Nat} (h : ∀ c ∈ cs, Spec.Scalar c) (hl : (cs.flatMap utf8).length < 2 ^ 64) (rest : List Nat) :
    strDec (varintEnc (varBytes 64) (cs.flatMap utf8).length ++ cs.flatMap utf8 ++ rest) = some (cs, rest) := by
  unfold strDec
  rw [List.append_assoc, uintDec_enc 64 (by decide) hl, Option.bind_some]
  dsimp only
  rw [takeN_append rfl, Option.bind_some]
  dsimp only
  rw [utf8All_utf8 h (utf8_count cs)]
  rfl

theorem charDec_enc {c : Nat} (h : Spec.Scalar c) (rest : List Nat) :
    charDec (varintEnc (varBytes 64) (utf8 c).length ++ utf8 c ++ rest) = some (c, rest) := by
  have hl := utf8_length c
  unfold charDec
  rw [List.append_assoc, uintDec_enc 64 (by decide) (by omega), Option.bind_some]
  dsimp only
  rw [if_neg (by omega), takeN_append rfl, Option.bind_some]
  dsimp only
  have := utf8All_utf8 (cs := [c]) (by simpa using h) (n := (utf8 c).length) (by simpa using hl.1)
  rw [List.flatMap_singleton] at this
  rw [this]
  rfl

/-! ## Round trip -/

theorem decN_enc {α : Type} {d : List Nat → Option (α × List Nat)} {e : α → List Nat} {xs : List α}
    (h : ∀ x ∈ xs, ∀ rest, d (e x ++ rest) = some (x, rest)) (rest : List Nat) :
    decN d xs.length (xs.flatMap e ++ rest) = some (xs, rest) := by
  induction xs with
  | nil => rfl
  | cons x xs ih =>
    simp only [List.length_cons, decN, List.flatMap_cons, List.append_assoc]
    rw [h x (by simp), Option.bind_some]
    dsimp only
    rw [ih fun y hy => h y (by simp [hy])]
    rfl

/-- The widths of the numbers of a schema are not zero. -/
def Wide : Ty → Prop
  | .uint bits => bits ≠ 0
  | .int bits => bits ≠ 0
  | .opt t => Wide t
  | .seq t => Wide t
  | .pair a b => Wide a ∧ Wide b
  | .sum _ f => ∀ i, Wide (f i)
  | _ => True

theorem ofCode_filter {F : Feats} {d : DType} (h : F.has d = true) : (DType.ofCode d.code).filter F.has = some d := by
  have : DType.ofCode d.code = some d := by cases d <;> rfl
  rw [this]
  simp [h]

theorem dec_enc {fp8 : DType → Nat → Nat} (hf : Inverse fp8) (t : Ty) (hw : Wide t) (x : t.Val) (hx : Valid t x) (rest : List Nat) :
    decT fp8 t (encT t x ++ rest) = some (x, rest) := by
  induction t generalizing rest with
  | unit => rfl
  | bool => revert x; intro (x : Bool) _; cases x <;> rfl
  | byte => rfl
  | uint bits => exact uintDec_enc bits hw hx rest
  | int bits =>
    revert x
    intro (x : Int) hx
    show (uintDec bits (varintEnc (varBytes bits) (zigzag x) ++ rest)).map (fun z => (unzigzag z.1, z.2)) = some (x, rest)
    rw [uintDec_enc bits hw (zigzag_lt hx) rest, Option.map_some]
    dsimp only
    rw [unzigzag_zigzag]
  | float n =>
    revert x
    intro (x : Nat) hx
    show (takeN n (leBytes n x ++ rest)).map (fun z => (fromLE z.1, z.2)) = some (x, rest)
    rw [takeN_append (leBytes_length n x), Option.map_some]
    dsimp only
    rw [fromLE_leBytes hx]
  | small dt =>
    revert x
    intro (x : Nat) hx
    obtain ⟨f, h1, h2⟩ := hx
    show (takeN 4 (leBytes 4 (smallUp dt x) ++ rest)).map (fun z => (smallDown fp8 dt (fromLE z.1), z.2)) = some (x, rest)
    rw [takeN_append (leBytes_length 4 _), Option.map_some]
    dsimp only
    rw [fromLE_leBytes (by rw [smallUp_eq h1]; exact smallToF32_lt h1 x), smallDown_up hf h1 h2]
  | dtype F =>
    unfold decT encT
    simp only [List.cons_append, List.nil_append]
    rw [ofCode_filter hx]
    rfl
  | char => exact charDec_enc hx rest
  | str => exact strDec_enc hx.1 hx.2 rest
  | opt t ih =>
    revert x
    intro (x : Option t.Val) hx
    cases x with
    | none => rfl
    | some y =>
      show (decT fp8 t (encT t y ++ rest)).map (fun z => ((some z.1 : Option t.Val), z.2)) = some (some y, rest)
      rw [ih hw y (hx y rfl)]
      rfl
  | seq t ih =>
    unfold decT encT
    rw [List.append_assoc, uintDec_enc 64 (by decide) hx.1, Option.bind_some]
    exact decN_enc (fun y hy r => ih hw y (hx.2 y hy) r) rest
  | pair a b iha ihb =>
    unfold decT encT
    rw [List.append_assoc, iha hw.1 _ hx.1, Option.bind_some]
    dsimp only
    rw [ihb hw.2 _ hx.2]
    rfl
  | sum n f ih =>
    obtain ⟨i, y⟩ := x
    show (uintDec 32 (varintEnc (varBytes 32) i.val ++ encT (f i) y ++ rest)).bind (fun z => if h : z.1 < n then
      (decT fp8 (f ⟨z.1, h⟩) z.2).map (fun w => ((⟨⟨z.1, h⟩, w.1⟩ : (Ty.sum n f).Val), w.2)) else none) = some (⟨i, y⟩, rest)
    rw [List.append_assoc, uintDec_enc 32 (by decide) hx.1, Option.bind_some]
    dsimp only
    rw [dif_pos i.isLt, ih i (hw i) y hx.2]
    rfl

/-! ## More bytes -/

/-- More bytes at the end are left over. -/
def Mono {α : Type} (d : List Nat → Option (α × List Nat)) : Prop :=
  ∀ p q y r, d p = some (y, r) → d (p ++ q) = some (y, r ++ q)

theorem varintDec_mono (k : Nat) : Mono (varintDec k) := by
  induction k with
  | zero => intro p q y r h; simp [varintDec] at h
  | succ k ih =>
    intro p q y r h
    cases p with
    | nil => simp [varintDec] at h
    | cons b bs =>
      simp only [varintDec, List.cons_append] at h ⊢
      split at h
      · next hb => rw [if_pos hb]; simp only [Option.some.injEq, Prod.mk.injEq] at h ⊢; obtain ⟨rfl, rfl⟩ := h; simp
      · next hb =>
        rw [if_neg hb]
        cases hv : varintDec k bs with
        | none => rw [hv] at h; simp at h
        | some v =>
          rw [hv] at h
          rw [ih _ q v.1 v.2 hv]
          simp only [Option.map_some, Option.some.injEq, Prod.mk.injEq] at h ⊢
          obtain ⟨rfl, rfl⟩ := h
          simp

theorem uintDec_mono (bits : Nat) : Mono (uintDec bits) := by
  intro p q y r h
  unfold uintDec at h ⊢
  cases hv : varintDec (varBytes bits) p with
  | none => rw [hv] at h; simp at h
  | some v =>
    rw [hv] at h
    rw [varintDec_mono _ _ q v.1 v.2 hv]
    dsimp only at h ⊢
    split at h
    · next hb => rw [if_pos hb]; simp only [Option.some.injEq, Prod.mk.injEq] at h ⊢; obtain ⟨rfl, rfl⟩ := h; simp
    · simp at h

theorem takeN_mono (n : Nat) : Mono (takeN n) := by
  intro p q y r h
  unfold takeN at h ⊢
  split at h
  · next hn =>
    simp only [Option.some.injEq, Prod.mk.injEq] at h
    obtain ⟨rfl, rfl⟩ := h
    rw [if_pos (by simp; omega), List.take_append_of_le_length hn, List.drop_append_of_le_length hn]
  · simp at h

theorem mono_bind {α β : Type} {d : List Nat → Option (α × List Nat)} {e : α → List Nat → Option (β × List Nat)} (hd : Mono d)
    (he : ∀ x, Mono (e x)) : Mono fun bs => (d bs).bind fun z => e z.1 z.2 := by
  intro p q y r h
  dsimp only at h ⊢
  cases hv : d p with
  | none => rw [hv] at h; simp at h
  | some v =>
    rw [hv, Option.bind_some] at h
    rw [hd _ q v.1 v.2 hv, Option.bind_some]
    exact he _ _ q _ _ h

theorem mono_map {α β : Type} {d : List Nat → Option (α × List Nat)} (g : α → β) (hd : Mono d) :
    Mono fun bs => (d bs).map fun z => (g z.1, z.2) := by
  intro p q y r h
  dsimp only at h ⊢
  cases hv : d p with
  | none => rw [hv] at h; simp at h
  | some v =>
    rw [hv, Option.map_some] at h
    rw [hd _ q v.1 v.2 hv, Option.map_some]
    simp only [Option.some.injEq, Prod.mk.injEq] at h ⊢
    obtain ⟨rfl, rfl⟩ := h
    simp

theorem mono_none {α : Type} : Mono (fun _ => (none : Option (α × List Nat))) := by intro p q y r h; simp at h

theorem mono_some {α : Type} (a : α) : Mono (fun bs => some (a, bs)) := by
  intro p q y r h
  simp only [Option.some.injEq, Prod.mk.injEq] at h ⊢
  obtain ⟨rfl, rfl⟩ := h
  simp

theorem mono_opt {α : Type} (o : Option α) : Mono (fun bs => o.map fun a => (a, bs)) := by
  cases o
  · exact mono_none
  · exact mono_some _

theorem mono_ite {α : Type} {c : Prop} [Decidable c] {d e : List Nat → Option (α × List Nat)} (hd : c → Mono d) (he : ¬c → Mono e) :
    Mono fun bs => if c then d bs else e bs := by
  by_cases h : c
  · simpa only [if_pos h] using hd h
  · simpa only [if_neg h] using he h

/-- The next byte decides. -/
theorem mono_cons {α : Type} {d : List Nat → Option (α × List Nat)} (e : Nat → List Nat → Option (α × List Nat)) (h0 : d [] = none)
    (h1 : ∀ b bs, d (b :: bs) = e b bs) (he : ∀ b, Mono (e b)) : Mono d := by
  intro p q y r h
  cases p with
  | nil => rw [h0] at h; simp at h
  | cons b bs =>
    rw [h1] at h
    rw [List.cons_append, h1]
    exact he b _ q _ _ h

theorem decN_mono {α : Type} {d : List Nat → Option (α × List Nat)} (hd : Mono d) (n : Nat) : Mono (decN d n) := by
  induction n with
  | zero => exact mono_some _
  | succ n ih => exact mono_bind hd fun x => mono_map (x :: ·) ih

theorem dec_mono (fp8 : DType → Nat → Nat) (t : Ty) : Mono (decT fp8 t) := by
  induction t with
  | unit => exact mono_some _
  | bool =>
    refine mono_cons (fun b bs => if b = 0 then some (false, bs) else if b = 1 then some (true, bs) else none) rfl (fun b bs => ?_)
      fun b => mono_ite (fun _ => mono_some _) fun _ => mono_ite (fun _ => mono_some _) fun _ => mono_none
    match b with
    | 0 => rfl
    | 1 => rfl
    | b + 2 => rfl
  | byte => exact mono_cons (fun b bs => some (b, bs)) rfl (fun _ _ => rfl) fun b => mono_some _
  | uint bits => exact uintDec_mono bits
  | int bits => exact mono_map unzigzag (uintDec_mono bits)
  | float n => exact mono_map fromLE (takeN_mono n)
  | small dt => exact mono_map (fun b => smallDown fp8 dt (fromLE b)) (takeN_mono 4)
  | dtype F =>
    exact mono_cons (fun b bs => ((DType.ofCode b).filter F.has).map fun d => (d, bs)) rfl (fun _ _ => rfl) fun b => mono_opt _
  | char =>
    refine mono_bind (e := fun n bs => if 4 < n then none else (takeN n bs).bind fun z => (utf8All n z.1).bind fun cs =>
      cs.head?.map fun c => (c, z.2)) (uintDec_mono 64) fun n => mono_ite (fun _ => mono_none) fun _ =>
      mono_bind (e := fun txt bs => (utf8All n txt).bind fun cs => cs.head?.map fun c => (c, bs)) (takeN_mono n) fun txt => ?_
    cases utf8All n txt with
    | none => exact mono_none
    | some cs => exact mono_opt cs.head?
  | str => exact mono_bind (uintDec_mono 64) fun n => mono_bind (takeN_mono n) fun txt => mono_opt (utf8All n txt)
  | opt t ih =>
    refine mono_cons (fun b bs => if b = 0 then some ((none : Option t.Val), bs) else
      if b = 1 then (decT fp8 t bs).map fun z => (some z.1, z.2) else none) rfl (fun b bs => ?_)
      fun b => mono_ite (fun _ => mono_some _) fun _ => mono_ite (fun _ => mono_map some ih) fun _ => mono_none
    match b with
    | 0 => rfl
    | 1 => rfl
    | b + 2 => rfl
  | seq t ih => exact mono_bind (uintDec_mono 64) fun n => decN_mono ih n
  | pair a b iha ihb => exact mono_bind iha fun x => mono_map (fun y => (x, y)) ihb
  | sum n f ih =>
    refine mono_bind (e := fun i bs => if h : i < n then (decT fp8 (f ⟨i, h⟩) bs).map (fun w => ((⟨⟨i, h⟩, w.1⟩ : (Ty.sum n f).Val), w.2))
      else none) (uintDec_mono 32) fun i => ?_
    by_cases h : i < n
    · simp only [dif_pos h]
      exact mono_map (fun x => (⟨⟨i, h⟩, x⟩ : (Ty.sum n f).Val)) (ih ⟨i, h⟩)
    · simp only [dif_neg h]
      exact mono_none

/-! ## Bytes -/

theorem varintEnc_lt (k n : Nat) : ∀ b ∈ varintEnc k n, b < 256 := by
  induction k generalizing n with
  | zero => simp [varintEnc]
  | succ k ih =>
    unfold varintEnc
    split
    · simp; omega
    · simp only [List.mem_cons, forall_eq_or_imp]
      exact ⟨by omega, ih _⟩

theorem enc_lt (t : Ty) (x : t.Val) (hx : Valid t x) : ∀ b ∈ encT t x, b < 256 := by
  induction t with
  | unit => simp [encT]
  | bool => revert x; intro (x : Bool) _; cases x <;> simp [encT]
  | byte =>
    revert x
    intro (x : Nat) hx b (hb : b ∈ [x])
    rw [List.mem_singleton] at hb
    subst hb
    exact hx
  | uint bits => exact varintEnc_lt _ _
  | int bits => exact varintEnc_lt _ _
  | float n => intro b hb; exact leBytes_lt hb
  | small dt => intro b hb; exact leBytes_lt hb
  | dtype F => revert x; intro (x : DType) _; show ∀ b ∈ [x.code], b < 256; cases x <;> decide
  | char =>
    unfold encT
    intro b hb
    rcases List.mem_append.1 hb with hb | hb
    · exact varintEnc_lt _ _ b hb
    · exact utf8_lt hx b hb
  | str =>
    unfold encT
    intro b hb
    rcases List.mem_append.1 hb with hb | hb
    · exact varintEnc_lt _ _ b hb
    · obtain ⟨c, hc, hb⟩ := List.mem_flatMap.1 hb
      exact utf8_lt (hx.1 c hc) b hb
  | opt t ih =>
    revert x
    intro (x : Option t.Val) hx
    cases x with
    | none => simp [encT]
    | some y =>
      show ∀ b ∈ 1 :: encT t y, b < 256
      simp only [List.mem_cons, forall_eq_or_imp]
      exact ⟨by omega, ih y (hx y rfl)⟩
  | seq t ih =>
    unfold encT
    intro b hb
    rcases List.mem_append.1 hb with hb | hb
    · exact varintEnc_lt _ _ b hb
    · obtain ⟨c, hc, hb⟩ := List.mem_flatMap.1 hb
      exact ih c (hx.2 c hc) b hb
  | pair a b iha ihb =>
    unfold encT
    intro c hc
    rcases List.mem_append.1 hc with hc | hc
    · exact iha _ hx.1 c hc
    · exact ihb _ hx.2 c hc
  | sum n f ih =>
    obtain ⟨i, y⟩ := x
    intro b (hb : b ∈ varintEnc (varBytes 32) i.val ++ encT (f i) y)
    rcases List.mem_append.1 hb with hb | hb
    · exact varintEnc_lt _ _ b hb
    · exact ih i y hx.2 b hb

end Hodu.Wire
