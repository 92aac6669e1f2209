import Verif.Lemmas.JsonFloat
import Verif.Props.ReadBack

/-!
# C53: the JSON tensor format round-trips
-/

namespace Hodu.Json
open Flt Hodu.Spec

/-- The magnitude that is printed for an element of a floating-point type. -/
def Spec.shown (dt : DType) (v : Nat) : Nat :=
  if dt = .f64 then v % 2 ^ 63 else enc f64 (mag (fmtOf dt) (v % 2 ^ (fmtOf dt).width)) 1

/-- The element is a finite number. -/
def Spec.Finite (dt : DType) (v : Nat) : Prop :=
  dt.isFloat = true → v % 2 ^ (fmtOf dt).width < (fmtOf dt).top

/-- The element's printed decimal identifies it. -/
def Spec.Shown (pr : Nat → Nat × Int) (dt : DType) (v : Nat) : Prop :=
  dt.isFloat = true → Spec.Printed pr (Spec.shown dt v)

/-- An `f64` with at most 15 digits and a moderate exponent. -/
def Spec.Short (pr : Nat → Nat × Int) (dt : DType) (v : Nat) : Prop :=
  dt = .f64 → (pr (Spec.shown dt v)).1 < 2 ^ 53 ∧ (pr (Spec.shown dt v)).2.natAbs ≤ 22

/-! ## Narrow formats -/

/-- What makes a format narrow enough. -/
structure Narrow (f : Fmt) : Prop where
  man : f.man ≤ 23
  unit : 900 ≤ f.unit
  top : mag f f.top ≤ 2 ^ 1202
  width : f.top ≤ 2 ^ f.width

theorem narrow_fmt {dt : DType} (h : dt.isFloat = true) (h' : dt ≠ .f64) : Narrow (fmtOf dt) := by
  cases dt <;> first | exact absurd h (by decide) | exact absurd rfl h' | skip
  all_goals exact ⟨by decide, by decide, by decide +kernel, by decide +kernel⟩

theorem mag_widen {f : Fmt} (hf : Narrow f) (p : Nat) :
    mag f64 (enc f64 (mag f p) 1) = mag f p := by
  obtain ⟨e, s, hp, hs, hes⟩ := split f p
  have h1 : mag f p = s * 2 ^ (f64.unit + (e + f.unit)) := by
    rw [hp, mag_eq f hs.le hes, Nat.mul_assoc, ← Nat.pow_add]
    congr 2
    simp [f64]
  rw [h1]
  refine mag_enc_exact f64 (Nat.lt_of_lt_of_le hs (Nat.pow_le_pow_right (by omega) ?_))
  have := hf.man
  have : f64.man = 52 := rfl
  omega

theorem narrow_roundtrip {pr : Nat → Nat × Int} {f : Fmt} (hf : Narrow f) {p : Nat} (hp : p < f.top)
    (hpr : Spec.Printed pr (enc f64 (mag f p) 1)) :
    enc f64 (mag f p) 1 < f64.top ∧
    ∃ q, fromParts (pr (enc f64 (mag f p) 1)).1 (pr (enc f64 (mag f p) 1)).2 = some q ∧
      q < f64.top ∧ enc f (mag f64 q) 1 = p := by
  have hw := mag_widen hf p
  have hup : mag f p ≤ 2 ^ 1202 := Nat.le_trans (mag_mono f hp.le) hf.top
  have hlo : p = 0 ∨ 2 ^ 900 ≤ mag f p := by
    rcases Nat.eq_zero_or_pos p with h | h
    · exact Or.inl h
    · exact Or.inr (Nat.le_trans (Nat.pow_le_pow_right (by omega) hf.unit) (mag_pos f h))
  refine ⟨?_, ?_⟩
  · apply lt_top_of_mag
    rw [hw]
    exact Nat.lt_of_le_of_lt hup (by decide +kernel)
  · obtain ⟨q, h1, h2, h3, h4⟩ := fromParts_close hpr (by
      rcases hlo with h | h
      · left; rw [h, mag_zero]; exact enc_zero _ Nat.one_pos
      · right; rw [hw]; exact ⟨h, hup⟩)
    refine ⟨q, h1, h2, ?_⟩
    rw [hw] at h3 h4
    apply enc_near
    rcases hlo with h | h
    · left
      rw [h, mag_zero] at h3 ⊢
      simpa using h3
    · have hpos : 0 < mag f p := Nat.lt_of_lt_of_le (Nat.two_pow_pos _) h
      have hm : 2 ^ (f.man + 2) ≤ 2 ^ 25 := Nat.pow_le_pow_right (by omega) (by have := hf.man; omega)
      generalize mag f p = x at *
      generalize mag f64 q = y at *
      have h3' : 2 ^ 50 * y ≤ (2 ^ 50 + 1) * x := by
        have : (2 ^ 50 : ℚ) * y ≤ (2 ^ 50 + 1) * x := by norm_num at *; linarith
        exact_mod_cast this
      have h4' : (2 ^ 50 - 1) * x ≤ 2 ^ 50 * y := by
        have : (1125899906842623 : ℚ) * x ≤ 2 ^ 50 * y := by norm_num at *; linarith
        exact_mod_cast this
      have hb : ∀ d : Nat, 2 ^ 50 * d ≤ x → d * 2 ^ (f.man + 2) < x := by
        intro d hd
        have : d * 2 ^ (f.man + 2) ≤ d * 2 ^ 25 := Nat.mul_le_mul_left _ hm
        omega
      rcases Nat.lt_trichotomy y x with h | h | h
      · right; left
        exact ⟨h, hb _ (by omega)⟩
      · left; exact h
      · right; right
        exact ⟨h, hb _ (by omega)⟩

/-! ## Short decimals in `f64` -/

theorem enc_cancel (f : Fmt) (n : Nat) {d c : Nat} (hc : 0 < c) :
    enc f (n * c) (d * c) = enc f n d := by
  have h1 : n * c / (d * c * 2 ^ f.unit) = n / (d * 2 ^ f.unit) := by
    rw [Nat.mul_right_comm, Nat.mul_div_mul_right _ _ hc]
  have h2 : ∀ e, d * c * 2 ^ f.unit * 2 ^ e = d * 2 ^ f.unit * 2 ^ e * c := fun e => by ring
  have h3 : ∀ D, n * c % (D * c) = n % D * c := fun D => Nat.mul_mod_mul_right _ _ _
  simp only [enc, h1, h2, Nat.mul_div_mul_right _ _ hc, h3]
  have h4 : ∀ D r : Nat, D * c < 2 * (r * c) ↔ D < 2 * r := fun D r => by
    rw [← Nat.mul_assoc]; exact Nat.mul_lt_mul_right hc
  have h5 : ∀ D r : Nat, 2 * (r * c) = D * c ↔ 2 * r = D := fun D r => by
    rw [← Nat.mul_assoc]; exact Nat.mul_left_inj (by omega)
  simp only [h4, h5]

theorem enc_mul_gen (f : Fmt) (x y : Nat) {K : Nat} (hK : 0 < K) :
    enc f (x * K * (y * K)) K = enc f (x * y * K) 1 := by
  have := enc_cancel f (x * y * K) (d := 1) hK
  rw [Nat.one_mul] at this
  rw [← this]
  congr 1
  ring

theorem short_roundtrip {pr : Nat → Nat × Int} {p : Nat} (hp : p < f64.top)
    (hpr : Spec.Printed pr p) (h1 : (pr p).1 < 2 ^ 53) (h2 : (pr p).2.natAbs ≤ 22) :
    fromParts (pr p).1 (pr p).2 = some p := by
  obtain ⟨-, -, hr⟩ := hpr
  generalize (pr p).1 = s at *
  generalize (pr p).2 = e at *
  have ha : mag f64 (enc f64 (s * 2 ^ 1074) 1) = s * 2 ^ 1074 :=
    mag_enc_exact f64 (s := s) (j := 1074) h1
  have hb : mag f64 (pow10 e.natAbs) = 10 ^ e.natAbs * 2 ^ 1074 := by
    have h5 : 10 ^ e.natAbs * 2 ^ 1074 = 5 ^ e.natAbs * 2 ^ (f64.unit + (e.natAbs + 1074)) := by
      rw [show (10 : Nat) = 5 * 2 from rfl, Nat.mul_pow, show f64.unit = 0 from rfl, Nat.zero_add,
        Nat.pow_add, Nat.mul_assoc]
    have h6 : 5 ^ e.natAbs < 2 ^ (f64.man + 1) :=
      Nat.lt_of_le_of_lt (Nat.pow_le_pow_right (by omega) h2) (by decide)
    unfold pow10
    rw [h5]
    exact mag_enc_exact f64 h6
  unfold fromParts scaleLoop
  rw [if_pos (by omega)]
  by_cases he : 0 ≤ e
  · rw [if_pos he] at hr ⊢
    have : fmul (enc f64 (s * 2 ^ 1074) 1) (pow10 e.natAbs) = p := by
      unfold fmul
      rw [ha, hb, hr]
      exact enc_mul_gen f64 s (10 ^ e.natAbs) (Nat.two_pow_pos 1074)
    simp only
    rw [this, if_pos hp]
  · rw [if_neg he] at hr ⊢
    have : fdiv (enc f64 (s * 2 ^ 1074) 1) (pow10 e.natAbs) = p := by
      unfold fdiv
      rw [ha, hb, hr]
      exact enc_cancel f64 _ (Nat.two_pow_pos 1074)
    rw [this]

/-! ## Elements and tensors -/

theorem shown_narrow {dt : DType} (h : dt ≠ .f64) (v : Nat) :
    Spec.shown dt v = enc f64 (mag (fmtOf dt) (v % 2 ^ (fmtOf dt).width)) 1 := by
  unfold Spec.shown; rw [if_neg h]

theorem sign_split (s : Nat) {q : Nat} (h : q < f64.top) :
    (s * 2 ^ 63 + q) % 2 ^ 63 = q ∧ (s * 2 ^ 63 + q) / 2 ^ 63 = s := by
  have : f64.top < 2 ^ 63 := by decide
  omega

theorem int_back {dt : DType} {v : Nat} (hb : dt.isBool = false) (hf : dt.isFloat = false)
    (hv : IsElement dt v) : elemOfJson dt (.int (intOf dt v)) = some v := by
  cases dt <;> first | exact absurd hb (by decide) | exact absurd hf (by decide) | skip
  all_goals
    simp only [IsElement, DType.sizeInBytes, reduceCtorEq, if_false] at hv
    simp [elemOfJson, intOf, DType.isBool, DType.isFloat, DType.isUint, DType.isInt,
      DType.sizeInBytes]
  all_goals (try split) <;> omega

/-- One element comes back. -/
theorem elem_back {pr : Nat → Nat × Int} {dt : DType} {v : Nat} (hv : IsElement dt v)
    (hfin : Spec.Finite dt v) (hsh : Spec.Shown pr dt v) (hs : Spec.Short pr dt v) :
    ∃ j, reparse pr (elemToJson dt v) = .ok j ∧ elemOfJson dt j = some v := by
  by_cases hb : dt.isBool = true
  · have : dt = .bool := by cases dt <;> first | rfl | exact absurd hb (by decide)
    subst this
    refine ⟨.bool (v ≠ 0), by simp [elemToJson, DType.isBool, reparse], ?_⟩
    simp only [IsElement, if_true] at hv
    rcases (by omega : v = 0 ∨ v = 1) with h | h <;> subst h <;> rfl
  · by_cases hf : dt.isFloat = true
    · have hfin := hfin hf
      have hsh := hsh hf
      by_cases h64 : dt = .f64
      · obtain ⟨hs1, hs2⟩ := hs h64
        subst h64
        simp only [Spec.shown, if_true] at hsh hs1 hs2
        have htop : v % 2 ^ 63 < f64.top := hfin
        refine ⟨.float v, ?_, by simp [elemOfJson, asF64, DType.isBool, DType.isFloat]⟩
        simp only [elemToJson, if_neg hb, if_pos hf, if_true, if_pos htop, reparse, reread]
        rw [short_roundtrip htop hsh hs1 hs2]
        have : v / 2 ^ 63 * 2 ^ 63 + v % 2 ^ 63 = v := by omega
        simp only [Option.map_some, this]
      · have hn := narrow_fmt hf h64
        rw [shown_narrow h64] at hsh
        obtain ⟨h1, q, h2, h3, h4⟩ := narrow_roundtrip hn hfin hsh
        have e1 := sign_split (v / 2 ^ (fmtOf dt).width) h1
        have e2 := sign_split (v / 2 ^ (fmtOf dt).width) h3
        refine ⟨.float (v / 2 ^ (fmtOf dt).width * 2 ^ 63 + q), ?_, ?_⟩
        · simp only [elemToJson, if_neg hb, if_pos hf, if_neg h64, widen, if_pos hfin, e1.1,
            if_pos h1, reparse, reread, h2, Option.map_some, e1.2]
        · simp only [elemOfJson, if_neg hb, if_pos hf, if_neg h64, asF64, Option.map_some, narrow,
            e2.1, e2.2, if_pos h3, h4, Nat.min_eq_left hfin.le]
          rw [Nat.mul_comm, Nat.div_add_mod]
    · refine ⟨.int (intOf dt v), by simp [elemToJson, hb, hf, reparse], ?_⟩
      exact int_back (by simpa using hb) (by simpa using hf) hv

theorem list_back {pr : Nat → Nat × Int} {g : Nat → JVal} {h : JVal → Option Nat} {xs : List Nat}
    (hx : ∀ v ∈ xs, ∃ j, reparse pr (g v) = .ok j ∧ h j = some v) :
    ∃ l, reparseL pr (xs.map g) = .ok l ∧ l.mapM h = some xs := by
  induction xs with
  | nil => exact ⟨[], by simp [reparseL], by simp⟩
  | cons v xs ih =>
    obtain ⟨j, h1, h2⟩ := hx v List.mem_cons_self
    obtain ⟨l, h3, h4⟩ := ih fun w hw => hx w (List.mem_cons_of_mem _ hw)
    exact ⟨j :: l, by simp [reparseL, h1, h3], by simp [h2, h4]⟩

theorem dtype_back (dt : DType) : strToDtype (dtypeToStr dt) = some dt := by
  cases dt <;> decide +kernel

theorem lookups (a b c : JVal) :
    List.lookup "shape" [("shape", a), ("dtype", b), ("data", c)] = some a ∧
    List.lookup "dtype" [("shape", a), ("dtype", b), ("data", c)] = some b ∧
    List.lookup "data" [("shape", a), ("dtype", b), ("data", c)] = some c := by
  have h1 : ("dtype" == "shape") = false := by decide
  have h2 : ("data" == "shape") = false := by decide
  have h3 : ("data" == "dtype") = false := by decide
  simp [List.lookup, h1, h2, h3]

/-- The document comes back as the tensor. -/
theorem tensor_back {pr : Nat → Nat × Int} {dt : DType} {t : Tensor Nat} {xs : List Nat}
    (hx : t.HasValues xs) (hflat : t.toFlattenVec = xs) (hd : ∀ n ∈ t.dims, n < 2 ^ 64)
    (he : ∀ v ∈ xs, ∃ j, reparse pr (elemToJson dt v) = .ok j ∧ elemOfJson dt j = some v) :
    ∃ j, reparse pr (tensorToJson dt t) = .ok j ∧
      jsonToTensor j = .ok (dt, ⟨xs, Layout.fromShape t.dims⟩) := by
  obtain ⟨ls, h1, h2⟩ := list_back (pr := pr) (g := fun (d : Nat) => .int d) (h := asU64)
    (xs := t.dims) (fun n hn => ⟨.int n, by simp [reparse], by
      have := hd n hn
      simp only [asU64]
      rw [if_pos (by omega)]
      simp⟩)
  obtain ⟨ld, h3, h4⟩ := list_back he
  refine ⟨.obj [("shape", .arr ls), ("dtype", .str (dtypeToStr dt)), ("data", .arr ld)], ?_, ?_⟩
  · simp [tensorToJson, reparse, reparseF, h1, hflat, h3]
  · obtain ⟨g1, g2, g3⟩ := lookups (.arr ls) (.str (dtypeToStr dt)) (.arr ld)
    simp [jsonToTensor, getArr, getStr, g1, g2, g3, h2, dtype_back, h4, fromSlice, shapeSize_eq,
      hx.1]

/-- The full claim. -/
def C53_full (pr : Nat → Nat × Int) : Prop :=
  ∀ (t : Tensor Nat) (dt : DType), t.WF → (∀ v ∈ t.storage, IsElement dt v) →
    ∃ u, saveLoad pr dt t = .ok (dt, u) ∧ u.SameValues t

/-- **C53, what holds.** Saving and loading gives the same element type, shape and elements, for
finite elements of every element type but `f64`, and for `f64` when the printed decimals are short
(below `2 ^ 53` as a digit string, exponent at most 22), although the parser does not round
correctly. The printer is any that prints at most 19 digits of a decimal nearest to the number.
Missing: infinities and NaN, other `f64` values, views with an offset and contiguous views of a
larger buffer (as in C14); each is refuted below. -/
theorem C53_json_partial {pr : Nat → Nat × Int} {t : Tensor Nat} (ht : t.WF) (dt : DType)
    (hv : ∀ v ∈ t.storage, IsElement dt v ∧ Spec.Finite dt v ∧ Spec.Shown pr dt v ∧
      Spec.Short pr dt v)
    (h : (t.layout.isContiguous = true ∧ t.storage.length = numel t.dims) ∨
      (t.layout.isContiguous = false ∧ t.layout.offset = 0))
    (hd : ∀ n ∈ t.dims, n < 2 ^ 64) :
    ∃ u, saveLoad pr dt t = .ok (dt, u) ∧ u.WF ∧ u.SameValues t := by
  obtain ⟨xs, hx⟩ := ht.hasValues
  have hv' := values_mem hx hv
  obtain ⟨j, h1, h2⟩ := tensor_back hx (C14_flatten_partial ht hx h) hd
    (fun v hm => elem_back (hv' v hm).1 (hv' v hm).2.1 (hv' v hm).2.2.1 (hv' v hm).2.2.2)
  exact ⟨_, by simp [saveLoad, h1, h2], fresh_wf hx.1.symm, fresh_sameValues hx⟩

/-- A printer for the examples: `0.1f32`, `-2.5f32`, `2^-149` as they appear in `f64`. -/
def exPr (p : Nat) : Nat × Int :=
  if p = 4591870180174331904 then (10000000149011612, -17)
  else if p = 4612811918334230528 then (25, -1)
  else if p = 3936146074321813504 then (1401298464324817, -60)
  else if p = 4683459850111736686 then (12694271428571429, -11)
  else (0, 0)

/-- C53 on a transposed matrix of `f32`: `0.1`, `-2.5`, the smallest subnormal and `-0`. -/
example : ∃ u, saveLoad exPr .f32 ⟨[0x3DCCCCCD, 0xC0200000, 1, 0x80000000], ⟨[2, 2], [1, 2], 0⟩⟩ =
    .ok (.f32, u) ∧ u.WF ∧
    u.SameValues ⟨[0x3DCCCCCD, 0xC0200000, 1, 0x80000000], ⟨[2, 2], [1, 2], 0⟩⟩ := by
  refine C53_json_partial ⟨rfl, ?_⟩ .f32 ?_ (Or.inr ⟨by decide +kernel, rfl⟩) (by decide)
  · intro idx hi
    match idx, hi with
    | [0, 0], _ => decide
    | [0, 1], _ => decide
    | [1, 0], _ => decide
    | [1, 1], _ => decide
    | [k + 2, _], hi => exact absurd hi.1 (by omega)
    | [_, k + 2], hi => exact absurd hi.2.1 (by omega)
  · intro v hv
    simp only [List.mem_cons, List.not_mem_nil, or_false] at hv
    rcases hv with rfl | rfl | rfl | rfl <;>
      exact ⟨by unfold IsElement; decide, fun _ => by decide +kernel, fun _ => by unfold Spec.Printed; decide +kernel,
        fun h => absurd h (by decide)⟩

/-- **C53 for several named tensors**: every name comes back with its tensor. -/
theorem C53_many_partial {pr : Nat → Nat × Int} (ts : List (String × DType × Tensor Nat))
    (h : ∀ x ∈ ts, x.2.2.WF ∧ (∀ v ∈ x.2.2.storage, IsElement x.2.1 v ∧ Spec.Finite x.2.1 v ∧
        Spec.Shown pr x.2.1 v ∧ Spec.Short pr x.2.1 v) ∧
      ((x.2.2.layout.isContiguous = true ∧ x.2.2.storage.length = numel x.2.2.dims) ∨
        (x.2.2.layout.isContiguous = false ∧ x.2.2.layout.offset = 0)) ∧
      (∀ n ∈ x.2.2.dims, n < 2 ^ 64)) :
    ∃ us, saveLoadMany pr ts = .ok us ∧
      List.Forall₂ (fun x u => u.1 = x.1 ∧ u.2.1 = x.2.1 ∧ u.2.2.SameValues x.2.2) ts us := by
  suffices hsuf : ∃ ls us, reparseF pr (ts.map fun x => (x.1, tensorToJson x.2.1 x.2.2)) = .ok ls ∧
      Res.mapL (fun (x : String × JVal) => (jsonToTensor x.2).bind fun t => .ok (x.1, t)) ls =
        .ok us ∧
      List.Forall₂ (fun x u => u.1 = x.1 ∧ u.2.1 = x.2.1 ∧ u.2.2.SameValues x.2.2) ts us by
    obtain ⟨ls, us, h1, h2, h3⟩ := hsuf
    exact ⟨us, by simp [saveLoadMany, manyToJson, reparse, h1, manyOfJson, h2], h3⟩
  induction ts with
  | nil => exact ⟨[], [], by simp [reparseF], by simp [Res.mapL], List.Forall₂.nil⟩
  | cons x ts ih =>
    obtain ⟨ls, us, h1, h2, h3⟩ := ih fun y hy => h y (List.mem_cons_of_mem _ hy)
    obtain ⟨hw, hv, hl, hd⟩ := h x List.mem_cons_self
    obtain ⟨xs, hx⟩ := hw.hasValues
    have hv' := values_mem hx hv
    obtain ⟨j, h4, h5⟩ := tensor_back hx (C14_flatten_partial hw hx hl) hd
      (fun v hm => elem_back (hv' v hm).1 (hv' v hm).2.1 (hv' v hm).2.2.1 (hv' v hm).2.2.2)
    refine ⟨(x.1, j) :: ls, (x.1, x.2.1, ⟨xs, Layout.fromShape x.2.2.dims⟩) :: us, ?_, ?_,
      List.Forall₂.cons ⟨rfl, rfl, fresh_sameValues hx⟩ h3⟩
    · simp [reparseF, h4, h1]
    · simp [Res.mapL, h5, h2]

/-- C53 on two named tensors, one boolean and one of signed bytes. -/
example : saveLoadMany exPr [("mask", .bool, ⟨[1, 0], Layout.fromShape [2]⟩),
    ("x", .i8, ⟨[255, 128], Layout.fromShape [2, 1]⟩)] =
    .ok [("mask", .bool, ⟨[1, 0], Layout.fromShape [2]⟩),
      ("x", .i8, ⟨[255, 128], Layout.fromShape [2, 1]⟩)] := by
  rfl

/-- **C53 is false of infinities and NaN**: they are written as `null` and the file cannot be
loaded. -/
theorem C53_nonfinite_false (pr : Nat → Nat × Int) :
    saveLoad pr .f32 ⟨[0x7F800000], Layout.fromShape [1]⟩ = .err ∧
    saveLoad pr .f16 ⟨[0x7E00], Layout.fromShape [1]⟩ = .err := by
  constructor <;> rfl

/-- **C53 is false of the code**, whatever the printer. -/
theorem C53_full_false (pr : Nat → Nat × Int) : ¬ C53_full pr := by
  intro h
  obtain ⟨u, hu, _⟩ := h ⟨[0x7F800000], Layout.fromShape [1]⟩ .f32 ⟨rfl, fun idx hi => by
    match idx, hi with
    | [0], _ => decide
    | [k + 1], hi => exact absurd hi.1 (by omega)⟩ (by
      intro v hv
      rw [List.mem_singleton.mp hv]
      unfold IsElement
      decide)
  rw [(C53_nonfinite_false pr).1] at hu
  cases hu

/-- **C53 is false of `f64`**: `888599/7 = 126942.71428571429` is printed with 17 digits, which the
parser (without the feature `float_roundtrip`) reads as the neighbouring number. -/
theorem C53_f64_false : Spec.Printed exPr 4683459850111736686 ∧
    ∃ u, saveLoad exPr .f64 ⟨[4683459850111736686], Layout.fromShape [1]⟩ = .ok (.f64, u) ∧
      u.elem [0] = some 4683459850111736685 :=
  ⟨by unfold Spec.Printed; decide +kernel,
    ⟨[4683459850111736685], Layout.fromShape [1]⟩, by decide +kernel, by decide +kernel⟩

/-- **C53 is false of views** of a larger buffer: a contiguous slice is written whole and cannot be
loaded, a column slice is loaded with the wrong elements. -/
theorem C53_view_false (pr : Nat → Nat × Int) :
    (∃ s, (⟨[0, 1, 2, 3], Layout.fromShape [4]⟩ : Tensor Nat).slice 0 1 (some 3) 1 = .ok s ∧
      saveLoad pr .u8 s = .err) ∧
    (∃ s u, (⟨[0, 1, 2, 3, 4, 5], Layout.fromShape [2, 3]⟩ : Tensor Nat).slice 1 1 (some 3) 1 =
      .ok s ∧ saveLoad pr .u8 s = .ok (.u8, u) ∧ s.elem [0, 0] = some 1 ∧ u.elem [0, 0] = some 0) :=
  ⟨⟨⟨[0, 1, 2, 3], ⟨[2], [1], 1⟩⟩, by decide +kernel, by rfl⟩,
    ⟨⟨[0, 1, 2, 3, 4, 5], ⟨[2, 2], [3, 1], 1⟩⟩, ⟨[0, 1, 3, 4], Layout.fromShape [2, 2]⟩,
      by decide +kernel, by rfl, by decide +kernel, by decide +kernel⟩⟩

end Hodu.Json
