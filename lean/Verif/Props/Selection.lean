import Verif.Lemmas.Typed
import Verif.Lemmas.RatOps
import Verif.Lemmas.ExtOps

/-!
# C85: selection

`where3`, `masked_fill`, `clamp`, `clamp_min` and `clamp_max` of tensor/ops/selection.rs.
`x.where3(condition, other)` keeps `x` where the condition holds, and takes `other` elsewhere.  The
other four are written on top of it as if it were the other way round: `masked_fill` overwrites what the
mask does *not* mark, `clamp(min, max)` returns `max` everywhere.
-/

namespace Hodu
open Spec

variable {α : Type}

/-! ## Specification -/

/-- The selected value. -/
def Spec.selected (c : Bool) (x y : α) : α := if c then x else y

/-- `masked_fill`: the marked elements are replaced. -/
def Spec.filled (c : Bool) (v x : α) : α := if c then v else x

/-- `clamp`: the nearest number in `[lo, hi]`. -/
noncomputable def Spec.clamped (lo hi x : ℝ) : ℝ := min (max x lo) hi

/-! ## The operations in any arithmetic -/

/-- What `where3` computes, whatever the element arithmetic: a weighted sum. -/
theorem where3_val (E : Rt α) {dt : DType} (hf : dt.isFloat = true) {x c y : TT α}
    {d e f : List Nat} {X Y : List Nat → α} {C : List Nat → Bool} (hx : TVal x dt d X)
    (hc : BVal c e C) (hy : TVal y dt f Y) (he : BroadcastsTo e d) (hff : BroadcastsTo f d)
    (hpd : ∀ n ∈ d, 0 < n) (hpe : ∀ n ∈ e, 0 < n) (hpf : ∀ n ∈ f, 0 < n) :
    ∃ r, E.where3 x c y = .ok r ∧ TVal r dt d (fun i =>
      E.A.bin .add (E.A.bin .mul (E.A.ofBool (C (broadcastIndex e i))) (X i))
        (E.A.bin .mul (E.A.bin .sub (E.A.cst .one) (E.A.ofBool (C (broadcastIndex e i))))
          (Y (broadcastIndex f i)))) := by
  obtain ⟨c1, c2, c3⟩ := hc.broadcast he
  obtain ⟨x1, x2, x3⟩ := hx.broadcast (broadcastsTo_self d)
  obtain ⟨y1, y2, y3⟩ := hy.broadcast hff
  obtain ⟨t1, t2, t3⟩ := c3.broadcast (broadcastsTo_self d)
  have hb : TT.broadcast3 c x y = .ok (c1, x1, y1) := by
    simp [TT.broadcast3, hc.dims, hx.dims, broadcastDims_right he hpd hpe, c2, x2, c3.dims, hy.dims,
      broadcastDims_left hff hpd hpf, t2, y2]
  obtain ⟨m, m1, m2⟩ := c3.toDtype E (not_bool_of_float hf)
  obtain ⟨v, v1, v2⟩ := TVal.bin_same E hf (o := .sub) (by simp) (m2.onesLike E) m2 hpd
  obtain ⟨xp, xp1, xp2⟩ := TVal.bin_same E hf (o := .mul) (by simp) m2 x3 hpd
  obtain ⟨yp, yp1, yp2⟩ := TVal.bin_same E hf (o := .mul) (by simp) v2 y3 hpd
  obtain ⟨r, r1, r2⟩ := TVal.bin_same E hf (o := .add) (by simp) xp2 yp2 hpd
  refine ⟨r, ?_, r2.congr fun idx hi => by rw [broadcastIndex_self hi]⟩
  simp [Rt.where3, hb, x3.dtype, m1, v1, xp1, yp1, r1]

/-! ## Over the real numbers -/

/-- `x.where3(condition, other)` selects: `x` where the condition holds, `other` elsewhere; the
condition and `other` broadcast to the shape of `x`.  Missing: results whose shape is not that of `x`;
booleans (`C85_where3_bool`) and infinite elements (`C85_where3_nan`), for which it is false. -/
theorem C85_where3_partial {E : Rt ℝ} (hE : E.Real) {dt : DType} (hf : dt.isFloat = true)
    {x c y : TT ℝ} {d e f : List Nat} {X Y : List Nat → ℝ} {C : List Nat → Bool} (hx : TVal x dt d X)
    (hc : BVal c e C) (hy : TVal y dt f Y) (he : BroadcastsTo e d) (hff : BroadcastsTo f d)
    (hpd : ∀ n ∈ d, 0 < n) (hpe : ∀ n ∈ e, 0 < n) (hpf : ∀ n ∈ f, 0 < n) :
    ∃ r, E.where3 x c y = .ok r ∧ TVal r dt d (fun i =>
      Spec.selected (C (broadcastIndex e i)) (X i) (Y (broadcastIndex f i))) := by
  obtain ⟨k, κ, lo, hi, hA⟩ := hE
  obtain ⟨r, h1, h2⟩ := where3_val E hf hx hc hy he hff hpd hpe hpf
  refine ⟨r, h1, h2.congr fun idx _ => ?_⟩
  rw [hA]
  simp only [realOps, realBin, FOps.ofBool, realCst, Spec.selected]
  cases C (broadcastIndex e idx) <;> simp

/-- What `masked_fill` computes: it keeps the marked elements and fills the others. -/
theorem C85_masked_fill_value {E : Rt ℝ} (hE : E.Real) {dt : DType} (hf : dt.isFloat = true)
    {x c : TT ℝ} {d e : List Nat} {X : List Nat → ℝ} {C : List Nat → Bool} (hx : TVal x dt d X)
    (hc : BVal c e C) (he : BroadcastsTo e d) (hpd : ∀ n ∈ d, 0 < n) (hpe : ∀ n ∈ e, 0 < n) (v : ℝ) :
    ∃ r, E.maskedFill x c ⟨dt, v⟩ = .ok r ∧ TVal r dt d (fun i =>
      Spec.filled (!C (broadcastIndex e i)) v (X i)) := by
  obtain ⟨r, h1, h2⟩ := C85_where3_partial hE hf hx hc (hx.fullLike v) he (broadcastsTo_self d) hpd
    hpe hpd
  refine ⟨r, h1, h2.congr fun idx _ => ?_⟩
  simp only [Spec.selected, Spec.filled]
  cases C (broadcastIndex e idx) <;> simp

/-- `masked_fill` is right exactly for tensors that hold the fill value everywhere already. -/
theorem C85_masked_fill_iff {E : Rt ℝ} (hE : E.Real) {dt : DType} (hf : dt.isFloat = true)
    {x c : TT ℝ} {d e : List Nat} {X : List Nat → ℝ} {C : List Nat → Bool} (hx : TVal x dt d X)
    (hc : BVal c e C) (he : BroadcastsTo e d) (hpd : ∀ n ∈ d, 0 < n) (hpe : ∀ n ∈ e, 0 < n) (v : ℝ) :
    (∃ r, E.maskedFill x c ⟨dt, v⟩ = .ok r ∧ TVal r dt d (fun i =>
      Spec.filled (C (broadcastIndex e i)) v (X i))) ↔ ∀ i, InRange i d → X i = v := by
  obtain ⟨r, h1, h2⟩ := C85_masked_fill_value hE hf hx hc he hpd hpe v
  constructor
  · rintro ⟨r', h3, t, rfl, h4⟩ i hi
    rw [h1] at h3
    cases h3
    obtain ⟨t', h5, h6⟩ := h2
    cases h5
    have := (h6.vals i hi).symm.trans (h4.vals i hi)
    simp only [Spec.filled, Option.some.injEq] at this
    cases hC : C (broadcastIndex e i) <;> rw [hC] at this <;> simp at this
    · exact this.symm
    · exact this
  · intro h
    refine ⟨r, h1, h2.congr fun i hi => ?_⟩
    simp [Spec.filled, h i hi]

/-- What `clamp_min` computes: the smaller of the element and the bound. -/
theorem C85_clamp_min_value {E : Rt ℝ} (hE : E.Real) {dt : DType} (hf : dt.isFloat = true)
    {x : TT ℝ} {d : List Nat} {X : List Nat → ℝ} (hx : TVal x dt d X) (hpd : ∀ n ∈ d, 0 < n) (lo : ℝ) :
    ∃ r, E.clampMin x ⟨dt, lo⟩ = .ok r ∧ TVal r dt d (fun i => min (X i) lo) := by
  obtain ⟨m, m1, m2⟩ := hx.cmpScal E hf .lt lo
  obtain ⟨r, h1, h2⟩ := C85_where3_partial hE hf hx m2 (hx.fullLike lo) (broadcastsTo_self d)
    (broadcastsTo_self d) hpd hpd hpd
  refine ⟨r, by simp [Rt.clampMin, m1, h1], h2.congr fun i hi => ?_⟩
  obtain ⟨k, κ, l, h, hA⟩ := hE
  rw [broadcastIndex_self hi, hA]
  simp only [Spec.selected, realOps, realCmp, decide_eq_true_eq]
  split
  · rename_i h; rw [min_eq_left h.le]
  · rename_i h; rw [min_eq_right (not_lt.mp h)]

/-- What `clamp_max` computes: the larger of the element and the bound. -/
theorem C85_clamp_max_value {E : Rt ℝ} (hE : E.Real) {dt : DType} (hf : dt.isFloat = true)
    {x : TT ℝ} {d : List Nat} {X : List Nat → ℝ} (hx : TVal x dt d X) (hpd : ∀ n ∈ d, 0 < n) (hi : ℝ) :
    ∃ r, E.clampMax x ⟨dt, hi⟩ = .ok r ∧ TVal r dt d (fun i => max (X i) hi) := by
  obtain ⟨m, m1, m2⟩ := hx.cmpScal E hf .gt hi
  obtain ⟨r, h1, h2⟩ := C85_where3_partial hE hf hx m2 (hx.fullLike hi) (broadcastsTo_self d)
    (broadcastsTo_self d) hpd hpd hpd
  refine ⟨r, by simp [Rt.clampMax, m1, h1], h2.congr fun i hi => ?_⟩
  obtain ⟨k, κ, l, h, hA⟩ := hE
  rw [broadcastIndex_self hi, hA]
  simp only [Spec.selected, realOps, realCmp, decide_eq_true_eq]
  split
  · rename_i h; rw [max_eq_left h.le]
  · rename_i h; rw [max_eq_right (not_lt.mp h)]

/-- `clamp(lo, hi)` is `clamp_min(lo)` followed by `clamp_max(hi)`. -/
theorem clamp_eq (E : Rt α) (x : TT α) (lo hi : Sc α) :
    E.clamp x lo hi = (E.clampMin x lo).bind fun c => E.clampMax c hi := by
  simp only [Rt.clamp, Rt.clampMin, Rt.clampMax]
  cases E.cmpScal .lt x lo <;> rfl

/-- What `clamp` computes. -/
theorem C85_clamp_value {E : Rt ℝ} (hE : E.Real) {dt : DType} (hf : dt.isFloat = true)
    {x : TT ℝ} {d : List Nat} {X : List Nat → ℝ} (hx : TVal x dt d X) (hpd : ∀ n ∈ d, 0 < n)
    (lo hi : ℝ) :
    ∃ r, E.clamp x ⟨dt, lo⟩ ⟨dt, hi⟩ = .ok r ∧ TVal r dt d (fun i => max (min (X i) lo) hi) := by
  obtain ⟨c, c1, c2⟩ := C85_clamp_min_value hE hf hx hpd lo
  obtain ⟨r, r1, r2⟩ := C85_clamp_max_value hE hf c2 hpd hi
  exact ⟨r, by rw [clamp_eq, c1]; exact r1, r2⟩

/-- `clamp(lo, hi)` with `lo ≤ hi` is the constant `hi`: it does not depend on the tensor. -/
theorem C85_clamp_constant {E : Rt ℝ} (hE : E.Real) {dt : DType} (hf : dt.isFloat = true)
    {x : TT ℝ} {d : List Nat} {X : List Nat → ℝ} (hx : TVal x dt d X) (hpd : ∀ n ∈ d, 0 < n)
    {lo hi : ℝ} (h : lo ≤ hi) :
    ∃ r, E.clamp x ⟨dt, lo⟩ ⟨dt, hi⟩ = .ok r ∧ TVal r dt d (fun _ => hi) := by
  obtain ⟨r, h1, h2⟩ := C85_clamp_value hE hf hx hpd lo hi
  exact ⟨r, h1, h2.congr fun i _ => max_eq_right ((min_le_right _ _).trans h)⟩

/-- `clamp` is right exactly when no element lies below the upper bound. -/
theorem C85_clamp_iff {E : Rt ℝ} (hE : E.Real) {dt : DType} (hf : dt.isFloat = true)
    {x : TT ℝ} {d : List Nat} {X : List Nat → ℝ} (hx : TVal x dt d X) (hpd : ∀ n ∈ d, 0 < n)
    {lo hi : ℝ} (h : lo < hi) :
    (∃ r, E.clamp x ⟨dt, lo⟩ ⟨dt, hi⟩ = .ok r ∧ TVal r dt d (fun i => Spec.clamped lo hi (X i))) ↔
      ∀ i, InRange i d → hi ≤ X i := by
  obtain ⟨r, h1, h2⟩ := C85_clamp_constant hE hf hx hpd h.le
  constructor
  · rintro ⟨r', h3, t, rfl, h4⟩ i hi'
    rw [h1] at h3
    cases h3
    obtain ⟨t', h5, h6⟩ := h2
    cases h5
    have := (h6.vals i hi').symm.trans (h4.vals i hi')
    simp only [Spec.clamped, Option.some.injEq] at this
    have h7 : hi ≤ max (X i) lo := by
      rw [this]; exact min_le_left _ _
    rcases le_max_iff.mp h7 with h8 | h8
    · exact h8
    · exact absurd h8 (not_le.mpr h)
  · intro h'
    refine ⟨r, h1, h2.congr fun i hi' => ?_⟩
    simp [Spec.clamped, h' i hi']

/-- The scalars have to be of the tensor's type: `clamp_min` with another type is rejected. -/
theorem C85_scalar_type (E : Rt α) (x : TT α) (lo hi : Sc α) (h : lo.dt ≠ x.dtype) :
    E.clampMin x lo = .err ∧ E.clamp x lo hi = .err := by
  have : E.cmpScal .lt x lo = .err := by
    unfold Rt.cmpScal
    split
    · rfl
    · rfl
  simp [Rt.clampMin, Rt.clamp, this]

/-- A tensor of booleans is never selected from: `where3` rejects it. -/
theorem C85_where3_bool (E : Rt α) (x : Tensor Bool) (c y : TT α) (r : TT α) :
    E.where3 (.bool x) c y ≠ .ok r := by
  intro h
  unfold Rt.where3 at h
  obtain ⟨⟨c', x', y'⟩, h1, h2⟩ := Res.bind_eq_ok.mp h
  simp only at h2
  obtain ⟨m, h3, h4⟩ := Res.bind_eq_ok.mp h2
  obtain ⟨v, h5, h6⟩ := Res.bind_eq_ok.mp h4
  have hx : x'.dtype = .bool := by
    unfold TT.broadcast3 at h1
    simp only [Res.bind_eq_ok] at h1
    obtain ⟨_, _, _, _, _, _, _, _, _, _, _, _, _, _, b, hb, _, _, he⟩ := h1
    simp only [Res.ok.injEq, Prod.mk.injEq] at he
    obtain ⟨_, rfl, _⟩ := he
    unfold TT.broadcast at hb
    obtain ⟨_, _, hr⟩ := Res.bind_eq_ok.mp hb
    cases hr
    rfl
  rw [hx] at h3
  have hm : m.dtype = .bool := by
    unfold Rt.toDtype at h3
    cases c' with
    | num dt' s =>
      simp only at h3
      split at h3
      · obtain ⟨_, _, hr⟩ := Res.bind_eq_ok.mp h3
        cases hr; rfl
      · obtain ⟨_, _, hr⟩ := Res.bind_eq_ok.mp h3
        cases hr; rfl
    | bool s =>
      simp only [if_true] at h3
      obtain ⟨_, _, hr⟩ := Res.bind_eq_ok.mp h3
      cases hr; rfl
  have : ∀ z, E.bin .sub z m ≠ .ok v := by
    intro z hz
    unfold Rt.bin at hz
    split at hz
    · simp at hz
    · rename_i hne
      rw [not_not] at hne
      rw [hne, hm] at hz
      simp [Dispatch.validate, DType.isBool] at hz
  exact this _ h5

/-! ## Infinite elements -/

/-- In an arithmetic where a product with an infinite element is not a number and sums propagate that,
the weighted sum is not a number where `other` is infinite, although `x` is selected there. -/
theorem C85_where3_nan (E : Rt α) {dt : DType} (hf : dt.isFloat = true) {x c y : TT α}
    {d e f : List Nat} {X Y : List Nat → α} {C : List Nat → Bool} (hx : TVal x dt d X)
    (hc : BVal c e C) (hy : TVal y dt f Y) (he : BroadcastsTo e d) (hff : BroadcastsTo f d)
    (hpd : ∀ n ∈ d, 0 < n) (hpe : ∀ n ∈ e, 0 < n) (hpf : ∀ n ∈ f, 0 < n) {nan inf : α}
    (h0 : E.A.bin .sub (E.A.cst .one) (E.A.cst .one) = E.A.cst .zero)
    (hm : E.A.bin .mul (E.A.cst .zero) inf = nan) (hn : ∀ v, E.A.bin .add v nan = nan)
    {i : List Nat} (hi : InRange i d) (hC : C (broadcastIndex e i) = true)
    (hY : Y (broadcastIndex f i) = inf) :
    ∃ t, E.where3 x c y = .ok (.num dt t) ∧ t.elem i = some nan := by
  obtain ⟨r, h1, t, rfl, h2⟩ := where3_val E hf hx hc hy he hff hpd hpe hpf
  refine ⟨t, h1, ?_⟩
  rw [h2.vals i hi]
  simp only [hC, hY, FOps.ofBool, if_true]
  rw [h0, hm, hn]

/-! ## Concrete runs -/

/-- Exact rational arithmetic. -/
def ratRt : Rt (Option ℚ) := ⟨ratOps, 1, none, fun _ _ x => x⟩

/-- Exact arithmetic with infinities. -/
def extRt : Rt XQ := ⟨extOps, 1, .nan, fun _ _ x => x⟩

/-- A vector of type `f32`. -/
def vec32 (l : List α) : TT α := .num .f32 ⟨l, Layout.fromShape [l.length]⟩

/-- A vector of booleans. -/
def vecB (l : List Bool) : TT α := .bool ⟨l, Layout.fromShape [l.length]⟩

/-- A runtime over the real numbers. -/
noncomputable def realRt : Rt ℝ :=
  ⟨realOps ⟨0, 0, 0, 0, 0⟩ (fun _ => 0) (-1) 1, 4, 0, fun _ _ x => x⟩

theorem realRt_real : realRt.Real := ⟨_, _, _, _, rfl⟩

/-- Hypotheses of the theorems above: a matrix and a mask that broadcasts to it. -/
example : ∃ (x c : TT ℝ), TVal x .f32 [2, 2] (fun i => (i.getD 0 0 : ℝ) + i.getD 1 0) ∧
    BVal c [2] (fun i => i == [1]) ∧ BroadcastsTo [2] [2, 2] := by
  refine ⟨.num .f32 ⟨[0, 1, 1, 2], Layout.fromShape [2, 2]⟩, vecB [false, true],
    ⟨_, rfl, Val.fresh rfl ?_⟩, ⟨_, rfl, Val.fresh rfl ?_⟩, by decide, ?_⟩
  · intro idx hi
    match idx, hi with
    | [a, b], ⟨ha, hb, _⟩ =>
      obtain rfl | rfl : a = 0 ∨ a = 1 := by omega
      all_goals
        obtain rfl | rfl : b = 0 ∨ b = 1 := by omega
        all_goals norm_num [rowMajor, numel]
  · intro idx hi
    match idx, hi with
    | [a], ⟨ha, _⟩ =>
      have ha : a < 2 := ha
      obtain rfl | rfl : a = 0 ∨ a = 1 := by omega
      all_goals rfl
  · intro k x h
    match k with
    | 0 => simp at h; subst h; simp
    | k + 1 => simp at h

/-- `[1, 2, 3].masked_fill([true, false, false], 0)` is `[1, 0, 0]`. -/
theorem C85_masked_fill_wrong :
    ratRt.maskedFill (vec32 [some 1, some 2, some 3]) (vecB [true, false, false]) ⟨.f32, some 0⟩ =
      .ok (vec32 [some 1, some 0, some 0]) := by
  decide +kernel

/-- `[-5, 0, 5].clamp(-1, 1)` is `[1, 1, 1]`. -/
theorem C85_clamp_wrong :
    ratRt.clamp (vec32 [some (-5), some 0, some 5]) ⟨.f32, some (-1)⟩ ⟨.f32, some 1⟩ =
      .ok (vec32 [some 1, some 1, some 1]) := by
  decide +kernel

/-- `[-5, 0, 5].clamp_min(-1)` is `[-5, -1, -1]`, `[-5, 0, 5].clamp_max(1)` is `[1, 1, 5]`. -/
theorem C85_clamp_bounds_wrong :
    ratRt.clampMin (vec32 [some (-5), some 0, some 5]) ⟨.f32, some (-1)⟩ =
      .ok (vec32 [some (-5), some (-1), some (-1)]) ∧
    ratRt.clampMax (vec32 [some (-5), some 0, some 5]) ⟨.f32, some 1⟩ =
      .ok (vec32 [some 1, some 1, some 5]) := by
  decide +kernel

/-- Filling with minus infinity turns the kept elements into NaN. -/
theorem C85_fill_neg_inf :
    extRt.maskedFill (vec32 [.fin 1, .fin 2]) (vecB [true, false]) ⟨.f32, .inf true⟩ =
      .ok (vec32 [.nan, .inf true]) := by
  decide +kernel

/-- The hypotheses of `C85_where3_nan` hold in IEEE arithmetic. -/
example : extOps.bin .sub (extOps.cst .one) (extOps.cst .one) = extOps.cst .zero ∧
    extOps.bin .mul (extOps.cst .zero) (.inf true) = .nan ∧ ∀ v, extOps.bin .add v .nan = .nan :=
  ⟨by decide +kernel, by decide +kernel, fun v => by cases v <;> rfl⟩

/-- The property: the four operations do what their names say on every floating-point tensor. -/
def Spec.C85_full : Prop :=
  ∀ (E : Rt ℝ), E.Real → ∀ (dt : DType), dt.isFloat = true → ∀ (x c : TT ℝ) (d : List Nat)
    (X : List Nat → ℝ) (C : List Nat → Bool) (lo hi : ℝ), TVal x dt d X → BVal c d C →
    (∀ n ∈ d, 0 < n) → lo < hi →
    (∃ r, E.maskedFill x c ⟨dt, lo⟩ = .ok r ∧ TVal r dt d (fun i => Spec.filled (C i) lo (X i))) ∧
    (∃ r, E.clampMin x ⟨dt, lo⟩ = .ok r ∧ TVal r dt d (fun i => max (X i) lo)) ∧
    (∃ r, E.clampMax x ⟨dt, hi⟩ = .ok r ∧ TVal r dt d (fun i => min (X i) hi)) ∧
    ∃ r, E.clamp x ⟨dt, lo⟩ ⟨dt, hi⟩ = .ok r ∧ TVal r dt d (fun i => Spec.clamped lo hi (X i))

/-- None of the four does: a single zero, a mask that does not mark it, the bounds 1 and 2. -/
theorem C85_full_false : ¬ Spec.C85_full := by
  intro h
  have hx : TVal (TT.full [] (⟨.f32, 0⟩ : Sc ℝ)) .f32 [] fun _ => 0 := TVal.full _ _ _
  have hc : BVal (.bool ⟨[false], Layout.fromShape []⟩ : TT ℝ) [] fun _ => false :=
    ⟨_, rfl, Val.fresh rfl (fun idx hi => by
      match idx, hi with
      | [], _ => rfl)⟩
  obtain ⟨_, _, _, h4⟩ := h realRt realRt_real .f32 rfl _ _ [] _ _ 1 2 hx hc (by simp) (by norm_num)
  have := (C85_clamp_iff realRt_real (dt := .f32) rfl hx (by simp) (by norm_num : (1 : ℝ) < 2)).mp h4 []
    trivial
  norm_num at this

end Hodu
