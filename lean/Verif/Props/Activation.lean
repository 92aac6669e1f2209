import Verif.Model.Activation
import Verif.Props.Selection

/-! # C92 dropout and activation layers -/

namespace Hodu
open Spec

variable {dt : DType} {d : List Nat} {x : TT ℝ} {X : List Nat → ℝ} {E : Rt ℝ}

theorem TVal.randLike {x : TT ℝ} (hx : TVal x dt d X) {rnd : List ℝ} (hr : rnd.length = numel d) (dt' : DType) :
    TVal (Rt.randLike dt' rnd x) dt' d (fun i => rnd.getD (rowMajor d i) 0) := by
  refine ⟨_, rfl, ?_⟩
  rw [hx.dims]
  refine Val.fresh hr fun idx hi => ?_
  have := rowMajor_lt hi
  rw [List.getD_eq_getElem?_getD, List.getElem?_eq_getElem (by omega)]
  rfl

/-- C92, dropout in evaluation mode: the input, whatever its type. -/
theorem C92_dropout_eval (E : Rt α) (lit : DType) (p : Sc α) (rnd : List α) (x : TT α) :
    E.dropout lit false p rnd x = .ok x := rfl

/-- C92, dropout in training mode, of type `f32` and with a probability of the type of the literals: an element whose
random number is larger than `p` is divided by `1 - p`, the others become 0.  (`p < 1`; over the reals.)  Missing: other
element types (`C92_dropout_type`), `p = 1` (`C92_dropout_one`). -/
theorem C92_dropout_partial (hE : E.Real) {lit : DType} (hl : lit.isFloat = true) {p : ℝ} {rnd : List ℝ}
    (hx : TVal x .f32 d X) (hpd : ∀ y ∈ d, 0 < y) (hr : rnd.length = numel d)
    (hp : (E.toS ⟨lit, p⟩ .f32).val = p) (h1 : p < 1) :
    ∃ r, E.dropout lit true ⟨lit, p⟩ rnd x = .ok r ∧
      TVal r .f32 d (fun i => if p < rnd.getD (rowMajor d i) 0 then X i / (1 - p) else 0) := by
  obtain ⟨m, m1, m2⟩ := TVal.cmpScal E hl .gt (hx.randLike hr lit) p
  obtain ⟨k, k1, k2⟩ := BVal.toDtype E (dt := .f32) (by decide) m2
  obtain ⟨s, s1, s2⟩ := TVal.scal E (dt := .f32) rfl (o := .mul) (by simp) k2
    (E.A.bin .div (E.A.cst .one) (E.A.bin .sub (E.A.cst .one) (E.toS ⟨lit, p⟩ .f32).val))
  obtain ⟨r, r1, r2⟩ := TVal.bin_same E (dt := .f32) rfl (o := .mul) (by simp) hx s2 hpd
  refine ⟨r, ?_, r2.congr fun i _ => ?_⟩
  · simp only [Rt.dropout, Bool.not_true, Bool.false_eq_true, if_false, m1, Res.ok_bind, hx.dtype, k1, s1, r1]
  · rw [hp]
    obtain ⟨k, κ, lo, hi, hA⟩ := hE
    rw [hA]
    by_cases h : p < rnd.getD (rowMajor d i) 0
    · rw [if_pos h]
      show X i * ((if decide (rnd.getD (rowMajor d i) 0 > p) then (1 : ℝ) else 0) * (1 / (1 - p))) = _
      rw [decide_eq_true h, if_pos rfl]
      ring
    · rw [if_neg h]
      show X i * ((if decide (rnd.getD (rowMajor d i) 0 > p) then (1 : ℝ) else 0) * (1 / (1 - p))) = _
      rw [decide_eq_false h]
      simp

theorem toDtype_dtype {E : Rt α} {a r : TT α} {dt : DType} (h : E.toDtype a dt = .ok r) : r.dtype = dt := by
  unfold Rt.toDtype at h
  split at h
  · split_ifs at h with h1 h2
    all_goals
      obtain ⟨s, -, h⟩ := Res.bind_eq_ok.mp h
      cases h
    · rfl
    · exact h2.symm
    · rfl
  · split_ifs at h with h1
    all_goals
      obtain ⟨s, -, h⟩ := Res.bind_eq_ok.mp h
      cases h
    · exact h1.symm
    · rfl

theorem scal_type {E : Rt α} {o : BOp} {a r : TT α} {c : Sc α} (h : E.scal o a c = .ok r) : c.dt = a.dtype := by
  unfold Rt.scal at h
  split_ifs at h with h1 h2
  exact not_not.mp h2

theorem cmpScal_type {E : Rt α} {o : COp} {a r : TT α} {c : Sc α} (h : E.cmpScal o a c = .ok r) : c.dt = a.dtype := by
  unfold Rt.cmpScal at h
  split_ifs at h with h1 h2
  exact not_not.mp h2

theorem bin_type {E : Rt α} {o : BOp} {a b r : TT α} (h : E.bin o a b = .ok r) : a.dtype = b.dtype := by
  unfold Rt.bin at h
  split_ifs at h with h1 h2
  exact not_not.mp h1

/-- C92 fails: in training mode dropout of another type than `f32` never succeeds. -/
theorem C92_dropout_type (E : Rt α) (lit : DType) (p : Sc α) (rnd : List α) (x r : TT α) (hx : x.dtype ≠ .f32) :
    E.dropout lit true p rnd x ≠ .ok r := by
  intro h
  simp only [Rt.dropout, Bool.not_true, Bool.false_eq_true, if_false] at h
  obtain ⟨m, -, h⟩ := Res.bind_eq_ok.mp h
  obtain ⟨k, hk, h⟩ := Res.bind_eq_ok.mp h
  obtain ⟨s, hs, h⟩ := Res.bind_eq_ok.mp h
  exact hx ((scal_type hs).trans (toDtype_dtype hk)).symm

/-- C92 fails: in training mode dropout with a probability of another type than the literals never succeeds (a
probability of type `f32` in a build with `f64`). -/
theorem C92_dropout_probability (E : Rt α) (lit : DType) (p : Sc α) (rnd : List α) (x r : TT α) (hp : p.dt ≠ lit) :
    E.dropout lit true p rnd x ≠ .ok r := by
  intro h
  simp only [Rt.dropout, Bool.not_true, Bool.false_eq_true, if_false] at h
  obtain ⟨m, hm, -⟩ := Res.bind_eq_ok.mp h
  exact hp (cmpScal_type hm)

/-- C92, `RReLU` (over the reals; in training mode of type `f32`, in evaluation mode of every floating-point type): the
input where it is positive, else the input times the slope, which is random in training mode and the mean of the bounds in
evaluation mode. -/
theorem C92_rrelu_partial (hE : E.Real) (hf : dt.isFloat = true) (train : Bool) (ht : train = true → dt = .f32)
    {lower upper : Sc ℝ} {l u : ℝ} (hl : (E.toS lower .f32).val = l) (hu : (E.toS upper .f32).val = u) {rnd : List ℝ}
    (hx : TVal x dt d X) (hpd : ∀ y ∈ d, 0 < y) (hr : rnd.length = numel d)
    (hcv : (E.toS ⟨.f32, (l + u) / 2⟩ dt).val = (l + u) / 2) :
    ∃ r, E.rrelu train lower upper rnd x = .ok r ∧ TVal r dt d (fun i => if 0 < X i then X i else
      X i * if train then rnd.getD (rowMajor d i) 0 else (l + u) / 2) := by
  obtain ⟨a, ha, a1⟩ : ∃ a, a = (if train then Rt.randLike .f32 rnd x
      else TT.fullLike x (E.toS ⟨.f32, E.A.bin .div (E.A.bin .add (E.toS lower .f32).val (E.toS upper .f32).val)
      (E.A.ofNat 2)⟩ x.dtype)) ∧
      TVal a dt d (fun i => if train then rnd.getD (rowMajor d i) 0 else (l + u) / 2) := by
    refine ⟨_, rfl, ?_⟩
    cases train with
    | true =>
      obtain rfl := ht rfl
      simpa using hx.randLike hr .f32
    | false =>
      have hv : E.toS ⟨.f32, E.A.bin .div (E.A.bin .add (E.toS lower .f32).val (E.toS upper .f32).val) (E.A.ofNat 2)⟩
          x.dtype = ⟨dt, (l + u) / 2⟩ := by
        rw [hx.dtype, hl, hu]
        have h2 : E.A.bin .div (E.A.bin .add l u) (E.A.ofNat 2) = (l + u) / 2 := by
          obtain ⟨k, κ, lo, hi, hA⟩ := hE
          rw [hA]
          show (l + u) / ((2 : ℕ) : ℝ) = (l + u) / 2
          norm_num
        rw [h2]
        show (⟨dt, (E.toS ⟨.f32, (l + u) / 2⟩ dt).val⟩ : Sc ℝ) = _
        rw [hcv]
      simp only [Bool.false_eq_true, if_false, hv]
      exact hx.fullLike (dt' := dt) _
  obtain ⟨mp, p1, p2⟩ := TVal.cmpScal E hf .gt hx (E.A.cst .zero)
  obtain ⟨mn, n1, n2⟩ := TVal.cmpScal E hf .le hx (E.A.cst .zero)
  obtain ⟨mp', p3, p4⟩ := BVal.toDtype E (not_bool_of_float hf) p2
  obtain ⟨mn', n3, n4⟩ := BVal.toDtype E (not_bool_of_float hf) n2
  obtain ⟨pos, e1, v1⟩ := TVal.bin_same E hf (o := .mul) (by simp) hx p4 hpd
  obtain ⟨ax, e2, v2⟩ := TVal.bin_same E hf (o := .mul) (by simp) hx a1 hpd
  obtain ⟨neg, e3, v3⟩ := TVal.bin_same E hf (o := .mul) (by simp) v2 n4 hpd
  obtain ⟨r, e4, v4⟩ := TVal.bin_same E hf (o := .add) (by simp) v1 v3 hpd
  refine ⟨r, ?_, v4.congr fun i _ => ?_⟩
  · have hz : E.zero x.dtype = ⟨dt, E.A.cst .zero⟩ := by rw [hx.dtype]; rfl
    simp only [Rt.rrelu]
    rw [← ha, hz, p1, Res.ok_bind, n1, Res.ok_bind, hx.dtype, p3, Res.ok_bind, e1, Res.ok_bind, e2, Res.ok_bind, n3,
      Res.ok_bind, e3, Res.ok_bind, e4]
  · obtain ⟨k, κ, lo, hi, hA⟩ := hE
    rw [hA]
    generalize (if train = true then rnd.getD (rowMajor d i) 0 else (l + u) / 2) = s
    show X i * (if decide (X i > 0) then (1 : ℝ) else 0) + X i * s * (if decide (X i ≤ 0) then (1 : ℝ) else 0) = _
    by_cases h : 0 < X i
    · rw [decide_eq_true h, decide_eq_false (by linarith), if_pos h]
      simp
    · rw [decide_eq_false h, decide_eq_true (by linarith), if_neg h]
      simp

/-- C92 fails: in training mode `RReLU` of another type than `f32` never succeeds. -/
theorem C92_rrelu_type (E : Rt α) (lower upper : Sc α) (rnd : List α) (x r : TT α) (hx : x.dtype ≠ .f32) :
    E.rrelu true lower upper rnd x ≠ .ok r := by
  intro h
  simp only [Rt.rrelu, if_true] at h
  obtain ⟨_, -, h⟩ := Res.bind_eq_ok.mp h
  obtain ⟨_, -, h⟩ := Res.bind_eq_ok.mp h
  obtain ⟨_, -, h⟩ := Res.bind_eq_ok.mp h
  obtain ⟨_, -, h⟩ := Res.bind_eq_ok.mp h
  obtain ⟨_, h1, -⟩ := Res.bind_eq_ok.mp h
  exact hx (bin_type h1)

/-- C92 fails: `LeakyReLU`, `ELU` and `PReLU` never succeed; there is no kernel. -/
theorem C92_parametric_never (E : Rt α) {op : Dispatch.UnaryScalarOp} (ho : op = .leakyRelu ∨ op = .elu ∨ op = .prelu)
    (f : α → α → α) (c : Sc α) (x r : TT α) : E.paramActivation op f c x ≠ .ok r := by
  intro h
  unfold Rt.paramActivation at h
  split_ifs at h with hv
  cases x with
  | bool t => cases h
  | num dt s =>
    obtain ⟨_, -, h⟩ := Res.bind_eq_ok.mp h
    obtain ⟨k, hk, -⟩ := Res.bind_eq_ok.mp h
    have hv : Dispatch.validate dt (.unaryScalar op) = true := by simpa [TT.dtype] using hv
    have hrun := C74_panics (.unaryScalar op) dt hv (by rcases ho with rfl | rfl | rfl <;> rfl)
    rw [Dispatch.run, if_pos hv, hk] at hrun
    cases hrun

/-! ## Concrete cases -/

/-- The hypotheses of the dropout theorem are met, with one element dropped and one kept. -/
example : ∃ r, realRt.dropout .f64 true ⟨.f64, 1 / 4⟩ [1 / 8, 1 / 2] (vec32 [3, 6]) = .ok r ∧
    TVal r .f32 [2] (fun i => if (1 / 4 : ℝ) < [(1 / 8 : ℝ), 1 / 2].getD (rowMajor [2] i) 0 then
      [(3 : ℝ), 6].getD (rowMajor [2] i) 0 / (1 - 1 / 4) else 0) :=
  C92_dropout_partial realRt_real rfl (d := [2]) ⟨_, rfl, Val.fresh rfl (by
    intro idx hi
    match idx, hi with
    | [a], ⟨ha, _⟩ => have ha : a < 2 := ha; obtain rfl | rfl : a = 0 ∨ a = 1 := by omega
                      all_goals simp [rowMajor, numel])⟩ (by simp) rfl rfl (by norm_num)

example : extRt.dropout .f64 true ⟨.f64, .fin (1 / 4)⟩ [.fin (1 / 8), .fin (1 / 2)] (vec32 [.fin 3, .fin 6]) =
    .ok (vec32 [.fin 0, .fin 8]) := by decide +kernel

example : extRt.rrelu false ⟨.f32, .fin (1 / 8)⟩ ⟨.f32, .fin (3 / 8)⟩ [] (vec32 [.fin (-4), .fin 6]) =
    .ok (vec32 [.fin (-1), .fin 6]) := by decide +kernel

/-! ## What does not hold -/

/-- C92 fails: with probability 1 the scale is infinite and every element becomes NaN instead of 0. -/
theorem C92_dropout_one : extRt.dropout .f64 true ⟨.f64, .fin 1⟩ [.fin (1 / 8), .fin (1 / 2)] (vec32 [.fin 3, .fin 6]) =
    .ok (vec32 [.nan, .nan]) := by decide +kernel

/-- C92 fails: `RReLU` of infinity is NaN, because infinity is also multiplied with the slope and with 0. -/
theorem C92_rrelu_infinity : extRt.rrelu false ⟨.f32, .fin (1 / 8)⟩ ⟨.f32, .fin (3 / 8)⟩ [] (vec32 [.inf false]) =
    .ok (vec32 [.nan]) := by decide +kernel

/-- C92 in full: dropout in training mode accepts every floating-point type, with a probability of this type. -/
def C92_full : Prop :=
  ∀ (lit dt : DType) (p : ℝ) (x : TT ℝ) (d : List Nat) (X : List Nat → ℝ) (rnd : List ℝ), lit.isFloat = true →
    dt.isFloat = true → 0 ≤ p → p < 1 → TVal x dt d X → (∀ y ∈ d, 0 < y) → rnd.length = numel d →
    ∃ r, realRt.dropout lit true ⟨dt, p⟩ rnd x = .ok r

theorem C92_full_false : ¬ C92_full := by
  intro h
  obtain ⟨r, hr⟩ := h .f64 .f64 0 _ [1] (fun _ => 0) [0] rfl rfl le_rfl one_pos (TVal.full .f64 [1] 0) (by simp) rfl
  exact C92_dropout_type _ _ _ _ _ _ (by simp [TT.full, TT.dtype]) hr

end Hodu
