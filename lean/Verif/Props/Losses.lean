import Verif.Lemmas.TypedRed
import Verif.Props.Selection

/-!
# C75: loss functions

`forward` of the losses of crates/hodu_nn/src/losses.  Over the real numbers: mean squared error, binary
cross entropy with logits, and, for the last dimension, negative log likelihood and cross entropy are
what their names say; Kullback-Leibler divergence is, in `f32`.  Huber, smooth L1 and cosine embedding
loss never return a value, mean absolute error none for floating-point tensors; binary cross entropy
does not depend on the prediction.
-/

namespace Hodu
open Spec

variable {α : Type}

/-! ## Specification -/

/-- The average of `f` over the positions of a shape. -/
noncomputable def Spec.average (d : List Nat) (f : List Nat → ℝ) : ℝ :=
  ((allIndices d).map f).sum / numel d

/-- The logistic function. -/
noncomputable def Spec.sigma (x : ℝ) : ℝ := 1 / (1 + Real.exp (-x))

/-- Binary cross entropy of a probability `p` against a label `t`. -/
noncomputable def Spec.crossEntropy2 (p t : ℝ) : ℝ := -(t * Real.log p + (1 - t) * Real.log (1 - p))

/-- The Huber loss of a difference. -/
noncomputable def Spec.huber (δ x : ℝ) : ℝ := if |x| ≤ δ then x ^ 2 / 2 else δ * (|x| - δ / 2)

/-! ## Losses that never return a value -/

/-- Huber loss: a boolean mask is multiplied with numbers, which is rejected. -/
theorem C75_huber_never (E : Rt α) (delta halfSq : Sc α) (pred target r : TT α) :
    E.huber delta halfSq pred target ≠ .ok r := by
  intro h
  unfold Rt.huber at h
  obtain ⟨diff, -, h⟩ := Res.bind_eq_ok.mp h
  obtain ⟨a, -, h⟩ := Res.bind_eq_ok.mp h
  obtain ⟨sq, -, h⟩ := Res.bind_eq_ok.mp h
  obtain ⟨quad, -, h⟩ := Res.bind_eq_ok.mp h
  obtain ⟨ad, -, h⟩ := Res.bind_eq_ok.mp h
  obtain ⟨lin, -, h⟩ := Res.bind_eq_ok.mp h
  obtain ⟨mask, hm, h⟩ := Res.bind_eq_ok.mp h
  obtain ⟨m, rfl⟩ := E.cmpScal_bool hm
  rw [E.bin_bool] at h
  cases h

/-- Smooth L1 loss: the same. -/
theorem C75_smooth_l1_never (E : Rt α) (beta : Sc α) (half : α) (pred target r : TT α) :
    E.smoothL1 beta half pred target ≠ .ok r := by
  intro h
  unfold Rt.smoothL1 at h
  dsimp only at h
  obtain ⟨diff, -, h⟩ := Res.bind_eq_ok.mp h
  obtain ⟨a, -, h⟩ := Res.bind_eq_ok.mp h
  obtain ⟨sq, -, h⟩ := Res.bind_eq_ok.mp h
  obtain ⟨hs, -, h⟩ := Res.bind_eq_ok.mp h
  obtain ⟨quad, -, h⟩ := Res.bind_eq_ok.mp h
  obtain ⟨lin, -, h⟩ := Res.bind_eq_ok.mp h
  obtain ⟨mask, hm, h⟩ := Res.bind_eq_ok.mp h
  obtain ⟨m, rfl⟩ := E.cmpScal_bool hm
  rw [E.bin_bool] at h
  cases h

/-- Cosine embedding loss: the same. -/
theorem C75_cosine_never (E : Rt α) (margin : Sc α) (eps negOne : α) (x1 x2 y r : TT α) :
    E.cosineEmbedding margin eps negOne x1 x2 y ≠ .ok r := by
  intro h
  unfold Rt.cosineEmbedding at h
  dsimp only at h
  iterate 15 obtain ⟨_, -, h⟩ := Res.bind_eq_ok.mp h
  obtain ⟨mask, hm, h⟩ := Res.bind_eq_ok.mp h
  obtain ⟨m, rfl⟩ := E.cmpScal_bool hm
  rw [E.bin_bool] at h
  cases h

/-- Mean absolute error: the sum is divided by a `u32`, which only a tensor of that type accepts. -/
theorem C75_mae_never (E : Rt α) {pred target : TT α} (hp : pred.dtype ≠ .u32) (r : TT α) :
    E.mae pred target ≠ .ok r := by
  intro h
  unfold Rt.mae at h
  obtain ⟨diff, h1, h⟩ := Res.bind_eq_ok.mp h
  obtain ⟨a, h2, h⟩ := Res.bind_eq_ok.mp h
  obtain ⟨n, -, h⟩ := Res.bind_eq_ok.mp h
  obtain ⟨s, h3, h⟩ := Res.bind_eq_ok.mp h
  rw [E.scal_type] at h
  · cases h
  · rw [E.red_dtype h3, E.un_dtype h2, (E.bin_dtype h1).1]
    exact fun e => hp e.symm

/-- Kullback-Leibler divergence: the sum is divided by an `f32`. -/
theorem C75_kl_div_never (E : Rt α) (lt : Bool) {input target : TT α} (hp : target.dtype ≠ .f32)
    (r : TT α) : E.klDiv lt input target ≠ .ok r := by
  intro h
  unfold Rt.klDiv at h
  obtain ⟨loss, h1, h⟩ := Res.bind_eq_ok.mp h
  obtain ⟨s, h2, h⟩ := Res.bind_eq_ok.mp h
  obtain ⟨n, -, h⟩ := Res.bind_eq_ok.mp h
  have hl : loss.dtype = target.dtype := by
    cases lt
    · simp only [Bool.false_eq_true, if_false] at h1
      obtain ⟨l, h3, h1⟩ := Res.bind_eq_ok.mp h1
      obtain ⟨tl, h4, h1⟩ := Res.bind_eq_ok.mp h1
      obtain ⟨ti, h5, h1⟩ := Res.bind_eq_ok.mp h1
      rw [(E.bin_dtype h1).1, (E.bin_dtype h4).1]
    · simp only [if_true] at h1
      obtain ⟨p, h3, h1⟩ := Res.bind_eq_ok.mp h1
      obtain ⟨df, h4, h1⟩ := Res.bind_eq_ok.mp h1
      rw [(E.bin_dtype h1).1, E.un_dtype h3]
  rw [E.scal_type] at h
  · cases h
  · rw [E.red_dtype h2, hl]
    exact fun e => hp e.symm

/-- Binary cross entropy: a prediction of another type than `epsilon` is rejected. -/
theorem C75_bce_type (E : Rt α) (eps : Sc α) (pred target : TT α) (h : eps.dt ≠ pred.dtype) :
    E.bce eps pred target = .err := by
  rw [Rt.bce, (C85_scalar_type E pred eps _ h).2]
  rfl

/-! ## Losses over the real numbers -/

section
variable {E : Rt ℝ} {dt : DType} {d : List Nat} {P T : List Nat → ℝ} {pred target : TT ℝ}

theorem redR_sum (d : List Nat) (F : List Nat → ℝ) :
    redR .sum ((allIndices d).map F) = ((allIndices d).map F).sum := rfl

theorem redR_mean (d : List Nat) (F : List Nat → ℝ) :
    redR .mean ((allIndices d).map F) = average d F := by
  simp [redR, meanR, average, allIndices]

/-- Mean squared error. -/
theorem C75_mse_partial (hE : E.Real) (hf : dt.isFloat = true) (hp : TVal pred dt d P)
    (ht : TVal target dt d T) (hr : d.length ≤ 16) (hpd : ∀ n ∈ d, 0 < n) :
    ∃ r, E.mse pred target = .ok r ∧ TVal r dt [] fun _ => average d fun i => (P i - T i) ^ 2 := by
  obtain ⟨diff, e1, v1⟩ := TVal.bin_same E hf (o := .sub) (by simp) hp ht hpd
  obtain ⟨sq, e2, v2⟩ := TVal.scal E hf (o := .pow) (by simp) v1 (E.A.ofNat 2)
  obtain ⟨s, e3, v3⟩ := TVal.redAll hE hf v2 hr hpd (o := .sum) (by simp)
  obtain ⟨r, e4, v4⟩ := TVal.scal E hf (o := .div) (by simp) v3 (E.A.ofNat (shapeSize d))
  obtain ⟨k, κ, lo, hi, hA⟩ := hE
  refine ⟨r, ?_, v4.congr fun _ _ => ?_⟩
  · simp [Rt.mse, e1, Rt.nat, v1.dtype, e2, e3, v2.dtype, v2.dims, e4]
  · rw [hA]
    simp only [realOps, realBin, redR_sum, average, shapeSize_eq]
    congr 2
    refine List.map_congr_left fun i _ => ?_
    exact Real.rpow_natCast _ 2

theorem bceLogits_formula (x t : ℝ) :
    (if 0 < x then x else 0) - x * t + Real.log (Real.exp (-|x|) + 1) = crossEntropy2 (sigma x) t := by
  have he := Real.exp_pos (-x)
  have he' := Real.exp_pos x
  have h1 : 1 - sigma x = Real.exp (-x) / (1 + Real.exp (-x)) := by
    unfold sigma; field_simp; ring
  have h2 : Real.log (sigma x) = -Real.log (1 + Real.exp (-x)) := by
    unfold sigma; rw [one_div, Real.log_inv]
  have h3 : Real.log (1 - sigma x) = -x - Real.log (1 + Real.exp (-x)) := by
    rw [h1, Real.log_div he.ne' (by positivity), Real.log_exp]
  rw [crossEntropy2, h2, h3]
  by_cases hx : 0 < x
  · rw [if_pos hx, abs_of_pos hx, add_comm (Real.exp _)]
    ring
  · have hx' : x ≤ 0 := not_lt.mp hx
    rw [if_neg hx, abs_of_nonpos hx', neg_neg]
    have : Real.log (1 + Real.exp (-x)) = -x + Real.log (Real.exp x + 1) := by
      rw [show 1 + Real.exp (-x) = Real.exp (-x) * (Real.exp x + 1) by
        rw [mul_add, ← Real.exp_add]; simp, Real.log_mul he.ne' (by positivity), Real.log_exp]
    rw [this]
    ring

/-- Binary cross entropy with logits is the average cross entropy of the logistic function. -/
theorem C75_bce_with_logits_partial (hE : E.Real) (hf : dt.isFloat = true) (hp : TVal pred dt d P)
    (ht : TVal target dt d T) (hr : d.length ≤ 16) (hpd : ∀ n ∈ d, 0 < n) :
    ∃ r, E.bceWithLogits pred target = .ok r ∧
      TVal r dt [] fun _ => average d fun i => crossEntropy2 (sigma (P i)) (T i) := by
  obtain ⟨mx, e1, v1⟩ := TVal.bin_same E hf (o := .maximum) (by simp) hp (hp.zerosLike E) hpd
  obtain ⟨a, e2, v2⟩ := TVal.un E hf .abs hp
  obtain ⟨na, e3, v3⟩ := TVal.un E hf .neg v2
  obtain ⟨e, e4, v4⟩ := TVal.un E hf .exp v3
  obtain ⟨e', e5, v5⟩ := TVal.scal E hf (o := .add) (by simp) v4 (E.A.cst .one)
  obtain ⟨lt, e6, v6⟩ := TVal.un E hf .ln v5
  obtain ⟨tt, e7, v7⟩ := TVal.bin_same E hf (o := .mul) (by simp) hp ht hpd
  obtain ⟨l, e8, v8⟩ := TVal.bin_same E hf (o := .sub) (by simp) v1 v7 hpd
  obtain ⟨ls, e9, v9⟩ := TVal.bin_same E hf (o := .add) (by simp) v8 v6 hpd
  obtain ⟨r, e10, v10⟩ := TVal.redAll hE hf v9 hr hpd (o := .mean) (by simp)
  obtain ⟨k, κ, lo, hi, hA⟩ := hE
  refine ⟨r, ?_, v10.congr fun _ _ => ?_⟩
  · simp [Rt.bceWithLogits, e1, e2, e3, e4, Rt.one, v3.dtype, e5, e6, e7, e8, e9, e10]
  · rw [redR_mean, hA]
    simp only [realOps, realBin, realUn, realCst, bceLogits_formula]

/-- Binary cross entropy: whenever `epsilon ≤ 1 - epsilon` the prediction is replaced by `1 - epsilon`.
So the loss depends on the target only.  (`epsilon = 0` is left out: the logarithm of 0 is not a
number.) -/
theorem C75_bce_value (hE : E.Real) (hf : dt.isFloat = true) (hp : TVal pred dt d P)
    (ht : TVal target dt d T) (hr : d.length ≤ 16) (hpd : ∀ n ∈ d, 0 < n) {eps : ℝ}
    (_h0 : 0 < eps) (he : eps ≤ 1 / 2) :
    ∃ r, E.bce ⟨dt, eps⟩ pred target = .ok r ∧
      TVal r dt [] fun _ => average d fun i => crossEntropy2 (1 - eps) (T i) := by
  have hE' := hE
  obtain ⟨k, κ, lo, hi, hA⟩ := hE'
  have h1e : E.A.bin .sub (E.A.cst .one) eps = 1 - eps := by rw [hA]; rfl
  obtain ⟨pc, e1, v1⟩ := C85_clamp_constant hE hf hp hpd (lo := eps) (hi := 1 - eps) (by linarith)
  obtain ⟨lp, e2, v2⟩ := TVal.un E hf .ln v1
  obtain ⟨t1, e3, v3⟩ := TVal.bin_same E hf (o := .mul) (by simp) ht v2 hpd
  obtain ⟨omt, e4, v4⟩ := TVal.bin_same E hf (o := .sub) (by simp) (ht.onesLike E) ht hpd
  obtain ⟨omp, e5, v5⟩ := TVal.bin_same E hf (o := .sub) (by simp) (v1.onesLike E) v1 hpd
  obtain ⟨lomp, e6, v6⟩ := TVal.un E hf .ln v5
  obtain ⟨t2, e7, v7⟩ := TVal.bin_same E hf (o := .mul) (by simp) v4 v6 hpd
  obtain ⟨s, e8, v8⟩ := TVal.bin_same E hf (o := .add) (by simp) v3 v7 hpd
  obtain ⟨b, e9, v9⟩ := TVal.un E hf .neg v8
  obtain ⟨r, e10, v10⟩ := TVal.redAll hE hf v9 hr hpd (o := .mean) (by simp)
  refine ⟨r, ?_, v10.congr fun _ _ => ?_⟩
  · simp [Rt.bce, h1e, e1, e2, e3, e4, e5, e6, e7, e8, e9, e10]
  · rw [redR_mean, hA]
    rfl

/-- Kullback-Leibler divergence of `f32` tensors: the sum of `t (ln t - x)` (or `exp t (t - x)` for
logarithmic targets) divided by the first dimension.  Targets equal to zero are left out: the code
computes `0 * ln 0`, which is not a number. -/
theorem C75_kl_div_partial (hE : E.Real) {n : Nat} {rest : List Nat} (hp : TVal pred .f32 (n :: rest) P)
    (ht : TVal target .f32 (n :: rest) T) (hr : rest.length ≤ 15) (hpd : ∀ m ∈ n :: rest, 0 < m)
    (lt : Bool) (_h0 : lt = false → ∀ i, InRange i (n :: rest) → 0 < T i) :
    ∃ r, E.klDiv lt pred target = .ok r ∧ TVal r .f32 [] fun _ =>
      ((allIndices (n :: rest)).map fun i =>
        if lt then Real.exp (T i) * (T i - P i) else T i * (Real.log (T i) - P i)).sum / n := by
  have hf : DType.isFloat .f32 = true := rfl
  have hn : pred.dim0 = .ok n := by simp [TT.dim0, hp.dims]
  have hrr : (n :: rest).length ≤ 16 := by simp; omega
  cases lt
  · obtain ⟨l, e1, v1⟩ := TVal.un E hf .ln ht
    obtain ⟨tl, e2, v2⟩ := TVal.bin_same E hf (o := .mul) (by simp) ht v1 hpd
    obtain ⟨ti, e3, v3⟩ := TVal.bin_same E hf (o := .mul) (by simp) ht hp hpd
    obtain ⟨ls, e4, v4⟩ := TVal.bin_same E hf (o := .sub) (by simp) v2 v3 hpd
    obtain ⟨s, e5, v5⟩ := TVal.redAll hE hf v4 hrr hpd (o := .sum) (by simp)
    obtain ⟨r, e6, v6⟩ := TVal.scal E hf (o := .div) (by simp) v5 (E.A.ofNat n)
    obtain ⟨k, κ, lo, hi, hA⟩ := hE
    refine ⟨r, by simp [Rt.klDiv, e1, e2, e3, e4, e5, hn, Rt.nat, e6], v6.congr fun _ _ => ?_⟩
    rw [hA]
    simp only [realOps, realBin, realUn, redR_sum, Bool.false_eq_true, if_false]
    congr 2
    refine List.map_congr_left fun i _ => ?_
    ring
  · obtain ⟨p, e1, v1⟩ := TVal.un E hf .exp ht
    obtain ⟨df, e2, v2⟩ := TVal.bin_same E hf (o := .sub) (by simp) ht hp hpd
    obtain ⟨ls, e4, v4⟩ := TVal.bin_same E hf (o := .mul) (by simp) v1 v2 hpd
    obtain ⟨s, e5, v5⟩ := TVal.redAll hE hf v4 hrr hpd (o := .sum) (by simp)
    obtain ⟨r, e6, v6⟩ := TVal.scal E hf (o := .div) (by simp) v5 (E.A.ofNat n)
    obtain ⟨k, κ, lo, hi, hA⟩ := hE
    refine ⟨r, by simp [Rt.klDiv, e1, e2, e4, e5, hn, Rt.nat, e6], v6.congr fun _ _ => ?_⟩
    rw [hA]
    simp only [realOps, realBin, realUn, redR_sum, if_true]

/-! ### Class indices -/

theorem unsqueezeLast_fresh {β : Type} (ts : List β) (lead : List Nat) (hr : lead.length < 2 ^ 31 - 1) :
    (⟨ts, Layout.fromShape lead⟩ : Tensor β).unsqueeze (-1) =
      .ok ⟨ts, ⟨lead ++ [1], Layout.computeStrides (lead ++ [1]), 0⟩⟩ := by
  have hc : castUsize (lead.length : Int) = lead.length := castUsize_nat (by omega)
  simp [Tensor.unsqueeze, Tensor.viewVia, Tensor.contiguous, Layout.unsqueeze, Layout.ndim,
    Layout.fromShape, hc, isContiguous_computeStrides]

theorem set_snoc (i : List Nat) (a b : Nat) (n : Nat) (h : i.length = n) :
    (i ++ [a]).set n b = i ++ [b] := by
  subst h
  simp

/-- Negative log likelihood along the last dimension: minus the average of the entries which the
targets name.  Missing: other dimensions (`C75_nll_wrong`), targets that are views. -/
theorem C75_nll_partial (hE : E.Real) (hf : dt.isFloat = true) {lead : List Nat} {C : Nat}
    (hp : TVal pred dt (lead ++ [C]) P) {ts : List Int} {c : List Nat → Nat}
    (ht : Val ⟨ts, Layout.fromShape lead⟩ lead fun i => (c i : Int)) (hr : lead.length ≤ 15)
    (hpd : ∀ n ∈ lead, 0 < n) (hC : C < 2 ^ 31) (hc : ∀ i, InRange i lead → c i < C)
    (hv : ∀ v ∈ ts, I32 v) {dim : Int} (hd : IsAxis (lead.length + 1) dim lead.length) :
    ∃ r, E.nll dim pred ⟨ts, Layout.fromShape lead⟩ = .ok r ∧
      TVal r dt [] fun _ => average lead fun i => -P (i ++ [c i]) := by
  have hlen : pred.dims.length = lead.length + 1 := by rw [hp.dims]; simp
  have hg : (if dim < 0 then (pred.dims.length : Int) + dim else dim) = (lead.length : Int) := by
    rw [hlen]
    obtain ⟨_, h | h⟩ := hd
    · rw [if_neg (by omega), h]
    · rw [if_pos (by omega), h]; push_cast; ring
  have hu := unsqueezeLast_fresh ts lead (by omega)
  obtain ⟨s, hs1, hs2⟩ := ht.unsqueezeLast (by omega)
  rw [hu] at hs1
  obtain rfl : ts = s := by simpa using hs1
  obtain ⟨t, rfl, hp'⟩ := hp
  have hdim : t.dims = lead ++ [C] := hp'.dims
  obtain ⟨y, g1, g2, g3, g4⟩ := C30_gather_partial (t := t)
    (ix := ⟨ts, ⟨lead ++ [1], Layout.computeStrides (lead ++ [1]), 0⟩⟩) (dim := (lead.length : Int))
    (k := lead.length) (n := C) (E.A.cst .zero) hp'.wf (by rw [hdim]; simp; omega)
    (by rw [hdim]; exact ⟨by simp, Or.inl rfl⟩) (by rw [hdim]; simp) hC hs2.wf
    (by
      rw [hdim]
      refine ⟨by simp [Tensor.dims], fun i x y hi hx hy => ?_⟩
      simp only [Tensor.dims] at hx
      by_cases h : i < lead.length
      · rw [List.getElem?_append_left h] at hx hy
        rw [hx] at hy
        cases hy
        exact le_refl _
      · rw [List.getElem?_eq_none (by simp; omega)] at hx
        cases hx) rfl rfl hv
  have hval : TVal (.num dt y) dt (lead ++ [1]) fun j => P (j.dropLast ++ [c j.dropLast]) := by
    refine ⟨y, rfl, g3, g2, ?_, fun j hj => ?_⟩
    · obtain ⟨z, -, hz⟩ := Res.bind_eq_ok.mp g1
      cases hz
      exact Or.inr rfl
    · obtain ⟨i, a, rfl, h3, h4⟩ := inRange_of_snoc hj
      have h5 := g4 (i ++ [a]) (c i) hj (by simpa using hs2.vals _ hj)
      rw [h5.1 (c i) ⟨hc i h3, Or.inl rfl⟩, set_snoc i a (c i) _ h3.length, hp'.vals _ (inRange_snoc h3 (hc i h3))]
      simp
  obtain ⟨q, e1, v1⟩ := hval.squeezeLast (by omega)
  obtain ⟨ng, e2, v2⟩ := TVal.un E hf .neg v1
  obtain ⟨r, e3, v3⟩ := TVal.redAll hE hf v2 (by omega) hpd (o := .mean) (by simp)
  obtain ⟨k, κ, lo, hi, hA⟩ := hE
  refine ⟨r, ?_, v3.congr fun _ _ => ?_⟩
  · unfold Rt.nll
    dsimp only
    rw [hg, hu]
    simp [Rt.gather, g1, e1, e2, e3]
  · rw [redR_mean, hA]
    simp [realOps, realUn]

theorem zeroAxes_snoc (i : List Nat) (a n : Nat) (h : i.length = n) :
    zeroAxes [n] (i ++ [a]) = i ++ [0] := by
  subst h
  unfold zeroAxes
  rw [List.mapIdx_append]
  congr 1
  · apply List.ext_getElem (by simp)
    intro j h1 h2
    simp only [List.length_mapIdx] at h1
    simp; omega
  · simp

/-- Along the last dimension the sum of exponentials is the sum over the classes. -/
theorem sumExp_last (F : List Nat → ℝ) {lead i : List Nat} {C a : Nat} (hi : InRange i lead) :
    sumExp F lead.length (lead ++ [C]) (i ++ [a]) =
      ((List.range C).map fun c => Real.exp (F (i ++ [c]))).sum := by
  unfold sumExp
  have hp : (cell [lead.length] true (lead ++ [C]) (reduceIndex [lead.length] true (i ++ [a]))).Perm
      ((List.range C).map fun c => i ++ [c]) := by
    refine (List.perm_ext_iff_of_nodup (nodup_cell ..) ?_).mpr fun j => ?_
    · exact List.nodup_range.map fun _ _ h => by simpa using h
    · rw [mem_cell]
      simp only [List.mem_map, List.mem_range]
      constructor
      · rintro ⟨h1, h2⟩
        obtain ⟨i', b, rfl, h3, h4⟩ := inRange_of_snoc h1
        refine ⟨b, h4, ?_⟩
        simp only [reduceIndex, if_true] at h2
        rw [zeroAxes_snoc _ _ _ h3.length, zeroAxes_snoc _ _ _ hi.length] at h2
        rw [(List.append_inj' h2 rfl).1]
      · rintro ⟨c, hc, rfl⟩
        refine ⟨inRange_snoc hi hc, ?_⟩
        simp only [reduceIndex, if_true]
        rw [zeroAxes_snoc _ _ _ hi.length, zeroAxes_snoc _ _ _ hi.length]
  rw [(hp.map fun j => Real.exp (F j)).sum_eq, List.map_map]
  rfl

/-- Cross entropy along the last dimension: minus the average logarithm of the probability which the
softmax of the logits gives to the target class.  Missing: other dimensions, targets that are views. -/
theorem C75_cross_entropy_partial (hE : E.Real) (hf : dt.isFloat = true) {lead : List Nat} {C : Nat}
    (hp : TVal pred dt (lead ++ [C]) P) {ts : List Int} {c : List Nat → Nat}
    (ht : Val ⟨ts, Layout.fromShape lead⟩ lead fun i => (c i : Int)) (hr : lead.length ≤ 15)
    (hpd : ∀ n ∈ lead ++ [C], 0 < n) (hC : C < 2 ^ 31) (hc : ∀ i, InRange i lead → c i < C)
    (hv : ∀ v ∈ ts, I32 v) {dim : Int} (hd : IsAxis (lead.length + 1) dim lead.length) :
    ∃ r, E.crossEntropy dim pred ⟨ts, Layout.fromShape lead⟩ = .ok r ∧
      TVal r dt [] fun _ => average lead fun i => -Real.log (Real.exp (P (i ++ [c i])) /
        ((List.range C).map fun a => Real.exp (P (i ++ [a]))).sum) := by
  obtain ⟨lp, e1, v1⟩ := TVal.logSoftmax hE hf hp (by simp; omega) hpd
    (a := dim) (k := lead.length) (by simpa using hd)
  obtain ⟨r, e2, v2⟩ := C75_nll_partial hE hf v1 ht hr (fun n h => hpd n (by simp [h])) hC hc hv hd
  refine ⟨r, by rw [Rt.crossEntropy, e1, Res.ok_bind, e2], v2.congr fun _ _ => ?_⟩
  unfold average
  congr 2
  refine List.map_congr_left fun i h => ?_
  have hi := mem_allIndices.mp h
  have hpos := sumExp_pos (X := P) (k := lead.length) (inRange_snoc hi (hc i hi))
  rw [sumExp_last P hi] at hpos ⊢
  rw [Real.log_div (Real.exp_ne_zero _) hpos.ne', Real.log_exp]

/-- The hypotheses of the theorems above: two rows of logits and their classes. -/
example : ∃ (x : TT ℝ) (ts : List Int), TVal x .f32 ([2] ++ [3]) (fun i => (i.getD 1 0 : ℝ)) ∧
    Val ⟨ts, Layout.fromShape [2]⟩ [2] (fun i => ((2 - i.getD 0 0 : Nat) : Int)) ∧
    (∀ i, InRange i [2] → 2 - i.getD 0 0 < 3) ∧ (∀ v ∈ ts, I32 v) ∧ IsAxis 2 (-1) 1 := by
  refine ⟨.num .f32 ⟨[0, 1, 2, 0, 1, 2], Layout.fromShape [2, 3]⟩, [2, 1],
    ⟨_, rfl, Val.fresh rfl ?_⟩, Val.fresh rfl ?_, ?_, ?_, by decide, by decide⟩
  · intro idx hi
    match idx, hi with
    | [a, b], ⟨ha, hb, _⟩ =>
      obtain rfl | rfl : a = 0 ∨ a = 1 := by omega
      all_goals
        obtain rfl | rfl | rfl : b = 0 ∨ b = 1 ∨ b = 2 := by omega
        all_goals norm_num [rowMajor, numel]
  · intro idx hi
    match idx, hi with
    | [a], ⟨ha, _⟩ =>
      obtain rfl | rfl : a = 0 ∨ a = 1 := by omega
      all_goals norm_num [rowMajor, numel]
  · intro i hi
    match i, hi with
    | [a], ⟨ha, _⟩ => simp; omega
  · intro v hv
    simp only [List.mem_cons, List.not_mem_nil, or_false] at hv
    rcases hv with rfl | rfl <;> (unfold I32; omega)

end

/-! ## Where the losses are wrong -/

/-- Along dimension 1 of a 1×2×2 tensor `[[a, b], [c, d]]` with targets `[0, 1]` the loss is
`-(a + d) / 2`; for 1, 2, 3, 4 that is `-5/2`.  The code returns `-(1 + 3) / 2`. -/
theorem C75_nll_wrong :
    ratRt.nll 1 (.num .f32 ⟨[some 1, some 2, some 3, some 4], Layout.fromShape [1, 2, 2]⟩)
      ⟨[0, 1], Layout.fromShape [1, 2]⟩ = .ok (.num .f32 ⟨[some (-2)], Layout.fromShape []⟩) := by
  decide +kernel

/-- The property for the losses between two tensors of equal shape. -/
def Spec.C75_full : Prop :=
  ∀ (E : Rt ℝ), E.Real → ∀ (dt : DType), dt.isFloat = true → ∀ (pred target : TT ℝ) (d : List Nat)
    (P T : List Nat → ℝ) (δ eps : ℝ), TVal pred dt d P → TVal target dt d T → d ≠ [] → d.length ≤ 16 →
    (∀ n ∈ d, 0 < n) → 0 < δ → 0 < eps → eps ≤ 1 / 2 →
    (∀ i, InRange i d → eps ≤ P i ∧ P i ≤ 1 - eps) →
    (∃ r, E.mse pred target = .ok r ∧ TVal r dt [] fun _ => average d fun i => (P i - T i) ^ 2) ∧
    (∃ r, E.mae pred target = .ok r ∧ TVal r dt [] fun _ => average d fun i => |P i - T i|) ∧
    (∃ r, E.huber ⟨dt, δ⟩ ⟨dt, δ ^ 2 / 2⟩ pred target = .ok r ∧
      TVal r dt [] fun _ => average d fun i => Spec.huber δ (P i - T i)) ∧
    (∃ r, E.bce ⟨dt, eps⟩ pred target = .ok r ∧
      TVal r dt [] fun _ => average d fun i => crossEntropy2 (P i) (T i))

/-- A value that differs: binary cross entropy of one prediction 1/2 with `epsilon = 1/4`. -/
theorem C75_bce_wrong : ∃ (pred target : TT ℝ) (P T : List Nat → ℝ), TVal pred .f32 [1] P ∧
    TVal target .f32 [1] T ∧ (∀ i, InRange i [1] → (1 / 4 : ℝ) ≤ P i ∧ P i ≤ 1 - 1 / 4) ∧
    ∀ E : Rt ℝ, E.Real → ¬ ∃ r, E.bce ⟨.f32, 1 / 4⟩ pred target = .ok r ∧
      TVal r .f32 [] fun _ => average [1] fun i => crossEntropy2 (P i) (T i) := by
  refine ⟨TT.full [1] ⟨.f32, 1 / 2⟩, TT.full [1] ⟨.f32, 1⟩, fun _ => 1 / 2, fun _ => 1,
    TVal.full _ _ _, TVal.full _ _ _, fun _ _ => by norm_num, fun E hE => ?_⟩
  rintro ⟨r, h1, h2⟩
  obtain ⟨r', h3, h4⟩ := C75_bce_value hE (dt := .f32) rfl (TVal.full .f32 [1] (1 / 2 : ℝ))
    (TVal.full .f32 [1] (1 : ℝ)) (by simp) (by simp) (eps := 1 / 4) (by norm_num) (by norm_num)
  rw [h1] at h3
  cases h3
  obtain ⟨t, rfl, ht⟩ := h2
  obtain ⟨t', e, ht'⟩ := h4
  cases e
  have := (ht.vals [] trivial).symm.trans (ht'.vals [] trivial)
  simp [average, allIndices, numel, crossEntropy2] at this
  have h5 : Real.log 2 = -Real.log (1 - 1 / 4) := by linarith
  have h6 : Real.log 2 = Real.log (4 / 3) := by
    rw [h5, ← Real.log_inv]; norm_num
  have := Real.log_injOn_pos (by norm_num : (2 : ℝ) ∈ Set.Ioi 0) (by norm_num : (4 / 3 : ℝ) ∈ Set.Ioi 0) h6
  norm_num at this

/-- Three of the four fail. -/
theorem C75_full_false : ¬ Spec.C75_full := by
  intro h
  obtain ⟨-, ⟨r, h1, -⟩, -⟩ := h realRt realRt_real .f32 rfl (TT.full [1] ⟨.f32, 1 / 2⟩)
    (TT.full [1] ⟨.f32, 1⟩) [1] (fun _ => 1 / 2) (fun _ => 1) 1 (1 / 4) (TVal.full _ _ _)
    (TVal.full _ _ _) (by simp) (by simp) (by simp) (by norm_num) (by norm_num) (by norm_num)
    (fun _ _ => by norm_num)
  exact C75_mae_never realRt (by decide) r h1

end Hodu
