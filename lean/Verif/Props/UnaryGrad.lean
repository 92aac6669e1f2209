import Verif.Lemmas.UnaryDeriv
import Verif.Lemmas.RatOps
import Mathlib.Analysis.Calculus.MeanValue

/-!
# Gradients of element-wise operators: C72
-/

namespace Hodu
open Spec Real

section
variable (k : KernelConsts) (κ : GConst → ℝ) (lo hi : ℝ)

/-- **C72 (partial)**: for every unary operator except the two hard activations and every tensor of
real numbers, the operator and its backward rule succeed with tensors of the input's shape, the value
of the operator at `j` is its formula at `x_j`, and the gradient at `j` is the incoming gradient at
`j` times the derivative of the formula at `x_j`, wherever `RegularU` holds.

Missing from the full property: `hardsigmoid` and `hardsilu` (`C72_full_false`); the constants of the
GELU rule differ from the kernel's (`C72_gelu_constants`); `abs` has a rule but is not recorded
(`C72_not_recorded`); contiguous views with an offset (see C10); zero sizes; rounding. -/
theorem C72_unary_partial {x g : Tensor ℝ} {d : List Nat} {X G : List Nat → ℝ}
    (hx : Val x d X) (hg : Val g d G) (hpd : ∀ y ∈ d, 0 < y) (o : UOp)
    (ho : o ≠ .hardsigmoid ∧ o ≠ .hardsilu) (cores : Nat) (fill : ℝ) :
    ∃ out r, x.unary cores ((realOps k κ lo hi).un o) fill = .ok out ∧
      (∀ j, InRange j d → out.elem j = some (realUn k o (X j))) ∧
      unaryVjp (realOps k κ lo hi) cores fill o x out g = .ok r ∧ r.WF ∧ r.dims = d ∧
      ∀ j, InRange j d → RegularU k κ o (X j) →
        ∃ D, r.elem j = some (G j * D) ∧ HasDerivAt (realUn k o) D (X j) := by
  obtain ⟨out, h1, h2⟩ := hx.unary cores (realUn k o) fill
  have hts : List.Forall₂ (fun t F => Val t d F) [x, out, g] [X, fun j => realUn k o (X j), G] :=
    .cons hx (.cons h2 (.cons hg .nil))
  have hcl : (unaryRule o).Closed 3 := by cases o <;> decide
  have hnb : (unaryRule o).noBool = true := by
    obtain ⟨ha, hb⟩ := ho
    cases o <;> first | decide | contradiction
  obtain ⟨r, F, h3, h4, h5⟩ := (Ex.run_val (realOps k κ lo hi) cores fill hpd hts (unaryRule o) hcl).2 hnb
  refine ⟨out, r, h1, h2.vals, h3, h4.wf, h4.dims, fun j hj hreg => ?_⟩
  obtain ⟨D, h6, h7⟩ := unaryRule_deriv k κ lo hi o (X j) (G j) hreg
  refine ⟨D, ?_, h7⟩
  rw [h4.vals j hj]
  have h8 := h5 j
  simp only [List.map] at h8
  rw [h8] at h6
  rw [Option.some.inj h6]

/-! ## Operators with a scalar -/

/-- The textbook operators with a scalar `c` (`rem` is C's `fmod`).  The kernels of `add` to
`minimum` are these formulas (ops_unary.c:790-806); the last three have no kernel (C74). -/
noncomputable def Spec.scalR (o : SOp) (c x : ℝ) : ℝ :=
  match o with
  | .add => x + c
  | .sub => x - c
  | .mul => x * c
  | .div => x / c
  | .rem => x - c * truncR (x / c)
  | .pow => x ^ c
  | .maximum => max x c
  | .minimum => min x c
  | .leakyRelu => if 0 < x then x else c * x
  | .elu => if 0 < x then x else c * (exp x - 1)
  | .prelu => if 0 < x then x else c * x

/-- Where an operator with a scalar is differentiable, and what is needed of the derived constants. -/
def Spec.RegularS (κ : GConst → ℝ) (o : SOp) (x : ℝ) : Prop :=
  match o with
  | .add | .sub | .mul => True
  | .div => κ .argInv = 1 / κ .arg
  | .rem => κ .arg ≠ 0 ∧ (⌊x / κ .arg⌋ : ℝ) ≠ x / κ .arg
  | .pow => κ .argPred = κ .arg - 1 ∧
      (0 < x ∨ (∃ n : ℤ, κ .arg = n) ∧ (x ≠ 0 ∨ 1 ≤ κ .arg))
  | .maximum | .minimum => x ≠ κ .arg
  | .leakyRelu | .elu | .prelu => x ≠ 0

theorem eventually_truncR {x : ℝ} (h : (⌊x⌋ : ℝ) ≠ x) : ∀ᶠ y in nhds x, truncR y = truncR x := by
  have h1 : (⌊x⌋ : ℝ) < x := lt_of_le_of_ne (Int.floor_le x) h
  have h2 : x < ⌊x⌋ + 1 := Int.lt_floor_add_one x
  have hx : x ≠ 0 := by
    rintro rfl
    simp at h
  have hc : ∀ y : ℝ, (⌊x⌋ : ℝ) < y → y < ⌊x⌋ + 1 → ⌈y⌉ = ⌊x⌋ + 1 := by
    intro y h3 h4
    rw [Int.ceil_eq_iff]
    push_cast
    exact ⟨by linarith, h4.le⟩
  rcases lt_or_gt_of_ne hx with h0 | h0
  · filter_upwards [lt_mem_nhds h1, gt_mem_nhds h2, gt_mem_nhds h0] with y h3 h4 h5
    simp only [truncR, if_neg (not_le.mpr h5), if_neg (not_le.mpr h0), hc y h3 h4, hc x h1 h2]
  · filter_upwards [eventually_floor h, lt_mem_nhds h0] with y h3 h5
    simp only [truncR, if_pos h5.le, if_pos h0.le, h3]

theorem scalarRule_deriv (o : SOp) (x out g : ℝ) (h : RegularS κ o x) :
    ∃ D, (scalarRule o).scalar (realOps k κ lo hi) [x, out, g] = some (g * D) ∧
      HasDerivAt (scalR o (κ .arg)) D x := by
  cases o
  case add =>
    exact ⟨1, by simp [scalarRule, Ex.scalar], (hasDerivAt_id x).add_const _⟩
  case sub =>
    exact ⟨1, by simp [scalarRule, Ex.scalar], (hasDerivAt_id x).sub_const _⟩
  case mul =>
    refine ⟨κ .arg, by simp [scalarRule, Ex.scalar, realOps, realBin, realCst], ?_⟩
    refine ((hasDerivAt_id x).mul_const (κ .arg)).congr_deriv ?_
    ring
  case div =>
    have h1 : κ .argInv = 1 / κ .arg := h
    refine ⟨1 / κ .arg, by simp [scalarRule, Ex.scalar, realOps, realBin, realCst, h1], ?_⟩
    exact (hasDerivAt_id x).div_const (κ .arg)
  case rem =>
    obtain ⟨h1, h2⟩ := h
    refine ⟨1, by simp [scalarRule, Ex.scalar], ?_⟩
    have hd : HasDerivAt (fun y : ℝ => y - κ .arg * truncR (x / κ .arg)) 1 x :=
      (hasDerivAt_id x).sub_const _
    refine hd.congr_of_eventuallyEq ?_
    have hc : Filter.Tendsto (fun y : ℝ => y / κ .arg) (nhds x) (nhds (x / κ .arg)) := by
      have : Continuous fun y : ℝ => y / κ .arg := by fun_prop
      exact this.tendsto x
    filter_upwards [hc.eventually (eventually_truncR h2)] with y hy
    simp only [scalR, hy]
  case pow =>
    obtain ⟨h1, h2⟩ := h
    refine ⟨κ .arg * x ^ (κ .arg - 1), ?_, ?_⟩
    · simp [scalarRule, Ex.scalar, realOps, realBin, realCst, h1]
      left
      ring
    · apply Real.hasDerivAt_rpow_const
      rcases h2 with h2 | ⟨-, h2⟩
      · exact Or.inl h2.ne'
      · exact h2
  case maximum =>
    have hx : x ≠ κ .arg := h
    rcases lt_or_gt_of_ne hx with h1 | h1
    · refine ⟨0, by simp [scalarRule, Ex.scalar, realOps, realBin, realCmp, realCst, FOps.ofBool,
        not_le.mpr h1], (hasDerivAt_const x (κ .arg)).congr_of_eventuallyEq ?_⟩
      filter_upwards [gt_mem_nhds h1] with y hy
      exact max_eq_right hy.le
    · refine ⟨1, by simp [scalarRule, Ex.scalar, realOps, realBin, realCmp, realCst, FOps.ofBool,
        h1.le], (hasDerivAt_id x).congr_of_eventuallyEq ?_⟩
      filter_upwards [lt_mem_nhds h1] with y hy
      exact max_eq_left hy.le
  case minimum =>
    have hx : x ≠ κ .arg := h
    rcases lt_or_gt_of_ne hx with h1 | h1
    · refine ⟨1, by simp [scalarRule, Ex.scalar, realOps, realBin, realCmp, realCst, FOps.ofBool,
        h1.le], (hasDerivAt_id x).congr_of_eventuallyEq ?_⟩
      filter_upwards [gt_mem_nhds h1] with y hy
      exact min_eq_left hy.le
    · refine ⟨0, by simp [scalarRule, Ex.scalar, realOps, realBin, realCmp, realCst, FOps.ofBool,
        not_le.mpr h1], (hasDerivAt_const x (κ .arg)).congr_of_eventuallyEq ?_⟩
      filter_upwards [lt_mem_nhds h1] with y hy
      exact min_eq_right hy.le
  case leakyRelu =>
    have hx : x ≠ 0 := h
    refine ⟨if 0 < x then 1 else κ .arg, ?_, ?_⟩
    · rcases lt_or_gt_of_ne hx with h1 | h1
      · simp [scalarRule, Ex.scalar, realOps, realBin, realCmp, realCst, FOps.ofBool, h1.le,
          not_lt.mpr h1.le]
      · simp [scalarRule, Ex.scalar, realOps, realBin, realCmp, realCst, FOps.ofBool, h1,
          not_le.mpr h1]
    · have hb : HasDerivAt (fun y : ℝ => κ .arg * y) (κ .arg) x := by
        simpa using (hasDerivAt_id x).const_mul (κ .arg)
      exact hasDerivAt_split (f := scalR .leakyRelu (κ .arg)) (hasDerivAt_id x) hb
        (fun y hy => by simp [scalR, hy]) (fun y hy => by simp [scalR, not_lt.mpr hy]) hx
  case prelu =>
    have hx : x ≠ 0 := h
    refine ⟨if 0 < x then 1 else κ .arg, ?_, ?_⟩
    · rcases lt_or_gt_of_ne hx with h1 | h1
      · simp [scalarRule, Ex.scalar, realOps, realBin, realCmp, realCst, FOps.ofBool, h1.le,
          not_lt.mpr h1.le]
      · simp [scalarRule, Ex.scalar, realOps, realBin, realCmp, realCst, FOps.ofBool, h1,
          not_le.mpr h1]
    · have hb : HasDerivAt (fun y : ℝ => κ .arg * y) (κ .arg) x := by
        simpa using (hasDerivAt_id x).const_mul (κ .arg)
      exact hasDerivAt_split (f := scalR .prelu (κ .arg)) (hasDerivAt_id x) hb
        (fun y hy => by simp [scalR, hy]) (fun y hy => by simp [scalR, not_lt.mpr hy]) hx
  case elu =>
    have hx : x ≠ 0 := h
    refine ⟨if 0 < x then 1 else κ .arg * exp x, ?_, ?_⟩
    · rcases lt_or_gt_of_ne hx with h1 | h1
      · simp [scalarRule, Ex.scalar, realOps, realUn, realBin, realCmp, realCst, FOps.ofBool, h1.le,
          not_lt.mpr h1.le]
        left
        ring
      · simp [scalarRule, Ex.scalar, realOps, realUn, realBin, realCmp, realCst, FOps.ofBool, h1,
          not_le.mpr h1]
    · have hb : HasDerivAt (fun y : ℝ => κ .arg * (exp y - 1)) (κ .arg * exp x) x :=
        ((hasDerivAt_exp x).sub_const 1).const_mul _
      exact hasDerivAt_split (f := scalR .elu (κ .arg)) (hasDerivAt_id x) hb
        (fun y hy => by simp [scalR, hy]) (fun y hy => by simp [scalR, not_lt.mpr hy]) hx

/-- **C72 (partial), operators with a scalar**: the backward rule of every operator with a scalar
succeeds — unless it is a division by a scalar below the type's epsilon — and its value at `j` is the
incoming gradient times the derivative of the textbook function at `x_j`, wherever `RegularS` holds.

Missing: divisors below epsilon, which the forward pass accepts (`C72_tiny_divisor`). -/
theorem C72_scalar_partial {x out g : Tensor ℝ} {d : List Nat} {X O G : List Nat → ℝ}
    (hx : Val x d X) (ho : Val out d O) (hg : Val g d G) (hpd : ∀ y ∈ d, 0 < y) (o : SOp)
    (tiny : Bool) (ht : o = .div → tiny = false) (cores : Nat) (fill : ℝ) :
    ∃ r, scalarVjp (realOps k κ lo hi) cores fill tiny o x out g = .ok r ∧ r.WF ∧ r.dims = d ∧
      ∀ j, InRange j d → RegularS κ o (X j) →
        ∃ D, r.elem j = some (G j * D) ∧ HasDerivAt (scalR o (κ .arg)) D (X j) := by
  have hts : List.Forall₂ (fun t F => Val t d F) [x, out, g] [X, O, G] :=
    .cons hx (.cons ho (.cons hg .nil))
  have hcl : (scalarRule o).Closed 3 := by cases o <;> decide
  have hnb : (scalarRule o).noBool = true := by cases o <;> decide
  obtain ⟨r, F, h3, h4, h5⟩ := (Ex.run_val (realOps k κ lo hi) cores fill hpd hts (scalarRule o) hcl).2 hnb
  refine ⟨r, ?_, h4.wf, h4.dims, fun j hj hreg => ?_⟩
  · unfold scalarVjp
    rw [if_neg, h3]
    rintro ⟨h1, h2⟩
    rw [ht h1] at h2
    cases h2
  obtain ⟨D, h6, h7⟩ := scalarRule_deriv k κ lo hi o (X j) (O j) (G j) hreg
  refine ⟨D, ?_, h7⟩
  rw [h4.vals j hj]
  have h8 := h5 j
  simp only [List.map] at h8
  rw [h8] at h6
  rw [Option.some.inj h6]

end

/-! ## Where the full property fails -/

/-- **C72, full property**: every operator that is recorded on the tape has a backward rule that
succeeds with a tensor of the input's shape. -/
def C72_full : Prop :=
  ∀ (α : Type) (A : FOps α) (cores : Nat) (fill : α) (o : UOp) (x out g : Tensor α), x.WF → out.WF →
    g.WF → x.layout.offset = 0 → out.dims = x.dims → g.dims = x.dims → unaryDiff o = true →
    (∀ y ∈ x.dims, 0 < y) →
    ∃ r, unaryVjp A cores fill o x out g = .ok r ∧ r.dims = x.dims

/-- The rules of the two hard activations fail on every input: they multiply two boolean masks, which
the library rejects. -/
theorem C72_hard_fails {α : Type} (A : FOps α) (cores : Nat) (fill : α) {x out g : Tensor α}
    {d : List Nat} {X O G : List Nat → α} (hx : Val x d X) (ho : Val out d O) (hg : Val g d G)
    (hpd : ∀ y ∈ d, 0 < y) :
    unaryVjp A cores fill .hardsigmoid x out g = .err ∧
    unaryVjp A cores fill .hardsilu x out g = .err := by
  have hts : List.Forall₂ (fun t F => Val t d F) [x, out, g] [X, O, G] :=
    .cons hx (.cons ho (.cons hg .nil))
  have h1 : (unaryRule .hardsigmoid).Closed 3 := by decide
  have h2 : (unaryRule .hardsilu).Closed 3 := by decide
  exact ⟨(Ex.run_val A cores fill hpd hts _ h1).1 (by decide),
    (Ex.run_val A cores fill hpd hts _ h2).1 (by decide)⟩

/-- **C72 is false as stated.** -/
theorem C72_full_false : ¬ C72_full := by
  intro h
  have hv : Val (⟨[some 1], Layout.fromShape [1]⟩ : Tensor (Option ℚ)) [1] (fun _ => some 1) :=
    Val.fresh (by decide) fun j hj => by
      match j, hj with
      | [i], hj =>
        have : i = 0 := by have := hj.1; omega
        subst this
        rfl
  obtain ⟨r, h1, -⟩ := h _ ratOps 1 none .hardsigmoid _ _ _ hv.wf hv.wf hv.wf rfl rfl rfl (by decide)
    (by decide)
  rw [(C72_hard_fails ratOps 1 none hv hv hv (by decide)).1] at h1
  cases h1

/-- The rounding operators and the sign, whose derivative is 0 almost everywhere, are not recorded on
the tape; neither is `abs`, whose derivative is ±1: no gradient flows through it although a rule
exists. -/
theorem C72_not_recorded (o : UOp) :
    unaryDiff o = false ↔ o = .abs ∨ o = .sign ∨ o = .ceil ∨ o = .floor ∨ o = .round := by
  cases o <;> decide

/-- The rule of a division by a scalar fails for a scalar below epsilon, whatever the tensors. -/
theorem C72_tiny_divisor {α : Type} (A : FOps α) (cores : Nat) (fill : α) (x out g : Tensor α) :
    scalarVjp A cores fill true .div x out g = .err := rfl

/-- **C72, constants of the GELU rule**: the rule with its own constants `κ` is the derivative of the
kernel's function at every point only if both use the same constants. -/
theorem C72_gelu_constants (k : KernelConsts) (κ : GConst → ℝ) (lo hi : ℝ)
    (h3 : κ .threeGeluCoeff = 3 * κ .geluCoeff)
    (h : ∀ x : ℝ, ∃ D, (unaryRule .gelu).scalar (realOps k κ lo hi) [x, realUn k .gelu x, 1] = some D ∧
      HasDerivAt (realUn k .gelu) D x) :
    κ .gelu = k.gelu ∧ κ .gelu * κ .geluCoeff = k.gelu * k.geluCoeff := by
  -- the function whose derivative the rule computes
  let k' : KernelConsts := ⟨κ .gelu, κ .geluCoeff, 0, 0, 0⟩
  have hk : ∀ x, HasDerivAt (fun x => realUn k' .gelu x - realUn k .gelu x) 0 x := by
    intro x
    obtain ⟨D, h1, h2⟩ := h x
    obtain ⟨D', h1', h2'⟩ := unaryRule_deriv k' κ lo hi .gelu x 1 ⟨rfl, rfl, h3⟩
    have : (unaryRule .gelu).scalar (realOps k κ lo hi) [x, realUn k .gelu x, 1] =
        (unaryRule .gelu).scalar (realOps k' κ lo hi) [x, realUn k' .gelu x, 1] := rfl
    rw [this, h1', Option.some.injEq, one_mul] at h1
    rw [← h1] at h2
    refine (h2'.sub h2).congr_deriv ?_
    ring
  have hconst := is_const_of_deriv_eq_zero (fun x => (hk x).differentiableAt) (fun x => (hk x).deriv)
  have heq : ∀ x : ℝ, x ≠ 0 → κ .gelu * (x + κ .geluCoeff * x * x * x) =
      k.gelu * (x + k.geluCoeff * x * x * x) := by
    intro x hx
    have h0 := hconst x 0
    simp only [realUn, k'] at h0
    have h4 : tanh (κ .gelu * (x + κ .geluCoeff * x * x * x)) =
        tanh (k.gelu * (x + k.geluCoeff * x * x * x)) := by
      have h5 : (1 / 2 * x) * (tanh (κ .gelu * (x + κ .geluCoeff * x * x * x)) -
          tanh (k.gelu * (x + k.geluCoeff * x * x * x))) = 0 := by
        simp only [mul_zero, zero_mul] at h0
        linarith
      rcases mul_eq_zero.mp h5 with h6 | h6
      · exact absurd (by linarith : x = 0) hx
      · linarith
    exact tanh_injective h4
  have e1 := heq 1 one_ne_zero
  have e2 := heq 2 two_ne_zero
  constructor <;> linarith

/-- With the literals of the code — `0.797885` in the rule (vjp_unary.rs:89), `0.7978845608` in the
kernel (math_utils.h:171-177) — the GELU rule is not the derivative of the kernel's function. -/
theorem C72_gelu_inexact (k : KernelConsts) (κ : GConst → ℝ) (lo hi : ℝ)
    (hk : k.gelu = 0.7978845608) (hκ : κ .gelu = 0.797885)
    (h3 : κ .threeGeluCoeff = 3 * κ .geluCoeff) :
    ¬ ∀ x : ℝ, ∃ D, (unaryRule .gelu).scalar (realOps k κ lo hi) [x, realUn k .gelu x, 1] = some D ∧
      HasDerivAt (realUn k .gelu) D x := by
  intro h
  have := (C72_gelu_constants k κ lo hi h3 h).1
  rw [hk, hκ] at this
  norm_num at this

/-- The hypotheses of C72 on a 2×2 matrix, with points where the operators are differentiable. -/
example (k : KernelConsts) (κ : GConst → ℝ) :
    let x : Tensor ℝ := ⟨[1, -2, 3, 1 / 2], Layout.fromShape [2, 2]⟩
    x.WF ∧ (x.layout.isContiguous = false ∨ x.layout.offset = 0) ∧
      RegularU k κ .relu (-2) ∧ RegularU k κ .sqrt 3 ∧ RegularU k κ .asin (1 / 2) ∧
      RegularU k κ .floor (1 / 2) ∧ ¬ RegularU k κ .relu 0 := by
  refine ⟨fresh_wf_list _ _ (by decide), Or.inr rfl, ?_, ?_, ⟨?_, ?_⟩, ?_, fun h => h rfl⟩
  · show (-2 : ℝ) ≠ 0
    norm_num
  · show (0 : ℝ) < 3
    norm_num
  · norm_num
  · norm_num
  · show (⌊(1 / 2 : ℝ)⌋ : ℝ) ≠ 1 / 2
    have : ⌊(1 / 2 : ℝ)⌋ = 0 := by rw [Int.floor_eq_iff]; norm_num
    rw [this]
    norm_num

/-- The hypotheses for scalars: the square, a negative base with an integer exponent, a remainder. -/
example : ∃ κ : GConst → ℝ, κ .arg = 2 ∧ RegularS κ .pow (-3) ∧ RegularS κ .rem 3 ∧
    RegularS κ .div 5 := by
  refine ⟨fun c => match c with | .arg => 2 | .argPred => 1 | .argInv => 1 / 2 | _ => 0, rfl,
    ⟨by norm_num, Or.inr ⟨⟨2, by norm_num⟩, Or.inl (by norm_num)⟩⟩, ⟨by norm_num, ?_⟩, rfl⟩
  have : ⌊(3 / 2 : ℝ)⌋ = 1 := by rw [Int.floor_eq_iff]; norm_num
  show (⌊(3 / 2 : ℝ)⌋ : ℝ) ≠ 3 / 2
  rw [this]
  norm_num

end Hodu
