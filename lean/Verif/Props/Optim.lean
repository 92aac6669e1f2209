import Verif.Model.Optim
import Mathlib.Algebra.BigOperators.Group.Finset.Basic
import Mathlib.Algebra.BigOperators.Ring.Finset
import Mathlib.Tactic.Ring
import Mathlib.Tactic.FieldSimp
import Mathlib.Tactic.NormNum
import Mathlib.Analysis.Real.Sqrt

/-!
# Property C45: optimizer updates

The specification is per component: `g t` is the gradient of that component in step `t + 1`, `lr t` the learning rate
then.  Moments are closed-form weighted sums, not recurrences.
-/

namespace Hodu.Optim
open Finset

variable {α ι : Type} [Field α] [DecidableEq α]

/-! ## Specification -/

/-- Exponential moving average after `t` gradients, started at zero. -/
def Spec.ema (β : α) (g : Nat → α) (t : Nat) : α := (1 - β) * ∑ k ∈ range t, β ^ (t - 1 - k) * g k

/-- SGD: the initial value minus the sum of all steps. -/
def Spec.sgd (lr g : Nat → α) (θ : α) (t : Nat) : α := θ - ∑ k ∈ range t, lr k * g k

/-- The Adam direction `m̂ / (√v̂ + ε)` after `t` gradients. -/
def Spec.adamDir (sqrt : α → α) (h : AdamHyper α) (g : Nat → α) (t : Nat) : α :=
  (Spec.ema h.beta1 g t / (1 - h.beta1 ^ t)) /
    (sqrt (Spec.ema h.beta2 (fun k => g k ^ 2) t / (1 - h.beta2 ^ t)) + h.epsilon)

/-- Adam. -/
def Spec.adam (sqrt : α → α) (h : AdamHyper α) (lr g : Nat → α) (θ : α) (t : Nat) : α :=
  θ - ∑ k ∈ range t, lr k * Spec.adamDir sqrt h g (k + 1)

/-- AdamW: decoupled weight decay. -/
def Spec.adamW (sqrt : α → α) (h : AdamHyper α) (lr g : Nat → α) (θ : α) : Nat → α
  | 0 => θ
  | t + 1 => (1 - lr t * h.weightDecay) * Spec.adamW sqrt h lr g θ t - lr t * Spec.adamDir sqrt h g (t + 1)

/-- Adagrad: parameter and sum of squares, with the gradient of the L2 penalty added. -/
def Spec.adagrad (sqrt : α → α) (h : AdagradHyper α) (lr g : Nat → α) (θ : α) : Nat → α × α
  | 0 => (θ, h.initial)
  | t + 1 =>
    let s := Spec.adagrad sqrt h lr g θ t
    let d := g t + h.weightDecay * s.1
    (s.1 - lr t / (1 + t * h.lrDecay) * (d / (sqrt (s.2 + d ^ 2) + h.epsilon)), s.2 + d ^ 2)

/-- RMSprop: parameter, mean square, mean gradient, momentum buffer. -/
def Spec.rmsprop (sqrt : α → α) (h : RMSHyper α) (lr g : Nat → α) (θ : α) : Nat → α × α × α × α
  | 0 => (θ, 0, 0, 0)
  | t + 1 =>
    let s := Spec.rmsprop sqrt h lr g θ t
    let d := g t + h.weightDecay * s.1
    let v := h.alpha * s.2.1 + (1 - h.alpha) * d ^ 2
    let a := h.alpha * s.2.2.1 + (1 - h.alpha) * d
    let var := if h.centered then v - a ^ 2 else v
    let b := h.momentum * s.2.2.2 + d / (sqrt var + h.epsilon)
    (s.1 - lr t * b, v, a, b)

/-- The calls of a training run of `T` steps. -/
def history (lr : Nat → α) (grads : Nat → List (ι → α)) (T : Nat) : List (α × List (ι → α)) :=
  (List.range T).map fun k => (lr k, grads k)

/-- Gradient history of component `x` of parameter `i`. -/
def component (grads : Nat → List (ι → α)) (i : Nat) (x : ι) (k : Nat) : α := ((grads k).getD i fun _ => 0) x

/-! ## Proofs -/

omit [Field α] [DecidableEq α] in
theorem run_succ {σ : Type} (step : α → σ → List (ι → α) → List (ι → α) → σ × List (ι → α)) (lr : Nat → α)
    (grads : Nat → List (ι → α)) (T : Nat) (s : σ) (ps : List (ι → α)) :
    run step (history lr grads (T + 1)) s ps =
      step (lr T) (run step (history lr grads T) s ps).1 (run step (history lr grads T) s ps).2 (grads T) := by
  have : ∀ (a : List (α × List (ι → α))) (c : α × List (ι → α)) (s : σ) (ps : List (ι → α)),
      run step (a ++ [c]) s ps = step c.1 (run step a s ps).1 (run step a s ps).2 c.2 := by
    intro a
    induction a with
    | nil => intro c s ps; rfl
    | cons x a ih => intro c s ps; exact ih c _ _
  rw [history, List.range_succ, List.map_append]
  exact this _ _ _ _

omit [DecidableEq α] in
theorem ema_succ (β : α) (g : Nat → α) (t : Nat) :
    Spec.ema β g (t + 1) = Spec.ema β g t * β + g t * (1 - β) := by
  unfold Spec.ema
  rw [sum_range_succ]
  have : ∑ k ∈ range t, β ^ (t + 1 - 1 - k) * g k = β * ∑ k ∈ range t, β ^ (t - 1 - k) * g k := by
    rw [mul_sum]
    apply sum_congr rfl
    intro k hk
    have hk : k < t := mem_range.mp hk
    rw [show t + 1 - 1 - k = (t - 1 - k) + 1 by omega, pow_succ]
    ring
  rw [this, show t + 1 - 1 - t = 0 by omega, pow_zero]
  ring

omit [DecidableEq α] in
theorem powLoop_eq (b acc : α) (n : Nat) : powLoop b acc n = acc * b ^ n := by
  induction n generalizing acc with
  | zero => simp [powLoop]
  | succ n ih => rw [powLoop, ih, pow_succ]; ring

omit [Field α] [DecidableEq α] in
theorem zipStep_get (f : (ι → α) → (ι → α) → (ι → α) → (ι → α) → (ι → α) × (ι → α) × (ι → α)) :
    ∀ (ps gs ms vs : List (ι → α)), gs.length = ps.length → ms.length = ps.length → vs.length = ps.length →
      (zipStep f ps gs ms vs).1.length = ps.length ∧ (zipStep f ps gs ms vs).2.1.length = ps.length ∧
      (zipStep f ps gs ms vs).2.2.length = ps.length ∧
      ∀ (i : Nat) (p g m v : ι → α), ps[i]? = some p → gs[i]? = some g → ms[i]? = some m → vs[i]? = some v →
        (zipStep f ps gs ms vs).1[i]? = some (f p g m v).1 ∧
        (zipStep f ps gs ms vs).2.1[i]? = some (f p g m v).2.1 ∧
        (zipStep f ps gs ms vs).2.2[i]? = some (f p g m v).2.2
  | [], gs, ms, vs, h1, h2, h3 => by
    have e1 : gs = [] := by simpa using h1
    have e2 : ms = [] := by simpa using h2
    have e3 : vs = [] := by simpa using h3
    subst e1 e2 e3
    simp [zipStep]
  | p :: ps, gs, ms, vs, h1, h2, h3 => by
    match gs, ms, vs, h1, h2, h3 with
    | g :: gs, m :: ms, v :: vs, h1, h2, h3 =>
      obtain ⟨k1, k2, k3, k4⟩ := zipStep_get f ps gs ms vs (by simpa using h1) (by simpa using h2) (by simpa using h3)
      refine ⟨by simp [zipStep, k1], by simp [zipStep, k2], by simp [zipStep, k3], ?_⟩
      intro i p' g' m' v' a1 a2 a3 a4
      cases i with
      | zero =>
        simp only [List.getElem?_cons_zero, Option.some.injEq] at a1 a2 a3 a4
        subst a1 a2 a3 a4
        simp [zipStep]
      | succ i => simpa [zipStep] using k4 i p' g' m' v' a1 a2 a3 a4

omit [DecidableEq α] in
/-- Runs of `Adam` and `AdamW`: if the per-parameter update follows the sequences `Θ, M, V`, so does the whole. -/
theorem adam_run (f : α → Nat → (ι → α) → (ι → α) → (ι → α) → (ι → α) → (ι → α) × (ι → α) × (ι → α))
    (lr : Nat → α) (grads : Nat → List (ι → α)) (params : List (ι → α)) (hne : params ≠ [])
    (hg : ∀ k, (grads k).length = params.length) (Θ M V : Nat → Nat → ι → α)
    (hΘ : ∀ i, i < params.length → params[i]? = some (Θ i 0)) (hM : ∀ i, M i 0 = fun _ => 0)
    (hV : ∀ i, V i 0 = fun _ => 0)
    (hstep : ∀ i t, f (lr t) (t + 1) (Θ i t) ((grads t).getD i fun _ => 0) (M i t) (V i t) =
      (Θ i (t + 1), M i (t + 1), V i (t + 1))) (T : Nat) :
    let r := run (fun l s ps gs => adamStep (f l) s ps gs) (history lr grads T) ⟨0, [], []⟩ params
    r.2.length = params.length ∧ ∀ i, i < params.length → r.2[i]? = some (Θ i T) := by
  have hn : 0 < params.length := List.length_pos_iff.mpr hne
  suffices H : let r := run (fun l s ps gs => adamStep (f l) s ps gs) (history lr grads T) ⟨0, [], []⟩ params
      r.1.t = T ∧ r.2.length = params.length ∧ (r.1.init r.2).m.length = params.length ∧
      (r.1.init r.2).v.length = params.length ∧ (r.1.init r.2).t = T ∧
      ∀ i, i < params.length → r.2[i]? = some (Θ i T) ∧ (r.1.init r.2).m[i]? = some (M i T) ∧
        (r.1.init r.2).v[i]? = some (V i T) by
    exact ⟨H.2.1, fun i hi => (H.2.2.2.2.2 i hi).1⟩
  induction T with
  | zero =>
    simp only [history, List.range_zero, List.map_nil, run, AdamState.init, List.isEmpty_nil, Bool.or_self, if_true]
    refine ⟨trivial, trivial, by simp, by simp, trivial, fun i hi => ⟨hΘ i hi, ?_, ?_⟩⟩
    · simp [hM, hi]
    · simp [hV, hi]
  | succ T ih =>
    simp only [run_succ] at ih ⊢
    generalize run (fun l s ps gs => adamStep (f l) s ps gs) (history lr grads T) ⟨0, [], []⟩ params = r at ih
    obtain ⟨s, ps⟩ := r
    obtain ⟨h1, h2, h3, h4, h5, h6⟩ := ih
    simp only at h1 h2 h3 h4 h5 h6
    simp only [adamStep]
    obtain ⟨k1, k2, k3, k4⟩ := zipStep_get (f (lr T) ((s.init ps).t + 1)) ps (grads T) (s.init ps).m (s.init ps).v
      (by rw [hg, h2]) (by rw [h3, h2]) (by rw [h4, h2])
    have hinit : ∀ (t : Nat) (ms vs qs : List (ι → α)), ms.length = ps.length → vs.length = ps.length →
        (AdamState.mk t ms vs).init qs = ⟨t, ms, vs⟩ := by
      intro t ms vs qs a b
      rw [AdamState.init, if_neg]
      have : ms ≠ [] := by intro e; subst e; simp at a; omega
      have : vs ≠ [] := by intro e; subst e; simp at b; omega
      simp [*]
    rw [hinit _ _ _ _ k2 k3]
    refine ⟨by rw [h5], by rw [k1, h2], by rw [k2, h2], by rw [k3, h2], by simp [h5], fun i hi => ?_⟩
    obtain ⟨a1, a2, a3⟩ := h6 i hi
    have a4 : (grads T)[i]? = some ((grads T).getD i fun _ => 0) := by
      have : i < (grads T).length := by rw [hg]; exact hi
      simp [List.getD_eq_getElem?_getD, this]
    have := k4 i _ _ _ _ a1 a4 a2 a3
    rw [h5, hstep i T] at this
    rw [h5]
    exact this

omit [DecidableEq α] in
/-- **C45, AdamW.**  After any number of steps, with any gradients, any learning-rate schedule and any number of
parameters, every component has the value of the published recurrence with the bias correction `1 - β^t`. -/
theorem C45_adamW (sqrt : α → α) (h : AdamHyper α) (lr : Nat → α) (grads : Nat → List (ι → α))
    (params : List (ι → α)) (hne : params ≠ []) (hg : ∀ k, (grads k).length = params.length) (T : Nat) :
    let r := run (fun l s ps gs => adamStep (adamWParam sqrt h l) s ps gs) (history lr grads T) ⟨0, [], []⟩ params
    r.2.length = params.length ∧ ∀ (i : Nat) (p : ι → α), params[i]? = some p →
      r.2[i]? = some fun x => Spec.adamW sqrt h lr (component grads i x) (p x) T := by
  intro r
  obtain ⟨h1, h2⟩ := adam_run (adamWParam sqrt h) lr grads params hne hg
    (fun i t x => Spec.adamW sqrt h lr (component grads i x) ((params.getD i fun _ => 0) x) t)
    (fun i t x => Spec.ema h.beta1 (component grads i x) t)
    (fun i t x => Spec.ema h.beta2 (fun k => component grads i x k ^ 2) t)
    (fun i hi => by simp [List.getD_eq_getElem?_getD, hi, Spec.adamW])
    (fun i => by simp [Spec.ema]) (fun i => by simp [Spec.ema])
    (fun i t => by
      have e1 : firstMoment h.beta1 (fun x => Spec.ema h.beta1 (component grads i x) t)
          ((grads t).getD i fun _ => 0) = fun x => Spec.ema h.beta1 (component grads i x) (t + 1) := by
        funext x; simp only [firstMoment, ema_succ, component]
      have e2 : secondMoment h.beta2 (fun x => Spec.ema h.beta2 (fun k => component grads i x k ^ 2) t)
          ((grads t).getD i fun _ => 0) = fun x => Spec.ema h.beta2 (fun k => component grads i x k ^ 2) (t + 1) := by
        funext x; simp only [secondMoment, ema_succ, component]; ring
      simp only [adamWParam, e1, e2, powLoop_eq, Nat.add_sub_cancel]
      refine Prod.ext ?_ rfl
      funext x
      simp only [Spec.adamW, Spec.adamDir, ← pow_succ']
      ring) T
  refine ⟨h1, fun i p hp => ?_⟩
  have hi : i < params.length := (List.getElem?_eq_some_iff.mp hp).1
  rw [h2 i hi]
  simp [List.getD_eq_getElem?_getD, hp]

/-- What `Adam` computes in step `t` for one component: the correction exponents are off by one and the bias is
corrected twice, in the moments and again in the learning rate. -/
def Spec.adamAsCoded (sqrt : α → α) (h : AdamHyper α) (lr g : Nat → α) (θ : α) : Nat → α
  | 0 => θ
  | t + 1 => Spec.adamAsCoded sqrt h lr g θ t -
      lr t * (sqrt (1 - h.beta2 ^ (t + 2)) / (1 - h.beta1 ^ (t + 2))) *
        ((Spec.ema h.beta1 g (t + 1) / (1 - h.beta1 ^ (t + 2))) /
          (sqrt (Spec.ema h.beta2 (fun k => g k ^ 2) (t + 1) / (1 - h.beta2 ^ (t + 2))) + h.epsilon))

omit [DecidableEq α] in
theorem C45_adam_as_coded (sqrt : α → α) (h : AdamHyper α) (lr : Nat → α) (grads : Nat → List (ι → α))
    (params : List (ι → α)) (hne : params ≠ []) (hg : ∀ k, (grads k).length = params.length) (T : Nat) :
    let r := run (fun l s ps gs => adamStep (adamParam sqrt h l) s ps gs) (history lr grads T) ⟨0, [], []⟩ params
    r.2.length = params.length ∧ ∀ (i : Nat) (p : ι → α), params[i]? = some p →
      r.2[i]? = some fun x => Spec.adamAsCoded sqrt h lr (component grads i x) (p x) T := by
  intro r
  obtain ⟨h1, h2⟩ := adam_run (adamParam sqrt h) lr grads params hne hg
    (fun i t x => Spec.adamAsCoded sqrt h lr (component grads i x) ((params.getD i fun _ => 0) x) t)
    (fun i t x => Spec.ema h.beta1 (component grads i x) t)
    (fun i t x => Spec.ema h.beta2 (fun k => component grads i x k ^ 2) t)
    (fun i hi => by simp [List.getD_eq_getElem?_getD, hi, Spec.adamAsCoded])
    (fun i => by simp [Spec.ema]) (fun i => by simp [Spec.ema])
    (fun i t => by
      have e1 : firstMoment h.beta1 (fun x => Spec.ema h.beta1 (component grads i x) t)
          ((grads t).getD i fun _ => 0) = fun x => Spec.ema h.beta1 (component grads i x) (t + 1) := by
        funext x; simp only [firstMoment, ema_succ, component]
      have e2 : secondMoment h.beta2 (fun x => Spec.ema h.beta2 (fun k => component grads i x k ^ 2) t)
          ((grads t).getD i fun _ => 0) = fun x => Spec.ema h.beta2 (fun k => component grads i x k ^ 2) (t + 1) := by
        funext x; simp only [secondMoment, ema_succ, component]; ring
      simp only [adamParam, e1, e2, powLoop_eq]
      refine Prod.ext ?_ rfl
      funext x
      simp only [Spec.adamAsCoded, ← pow_succ']
      ring) T
  refine ⟨h1, fun i p hp => ?_⟩
  have hi : i < params.length := (List.getElem?_eq_some_iff.mp hp).1
  rw [h2 i hi]
  simp [List.getD_eq_getElem?_getD, hp]

/-- The full claim for Adam over the reals. -/
def C45_adam_full : Prop :=
  ∀ (h : AdamHyper ℝ) (lr : Nat → ℝ) (grads : Nat → List (Unit → ℝ)) (params : List (Unit → ℝ)) (T : Nat),
    params ≠ [] → (∀ k, (grads k).length = params.length) → ∀ (i : Nat) (p : Unit → ℝ), params[i]? = some p →
    (run (fun l s ps gs => adamStep (adamParam Real.sqrt h l) s ps gs) (history lr grads T)
      ⟨0, [], []⟩ params).2[i]? = some fun x => Spec.adam Real.sqrt h lr (component grads i x) (p x) T

/-- **C45 is false for Adam**: with `β1 = 1/2`, `β2 = 0`, `ε = 0`, learning rate 1 and gradient 1, the first step moves
a parameter from 0 to -8/9 instead of -1. -/
theorem C45_adam_full_false : ¬ C45_adam_full := by
  intro h
  have h1 := h ⟨1 / 2, 0, 0, 0⟩ (fun _ => 1) (fun _ => [fun _ => 1]) [fun _ => 0] 1 (by simp) (by simp) 0 _ rfl
  have h2 := (C45_adam_as_coded Real.sqrt ⟨1 / 2, 0, 0, 0⟩ (fun _ => 1) (fun _ => [fun _ => (1 : ℝ)])
    [fun _ : Unit => (0 : ℝ)] (by simp) (by simp) 1).2 0 _ rfl
  rw [h2, Option.some.injEq] at h1
  have h3 := congrFun h1 ()
  simp [Spec.adamAsCoded, Spec.adam, Spec.adamDir, Spec.ema, component] at h3
  norm_num at h3

/-- **C45 for Adam, what holds.**  Without momentum terms (`β1 = β2 = 0`) Adam does what it should.
Missing: all other `β` (false, `C45_adam_full_false`; `C45_adam_as_coded` says what happens instead). -/
theorem C45_adam_partial (sqrt : α → α) (hs : sqrt 1 = 1) (h : AdamHyper α) (h1 : h.beta1 = 0) (h2 : h.beta2 = 0)
    (lr : Nat → α) (grads : Nat → List (ι → α)) (params : List (ι → α)) (hne : params ≠ [])
    (hg : ∀ k, (grads k).length = params.length) (T : Nat) (i : Nat) (p : ι → α) (hp : params[i]? = some p) :
    (run (fun l s ps gs => adamStep (adamParam sqrt h l) s ps gs) (history lr grads T) ⟨0, [], []⟩ params).2[i]? =
      some fun x => Spec.adam sqrt h lr (component grads i x) (p x) T := by
  rw [(C45_adam_as_coded sqrt h lr grads params hne hg T).2 i p hp, Option.some.injEq]
  funext x
  induction T with
  | zero => simp [Spec.adamAsCoded, Spec.adam]
  | succ T ih =>
    rw [Spec.adamAsCoded, ih, Spec.adam, Spec.adam, sum_range_succ]
    simp only [Spec.adamDir, h1, h2, ne_eq, Nat.add_eq_zero_iff, OfNat.ofNat_ne_zero, and_false, not_false_eq_true,
      zero_pow, sub_zero, hs, div_one, mul_one]
    simp
    ring

/-- Two parameters of two components each, three steps. -/
private def exParams : List (Fin 2 → ℚ) := [fun x => x.val + 1, fun _ => 5]

private def exGrads (k : Nat) : List (Fin 2 → ℚ) := [fun x => x.val + k + 1, fun _ => 3 - k]

example := C45_adamW id (⟨9 / 10, 99 / 100, 1 / 100, 1 / 10⟩ : AdamHyper ℚ) (fun k => 1 / (k + 1)) exGrads exParams
  (by simp [exParams]) (by simp [exGrads, exParams]) 3

omit [DecidableEq α] in
/-- **C45, SGD.** -/
theorem C45_sgd (lr : Nat → α) (grads : Nat → List (ι → α)) (params : List (ι → α))
    (hg : ∀ k, (grads k).length = params.length) (T : Nat) :
    let r := run (fun l (_ : Unit) ps gs => ((), sgdStep l ps gs)) (history lr grads T) () params
    r.2.length = params.length ∧ ∀ (i : Nat) (p : ι → α), params[i]? = some p →
      r.2[i]? = some fun x => Spec.sgd lr (component grads i x) (p x) T := by
  have hstep : ∀ (l : α) (ps gs : List (ι → α)), gs.length = ps.length → (sgdStep l ps gs).length = ps.length ∧
      ∀ (i : Nat) (p g : ι → α), ps[i]? = some p → gs[i]? = some g → (sgdStep l ps gs)[i]? = some fun x => p x - g x * l := by
    intro l ps
    induction ps with
    | nil => intro gs h; have : gs = [] := by simpa using h
             subst this; simp [sgdStep]
    | cons p ps ih =>
      intro gs h
      match gs, h with
      | g :: gs, h =>
        obtain ⟨k1, k2⟩ := ih gs (by simpa using h)
        refine ⟨by simp [sgdStep, k1], fun i p' g' a1 a2 => ?_⟩
        cases i with
        | zero => simp at a1 a2; subst a1 a2; simp [sgdStep]
        | succ i => simpa [sgdStep] using k2 i p' g' (by simpa using a1) (by simpa using a2)
  induction T with
  | zero => simp [history, run, Spec.sgd]
  | succ T ih =>
    simp only [run_succ] at ih ⊢
    generalize run (fun l (_ : Unit) ps gs => ((), sgdStep l ps gs)) (history lr grads T) () params = r at ih
    obtain ⟨_, ps⟩ := r
    simp only at ih ⊢
    obtain ⟨k1, k2⟩ := hstep (lr T) ps (grads T) (by rw [hg, ih.1])
    refine ⟨by rw [k1, ih.1], fun i p hp => ?_⟩
    have hi : i < params.length := (List.getElem?_eq_some_iff.mp hp).1
    have a4 : (grads T)[i]? = some ((grads T).getD i fun _ => 0) := by
      have : i < (grads T).length := by rw [hg]; exact hi
      simp [List.getD_eq_getElem?_getD, this]
    rw [k2 i _ _ (ih.2 i p hp) a4, Option.some.injEq]
    funext x
    simp only [Spec.sgd, sum_range_succ, component]
    ring

/-- **C45, Adagrad.** -/
theorem C45_adagrad (sqrt : α → α) (h : AdagradHyper α) (lr : Nat → α) (grads : Nat → List (ι → α))
    (params : List (ι → α)) (hne : params ≠ []) (hg : ∀ k, (grads k).length = params.length) (T : Nat) :
    let r := run (fun l s ps gs => adagradStep sqrt h l s ps gs) (history lr grads T) ⟨0, []⟩ params
    r.2.length = params.length ∧ ∀ (i : Nat) (p : ι → α), params[i]? = some p →
      r.2[i]? = some fun x => (Spec.adagrad sqrt h lr (component grads i x) (p x) T).1 := by
  have hn : 0 < params.length := List.length_pos_iff.mpr hne
  have hloop : ∀ (f : (ι → α) → (ι → α) → (ι → α) → (ι → α) × (ι → α)) (ps gs vs : List (ι → α)),
      gs.length = ps.length → vs.length = ps.length →
      (adagradLoop f ps gs vs).1.length = ps.length ∧ (adagradLoop f ps gs vs).2.length = ps.length ∧
      ∀ (i : Nat) (p g v : ι → α), ps[i]? = some p → gs[i]? = some g → vs[i]? = some v →
        (adagradLoop f ps gs vs).1[i]? = some (f p g v).1 ∧ (adagradLoop f ps gs vs).2[i]? = some (f p g v).2 := by
    intro f ps
    induction ps with
    | nil =>
      intro gs vs h1 h2
      have e1 : gs = [] := by simpa using h1
      have e2 : vs = [] := by simpa using h2
      subst e1 e2
      simp [adagradLoop]
    | cons p ps ih =>
      intro gs vs h1 h2
      match gs, vs, h1, h2 with
      | g :: gs, v :: vs, h1, h2 =>
        obtain ⟨k1, k2, k3⟩ := ih gs vs (by simpa using h1) (by simpa using h2)
        refine ⟨by simp [adagradLoop, k1], by simp [adagradLoop, k2], fun i p' g' v' a1 a2 a3 => ?_⟩
        cases i with
        | zero => simp at a1 a2 a3; subst a1 a2 a3; simp [adagradLoop]
        | succ i => simpa [adagradLoop] using k3 i p' g' v' (by simpa using a1) (by simpa using a2) (by simpa using a3)
  -- the accumulators in force at the next step
  let acc (s : AdagradState α ι) (ps : List (ι → α)) : List (ι → α) :=
    if s.v.isEmpty then
      (if h.initial = 0 then ps.map fun _ _ => 0 else ps.map fun _ _ => h.initial)
    else s.v
  suffices H : let r := run (fun l s ps gs => adagradStep sqrt h l s ps gs) (history lr grads T) ⟨0, []⟩ params
      r.1.t = T ∧ r.2.length = params.length ∧ (acc r.1 r.2).length = params.length ∧
      ∀ (i : Nat) (p : ι → α), params[i]? = some p →
        r.2[i]? = some (fun x => (Spec.adagrad sqrt h lr (component grads i x) (p x) T).1) ∧
        (acc r.1 r.2)[i]? = some (fun x => (Spec.adagrad sqrt h lr (component grads i x) (p x) T).2) by
    exact ⟨H.2.1, fun i p hp => (H.2.2.2 i p hp).1⟩
  induction T with
  | zero =>
    have e : acc ⟨0, []⟩ params = params.map fun _ _ => h.initial := by
      simp only [acc, List.isEmpty_nil, if_true]
      split
      · rename_i h0; rw [h0]
      · rfl
    simp only [history, List.range_zero, List.map_nil, run, e]
    refine ⟨trivial, trivial, by simp, fun i p hp => ⟨by simp [Spec.adagrad, hp], ?_⟩⟩
    have hi : i < params.length := (List.getElem?_eq_some_iff.mp hp).1
    simp [hi, Spec.adagrad]
  | succ T ih =>
    simp only [run_succ] at ih ⊢
    generalize run (fun l s ps gs => adagradStep sqrt h l s ps gs) (history lr grads T) ⟨0, []⟩ params = r at ih
    obtain ⟨s, ps⟩ := r
    simp only at ih ⊢
    obtain ⟨h1, h2, h3, h4⟩ := ih
    have hs : adagradStep sqrt h (lr T) s ps (grads T) =
        ({ t := s.t + 1, v := (adagradLoop (adagradParam sqrt h (lr T) (s.t + 1)) ps (grads T) (acc s ps)).2 },
          (adagradLoop (adagradParam sqrt h (lr T) (s.t + 1)) ps (grads T) (acc s ps)).1) := rfl
    obtain ⟨k1, k2, k3⟩ := hloop (adagradParam sqrt h (lr T) (s.t + 1)) ps (grads T) (acc s ps) (by rw [hg, h2])
      (by rw [h3, h2])
    have hacc : ∀ (t : Nat) (vs qs : List (ι → α)), vs.length = ps.length → acc ⟨t, vs⟩ qs = vs := by
      intro t vs qs a
      have : vs ≠ [] := by intro e; subst e; simp at a; omega
      simp [acc, this]
    rw [hs]
    simp only
    rw [hacc _ _ _ k2]
    refine ⟨by rw [h1], by rw [k1, h2], by rw [k2, h2], fun i p hp => ?_⟩
    have hi : i < params.length := (List.getElem?_eq_some_iff.mp hp).1
    have a4 : (grads T)[i]? = some ((grads T).getD i fun _ => 0) := by
      have : i < (grads T).length := by rw [hg]; exact hi
      simp [List.getD_eq_getElem?_getD, this]
    obtain ⟨a1, a2⟩ := h4 i p hp
    obtain ⟨b1, b2⟩ := k3 i _ _ _ a1 a4 a2
    have hd : ∀ x, decayed h.weightDecay ((grads T).getD i fun _ => 0)
        (fun x => (Spec.adagrad sqrt h lr (component grads i x) (p x) T).1) x =
        component grads i x T + h.weightDecay * (Spec.adagrad sqrt h lr (component grads i x) (p x) T).1 := by
      intro x
      unfold decayed
      split
      · rename_i h0; rw [h0, zero_mul, add_zero]; rfl
      · simp only [component]; ring
    rw [b1, b2, h1]
    simp only [adagradParam, hd, Spec.adagrad, Option.some.injEq]
    refine ⟨?_, ?_⟩
    · funext x
      rw [← pow_two]
      push_cast
      rw [add_sub_cancel_right]
      ring
    · funext x
      rw [← pow_two]

example := C45_adagrad id (⟨1 / 10, 1 / 100, 1 / 5, 1⟩ : AdagradHyper ℚ) (fun k => 1 / (k + 1)) exGrads exParams
  (by simp [exParams]) (by simp [exGrads, exParams]) 3

/-- **C45, RMSprop**, with and without momentum, centred or not. -/
theorem C45_rmsprop (sqrt : α → α) (h : RMSHyper α) (lr : Nat → α) (grads : Nat → List (ι → α))
    (params : List (ι → α)) (hne : params ≠ []) (hg : ∀ k, (grads k).length = params.length) (T : Nat) :
    let r := run (fun l s ps gs => rmsStep sqrt h l s ps gs) (history lr grads T) ⟨[], [], []⟩ params
    r.2.length = params.length ∧ ∀ (i : Nat) (p : ι → α), params[i]? = some p →
      r.2[i]? = some fun x => (Spec.rmsprop sqrt h lr (component grads i x) (p x) T).1 := by
  have hn : 0 < params.length := List.length_pos_iff.mpr hne
  -- buffers: present exactly when used
  let Bufs (n : Nat) (s : RMSState α ι) : Prop := s.v.length = n ∧
    (h.momentum ≠ 0 → s.m.length = n) ∧ (h.centered = true → s.gAvg.length = n)
  have hloop : ∀ (l : α) (ps gs : List (ι → α)) (s : RMSState α ι), gs.length = ps.length → Bufs ps.length s →
      (rmsLoop sqrt h l ps gs s).1.length = ps.length ∧ Bufs ps.length (rmsLoop sqrt h l ps gs s).2 ∧
      ∀ (i : Nat) (p g v m a : ι → α), ps[i]? = some p → gs[i]? = some g → s.v[i]? = some v →
        (h.momentum ≠ 0 → s.m[i]? = some m) → (h.centered = true → s.gAvg[i]? = some a) →
        (rmsLoop sqrt h l ps gs s).1[i]? = some (rmsParam sqrt h l p g v m a).1 ∧
        (rmsLoop sqrt h l ps gs s).2.v[i]? = some (rmsParam sqrt h l p g v m a).2.1 ∧
        (h.momentum ≠ 0 → (rmsLoop sqrt h l ps gs s).2.m[i]? = some (rmsParam sqrt h l p g v m a).2.2.1) ∧
        (h.centered = true → (rmsLoop sqrt h l ps gs s).2.gAvg[i]? = some (rmsParam sqrt h l p g v m a).2.2.2) := by
    intro l ps
    induction ps with
    | nil =>
      intro gs s h1 h2
      have e1 : gs = [] := by simpa using h1
      subst e1
      refine ⟨by simp [rmsLoop], by simpa [rmsLoop] using h2, ?_⟩
      intro i p g v m a a1
      simp at a1
    | cons p ps ih =>
      intro gs s h1 h2
      obtain ⟨vs, ms, as⟩ := s
      obtain ⟨b1, b2, b3⟩ := h2
      match gs, vs, h1, b1 with
      | g :: gs, v :: vs, h1, b1 =>
        obtain ⟨k1, ⟨k2, k3, k4⟩, k5⟩ := ih gs ⟨vs, ms.tail, as.tail⟩ (by simpa using h1)
          ⟨by simpa using b1, fun hm => by have := b2 hm; simp at this ⊢; omega,
            fun hc => by have := b3 hc; simp at this ⊢; omega⟩
        refine ⟨by simp [rmsLoop, k1], ⟨by simp [rmsLoop, k2], fun hm => ?_, fun hc => ?_⟩, ?_⟩
        · simp [rmsLoop, consIf, hm, k3 hm]
        · simp [rmsLoop, consIf, hc, k4 hc]
        · intro i p' g' v' m' a' a1 a2 a3 a4 a5
          cases i with
          | zero =>
            simp only [List.getElem?_cons_zero, Option.some.injEq] at a1 a2 a3
            subst a1 a2 a3
            -- a buffer that is not there is not used
            have hm : h.momentum ≠ 0 → (ms.headD fun _ => 0) = m' := fun hm => by
              have := a4 hm; simp only at this; rw [List.headD_eq_head?_getD, List.head?_eq_getElem?, this]; rfl
            have ha : h.centered = true → (as.headD fun _ => 0) = a' := fun hc => by
              have := a5 hc; simp only at this; rw [List.headD_eq_head?_getD, List.head?_eq_getElem?, this]; rfl
            by_cases hm0 : h.momentum = 0 <;> cases hc0 : h.centered <;>
              simp [rmsLoop, rmsParam, consIf, hm0, hc0] <;> simp_all
          | succ i =>
            have := k5 i p' g' v' m' a' (by simpa using a1) (by simpa using a2) (by simpa using a3)
              (fun hm => by simpa using a4 hm) (fun hc => by simpa using a5 hc)
            obtain ⟨c1, c2, c3, c4⟩ := this
            refine ⟨by simpa [rmsLoop] using c1, by simpa [rmsLoop] using c2, fun hm => ?_, fun hc => ?_⟩
            · simpa [rmsLoop, consIf, hm] using c3 hm
            · simpa [rmsLoop, consIf, hc] using c4 hc
  suffices H : let r := run (fun l s ps gs => rmsStep sqrt h l s ps gs) (history lr grads T) ⟨[], [], []⟩ params
      r.2.length = params.length ∧ Bufs params.length (r.1.init h r.2) ∧
      ∀ (i : Nat) (p : ι → α), params[i]? = some p →
        r.2[i]? = some (fun x => (Spec.rmsprop sqrt h lr (component grads i x) (p x) T).1) ∧
        (r.1.init h r.2).v[i]? = some (fun x => (Spec.rmsprop sqrt h lr (component grads i x) (p x) T).2.1) ∧
        (h.centered = true → (r.1.init h r.2).gAvg[i]? =
          some (fun x => (Spec.rmsprop sqrt h lr (component grads i x) (p x) T).2.2.1)) ∧
        (h.momentum ≠ 0 → (r.1.init h r.2).m[i]? =
          some (fun x => (Spec.rmsprop sqrt h lr (component grads i x) (p x) T).2.2.2)) by
    exact ⟨H.1, fun i p hp => (H.2.2 i p hp).1⟩
  induction T with
  | zero =>
    simp only [history, List.range_zero, List.map_nil, run, RMSState.init, List.isEmpty_nil, if_true, Spec.rmsprop]
    refine ⟨trivial, ⟨by simp, fun hm => by simp [hm], fun hc => by simp [hc]⟩, fun i p hp => ?_⟩
    have hi : i < params.length := (List.getElem?_eq_some_iff.mp hp).1
    exact ⟨hp, by simp [hi], fun hc => by simp [hc, hi], fun hm => by simp [hm, hi]⟩
  | succ T ih =>
    simp only [run_succ] at ih ⊢
    generalize run (fun l s ps gs => rmsStep sqrt h l s ps gs) (history lr grads T) ⟨[], [], []⟩ params = r at ih
    obtain ⟨s, ps⟩ := r
    simp only at ih ⊢
    obtain ⟨h1, h2, h3⟩ := ih
    obtain ⟨k1, k2, k3⟩ := hloop (lr T) ps (grads T) (s.init h ps) (by rw [hg, h1]) (by rw [h1]; exact h2)
    have hinit : ∀ (s' : RMSState α ι) (qs : List (ι → α)), Bufs ps.length s' → s'.init h qs = s' := by
      intro s' qs hb
      have : s'.v ≠ [] := by intro e; have := hb.1; rw [e] at this; simp at this; omega
      simp [RMSState.init, this]
    simp only [rmsStep]
    rw [hinit _ _ k2]
    refine ⟨by rw [k1, h1], by rw [← h1]; exact k2, fun i p hp => ?_⟩
    have hi : i < params.length := (List.getElem?_eq_some_iff.mp hp).1
    have a4 : (grads T)[i]? = some ((grads T).getD i fun _ => 0) := by
      have : i < (grads T).length := by rw [hg]; exact hi
      simp [List.getD_eq_getElem?_getD, this]
    obtain ⟨a1, a2, a3, a5⟩ := h3 i p hp
    obtain ⟨b1, b2, b3, b4⟩ := k3 i _ _ _ _ _ a1 a4 a2 a5 a3
    have hd : decayed h.weightDecay ((grads T).getD i fun _ => 0)
        (fun x => (Spec.rmsprop sqrt h lr (component grads i x) (p x) T).1) = fun x =>
        component grads i x T + h.weightDecay * (Spec.rmsprop sqrt h lr (component grads i x) (p x) T).1 := by
      funext x
      unfold decayed
      split
      · rename_i h0; rw [h0, zero_mul, add_zero]; rfl
      · simp only [component]; ring
    have hv : (rmsParam sqrt h (lr T) (fun x => (Spec.rmsprop sqrt h lr (component grads i x) (p x) T).1)
        ((grads T).getD i fun _ => 0) (fun x => (Spec.rmsprop sqrt h lr (component grads i x) (p x) T).2.1)
        (fun x => (Spec.rmsprop sqrt h lr (component grads i x) (p x) T).2.2.2)
        (fun x => (Spec.rmsprop sqrt h lr (component grads i x) (p x) T).2.2.1)).2.1 =
        fun x => (Spec.rmsprop sqrt h lr (component grads i x) (p x) (T + 1)).2.1 := by
      funext x
      simp only [rmsParam, hd, Spec.rmsprop]
      split <;> simp only <;> ring
    have ha : h.centered = true →
        (rmsParam sqrt h (lr T) (fun x => (Spec.rmsprop sqrt h lr (component grads i x) (p x) T).1)
        ((grads T).getD i fun _ => 0) (fun x => (Spec.rmsprop sqrt h lr (component grads i x) (p x) T).2.1)
        (fun x => (Spec.rmsprop sqrt h lr (component grads i x) (p x) T).2.2.2)
        (fun x => (Spec.rmsprop sqrt h lr (component grads i x) (p x) T).2.2.1)).2.2.2 =
        fun x => (Spec.rmsprop sqrt h lr (component grads i x) (p x) (T + 1)).2.2.1 := by
      intro hc
      funext x
      simp only [rmsParam, hd, Spec.rmsprop, hc, if_true]
      split <;> simp only <;> ring
    have hvar : ∀ x, (if h.centered = true then
          (fun x => (Spec.rmsprop sqrt h lr (component grads i x) (p x) T).2.1 * h.alpha +
            (component grads i x T + h.weightDecay * (Spec.rmsprop sqrt h lr (component grads i x) (p x) T).1) *
            (component grads i x T + h.weightDecay * (Spec.rmsprop sqrt h lr (component grads i x) (p x) T).1) *
              (1 - h.alpha) -
            (if h.centered = true then fun x =>
              (Spec.rmsprop sqrt h lr (component grads i x) (p x) T).2.2.1 * h.alpha +
              (component grads i x T + h.weightDecay * (Spec.rmsprop sqrt h lr (component grads i x) (p x) T).1) *
                (1 - h.alpha) else fun x => (Spec.rmsprop sqrt h lr (component grads i x) (p x) T).2.2.1) x *
            (if h.centered = true then fun x =>
              (Spec.rmsprop sqrt h lr (component grads i x) (p x) T).2.2.1 * h.alpha +
              (component grads i x T + h.weightDecay * (Spec.rmsprop sqrt h lr (component grads i x) (p x) T).1) *
                (1 - h.alpha) else fun x => (Spec.rmsprop sqrt h lr (component grads i x) (p x) T).2.2.1) x)
        else fun x => (Spec.rmsprop sqrt h lr (component grads i x) (p x) T).2.1 * h.alpha +
            (component grads i x T + h.weightDecay * (Spec.rmsprop sqrt h lr (component grads i x) (p x) T).1) *
            (component grads i x T + h.weightDecay * (Spec.rmsprop sqrt h lr (component grads i x) (p x) T).1) *
              (1 - h.alpha)) x =
        (if h.centered = true then
          (h.alpha * (Spec.rmsprop sqrt h lr (component grads i x) (p x) T).2.1 + (1 - h.alpha) *
            (component grads i x T + h.weightDecay * (Spec.rmsprop sqrt h lr (component grads i x) (p x) T).1) ^ 2) -
          (h.alpha * (Spec.rmsprop sqrt h lr (component grads i x) (p x) T).2.2.1 + (1 - h.alpha) *
            (component grads i x T + h.weightDecay * (Spec.rmsprop sqrt h lr (component grads i x) (p x) T).1)) ^ 2
         else h.alpha * (Spec.rmsprop sqrt h lr (component grads i x) (p x) T).2.1 + (1 - h.alpha) *
            (component grads i x T + h.weightDecay * (Spec.rmsprop sqrt h lr (component grads i x) (p x) T).1) ^ 2) := by
      intro x
      cases h.centered
      · simp only [Bool.false_eq_true, if_false]; ring
      · simp only [if_true]; ring
    refine ⟨?_, by rw [b2, hv], fun hc => by rw [b4 hc, ha hc], fun hm => ?_⟩
    · rw [b1, Option.some.injEq]
      funext x
      by_cases hm : h.momentum = 0
      · simp only [rmsParam, hd, hm, if_true, hvar, Spec.rmsprop, zero_mul, zero_add]
        ring
      · simp only [rmsParam, hd, hm, if_false, hvar, Spec.rmsprop]
        ring
    · rw [b3 hm, Option.some.injEq]
      funext x
      simp only [rmsParam, hd, hm, if_false, hvar, Spec.rmsprop]
      ring

example := C45_rmsprop id (⟨9 / 10, 1 / 100, 1 / 2, 1 / 5, true⟩ : RMSHyper ℚ) (fun k => 1 / (k + 1)) exGrads exParams
  (by simp [exParams]) (by simp [exGrads, exParams]) 3

/-- One SGD step on a concrete vector. -/
example : (run (fun l (_ : Unit) ps gs => ((), sgdStep l ps gs)) (history (fun _ => (1 / 2 : ℚ)) exGrads 1)
    () exParams).2.map (fun p => (p 0, p 1)) = [(1 / 2, 1), (7 / 2, 7 / 2)] := by
  simp [history, run, sgdStep, exGrads, exParams]
  norm_num

end Hodu.Optim
