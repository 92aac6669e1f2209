import Mathlib.Algebra.Field.Defs

/-!
# Model of crates/hodu_nn/src/optimizers

A tensor is the function from its indices to its elements: the element-wise operations the optimizers use
(`add`, `sub`, `div`, `square`, `sqrt`, `*_scalar`; properties C10, C11) act pointwise, and `set_` replaces the
parameter's value (tensor/ops/cast_memory.rs:85-102).  Numbers are the elements of a field with an arbitrary `sqrt`:
rounding and the `to_dtype` conversions of the hyper-parameters are not modelled.  Every parameter has a gradient (a
missing one makes `step` return an error half-way).
-/

namespace Hodu.Optim

variable {α ι : Type} [Field α] [DecidableEq α]

/-! ## SGD -/

/-- Loop of `SGD::step`, optimizers/sgd.rs:16-24. -/
def sgdStep (lr : α) : List (ι → α) → List (ι → α) → List (ι → α)
  | p :: ps, g :: gs => (fun x => p x - g x * lr) :: sgdStep lr ps gs
  | ps, _ => ps

/-! ## Adam and AdamW -/

/-- State of `Adam` / `AdamW` that changes: optimizers/adam.rs:10-12, 99-101. -/
structure AdamState (α ι : Type) where
  t : Nat
  m : List (ι → α)
  v : List (ι → α)

/-- Hyper-parameters, optimizers/adam.rs:6-9, 94-98 (`weightDecay` only for AdamW). -/
structure AdamHyper (α : Type) where
  beta1 : α
  beta2 : α
  epsilon : α
  weightDecay : α

/-- The loop multiplying `beta_t = beta_t * beta`, `n` times, optimizers/adam.rs:55-60, 151-156. -/
def powLoop (b acc : α) : Nat → α
  | 0 => acc
  | n + 1 => powLoop b (acc * b) n

/-- Initial moments, optimizers/adam.rs:34-43, 126-135: (re)created when one of the lists is empty. -/
def AdamState.init (s : AdamState α ι) (params : List (ι → α)) : AdamState α ι :=
  if s.m.isEmpty || s.v.isEmpty then { s with m := params.map fun _ _ => 0, v := params.map fun _ _ => 0 } else s

/-- `m * beta1 + grad * (1 - beta1)`, optimizers/adam.rs:70, 164. -/
def firstMoment (b : α) (m g : ι → α) : ι → α := fun x => m x * b + g x * (1 - b)

/-- `v * beta2 + grad² * (1 - beta2)`, optimizers/adam.rs:73, 167. -/
def secondMoment (b : α) (v g : ι → α) : ι → α := fun x => v x * b + g x * g x * (1 - b)

/-- One parameter in `Adam::step`, optimizers/adam.rs:47-82; `t` is the incremented step counter.  The loop
`for _ in 0..self.t` runs `t` times. -/
def adamParam (sqrt : α → α) (h : AdamHyper α) (lr : α) (t : Nat) (p g m v : ι → α) :
    (ι → α) × (ι → α) × (ι → α) :=
  let b1t := powLoop h.beta1 h.beta1 t
  let b2t := powLoop h.beta2 h.beta2 t
  let lrT := lr * sqrt (1 - b2t) / (1 - b1t)
  let m' := firstMoment h.beta1 m g
  let v' := secondMoment h.beta2 v g
  let step := fun x => m' x / (1 - b1t) / (sqrt (v' x / (1 - b2t)) + h.epsilon)
  (fun x => p x - step x * lrT, m', v')

/-- One parameter in `AdamW::step`, optimizers/adam.rs:139-185; the loop `for _ in 1..self.t` runs `t - 1` times. -/
def adamWParam (sqrt : α → α) (h : AdamHyper α) (lr : α) (t : Nat) (p g m v : ι → α) :
    (ι → α) × (ι → α) × (ι → α) :=
  let b1t := powLoop h.beta1 h.beta1 (t - 1)
  let b2t := powLoop h.beta2 h.beta2 (t - 1)
  let m' := firstMoment h.beta1 m g
  let v' := secondMoment h.beta2 v g
  let step := fun x => m' x / (1 - b1t) / (sqrt (v' x / (1 - b2t)) + h.epsilon)
  let decay := 1 - lr * h.weightDecay
  (fun x => p x * decay - step x * lr, m', v')

/-- `parameters.iter().zip(m.iter_mut()).zip(v.iter_mut())`, optimizers/adam.rs:47, 139: stops at the shortest list,
leaving the rest as it is. -/
def zipStep (f : (ι → α) → (ι → α) → (ι → α) → (ι → α) → (ι → α) × (ι → α) × (ι → α)) :
    List (ι → α) → List (ι → α) → List (ι → α) → List (ι → α) →
      List (ι → α) × List (ι → α) × List (ι → α)
  | p :: ps, g :: gs, m :: ms, v :: vs =>
    let r := f p g m v
    let rs := zipStep f ps gs ms vs
    (r.1 :: rs.1, r.2.1 :: rs.2.1, r.2.2 :: rs.2.2)
  | ps, _, ms, vs => (ps, ms, vs)

/-- `Adam::step` / `AdamW::step`, optimizers/adam.rs:33-85, 124-188; `f` is the per-parameter update. -/
def adamStep (f : Nat → (ι → α) → (ι → α) → (ι → α) → (ι → α) → (ι → α) × (ι → α) × (ι → α))
    (s : AdamState α ι) (params grads : List (ι → α)) : AdamState α ι × List (ι → α) :=
  let s := s.init params
  let r := zipStep (f (s.t + 1)) params grads s.m s.v
  ({ t := s.t + 1, m := r.2.1, v := r.2.2 }, r.1)

/-! ## Adagrad -/

/-- Hyper-parameters of `Adagrad`, optimizers/adagrad.rs:15-20. -/
structure AdagradHyper (α : Type) where
  lrDecay : α
  epsilon : α
  weightDecay : α
  initial : α

/-- `if weight_decay != 0 { grad = grad + param * weight_decay }`, optimizers/adagrad.rs:86-88,
rmsprop.rs:99-101. -/
def decayed (wd : α) (g p : ι → α) : ι → α := if wd = 0 then g else fun x => g x + p x * wd

/-- One parameter in `Adagrad::step`, optimizers/adagrad.rs:76-101: new parameter and accumulator. -/
def adagradParam (sqrt : α → α) (h : AdagradHyper α) (lr : α) (t : Nat) (p g v : ι → α) : (ι → α) × (ι → α) :=
  let g := decayed h.weightDecay g p
  let lrT := lr / (1 + ((t : α) - 1) * h.lrDecay)
  let v' := fun x => v x + g x * g x
  (fun x => p x - g x / (sqrt (v' x) + h.epsilon) * lrT, v')

/-- `Adagrad` state: step counter and accumulators, optimizers/adagrad.rs:20-21. -/
structure AdagradState (α ι : Type) where
  t : Nat
  v : List (ι → α)

/-- Loop over the parameters, optimizers/adagrad.rs:75; `self.v[i]` exists (same parameters in every step). -/
def adagradLoop (f : (ι → α) → (ι → α) → (ι → α) → (ι → α) × (ι → α)) :
    List (ι → α) → List (ι → α) → List (ι → α) → List (ι → α) × List (ι → α)
  | p :: ps, g :: gs, v :: vs =>
    let r := f p g v
    let rs := adagradLoop f ps gs vs
    (r.1 :: rs.1, r.2 :: rs.2)
  | ps, _, vs => (ps, vs)

/-- `Adagrad::step`, optimizers/adagrad.rs:56-104. -/
def adagradStep (sqrt : α → α) (h : AdagradHyper α) (lr : α) (s : AdagradState α ι)
    (params grads : List (ι → α)) : AdagradState α ι × List (ι → α) :=
  let v := if s.v.isEmpty then
      (if h.initial = 0 then params.map fun _ _ => 0 else params.map fun _ _ => h.initial)
    else s.v
  let r := adagradLoop (adagradParam sqrt h lr (s.t + 1)) params grads v
  ({ t := s.t + 1, v := r.2 }, r.1)

/-! ## RMSprop -/

/-- Hyper-parameters of `RMSprop`, optimizers/rmsprop.rs:17-22. -/
structure RMSHyper (α : Type) where
  alpha : α
  epsilon : α
  momentum : α
  weightDecay : α
  centered : Bool

/-- `RMSprop` state, optimizers/rmsprop.rs:23-25. -/
structure RMSState (α ι : Type) where
  v : List (ι → α)
  m : List (ι → α)
  gAvg : List (ι → α)

/-- Initialisation on the first call, optimizers/rmsprop.rs:66-86. -/
def RMSState.init (h : RMSHyper α) (s : RMSState α ι) (params : List (ι → α)) : RMSState α ι :=
  if s.v.isEmpty then
    { v := params.map fun _ _ => 0
      m := if h.momentum = 0 then s.m else params.map fun _ _ => 0
      gAvg := if h.centered then params.map fun _ _ => 0 else s.gAvg }
  else s

/-- One parameter in `RMSprop::step`, optimizers/rmsprop.rs:90-133.  `m` and `gAvg` are the buffers at
this position; a missing one is not touched.  Result: parameter, `v`, `m`, `g_avg`. -/
def rmsParam (sqrt : α → α) (h : RMSHyper α) (lr : α) (p g v m a : ι → α) :
    (ι → α) × (ι → α) × (ι → α) × (ι → α) :=
  let g := decayed h.weightDecay g p
  let v' := fun x => v x * h.alpha + g x * g x * (1 - h.alpha)
  let a' := if h.centered then fun x => a x * h.alpha + g x * (1 - h.alpha) else a
  let avg := if h.centered then fun x => v' x - a' x * a' x else v'
  if h.momentum = 0 then
    (fun x => p x - g x / (sqrt (avg x) + h.epsilon) * lr, v', m, a')
  else
    let m' := fun x => m x * h.momentum + g x / (sqrt (avg x) + h.epsilon)
    (fun x => p x - m' x * lr, v', m', a')

/-- Writing `buf[i] = x` where the buffer exists (`self.m[i] =` is reached only with momentum, `self.g_avg[i] =` only
when centred), optimizers/rmsprop.rs:112-114, 124-126. -/
def consIf {β : Type} (b : Bool) (x : β) (xs : List β) : List β := if b then x :: xs else xs

/-- Loop over the parameters, optimizers/rmsprop.rs:90-134. -/
def rmsLoop (sqrt : α → α) (h : RMSHyper α) (lr : α) : List (ι → α) → List (ι → α) → RMSState α ι →
    List (ι → α) × RMSState α ι
  | p :: ps, g :: gs, ⟨v :: vs, ms, as⟩ =>
    let r := rmsParam sqrt h lr p g v (ms.headD fun _ => 0) (as.headD fun _ => 0)
    let rs := rmsLoop sqrt h lr ps gs ⟨vs, ms.tail, as.tail⟩
    (r.1 :: rs.1, ⟨r.2.1 :: rs.2.v, consIf (h.momentum ≠ 0) r.2.2.1 rs.2.m, consIf h.centered r.2.2.2 rs.2.gAvg⟩)
  | ps, _, s => (ps, s)

/-- `RMSprop::step`, optimizers/rmsprop.rs:64-137. -/
def rmsStep (sqrt : α → α) (h : RMSHyper α) (lr : α) (s : RMSState α ι) (params grads : List (ι → α)) :
    RMSState α ι × List (ι → α) :=
  let r := rmsLoop sqrt h lr params grads (s.init h params)
  (r.2, r.1)

/-! ## Histories -/

/-- A training run: one call of `step` per element, with the learning rate in force and the gradients; in between the
caller may change the learning rate (`set_learning_rate`). -/
def run {σ : Type} (step : α → σ → List (ι → α) → List (ι → α) → σ × List (ι → α)) :
    List (α × List (ι → α)) → σ → List (ι → α) → σ × List (ι → α)
  | [], s, ps => (s, ps)
  | (lr, gs) :: rest, s, ps =>
    let r := step lr s ps gs
    run step rest r.1 r.2

end Hodu.Optim
