import Verif.Basic
import Mathlib.Logic.Function.Basic

/-!
# Recording operations, gradient contexts and `backward`

Models `crates/hodu_core/src/tensor/gradient/{compute,context,core,tape}.rs`, the parts of
`crates/hodu_core/src/tensor/core.rs` that set and clear gradients, and how the operations of
`crates/hodu_core/src/tensor/ops/*.rs` create a result and record it.

Simplifications.
* A tensor's value is an element of an arbitrary type `V` with an addition (the addition stands
  for `Tensor::add` on two gradients of the same tensor).
* Reference counts are not in this model (see `Verif/Model/TensorRegistry.lean`); whether a
  tensor is still in the registry is the flag `alive`, and the steps `dropLeaf` and `die` say when
  it leaves it.
* One thread.  `IS_COMPUTING_GRADIENTS` is true exactly inside `backward`, and nothing recorded
  there reaches a tape (compute.rs:14-16), so the operations of the vector-Jacobian products are
  the field `vjp` of an entry.
-/

namespace Hodu.Autograd

/-- crates/hodu_core/src/tensor/gradient/tape.rs:11-18 `TapeEntry`.  `op` and `op_params` appear
only through `compute_vjp_for_op` (compute.rs:157-190): given the current values of all tensors
and the gradient of the output, the gradients of the inputs, or a failure. -/
structure Entry (V : Type) where
  out : Nat
  ins : List Nat
  vjp : (Nat → V) → V → Res (List V)

/-- The state that recording and `backward` read and write: `TENSOR_COUNTER` (tensor/core.rs:18),
`COUNTER` (gradient/core.rs:12), `CONTEXT_STACK` (gradient/core.rs:18; top first),
`GRADIENT_TAPES` (tape.rs:21), the fields `requires_grad`, `grad_tensor_id` (as the value of that
tensor) and `storage` of each registry entry (tensor/core.rs:98-108), presence in the registry,
and `IS_IN_OPTIMIZER_STEP` (gradient/core.rs:38). -/
structure St (V : Type) where
  next : Nat
  nextCtx : Nat
  stack : List Nat
  tapes : Nat → Option (List (Entry V))
  requires : Nat → Bool
  alive : Nat → Bool
  vals : Nat → V
  grads : Nat → Option V
  optStep : Bool

variable {V : Type}

/-- The state of a fresh process (gradient/core.rs:12, 18, 37-38; tape.rs:21-25).  `z` fills the
value of tensors that do not exist. -/
def init (z : V) : St V :=
  { next := 0, nextCtx := 1, stack := [], tapes := fun c => if c = 0 then some [] else none,
    requires := fun _ => false, alive := fun _ => false, vals := fun _ => z,
    grads := fun _ => none, optStep := false }

/-- crates/hodu_core/src/tensor/gradient/core.rs:21-23 `get_active_context` -/
def active (st : St V) : Nat :=
  match st.stack with
  | [] => 0
  | c :: _ => c

/-- crates/hodu_core/src/tensor/gradient/tape.rs:111-114 `get_tape_clone` -/
def tapeOf (st : St V) (c : Nat) : List (Entry V) :=
  match st.tapes c with
  | some t => t
  | none => []

/-- crates/hodu_core/src/tensor/gradient/tape.rs:102-108 `push_entry`: a missing tape is not an
error, the entry is dropped. -/
def pushEntry (tapes : Nat → Option (List (Entry V))) (c : Nat) (e : Entry V) :
    Nat → Option (List (Entry V)) :=
  match tapes c with
  | some t => Function.update tapes c (some (t ++ [e]))
  | none => tapes

/-- crates/hodu_core/src/tensor/gradient/compute.rs:13-41 `record_operation`, outside of
`backward`. -/
def record (st : St V) (e : Entry V) : St V :=
  if st.optStep then st
  else if e.ins.any st.requires then { st with tapes := pushEntry st.tapes (active st) e }
  else st

/-- crates/hodu_core/src/tensor/creation.rs:33-60 (and the other constructors): a new tensor;
tensor/core.rs:196-212 `set_requires_grad` right after it when `req`. -/
def leaf (st : St V) (v : V) (req : Bool) : St V :=
  { st with next := st.next + 1, requires := Function.update st.requires st.next req,
            alive := Function.update st.alive st.next true,
            vals := Function.update st.vals st.next v,
            grads := Function.update st.grads st.next none }

/-- An operation as in crates/hodu_core/src/tensor/ops/binary.rs:51-79, unary.rs:38-63 and the
others: compute the value, decide `requires_grad` (`diff` is the dtype check
`validate_requires_grad`, and false for operations whose result never requires a gradient), create
the result, record it if it requires a gradient.  Inputs that are not in the registry make
`with_storage` fail (tensor/core.rs:126-132) and nothing happens. -/
def op (st : St V) (ins : List Nat) (f : List V → V) (vjp : (Nat → V) → V → Res (List V))
    (diff : Bool) : St V :=
  if ins.all st.alive then
    let rq := diff && ins.any st.requires
    let st1 := leaf st (f (ins.map st.vals)) rq
    if rq then record st1 { out := st.next, ins := ins, vjp := vjp } else st1
  else st

/-- crates/hodu_core/src/tensor/gradient/context.rs:8-16 `GradientContext::new` -/
def enter (st : St V) : St V :=
  { st with nextCtx := st.nextCtx + 1, stack := st.nextCtx :: st.stack,
            tapes := Function.update st.tapes st.nextCtx (some []) }

/-- crates/hodu_core/src/tensor/gradient/context.rs:29-39 `Drop for GradientContext`, with
`pop_context` (gradient/core.rs:31-35) and `remove_tape` (tape.rs:33-37). -/
def leave (st : St V) (c : Nat) : St V :=
  if c = 0 then st
  else { st with stack := st.stack.tail, tapes := Function.update st.tapes c none }

/-- crates/hodu_core/src/tensor/gradient/tape.rs:127-134 `remove_entries_with_input` -/
def removeEntries (tapes : Nat → Option (List (Entry V))) (c i : Nat) :
    Nat → Option (List (Entry V)) :=
  match tapes c with
  | some t => Function.update tapes c (some (t.filter (fun e => !(e.ins.contains i))))
  | none => tapes

/-- crates/hodu_core/src/tensor/gradient/tape.rs:117-123 `clear_tape_for_context` -/
def clearTape (tapes : Nat → Option (List (Entry V))) (c : Nat) : Nat → Option (List (Entry V)) :=
  match tapes c with
  | some _ => Function.update tapes c (some [])
  | none => tapes

/-- `gradients` (compute.rs:79) and the gradients stored in the tensors. -/
structure Acc (V : Type) where
  map : Nat → Option V
  grads : Nat → Option V

/-- One turn of the inner loop, crates/hodu_core/src/tensor/gradient/compute.rs:112-135: add to
the gradient already there, and store it if the tensor requires a gradient. -/
def accOne [Add V] (requires : Nat → Bool) (a : Acc V) (p : Nat × V) : Acc V :=
  let final := match a.map p.1 with
    | some x => x + p.2
    | none => p.2
  { map := Function.update a.map p.1 (some final),
    grads := if requires p.1 then Function.update a.grads p.1 (some final) else a.grads }

/-- The outer loop, crates/hodu_core/src/tensor/gradient/compute.rs:86-137, over the entries from
the newest to the oldest.  The flag says whether it reached the end. -/
def walk [Add V] (requires alive : Nat → Bool) (vals : Nat → V) :
    List (Entry V) → Acc V → Acc V × Bool
  | [], a => (a, true)
  | e :: es, a =>
    match a.map e.out with
    | none => walk requires alive vals es a
    | some g =>
      if e.ins.all alive then
        match e.vjp vals g with
        | .ok gs => walk requires alive vals es ((e.ins.zip gs).foldl (accOne requires) a)
        | _ => (a, false)
      else (a, false)

/-- crates/hodu_core/src/tensor/core.rs:226-239 `backward` (the dtype check is part of
`requires`: tensor/core.rs:197-202) and gradient/compute.rs:65-155 `compute_gradients`.  `one` is
`Tensor::ones` of the shape of the loss. -/
def backward [Add V] (st : St V) (loss : Nat) (one : V) : St V × Bool :=
  if st.requires loss && st.alive loss then
    let c := active st
    let a0 : Acc V := { map := Function.update (fun _ => none) loss (some one),
                        grads := Function.update st.grads loss (some one) }
    let r := walk st.requires st.alive st.vals (tapeOf st c).reverse a0
    if r.2 then
      ({ st with grads := r.1.grads, tapes := clearTape st.tapes c }, true)
    else ({ st with grads := r.1.grads }, false)
  else (st, false)

/-- crates/hodu_core/src/tensor/core.rs:255-304 `zero_grad`: a gradient that is there is replaced
by zeros of its shape (`zero`). -/
def zeroGrad (st : St V) (i : Nat) (zero : V) : St V :=
  if st.requires i then
    match st.grads i with
    | some _ => { st with grads := Function.update st.grads i (some zero) }
    | none => st
  else st

/-- What a program does. -/
inductive Step (V : Type) where
  /-- create a tensor -/
  | leaf (v : V) (req : Bool)
  /-- apply an operation -/
  | op (ins : List Nat) (f : List V → V) (vjp : (Nat → V) → V → Res (List V)) (diff : Bool)
  /-- `GradientContext::new` -/
  | enter
  /-- drop of the guard of context `c` -/
  | leave (c : Nat)
  /-- `backward` -/
  | backward (loss : Nat) (one : V)
  /-- `zero_grad` -/
  | zeroGrad (i : Nat) (zero : V)
  /-- the last handle of a created tensor that requires a gradient goes away
  (tensor/core.rs:47-95) -/
  | dropLeaf (i : Nat)
  /-- a tensor leaves the registry without touching the tape (tensor/core.rs:47-95 for one that
  does not require a gradient, tape.rs:40-91) -/
  | die (i : Nat)
  /-- `set_requires_grad` (tensor/core.rs:196-212) -/
  | setReq (i : Nat) (b : Bool)
  /-- `set_` (ops/cast_memory.rs:85-102) -/
  | setVal (i : Nat) (v : V)
  /-- `set_optimizer_step_flag` (gradient/core.rs:48-50) -/
  | optFlag (b : Bool)

/-- One step. -/
def step [Add V] (st : St V) : Step V → St V
  | .leaf v req => leaf st v req
  | .op ins f vjp diff => op st ins f vjp diff
  | .enter => enter st
  | .leave c => leave st c
  | .backward loss one => (backward st loss one).1
  | .zeroGrad i zero => zeroGrad st i zero
  | .dropLeaf i =>
    { st with tapes := removeEntries st.tapes (active st) i,
              alive := Function.update st.alive i false }
  | .die i => { st with alive := Function.update st.alive i false }
  | .setReq i b =>
    if st.alive i then { st with requires := Function.update st.requires i b } else st
  | .setVal i v => if st.alive i then { st with vals := Function.update st.vals i v } else st
  | .optFlag b => { st with optStep := b }

/-- A history. -/
def run [Add V] (st : St V) (l : List (Step V)) : St V := l.foldl step st

end Hodu.Autograd
