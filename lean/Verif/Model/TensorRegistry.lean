import Mathlib.Logic.Function.Basic

/-!
# The tensor registry and its reference counts

Models `crates/hodu_core/src/tensor/registry.rs`, `Clone` and `Drop` of `Tensor`, `grad`,
`zero_grad` (`crates/hodu_core/src/tensor/core.rs`), `from_storage`, `tensor_from_id`,
`set_grad_tensor_id` (`crates/hodu_core/src/tensor/internal.rs`) and `cleanup_context_tensors`
(`crates/hodu_core/src/tensor/gradient/tape.rs`).

Simplifications: one thread; what these functions do to the gradient tape is in
`Verif/Model/Autograd.lean`; a count is a natural number, so `fetch_add` never wraps (that would
take 2^64 handles), while `fetch_sub` at zero does, as in the code.
-/

namespace Hodu.TReg

/-- crates/hodu_core/src/tensor/core.rs:98-108 `Tensor_`, the fields lifetimes depend on. -/
structure Ent where
  rc : Nat
  runtime : Bool
  isGrad : Bool
  owner : Option Nat
  grad : Option Nat

/-- `TENSORS` (registry.rs:6), `TENSOR_COUNTER` (core.rs:18), `IS_COMPUTING_GRADIENTS`
(gradient/core.rs:37), and `held`: how many `Tensor` values of each id the program holds.  The
program cannot see `held`; it is what a `Tensor` value is (core.rs:27-28: just the id). -/
structure St where
  reg : Nat → Option Ent
  next : Nat
  computing : Bool
  held : Nat → Nat

/-- A fresh process (registry.rs:6-10). -/
def init : St := { reg := fun _ => none, next := 0, computing := false, held := fun _ => 0 }

/-- `AtomicUsize::fetch_sub(1)`, which wraps (used at registry.rs:23, core.rs:271,
internal.rs:115). -/
def subW (n : Nat) : Nat := if n = 0 then 2 ^ 64 - 1 else n - 1

/-- `ref_count.fetch_add(1)` inside `with_tensor` (core.rs:38-40, internal.rs:96-98, 103-105): nothing
if the entry is gone. -/
def incr (reg : Nat → Option Ent) (i : Nat) : Nat → Option Ent :=
  match reg i with
  | some e => Function.update reg i (some { e with rc := e.rc + 1 })
  | none => reg

/-- `ref_count.fetch_sub(1)` inside `with_tensor`, unguarded (registry.rs:22-24, core.rs:271,
internal.rs:115). -/
def decr (reg : Nat → Option Ent) (i : Nat) : Nat → Option Ent :=
  match reg i with
  | some e => Function.update reg i (some { e with rc := subW e.rc })
  | none => reg

/-- `if prev_count > 0 { fetch_sub(1) }` (core.rs:50-54, 76-78; tape.rs:67-69). -/
def decrG (reg : Nat → Option Ent) (i : Nat) : Nat → Option Ent :=
  match reg i with
  | some e => Function.update reg i (some { e with rc := e.rc - 1 })
  | none => reg

/-- The `grad_tensor_id` of an entry, if there is an entry (registry.rs:21, internal.rs:111). -/
def gradOf (reg : Nat → Option Ent) (i : Nat) : Option Nat :=
  match reg i with
  | some e => e.grad
  | none => none

/-- crates/hodu_core/src/tensor/registry.rs:20-27 `remove` -/
def remove (reg : Nat → Option Ent) (i : Nat) : Nat → Option Ent :=
  Function.update (match gradOf reg i with
    | some g => decr reg g
    | none => reg) i none

/-- The gradient part of removing a tensor: crates/hodu_core/src/tensor/core.rs:74-93 with
`checkGrad = false`, gradient/tape.rs:64-85 with `checkGrad = true` (there a gradient made by
`zero_grad` stays). -/
def dropGrad (reg : Nat → Option Ent) (checkGrad : Bool) (g : Nat) : Nat → Option Ent :=
  match reg g with
  | none => reg
  | some e =>
    if (e.rc = 1 ∨ e.rc = 0) ∧ e.runtime = true ∧ e.owner = none ∧
        (checkGrad = true → e.isGrad = false) then
      remove (decrG reg g) g
    else decrG reg g

/-- Removing a tensor together with its gradient: core.rs:73-94, tape.rs:62-87. -/
def removeWithGrad (reg : Nat → Option Ent) (checkGrad : Bool) (i : Nat) : Nat → Option Ent :=
  remove (match gradOf reg i with
    | some g => dropGrad reg checkGrad g
    | none => reg) i

/-- crates/hodu_core/src/tensor/internal.rs:13-36 `from_storage` (and 50-75, 77-93): a new entry
with count 1 and a handle. -/
def create (st : St) (runtime : Bool) (owner : Option Nat) : St :=
  { st with reg := Function.update st.reg st.next
              (some { rc := 1, runtime := runtime, isGrad := false, owner := owner, grad := none }),
            next := st.next + 1, held := Function.update st.held st.next (st.held st.next + 1) }

/-- crates/hodu_core/src/tensor/core.rs:36-45 `Clone for Tensor`, and internal.rs:95-100
`tensor_from_id`: the handle is made whether or not the entry is there. -/
def clone (st : St) (i : Nat) : St :=
  { st with reg := incr st.reg i, held := Function.update st.held i (st.held i + 1) }

/-- Whether `Drop` removes the entry, core.rs:56-60. -/
def removable (computing : Bool) (e : Ent) : Bool :=
  !computing && (e.rc == 1 || e.rc == 0) && e.runtime && e.owner.isNone && !e.isGrad

/-- crates/hodu_core/src/tensor/core.rs:47-96 `Drop for Tensor` -/
def drop (st : St) (i : Nat) : St :=
  { st with
    reg := match st.reg i with
      | none => st.reg
      | some e =>
        if removable st.computing e then removeWithGrad (decrG st.reg i) false i
        else decrG st.reg i
    held := Function.update st.held i (st.held i - 1) }

/-- crates/hodu_core/src/tensor/core.rs:241-253 `grad`: a handle to the stored gradient. -/
def grad (st : St) (i : Nat) : St :=
  match gradOf st.reg i with
  | some g => clone st g
  | none => st

/-- Releasing the gradient a tensor held before, internal.rs:113-129 and core.rs:270-286. -/
def release (reg : Nat → Option Ent) (old : Nat) : Nat → Option Ent :=
  match reg old with
  | none => reg
  | some e =>
    if e.rc = 1 ∧ e.runtime = true ∧ e.owner = none then remove (decr reg old) old
    else decr reg old

/-- Storing a gradient id in an entry, internal.rs:131-138 and core.rs:298-300. -/
def setLink (reg : Nat → Option Ent) (i : Nat) (g : Option Nat) : Nat → Option Ent :=
  match reg i with
  | some e => Function.update reg i (some { e with grad := g })
  | none => reg

/-- crates/hodu_core/src/tensor/internal.rs:102-139 `set_grad_tensor_id` -/
def setGrad (st : St) (i g : Nat) : St :=
  match st.reg g with
  | none => st
  | some _ =>
    let reg1 := incr st.reg g
    let reg2 := match gradOf reg1 i with
      | some old => release reg1 old
      | none => reg1
    { st with reg := setLink reg2 i (some g) }

/-- `t.is_gradient = true` (core.rs:289-291). -/
def markGrad (reg : Nat → Option Ent) (i : Nat) : Nat → Option Ent :=
  match reg i with
  | some e => Function.update reg i (some { e with isGrad := true })
  | none => reg

/-- crates/hodu_core/src/tensor/core.rs:255-304 `zero_grad` on a tensor that requires a gradient.
The new zeros are created (owner `None`, creation.rs), marked, counted once more, linked, and the
local handle is dropped at the end. -/
def zeroGrad (st : St) (i : Nat) : St :=
  match gradOf st.reg i with
  | none => st
  | some old =>
    let reg1 := setLink st.reg i none
    match reg1 old with
    | none => { st with reg := reg1 }
    | some _ =>
      let st2 := create { st with reg := release reg1 old } true none
      let st3 := { st2 with reg := incr (markGrad st2.reg st.next) st.next }
      drop { st3 with reg := setLink st3.reg i (some st.next) } st.next

/-- One turn of the loop of crates/hodu_core/src/tensor/gradient/tape.rs:49-90. -/
def cleanOne (c : Nat) (reg : Nat → Option Ent) (i : Nat) : Nat → Option Ent :=
  match reg i with
  | none => reg
  | some e =>
    if (e.owner = some c ∨ e.owner = none) ∧ e.rc = 0 ∧ e.runtime = true ∧ e.isGrad = false then
      removeWithGrad reg true i
    else reg

/-- crates/hodu_core/src/tensor/gradient/tape.rs:40-91 `cleanup_context_tensors`; the order in
which the map yields the ids (registry.rs:41-43) is arbitrary, hence an argument. -/
def cleanup (st : St) (c : Nat) (order : List Nat) : St :=
  { st with reg := order.foldl (cleanOne c) st.reg }

/-- What a program, or `backward` on its behalf, does. -/
inductive Step where
  /-- a constructor (owner `none`) or the result of an operation (owner = active context,
  internal.rs:38-48) -/
  | create (runtime : Bool) (owner : Option Nat)
  | clone (i : Nat)
  | drop (i : Nat)
  | grad (i : Nat)
  | setGrad (i g : Nat)
  | zeroGrad (i : Nat)
  /-- `set_computing_gradients`, gradient/core.rs:52-54 -/
  | computing (b : Bool)
  | cleanup (c : Nat) (order : List Nat)

/-- One step. -/
def step (st : St) : Step → St
  | .create r o => create st r o
  | .clone i => clone st i
  | .drop i => drop st i
  | .grad i => grad st i
  | .setGrad i g => setGrad st i g
  | .zeroGrad i => zeroGrad st i
  | .computing b => { st with computing := b }
  | .cleanup c order => cleanup st c order

/-- A history. -/
def run (st : St) (l : List Step) : St := l.foldl step st

end Hodu.TReg
