import Mathlib.Logic.Function.Basic
import Verif.Model.Cuda

/-!
# Model of CUDA kernels whose threads run small programs

As in Model/Cuda an execution is a list of thread numbers, each entry one step.  Here the work of a thread
for one index of its loop is a program over the buffers that the kernel writes: loads, stores and atomic
updates, each one step.  Buffers that a kernel only reads (`const` arguments) are not part of this memory:
their contents are known when the program of an index is written down.
-/

namespace Hodu.Cuda

/-- A cell of a buffer: number of the buffer among the arguments the kernel writes, position. -/
abbrev Addr := Nat × Nat

/-- The buffers of a kernel, e.g. `values`, `indices` of ops_indexing.cu:699; `none` outside of them. -/
abbrev Mem (V : Type) := Addr → Option V

/-- What a thread does for one index, e.g. ops_indexing.cu:707-725.  `op a f k`: the cell `a` is read and
replaced by `f` of what was read, as one step, and the thread goes on with `k` of what was read.  `ub` is an
access outside of a `const` buffer or of a local array. -/
inductive Prog (V : Type) where
  | done
  | ub
  | op (a : Addr) (f : V → V) (k : V → Prog V)

/-- A load, e.g. `TYPE vi = values[i]`, ops_indexing.cu:711. -/
def Prog.load (a : Addr) (k : V → Prog V) : Prog V := .op a (fun v => v) k

/-- A store, e.g. `values[i] = vj`, ops_indexing.cu:717. -/
def Prog.store (a : Addr) (v : V) (p : Prog V) : Prog V := .op a (fun _ => v) fun _ => p

/-- An atomic whose result is not used, e.g. `atomicAdd(count, 1)`, ops_indexing.cu:738. -/
def Prog.atomic (a : Addr) (f : V → V) (p : Prog V) : Prog V := .op a f fun _ => p

/-- An atomic whose result is used, e.g. `out_idx = atomicAdd(counter, 1)`, ops_indexing.cu:609. -/
def Prog.fetch (a : Addr) (f : V → V) (k : V → Prog V) : Prog V := .op a f k

/-- The effect of an operation on the cell `a` (one step of ops_indexing.cu:707-725). -/
def Mem.upd (m : Mem V) (a : Addr) (f : V → V) : Mem V := Function.update m a ((m a).map f)

/-- A program run without interruption (what a thread does for one index of ops_indexing.cu:705-726 when it
runs alone). -/
def Prog.run : Prog V → Mem V → Res (Mem V)
  | .done, m => .ok m
  | .ub, _ => .ub
  | .op a f k, m =>
    match m a with
    | none => .ub
    | some v => (k v).run (m.upd a f)

/-- A kernel whose thread `t` runs `for (i = start(t); i < bound; i = next(i)) prog(i)`, e.g.
ops_indexing.cu:705-727. -/
structure PKernel (V : Type) where
  threads : Nat
  start : Nat → Nat
  next : Nat → Nat
  bound : Nat
  prog : Nat → Prog V

/-- Where a thread is: at the test of the loop of ops_indexing.cu:705, inside of the body, or past the loop. -/
inductive PPc (V : Type) where
  | head (i : Nat)
  | run (i : Nat) (p : Prog V)
  | done

/-- Memory and position of every thread (ops_indexing.cu:705-727). -/
structure PSt (V : Type) where
  mem : Mem V
  pc : Nat → PPc V

/-- Thread `t` moves to `p` (a step of ops_indexing.cu:705-727). -/
def PSt.goto (s : PSt V) (t : Nat) (p : PPc V) : PSt V := { s with pc := Function.update s.pc t p }

/-- One step of thread `t`, ops_indexing.cu:705-727. -/
def PKernel.step (k : PKernel V) (s : PSt V) (t : Nat) : Res (PSt V) :=
  match s.pc t with
  | .head i => if i < k.bound then .ok (s.goto t (.run i (k.prog i))) else .ok (s.goto t .done)
  | .run i .done => .ok (s.goto t (.head (k.next i)))
  | .run _ .ub => .ub
  | .run i (.op a f c) =>
    match s.mem a with
    | none => .ub
    | some v => .ok { (s.goto t (.run i (c v))) with mem := s.mem.upd a f }
  | .done => .ok s

/-- Launch: every thread is at its first test (ops_indexing.cu:705). -/
def PKernel.init (k : PKernel V) (m : Mem V) : PSt V :=
  { mem := m, pc := fun t => if t < k.threads then .head (k.start t) else .done }

/-- An execution of ops_indexing.cu:705-727: the threads of `sched` take one step each, in that order. -/
def PKernel.exec (k : PKernel V) (m : Mem V) (sched : List Nat) : Res (PSt V) :=
  Res.foldL k.step (k.init m) sched

/-- No thread is left in the loop of ops_indexing.cu:705-727. -/
def PSt.finished (s : PSt V) : Prop := ∀ t, s.pc t = .done

/-- `i += blockDim.x * gridDim.x` for a `size_t` counter: the product is a `uint32_t`, the sum is not,
ops_indexing.cu:705-706. -/
def advance64 (grid i : Nat) : Nat := i + u32 (256 * grid)

/-- A grid-stride loop with a `size_t` counter over `numEls` indices, launched with blocks of 256,
src/kernels/ops_indexing.rs:484-493. -/
def progGrid64 (numEls : Nat) (prog : Nat → Prog V) : PKernel V :=
  { threads := 256 * gridSize numEls, start := threadStart, next := advance64 (gridSize numEls)
    bound := numEls, prog := prog }

/-- A grid-stride loop with a `uint32_t` counter over `numEls` indices, launched with blocks of 256, e.g.
ops_indexing.cu:918-919. -/
def progGrid32 (numEls : Nat) (prog : Nat → Prog V) : PKernel V :=
  { threads := 256 * gridSize numEls, start := threadStart, next := advance (gridSize numEls)
    bound := numEls, prog := prog }

end Hodu.Cuda
