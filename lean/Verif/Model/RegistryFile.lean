import Mathlib.Data.List.Basic
import Mathlib.Logic.Function.Basic

/-!
# Files shared between processes

`crates/hodu_plugin_runtime/src/registry.rs` (`save` and `load` of the plugin registry, with
advisory locks) as a transition system over any number of concurrent processes, and
`crates/hodu_plugin_runtime/src/runtime.rs` (`run`, the temporary files of its inputs).

A file is a list of bytes.  A write of many bytes is any number of single-byte writes; reading a
file is one step (a simplification: in the code the bytes of a read may also straddle a
truncation).
-/

namespace Hodu.RegFile

/-- Where a process executing `save` is (registry.rs:53-75): not started; the file opened with
`truncate(true)` (59-64); the exclusive lock taken (67); inside `std::fs::write`, which opened
and truncated the file again and has written `k` bytes (71); finished, or crashed (the lock is
released either way). -/
inductive Phase where
  | idle
  | opened
  | locked
  | writing (k : Nat)
  | finished
  | crashed
  deriving DecidableEq

/-- Where a process executing `load` is (registry.rs:31-50): not started, opened, shared lock
taken, finished with the bytes it read (`none`: there was no file, 32-34). -/
inductive LPhase where
  | idle
  | opened
  | locked
  | finished (read : Option (List Nat))
  deriving DecidableEq

/-- The file and the processes: savers `ι`, loaders `κ`. -/
structure Sys (ι κ : Type) where
  file : Option (List Nat)
  saver : ι → Phase
  loader : κ → LPhase

/-- Writing byte `b` at offset `k`: a gap is filled with zeros. -/
def writeAt (l : List Nat) (k b : Nat) : List Nat :=
  if k < l.length then l.set k b else l ++ List.replicate (k - l.length) 0 ++ [b]

variable {ι κ : Type} [DecidableEq ι] [DecidableEq κ]

/-- Does a saver hold the exclusive lock? -/
def Phase.holds : Phase → Prop
  | .locked => True
  | .writing _ => True
  | _ => False

/-- One step of one process; `content i` is the text saver `i` writes
(`serde_json::to_string_pretty`, registry.rs:69). -/
inductive StepTo (content : ι → List Nat) : Sys ι κ → Sys ι κ → Prop
  /-- registry.rs:59-64: the open truncates, before any lock is taken. -/
  | open (s : Sys ι κ) (i : ι) (h : s.saver i = .idle) :
    StepTo content s ⟨some [], Function.update s.saver i .opened, s.loader⟩
  /-- registry.rs:67: the exclusive lock, when nobody holds any lock. -/
  | lock (s : Sys ι κ) (i : ι) (h : s.saver i = .opened) (hs : ∀ j, ¬ (s.saver j).holds)
    (hl : ∀ k, s.loader k ≠ .locked) :
    StepTo content s ⟨s.file, Function.update s.saver i .locked, s.loader⟩
  /-- registry.rs:71: `fs::write` opens and truncates. -/
  | begin (s : Sys ι κ) (i : ι) (h : s.saver i = .locked) :
    StepTo content s ⟨some [], Function.update s.saver i (.writing 0), s.loader⟩
  /-- registry.rs:71: `fs::write` writes one more byte. -/
  | write (s : Sys ι κ) (i : ι) (k b : Nat) (f : List Nat) (h : s.saver i = .writing k)
    (hb : (content i)[k]? = some b) (hf : s.file = some f) :
    StepTo content s
      ⟨some (writeAt f k b), Function.update s.saver i (.writing (k + 1)), s.loader⟩
  /-- registry.rs:71-74: everything is written, the file is closed and the lock released. -/
  | finish (s : Sys ι κ) (i : ι) (h : s.saver i = .writing (content i).length) :
    StepTo content s ⟨s.file, Function.update s.saver i .finished, s.loader⟩
  /-- the process of a saver dies. -/
  | crash (s : Sys ι κ) (i : ι) :
    StepTo content s ⟨s.file, Function.update s.saver i .crashed, s.loader⟩
  /-- registry.rs:32-34: there is no file. -/
  | loadNone (s : Sys ι κ) (k : κ) (h : s.loader k = .idle) (hf : s.file = none) :
    StepTo content s ⟨s.file, s.saver, Function.update s.loader k (.finished none)⟩
  /-- registry.rs:36-39. -/
  | loadOpen (s : Sys ι κ) (k : κ) (h : s.loader k = .idle) (hf : s.file ≠ none) :
    StepTo content s ⟨s.file, s.saver, Function.update s.loader k .opened⟩
  /-- registry.rs:42: the shared lock, when nobody holds the exclusive lock. -/
  | loadLock (s : Sys ι κ) (k : κ) (h : s.loader k = .opened) (hs : ∀ j, ¬ (s.saver j).holds) :
    StepTo content s ⟨s.file, s.saver, Function.update s.loader k .locked⟩
  /-- registry.rs:44-49: the file is read (and parsed) and the lock released. -/
  | loadRead (s : Sys ι κ) (k : κ) (f : List Nat) (h : s.loader k = .locked)
    (hf : s.file = some f) :
    StepTo content s ⟨s.file, s.saver, Function.update s.loader k (.finished (some f))⟩

/-- A state reachable from the initial one with file `f0`. -/
inductive Reach (content : ι → List Nat) (f0 : Option (List Nat)) : Sys ι κ → Prop
  | init : Reach content f0 ⟨f0, fun _ => .idle, fun _ => .idle⟩
  | step {s t : Sys ι κ} (h : Reach content f0 s) (ht : StepTo content s t) : Reach content f0 t

end Hodu.RegFile
