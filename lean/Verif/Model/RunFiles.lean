import Mathlib.Data.List.Basic

/-!
# The temporary files of a run

Models `crates/hodu_plugin_runtime/src/runtime.rs:149-173`: `Runtime::run` writes every input
tensor to a file in one directory shared by all runs of all processes, and hands the paths to the
backend.  Data of type `D` stands for a saved tensor.  File names are texts; two different texts
are taken to be two different files (no `..`, no links).
-/

namespace Hodu.RunFiles

/-- `PathBuf::join` with a text: an absolute one replaces the directory. -/
def join (dir name : List Char) : List Char :=
  match name with
  | '/' :: _ => name
  | _ => dir ++ '/' :: name

/-- runtime.rs:155 `temp_dir.join(format!("{}.hdt", name))` -/
def inputPath (dir name : List Char) : List Char := join dir (name ++ ".hdt".toList)

/-- A write of the input `name` of run `run`. -/
structure Write (D : Type) where
  run : Nat
  name : List Char
  data : D

/-- The files after some writes in the order in which they happen (runtime.rs:154-157 for every
run). -/
def files {D : Type} (dir : List Char) (ws : List (Write D)) : List Char → Option D :=
  ws.foldl (fun fs w p => if p = inputPath dir w.name then some w.data else fs p) (fun _ => none)

end Hodu.RunFiles
