import Verif.Model.RunFiles

/-!
# The library cache of `hodu run`

Models `hodu-cli/src/commands/run.rs:196-243` (the cache key, the test for a cached library, the
build and the run), the resolution of the backend's name (run.rs:411-432) and
`hodu-cli/src/commands/clean.rs:22-62`, as steps of processes that may interleave with each other,
with changes of the model file, and with upgrades of a plugin.

A library remembers what it was built from.  The hash is a parameter; the backend either creates
its library in one step (`built`) or leaves an unfinished file on the way (`unfinished`), which the
command cannot see.
-/

namespace Hodu.RunCache

/-- The targets `current_target_triple` knows, run.rs:469-488. -/
def triples : List (List Char) :=
  ["x86_64-unknown-linux-gnu".toList, "aarch64-unknown-linux-gnu".toList,
    "x86_64-apple-darwin".toList, "aarch64-apple-darwin".toList, "x86_64-pc-windows-msvc".toList]

/-- What a run asks for: the snapshot file, the machine's target, the device, the backend
(run.rs:115-118, 196-243). -/
structure Request where
  path : Nat
  triple : List Char
  device : List Char
  backend : List Char
  deriving DecidableEq

/-- A library and what it was built from (the arguments of `build`, run.rs:225-231, and the version
of the backend that built it). -/
structure Lib where
  content : List Char
  triple : List Char
  device : List Char
  version : Nat
  complete : Bool
  deriving DecidableEq

/-- Where a run is: after the hash (run.rs:196-201), in the build (run.rs:221-231), or about to run
the library (run.rs:236-243); with the `snapshot_content` that was read. -/
inductive Phase where
  | hashed (r : Request) (content : List Char)
  | building (r : Request) (content : List Char)
  | ready (r : Request) (content : List Char)
  deriving DecidableEq

/-- The machine: the model files, the cache directory by backend and hash, the installed versions,
the running processes. -/
structure State (H : Type) where
  files : Nat → List Char
  cache : List Char → H → Option Lib
  version : List Char → Nat
  procs : Nat → Option Phase

/-- A call of the backend's `run` (run.rs:238-243): the request, the content read for the hash, the
installed version, and the library found at the path. -/
structure Use where
  req : Request
  content : List Char
  version : Nat
  lib : Option Lib
  deriving DecidableEq

/-- What can happen next. -/
inductive Event where
  | start (p : Nat) (r : Request)
  | check (p : Nat)
  | unfinished (p : Nat)
  | built (p : Nat)
  | use (p : Nat)
  | kill (p : Nat)
  | edit (path : Nat) (content : List Char)
  | upgrade (backend : List Char)
  | clean (backend : List Char)
  deriving DecidableEq

/-- Replacing one value of a function. -/
def upd {α β : Type} [DecidableEq α] (f : α → β) (a : α) (b : β) : α → β :=
  fun x => if x = a then b else f x

/-- The cache key, run.rs:196-201: `Sha256(content ++ triple)`. -/
def key {H : Type} (hash : List Char → H) (content triple : List Char) : H := hash (content ++ triple)

/-- The library the backend makes of a request now (run.rs:225-231): it reads the file again. -/
def libOf {H : Type} (s : State H) (r : Request) (complete : Bool) : Lib :=
  ⟨s.files r.path, r.triple, r.device, s.version r.backend, complete⟩

/-- A library written at its path (run.rs:218, 225-231). -/
def State.store {H : Type} [DecidableEq H] (hash : List Char → H) (s : State H) (r : Request)
    (c : List Char) (complete : Bool) : State H :=
  let dir := upd (s.cache r.backend) (key hash c r.triple) (some (libOf s r complete))
  { s with cache := upd s.cache r.backend dir }

/-- One step; the second result is the use of a library, if the step is one. -/
def step {H : Type} [DecidableEq H] (hash : List Char → H) (s : State H) :
    Event → State H × Option Use
  | .start p r => match s.procs p with
    | some _ => (s, none)
    | none => ({ s with procs := upd s.procs p (some (.hashed r (s.files r.path))) }, none)
  | .check p => match s.procs p with
    | some (.hashed r c) => match s.cache r.backend (key hash c r.triple) with
      | some _ => ({ s with procs := upd s.procs p (some (.ready r c)) }, none)
      | none => ({ s with procs := upd s.procs p (some (.building r c)) }, none)
    | _ => (s, none)
  | .unfinished p => match s.procs p with
    | some (.building r c) =>
      (s.store hash r c false, none)
    | _ => (s, none)
  | .built p => match s.procs p with
    | some (.building r c) =>
      ({ s.store hash r c true with procs := upd s.procs p (some (.ready r c)) }, none)
    | _ => (s, none)
  | .use p => match s.procs p with
    | some (.ready r c) => ({ s with procs := upd s.procs p none },
        some ⟨r, c, s.version r.backend, s.cache r.backend (key hash c r.triple)⟩)
    | _ => (s, none)
  | .kill p => ({ s with procs := upd s.procs p none }, none)
  | .edit path content => ({ s with files := upd s.files path content }, none)
  | .upgrade b => ({ s with version := upd s.version b (s.version b + 1) }, none)
  | .clean b => ({ s with cache := upd s.cache b (fun _ => none) }, none)

/-- All steps of a sequence of events, and the uses in order. -/
def exec {H : Type} [DecidableEq H] (hash : List Char → H) :
    State H → List Event → State H × List Use
  | s, [] => (s, [])
  | s, e :: es =>
    let (s', u) := step hash s e
    let (s'', us) := exec hash s' es
    (s'', u.toList ++ us)

/-- `find_backend_plugin` with a name, run.rs:416-425, over the installed names; the result names the
cache directory (run.rs:212-216). -/
def runDir (installed : List (List Char)) (name : List Char) : Option (List Char) :=
  if name ∈ installed then some name
  else if "hodu-backend-".toList ++ name ∈ installed then some ("hodu-backend-".toList ++ name)
  else none

/-- The directory `hodu clean --backend name` removes (`remove_dir_all`), clean.rs:37-53, 64-77;
`dirs` says which directories exist. -/
def cleanDir (dirs : List Char → Bool) (cache name : List Char) : Option (List Char) :=
  let plain := RunFiles.join cache name
  let prefixed := RunFiles.join cache ("hodu-backend-".toList ++ name ++ "-plugin".toList)
  if dirs plain then some plain
  else if dirs prefixed then some prefixed
  else none

end Hodu.RunCache
