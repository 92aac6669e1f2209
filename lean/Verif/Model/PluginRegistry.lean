import Mathlib.Data.List.Basic

/-!
# Installed plugins and running plugins

Models `crates/hodu_plugin_runtime/src/registry.rs` (the registry in memory),
`hodu-cli/src/plugins/process.rs` and `crates/hodu_plugin_runtime/src/backend.rs`,
`format.rs` (the three copies of `PluginManager`).
-/

namespace Hodu.Plugins

/-- crates/hodu_plugin_runtime/src/types.rs:43-50 `PluginType` -/
inductive Kind where
  | backend
  | modelFormat
  | tensorFormat
  deriving DecidableEq

/-- crates/hodu_plugin_runtime/src/types.rs:5-37 `PluginEntry`; `info` stands for all the fields
the registry only carries around (version, description, licence, binary, source, ...). -/
structure Entry where
  name : String
  kind : Kind
  enabled : Bool
  devices : List String
  modelExts : List String
  tensorExts : List String
  dependencies : List String
  info : Nat
  deriving DecidableEq

/-- crates/hodu_plugin_runtime/src/registry.rs:11-16 `PluginRegistry` (its `plugins`) -/
abbrev Registry := List Entry

/-- crates/hodu_plugin_runtime/src/registry.rs:89-92 `find` -/
def find (r : Registry) (name : String) : Option Entry := List.find? (fun p => p.name == name) r

/-- crates/hodu_plugin_runtime/src/registry.rs:94-97 `find_mut`, together with what the callers
do with the reference: the first entry of that name becomes `f` of itself.  `none` when there is
no such entry. -/
def modify (r : Registry) (name : String) (f : Entry → Entry) : Option Registry :=
  match r with
  | [] => none
  | p :: ps => if p.name == name then some (f p :: ps) else (modify ps name f).map (p :: ·)

/-- crates/hodu_plugin_runtime/src/registry.rs:99-106 `upsert` -/
def upsert (r : Registry) (e : Entry) : Registry :=
  match modify r e.name (fun _ => e) with
  | some r' => r'
  | none => r ++ [e]

/-- crates/hodu_plugin_runtime/src/registry.rs:108-115 `remove` -/
def remove (r : Registry) (name : String) : Registry × Option Entry :=
  match List.findIdx? (fun p : Entry => p.name == name) r with
  | some i => (List.eraseIdx r i, r[i]?)
  | none => (r, none)

/-- crates/hodu_plugin_runtime/src/registry.rs:155-163 `enable` and 165-173 `disable` -/
def setEnabled (r : Registry) (name : String) (b : Bool) : Registry × Bool :=
  match modify r name (fun p => { p with enabled := b }) with
  | some r' => (r', true)
  | none => (r, false)

/-- crates/hodu_plugin_runtime/src/registry.rs:122-127, 134-139, 148-153: the enabled plugins of
one kind -/
def ofKind (r : Registry) (k : Kind) : List Entry := r.filter fun p => p.kind == k && p.enabled

/-- crates/hodu_plugin_runtime/src/registry.rs:198-204 `find_backend_by_device`; `lower` is
`str::to_lowercase`. -/
def findByDevice (lower : String → String) (r : Registry) (device : String) : Option Entry :=
  (ofKind r .backend).find? fun p => p.devices.any fun d => lower d == lower device

/-- `ext.trim_start_matches('.').to_lowercase()` (registry.rs:209, 214, 221, 226); `trim` is the
first of the two. -/
def normExt (lower trim : String → String) (e : String) : String := lower (trim e)

/-- crates/hodu_plugin_runtime/src/registry.rs:206-216 `find_model_format_by_extension` -/
def findByModelExt (lower trim : String → String) (r : Registry) (ext : String) : Option Entry :=
  (ofKind r .modelFormat).find? fun p =>
    p.modelExts.any fun e => normExt lower trim e == normExt lower trim ext

/-- crates/hodu_plugin_runtime/src/registry.rs:218-228 `find_tensor_format_by_extension` -/
def findByTensorExt (lower trim : String → String) (r : Registry) (ext : String) : Option Entry :=
  (ofKind r .tensorFormat).find? fun p =>
    p.tensorExts.any fun e => normExt lower trim e == normExt lower trim ext

/-- crates/hodu_plugin_runtime/src/registry.rs:175-196 `check_dependencies`: the list of missing
dependencies, empty for `Ok`. -/
def missingDeps (r : Registry) (name : String) : List String :=
  match find r name with
  | none => []
  | some p =>
    p.dependencies.filter fun d =>
      match find r d with
      | some q => !q.enabled
      | none => true

/-! ## Running plugins -/

/-- What happens when a plugin binary is to be started (process.rs:120-148): it is missing, the
process cannot be created, it is created but `initialize` fails (error, timeout, wrong protocol;
`lingers` says whether the process stays alive although its stdin is closed), or it works. -/
inductive Start where
  | noBinary
  | spawnFails
  | initFails (lingers : Bool)
  | works
  deriving DecidableEq

/-- hodu-cli/src/plugins/process.rs:16-29 `PluginManager`: the registry it loaded and the map
`processes` from names to running plugins (here process ids).  `alive` and `nextPid` are the
operating system: all the processes started by this manager that have not exited, with the name
of the plugin.  The process that failed to initialise is not killed: dropping a
`std::process::Child` leaves it running. -/
structure Manager where
  registry : Registry
  processes : List (String × Nat)
  alive : List (String × Nat)
  nextPid : Nat
  deriving DecidableEq

/-- hodu-cli/src/plugins/process.rs:40-51 `new`, with a registry read from the file -/
def Manager.new (r : Registry) : Manager := ⟨r, [], [], 0⟩

/-- Errors of `get_plugin` (process.rs:211-220). -/
inductive MErr where
  | notFound
  | disabled
  | startFailed (s : Start)
  deriving DecidableEq

/-- hodu-cli/src/plugins/process.rs:119-148 `spawn_plugin`: the id of the process if it works. -/
def Manager.spawn (m : Manager) (name : String) (s : Start) : Manager × Except MErr Nat :=
  match s with
  | .noBinary => (m, .error (.startFailed s))
  | .spawnFails => (m, .error (.startFailed s))
  | .initFails lingers =>
    ({ m with
       nextPid := m.nextPid + 1
       alive := if lingers then (name, m.nextPid) :: m.alive else m.alive },
      .error (.startFailed s))
  | .works =>
    ({ m with nextPid := m.nextPid + 1, alive := (name, m.nextPid) :: m.alive }, .ok m.nextPid)

/-- hodu-cli/src/plugins/process.rs:65-94 and backend.rs:62-91 `get_plugin`: the process whose
client is returned. -/
def Manager.get (m : Manager) (name : String) (s : Start) : Manager × Except MErr Nat :=
  match m.processes.lookup name with
  | some pid => (m, .ok pid)
  | none =>
    match find m.registry name with
    | none => (m, .error .notFound)
    | some e =>
      if e.enabled = false then (m, .error .disabled)
      else
        match m.spawn e.name s with
        | (m', .error x) => (m', .error x)
        | (m', .ok pid) => ({ m' with processes := (name, pid) :: m'.processes }, .ok pid)

/-- hodu-cli/src/plugins/process.rs:150-157 `shutdown_plugin`: the entry leaves the map and the
call waits until the process has exited. -/
def Manager.shutdown (m : Manager) (name : String) : Manager :=
  match m.processes.lookup name with
  | none => m
  | some pid =>
    { m with
      processes := m.processes.filter fun p => p.1 != name
      alive := m.alive.filter fun p => p.2 != pid }

/-- A process exits by itself (the manager does not notice). -/
def Manager.exits (m : Manager) (pid : Nat) : Manager :=
  { m with alive := m.alive.filter fun p => p.2 != pid }

end Hodu.Plugins
