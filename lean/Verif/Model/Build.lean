import Verif.Model.RunCli
import Verif.Model.PluginRegistry

/-!
# Model of `hodu build`

Transcription of hodu-cli/src/commands/build.rs: the choice of the backend, the snapshot, the target and the format, up to the request that
is sent to the backend.  Messages are not modelled, letters are those of ASCII, and paths are UTF-8.
-/

namespace Hodu.Build

open _root_.Hodu Hodu.Cli Hodu.Plugins

/-- `str::to_lowercase` on ASCII (build.rs:69, 90, 207, 232). -/
def low (s : String) : String := String.ofList (s.toList.map Char.toLower)

/-- `trim_start_matches('.')`, crates/hodu_plugin_runtime/src/registry.rs:209, 214. -/
def trimDots (s : String) : String := String.ofList (s.toList.dropWhile (· == '.'))

/-- `BuildArgs`, hodu-cli/src/commands/build.rs:19-62, without `verbose` and `timeout`. -/
structure Args where
  model : Option (List Char)
  output : Option (List Char)
  target : Option String
  device : String
  backend : Option String
  format : Option String
  optLevel : Nat
  standalone : Bool
  listTargets : Bool
  deriving DecidableEq

/-- What the command finds: the registry (build.rs:65-66) with the capability `builder` of its entries, which files exist (86), what plugins
answer to `load_model` (114-116; an error also if the process cannot be started), which paths hold a snapshot that loads (122), which
backends can be started (139), and the triple of the host (130). -/
structure Env where
  registry : Registry
  builder : Entry → Option Bool
  exist : List Char → Bool
  loadModel : String → List Char → Res (List Char)
  snapshot : List Char → Bool
  starts : String → Bool
  triple : String

/-- The parameters of `client.build`, build.rs:140-146, and the plugin they go to. -/
structure Request where
  backend : String
  snapshot : List Char
  triple : String
  device : String
  format : String
  output : List Char
  deriving DecidableEq

/-- What is asked of the backend: its targets (build.rs:158-168) or a build. -/
inductive Ask where
  | targets (backend : String)
  | build (r : Request)
  deriving DecidableEq

/-- `find_backend_by_name`, build.rs:170-199. -/
def findByName (e : Env) (name : String) : Res Entry :=
  match (find e.registry name).filter fun p => e.builder p == some true with
  | some p => .ok p
  | none =>
    match (find e.registry ("aot-" ++ name)).filter fun p => e.builder p == some true with
    | some p => .ok p
    | none => .err

/-- `find_builder_backend`, build.rs:201-228; `device` is in lower case already. -/
def findBuilder (e : Env) (device : String) : Res Entry :=
  match (ofKind e.registry .backend).find? fun p =>
      e.builder p == some true && p.devices.any fun d => low d == device with
  | some p => .ok p
  | none => .err

/-- `determine_format`, build.rs:230-251. -/
def determineFormat (arg : Option String) (output : List Char) : String :=
  match arg with
  | some f => low f
  | none =>
    let ext := String.ofList ((extension output).getD [])
    if ext = "" ∨ ext = "exe" ∨ ext = "bin" then "executable"
    else if ext = "so" ∨ ext = "dylib" ∨ ext = "dll" then "sharedlib"
    else if ext = "a" ∨ ext = "lib" then "staticlib"
    else if ext = "o" ∨ ext = "obj" then "object"
    else if ext = "metallib" then "metallib"
    else if ext = "ptx" then "ptx"
    else if ext = "cubin" then "cubin"
    else if ext = "ll" then "llvmir"
    else if ext = "bc" then "llvmbitcode"
    else if ext = "wgsl" then "wgsl"
    else if ext = "spv" then "spirv"
    else "sharedlib"

/-- `get_plugin` in a command that starts each plugin once (hodu-cli/src/plugins/process.rs:65-94): unknown and disabled plugins are errors. -/
def getPlugin (e : Env) (name : String) : Res Unit :=
  match find e.registry name with
  | none => .err
  | some p => if p.enabled && e.starts name then .ok () else .err

/-- The snapshot of the model, build.rs:90-119. -/
def snapshotOf (e : Env) (model : List Char) : Res (List Char) :=
  match extension model with
  | none => .err
  | some ext =>
    let ext := low (String.ofList ext)
    if ext = "hdss" then .ok model
    else match findByModelExt low trimDots e.registry ext with
      | none => .err
      | some p => (getPlugin e p.name).bind fun _ => e.loadModel p.name model

/-- `execute`, build.rs:64-156. -/
def build (e : Env) (a : Args) : Res Ask :=
  let device := low a.device
  (match a.backend with
    | some name => findByName e name
    | none => findBuilder e device).bind fun p =>
  if a.listTargets then (getPlugin e p.name).bind fun _ => .ok (.targets p.name)
  else match a.model, a.output with
    | some model, some output =>
      if e.exist model then
        (snapshotOf e model).bind fun snap =>
        if e.snapshot snap then
          (getPlugin e p.name).bind fun _ =>
            .ok (.build ⟨p.name, snap, a.target.getD e.triple, device, determineFormat a.format output, output⟩)
        else .err
      else .err
    | _, _ => .err

end Hodu.Build
