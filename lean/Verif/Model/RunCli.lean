import Verif.Model.ReadBack
import Verif.Model.JsonFormat
import Verif.Model.DType
import Verif.Model.RunFiles

/-!
# The tensor files of `hodu run`

Models `hodu-cli/src/tensor/loader.rs`, `hodu-cli/src/tensor/saver.rs` and, from
`hodu-cli/src/commands/run.rs`, the parsing of the input arguments, the names of the temporary
files and the parsing of the device.

Paths are texts.  A file is either bytes (written by `hdt::save`) or a text, of which only the
result of `serde_json::from_str` is kept; reading one kind as the other is an error.  Conversion to
lower case is that of ASCII letters.
-/

namespace Hodu.Cli

open RunFiles (join)

/-- `TensorData`, crates/hodu_plugin/src/tensor.rs:151-158. -/
structure TensorData where
  data : List Nat
  shape : List Nat
  dtype : PluginDType
  deriving DecidableEq

/-- A file: bytes, or a text with what `serde_json::from_str` makes of it
(hodu-cli/src/tensor/loader.rs:59-60). -/
inductive File where
  | bytes (bs : List Nat)
  | text (parsed : Res Json.JVal)

/-- The files of the machine by path (`std::fs`). -/
abbrev Fs := List Char → Option File

/-- `Path::file_name` of a path that does not end in `/` (Rust std): what follows the last `/`. -/
def fileName (p : List Char) : List Char := (p.reverse.takeWhile (· ≠ '/')).reverse

/-- `Path::extension` (Rust std; loader.rs:12): what follows the last dot of the file name, unless
there is no dot, or nothing before it. -/
def extension (p : List Char) : Option (List Char) :=
  let f := (fileName p).reverse
  if f = ['.', '.'] then none
  else match f.dropWhile (· ≠ '.') with
    | [] => none
    | [_] => none
    | _ => some (f.takeWhile (· ≠ '.')).reverse

/-- `load_tensor_hdt`, loader.rs:21-52, on the content of the file. -/
def loadHdt (f : File) (shape : List Nat) (dt : PluginDType) : Res TensorData :=
  match f with
  | .text _ => .err
  | .bytes bs => (hdtDeserialize bs).bind fun x =>
    if x.2.dims ≠ shape then .err
    else if PluginDType.ofCore x.1 ≠ dt then .err
    else (x.2.toBytes x.1).bind fun data => .ok ⟨data, x.2.dims, PluginDType.ofCore x.1⟩

/-- `json_array_to_bytes`, loader.rs:133-165: `as_f64` or `as_i64`, the cast to the element type
(as in the library's own reader) and its little-endian bytes; four element types only. -/
def jsonBytes (arr : List Json.JVal) (dt : PluginDType) : Res (List Nat) :=
  let go (d : DType) : Res (List Nat) := match arr.mapM (Json.elemOfJson d) with
    | some vs => .ok (storageToBytes d vs)
    | none => .err
  match dt with
  | .f32 => go .f32
  | .f64 => go .f64
  | .i32 => go .i32
  | .i64 => go .i64
  | _ => .err

/-- `load_tensor_json`, loader.rs:54-106, on the content of the file. -/
def loadJson (f : File) (shape : List Nat) (dt : PluginDType) : Res TensorData :=
  match f with
  | .bytes _ => .err
  | .text parsed => parsed.bind fun j => match j with
    | .obj l =>
      match (Json.getArr l "shape").bind (·.mapM Json.asU64) with
      | none => .err
      | some dims =>
        if dims ≠ shape then .err
        else match (Json.getStr l "dtype").bind PluginDType.fromStr with
          | none => .err
          | some d =>
            if d ≠ dt then .err
            else match Json.getArr l "data" with
              | none => .err
              | some arr => (jsonBytes arr d).bind fun data => .ok ⟨data, dims, d⟩
    | _ => .err

/-- `load_tensor_file`, loader.rs:7-19. -/
def loadTensorFile (fs : Fs) (p : List Char) (shape : List Nat) (dt : PluginDType) :
    Res TensorData :=
  let ext := (extension p).getD []
  if ext = "hdt".toList then
    match fs p with
    | some f => loadHdt f shape dt
    | none => .err
  else if ext = "json".toList then
    match fs p with
    | some f => loadJson f shape dt
    | none => .err
  else .err

/-- A file written over the others (`std::fs::write`). -/
def Fs.set (fs : Fs) (p : List Char) (f : File) : Fs := fun q => if q = p then some f else fs q

/-- `format!("{}.{}", name, format.to_lowercase())` in the directory, saver.rs:18. -/
def outputPath (dir name format : List Char) : List Char :=
  join dir (name ++ '.' :: format.map Char.toLower)

/-- The file made of one output, saver.rs:20-29: `from_bytes`, then `hdt::save`
(crates/hodu_core/src/format/hdt.rs:20-27) or `json::save`
(crates/hodu_core/src/format/json.rs:21-25); `pr` prints floating-point numbers. -/
def outputFile (pr : Nat → Nat × Int) (d : TensorData) (format : List Char) : Res File :=
  (Tensor.fromBytes d.data d.shape d.dtype.toCore).bind fun t =>
    if format.map Char.toLower = "hdt".toList then
      (hdtSerialize d.dtype.toCore t).bind fun bs => .ok (.bytes bs)
    else if format.map Char.toLower = "json".toList then
      .ok (.text (Json.reparse pr (Json.tensorToJson d.dtype.toCore t)))
    else .err

/-- `save_outputs`, saver.rs:10-34, for the outputs in the order in which the hash map yields them;
`writable` is the operating system's answer to creating a file.  The files written before an error
stay. -/
def saveOutputs (pr : Nat → Nat × Int) (writable : List Char → Bool) (dir format : List Char) :
    List (List Char × TensorData) → Fs → Fs × Res Unit
  | [], fs => (fs, .ok ())
  | (name, d) :: rest, fs =>
    match outputFile pr d format with
    | .ok f =>
      if writable (outputPath dir name format) then
        saveOutputs pr writable dir format rest (fs.set (outputPath dir name format) f)
      else (fs, .err)
    | .err => (fs, .err)
    | .panic => (fs, .panic)
    | .ub => (fs, .ub)

/-- An input of the snapshot: `SnapshotInput`, crates/hodu_core/src/capture/snapshot.rs. -/
structure InputSpec where
  name : List Char
  shape : List Nat
  dtype : DType
  deriving DecidableEq

/-- `arg.splitn(2, '=')`, run.rs:281-284: `none` when there is no `=`. -/
def splitArg (arg : List Char) : Option (List Char × List Char) :=
  match arg.dropWhile (· ≠ '=') with
  | [] => none
  | _ :: path => some (arg.takeWhile (· ≠ '='), path)

/-- `expand_path`, run.rs:359-366; `home` is `dirs::home_dir()`. -/
def expandPath (home : Option (List Char)) (path : List Char) : List Char :=
  match path, home with
  | '~' :: '/' :: rest, some h => join h rest
  | _, _ => path

/-- One round of the first loop of `parse_inputs`, run.rs:280-303. -/
def parseArg (fs : Fs) (home : Option (List Char)) (specs : List InputSpec) (arg : List Char) :
    Res (List Char × TensorData) :=
  match splitArg arg with
  | none => .err
  | some (name, path) =>
    match fs (expandPath home path) with
    | none => .err
    | some _ =>
      match specs.find? (fun s => s.name = name) with
      | none => .err
      | some s => (loadTensorFile fs (expandPath home path) s.shape (PluginDType.ofCore s.dtype)).bind
          fun d => .ok (name, d)

/-- `HashMap::insert` on the map as a function. -/
def insert (m : List Char → Option TensorData) (x : List Char × TensorData) :
    List Char → Option TensorData := fun n => if n = x.1 then some x.2 else m n

/-- `parse_inputs`, run.rs:274-318. -/
def parseInputs (fs : Fs) (home : Option (List Char)) (specs : List InputSpec)
    (args : List (List Char)) : Res (List Char → Option TensorData) :=
  (Res.mapL (parseArg fs home specs) args).bind fun xs =>
    let m := xs.foldl insert (fun _ => none)
    if specs.all (fun s => (m s.name).isSome) then .ok m else .err

/-- The temporary file of an input, run.rs:171: `hodu_input_{name}_{pid}.hdt`; `pid` in decimal. -/
def tempPath (tmp name pid : List Char) : List Char :=
  join tmp ("hodu_input_".toList ++ name ++ '_' :: pid ++ ".hdt".toList)

/-- `save_tensor_data`, run.rs:541-553: the content of the temporary file. -/
def saveTensorData (d : TensorData) : Res File :=
  (Tensor.fromBytes d.data d.shape d.dtype.toCore).bind fun t =>
    (hdtSerialize d.dtype.toCore t).bind fun bs => .ok (.bytes bs)

/-- `load_tensor_data`, run.rs:490-498: what is read from a file of the backend. -/
def loadTensorData (f : File) : Res TensorData :=
  match f with
  | .text _ => .err
  | .bytes bs => (hdtDeserialize bs).bind fun x =>
    (x.2.toBytes x.1).bind fun data => .ok ⟨data, x.2.dims, PluginDType.ofCore x.1⟩

/-- `str::parse::<usize>` (Rust core; run.rs:381, 387, 399): an optional `+`, then at least one
digit, the value below `2 ^ 64`. -/
def isIndex (s : List Char) : Bool :=
  let ds := match s with
    | '+' :: ds => ds
    | _ => s
  !ds.isEmpty && ds.all Char.isDigit &&
    decide (ds.foldl (fun n c => n * 10 + (c.toNat - '0'.toNat)) 0 < 2 ^ 64)

/-- `str::strip_prefix` (Rust core). -/
def stripPrefix (p s : List Char) : Option (List Char) :=
  if p.isPrefixOf s then some (s.drop p.length) else none

/-- `parse_device`, run.rs:368-409. -/
def parseDevice (str : List Char) : Res (List Char) :=
  let device := str.map Char.toLower
  if device = "cpu".toList ∨ device = "metal".toList ∨ device = "vulkan".toList ∨
      device = "webgpu".toList then .ok device
  else if (stripPrefix "cuda".toList device).isSome then
    if device = "cuda".toList then .ok "cuda::0".toList
    else match stripPrefix "cuda::".toList device with
      | some idx => if isIndex idx then .ok device else .err
      | none => match stripPrefix "cuda:".toList device with
        | some idx => if isIndex idx then .ok ("cuda::".toList ++ idx) else .err
        | none => .err
  else if (stripPrefix "rocm".toList device).isSome then
    if device = "rocm".toList then .ok "rocm::0".toList
    else match stripPrefix "rocm::".toList device with
      | some idx => if isIndex idx then .ok device else .err
      | none => .err
  else .ok device

end Hodu.Cli
