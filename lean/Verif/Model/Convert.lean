import Verif.Model.RunCli

/-!
# Model of `hodu convert`

Transcription of hodu-cli/src/commands/convert.rs on the files of C118.  A format plugin is what its process does to the files of the machine;
starting it (`get_plugin`) is a part of that.  Messages are not modelled, and paths are UTF-8.
-/

namespace Hodu.Cli

open _root_.Hodu RunFiles

/-- A plugin found by `find_model_format_by_extension` or `find_tensor_format_by_extension`, convert.rs:91-93, 110-112, 154-156, 182-184: its
capabilities (95, 114, 158, 186), what a load does and answers (99-101, 162-164), and what a save does (118-119, 194-195). -/
structure Format where
  loads : Bool
  saves : Bool
  load : Fs → List Char → Fs × Res (List Char)
  save : Fs → List Char → List Char → Fs × Res Unit

/-- What the command finds: the registry (convert.rs:47-48), the temporary directory and the process id in decimal (191), the answer of the
operating system to creating a file, and the printer of floats. -/
structure Host where
  models : List Char → Option Format
  tensors : List Char → Option Format
  tmp : List Char
  pid : List Char
  writable : List Char → Bool
  pr : Nat → Nat × Int

/-- `.extension().and_then(to_str).map(to_lowercase)`, convert.rs:33-45 (ASCII). -/
def lowerExt (p : List Char) : Option (List Char) := (extension p).map (·.map Char.toLower)

/-- `is_model_format`, convert.rs:74-76. -/
def isModelExt (e : List Char) : Bool :=
  [("hdss".toList), "onnx".toList, "pb".toList, "tflite".toList, "mlmodel".toList].contains e

/-- `hdt::save` and `json::save`: the file is created after its content is made (crates/hodu_core/src/format/hdt.rs:20-27,
format/json.rs:21-25). -/
def writeFile (h : Host) (fs : Fs) (p : List Char) (f : Res File) : Fs × Res Unit :=
  match f with
  | .ok f => if h.writable p then (fs.set p f, .ok ()) else (fs, .err)
  | .err => (fs, .err)
  | .panic => (fs, .panic)
  | .ub => (fs, .ub)

/-- `std::fs::copy` (convert.rs:107): the source is opened, then the target is created or truncated, then the bytes are copied. -/
def copyFile (h : Host) (fs : Fs) (src dst : List Char) : Fs × Res Unit :=
  match fs src with
  | none => (fs, .err)
  | some f =>
    if !h.writable dst then (fs, .err)
    else if src = dst then (fs.set dst (.bytes []), .ok ())
    else (fs.set dst f, .ok ())

/-- `convert_model`, convert.rs:78-128. -/
def convertModel (h : Host) (fs : Fs) (input output ei eo : List Char) : Fs × Res Unit :=
  let step1 : Fs × Res (List Char) :=
    if ei = "hdss".toList then (fs, .ok input)
    else match h.models ei with
      | none => (fs, .err)
      | some p => if !p.loads then (fs, .err) else p.load fs input
  match step1.2 with
  | .ok snap =>
    if eo = "hdss".toList then copyFile h step1.1 snap output
    else match h.models eo with
      | none => (step1.1, .err)
      | some p => if !p.saves then (step1.1, .err) else p.save step1.1 snap output
  | .err => (step1.1, .err)
  | .panic => (step1.1, .panic)
  | .ub => (step1.1, .ub)

/-- The arm for JSON, convert.rs:145-151: `json::load` and `to_bytes`. -/
def loadJsonData (f : File) : Res TensorData :=
  match f with
  | .bytes _ => .err
  | .text parsed => (parsed.bind Json.jsonToTensor).bind fun x =>
    (x.2.toBytes x.1).bind fun data => .ok ⟨data, x.2.dims, PluginDType.ofCore x.1⟩

/-- The arm for JSON, convert.rs:173-179: the text made of a tensor. -/
def jsonFile (pr : Nat → Nat × Int) (d : TensorData) : Res File :=
  (Tensor.fromBytes d.data d.shape d.dtype.toCore).bind fun t =>
    .ok (.text (Json.reparse pr (Json.tensorToJson d.dtype.toCore t)))

/-- The content of a file, an error when there is none (`hdt::load` and `json::load`, convert.rs:146, 210). -/
def readFile (fs : Fs) (p : List Char) (k : File → Res TensorData) : Res TensorData :=
  match fs p with
  | some f => k f
  | none => .err

/-- The temporary file, convert.rs:191: `hodu_convert_{pid}.hdt`. -/
def convertTemp (h : Host) : List Char := join h.tmp ("hodu_convert_".toList ++ h.pid ++ ".hdt".toList)

/-- `std::fs::remove_file`, convert.rs:197. -/
def Fs.remove (fs : Fs) (p : List Char) : Fs := fun q => if q = p then none else fs q

/-- The first step of `convert_tensor`, convert.rs:143-166. -/
def convertLoad (h : Host) (fs : Fs) (input ei : List Char) : Fs × Res TensorData :=
  if ei = "hdt".toList then (fs, readFile fs input loadTensorData)
  else if ei = "json".toList then (fs, readFile fs input loadJsonData)
  else match h.tensors ei with
    | none => (fs, .err)
    | some p =>
      if !p.loads then (fs, .err)
      else
        let r := p.load fs input
        (r.1, r.2.bind fun path => readFile r.1 path loadTensorData)

/-- The second step of `convert_tensor`, convert.rs:169-199: an error of the plugin (195) returns before the temporary file is removed (197). -/
def convertSave (h : Host) (fs : Fs) (d : TensorData) (output eo : List Char) : Fs × Res Unit :=
  if eo = "hdt".toList then writeFile h fs output (saveTensorData d)
  else if eo = "json".toList then writeFile h fs output (jsonFile h.pr d)
  else match h.tensors eo with
    | none => (fs, .err)
    | some p =>
      if !p.saves then (fs, .err)
      else
        let w := writeFile h fs (convertTemp h) (saveTensorData d)
        match w.2 with
        | .ok _ =>
          let r := p.save w.1 (convertTemp h) output
          match r.2 with
          | .ok _ => (r.1.remove (convertTemp h), .ok ())
          | e => (r.1, e)
        | e => (w.1, e)

/-- `convert_tensor`, convert.rs:130-207. -/
def convertTensor (h : Host) (fs : Fs) (input output ei eo : List Char) : Fs × Res Unit :=
  let l := convertLoad h fs input ei
  match l.2 with
  | .ok d => convertSave h l.1 d output eo
  | .err => (l.1, .err)
  | .panic => (l.1, .panic)
  | .ub => (l.1, .ub)

/-- `execute`, convert.rs:28-72. -/
def convert (h : Host) (fs : Fs) (input output : List Char) : Fs × Res Unit :=
  match fs input, lowerExt input, lowerExt output with
  | some _, some ei, some eo =>
    if isModelExt ei || isModelExt eo then convertModel h fs input output ei eo
    else convertTensor h fs input output ei eo
  | _, _, _ => (fs, .err)

end Hodu.Cli
