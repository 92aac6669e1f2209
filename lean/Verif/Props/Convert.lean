import Verif.Model.Convert
import Verif.Props.RunCli

/-!
# C135: `hodu convert`
-/

namespace Hodu.Cli

open _root_.Hodu _root_.Hodu.Spec RunFiles

/-! ## Specifications -/

/-- What a file means to a reader of a built-in tensor format. -/
def Spec.Reads (e : List Char) (f : File) (d : TensorData) : Prop :=
  (e = "hdt".toList ∧ loadTensorData f = .ok d) ∨ (e = "json".toList ∧ loadJsonData f = .ok d)

/-- What JSON can hold: finite elements that the printer of floats shows exactly and shortly. -/
def Spec.Showable (pr : Nat → Nat × Int) (d : TensorData) : Prop :=
  ∀ v ∈ bytesToStorage d.dtype.toCore d.data, Json.Spec.Finite d.dtype.toCore v ∧
    Json.Spec.Shown pr d.dtype.toCore v ∧ Json.Spec.Short pr d.dtype.toCore v

/-- A plugin that changes no file but the output. -/
def Spec.Frames (p : Format) : Prop :=
  ∀ fs src dst q, q ≠ dst → (p.save fs src dst).1 q = fs q

/-! ## JSON files -/

theorem json_file_back {pr : Nat → Nat × Int} {d : TensorData} (h : Spec.Valid d) (hf : Spec.Fits d)
    (hs : Spec.Showable pr d) : ∃ f, jsonFile pr d = .ok f ∧ loadJsonData f = .ok d := by
  obtain ⟨xs, hx, h2, h3, h4, h5⟩ := tensor_of h
  unfold Spec.Showable at hs
  rw [← hx] at hs
  have hflat : (⟨xs, Layout.fromShape d.shape⟩ : Tensor Nat).toFlattenVec = xs :=
    C14_flatten_partial (fresh_wf h2.symm) (fresh_values h2) (by
      by_cases hc : (⟨xs, Layout.fromShape d.shape⟩ : Tensor Nat).layout.isContiguous = true
      · exact Or.inl ⟨hc, h2⟩
      · exact Or.inr ⟨by simpa using hc, rfl⟩)
  obtain ⟨j, e1, e2⟩ := Json.tensor_back (pr := pr) (dt := d.dtype.toCore)
    (t := ⟨xs, Layout.fromShape d.shape⟩) (fresh_values h2) hflat hf.sizes
    (fun v hv => Json.elem_back (h3 v hv) (hs v hv).1 (hs v hv).2.1 (hs v hv).2.2)
  have hb := fresh_bytes h2 d.dtype.toCore
  rw [h4] at hb
  refine ⟨.text (.ok j), ?_, ?_⟩
  · simp only [jsonFile, h5, Res.ok_bind, e1]
  · simp only [loadJsonData, Res.ok_bind, e2]
    have : (Tensor.dims (⟨xs, Layout.fromShape d.shape⟩ : Tensor Nat)) = d.shape := rfl
    simp only [this, hb, Res.ok_bind, ofCore_toCore]

theorem tensor_ext {e : List Char} (h : e = "hdt".toList ∨ e = "json".toList) :
    isModelExt e = false := by
  rcases h with rfl | rfl <;> decide

theorem convert_tensor_eq {h : Host} {fs : Fs} {input output ei eo : List Char} {f : File}
    (hi : fs input = some f) (he : lowerExt input = some ei) (ho : lowerExt output = some eo)
    (h1 : isModelExt ei = false) (h2 : isModelExt eo = false) :
    convert h fs input output = convertTensor h fs input output ei eo := by
  simp [convert, hi, he, ho, h1, h2]

theorem convertLoad_eq {h : Host} {fs : Fs} {input ei : List Char} {f : File} {d : TensorData}
    (hi : fs input = some f) (hr : Spec.Reads ei f d) : convertLoad h fs input ei = (fs, .ok d) := by
  rcases hr with ⟨rfl, hr⟩ | ⟨rfl, hr⟩
  · simp [convertLoad, readFile, hi, hr]
  · have : ("json".toList : List Char) ≠ "hdt".toList := by decide
    simp only [convertLoad, if_neg this, if_true, readFile, hi, hr]

/-! ## C135 -/

/-- **C135, built-in formats (partial).**  Converting a tensor between `.hdt` and `.json`, in every combination, leaves an output file that
reads as the same tensor (type, shape and bytes) and changes no other file.  The output may be the input.  Missing: for JSON only finite
elements that the printer of floats shows, C135_json_false. -/
theorem C135_convert_partial {h : Host} {fs : Fs} {input output ei eo : List Char} {f : File}
    {d : TensorData} (hi : fs input = some f) (he : lowerExt input = some ei)
    (ho : lowerExt output = some eo) (hr : Spec.Reads ei f d)
    (heo : eo = "hdt".toList ∨ (eo = "json".toList ∧ Spec.Showable h.pr d))
    (hv : Spec.Valid d) (hf : Spec.Fits d) (hw : h.writable output = true) :
    ∃ fs' f', convert h fs input output = (fs', .ok ()) ∧ fs' output = some f' ∧
      Spec.Reads eo f' d ∧ ∀ q, q ≠ output → fs' q = fs q := by
  have hei : ei = "hdt".toList ∨ ei = "json".toList := hr.imp And.left And.left
  have key : ∃ f', convertSave h fs d output eo = (fs.set output f', .ok ()) ∧ Spec.Reads eo f' d := by
    rcases heo with rfl | ⟨rfl, hs⟩
    · obtain ⟨bs, h1, h2, -⟩ := hdt_back hv hf
      exact ⟨_, by simp [convertSave, writeFile, h1, hw], Or.inl ⟨rfl, h2⟩⟩
    · obtain ⟨f', h1, h2⟩ := json_file_back hv hf hs
      have : ("json".toList : List Char) ≠ "hdt".toList := by decide
      refine ⟨f', ?_, Or.inr ⟨rfl, h2⟩⟩
      simp only [convertSave, if_neg this, if_true, writeFile, h1, hw]
  obtain ⟨f', h1, h2⟩ := key
  refine ⟨fs.set output f', f', ?_, by simp [Fs.set], h2, fun q hq => by simp [Fs.set, hq]⟩
  rw [convert_tensor_eq hi he ho (tensor_ext hei) (tensor_ext (heo.imp_right And.left))]
  simp only [convertTensor, convertLoad_eq hi hr, h1]

/-- **C135, extensions.**  The format of a path is what is written after its last dot, in lower case, when something is before the dot. -/
theorem C135_case {pre name ext : List Char} (hn : name ≠ []) (hl : name.getLast? ≠ some '/') (he : ext ≠ [])
    (hc : ∀ c ∈ ext, c ≠ '/' ∧ c ≠ '.') :
    lowerExt (pre ++ (name ++ '.' :: ext)) = some (ext.map Char.toLower) := by
  unfold lowerExt
  rw [extension_of hn hl he hc]
  rfl

/-- C135 on `d/x.tar.Json`. -/
example : lowerExt ("d/".toList ++ ("x.tar".toList ++ '.' :: "Json".toList)) = some "json".toList :=
  C135_case (by decide) (by decide) (by decide) (by decide)

/-- **C135, what is read is a tensor.**  What the command reads of an `.hdt` file of bytes has as many bytes as its shape and type say, so the
hypothesis of C135_convert_partial holds by itself. -/
theorem C135_valid {bs : List Nat} {d : TensorData} (h : loadTensorData (.bytes bs) = .ok d)
    (hb : ∀ b ∈ bs, b < 256) : Spec.Valid d := by
  have h1 : loadHdt (.bytes bs) d.shape d.dtype = .ok d := by
    simp only [loadTensorData] at h
    obtain ⟨x, hx, h⟩ := Res.bind_eq_ok.mp h
    obtain ⟨data, hd, h⟩ := Res.bind_eq_ok.mp h
    obtain rfl := Res.ok.inj h
    simp [loadHdt, hx, hd, Res.ok_bind]
  have h2 : loadTensorFile (fun _ => some (.bytes bs)) "m.hdt".toList d.shape d.dtype = .ok d := by
    unfold loadTensorFile
    rw [show extension "m.hdt".toList = some "hdt".toList by decide]
    simp only [Option.getD_some, if_true, h1]
  exact (C118_load_sound h2).2.2.2 (by decide) (fun bs' e => by
    obtain rfl := File.bytes.inj (Option.some.inj e)
    exact hb)

/-- **C135, refusals.**  Without an input file, without extensions, or when an extension that is not built in has no plugin or one that
cannot do it, the command is an error and no file has changed. -/
theorem C135_refused (h : Host) (fs : Fs) (input output : List Char) :
    (fs input = none → convert h fs input output = (fs, .err)) ∧
    (lowerExt input = none → convert h fs input output = (fs, .err)) ∧
    (lowerExt output = none → convert h fs input output = (fs, .err)) ∧
    (∀ ei, lowerExt input = some ei → ei ≠ "hdt".toList → ei ≠ "json".toList → ei ≠ "hdss".toList →
      (∀ p, h.models ei = some p → p.loads = false) → (∀ p, h.tensors ei = some p → p.loads = false) →
      convert h fs input output = (fs, .err)) ∧
    (∀ ei eo f d, fs input = some f → lowerExt input = some ei → lowerExt output = some eo →
      Spec.Reads ei f d → eo ≠ "hdt".toList → eo ≠ "json".toList → isModelExt eo = false →
      (∀ p, h.tensors eo = some p → p.saves = false) → convert h fs input output = (fs, .err)) ∧
    (∀ eo, lowerExt input = some "hdss".toList → lowerExt output = some eo → eo ≠ "hdss".toList →
      (∀ p, h.models eo = some p → p.saves = false) → convert h fs input output = (fs, .err)) := by
  refine ⟨fun e => by simp [convert, e], fun e => ?_, fun e => ?_, ?_, ?_, ?_⟩
  · unfold convert
    rw [e]
    cases fs input <;> rfl
  · unfold convert
    rw [e]
    cases fs input <;> cases lowerExt input <;> rfl
  · intro ei he h1 h2 h3 hm ht
    unfold convert
    cases hi : fs input with
    | none => rfl
    | some f =>
      rw [he]
      cases ho : lowerExt output with
      | none => rfl
      | some eo =>
        simp only
        cases hb : isModelExt ei || isModelExt eo with
        | true =>
          simp only [if_true, convertModel, if_neg h3]
          cases hp : h.models ei with
          | none => rfl
          | some p => simp [hm p hp]
        | false =>
          simp only [Bool.false_eq_true, if_false, convertTensor, convertLoad, if_neg h1, if_neg h2]
          cases hp : h.tensors ei with
          | none => rfl
          | some p => simp [ht p hp]
  · intro ei eo f d hi he ho hr h1 h2 h3 ht
    rw [convert_tensor_eq hi he ho (tensor_ext (hr.imp And.left And.left)) h3]
    simp only [convertTensor, convertLoad_eq hi hr, convertSave, if_neg h1, if_neg h2]
    cases hp : h.tensors eo with
    | none => rfl
    | some p => simp [ht p hp]
  · intro eo he ho h1 hm
    unfold convert
    cases hi : fs input with
    | none => rfl
    | some f =>
      have : isModelExt "hdss".toList = true := by decide
      simp only [he, ho, this, Bool.true_or, if_true, convertModel, if_neg h1]
      cases hp : h.models eo with
      | none => rfl
      | some p => simp [hm p hp]

/-- **C135, snapshots (partial).**  Converting a snapshot to a snapshot at another path makes a copy and changes no other file.  Missing: at
the same path the snapshot is lost, C135_snapshot_false. -/
theorem C135_snapshot_partial {h : Host} {fs : Fs} {input output : List Char} {f : File}
    (hi : fs input = some f) (he : lowerExt input = some "hdss".toList)
    (ho : lowerExt output = some "hdss".toList) (hne : input ≠ output) (hw : h.writable output = true) :
    ∃ fs', convert h fs input output = (fs', .ok ()) ∧ fs' output = some f ∧
      ∀ q, q ≠ output → fs' q = fs q := by
  refine ⟨fs.set output f, ?_, by simp [Fs.set], fun q hq => by simp [Fs.set, hq]⟩
  have : isModelExt "hdss".toList = true := by decide
  simp only [convert, hi, he, ho, this, Bool.true_or, if_true, convertModel, copyFile, hw]
  simp [hne]

/-- **C135, refuted for a snapshot converted onto itself.**  The command reports success and the snapshot is empty. -/
theorem C135_snapshot_false {h : Host} {fs : Fs} {input : List Char} {f : File}
    (hi : fs input = some f) (he : lowerExt input = some "hdss".toList) (hw : h.writable input = true) :
    ∃ fs', convert h fs input input = (fs', .ok ()) ∧ fs' input = some (.bytes []) := by
  refine ⟨fs.set input (.bytes []), ?_, by simp [Fs.set]⟩
  have : isModelExt "hdss".toList = true := by decide
  simp only [convert, hi, he, this, Bool.true_or, if_true, convertModel, copyFile, hw]
  simp

/-- **C135, through a plugin.**  A plugin asked to save a tensor is given the path of a file that reads as that tensor.  If it succeeds and
changes nothing but the output, then afterwards the temporary file is gone, the output is what the plugin made, and every other file is as
before. -/
theorem C135_plugin {h : Host} {fs : Fs} {input output ei eo : List Char} {f : File} {d : TensorData}
    {p : Format} (hi : fs input = some f) (he : lowerExt input = some ei)
    (ho : lowerExt output = some eo) (hr : Spec.Reads ei f d) (h1 : eo ≠ "hdt".toList)
    (h2 : eo ≠ "json".toList) (h3 : isModelExt eo = false) (hp : h.tensors eo = some p)
    (hs : p.saves = true) (hv : Spec.Valid d) (hf : Spec.Fits d)
    (hw : h.writable (convertTemp h) = true) :
    ∃ g bs, g (convertTemp h) = some (.bytes bs) ∧ loadTensorData (.bytes bs) = .ok d ∧
      (∀ q, q ≠ convertTemp h → g q = fs q) ∧
      (convert h fs input output).2 = (p.save g (convertTemp h) output).2 ∧
      ((p.save g (convertTemp h) output).2 = .ok () → Spec.Frames p → output ≠ convertTemp h →
        (convert h fs input output).1 (convertTemp h) = none ∧
        (convert h fs input output).1 output = (p.save g (convertTemp h) output).1 output ∧
        ∀ q, q ≠ output → q ≠ convertTemp h → (convert h fs input output).1 q = fs q) ∧
      ((p.save g (convertTemp h) output).2 ≠ .ok () →
        (convert h fs input output).1 = (p.save g (convertTemp h) output).1) := by
  obtain ⟨bs, e1, e2, -⟩ := hdt_back hv hf
  have hc : convert h fs input output =
      (match (p.save (fs.set (convertTemp h) (.bytes bs)) (convertTemp h) output).2 with
        | .ok _ => ((p.save (fs.set (convertTemp h) (.bytes bs)) (convertTemp h) output).1.remove
            (convertTemp h), .ok ())
        | e => ((p.save (fs.set (convertTemp h) (.bytes bs)) (convertTemp h) output).1, e)) := by
    rw [convert_tensor_eq hi he ho (tensor_ext (hr.imp And.left And.left)) h3]
    simp only [convertTensor, convertLoad_eq hi hr, convertSave, if_neg h1, if_neg h2, hp, hs,
      writeFile, e1, hw]
    rfl
  refine ⟨fs.set (convertTemp h) (.bytes bs), bs, by simp [Fs.set], e2,
    fun q hq => by simp [Fs.set, hq], ?_, ?_, ?_⟩
  · rw [hc]
    cases hz : (p.save (fs.set (convertTemp h) (.bytes bs)) (convertTemp h) output).2 <;> rfl
  · intro hok hfr hne
    rw [hc, hok]
    refine ⟨by simp [Fs.remove], by simp [Fs.remove, hne], fun q hq hq' => ?_⟩
    simp only [Fs.remove, if_neg hq', hfr _ _ _ q hq, Fs.set]
  · intro hn
    rw [hc]
    cases hz : (p.save (fs.set (convertTemp h) (.bytes bs)) (convertTemp h) output).2 with
    | ok u => exact absurd hz hn
    | err => rfl
    | panic => rfl
    | ub => rfl

/-- **C135, refuted for a plugin that fails.**  The command is an error and the temporary file stays: for every tensor, every plugin that
saves and fails without changing a file. -/
theorem C135_temp_false {h : Host} {fs : Fs} {input output ei eo : List Char} {f : File}
    {d : TensorData} {p : Format} (hi : fs input = some f) (he : lowerExt input = some ei)
    (ho : lowerExt output = some eo) (hr : Spec.Reads ei f d) (h1 : eo ≠ "hdt".toList)
    (h2 : eo ≠ "json".toList) (h3 : isModelExt eo = false) (hp : h.tensors eo = some p)
    (hs : p.saves = true) (hv : Spec.Valid d) (hf : Spec.Fits d)
    (hw : h.writable (convertTemp h) = true) (hfail : ∀ g a b, p.save g a b = (g, .err)) :
    ∃ fs' bs, convert h fs input output = (fs', .err) ∧ fs' (convertTemp h) = some (.bytes bs) := by
  obtain ⟨g, bs, a1, -, -, a4, -, a6⟩ := C135_plugin hi he ho hr h1 h2 h3 hp hs hv hf hw
  rw [hfail] at a4 a6
  refine ⟨g, bs, ?_, a1⟩
  exact Prod.ext (a6 (by simp)) a4

/-- **C135, from a plugin.**  When a plugin loads the input and answers with a file that reads as a tensor, the output reads as that tensor,
and no other file has changed since the plugin ended. -/
theorem C135_from_plugin {h : Host} {fs g : Fs} {input output path ei eo : List Char} {f f0 : File}
    {d : TensorData} {p : Format} (hi : fs input = some f0) (he : lowerExt input = some ei)
    (ho : lowerExt output = some eo) (h1 : ei ≠ "hdt".toList) (h2 : ei ≠ "json".toList)
    (h3 : isModelExt ei = false) (hp : h.tensors ei = some p) (hl : p.loads = true)
    (hg : p.load fs input = (g, .ok path)) (hf0 : g path = some f) (hr : loadTensorData f = .ok d)
    (heo : eo = "hdt".toList ∨ (eo = "json".toList ∧ Spec.Showable h.pr d))
    (hv : Spec.Valid d) (hf : Spec.Fits d) (hw : h.writable output = true) :
    ∃ fs' f', convert h fs input output = (fs', .ok ()) ∧ fs' output = some f' ∧
      Spec.Reads eo f' d ∧ ∀ q, q ≠ output → fs' q = g q := by
  have hc : convert h fs input output = convertSave h g d output eo := by
    rw [convert_tensor_eq hi he ho h3 (tensor_ext (heo.imp_right And.left))]
    simp only [convertTensor, convertLoad, if_neg h1, if_neg h2, hp, hl, hg, Res.ok_bind, readFile,
      hf0, hr, Bool.not_true, Bool.false_eq_true, if_false]
  rcases heo with rfl | ⟨rfl, hs⟩
  · obtain ⟨bs, e1, e2, -⟩ := hdt_back hv hf
    refine ⟨g.set output (.bytes bs), .bytes bs, ?_, by simp [Fs.set], Or.inl ⟨rfl, e2⟩,
      fun q hq => by simp [Fs.set, hq]⟩
    rw [hc]
    simp [convertSave, writeFile, e1, hw]
  · obtain ⟨f', e1, e2⟩ := json_file_back hv hf hs
    have : ("json".toList : List Char) ≠ "hdt".toList := by decide
    refine ⟨g.set output f', f', ?_, by simp [Fs.set], Or.inr ⟨rfl, e2⟩,
      fun q hq => by simp [Fs.set, hq]⟩
    rw [hc]
    simp only [convertSave, if_neg this, if_true, writeFile, e1, hw]

/-- **C135, unwritable paths.**  When the output, or for a plugin the temporary file, cannot be created, the command is an error and no file
has changed; the plugin is not run. -/
theorem C135_unwritable {h : Host} {fs : Fs} {input output ei eo : List Char} {f : File}
    (hi : fs input = some f) (he : lowerExt input = some ei) (ho : lowerExt output = some eo) :
    (∀ d, Spec.Reads ei f d → Spec.Valid d → Spec.Fits d →
      (eo = "hdt".toList ∨ (eo = "json".toList ∧ Spec.Showable h.pr d)) →
      h.writable output = false → convert h fs input output = (fs, .err)) ∧
    (∀ d p, Spec.Reads ei f d → Spec.Valid d → Spec.Fits d → eo ≠ "hdt".toList →
      eo ≠ "json".toList → isModelExt eo = false → h.tensors eo = some p →
      h.writable (convertTemp h) = false → convert h fs input output = (fs, .err)) ∧
    (ei = "hdss".toList → eo = "hdss".toList → h.writable output = false →
      convert h fs input output = (fs, .err)) := by
  refine ⟨fun d hr hv hf heo hw => ?_, fun d p hr hv hf h1 h2 h3 hp hw => ?_, fun e1 e2 hw => ?_⟩
  · rw [convert_tensor_eq hi he ho (tensor_ext (hr.imp And.left And.left))
      (tensor_ext (heo.imp_right And.left))]
    simp only [convertTensor, convertLoad_eq hi hr]
    rcases heo with rfl | ⟨rfl, hs⟩
    · obtain ⟨bs, h1, -, -⟩ := hdt_back hv hf
      simp [convertSave, writeFile, h1, hw]
    · obtain ⟨f', h1, -⟩ := json_file_back hv hf hs
      have : ("json".toList : List Char) ≠ "hdt".toList := by decide
      simp only [convertSave, if_neg this, if_true, writeFile, h1, hw, Bool.false_eq_true, if_false]
  · rw [convert_tensor_eq hi he ho (tensor_ext (hr.imp And.left And.left)) h3]
    obtain ⟨bs, e1, -, -⟩ := hdt_back hv hf
    simp only [convertTensor, convertLoad_eq hi hr, convertSave, if_neg h1, if_neg h2, hp, writeFile,
      e1, hw]
    cases p.saves <;> rfl
  · subst e1 e2
    have : isModelExt "hdss".toList = true := by decide
    simp only [convert, hi, he, ho, this, Bool.true_or, if_true, convertModel, copyFile, hw]
    rfl

/-- **C135, a tensor is no model.**  A tensor file of a built-in format is not converted to a model format
unless a plugin loads models under the extension `hdt` or `json`: the command is an error and nothing has changed. -/
theorem C135_mixed {h : Host} {fs : Fs} {input output ei eo : List Char}
    (he : lowerExt input = some ei) (ho : lowerExt output = some eo)
    (ht : ei = "hdt".toList ∨ ei = "json".toList) (hm : isModelExt eo = true)
    (hn : h.models ei = none) : convert h fs input output = (fs, .err) := by
  unfold convert
  cases hi : fs input with
  | none => rfl
  | some f =>
    have hne : ei ≠ "hdss".toList := by rcases ht with rfl | rfl <;> decide
    simp only [he, ho, hm, Bool.or_true, if_true, convertModel, if_neg hne, hn]

/-! ## Concrete cases -/

/-- A machine without plugins. -/
def exHost : Host :=
  ⟨fun _ => none, fun _ => none, "/tmp".toList, "42".toList, fun _ => true, Json.exPr⟩

/-- The tensor `[0.1, -2.5]`. -/
def exData : TensorData := ⟨[0xCD, 0xCC, 0xCC, 0x3D, 0, 0, 0x20, 0xC0], [2], .f32⟩

/-- Its file. -/
def exFs : Fs := fun p => if p = "d/x.HDT".toList then some (.bytes (encodeTensorData [2] .f32 exData.data)) else none

theorem ex_valid : Spec.Valid exData := ⟨by decide, by decide, by decide⟩

theorem ex_fits : Spec.Fits exData := ⟨by decide, by decide, by decide⟩

theorem ex_reads : Spec.Reads "hdt".toList (.bytes (encodeTensorData [2] .f32 exData.data)) exData :=
  Or.inl ⟨rfl, by decide +kernel⟩

theorem ex_show : Spec.Showable Json.exPr exData := by
  intro v hv
  rw [show bytesToStorage exData.dtype.toCore exData.data = [0x3DCCCCCD, 0xC0200000] by
    decide +kernel] at hv
  simp only [List.mem_cons, List.not_mem_nil, or_false] at hv
  rcases hv with rfl | rfl <;>
    exact ⟨fun _ => by decide +kernel,
      fun _ => by unfold Json.Spec.Printed; decide +kernel, fun h => absurd h (by decide)⟩

/-- A plugin that copies, and one that fails. -/
def exFormat (ok : Bool) : Format :=
  ⟨false, true, fun fs _ => (fs, .err), fun fs a b =>
    if ok then (match fs a with | some f => (fs.set b f, .ok ()) | none => (fs, .err)) else (fs, .err)⟩

/-- The machine with one of them for every extension. -/
def exHost2 (ok : Bool) : Host :=
  ⟨fun _ => none, fun _ => some (exFormat ok), "/tmp".toList, "42".toList, fun _ => true, Json.exPr⟩

/-- C135 on `[0.1, -2.5]`: from an upper-case `.HDT` to `.json`. -/
example : ∃ fs' f', convert exHost exFs "d/x.HDT".toList "d/y.json".toList = (fs', .ok ()) ∧
    fs' "d/y.json".toList = some f' ∧ Spec.Reads "json".toList f' exData ∧
    ∀ q, q ≠ "d/y.json".toList → fs' q = exFs q :=
  C135_convert_partial (f := .bytes (encodeTensorData [2] .f32 exData.data)) (by simp [exFs])
    (ei := "hdt".toList) (by decide) (by decide) ex_reads
    (Or.inr ⟨rfl, ex_show⟩) ex_valid ex_fits rfl

/-- C135 onto itself, which for a tensor is harmless. -/
example : ∃ fs' f', convert exHost exFs "d/x.HDT".toList "d/x.HDT".toList = (fs', .ok ()) ∧
    fs' "d/x.HDT".toList = some f' ∧ Spec.Reads "hdt".toList f' exData ∧
    ∀ q, q ≠ "d/x.HDT".toList → fs' q = exFs q :=
  C135_convert_partial (f := .bytes (encodeTensorData [2] .f32 exData.data)) (by simp [exFs])
    (ei := "hdt".toList) (by decide) (by decide) ex_reads (Or.inl rfl) ex_valid ex_fits rfl

/-- C135 on the file of two booleans stored as 7 and 0. -/
example : Spec.Valid ⟨[1, 0], [2], .bool⟩ :=
  C135_valid (bs := encodeTensorData [2] .bool [7, 0]) (by decide +kernel) (by decide +kernel)

/-- C135 without a plugin for `.npy`. -/
example : convert exHost exFs "d/x.HDT".toList "d/y.npy".toList = (exFs, .err) :=
  (C135_refused exHost exFs "d/x.HDT".toList "d/y.npy".toList).2.2.2.2.1 "hdt".toList "npy".toList
    (.bytes (encodeTensorData [2] .f32 exData.data)) exData (by simp [exFs]) (by decide) (by decide)
    ex_reads (by decide) (by decide) (by decide) (fun p hp => by cases hp)

/-- C135 on a snapshot of three bytes, copied and then lost. -/
example : (∃ fs', convert exHost (fun p => if p = "m.hdss".toList then some (.bytes [1, 2, 3]) else none)
      "m.hdss".toList "n.hdss".toList = (fs', .ok ()) ∧ fs' "n.hdss".toList = some (.bytes [1, 2, 3]) ∧
      ∀ q, q ≠ "n.hdss".toList →
        fs' q = (fun p => if p = "m.hdss".toList then some (.bytes [1, 2, 3]) else none) q) ∧
    ∃ fs', convert exHost (fun p => if p = "m.hdss".toList then some (.bytes [1, 2, 3]) else none)
      "m.hdss".toList "m.hdss".toList = (fs', .ok ()) ∧ fs' "m.hdss".toList = some (.bytes []) :=
  ⟨C135_snapshot_partial (by simp) (by decide) (by decide) (by decide) rfl,
    C135_snapshot_false (f := .bytes [1, 2, 3]) (by simp) (by decide) rfl⟩

/-- C135 through a plugin for `.npy` that copies: its output is there and the temporary file is not. -/
example : (convert (exHost2 true) exFs "d/x.HDT".toList
      "y.npy".toList).1 "/tmp/hodu_convert_42.hdt".toList = none := by
  obtain ⟨g, bs, a1, -, -, -, a5, -⟩ := C135_plugin (fs := exFs)
    (h := (exHost2 true)) (input := "d/x.HDT".toList)
    (output := "y.npy".toList) (ei := "hdt".toList) (eo := "npy".toList) (f := .bytes (encodeTensorData [2] .f32 exData.data)) (by simp [exFs])
    (by decide) (by decide) ex_reads (by decide) (by decide) (by decide) rfl rfl ex_valid ex_fits rfl
  exact (a5 (by simp only [exFormat, if_true, a1]) (fun fs src dst q hq => by
    simp only [exFormat, if_true]
    cases fs src <;> simp [Fs.set, hq]) (by decide)).1

/-- C135 through a plugin for `.npy` that fails. -/
example : ∃ fs' bs, convert (exHost2 false) exFs
    "d/x.HDT".toList "y.npy".toList = (fs', .err) ∧
    fs' "/tmp/hodu_convert_42.hdt".toList = some (.bytes bs) :=
  C135_temp_false (h := exHost2 false) (ei := "hdt".toList) (eo := "npy".toList)
    (f := .bytes (encodeTensorData [2] .f32 exData.data)) (by simp [exFs])
    (by decide) (by decide) ex_reads (by decide) (by decide) (by decide) rfl rfl ex_valid ex_fits rfl
    (fun g a b => by simp [exFormat])

/-- C135 from a plugin for `.npy` that makes `/tmp/t.hdt`. -/
example : ∃ fs' f', convert (Host.mk (fun _ => none) (fun _ => some ⟨true, false, fun fs _ =>
      (fs.set "/tmp/t.hdt".toList (.bytes (encodeTensorData [2] .f32 exData.data)), .ok "/tmp/t.hdt".toList),
      fun fs _ _ => (fs, .err)⟩) "/tmp".toList "42".toList (fun _ => true) Json.exPr)
      (fun _ => some (.bytes [147])) "x.npy".toList "y.json".toList = (fs', .ok ()) ∧
    fs' "y.json".toList = some f' ∧ Spec.Reads "json".toList f' exData := by
  obtain ⟨fs', f', a1, a2, a3, -⟩ := C135_from_plugin (h := Host.mk (fun _ => none) (fun _ => some ⟨true, false, fun fs _ =>
      (fs.set "/tmp/t.hdt".toList (.bytes (encodeTensorData [2] .f32 exData.data)), .ok "/tmp/t.hdt".toList),
      fun fs _ _ => (fs, .err)⟩) "/tmp".toList "42".toList (fun _ => true) Json.exPr)
    (fs := fun _ => some (.bytes [147])) (input := "x.npy".toList) (output := "y.json".toList) rfl
    (ei := "npy".toList) (eo := "json".toList) (by decide) (by decide) (by decide) (by decide) (by decide) rfl rfl rfl
    (by simp [Fs.set]; rfl) (by decide +kernel) (Or.inr ⟨rfl, ex_show⟩) ex_valid ex_fits rfl
  exact ⟨fs', f', a1, a2, a3⟩

/-- C135 to a directory without permission. -/
example : convert { exHost with writable := fun _ => false } exFs "d/x.HDT".toList "d/y.json".toList =
    (exFs, .err) :=
  (C135_unwritable (h := { exHost with writable := fun _ => false })
    (f := .bytes (encodeTensorData [2] .f32 exData.data)) (by simp [exFs]) (ei := "hdt".toList)
    (eo := "json".toList) (by decide) (by decide)).1 exData ex_reads ex_valid ex_fits
    (Or.inr ⟨rfl, ex_show⟩) rfl

/-- C135 from a tensor to ONNX. -/
example : convert exHost exFs "d/x.HDT".toList "m.onnx".toList = (exFs, .err) :=
  C135_mixed (ei := "hdt".toList) (eo := "onnx".toList) (by decide) (by decide) (Or.inl rfl) (by decide) rfl

/-- **C135, refuted for elements JSON cannot hold.**  A tensor whose one element is NaN is converted to `.json` with success, and the file
made cannot be read. -/
theorem C135_json_false : ∃ (fs : Fs) (fs' : Fs) (f : File),
    convert exHost fs "x.hdt".toList "y.json".toList = (fs', .ok ()) ∧
    fs "x.hdt".toList = some (.bytes (encodeTensorData [1] .f32 [0, 0, 192, 127])) ∧
    loadTensorData (.bytes (encodeTensorData [1] .f32 [0, 0, 192, 127])) =
      .ok ⟨[0, 0, 192, 127], [1], .f32⟩ ∧
    fs' "y.json".toList = some f ∧ loadJsonData f = .err := by
  have h1 : loadTensorData (.bytes (encodeTensorData [1] .f32 [0, 0, 192, 127])) =
      .ok ⟨[0, 0, 192, 127], [1], .f32⟩ := by decide +kernel
  obtain ⟨f, hf, hl⟩ : ∃ f, jsonFile Json.exPr ⟨[0, 0, 192, 127], [1], .f32⟩ = .ok f ∧
      loadJsonData f = .err := ⟨_, rfl, by decide +kernel⟩
  refine ⟨fun p => if p = "x.hdt".toList then
      some (.bytes (encodeTensorData [1] .f32 [0, 0, 192, 127])) else none,
    Fs.set (fun p => if p = "x.hdt".toList then
      some (.bytes (encodeTensorData [1] .f32 [0, 0, 192, 127])) else none) "y.json".toList f, f, ?_,
    by simp, h1, by simp [Fs.set], hl⟩
  rw [convert_tensor_eq (f := .bytes (encodeTensorData [1] .f32 [0, 0, 192, 127])) (by simp)
    (ei := "hdt".toList) (eo := "json".toList) (by decide) (by decide) (by decide) (by decide)]
  have hn : ("json".toList : List Char) ≠ "hdt".toList := by decide
  simp only [convertTensor]
  rw [convertLoad_eq (f := .bytes (encodeTensorData [1] .f32 [0, 0, 192, 127])) (by simp)
    (Or.inl ⟨rfl, h1⟩)]
  simp only [convertSave, if_neg hn, if_true, writeFile]
  rw [show exHost.pr = Json.exPr from rfl, hf]
  rfl

end Hodu.Cli
