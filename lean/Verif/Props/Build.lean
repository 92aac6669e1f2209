import Verif.Model.Build
import Verif.Props.PluginRegistry

/-!
# C136: `hodu build`
-/

namespace Hodu.Build

open _root_.Hodu Hodu.Cli Hodu.Plugins

/-! ## Specifications -/

/-- A plugin that builds. -/
def Spec.Builds (e : Env) (p : Entry) : Prop := p ∈ e.registry ∧ e.builder p = some true

/-- The formats of file names, a table independent of the code. -/
def Spec.formats : List (String × String) :=
  [("exe", "executable"), ("bin", "executable"), ("so", "sharedlib"), ("dylib", "sharedlib"), ("dll", "sharedlib"),
    ("a", "staticlib"), ("lib", "staticlib"), ("o", "object"), ("obj", "object"), ("metallib", "metallib"),
    ("ptx", "ptx"), ("cubin", "cubin"), ("ll", "llvmir"), ("bc", "llvmbitcode"), ("wgsl", "wgsl"), ("spv", "spirv")]

/-! ## Lookups -/

theorem find_filter {r : Registry} (hnd : (r.map (·.name)).Nodup) {name : String} {b : Entry → Bool} {p : Entry} :
    (find r name).filter b = some p ↔ p ∈ r ∧ p.name = name ∧ b p = true := by
  rw [Option.filter_eq_some_iff]
  constructor
  · rintro ⟨h1, h2⟩
    exact ⟨List.mem_of_find?_eq_some h1, find_name h1, h2⟩
  · rintro ⟨h1, h2, h3⟩
    refine ⟨?_, h3⟩
    cases hf : find r name with
    | none =>
      have := List.find?_eq_none.mp hf p h1
      simp [h2] at this
    | some q =>
      have hq := List.mem_of_find?_eq_some hf
      exact congrArg some (List.inj_on_of_nodup_map hnd hq h1 ((find_name hf).trans h2.symm))

theorem getPlugin_ok {e : Env} {name : String} :
    getPlugin e name = .ok () ↔ (∃ p, find e.registry name = some p ∧ p.enabled = true) ∧ e.starts name = true := by
  unfold getPlugin
  cases find e.registry name with
  | none => simp
  | some p => cases h1 : p.enabled <;> cases h2 : e.starts name <;> simp [h1]

/-! ## C136 -/

/-- **C136, the backend by name.**  With `--backend name` the chosen plugin builds and is called `name`, or else `aot-name` if no plugin
called `name` builds; there is an error exactly when there is neither. -/
theorem C136_named {e : Env} (hnd : (e.registry.map (·.name)).Nodup) (name : String) :
    (∀ p, findByName e name = .ok p ↔ Spec.Builds e p ∧
      (p.name = name ∨ (p.name = "aot-" ++ name ∧ ∀ q, Spec.Builds e q → q.name ≠ name))) ∧
    (findByName e name = .err ↔ ∀ p, Spec.Builds e p → p.name ≠ name ∧ p.name ≠ "aot-" ++ name) := by
  have h1 (p : Entry) (n : String) :
      ((find e.registry n).filter fun p => e.builder p == some true) = some p ↔ Spec.Builds e p ∧ p.name = n := by
    rw [find_filter hnd]
    simp only [Spec.Builds, beq_iff_eq]
    tauto
  have hinj (p q : Entry) (hp : Spec.Builds e p) (hq : Spec.Builds e q) (h : p.name = q.name) : p = q :=
    List.inj_on_of_nodup_map hnd hp.1 hq.1 h
  unfold findByName
  cases ha : (find e.registry name).filter fun p => e.builder p == some true with
  | some a =>
    have ⟨b1, b2⟩ := (h1 a name).mp ha
    refine ⟨fun p => ⟨fun h => ?_, fun ⟨h, h'⟩ => ?_⟩, ⟨fun h => (by cases h), fun h => absurd b2 (h a b1).1⟩⟩
    · obtain rfl := Res.ok.inj h
      exact ⟨b1, Or.inl b2⟩
    · rcases h' with h' | ⟨-, h'⟩
      · rw [hinj a p b1 h (b2.trans h'.symm)]
      · exact absurd b2 (h' a b1)
  | none =>
    have hno : ∀ q, Spec.Builds e q → q.name ≠ name := fun q hq hn => by
      have := (h1 q name).mpr ⟨hq, hn⟩
      rw [ha] at this
      cases this
    cases hb : (find e.registry ("aot-" ++ name)).filter fun p => e.builder p == some true with
    | some a =>
      have ⟨b1, b2⟩ := (h1 a _).mp hb
      refine ⟨fun p => ⟨fun h => ?_, fun ⟨h, h'⟩ => ?_⟩, ⟨fun h => (by cases h), fun h => absurd b2 (h a b1).2⟩⟩
      · obtain rfl := Res.ok.inj h
        exact ⟨b1, Or.inr ⟨b2, hno⟩⟩
      · rcases h' with h' | ⟨h', -⟩
        · exact absurd h' (hno p h)
        · rw [hinj a p b1 h (b2.trans h'.symm)]
    | none =>
      have hno2 : ∀ q, Spec.Builds e q → q.name ≠ "aot-" ++ name := fun q hq hn => by
        have := (h1 q _).mpr ⟨hq, hn⟩
        rw [hb] at this
        cases this
      refine ⟨fun p => ⟨fun h => (by cases h), fun ⟨h, h'⟩ => ?_⟩, ⟨fun _ p hp => ⟨hno p hp, hno2 p hp⟩, fun _ => rfl⟩⟩
      rcases h' with h' | ⟨h', -⟩
      · exact absurd h' (hno p h)
      · exact absurd h' (hno2 p h)

/-- **C136, the backend by device.**  Without `--backend` the chosen plugin is an enabled backend that builds and lists the device in any
case, the first such one of the registry; there is an error exactly when there is none. -/
theorem C136_device (e : Env) (device : String) :
    (∀ p, findBuilder e device = .ok p ↔ ∃ before after, e.registry = before ++ p :: after ∧
      (p.kind = .backend ∧ p.enabled = true ∧ e.builder p = some true ∧ ∃ d ∈ p.devices, low d = device) ∧
      ∀ q ∈ before, ¬ (q.kind = .backend ∧ q.enabled = true ∧ e.builder q = some true ∧ ∃ d ∈ q.devices, low d = device)) ∧
    (findBuilder e device = .err ↔ ∀ p ∈ e.registry,
      ¬ (p.kind = .backend ∧ p.enabled = true ∧ e.builder p = some true ∧ ∃ d ∈ p.devices, low d = device)) := by
  have hb (p : Entry) : ((p.kind == .backend && p.enabled) && (e.builder p == some true &&
      p.devices.any fun d => low d == device)) = true ↔
      (p.kind = .backend ∧ p.enabled = true ∧ e.builder p = some true ∧ ∃ d ∈ p.devices, low d = device) := by
    simp only [Bool.and_eq_true, beq_iff_eq, List.any_eq_true]
    tauto
  unfold findBuilder ofKind
  rw [show ∀ (f g : Entry → Bool) (l : List Entry), (l.filter f).find? g = l.find? fun a => f a && g a from
    fun f g l => by rw [List.find?_filter]; congr 1; funext a; simp]
  cases hf : e.registry.find? fun a => (a.kind == .backend && a.enabled) && (e.builder a == some true &&
      a.devices.any fun d => low d == device) with
  | none =>
    have hn := List.find?_eq_none.mp hf
    refine ⟨fun p => ⟨fun h => (by cases h), ?_⟩, ⟨fun _ p hp h => hn p hp ((hb p).mpr h), fun _ => rfl⟩⟩
    rintro ⟨b, a, h1, h2, -⟩
    exact absurd ((hb p).mpr h2) (hn p (by rw [h1]; simp))
  | some p =>
    obtain ⟨h1, b, a, h2, h3⟩ := List.find?_eq_some_iff_append.mp hf
    refine ⟨fun q => ⟨fun h => ?_, ?_⟩, ⟨fun h => (by cases h), fun h => absurd ((hb p).mp h1) (h p (by rw [h2]; simp))⟩⟩
    · obtain rfl := Res.ok.inj h
      refine ⟨b, a, h2, (hb p).mp h1, fun q hq h => ?_⟩
      have := h3 q hq
      rw [(hb q).mpr h] at this
      cases this
    · rintro ⟨b', a', g1, g2, g3⟩
      have : e.registry.find? (fun a => (a.kind == .backend && a.enabled) && (e.builder a == some true &&
          a.devices.any fun d => low d == device)) = some q :=
        List.find?_eq_some_iff_append.mpr ⟨(hb q).mpr g2, b', a', g1, fun x hx => by
          cases hx' : ((x.kind == .backend && x.enabled) && (e.builder x == some true &&
            x.devices.any fun d => low d == device)) with
          | false => rfl
          | true => exact absurd ((hb x).mp hx') (g3 x hx)⟩
      rw [hf] at this
      rw [Option.some.inj this]

/-- **C136, the request (partial).**  Every request sent to a backend is for the existing model: its snapshot is the model itself or what an
enabled plugin for its extension made of it, and it loads; the triple is the one asked for or the host's; device, format and output are those
asked for; the backend is installed, enabled and builds, and without `--backend` lists the device.  Missing: with `--backend` the device need
not be one of the backend's (C136_named_device_false), and two options never reach the backend (C136_options_false). -/
theorem C136_request_partial {e : Env} (hnd : (e.registry.map (·.name)).Nodup) {a : Args} {r : Request}
    (h : build e a = .ok (.build r)) :
    ∃ model p, a.model = some model ∧ a.output = some r.output ∧ e.exist model = true ∧
      e.snapshot r.snapshot = true ∧ r.triple = a.target.getD e.triple ∧ r.device = low a.device ∧
      r.format = determineFormat a.format r.output ∧
      Spec.Builds e p ∧ p.name = r.backend ∧ p.enabled = true ∧ e.starts r.backend = true ∧
      (∀ n, a.backend = some n → p.name = n ∨ p.name = "aot-" ++ n) ∧
      (a.backend = none → p.kind = .backend ∧ ∃ d ∈ p.devices, low d = low a.device) ∧
      a.listTargets = false ∧
      ∃ ext, extension model = some ext ∧
        ((r.snapshot = model ∧ low (String.ofList ext) = "hdss") ∨
          (low (String.ofList ext) ≠ "hdss" ∧ ∃ q ∈ e.registry, q.kind = .modelFormat ∧ q.enabled = true ∧
            (∃ x ∈ q.modelExts, low (trimDots x) = low (trimDots (low (String.ofList ext)))) ∧
            e.loadModel q.name model = .ok r.snapshot)) := by
  unfold build at h
  obtain ⟨p, hp, h⟩ := Res.bind_eq_ok.mp h
  have hpp : Spec.Builds e p ∧ (∀ n, a.backend = some n → p.name = n ∨ p.name = "aot-" ++ n) ∧
      (a.backend = none → p.kind = .backend ∧ ∃ d ∈ p.devices, low d = low a.device) := by
    cases hb : a.backend with
    | some n =>
      rw [hb] at hp
      have := ((C136_named hnd n).1 p).mp hp
      exact ⟨this.1, fun m hm => by obtain rfl := Option.some.inj hm; exact this.2.imp_right And.left,
        fun h => by cases h⟩
    | none =>
      rw [hb] at hp
      obtain ⟨b, c, h1, h2, -⟩ := ((C136_device e _).1 p).mp hp
      exact ⟨⟨by rw [h1]; simp, h2.2.2.1⟩, fun m hm => (by cases hm), fun _ => ⟨h2.1, h2.2.2.2⟩⟩
  cases hl : a.listTargets with
  | true =>
    rw [hl, if_pos rfl] at h
    obtain ⟨_, -, h⟩ := Res.bind_eq_ok.mp h
    cases h
  | false =>
    rw [hl, if_neg (by decide)] at h
    cases hm : a.model with
    | none => rw [hm] at h; cases h
    | some model =>
      cases ho : a.output with
      | none => rw [hm, ho] at h; cases h
      | some output =>
        rw [hm, ho] at h
        simp only at h
        cases hx : e.exist model with
        | false => rw [hx] at h; cases h
        | true =>
          rw [hx, if_pos rfl] at h
          obtain ⟨snap, hs, h⟩ := Res.bind_eq_ok.mp h
          cases hsn : e.snapshot snap with
          | false => rw [hsn] at h; cases h
          | true =>
            rw [hsn, if_pos rfl] at h
            obtain ⟨_, hg, h⟩ := Res.bind_eq_ok.mp h
            obtain rfl := Ask.build.inj (Res.ok.inj h)
            obtain ⟨⟨p', f1, f2⟩, f3⟩ := getPlugin_ok.mp hg
            have : p' = p := List.inj_on_of_nodup_map hnd (List.mem_of_find?_eq_some f1) hpp.1.1 (find_name f1)
            subst this
            refine ⟨model, p', rfl, rfl, hx, hsn, rfl, rfl, rfl, hpp.1, rfl, f2, f3, hpp.2.1, hpp.2.2, rfl, ?_⟩
            unfold snapshotOf at hs
            cases hex : extension model with
            | none => rw [hex] at hs; cases hs
            | some ext =>
              rw [hex] at hs
              simp only at hs
              by_cases hd : low (String.ofList ext) = "hdss"
              · rw [if_pos hd] at hs
                exact ⟨ext, rfl, Or.inl ⟨(Res.ok.inj hs).symm, hd⟩⟩
              · rw [if_neg hd] at hs
                cases hq : findByModelExt low trimDots e.registry (low (String.ofList ext)) with
                | none => rw [hq] at hs; cases hs
                | some q =>
                  rw [hq] at hs
                  obtain ⟨_, -, hs⟩ := Res.bind_eq_ok.mp hs
                  have hmem := List.mem_of_find?_eq_some hq
                  simp only [ofKind, List.mem_filter, Bool.and_eq_true, beq_iff_eq] at hmem
                  have hext := List.find?_some hq
                  simp only [List.any_eq_true, beq_iff_eq, normExt] at hext
                  exact ⟨ext, rfl, Or.inr ⟨hd, q, hmem.1, hmem.2.1, hmem.2.2, hext, hs⟩⟩

/-- **C136, a snapshot is built.**  For an existing snapshot file that loads, and a chosen backend that is enabled and starts, the request is
sent. -/
theorem C136_sent {e : Env} (hnd : (e.registry.map (·.name)).Nodup) {a : Args} {model output : List Char} {p : Entry}
    (hm : a.model = some model) (ho : a.output = some output) (hl : a.listTargets = false)
    (hx : e.exist model = true) (hs : e.snapshot model = true) {ext : List Char} (hex : extension model = some ext)
    (hd : low (String.ofList ext) = "hdss") (hb : Spec.Builds e p) (hen : p.enabled = true)
    (hst : e.starts p.name = true) (hn : a.backend = some p.name) :
    build e a = .ok (.build ⟨p.name, model, a.target.getD e.triple, low a.device, determineFormat a.format output, output⟩) := by
  have h1 : findByName e p.name = .ok p := ((C136_named hnd p.name).1 p).mpr ⟨hb, Or.inl rfl⟩
  have h2 : find e.registry p.name = some p :=
    ((Option.filter_eq_some_iff).mp ((find_filter (b := fun _ => true) hnd).mpr ⟨hb.1, rfl, rfl⟩)).1
  have h3 : getPlugin e p.name = .ok () := getPlugin_ok.mpr ⟨⟨p, h2, hen⟩, hst⟩
  simp only [build, hn, h1, Res.ok_bind, hl, hm, ho, hx, snapshotOf, hex, hd, if_true, hs, h3]
  simp

/-- **C136, targets.**  With `--list-targets` the chosen backend is asked for its targets, exactly when it is enabled and starts, whatever the
model and the output; nothing is built. -/
theorem C136_targets {e : Env} {a : Args} {p : Entry} (hl : a.listTargets = true)
    (hp : (match a.backend with | some n => findByName e n | none => findBuilder e (low a.device)) = .ok p) :
    (build e a = .ok (.targets p.name) ↔
      (∃ q, find e.registry p.name = some q ∧ q.enabled = true) ∧ e.starts p.name = true) ∧
    ∀ r, build e a ≠ .ok (.build r) := by
  have hb : build e a = (getPlugin e p.name).bind fun _ => .ok (.targets p.name) := by
    unfold build
    cases hc : a.backend with
    | none =>
      rw [hc] at hp
      simp only at hp
      simp only [hp, Res.ok_bind, hl, if_true]
    | some n =>
      rw [hc] at hp
      simp only at hp
      simp only [hp, Res.ok_bind, hl, if_true]
  rw [hb, ← getPlugin_ok]
  cases hg : getPlugin e p.name <;> simp [Res.bind]

/-- **C136, options without effect.**  The optimisation level and `--standalone` change nothing: not the request, not the answer, for any
arguments. -/
theorem C136_options_false (e : Env) (a : Args) (o : Nat) (s : Bool) :
    build e { a with optLevel := o, standalone := s } = build e a := rfl

/-- **C136, formats.**  An explicit format is passed on in lower case; else a file name with an extension of the table has the format of the
table, one without extension is an executable, and any other is a shared library. -/
theorem C136_format (output : List Char) :
    (∀ f, determineFormat (some f) output = low f) ∧
    (extension output = none → determineFormat none output = "executable") ∧
    (∀ x ∈ Spec.formats, extension output = some x.1.toList → determineFormat none output = x.2) ∧
    (∀ ext, extension output = some ext → ext ≠ [] → (∀ x ∈ Spec.formats, x.1.toList ≠ ext) →
      determineFormat none output = "sharedlib") := by
  refine ⟨fun f => rfl, fun h => ?_, fun x hx h => ?_, fun ext h hne hno => ?_⟩
  · simp [determineFormat, h]
  · simp only [Spec.formats, List.mem_cons, List.not_mem_nil, or_false] at hx
    rcases hx with rfl | rfl | rfl | rfl | rfl | rfl | rfl | rfl | rfl | rfl | rfl | rfl | rfl | rfl | rfl | rfl <;>
      (simp only [determineFormat, h, Option.getD_some]; decide)
  · have hn (s : String) (hs : s ∈ Spec.formats.map (·.1)) : String.ofList ext ≠ s := fun he => by
      obtain ⟨x, hx, rfl⟩ := List.mem_map.mp hs
      exact hno _ hx (by rw [← he]; simp)
    have h0 : String.ofList ext ≠ "" := fun he => hne (by
      have := congrArg String.toList he
      simpa using this)
    simp only [determineFormat, h, Option.getD_some]
    simp only [h0, hn "exe" (by decide), hn "bin" (by decide), hn "so" (by decide), hn "dylib" (by decide),
      hn "dll" (by decide), hn "a" (by decide), hn "lib" (by decide), hn "o" (by decide),
      hn "obj" (by decide), hn "metallib" (by decide), hn "ptx" (by decide), hn "cubin" (by decide),
      hn "ll" (by decide), hn "bc" (by decide), hn "wgsl" (by decide), hn "spv" (by decide), or_self, if_false]

/-- **C136, refuted for upper case.**  Everywhere else extensions are compared without their case; `m.O` and `m.PTX` become shared
libraries. -/
theorem C136_format_false : determineFormat none "m.o".toList = "object" ∧
    determineFormat none "m.O".toList = "sharedlib" ∧ determineFormat none "m.PTX".toList = "sharedlib" := by decide

/-! ## Concrete cases and refutations -/

/-- A registry with a CPU builder, a disabled builder and its enabled `aot-` sibling, and a format. -/
def exEnv : Env where
  registry := [⟨"interp", .backend, true, ["CPU"], [], [], [], 0⟩, ⟨"cpu", .backend, true, ["CPU"], [], [], [], 1⟩,
    ⟨"metal", .backend, false, ["metal"], [], [], [], 2⟩, ⟨"aot-metal", .backend, true, ["metal"], [], [], [], 3⟩,
    ⟨"onnx", .modelFormat, true, [], [".ONNX"], [], [], 4⟩]
  builder p := if p.info = 0 ∨ p.info = 4 then none else some true
  exist _ := true
  loadModel _ _ := .ok "/tmp/m.hdss".toList
  snapshot _ := true
  starts _ := true
  triple := "x86_64-unknown-linux-gnu"

/-- Arguments of a build. -/
def exArgs (model device : String) (backend : Option String) : Args :=
  ⟨some model.toList, some "out/m.so".toList, none, device, backend, none, 2, false, false⟩

theorem ex_nodup : (exEnv.registry.map (·.name)).Nodup := by decide

/-- C136: an ONNX model for the CPU. -/
example : build exEnv (exArgs "m.onnx" "Cpu" none) = .ok (.build
    ⟨"cpu", "/tmp/m.hdss".toList, "x86_64-unknown-linux-gnu", "cpu", "sharedlib", "out/m.so".toList⟩) := by decide +kernel

/-- C136, the request of that build. -/
example : ∃ q ∈ exEnv.registry, q.kind = .modelFormat := by
  obtain ⟨m, p, h1, -, -, -, -, -, -, -, -, -, -, -, -, -, ext, -, h⟩ := C136_request_partial ex_nodup
    (a := exArgs "m.onnx" "Cpu" none) (r := ⟨"cpu", "/tmp/m.hdss".toList, "x86_64-unknown-linux-gnu", "cpu", "sharedlib",
      "out/m.so".toList⟩) (by decide +kernel)
  rcases h with ⟨h, -⟩ | ⟨-, q, hq, hk, -⟩
  · obtain rfl := Option.some.inj h1
    exact absurd h (by decide)
  · exact ⟨q, hq, hk⟩

/-- C136: a snapshot with the named backend. -/
example : build exEnv (exArgs "m.HDSS" "cpu" (some "cpu")) = .ok (.build
    ⟨"cpu", "m.HDSS".toList, "x86_64-unknown-linux-gnu", low "cpu", determineFormat none "out/m.so".toList, "out/m.so".toList⟩) :=
  C136_sent ex_nodup (p := ⟨"cpu", .backend, true, ["CPU"], [], [], [], 1⟩) rfl rfl rfl rfl rfl (ext := "HDSS".toList)
    (by decide) (by decide) ⟨by decide, by decide⟩ rfl rfl rfl

/-- C136: the targets of the CPU backend, without a model. -/
example : build exEnv ⟨none, none, none, "CPU", none, none, 2, false, true⟩ = .ok (.targets "cpu") :=
  ((C136_targets (e := exEnv) (a := ⟨none, none, none, "CPU", none, none, 2, false, true⟩)
    (p := ⟨"cpu", .backend, true, ["CPU"], [], [], [], 1⟩) rfl (by decide +kernel)).1).mpr
    ⟨⟨⟨"cpu", .backend, true, ["CPU"], [], [], [], 1⟩, by decide, rfl⟩, rfl⟩

/-- C136: no plugin builds for CUDA, and no plugin called `tpu` builds. -/
example : findBuilder exEnv "cuda::0" = .err ∧ findByName exEnv "tpu" = .err :=
  ⟨(C136_device exEnv "cuda::0").2.mpr (by decide +kernel),
    (C136_named ex_nodup "tpu").2.mpr (fun p hp => by
      have : ∀ q ∈ exEnv.registry, q.name ≠ "tpu" ∧ q.name ≠ "aot-" ++ "tpu" := by decide
      exact this p hp.1)⟩

/-- C136 on `out/m.spv`. -/
example : determineFormat none "out/m.spv".toList = "spirv" :=
  (C136_format "out/m.spv".toList).2.2.1 ("spv", "spirv") (by decide) (by decide)

/-- **C136, refuted for devices with a named backend.**  `--backend cpu --device metal` sends a request for `metal` to a backend whose only
device is the CPU. -/
theorem C136_named_device_false : ∃ r, build exEnv (exArgs "m.hdss" "metal" (some "cpu")) = .ok (.build r) ∧
    r.backend = "cpu" ∧ r.device = "metal" ∧
    ∀ p ∈ exEnv.registry, p.name = r.backend → ∀ d ∈ p.devices, low d ≠ r.device :=
  ⟨⟨"cpu", "m.hdss".toList, "x86_64-unknown-linux-gnu", "metal", "sharedlib", "out/m.so".toList⟩, by decide +kernel, rfl, rfl,
    by decide +kernel⟩

/-- **C136, refuted for a disabled namesake.**  `--backend metal` finds the disabled plugin `metal`, does not look for the enabled
`aot-metal`, and fails. -/
theorem C136_disabled_false : build exEnv (exArgs "m.hdss" "metal" (some "metal")) = .err ∧
    (∃ p, Spec.Builds exEnv p ∧ p.enabled = true ∧ p.name = "aot-metal") ∧
    ∃ r, build exEnv (exArgs "m.hdss" "metal" (some "aot-metal")) = .ok (.build r) :=
  ⟨by decide +kernel, ⟨⟨"aot-metal", .backend, true, ["metal"], [], [], [], 3⟩, ⟨by decide, by decide⟩, rfl, rfl⟩,
    ⟨"aot-metal", "m.hdss".toList, "x86_64-unknown-linux-gnu", "metal", "sharedlib", "out/m.so".toList⟩, by decide +kernel⟩

end Hodu.Build
