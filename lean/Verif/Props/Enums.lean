import Verif.Model.DType

/-!
# Property C39: enumerations survive their encodings
-/

namespace Hodu

/-- Every element type decodes from its own code, and only from it. -/
theorem C39_dtype_code (d : DType) (c : Nat) : DType.ofCode c = some d ↔ c = d.code := by
  constructor
  · intro h
    unfold DType.ofCode at h
    split at h <;> first | (cases h; rfl) | cases h
  · rintro rfl
    cases d <;> rfl

/-- Distinct element types have distinct codes and distinct names. -/
theorem C39_dtype_injective (a b : DType) (h : a.code = b.code ∨ a.name = b.name) : a = b := by
  revert h
  cases a <;> cases b <;> decide

/-- The conversions between the core's and the plugins' element types are inverse to each other and
keep code, size and name. -/
theorem C39_plugin_roundtrip (d : DType) (p : PluginDType) :
    (PluginDType.ofCore d).toCore = d ∧ PluginDType.ofCore p.toCore = p ∧
    (PluginDType.ofCore d).code = d.code ∧ (PluginDType.ofCore d).sizeInBytes = d.sizeInBytes ∧
    (PluginDType.ofCore d).name = d.name ∧
    ((PluginDType.ofCore d).isFloat = d.isFloat) ∧
    ((PluginDType.ofCore d).isInteger = (d.isInt || d.isUint)) ∧
    ((PluginDType.ofCore d).isSigned = (d.isFloat || d.isInt)) := by
  refine ⟨by cases d <;> rfl, by cases p <;> rfl, by cases d <;> rfl, by cases d <;> rfl,
    by cases d <;> rfl, by cases d <;> rfl, by cases d <;> rfl, by cases d <;> rfl⟩

theorem ite_some {c : Prop} [Decidable c] {x d : β} {r : Option β}
    (h : (if c then some x else r) = some d) : (c ∧ x = d) ∨ r = some d := by
  by_cases hc : c
  · rw [if_pos hc] at h; exact Or.inl ⟨hc, Option.some.inj h⟩
  · rw [if_neg hc] at h; exact Or.inr h

theorem ofLower_iff (s : String) (d : PluginDType) : PluginDType.ofLower s = some d ↔ s = d.name := by
  constructor
  · intro h
    unfold PluginDType.ofLower at h
    iterate 15
      replace h := ite_some h
      rcases h with ⟨hs, hd⟩ | h
      · rw [hs, ← hd]; rfl
    cases h
  · rintro rfl
    cases d <;> decide +kernel

/-- Parsing a plugin element type accepts exactly the names, in any letter case. -/
theorem C39_from_str (s : String) (d : PluginDType) :
    PluginDType.fromStr s = some d ↔ s.map Char.toLower = d.name := ofLower_iff _ _

/-- In particular the printed name parses back. -/
theorem C39_name_roundtrip (d : PluginDType) : PluginDType.fromStr d.name = some d := by
  cases d <;> decide +kernel

/-- The device encoding: every device with a CUDA id up to 15 survives, larger ids panic. -/
theorem C39_device_roundtrip (d : Device) :
    (∃ c, d.encode = .ok c ∧ Device.decode c = d ∧ c < 18) ∨
      (d.encode = .panic ∧ ∃ id, d = .cuda id ∧ 15 < id) := by
  cases d with
  | cpu => exact Or.inl ⟨0, rfl, rfl, by decide⟩
  | metal => exact Or.inl ⟨17, rfl, rfl, by decide⟩
  | cuda id =>
    by_cases h : 15 < id
    · exact Or.inr ⟨by simp [Device.encode, h], id, rfl, h⟩
    · refine Or.inl ⟨id + 1, by simp [Device.encode, h], ?_, by omega⟩
      unfold Device.decode
      rw [if_neg (by omega), if_pos (by omega)]
      simp

/-- Distinct devices have distinct codes. -/
theorem C39_device_injective {a b : Device} {c : Nat} (ha : a.encode = .ok c) (hb : b.encode = .ok c) :
    a = b := by
  rcases C39_device_roundtrip a with ⟨x, h1, h2, _⟩ | ⟨h1, _⟩ <;> rw [h1] at ha <;> cases ha
  rcases C39_device_roundtrip b with ⟨y, h3, h4, _⟩ | ⟨h3, _⟩ <;> rw [h3] at hb <;> cases hb
  rw [← h2, ← h4]

theorem natToString_injective {m n : Nat} (h : toString m = toString n) : m = n := by
  have h' : m.repr.toList = n.repr.toList := by
    rw [Nat.toString_eq_repr, Nat.toString_eq_repr] at h
    rw [h]
  rw [Nat.toList_repr, Nat.toList_repr] at h'
  rw [← Nat.ofDigitChars_ten_toDigits (n := m), ← Nat.ofDigitChars_ten_toDigits (n := n), h']

/-- Distinct devices have distinct names, over all CUDA ids. -/
theorem C39_device_name {a b : Device} (h : a.name = b.name) : a = b := by
  have hl := congrArg String.toList h
  cases a <;> cases b <;> simp [Device.name] at hl <;> try rfl
  rename_i m n
  have h2 : toString m = toString n := by
    apply String.toList_injective
    simpa using hl
  rw [natToString_injective h2]

/-- File formats round-trip through their extension, in any letter case. -/
theorem C39_format (f : Format) (e : String) :
    Format.fromExtension f.extension = some f ∧
    (Format.fromExtension e = some f ↔ e.map Char.toLower = f.extension) := by
  refine ⟨by cases f <;> decide +kernel, ?_⟩
  unfold Format.fromExtension
  cases f <;> simp only [Format.extension]
  · constructor
    · intro h
      split at h
      · assumption
      · split at h <;> cases h
    · intro h; rw [if_pos h]
  · constructor
    · intro h
      split at h
      · cases h
      · split at h
        · assumption
        · cases h
    · intro h; rw [h]; decide +kernel

/-- Concrete instances. -/
example : (Device.cuda 15).encode = .ok 16 ∧ Device.decode 16 = .cuda 15 ∧
    (Device.cuda 16).encode = .panic ∧ (Device.cuda 3).name = "cuda::3" ∧
    PluginDType.fromStr "BF16" = some .bf16 ∧ Format.fromExtension "HDT" = some .hdt := by
  decide +kernel

end Hodu
