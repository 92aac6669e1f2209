import Verif.Model.RegistryFile
import Mathlib.Tactic.Linarith

/-!
# C51: the registry file under crashes and concurrency
-/

namespace Hodu.RegFile

variable {ι κ : Type} [DecidableEq ι] [DecidableEq κ]

/-- `f` is a complete registry text: the old one or that of some saver. -/
def Complete (content : ι → List Nat) (f0 : Option (List Nat)) (f : Option (List Nat)) : Prop :=
  f = f0 ∨ ∃ i, f = some (content i)

/-- A saver between its first and its last step. -/
def Phase.active : Phase → Prop
  | .opened => True
  | .locked => True
  | .writing _ => True
  | _ => False

/-- The state between steps when nobody crashes: at most one saver holds the lock; and unless some
saver has opened (truncated) the file and waits for the lock, a saver that writes has written
exactly its prefix, and with no saver active the file is complete. -/
structure Inv (content : ι → List Nat) (f0 : Option (List Nat)) (s : Sys ι κ) : Prop where
  one : ∀ i j, (s.saver i).holds → (s.saver j).holds → i = j
  bound : ∀ i k, s.saver i = .writing k → k ≤ (content i).length
  data : (∃ i, s.saver i = .opened) ∨
    ((∀ i k, s.saver i = .writing k → s.file = some ((content i).take k)) ∧
     ((∀ i, ¬ (s.saver i).active) → Complete content f0 s.file))

theorem writeAt_take (l : List Nat) (k b : Nat) (h : l[k]? = some b) :
    writeAt (l.take k) k b = l.take (k + 1) := by
  obtain ⟨hk, hb⟩ := List.getElem?_eq_some_iff.mp h
  have hl : (l.take k).length = k := by rw [List.length_take]; omega
  unfold writeAt
  rw [if_neg (by omega), hl, Nat.sub_self]
  simp only [List.replicate_zero, List.append_nil]
  rw [List.take_add_one, h]
  rfl

theorem inv_step (content : ι → List Nat) (f0 : Option (List Nat)) (s t : Sys ι κ)
    (h : Inv content f0 s) (hst : StepTo content s t) (hc : ∀ i, t.saver i ≠ .crashed) :
    Inv content f0 t := by
  cases hst with
  | «open» i hi =>
    refine ⟨?_, ?_, Or.inl ⟨i, by simp⟩⟩
    · intro a b ha hb
      by_cases hai : a = i
      · subst hai; simp [Phase.holds] at ha
      · by_cases hbi : b = i
        · subst hbi; simp [Phase.holds] at hb
        · simp only [Function.update_of_ne hai, Function.update_of_ne hbi] at ha hb
          exact h.one a b ha hb
    · intro a k ha
      by_cases hai : a = i
      · subst hai; simp at ha
      · simp only [Function.update_of_ne hai] at ha
        exact h.bound a k ha
  | lock i hi hs hl =>
    refine ⟨?_, ?_, ?_⟩
    · intro a b ha hb
      have key : ∀ c, (Function.update s.saver i Phase.locked c).holds → c = i := by
        intro c hcc
        by_contra hne
        rw [Function.update_of_ne hne] at hcc
        exact hs c hcc
      rw [key a ha, key b hb]
    · intro a k ha
      by_cases hai : a = i
      · subst hai; simp at ha
      · simp only [Function.update_of_ne hai] at ha
        exact h.bound a k ha
    · right
      refine ⟨?_, ?_⟩
      · intro a k ha
        by_cases hai : a = i
        · subst hai; simp at ha
        · simp only [Function.update_of_ne hai] at ha
          exact absurd (by rw [ha]; trivial) (hs a)
      · intro hno
        exact absurd (by simp [Phase.active]) (hno i)
  | begin i hi =>
    have key : ∀ c, (Function.update s.saver i (Phase.writing 0) c).holds → c = i := by
      intro c hcc
      by_contra hne
      rw [Function.update_of_ne hne] at hcc
      exact hne (h.one c i hcc (by rw [hi]; trivial))
    refine ⟨fun a b ha hb => by rw [key a ha, key b hb], ?_, ?_⟩
    · intro a k ha
      by_cases hai : a = i
      · subst hai; simp at ha; omega
      · simp only [Function.update_of_ne hai] at ha
        exact h.bound a k ha
    · right
      refine ⟨?_, fun hno => absurd (by simp [Phase.active]) (hno i)⟩
      intro a k ha
      have hai : a = i := key a (by
        show Phase.holds (Function.update s.saver i (Phase.writing 0) a)
        rw [show Function.update s.saver i (Phase.writing 0) a = _ from ha]; trivial)
      subst hai
      simp at ha
      subst ha
      simp
  | write i k b f hi hb hf =>
    have key : ∀ c, (Function.update s.saver i (Phase.writing (k + 1)) c).holds → c = i := by
      intro c hcc
      by_contra hne
      rw [Function.update_of_ne hne] at hcc
      exact hne (h.one c i hcc (by rw [hi]; trivial))
    refine ⟨fun a b ha hb => by rw [key a ha, key b hb], ?_, ?_⟩
    · intro a k' ha
      by_cases hai : a = i
      · subst hai
        simp at ha
        have := (List.getElem?_eq_some_iff.mp hb).1
        omega
      · simp only [Function.update_of_ne hai] at ha
        exact h.bound a k' ha
    · rcases h.data with ⟨j, hj⟩ | ⟨h1, -⟩
      · left
        refine ⟨j, ?_⟩
        have : j ≠ i := by intro hji; rw [hji, hi] at hj; cases hj
        simp only [Function.update_of_ne this]
        exact hj
      · right
        refine ⟨?_, fun hno => absurd (by simp [Phase.active]) (hno i)⟩
        intro a k' ha
        have hai : a = i := key a (by
          show Phase.holds (Function.update s.saver i (Phase.writing (k + 1)) a)
          rw [show Function.update s.saver i (Phase.writing (k + 1)) a = _ from ha]; trivial)
        subst hai
        simp at ha
        subst ha
        have h2 := h1 a k hi
        rw [hf] at h2
        cases h2
        simp only
        rw [writeAt_take _ _ _ hb]
  | finish i hi =>
    have key : ∀ c, ¬ (Function.update s.saver i Phase.finished c).holds := by
      intro c hcc
      by_cases hne : c = i
      · subst hne; simp [Phase.holds] at hcc
      · rw [Function.update_of_ne hne] at hcc
        exact hne (h.one c i hcc (by rw [hi]; trivial))
    refine ⟨fun a b ha _ => absurd ha (key a), ?_, ?_⟩
    · intro a k ha
      exact absurd (show Phase.holds (Function.update s.saver i Phase.finished a) by
        rw [show Function.update s.saver i Phase.finished a = _ from ha]; trivial) (key a)
    · rcases h.data with ⟨j, hj⟩ | ⟨h1, -⟩
      · left
        refine ⟨j, ?_⟩
        have : j ≠ i := by intro hji; rw [hji, hi] at hj; cases hj
        simp only [Function.update_of_ne this]
        exact hj
      · right
        refine ⟨?_, ?_⟩
        · intro a k ha
          exact absurd (show Phase.holds (Function.update s.saver i Phase.finished a) by
            rw [show Function.update s.saver i Phase.finished a = _ from ha]; trivial) (key a)
        · intro _
          have := h1 i _ hi
          rw [List.take_length] at this
          exact Or.inr ⟨i, this⟩
  | crash i => exact absurd (by simp) (hc i)
  | loadNone k hk hf => exact ⟨h.one, h.bound, h.data⟩
  | loadOpen k hk hf => exact ⟨h.one, h.bound, h.data⟩
  | loadLock k hk hs => exact ⟨h.one, h.bound, h.data⟩
  | loadRead k f hk hf => exact ⟨h.one, h.bound, h.data⟩

theorem crashed_step (content : ι → List Nat) (s t : Sys ι κ) (hst : StepTo content s t) (i : ι)
    (h : s.saver i = .crashed) : t.saver i = .crashed := by
  cases hst with
  | «open» j hj => by_cases hij : i = j
                   · subst hij; rw [h] at hj; cases hj
                   · simp only [Function.update_of_ne hij]; exact h
  | lock j hj _ _ => by_cases hij : i = j
                     · subst hij; rw [h] at hj; cases hj
                     · simp only [Function.update_of_ne hij]; exact h
  | begin j hj => by_cases hij : i = j
                  · subst hij; rw [h] at hj; cases hj
                  · simp only [Function.update_of_ne hij]; exact h
  | write j k b f hj _ _ => by_cases hij : i = j
                            · subst hij; rw [h] at hj; cases hj
                            · simp only [Function.update_of_ne hij]; exact h
  | finish j hj => by_cases hij : i = j
                   · subst hij; rw [h] at hj; cases hj
                   · simp only [Function.update_of_ne hij]; exact h
  | crash j => by_cases hij : i = j
               · subst hij; simp
               · simp only [Function.update_of_ne hij]; exact h
  | loadNone k _ _ => exact h
  | loadOpen k _ _ => exact h
  | loadLock k _ _ => exact h
  | loadRead k f _ _ => exact h

theorem inv_reach (content : ι → List Nat) (f0 : Option (List Nat)) (s : Sys ι κ)
    (h : Reach content f0 s) : (∀ i, s.saver i ≠ .crashed) → Inv content f0 s := by
  induction h with
  | init =>
    intro _
    refine ⟨fun i j hi => ?_, fun i k hi => ?_, Or.inr ⟨fun i k hi => ?_, fun _ => Or.inl rfl⟩⟩
    · exact absurd hi (by simp [Phase.holds])
    · exact absurd hi (by simp)
    · exact absurd hi (by simp)
  | step h ht ih =>
    intro hc
    exact inv_step content f0 _ _ (ih fun i hi => hc i (crashed_step content _ _ ht i hi)) ht hc

/-- **C51 (part).**  Any number of concurrent saves and loads, in any interleaving, nobody
crashing: whenever no save is between its first and last step, the file is the old text or the
complete text of one of the saves, and so a load that reads at such a moment returns complete
text.
Missing: exactly the moments the claim is about (`C51_full_false`, `C51_crash_false`). -/
theorem C51_quiescent_partial (content : ι → List Nat) (f0 : Option (List Nat)) (s : Sys ι κ)
    (h : Reach content f0 s) (hc : ∀ i, s.saver i ≠ .crashed)
    (hq : ∀ i, ¬ (s.saver i).active) : Complete content f0 s.file ∧
      ∀ (t : Sys ι κ) (k : κ) (r : Option (List Nat)), StepTo content s t →
        s.loader k ≠ .finished r → t.loader k = .finished r → Complete content f0 r := by
  have hcomp : Complete content f0 s.file := by
    rcases (inv_reach content f0 s h hc).data with ⟨i, hi⟩ | ⟨-, h2⟩
    · exact absurd (by rw [hi]; trivial) (hq i)
    · exact h2 hq
  refine ⟨hcomp, ?_⟩
  intro t k r hst hne hfin
  cases hst with
  | «open» j hj => exact absurd hfin hne
  | lock j hj _ _ => exact absurd hfin hne
  | begin j hj => exact absurd hfin hne
  | write j k' b f hj _ _ => exact absurd hfin hne
  | finish j hj => exact absurd hfin hne
  | crash j => exact absurd hfin hne
  | loadNone k' hk hf =>
    by_cases hkk : k = k'
    · subst hkk
      simp at hfin
      rw [← hfin, ← hf]
      exact hcomp
    · simp only [Function.update_of_ne hkk] at hfin
      exact absurd hfin hne
  | loadOpen k' hk hf =>
    by_cases hkk : k = k'
    · subst hkk; simp at hfin
    · simp only [Function.update_of_ne hkk] at hfin
      exact absurd hfin hne
  | loadLock k' hk hs =>
    by_cases hkk : k = k'
    · subst hkk; simp at hfin
    · simp only [Function.update_of_ne hkk] at hfin
      exact absurd hfin hne
  | loadRead k' f hk hf =>
    by_cases hkk : k = k'
    · subst hkk
      simp at hfin
      rw [← hfin, ← hf]
      exact hcomp
    · simp only [Function.update_of_ne hkk] at hfin
      exact absurd hfin hne

/-- The text of the example saver. -/
def exContent : Unit → List Nat := fun _ => [7, 8]

/-- A save from beginning to end: C51_quiescent_partial applies to its last state. -/
theorem exSave : ∃ s : Sys Unit Unit, Reach exContent (some [1, 2, 3]) s ∧
    s.saver () = .finished ∧ s.file = some [7, 8] := by
  refine ⟨_, .step (.step (.step (.step (.step (.step .init
    (.open _ () rfl)) (.lock _ () ?_ ?_ ?_)) (.begin _ () ?_)) (.write _ () 0 7 [] ?_ rfl rfl))
    (.write _ () 1 8 [7] ?_ rfl rfl)) (.finish _ () ?_), ?_, ?_⟩
  all_goals first
    | (intro j; simp [Phase.holds, Function.update])
    | (simp [Function.update, writeAt, exContent])

/-- **C51 is false of the code.**  A load that runs while a save has opened the file and not yet
taken the lock reads an empty file: neither the old nor the new text (and a load of it fails, an
empty text is not JSON). -/
theorem C51_full_false : ¬ ∀ (content : Unit → List Nat) (f0 : Option (List Nat))
    (s : Sys Unit Unit) (r : Option (List Nat)), Reach content f0 s →
    (∀ i, s.saver i ≠ .crashed) → s.loader () = .finished r → Complete content f0 r := by
  intro h
  have h1 : Reach (κ := Unit) exContent (some [1, 2, 3]) ⟨some [],
      Function.update (fun _ => .idle) () .opened,
      Function.update (Function.update (Function.update (fun _ => .idle) () .opened) () .locked) ()
        (.finished (some []))⟩ := by
    refine .step (.step (.step (.step .init (.open _ () rfl)) (.loadOpen _ () rfl (by simp)))
      (.loadLock _ () (by simp) ?_)) (.loadRead _ () [] (by simp) rfl)
    intro j
    simp [Phase.holds]
  rcases h exContent _ _ (some []) h1 (by simp) (by simp) with h2 | ⟨i, h2⟩
  · cases h2
  · cases h2

/-- A crash of a save right after it opened the file leaves an empty file behind, with no save
under way. -/
theorem C51_crash_false : ∃ s : Sys Unit Unit, Reach exContent (some [1, 2, 3]) s ∧
    (∀ i, ¬ (s.saver i).active) ∧ s.file = some [] ∧ ¬ Complete exContent (some [1, 2, 3]) s.file := by
  refine ⟨_, .step (.step .init (.open _ () rfl)) (.crash _ ()), ?_, rfl, ?_⟩
  · intro i; simp [Phase.active]
  · rintro (h | ⟨i, h⟩) <;> cases h

end Hodu.RegFile
