import Verif.Model.RunFiles
import Mathlib.Data.List.Nodup

/-!
# C54: every input of a run reaches the backend
-/

namespace Hodu.RunFiles

/-- The writes of one run, in order, among those of all the runs: its inputs. -/
def inputsOf {D : Type} (ws : List (Write D)) (run : Nat) : List (List Char × D) :=
  (ws.filter fun w => w.run == run).map fun w => (w.name, w.data)

theorem inputPath_inj (dir a b : List Char) (ha : '/' ∉ a) (hb : '/' ∉ b)
    (h : inputPath dir a = inputPath dir b) : a = b := by
  have key : ∀ n : List Char, '/' ∉ n →
      inputPath dir n = dir ++ '/' :: (n ++ ".hdt".toList) := by
    intro n hn
    unfold inputPath join
    cases n with
    | nil => rfl
    | cons c cs =>
      simp only [List.cons_append]
      split
      · rename_i heq
        injection heq with h1 h2
        exact absurd (by rw [h1]; simp) hn
      · rfl
  rw [key a ha, key b hb] at h
  have h1 := List.append_cancel_left h
  injection h1 with _ h2
  exact List.append_cancel_right h2

theorem files_append {D : Type} (dir : List Char) (ws : List (Write D)) (w : Write D)
    (p : List Char) : files dir (ws ++ [w]) p =
      if p = inputPath dir w.name then some w.data else files dir ws p := by
  simp [files, List.foldl_append]

theorem files_other {D : Type} (dir : List Char) (us : List (Write D)) : ∀ (ws : List (Write D))
    (p : List Char), (∀ u ∈ us, p ≠ inputPath dir u.name) →
    files dir (ws ++ us) p = files dir ws p := by
  induction us with
  | nil => intro ws p _; simp
  | cons u us ih =>
    intro ws p h
    have : ws ++ u :: us = (ws ++ [u]) ++ us := by simp
    rw [this, ih _ p (fun v hv => h v (by simp [hv])), files_append, if_neg (h u (by simp))]

/-- **C54 (part).**  Any interleaving of the writes of any number of runs: if the input names of a
run are distinct and no other run under way uses one of them (and no name has a slash in it), then
at the end the file whose path run `r` hands to the backend for each of its inputs holds that
input's data.
Missing: runs that share an input name (`C54_full_false`), repeated names and names that are
paths (`C54_duplicate`, `C54_absolute`). -/
theorem C54_inputs_partial {D : Type} (dir : List Char) (ws : List (Write D)) (r : Nat)
    (hslash : ∀ w ∈ ws, '/' ∉ w.name)
    (hnd : ((inputsOf ws r).map Prod.fst).Nodup)
    (hdisj : ∀ w ∈ ws, ∀ x ∈ inputsOf ws r, w.name = x.1 → w.run = r) :
    ∀ x ∈ inputsOf ws r, files dir ws (inputPath dir x.1) = some x.2 := by
  intro x hx
  obtain ⟨w, hw, rfl⟩ := List.mem_map.mp hx
  obtain ⟨hw1, hw2⟩ := List.mem_filter.mp hw
  have hrun : w.run = r := by simpa using hw2
  obtain ⟨pre, post, rfl⟩ := List.append_of_mem hw1
  have h1 : pre ++ w :: post = (pre ++ [w]) ++ post := by simp
  rw [h1, files_other, files_append, if_pos rfl]
  intro u hu hp
  have hum : u ∈ pre ++ w :: post := by simp [hu]
  have hn : w.name = u.name := inputPath_inj dir _ _ (hslash w hw1) (hslash u hum) hp
  have hur : u.run = r := hdisj u hum (w.name, w.data) hx hn.symm
  have hmap : (inputsOf (pre ++ w :: post) r).map Prod.fst =
      ((pre.filter fun w => w.run == r).map fun w => w.name) ++
        w.name :: ((post.filter fun w => w.run == r).map fun w => w.name) := by
    simp [inputsOf, List.filter_append, hrun, List.map_map, Function.comp_def]
  rw [hmap] at hnd
  have h2 := (List.nodup_append.mp hnd).2.1
  rw [List.nodup_cons] at h2
  apply h2.1
  rw [hn]
  exact List.mem_map.mpr ⟨u, List.mem_filter.mpr ⟨hu, by simp [hur]⟩, rfl⟩

/-- The directory of the examples. -/
def exDir : List Char := "/tmp/hodu_runtime".toList

/-- C54_inputs_partial applies to two interleaved runs with different input names. -/
example :
    let ws : List (Write Nat) := [⟨0, "a".toList, 1⟩, ⟨1, "x".toList, 7⟩, ⟨0, "b".toList, 2⟩]
    (∀ w ∈ ws, '/' ∉ w.name) ∧ ((inputsOf ws 0).map Prod.fst).Nodup ∧
    (∀ w ∈ ws, ∀ x ∈ inputsOf ws 0, w.name = x.1 → w.run = 0) ∧
    inputsOf ws 0 = [("a".toList, 1), ("b".toList, 2)] := by decide

/-- **C54 is false of the code.**  Two concurrent runs with one input each, of the same name: the
backend of the first is handed the data of the second. -/
theorem C54_full_false : ¬ ∀ (ws : List (Write Nat)) (r : Nat),
    (∀ w ∈ ws, '/' ∉ w.name) → (∀ r, ((inputsOf ws r).map Prod.fst).Nodup) →
    ∀ x ∈ inputsOf ws r, files exDir ws (inputPath exDir x.1) = some x.2 := by
  intro h
  have hnd : ∀ r, ((inputsOf [⟨0, "input".toList, 1⟩, ⟨1, "input".toList, 2⟩] r).map
      (Prod.fst : List Char × Nat → List Char)).Nodup := by
    intro r
    match r with
    | 0 => decide
    | 1 => decide
    | n + 2 => simp [inputsOf, List.filter]
  have := h [⟨0, "input".toList, 1⟩, ⟨1, "input".toList, 2⟩] 0 (by decide) hnd
    ("input".toList, 1) (by decide)
  revert this
  decide

/-- A run with the same input name twice: the first input's data is lost. -/
theorem C54_duplicate :
    files exDir [⟨0, "x".toList, 1⟩, ⟨0, "x".toList, 2⟩] (inputPath exDir "x".toList) =
      some 2 := by decide

/-- Two different input names may denote one file: an absolute name escapes the directory. -/
theorem C54_absolute : inputPath exDir "a".toList = inputPath exDir "/tmp/hodu_runtime/a".toList := by
  decide

end Hodu.RunFiles
