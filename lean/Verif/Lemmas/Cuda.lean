import Mathlib.Logic.Function.Iterate
import Mathlib.Data.List.Count
import Mathlib.Data.List.Induction
import Verif.Model.Cuda
import Verif.Lemmas.Elementwise

/-! # Executions of the grid-stride loops -/

namespace Hodu.Cuda

variable {β : Type}

/-- A launched kernel computes `vals`: no execution goes wrong, every execution that has finished has
left `vals` in the buffer, and once every thread has taken enough steps the kernel has finished. -/
def Spec.Computes (k : Loop β) (buf vals : List β) : Prop :=
  (∀ sched, ∃ s, k.exec buf sched = .ok s ∧ (s.finished → s.out = vals)) ∧
  ∃ B, ∀ sched s, (∀ t, t < k.threads → B ≤ sched.count t) → k.exec buf sched = .ok s → s.finished

open Cuda.Spec

theorem exec_snoc (k : Loop β) (buf : List β) (sched : List Nat) (t : Nat) :
    k.exec buf (sched ++ [t]) = (k.exec buf sched).bind fun s => k.step s t := by
  unfold Loop.exec
  generalize k.init buf = s0
  induction sched generalizing s0 with
  | nil =>
    simp only [List.nil_append, Res.foldL, Res.ok_bind]
    cases k.step s0 t <;> rfl
  | cons a as ih =>
    simp only [List.cons_append, Res.foldL]
    cases k.step s0 a <;> simp [ih]

/-- What holds in every reachable state. -/
structure Inv (k : Loop β) (buf vals : List β) (sched : List Nat) (s : St β) : Prop where
  len : s.out.length = buf.length
  cells : ∀ a : Nat, s.out[a]? = buf[a]? ∨ s.out[a]? = vals[a]?
  thread : ∀ t, t < k.threads → ∃ m,
    (∀ j, j < m → k.next^[j] (k.start t) < k.bound ∧
      s.out[k.dst (k.next^[j] (k.start t))]? = vals[k.dst (k.next^[j] (k.start t))]?) ∧
    ((s.pc t = .head (k.next^[m] (k.start t)) ∧ sched.count t = 2 * m) ∨
     (∃ v, s.pc t = .store (k.next^[m] (k.start t)) v ∧ k.next^[m] (k.start t) < k.bound ∧
        k.val (k.next^[m] (k.start t)) = .ok v ∧ sched.count t = 2 * m + 1) ∨
     (s.pc t = .done ∧ ¬ k.next^[m] (k.start t) < k.bound ∧ 2 * m + 1 ≤ sched.count t))
  rest : ∀ t, ¬ t < k.threads → s.pc t = .done

theorem inv_init (k : Loop β) (buf vals : List β) : Inv k buf vals [] (k.init buf) where
  len := rfl
  cells a := Or.inl rfl
  thread t ht := ⟨0, by omega, Or.inl ⟨by simp [Loop.init, ht], by simp⟩⟩
  rest t ht := by simp [Loop.init, ht]

theorem inv_step {k : Loop β} {buf vals : List β} {sched : List Nat} {s : St β}
    (hv : ∀ i, i < k.bound → k.dst i < buf.length ∧ ∃ v, k.val i = .ok v ∧ vals[k.dst i]? = some v)
    (h : Inv k buf vals sched s) (t : Nat) :
    ∃ s', k.step s t = .ok s' ∧ Inv k buf vals (sched ++ [t]) s' := by
  have hct : (sched ++ [t]).count t = sched.count t + 1 := by simp
  have hcu : ∀ u, u ≠ t → (sched ++ [t]).count u = sched.count u := by
    intro u hu
    rw [List.count_append, List.count_singleton]
    simp [Ne.symm hu]
  by_cases ht : t < k.threads
  swap
  · have hp := h.rest t ht
    refine ⟨s, by simp [Loop.step, hp], h.len, h.cells, ?_, h.rest⟩
    intro u hu
    have hut : u ≠ t := fun e => ht (e ▸ hu)
    rw [hcu u hut]
    exact h.thread u hu
  obtain ⟨m, hm, hpc⟩ := h.thread t ht
  rcases hpc with ⟨hp, hc⟩ | ⟨v, hp, hb, hval, hc⟩ | ⟨hp, hb, hc⟩
  · by_cases hb : k.next^[m] (k.start t) < k.bound
    · obtain ⟨_, v, hval, _⟩ := hv _ hb
      refine ⟨{ s with pc := Function.update s.pc t (.store (k.next^[m] (k.start t)) v) },
        by simp [Loop.step, hp, hb, hval], h.len, h.cells, ?_, ?_⟩
      · intro u hu
        by_cases hut : u = t
        · subst hut
          exact ⟨m, hm, Or.inr (Or.inl ⟨v, by simp, hb, hval, by omega⟩)⟩
        · rw [hcu u hut]
          simp only [Function.update_of_ne hut]
          exact h.thread u hu
      · intro u hu
        have hut : u ≠ t := fun e => hu (e ▸ ht)
        simp only [Function.update_of_ne hut]
        exact h.rest u hu
    · refine ⟨{ s with pc := Function.update s.pc t .done },
        by simp [Loop.step, hp, hb], h.len, h.cells, ?_, ?_⟩
      · intro u hu
        by_cases hut : u = t
        · subst hut
          exact ⟨m, hm, Or.inr (Or.inr ⟨by simp, hb, by omega⟩)⟩
        · rw [hcu u hut]
          simp only [Function.update_of_ne hut]
          exact h.thread u hu
      · intro u hu
        have hut : u ≠ t := fun e => hu (e ▸ ht)
        simp only [Function.update_of_ne hut]
        exact h.rest u hu
  · obtain ⟨hd, w, hw, hvw⟩ := hv _ hb
    rw [hval] at hw
    cases hw
    have hd' : k.dst (k.next^[m] (k.start t)) < s.out.length := by rw [h.len]; exact hd
    -- a cell that holds its final value keeps it
    have keep : ∀ a : Nat, s.out[a]? = vals[a]? →
        (s.out.set (k.dst (k.next^[m] (k.start t))) v)[a]? = vals[a]? := by
      intro a ha
      by_cases e : k.dst (k.next^[m] (k.start t)) = a
      · rw [← e, hvw, List.getElem?_set_self hd']
      · rw [List.getElem?_set_ne e, ha]
    refine ⟨{ out := s.out.set (k.dst (k.next^[m] (k.start t))) v
              pc := Function.update s.pc t (.head (k.next (k.next^[m] (k.start t)))) },
      by simp [Loop.step, hp, hd'], by simp [h.len], ?_, ?_, ?_⟩
    · intro a
      by_cases e : k.dst (k.next^[m] (k.start t)) = a
      · right; rw [← e, hvw, List.getElem?_set_self hd']
      · rw [List.getElem?_set_ne e]; exact h.cells a
    · intro u hu
      by_cases hut : u = t
      · subst hut
        refine ⟨m + 1, ?_, Or.inl ⟨?_, by omega⟩⟩
        · intro j hj
          rcases Nat.lt_or_ge j m with hj | hj
          · exact ⟨(hm j hj).1, keep _ (hm j hj).2⟩
          · have : j = m := by omega
            subst this
            exact ⟨hb, by rw [hvw, List.getElem?_set_self hd']⟩
        · rw [Function.iterate_succ_apply']; simp
      · rw [hcu u hut]
        simp only [Function.update_of_ne hut]
        obtain ⟨m', hm', hpc'⟩ := h.thread u hu
        exact ⟨m', fun j hj => ⟨(hm' j hj).1, keep _ (hm' j hj).2⟩, hpc'⟩
    · intro u hu
      have hut : u ≠ t := fun e => hu (e ▸ ht)
      simp only [Function.update_of_ne hut]
      exact h.rest u hu
  · refine ⟨s, by simp [Loop.step, hp], h.len, h.cells, ?_, h.rest⟩
    intro u hu
    by_cases hut : u = t
    · subst hut
      exact ⟨m, hm, Or.inr (Or.inr ⟨hp, hb, by omega⟩)⟩
    · rw [hcu u hut]
      exact h.thread u hu

theorem exec_inv {k : Loop β} {buf vals : List β}
    (hv : ∀ i, i < k.bound → k.dst i < buf.length ∧ ∃ v, k.val i = .ok v ∧ vals[k.dst i]? = some v)
    (sched : List Nat) : ∃ s, k.exec buf sched = .ok s ∧ Inv k buf vals sched s := by
  induction sched using List.reverseRecOn with
  | nil => exact ⟨_, rfl, inv_init k buf vals⟩
  | append_singleton as a ih =>
    obtain ⟨s, hs, hi⟩ := ih
    obtain ⟨s', hs', hi'⟩ := inv_step hv hi a
    exact ⟨s', by rw [exec_snoc, hs]; exact hs', hi'⟩

/-- A loop whose threads start at every index and leave the loop computes the list that holds the
computed values in the cells written and the old ones elsewhere. -/
theorem computes_of {k : Loop β} {buf vals : List β} (hl : vals.length = buf.length)
    (hv : ∀ i, i < k.bound → k.dst i < buf.length ∧ ∃ v, k.val i = .ok v ∧ vals[k.dst i]? = some v)
    (hrest : ∀ a : Nat, (∀ i, i < k.bound → k.dst i ≠ a) → vals[a]? = buf[a]?)
    (hstart : ∀ i, i < k.bound → ∃ t, t < k.threads ∧ k.start t = i)
    (hend : ∃ M, ∀ t, t < k.threads → ∃ m, m ≤ M ∧ ¬ k.next^[m] (k.start t) < k.bound) :
    Computes k buf vals := by
  constructor
  · intro sched
    obtain ⟨s, hs, hi⟩ := exec_inv hv sched
    refine ⟨s, hs, fun hf => ?_⟩
    apply List.ext_getElem?
    intro a
    by_cases ha : ∃ i, i < k.bound ∧ k.dst i = a
    · obtain ⟨i, hi1, hi2⟩ := ha
      obtain ⟨t, ht, hst⟩ := hstart i hi1
      obtain ⟨m, hm, hpc⟩ := hi.thread t ht
      have hd := hf t
      rcases hpc with ⟨hp, _⟩ | ⟨v, hp, _⟩ | ⟨_, hb, _⟩
      · rw [hp] at hd; cases hd
      · rw [hp] at hd; cases hd
      · have hm0 : 0 < m := by
          rcases Nat.eq_zero_or_pos m with e | e
          · subst e
            simp only [Function.iterate_zero, id_eq, hst] at hb
            exact absurd hi1 hb
          · exact e
        have := (hm 0 hm0).2
        simp only [Function.iterate_zero, id_eq, hst, hi2] at this
        exact this
    · rcases hi.cells a with h | h
      · rw [h, hrest a fun i h1 h2 => ha ⟨i, h1, h2⟩]
      · exact h
  · obtain ⟨M, hM⟩ := hend
    refine ⟨2 * M + 2, ?_⟩
    intro sched s hc hs t
    obtain ⟨s', hs', hi⟩ := exec_inv hv sched
    rw [hs] at hs'
    cases hs'
    by_cases ht : t < k.threads
    · obtain ⟨m, hm, hpc⟩ := hi.thread t ht
      have hct := hc t ht
      obtain ⟨q, hq1, hq2⟩ := hM t ht
      have hmq : m ≤ q := by
        by_contra hlt
        exact hq2 (hm q (by omega)).1
      rcases hpc with ⟨_, hh⟩ | ⟨v, _, _, _, hh⟩ | ⟨hp, _⟩
      · omega
      · omega
      · exact hp
    · exact hi.rest t ht

/-- A thread that never fails its test keeps every execution from finishing. -/
theorem never_finishes {k : Loop β} {buf : List β} {t : Nat} (ht : t < k.threads)
    (hb : ∀ m, k.next^[m] (k.start t) < k.bound) {sched : List Nat} {s : St β}
    (hs : k.exec buf sched = .ok s) : ¬ s.finished := by
  have key : (∃ m, s.pc t = .head (k.next^[m] (k.start t))) ∨
      ∃ m v, s.pc t = .store (k.next^[m] (k.start t)) v := by
    induction sched using List.reverseRecOn generalizing s with
    | nil =>
      cases hs
      exact Or.inl ⟨0, by simp [Loop.init, ht]⟩
    | append_singleton as u ih =>
      rw [exec_snoc, Res.bind_eq_ok] at hs
      obtain ⟨s0, h0, h1⟩ := hs
      by_cases hut : u = t
      · subst hut
        rcases ih h0 with ⟨m, hm⟩ | ⟨m, v, hm⟩
        · simp only [Loop.step, hm, hb m, if_true, Res.bind_eq_ok] at h1
          obtain ⟨v, _, h2⟩ := h1
          cases h2
          exact Or.inr ⟨m, v, by simp⟩
        · simp only [Loop.step, hm] at h1
          split at h1
          · cases h1
            exact Or.inl ⟨m + 1, by rw [Function.iterate_succ_apply']; simp⟩
          · cases h1
      · have hne : ∀ p, Function.update s0.pc u p t = s0.pc t := fun p =>
          Function.update_of_ne (Ne.symm hut) _ _
        have hpt : s.pc t = s0.pc t := by
          unfold Loop.step at h1
          split at h1
          · split at h1
            · rw [Res.bind_eq_ok] at h1
              obtain ⟨v, _, h2⟩ := h1
              cases h2
              exact hne _
            · cases h1
              exact hne _
          · split at h1
            · cases h1
              exact hne _
            · cases h1
          · cases h1
            rfl
        rw [hpt]
        exact ih h0
  intro hf
  have hd := hf t
  rcases key with ⟨m, hm⟩ | ⟨m, v, hm⟩
  · rw [hm] at hd; cases hd
  · rw [hm] at hd; cases hd

/-! ## The launch -/

theorem threadStart_eq {t : Nat} (h : t < 2 ^ 32) : threadStart t = t := by
  unfold threadStart u32
  rw [show t / 256 * 256 + t % 256 = t by omega, Nat.mod_eq_of_lt h]

theorem threadStart_lt (t : Nat) : threadStart t < 2 ^ 32 := Nat.mod_lt _ (by decide)

theorem advance_lt (g i : Nat) : advance g i < 2 ^ 32 := Nat.mod_lt _ (by decide)

theorem gridSize_pos (n : Nat) : 0 < gridSize n := by unfold gridSize; omega

/-- Up to `2 ^ 32 - 256` elements: the stride covers the elements and stays below `2 ^ 32`. -/
theorem grid_bounds {n : Nat} (h : n ≤ 2 ^ 32 - 256) :
    n ≤ 256 * gridSize n ∧ 256 * gridSize n ≤ 2 ^ 32 - 256 := by
  have hn : u32 n = n := Nat.mod_eq_of_lt (by omega)
  unfold gridSize
  rw [hn]
  omega

theorem advance_small {n i : Nat} (h : n ≤ 2 ^ 32 - 256) (hi : i < 2 ^ 32) :
    n ≤ advance (gridSize n) i ∨ advance (gridSize n) i < i := by
  obtain ⟨h1, h2⟩ := grid_bounds h
  unfold advance u32
  generalize hG : 256 * gridSize n = G at *
  rw [Nat.mod_eq_of_lt (show G < 2 ^ 32 by omega)]
  omega

theorem leaves {n : Nat} (h : n ≤ 2 ^ 32 - 256) : ∀ i, i < 2 ^ 32 →
    ∃ m, m ≤ i + 1 ∧ ¬ (advance (gridSize n))^[m] i < n := by
  intro i
  induction i using Nat.strongRecOn with
  | ind i ih =>
    intro hi
    rcases advance_small h hi with h1 | h1
    · exact ⟨1, by omega, by simpa using h1⟩
    · obtain ⟨m, hm, hb⟩ := ih _ h1 (advance_lt _ _)
      exact ⟨m + 1, by omega, by rw [Function.iterate_succ_apply]; exact hb⟩

/-- The grid-stride loops compute their values for at most `2 ^ 32 - 256` elements. -/
theorem gridLoop_computes {n : Nat} {val : Nat → Res β} {dst : Nat → Nat} {buf vals : List β}
    (hn : n ≤ 2 ^ 32 - 256) (hl : vals.length = buf.length)
    (hv : ∀ i, i < n → dst i < buf.length ∧ ∃ v, val i = .ok v ∧ vals[dst i]? = some v)
    (hrest : ∀ a : Nat, (∀ i, i < n → dst i ≠ a) → vals[a]? = buf[a]?) :
    Computes (gridLoop n val dst) buf vals := by
  obtain ⟨h1, h2⟩ := grid_bounds hn
  refine computes_of hl hv hrest ?_ ⟨2 ^ 32, ?_⟩
  · intro i hi
    have hi' : i < n := hi
    refine ⟨i, ?_, threadStart_eq (by omega)⟩
    show i < 256 * gridSize n
    omega
  · intro t ht
    obtain ⟨m, hm, hb⟩ := leaves hn (threadStart t) (threadStart_lt t)
    have := threadStart_lt t
    exact ⟨m, by omega, hb⟩

/-- The usual case: cell `i` gets the value of index `i`. -/
theorem gridLoop_list {n : Nat} {val : Nat → Res β} {buf vals : List β} (hn : n ≤ 2 ^ 32 - 256)
    (hb : buf.length = n) (hl : vals.length = n) (hv : ∀ i (h : i < vals.length), val i = .ok vals[i]) :
    Computes (gridLoop n val fun i => i) buf vals := by
  apply gridLoop_computes hn (by omega)
  · intro i hi
    exact ⟨by omega, vals[i]'(by omega), hv i (by omega), by simp⟩
  · intro a ha
    have : n ≤ a := by
      by_contra hc
      exact ha a (by omega) rfl
    rw [List.getElem?_eq_none (by omega), List.getElem?_eq_none (by omega)]

/-- More elements than that: the loop does not end. -/
theorem gridLoop_endless {n : Nat} {val : Nat → Res β} {dst : Nat → Nat} {buf : List β}
    (hn : 2 ^ 32 - 256 < n) {sched : List Nat} {s : St β}
    (hs : (gridLoop n val dst).exec buf sched = .ok s) : ¬ s.finished := by
  rcases Nat.lt_or_ge n (2 ^ 32) with h | h
  · have hG : 256 * gridSize n = 2 ^ 32 := by
      have hu : u32 n = n := Nat.mod_eq_of_lt h
      unfold gridSize
      rw [hu]
      omega
    have hadv : ∀ i, i < 2 ^ 32 → advance (gridSize n) i = i := by
      intro i hi
      unfold advance
      rw [hG]
      show (i + 2 ^ 32 % 2 ^ 32) % 2 ^ 32 = i
      rw [Nat.mod_self, Nat.add_zero, Nat.mod_eq_of_lt hi]
    refine never_finishes (t := 0) (k := gridLoop n val dst) ?_ ?_ hs
    · show 0 < 256 * gridSize n
      omega
    · intro m
      have : (advance (gridSize n))^[m] 0 = 0 := by
        induction m with
        | zero => rfl
        | succ m ih => rw [Function.iterate_succ_apply', ih, hadv 0 (by decide)]
      show (advance (gridSize n))^[m] (threadStart 0) < n
      rw [threadStart_eq (by decide), this]
      omega
  · refine never_finishes (t := 0) (k := gridLoop n val dst) ?_ ?_ hs
    · show 0 < 256 * gridSize n
      have := gridSize_pos n
      omega
    · intro m
      show (advance (gridSize n))^[m] (threadStart 0) < n
      refine lt_of_lt_of_le ?_ h
      cases m with
      | zero => exact threadStart_lt 0
      | succ m => rw [Function.iterate_succ_apply']; exact advance_lt _ _

end Hodu.Cuda
