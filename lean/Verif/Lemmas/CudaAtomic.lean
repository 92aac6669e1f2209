import Mathlib.Data.List.Nodup
import Mathlib.Data.List.Perm.Basic
import Verif.Model.CudaAtomic
import Verif.Lemmas.Cuda

/-! # Executions of the kernels that update cells atomically -/

namespace Hodu.Cuda

variable {W V : Type} [DecidableEq W]

/-- What index `i` does to the memory when nothing comes in between. -/
def Spec.apply (k : Rmw W V) (mem : List W) (i : Nat) : List W :=
  match k.job i with
  | .ok (some (c, v)) => mem.modify (k.word c) fun w => k.upd c w v
  | _ => mem

/-- The first `m` indices of thread `t`. -/
def Spec.taken (k : Rmw W V) (t m : Nat) : List Nat :=
  (List.range m).map fun j => k.next^[j] (k.start t)

/-- A launched kernel behaves as if its threads' indices were handled one after the other: no execution
goes wrong, the memory of every finished execution is that of some order of the indices of all threads
(`M t` of thread `t`), and once every thread has taken enough steps the kernel has finished. -/
def Spec.Linearizes (k : Rmw W V) (mem : List W) (M : Nat → Nat) : Prop :=
  (∀ sched, ∃ s, k.exec mem sched = .ok s ∧ s.mem.length = mem.length ∧ (s.finished →
    ∃ order : List Nat, order.Perm ((List.range k.threads).flatMap fun t => taken k t (M t)) ∧
      s.mem = order.foldl (apply k) mem)) ∧
  ∃ B, ∀ sched s, (∀ t, t < k.threads → B ≤ sched.count t) → k.exec mem sched = .ok s → s.finished

open Cuda.Spec

theorem Rmw.exec_snoc (k : Rmw W V) (mem : List W) (sched : List Nat) (t : Nat) :
    k.exec mem (sched ++ [t]) = (k.exec mem sched).bind fun s => k.step s t := by
  unfold Rmw.exec
  generalize k.init mem = s0
  induction sched generalizing s0 with
  | nil =>
    simp only [List.nil_append, Res.foldL, Res.ok_bind]
    cases k.step s0 t <;> rfl
  | cons a as ih =>
    simp only [List.cons_append, Res.foldL]
    cases k.step s0 a <;> simp [ih]

theorem flatMap_grow {l : List Nat} {t x : Nat} {f g : Nat → List Nat} (hl : l.Nodup) (ht : t ∈ l)
    (h1 : g t = f t ++ [x]) (h2 : ∀ u, u ≠ t → g u = f u) :
    (l.flatMap f ++ [x]).Perm (l.flatMap g) := by
  induction l with
  | nil => cases ht
  | cons a l ih =>
    rw [List.nodup_cons] at hl
    simp only [List.flatMap_cons]
    by_cases hat : a = t
    · subst hat
      have he : l.flatMap g = l.flatMap f := by
        rw [List.flatMap_def, List.flatMap_def]
        exact congrArg List.flatten (List.map_congr_left fun u hu => h2 u fun e => hl.1 (e ▸ hu))
      rw [h1, he]
      rw [List.append_assoc, List.append_assoc]
      exact List.Perm.append_left _ List.perm_append_comm
    · rw [h2 a hat, List.append_assoc]
      refine List.Perm.append_left _ (ih hl.2 ?_)
      rcases List.mem_cons.mp ht with e | e
      · exact absurd e.symm hat
      · exact e

omit [DecidableEq W] in
theorem taken_succ (k : Rmw W V) (t m : Nat) : taken k t (m + 1) = taken k t m ++ [k.next^[m] (k.start t)] := by
  unfold taken
  rw [List.range_succ, List.map_append]
  rfl

/-- The failed attempt a thread may still have ahead of it because the word it assumed is gone. -/
def pending (mem : List W) (a : Nat) (w : W) : Nat := if mem[a]? = some w then 0 else 1

/-- What holds in every reachable state, with `m t` the indices thread `t` has dealt with and `log` all of
them in the order they took effect. -/
structure RInv (k : Rmw W V) (mem0 : List W) (sched : List Nat) (s : RSt W V) (m : Nat → Nat)
    (log : List Nat) : Prop where
  len : s.mem.length = mem0.length
  perm : log.Perm ((List.range k.threads).flatMap fun t => taken k t (m t))
  mem : s.mem = log.foldl (apply k) mem0
  thread : ∀ t, t < k.threads → (∀ j, j < m t → k.next^[j] (k.start t) < k.bound) ∧ ∃ fails,
    ((s.pc t = .head (k.next^[m t] (k.start t)) ∧ sched.count t ≤ 3 * m t + fails ∧ fails ≤ log.length) ∨
     (∃ c v, s.pc t = .load (k.next^[m t] (k.start t)) c v ∧ k.next^[m t] (k.start t) < k.bound ∧
        k.job (k.next^[m t] (k.start t)) = .ok (some (c, v)) ∧
        sched.count t ≤ 3 * m t + 1 + fails ∧ fails ≤ log.length) ∨
     (∃ c v w, s.pc t = .cas (k.next^[m t] (k.start t)) c v w ∧ k.next^[m t] (k.start t) < k.bound ∧
        k.job (k.next^[m t] (k.start t)) = .ok (some (c, v)) ∧
        sched.count t ≤ 3 * m t + 2 + fails ∧ fails + pending s.mem (k.word c) w ≤ log.length) ∨
     (s.pc t = .done ∧ ¬ k.next^[m t] (k.start t) < k.bound))
  rest : ∀ t, ¬ t < k.threads → s.pc t = .done

theorem rinv_init (k : Rmw W V) (mem : List W) : RInv k mem [] (k.init mem) (fun _ => 0) [] where
  len := rfl
  perm := by simp [taken]
  mem := rfl
  thread t ht := ⟨by omega, 0, Or.inl ⟨by simp [Rmw.init, ht], by simp, by simp⟩⟩
  rest t ht := by simp [Rmw.init, ht]

theorem pending_le (mem : List W) (a : Nat) (w : W) : pending mem a w ≤ 1 := by
  unfold pending; split_ifs <;> omega

/-- The other threads when thread `t` has made index `i` take effect. -/
theorem RInv.effect {k : Rmw W V} {mem0 : List W} {sched : List Nat} {s : RSt W V} {m : Nat → Nat}
    {log : List Nat} (h : RInv k mem0 sched s m log) {t : Nat} (ht : t < k.threads)
    (hb : k.next^[m t] (k.start t) < k.bound) {mem' : List W} (hl : mem'.length = s.mem.length)
    (hm : mem' = apply k s.mem (k.next^[m t] (k.start t)))
    (hc : ∃ fails, sched.count t + 1 ≤ 3 * m t + 3 + fails ∧ fails ≤ log.length) :
    ∃ m' log', RInv k mem0 (sched ++ [t])
      { (s.goto t (.head (k.next (k.next^[m t] (k.start t))))) with mem := mem' } m' log' := by
  have hct : (sched ++ [t]).count t = sched.count t + 1 := by simp
  have hcu : ∀ u, u ≠ t → (sched ++ [t]).count u = sched.count u := by
    intro u hu
    rw [List.count_append, List.count_singleton]
    simp [Ne.symm hu]
  refine ⟨Function.update m t (m t + 1), log ++ [k.next^[m t] (k.start t)], ?_⟩
  constructor
  · show mem'.length = _
    rw [hl, h.len]
  · refine (h.perm.append_right _).trans (flatMap_grow (t := t) List.nodup_range (List.mem_range.mpr ht) ?_ ?_)
    · simp [taken_succ]
    · intro u hu
      simp [Function.update_of_ne hu]
  · show mem' = _
    rw [List.foldl_append, ← h.mem, hm]
    rfl
  · intro u hu
    obtain ⟨h1, fails, h2⟩ := h.thread u hu
    by_cases hut : u = t
    · subst hut
      obtain ⟨f', hf1, hf2⟩ := hc
      simp only [Function.update_self]
      refine ⟨fun j hj => ?_, f', Or.inl ⟨?_, ?_, ?_⟩⟩
      · rcases Nat.lt_succ_iff_lt_or_eq.mp hj with e | e
        · exact h1 j e
        · subst e; exact hb
      · show Function.update s.pc u _ u = _
        rw [Function.update_self, Function.iterate_succ_apply']
      · rw [hct]; omega
      · simp only [List.length_append, List.length_singleton]; omega
    · rw [hcu u hut, Function.update_of_ne hut]
      have hp : ∀ p, Function.update s.pc t p u = s.pc u := fun p => Function.update_of_ne hut _ _
      simp only [List.length_append, List.length_singleton]
      refine ⟨h1, fails, ?_⟩
      rcases h2 with ⟨a1, a2, a3⟩ | ⟨c, v, a1, a2, a3, a4, a5⟩ | ⟨c, v, w, a1, a2, a3, a4, a5⟩ | ⟨a1, a2⟩
      · exact Or.inl ⟨(hp _).trans a1, a2, by omega⟩
      · exact Or.inr (Or.inl ⟨c, v, (hp _).trans a1, a2, a3, a4, by omega⟩)
      · refine Or.inr (Or.inr (Or.inl ⟨c, v, w, (hp _).trans a1, a2, a3, a4, ?_⟩))
        have := pending_le mem' (k.word c) w
        have : fails ≤ log.length := by omega
        show fails + pending mem' _ _ ≤ _
        omega
      · exact Or.inr (Or.inr (Or.inr ⟨(hp _).trans a1, a2⟩))
  · intro u hu
    show Function.update s.pc t _ u = _
    rw [Function.update_of_ne (by rintro rfl; exact hu ht)]
    exact h.rest u hu

/-- A step of thread `t` that changes nothing but its place. -/
theorem RInv.move {k : Rmw W V} {mem0 : List W} {sched : List Nat} {s : RSt W V} {m : Nat → Nat}
    {log : List Nat} (h : RInv k mem0 sched s m log) {t : Nat} (ht : t < k.threads) {p : RPc W V}
    (hp : ∃ fails,
      ((∃ c v, p = .load (k.next^[m t] (k.start t)) c v ∧ k.next^[m t] (k.start t) < k.bound ∧
          k.job (k.next^[m t] (k.start t)) = .ok (some (c, v)) ∧
          sched.count t + 1 ≤ 3 * m t + 1 + fails ∧ fails ≤ log.length) ∨
       (∃ c v w, p = .cas (k.next^[m t] (k.start t)) c v w ∧ k.next^[m t] (k.start t) < k.bound ∧
          k.job (k.next^[m t] (k.start t)) = .ok (some (c, v)) ∧
          sched.count t + 1 ≤ 3 * m t + 2 + fails ∧ fails + pending s.mem (k.word c) w ≤ log.length) ∨
       (p = .done ∧ ¬ k.next^[m t] (k.start t) < k.bound))) :
    RInv k mem0 (sched ++ [t]) (s.goto t p) m log := by
  have hct : (sched ++ [t]).count t = sched.count t + 1 := by simp
  have hcu : ∀ u, u ≠ t → (sched ++ [t]).count u = sched.count u := by
    intro u hu
    rw [List.count_append, List.count_singleton]
    simp [Ne.symm hu]
  refine ⟨h.len, h.perm, h.mem, fun u hu => ?_, fun u hu => ?_⟩
  · by_cases hut : u = t
    · subst hut
      obtain ⟨f, hf⟩ := hp
      have hpc : (s.goto u p).pc u = p := Function.update_self _ _ _
      rw [hct, hpc]
      refine ⟨(h.thread u hu).1, f, ?_⟩
      rcases hf with h1 | h1 | h1
      · exact Or.inr (Or.inl h1)
      · exact Or.inr (Or.inr (Or.inl h1))
      · exact Or.inr (Or.inr (Or.inr h1))
    · have hpc : (s.goto t p).pc u = s.pc u := Function.update_of_ne hut _ _
      rw [hcu u hut, hpc]
      exact h.thread u hu
  · show Function.update s.pc t _ u = _
    rw [Function.update_of_ne (by rintro rfl; exact hu ht)]
    exact h.rest u hu

omit [DecidableEq W] in
theorem modify_set {l : List W} {a : Nat} {w : W} (h : l[a]? = some w) (f : W → W) :
    l.set a (f w) = l.modify a f := by
  apply List.ext_getElem?
  intro j
  rw [List.getElem?_modify, List.getElem?_set]
  by_cases hj : a = j
  · subst hj
    obtain ⟨h1, h2⟩ := List.getElem?_eq_some_iff.mp h
    rw [if_pos rfl, if_pos h1, h]
    simp
  · rw [if_neg hj]
    simp [hj]

theorem rinv_step {k : Rmw W V} {mem0 : List W} {sched : List Nat} {s : RSt W V} {m : Nat → Nat}
    {log : List Nat}
    (hj : ∀ i, i < k.bound → ∃ o, k.job i = .ok o ∧ ∀ c v, o = some (c, v) → k.word c < mem0.length)
    (h : RInv k mem0 sched s m log) (t : Nat) :
    ∃ s' m' log', k.step s t = .ok s' ∧ RInv k mem0 (sched ++ [t]) s' m' log' := by
  by_cases ht : t < k.threads
  · obtain ⟨h1, fails, h2⟩ := h.thread t ht
    rcases h2 with ⟨a1, a2, a3⟩ | ⟨c, v, a1, a2, a3, a4, a5⟩ | ⟨c, v, w, a1, a2, a3, a4, a5⟩ | ⟨a1, a2⟩
    · by_cases hb : k.next^[m t] (k.start t) < k.bound
      · obtain ⟨o, ho, hw⟩ := hj _ hb
        cases o with
        | none =>
          obtain ⟨m', log', hi⟩ := h.effect ht hb (mem' := s.mem) rfl (by unfold apply; rw [ho])
            ⟨fails, by omega, a3⟩
          refine ⟨_, m', log', ?_, hi⟩
          unfold Rmw.step
          simp only [a1, if_pos hb, ho, Res.ok_bind]
          rfl
        | some cv =>
          obtain ⟨c, v⟩ := cv
          refine ⟨_, m, log, ?_, h.move ht (p := .load (k.next^[m t] (k.start t)) c v)
            ⟨fails, Or.inl ⟨c, v, rfl, hb, ho, by omega, a3⟩⟩⟩
          unfold Rmw.step
          simp only [a1, if_pos hb, ho, Res.ok_bind]
      · refine ⟨_, m, log, ?_, h.move ht (p := .done) ⟨0, Or.inr (Or.inr ⟨rfl, hb⟩)⟩⟩
        unfold Rmw.step
        simp only [a1, if_neg hb]
    · have hlt : k.word c < s.mem.length := by
        obtain ⟨o, ho, hw⟩ := hj _ a2
        rw [a3] at ho
        cases ho
        rw [h.len]
        exact hw c v rfl
      have hr : s.mem[k.word c]? = some s.mem[k.word c] := List.getElem?_eq_getElem hlt
      cases hway : k.way with
      | single =>
        obtain ⟨m', log', hi⟩ := h.effect ht a2
          (mem' := s.mem.set (k.word c) (k.upd c s.mem[k.word c] v)) (by simp)
          (by unfold apply; rw [a3]; exact modify_set hr fun w => k.upd c w v) ⟨fails, by omega, a5⟩
        refine ⟨_, m', log', ?_, hi⟩
        unfold Rmw.step
        simp only [a1, hway, readC_eq_ok.mpr hr, Res.ok_bind]
      | casLoop =>
        refine ⟨_, m, log, ?_, h.move ht (p := .cas (k.next^[m t] (k.start t)) c v s.mem[k.word c])
            ⟨fails, Or.inr (Or.inl ⟨c, v, _, rfl, a2, a3, by omega, ?_⟩)⟩⟩
        · unfold Rmw.step
          simp only [a1, hway, readC_eq_ok.mpr hr, Res.ok_bind]
        · unfold pending
          rw [if_pos hr]
          exact a5
    · have hlt : k.word c < s.mem.length := by
        obtain ⟨o, ho, hw⟩ := hj _ a2
        rw [a3] at ho
        cases ho
        rw [h.len]
        exact hw c v rfl
      have hr : s.mem[k.word c]? = some s.mem[k.word c] := List.getElem?_eq_getElem hlt
      by_cases hc : s.mem[k.word c] = w
      · obtain ⟨m', log', hi⟩ := h.effect ht a2
          (mem' := s.mem.set (k.word c) (k.upd c w v)) (by simp)
          (by unfold apply; rw [a3, ← hc]; exact modify_set hr fun w => k.upd c w v)
          ⟨fails, by omega, by omega⟩
        refine ⟨_, m', log', ?_, hi⟩
        unfold Rmw.step
        simp only [a1, readC_eq_ok.mpr hr, Res.ok_bind, if_pos hc]
      · refine ⟨_, m, log, ?_, h.move ht (p := .cas (k.next^[m t] (k.start t)) c v s.mem[k.word c])
            ⟨fails + 1, Or.inr (Or.inl ⟨c, v, _, rfl, a2, a3, by omega, ?_⟩)⟩⟩
        · unfold Rmw.step
          simp only [a1, readC_eq_ok.mpr hr, Res.ok_bind, if_neg hc]
        · unfold pending at a5 ⊢
          rw [if_neg (by rw [hr]; simpa using hc)] at a5
          rw [if_pos hr]
          omega
    · refine ⟨s, m, log, by unfold Rmw.step; simp only [a1], ?_⟩
      have := h.move ht (p := .done) ⟨0, Or.inr (Or.inr ⟨rfl, a2⟩)⟩
      have e : s.goto t .done = s := by
        unfold RSt.goto
        rw [← a1, Function.update_eq_self]
      rwa [e] at this
  · have hd := h.rest t ht
    refine ⟨s, m, log, by unfold Rmw.step; simp only [hd], ⟨h.len, h.perm, h.mem, fun u hu => ?_, h.rest⟩⟩
    have hut : u ≠ t := by rintro rfl; exact ht hu
    have hcu : (sched ++ [t]).count u = sched.count u := by
      rw [List.count_append, List.count_singleton]
      simp [Ne.symm hut]
    rw [hcu]
    exact h.thread u hu

theorem Rmw.exec_inv {k : Rmw W V} {mem0 : List W}
    (hj : ∀ i, i < k.bound → ∃ o, k.job i = .ok o ∧ ∀ c v, o = some (c, v) → k.word c < mem0.length)
    (sched : List Nat) : ∃ s m log, k.exec mem0 sched = .ok s ∧ RInv k mem0 sched s m log := by
  induction sched using List.reverseRecOn with
  | nil => exact ⟨_, _, _, rfl, rinv_init k mem0⟩
  | append_singleton as a ih =>
    obtain ⟨s, m, log, hs, hi⟩ := ih
    obtain ⟨s', m', log', hs', hi'⟩ := rinv_step hj hi a
    exact ⟨s', m', log', by rw [Rmw.exec_snoc, hs]; exact hs', hi'⟩

theorem flatMap_length_le {l : List Nat} {f g : Nat → List Nat} (h : ∀ t ∈ l, (f t).length ≤ (g t).length) :
    (l.flatMap f).length ≤ (l.flatMap g).length := by
  induction l with
  | nil => simp
  | cons a l ih =>
    simp only [List.flatMap_cons, List.length_append]
    have := h a (by simp)
    have := ih fun t ht => h t (by simp [ht])
    omega

/-- Every kernel whose jobs stay inside of the memory and whose threads leave the loop linearizes. -/
theorem linearizes {k : Rmw W V} {mem0 : List W} {M : Nat → Nat}
    (hj : ∀ i, i < k.bound → ∃ o, k.job i = .ok o ∧ ∀ c v, o = some (c, v) → k.word c < mem0.length)
    (hM : ∀ t, t < k.threads → (∀ j, j < M t → k.next^[j] (k.start t) < k.bound) ∧
      ¬ k.next^[M t] (k.start t) < k.bound) :
    Linearizes k mem0 M := by
  have hmM : ∀ {sched s m log}, RInv k mem0 sched s m log → ∀ t, t < k.threads → m t ≤ M t := by
    intro sched s m log hi t ht
    by_contra hc
    exact (hM t ht).2 ((hi.thread t ht).1 (M t) (by omega))
  constructor
  · intro sched
    obtain ⟨s, m, log, hs, hi⟩ := Rmw.exec_inv hj sched
    refine ⟨s, hs, hi.len, fun hf => ⟨log, ?_, hi.mem⟩⟩
    refine hi.perm.trans (List.Perm.of_eq ?_)
    rw [List.flatMap_def, List.flatMap_def]
    refine congrArg List.flatten (List.map_congr_left fun t ht => ?_)
    rw [List.mem_range] at ht
    have h1 := hmM hi t ht
    obtain ⟨_, fails, h2⟩ := hi.thread t ht
    have hd := hf t
    rcases h2 with ⟨a1, _⟩ | ⟨c, v, a1, _⟩ | ⟨c, v, w, a1, _⟩ | ⟨_, a2⟩
    · rw [a1] at hd; cases hd
    · rw [a1] at hd; cases hd
    · rw [a1] at hd; cases hd
    · have : m t = M t := by
        by_contra hne
        exact a2 ((hM t ht).1 (m t) (by omega))
      rw [this]
  · let T := ((List.range k.threads).flatMap fun t => taken k t (M t)).length
    have hlen : ∀ t, t < k.threads → M t ≤ T := by
      intro t ht
      have : (taken k t (M t)).length ≤ T := by
        have hsub : (taken k t (M t)).Sublist ((List.range k.threads).flatMap fun t => taken k t (M t)) :=
          List.sublist_flatten_of_mem (List.mem_map.mpr ⟨t, List.mem_range.mpr ht, rfl⟩)
        exact hsub.length_le
      simpa [taken] using this
    refine ⟨4 * T + 3, fun sched s hc hs t => ?_⟩
    obtain ⟨s', m, log, hs', hi⟩ := Rmw.exec_inv hj sched
    rw [hs] at hs'
    cases hs'
    have hT : log.length ≤ T := by
      rw [hi.perm.length_eq]
      refine flatMap_length_le fun t ht => ?_
      simp only [taken, List.length_map, List.length_range]
      exact hmM hi t (List.mem_range.mp ht)
    by_cases ht : t < k.threads
    · have h1 := hmM hi t ht
      have h3 := hlen t ht
      have hct := hc t ht
      obtain ⟨_, fails, h2⟩ := hi.thread t ht
      rcases h2 with ⟨_, a2, a3⟩ | ⟨c, v, _, _, _, a4, a5⟩ | ⟨c, v, w, _, _, _, a4, a5⟩ | ⟨a1, _⟩
      · omega
      · omega
      · omega
      · exact a1
    · exact hi.rest t ht

/-! ## The launch -/

omit [DecidableEq W] in
/-- Up to `2 ^ 31` indices every index is taken by exactly one thread. -/
theorem rmwGrid_takes {n : Nat} (hn : n ≤ 2 ^ 31) (job : Nat → Res (Option (Nat × V))) (word : Nat → Nat)
    (upd : Nat → W → V → W) (way : Way) :
    let k := rmwGrid n job word upd way
    (∀ t, t < k.threads → (∀ j, j < (if t < n then 1 else 0) → k.next^[j] (k.start t) < k.bound) ∧
      ¬ k.next^[if t < n then 1 else 0] (k.start t) < k.bound) ∧
    ((List.range k.threads).flatMap fun t => taken k t (if t < n then 1 else 0)) = List.range n := by
  intro k
  obtain ⟨h1, h2⟩ := grid_bounds (show n ≤ 2 ^ 32 - 256 by omega)
  have hG : 256 * gridSize n ≤ max (2 ^ 31) 256 := by
    have hu : u32 n = n := Nat.mod_eq_of_lt (by omega)
    unfold gridSize
    rw [hu]
    omega
  have hst : ∀ t, t < k.threads → k.start t = t := fun t ht =>
    threadStart_eq (by have : t < 256 * gridSize n := ht; omega)
  constructor
  · intro t ht
    have ht' : t < 256 * gridSize n := ht
    split_ifs with htn
    · refine ⟨fun j hj => ?_, ?_⟩
      · have : j = 0 := by omega
        subst this
        show k.start t < n
        rw [hst t ht]; exact htn
      · show ¬ advance (gridSize n) (k.start t) < n
        rw [hst t ht]
        unfold advance
        have e1 : u32 (256 * gridSize n) = 256 * gridSize n := Nat.mod_eq_of_lt (by omega)
        have e2 : u32 (t + 256 * gridSize n) = t + 256 * gridSize n := Nat.mod_eq_of_lt (by omega)
        rw [e1, e2]
        omega
    · refine ⟨by omega, ?_⟩
      show ¬ k.start t < n
      rw [hst t ht]; exact htn
  · have hk : k.threads = n + (256 * gridSize n - n) := by show 256 * gridSize n = _; omega
    have key : ∀ N, N ≤ k.threads → ((List.range N).flatMap fun t => taken k t (if t < n then 1 else 0)) =
        List.range (min N n) := by
      intro N
      induction N with
      | zero => intro _; simp
      | succ N ih =>
        intro hN
        rw [List.range_succ, List.flatMap_append, ih (by omega)]
        simp only [List.flatMap_cons, List.flatMap_nil, List.append_nil]
        split_ifs with hNn
        · rw [show min (N + 1) n = N + 1 by omega, show min N n = N by omega, List.range_succ]
          simp [taken, hst N (by omega)]
        · rw [show min (N + 1) n = n by omega, show min N n = n by omega]
          simp [taken]
    rw [key _ (Nat.le_refl _), show min k.threads n = n by omega]

/-- The grids of at most `2 ^ 31` indices linearize: the finished executions have handled every index once,
in some order. -/
theorem rmwGrid_linearizes {n : Nat} (hn : n ≤ 2 ^ 31) {job : Nat → Res (Option (Nat × V))}
    {word : Nat → Nat} {upd : Nat → W → V → W} {way : Way} {mem : List W}
    (hj : ∀ i, i < n → ∃ o, job i = .ok o ∧ ∀ c v, o = some (c, v) → word c < mem.length) :
    let k := rmwGrid n job word upd way
    (∀ sched, ∃ s, k.exec mem sched = .ok s ∧ s.mem.length = mem.length ∧ (s.finished →
      ∃ order : List Nat, order.Perm (List.range n) ∧ s.mem = order.foldl (apply k) mem)) ∧
    ∃ B, ∀ sched s, (∀ t, t < k.threads → B ≤ sched.count t) → k.exec mem sched = .ok s → s.finished := by
  intro k
  obtain ⟨h1, h2⟩ := rmwGrid_takes hn job word upd way
  have := linearizes (k := k) (mem0 := mem) (M := fun t => if t < n then 1 else 0) hj h1
  unfold Linearizes at this
  rw [h2] at this
  exact this

end Hodu.Cuda
