import Verif.Model.CudaScan
import Verif.Lemmas.CudaSelect

/-!
# Kernels without a loop over indices
-/

namespace Hodu.Cuda

open _root_.Hodu.Spec Cuda.Spec

variable {V : Type} {α : Type}

/-- Thread `t` runs the program of index `t` and nothing else; every index has a thread. -/
structure RunsOnce (K : PKernel V) (n : Nat) (prog : Nat → Prog V) : Prop where
  bound : K.bound = n
  next : ∀ i, K.next i = n
  prog : K.prog = prog
  start : ∀ t, t < K.threads → K.start t = t
  covers : n ≤ K.threads

theorem progOnce_runs {n : Nat} (hn : n ≤ 2 ^ 32 - 256) (prog : Nat → Prog V) : RunsOnce (progOnce n prog) n prog := by
  obtain ⟨h1, h2⟩ := grid_bounds hn
  exact ⟨rfl, fun _ => rfl, rfl, fun t ht => threadStart_eq (by
    have : t < 256 * gridSize n := ht
    omega), h1⟩

theorem runsOnce_ends {T : Addr → V → Prop} {n D : Nat} {K : PKernel V} {prog : Nat → Prog V} (hK : RunsOnce K n prog)
    {m0 : Mem V} (hT : Typed T m0) (hin : ∀ i, i < n → Inside T m0 (prog i))
    (hind : ∀ i j, i < n → j < n → i ≠ j → Indep T (prog i) (prog j)) (hD : ∀ i, i < n → Depth (prog i) D) :
    ∃ M, seq ((List.range n).map prog) m0 = .ok M ∧ Ends K m0 M := by
  obtain ⟨hb, hne, hp, hs, hc⟩ := hK
  subst hb
  subst hp
  have hinc : ∀ i, i < K.bound → i < K.next i := fun i hi => by rw [hne]; exact hi
  have hcov := cover (k := K) hinc hs (fun i _ => (hne i).ge) hc
  obtain ⟨M, e1, _, _, e4⟩ := race_free (T := T) (k := K) (m0 := m0) hinc hT hin hind (by rw [hcov])
  exact ⟨M, e1, e4, terminates hinc hD⟩

theorem once_ends_raw {T : Addr → V → Prop} {n D : Nat} (hn : n ≤ 2 ^ 32 - 256) {prog : Nat → Prog V} {m0 : Mem V}
    (hT : Typed T m0) (hin : ∀ i, i < n → Inside T m0 (prog i))
    (hind : ∀ i j, i < n → j < n → i ≠ j → Indep T (prog i) (prog j)) (hD : ∀ i, i < n → Depth (prog i) D) :
    ∃ M, seq ((List.range n).map prog) m0 = .ok M ∧ Ends (progOnce n prog) m0 M :=
  runsOnce_ends (progOnce_runs hn prog) hT hin hind hD

theorem storeAll_depth : ∀ (cs : List (Addr × V)) (d : Nat), cs.length ≤ d → Depth (storeAll cs) d := by
  intro cs
  induction cs with
  | nil => exact fun _ _ => trivial
  | cons c cs ih =>
    intro d h
    obtain ⟨e, rfl⟩ : ∃ e, d = e + 1 := ⟨d - 1, by simp at h; omega⟩
    exact fun _ => ih e (by simpa using h)

theorem storeAll_all {T : Addr → V → Prop} {P : Addr → (V → V) → (V → Prog V) → Prop} : ∀ (cs : List (Addr × V)),
    (∀ c ∈ cs, T c.1 c.2 ∧ ∀ p, P c.1 (fun _ => c.2) (fun _ => p)) → All T P (storeAll cs) := by
  intro cs
  induction cs with
  | nil => exact fun _ => trivial
  | cons c cs ih =>
    intro h
    exact ⟨(h c (by simp)).2 _, fun v _ => ⟨(h c (by simp)).1, ih fun d hd => h d (by simp [hd])⟩⟩

theorem storeAll_run (G : Addr → V) : ∀ (cs : List (Addr × V)) (m : Mem V), (∀ c ∈ cs, (m c.1).isSome = true) →
    (∀ c ∈ cs, c.2 = G c.1) →
    (storeAll cs).run m = .ok fun a => if ∃ c ∈ cs, a = c.1 then some (G a) else m a := by
  intro cs
  induction cs with
  | nil => intro m _ _; simp [storeAll, Prog.run]
  | cons c cs ih =>
    intro m h hf
    obtain ⟨v, hv⟩ := Option.isSome_iff_exists.mp (h c (by simp))
    rw [storeAll, run_store hv, ih _ (fun d hd => by
      rw [← sameCells_upd m c.1 _ d.1]; exact h d (by simp [hd])) (fun d hd => hf d (by simp [hd]))]
    refine congrArg Res.ok (funext fun a => ?_)
    by_cases h1 : ∃ d ∈ cs, a = d.1
    · rw [if_pos h1, if_pos (by obtain ⟨d, hd, e⟩ := h1; exact ⟨d, by simp [hd], e⟩)]
    · rw [if_neg h1]
      by_cases h2 : a = c.1
      · rw [if_pos ⟨c, by simp, h2⟩, h2, Mem.upd_self hv, ← hf c (by simp)]
      · rw [if_neg, Mem.upd_ne h2]
        rintro ⟨d, hd, e⟩
        rcases List.mem_cons.mp hd with rfl | hd
        · exact h2 e
        · exact h1 ⟨d, hd, e⟩

/-- A kernel whose threads store known values that agree wherever two threads store to the same cell. -/
theorem stores_once {n : Nat} {K : PKernel V} {prog : Nat → Prog V} (hK : RunsOnce K n prog) {cells : Nat → List (Addr × V)}
    {G : Addr → V} {m0 M : Mem V} (hp : ∀ i, i < n → prog i = storeAll (cells i))
    (hin : ∀ i, i < n → ∀ c ∈ cells i, (m0 c.1).isSome = true ∧ c.2 = G c.1)
    (hM : ∀ i, i < n → ∀ c ∈ cells i, M c.1 = some (G c.1))
    (hM' : ∀ a, (∀ i, i < n → ∀ c ∈ cells i, a ≠ c.1) → M a = m0 a) :
    Ends K m0 M := by
  obtain ⟨D, hD⟩ := exists_bound (fun i => (cells i).length) n
  obtain ⟨M', e, hE⟩ := runsOnce_ends (T := fun _ _ => True) (D := D) hK (m0 := m0)
    (fun _ _ _ => trivial)
    (fun i hi => by rw [hp i hi]; exact storeAll_all _ fun c hc => ⟨trivial, fun _ => (hin i hi c hc).1⟩)
    (fun i j hi hj _ => by
      rw [hp i hi, hp j hj]
      refine storeAll_all _ fun c hc => ⟨trivial, fun p => storeAll_all _ fun d hd => ⟨trivial, fun q => ?_⟩⟩
      by_cases h : c.1 = d.1
      · right
        intro x _
        refine ⟨?_, rfl, rfl⟩
        rw [(hin i hi c hc).2, (hin j hj d hd).2, h]
      · exact Or.inl h)
    (fun i hi => by rw [hp i hi]; exact storeAll_depth _ _ (hD i hi))
  have e' : seq ((List.range n).map fun i => storeAll (cells i)) m0 = .ok M' := by
    rw [← e]
    exact congrArg (seq · m0) (List.map_congr_left fun i hi => (hp i (List.mem_range.mp hi)).symm)
  obtain ⟨M2, e2, h1, h2⟩ := seq_inv (prog := fun i => storeAll (cells i))
    (fun i m => SameCells m0 m ∧ ∀ a, m a = if ∃ j, j < i ∧ ∃ c ∈ cells j, a = c.1 then some (G a) else m0 a)
    (m0 := m0) ⟨fun _ => rfl, fun a => by rw [if_neg]; rintro ⟨j, hj, _⟩; omega⟩ n (by
      rintro i m hi ⟨h1, h2⟩
      refine ⟨_, storeAll_run G (cells i) m (fun c hc => by rw [← h1]; exact (hin i hi c hc).1)
        (fun c hc => (hin i hi c hc).2), ?_, ?_⟩
      · intro a
        dsimp only
        split_ifs with h
        · obtain ⟨c, hc, rfl⟩ := h
          rw [(hin i hi c hc).1]
          rfl
        · exact h1 a
      · intro a
        by_cases h3 : ∃ c ∈ cells i, a = c.1
        · rw [if_pos h3, if_pos ⟨i, by omega, h3⟩]
        · rw [if_neg h3, h2 a]
          by_cases h4 : ∃ j, j < i ∧ ∃ c ∈ cells j, a = c.1
          · rw [if_pos h4, if_pos (by obtain ⟨j, hj, h⟩ := h4; exact ⟨j, by omega, h⟩)]
          · rw [if_neg h4, if_neg]
            rintro ⟨j, hj, h⟩
            rcases Nat.lt_or_eq_of_le (Nat.le_of_lt_succ hj) with hj | rfl
            · exact h4 ⟨j, hj, h⟩
            · exact h3 h)
  rw [e'] at e2
  cases e2
  have : M' = M := by
    funext a
    rw [h2 a]
    split_ifs with h
    · obtain ⟨j, hj, c, hc, rfl⟩ := h
      exact (hM j hj c hc).symm
    · exact (hM' a fun i hi c hc ea => h ⟨i, hi, c, hc, ea⟩).symm
  rw [this] at hE
  exact hE

/-- The same on the grid of `progOnce`. -/
theorem once_ends {n : Nat} (hn : n ≤ 2 ^ 32 - 256) {prog : Nat → Prog V} {cells : Nat → List (Addr × V)}
    {G : Addr → V} {m0 M : Mem V} (hp : ∀ i, i < n → prog i = storeAll (cells i))
    (hin : ∀ i, i < n → ∀ c ∈ cells i, (m0 c.1).isSome = true ∧ c.2 = G c.1)
    (hM : ∀ i, i < n → ∀ c ∈ cells i, M c.1 = some (G c.1))
    (hM' : ∀ a, (∀ i, i < n → ∀ c ∈ cells i, a ≠ c.1) → M a = m0 a) :
    Ends (progOnce n prog) m0 M :=
  stores_once (progOnce_runs hn prog) hp hin hM hM'

end Hodu.Cuda
