import Verif.Props.PluginRegistry
import Verif.Props.RegistryFile
import Verif.Props.Autograd
import Verif.Props.Capture

/-!
# Results and identifiers the main theorems leave open

What `enable` and `disable` report (C50), what two overlapping saves leave in the registry file
(C51), that only existing tensors require gradients (C34), and that a new board is never an old
one (C38).
-/

namespace Hodu.Plugins

/-- **C50, reports.**  `enable` and `disable` report exactly whether the plugin is registered. -/
theorem C50_reports (r : Registry) (name : String) (b : Bool) :
    (setEnabled r name b).2 = true ↔ ∃ p ∈ r, p.name = name := by
  have hm : name ∈ names r ↔ ∃ p ∈ r, p.name = name := by simp [names]
  unfold setEnabled
  rcases modify_spec r name (fun p => { p with enabled := b }) (fun e h => h) with
    ⟨h1, h2⟩ | ⟨r', h1, -, h3, -⟩
  · rw [h2, ← hm]
    simpa using h1
  · rw [h1, ← hm]
    simpa using h3

/-- One plugin registered: disabling it is reported as done, disabling another is not. -/
example : (setEnabled [exEntry "a" 1] "a" false).2 = true ∧
    (setEnabled [exEntry "a" 1] "b" false).2 = false := by decide +kernel

end Hodu.Plugins

namespace Hodu.RegFile

/-- The texts of two savers. -/
def exContent2 : Bool → List Nat
  | true => [7, 8, 9]
  | false => [5]

/-- **C51, overlapping saves.**  A second save that opens the file while the first one is writing
it makes the file lose the beginning of the first text: the first save then finishes without an
error, and a reader finds zero bytes where the beginning was, a text nobody wrote. -/
theorem C51_overlap_false : ∃ s : Sys Bool Unit, Reach exContent2 (some [1]) s ∧
    s.saver true = .finished ∧ s.saver false = .opened ∧
    s.loader () = .finished (some [0, 0, 9]) ∧
    ¬ Complete exContent2 (some [1]) (some [0, 0, 9]) := by
  have h0 : Reach (κ := Unit) exContent2 (some [1])
      ⟨some [], Function.update (fun _ => .idle) true .opened, fun _ => .idle⟩ :=
    .step .init (.open _ true rfl)
  have h1 := Reach.step h0 (.lock _ true (by simp) (by intro j; cases j <;> simp [Phase.holds])
    (by simp))
  have h2 := Reach.step h1 (.begin _ true (by simp))
  have h3 := Reach.step h2 (.write _ true 0 7 [] (by simp) rfl rfl)
  have h4 := Reach.step h3 (.write _ true 1 8 [7] (by simp) rfl rfl)
  have h5 := Reach.step h4 (.open _ false (by simp))
  have h6 := Reach.step h5 (.write _ true 2 9 [] (by simp) rfl rfl)
  have h7 := Reach.step h6 (.finish _ true (by simp [exContent2]))
  have h8 := Reach.step h7 (.loadOpen _ () rfl (by simp))
  have h9 := Reach.step h8 (.loadLock _ () (by simp)
    (by intro j; cases j <;> simp [Phase.holds]))
  have h10 := Reach.step h9 (.loadRead _ () [0, 0, 9] (by simp) rfl)
  refine ⟨_, h10, by simp, by simp, by simp, ?_⟩
  rintro (h | ⟨i, h⟩)
  · cases h
  · cases i <;> cases h

end Hodu.RegFile

namespace Hodu.Autograd

variable {V : Type}

theorem backward_keeps [Add V] (st : St V) (loss : Nat) (one : V) :
    (backward st loss one).1.requires = st.requires ∧ (backward st loss one).1.next = st.next := by
  unfold backward
  simp only
  split
  · split <;> exact ⟨rfl, rfl⟩
  · exact ⟨rfl, rfl⟩

theorem leaf_requires {st : St V} (h : ∀ i, st.requires i = true → i < st.next) (v : V)
    (req : Bool) : ∀ i, (leaf st v req).requires i = true → i < (leaf st v req).next := by
  intro i hi
  simp only [leaf] at hi ⊢
  by_cases hn : i = st.next
  · omega
  · rw [Function.update_of_ne hn] at hi
    have := h i hi
    omega

theorem record_keeps (st : St V) (e : Entry V) :
    (record st e).requires = st.requires ∧ (record st e).next = st.next := by
  unfold record
  split
  · exact ⟨rfl, rfl⟩
  · split <;> exact ⟨rfl, rfl⟩

theorem step_requires [Add V] {st : St V} (hg : Good st)
    (h : ∀ i, st.requires i = true → i < st.next) (s : Step V) :
    ∀ i, (step st s).requires i = true → i < (step st s).next := by
  cases s with
  | leaf v req => exact leaf_requires h v req
  | op ins f vjp diff =>
    simp only [step, op]
    split
    · split
      · rw [(record_keeps _ _).1, (record_keeps _ _).2]
        exact leaf_requires h _ _
      · exact leaf_requires h _ _
    · exact h
  | enter => exact h
  | leave c =>
    simp only [step, leave]
    split <;> exact h
  | backward loss one =>
    simp only [step]
    rw [(backward_keeps st loss one).1, (backward_keeps st loss one).2]
    exact h
  | zeroGrad i zero =>
    simp only [step, zeroGrad]
    split
    · split <;> exact h
    · exact h
  | dropLeaf i => exact h
  | die i => exact h
  | setReq i b =>
    simp only [step]
    split
    · rename_i ha
      intro j hj
      simp only at hj ⊢
      by_cases hn : j = i
      · subst hn; exact hg.alive j ha
      · rw [Function.update_of_ne hn] at hj; exact h j hj
    · exact h
  | setVal i v =>
    simp only [step]
    split <;> exact h
  | optFlag b => exact h

/-- **C34, existing tensors.**  After any history, a tensor that requires a gradient has been
created; in particular, in a fresh process none does. -/
theorem C34_requires_exist [Add V] (z : V) (l : List (Step V)) (i : Nat)
    (h : (run (init z) l).requires i = true) : i < (run (init z) l).next := by
  have key : ∀ (l : List (Step V)) (st : St V), Good st →
      (∀ i, st.requires i = true → i < st.next) →
      ∀ i, (run st l).requires i = true → i < (run st l).next := by
    intro l
    induction l with
    | nil => intro st _ h; exact h
    | cons s l ih => intro st hg h; exact ih _ (good_step hg s) (step_requires hg h s)
  exact key l _ (good_init z) (by intro i hi; cases hi) i h

/-- After creating two tensors, the second of which requires a gradient. -/
example : (run (init (0 : Int)) [.leaf 1 false, .leaf 2 true]).requires 1 = true ∧
    (run (init (0 : Int)) [.leaf 1 false, .leaf 2 true]).next = 2 := ⟨rfl, rfl⟩

end Hodu.Autograd

namespace Hodu.Cap

variable {O V : Type}

theorem onBoard_boards (st : St O V) (b : Nat) (f : Board O → Board O)
    (h : ∀ c, st.boards c ≠ none → c < st.nextBoard) :
    ∀ c, (onBoard st b f).boards c ≠ none → c < (onBoard st b f).nextBoard := by
  unfold onBoard
  split
  · rename_i bd hb
    intro c hc
    simp only at hc ⊢
    by_cases hcb : c = b
    · subst hcb; exact h c (by rw [hb]; simp)
    · rw [Function.update_of_ne hcb] at hc; exact h c hc
  · exact h

theorem step_boards (st : St O V) (h : ∀ c, st.boards c ≠ none → c < st.nextBoard)
    (s : Step O V) : ∀ c, (step st s).boards c ≠ none → c < (step st s).nextBoard := by
  cases s with
  | const v l => exact h
  | board =>
    intro c hc
    simp only [step] at hc ⊢
    by_cases hcb : c = st.nextBoard
    · omega
    · rw [Function.update_of_ne hcb] at hc
      have := h c hc
      omega
  | «open» b => exact h
  | close => exact h
  | input name dims =>
    simp only [step]
    split
    · exact h
    · exact onBoard_boards _ _ _ h
  | op o ins l =>
    simp only [step]
    split
    · exact h
    · exact onBoard_boards _ _ _ h
  | hidden l => exact h
  | target b name i => exact onBoard_boards _ _ _ h
  | drop i =>
    simp only [step]
    split
    · split <;> exact h
    · exact h
  | set i j =>
    simp only [step]
    split <;> exact h

/-- **C38, new boards.**  After any history, `CaptureBoard::new` makes a board that was not there
before, empty, and leaves every other board as it was. -/
theorem C38_new_board (l : List (Step O V)) :
    let st := run (init : St O V) l
    ∃ b, st.boards b = none ∧
      (step st .board).boards b = some { inputs := [], targets := [], ops := [] } ∧
      ∀ c, c ≠ b → (step st .board).boards c = st.boards c := by
  intro st
  have key : ∀ (l : List (Step O V)) (st : St O V),
      (∀ c, st.boards c ≠ none → c < st.nextBoard) →
      ∀ c, (run st l).boards c ≠ none → c < (run st l).nextBoard := by
    intro l
    induction l with
    | nil => intro st h; exact h
    | cons s l ih => intro st h; exact ih _ (step_boards st h s)
  have hst := key l init (by intro c hc; exact absurd rfl hc)
  refine ⟨st.nextBoard, ?_, ?_, ?_⟩
  · by_contra hb
    exact absurd (hst _ hb) (lt_irrefl _)
  · simp [step]
  · intro c hc
    simp [step, Function.update_of_ne hc]

/-- With a board already there that has an input, the new board is another one. -/
example : ((run (init : St Nat Int) [.board, .open 0, .input "x" [2], .board]).boards 0 ≠ none) ∧
    (run (init : St Nat Int) [.board, .open 0, .input "x" [2], .board]).boards 1 ≠ none := by
  constructor <;> (intro h; cases h)

end Hodu.Cap
