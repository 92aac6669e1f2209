import Verif.Props.Autograd
import Mathlib.Algebra.Ring.Int.Defs
import Mathlib.Tactic.Ring

/-!
# C35, C36, C57: repeated `backward`, nested contexts, completeness of the tape
-/

namespace Hodu.Autograd

open Function

/-! ## C35 -/

section C35

variable {V : Type} [Add V]

/-- Two accumulators that agree on `map`, and on what is stored wherever `map` has a value and the
tensor requires a gradient. -/
def Same (requires : Nat → Bool) (a b : Acc V) : Prop :=
  a.map = b.map ∧ ∀ i, requires i = true → a.map i ≠ none → a.grads i = b.grads i

theorem Same.accOne {requires : Nat → Bool} {a b : Acc V} (h : Same requires a b) (p : Nat × V) :
    Same requires (accOne requires a p) (accOne requires b p) := by
  obtain ⟨hm, hg⟩ := h
  refine ⟨?_, ?_⟩
  · simp only [Autograd.accOne, hm]
  · intro i hi hne
    by_cases hip : i = p.1
    · subst hip
      simp only [Autograd.accOne, if_pos hi, update_self, hm]
    · simp only [Autograd.accOne, update_of_ne hip] at hne ⊢
      by_cases hp : requires p.1 = true
      · simp only [if_pos hp, update_of_ne hip]
        exact hg i hi hne
      · simp only [if_neg hp]
        exact hg i hi hne

theorem Same.fold {requires : Nat → Bool} (l : List (Nat × V)) :
    ∀ {a b : Acc V}, Same requires a b →
      Same requires (l.foldl (Autograd.accOne requires) a) (l.foldl (Autograd.accOne requires) b) := by
  induction l with
  | nil => intro a b h; exact h
  | cons p l ih => intro a b h; exact ih (h.accOne p)

theorem Same.walk (requires alive : Nat → Bool) (vals : Nat → V) :
    ∀ (es : List (Entry V)) (a b : Acc V), Same requires a b →
      (walk requires alive vals es a).2 = (walk requires alive vals es b).2 ∧
      Same requires (walk requires alive vals es a).1 (walk requires alive vals es b).1 := by
  intro es
  induction es with
  | nil => intro a b h; exact ⟨rfl, h⟩
  | cons e es ih =>
    intro a b h
    unfold Autograd.walk
    rw [← h.1]
    cases a.map e.out with
    | none => exact ih a b h
    | some g =>
      simp only
      split
      · cases e.vjp vals g with
        | ok gs => exact ih _ _ (h.fold _)
        | err => exact ⟨rfl, h⟩
        | panic => exact ⟨rfl, h⟩
        | ub => exact ⟨rfl, h⟩
      · exact ⟨rfl, h⟩

/-- Every tensor the map has a value for is the loss, or was an input. -/
theorem walk_frame (requires alive : Nat → Bool) (vals : Nat → V) (old : Nat → Option V)
    (es : List (Entry V)) (a : Acc V) (h : ∀ i, a.map i = none → a.grads i = old i) :
    ∀ i, (walk requires alive vals es a).1.map i = none →
      (walk requires alive vals es a).1.grads i = old i := by
  have hstep : ∀ (b : Acc V) (p : Nat × V), (∀ i, b.map i = none → b.grads i = old i) →
      ∀ i, (accOne requires b p).map i = none → (accOne requires b p).grads i = old i := by
    intro b p hb i hi
    by_cases hip : i = p.1
    · subst hip; simp [accOne] at hi
    · simp only [accOne, update_of_ne hip] at hi ⊢
      split
      · rw [update_of_ne hip]; exact hb i hi
      · exact hb i hi
  have hfold : ∀ (l : List (Nat × V)) (b : Acc V), (∀ i, b.map i = none → b.grads i = old i) →
      ∀ i, (l.foldl (accOne requires) b).map i = none →
        (l.foldl (accOne requires) b).grads i = old i := by
    intro l
    induction l with
    | nil => intro b hb; exact hb
    | cons p l ih => intro b hb; exact ih _ (hstep b p hb)
  induction es generalizing a with
  | nil => exact h
  | cons e es ih =>
    unfold walk
    cases a.map e.out with
    | none => exact ih a h
    | some g =>
      simp only
      split
      · cases e.vjp vals g with
        | ok gs => exact ih _ (hfold _ a h)
        | err => exact h
        | panic => exact h
        | ub => exact h
      · exact h

/-- A tensor that does not require a gradient keeps what it holds. -/
theorem walk_norequire (requires alive : Nat → Bool) (vals : Nat → V) (i : Nat)
    (hi : requires i = false) (es : List (Entry V)) :
    ∀ a : Acc V, (walk requires alive vals es a).1.grads i = a.grads i := by
  have hfold : ∀ (l : List (Nat × V)) (b : Acc V),
      (l.foldl (accOne requires) b).grads i = b.grads i := by
    intro l
    induction l with
    | nil => intro b; rfl
    | cons p l ih =>
      intro b
      rw [List.foldl_cons, ih]
      simp only [accOne]
      split
      · rw [update_of_ne]
        intro h
        subst h
        simp_all
      · rfl
  induction es with
  | nil => intro a; rfl
  | cons e es ih =>
    intro a
    unfold walk
    cases a.map e.out with
    | none => exact ih a
    | some g =>
      simp only
      split
      · cases e.vjp vals g with
        | ok gs => simp only; rw [ih, hfold]
        | err => rfl
        | panic => rfl
        | ub => rfl
      · rfl

end C35

section C35b

variable {V : Type} [AddCommMonoid V]

/-- C35, the part that holds.  Two programs, whatever happened before in either of them, that
reach states with the same active tape and the same tensors: a `backward` on the same loss
succeeds in both or in neither, and after it every tensor the loss depends on holds the same
gradient in both (nothing is left of gradients computed earlier), while every tensor the loss does
not depend on, or that does not require a gradient, holds what it held before.

What is missing from C35: the last clause, which leaves a residue in leaves the loss does not
depend on (`C35_full_false`). -/
theorem C35_replaces_partial (z : V) (l₁ l₂ : List (Step V)) (loss : Nat) (one : V)
    (st₁ st₂ : St V)
    (htape : tapeOf (run (init z) l₁) (active (run (init z) l₁)) =
      tapeOf (run (init z) l₂) (active (run (init z) l₂)))
    (hreq : (run (init z) l₁).requires = (run (init z) l₂).requires)
    (halive : (run (init z) l₁).alive = (run (init z) l₂).alive)
    (hvals : (run (init z) l₁).vals = (run (init z) l₂).vals)
    (hlen : ∀ e ∈ tapeOf (run (init z) l₁) (active (run (init z) l₁)), ∀ g gs,
      e.vjp (run (init z) l₁).vals g = .ok gs → gs.length = e.ins.length)
    (h₁ : backward (run (init z) l₁) loss one = (st₁, true)) :
    (backward (run (init z) l₂) loss one).2 = true ∧
    (backward (run (init z) l₂) loss one = (st₂, true) →
      ∀ i, (Spec.Reaches (tapeOf (run (init z) l₁) (active (run (init z) l₁))) loss i →
          (run (init z) l₁).requires i = true → st₁.grads i = st₂.grads i) ∧
        ((¬ Spec.Reaches (tapeOf (run (init z) l₁) (active (run (init z) l₁))) loss i ∨
          (run (init z) l₁).requires i = false) → st₁.grads i = (run (init z) l₁).grads i)) := by
  have hgood := good_run z l₁
  generalize run (init z) l₁ = s₁ at *
  generalize run (init z) l₂ = s₂ at *
  have ho := hgood.tapeOf (active s₁)
  obtain ⟨hrl, hal, a, hw, hg, -, -, -, -, -, -⟩ := backward_ok h₁
  have hsame : Same s₁.requires
      { map := update (fun _ => none) loss (some one), grads := update s₁.grads loss (some one) }
      { map := update (fun _ => none) loss (some one),
        grads := update s₂.grads loss (some one) } := by
    refine ⟨rfl, ?_⟩
    intro i _ hne
    by_cases hil : i = loss
    · subst hil; simp
    · simp [update_of_ne hil] at hne
  have hwalk := Same.walk s₁.requires s₁.alive s₁.vals (tapeOf s₁ (active s₁)).reverse _ _ hsame
  rw [hw] at hwalk
  have hok : (backward s₂ loss one).2 = true := by
    unfold backward
    rw [← hreq, ← halive, hrl, hal, ← hvals]
    simp only [Bool.and_self, if_true, ← htape]
    rw [if_pos hwalk.1.symm]
  refine ⟨hok, ?_⟩
  intro h₂ i
  obtain ⟨-, -, b, hwb, hgb, -, -, -, -, -, -⟩ := backward_ok h₂
  rw [← hreq, ← halive, ← hvals, ← htape] at hwb
  rw [hwb] at hwalk
  have hdom : ∀ i, a.map i ≠ none ↔ Spec.Reaches (tapeOf s₁ (active s₁)) loss i := by
    intro i
    rw [← from_iff_reaches, walk_dom s₁.requires s₁.alive s₁.vals _ _ a
      (List.pairwise_reverse.mpr ho.1) (fun e he => ho.2 e (List.mem_reverse.mp he))
      (fun e he g gs hgs => hlen e (List.mem_reverse.mp he) g gs hgs) hw]
    have hseed : ∀ j, (update (fun _ => none) loss (some one) : Nat → Option V) j ≠ none ↔
        j = loss := by
      intro j
      by_cases hj : j = loss
      · subst hj; simp
      · simp [hj]
    exact ⟨From.mono fun j hj => (hseed j).mp hj, From.mono fun j hj => (hseed j).mpr hj⟩
  refine ⟨?_, ?_⟩
  · intro hr hri
    rw [hg, hgb]
    exact hwalk.2.2 i hri ((hdom i).mpr hr)
  · intro hor
    rw [hg]
    rcases hor with hnr | hri
    · have hnone : a.map i = none := by
        by_contra hne
        exact hnr ((hdom i).mp hne)
      have hil : i ≠ loss := by intro hil; subst hil; exact hnr .loss
      have := walk_frame s₁.requires s₁.alive s₁.vals (update s₁.grads loss (some one))
        (tapeOf s₁ (active s₁)).reverse
        { map := update (fun _ => none) loss (some one), grads := update s₁.grads loss (some one) }
        (fun _ _ => rfl) i (by rw [hw]; exact hnone)
      rw [hw] at this
      rw [this, update_of_ne hil]
    · have := walk_norequire s₁.requires s₁.alive s₁.vals i hri (tapeOf s₁ (active s₁)).reverse
        { map := update (fun _ => none) loss (some one), grads := update s₁.grads loss (some one) }
      rw [hw] at this
      rw [this]
      simp only
      rw [update_of_ne]
      intro hil
      subst hil
      rw [hrl] at hri
      exact absurd hri (by simp)

/-- C35, second sentence: after a successful `backward` the tape is gone, so a second one (on the
same or any other loss, nothing recorded in between) adds nothing: every gradient stays what the
first one left, except that the loss itself gets the seed.  The second call does *not* fail,
though. -/
theorem C35_second_backward (st st' : St V) (loss loss' : Nat) (one one' : V)
    (h : backward st loss one = (st', true)) (hr : st.requires loss' = true)
    (ha : st.alive loss' = true) :
    ∃ st'', backward st' loss' one' = (st'', true) ∧
      ∀ i, st''.grads i = if i = loss' then some one' else st'.grads i := by
  obtain ⟨-, -, a, -, -, hreq, htape, halive, -, -, -⟩ := backward_ok h
  have hc : (st'.requires loss' && st'.alive loss') = true := by rw [hreq, halive, hr, ha]; rfl
  unfold backward
  rw [if_pos hc]
  simp only [htape, List.reverse_nil, walk, if_true]
  refine ⟨_, rfl, ?_⟩
  intro i
  by_cases hi : i = loss'
  · subst hi; simp
  · simp [hi]

/-- A `backward` that fails keeps every tape, so repeating it walks the same operations again. -/
theorem C35_failed_backward (st st' : St V) (loss : Nat) (one : V)
    (h : backward st loss one = (st', false)) :
    st'.tapes = st.tapes ∧ st'.requires = st.requires ∧ st'.alive = st.alive := by
  unfold backward at h
  split at h
  · simp only at h
    split at h
    · simp at h
    · injection h with h _
      subst h
      exact ⟨rfl, rfl, rfl⟩
  · injection h with h _
    subst h
    exact ⟨rfl, rfl, rfl⟩

end C35b

theorem backward_pair {V : Type} [Add V] {st : St V} {loss : Nat} {one : V}
    (h : (backward st loss one).2 = true) :
    backward st loss one = ((backward st loss one).1, true) := Prod.ext rfl h

/-! ### A concrete computation: `y = x * x`, `z = y + x` at `x = 3`, with an unused leaf -/

/-- multiplication by a constant -/
def mulK (k : Int) (i : Nat) : Step Int :=
  .op [i] (fun v => k * v.getD 0 0) (fun _ g => .ok [g * k]) true

/-- the history of the example -/
def exHist : List (Step Int) :=
  [.leaf 3 true,
   .op [0, 0] (fun v => v.getD 0 0 * v.getD 1 0) (fun vals g => .ok [g * vals 0, g * vals 0]) true,
   .op [1, 0] (fun v => v.getD 0 0 + v.getD 1 0) (fun _ g => .ok [g, g]) true,
   mulK 5 1]

/-- the local derivatives of the example -/
def exJac (e : Entry Int) (ds : List Int) : Int :=
  if e.out = 1 then 3 * ds.getD 0 0 + 3 * ds.getD 1 0
  else if e.out = 2 then ds.getD 0 0 + ds.getD 1 0
  else 5 * ds.getD 0 0

/-- `dz/dx = 2x + 1 = 7` -/
example : ((backward (run (init 0) exHist) 2 1).1.grads 0, (backward (run (init 0) exHist) 2 1).2)
    = (some 7, true) := by decide +kernel

/-- The hypotheses of `C34_adjoint` hold of the example, and the theorem says: whatever the
perturbation `d` of `x`, the loss changes by `7 d`. -/
example (d : Int) :
    (7 : Int) * d = 1 * Spec.tangent exJac (fun i => if i = 0 then d else 0)
      (tapeOf (run (init 0) exHist) (active (run (init 0) exHist))) 2 := by
  have h := C34_adjoint (0 : Int) exHist 2 1 (backward (run (init 0) exHist) 2 1).1
    (fun g d => g * d) (fun a b d => by ring) (fun d => by ring) (fun g => by ring) exJac
    (by
      intro e he
      have htape : tapeOf (run (init (0 : Int)) exHist) (active (run (init (0 : Int)) exHist)) =
        [{ out := 1, ins := [0, 0], vjp := fun vals g => .ok [g * vals 0, g * vals 0] },
         { out := 2, ins := [1, 0], vjp := fun _ g => .ok [g, g] },
         { out := 3, ins := [1], vjp := fun _ g => .ok [g * 5] }] := rfl
      have hval : (run (init (0 : Int)) exHist).vals 0 = 3 := by decide +kernel
      rw [htape] at he
      simp only [List.mem_cons, List.not_mem_nil, or_false] at he
      rcases he with rfl | rfl | rfl
      · intro g gs hgs
        simp only [Res.ok.injEq] at hgs
        subst hgs
        refine ⟨rfl, ?_⟩
        intro ds hds
        match ds, hds with
        | [a, b], _ => simp [exJac, hval]; ring
      · intro g gs hgs
        simp only [Res.ok.injEq] at hgs
        subst hgs
        refine ⟨rfl, ?_⟩
        intro ds hds
        match ds, hds with
        | [a, b], _ => simp [exJac]; ring
      · intro g gs hgs
        simp only [Res.ok.injEq] at hgs
        subst hgs
        refine ⟨rfl, ?_⟩
        intro ds hds
        match ds, hds with
        | [a], _ => simp [exJac]; ring)
    (backward_pair (by decide +kernel))
    (fun i hi _ => (by decide +kernel : ∀ i ∈ Spec.leaves (tapeOf (run (init (0 : Int)) exHist)
      (active (run (init (0 : Int)) exHist))) 2,
        ((run (init (0 : Int)) exHist).grads i).getD 0 = 0) i hi) (fun i => if i = 0 then d else 0)
    (by
      intro i hi
      by_cases h0 : i = 0
      · subst h0
        have : (run (init (0 : Int)) exHist).requires 0 = true := by decide +kernel
        rw [this] at hi
        exact absurd hi (by simp)
      · simp [h0])
  rw [← h]
  have hl : (Spec.leaves (tapeOf (run (init (0 : Int)) exHist)
      (active (run (init (0 : Int)) exHist))) 2).filter
        (fun i => (run (init (0 : Int)) exHist).requires i = true) = {0} := by decide +kernel
  rw [hl, Finset.sum_singleton]
  have hg : ((backward (run (init (0 : Int)) exHist) 2 1).1.grads 0).getD 0 = 7 := by
    decide +kernel
  rw [hg]
  simp

/-! ### C35 is false as stated: a leaf that the loss does not depend on keeps its old gradient -/

/-- `y = 2 w`, backward; `z = 3 x`; then maybe `w.zero_grad()` -/
def residue (zeroed : Bool) : List (Step Int) :=
  [.leaf 1 true, mulK 2 0, .backward 1 1, .leaf 1 true, mulK 3 2] ++
    (if zeroed then [.zeroGrad 0 0] else [])

/-- C35 as stated is false: two histories end with the same tape, the same tensors and the same
loss; `backward` succeeds in both; the leaf `w` (tensor 0) has gradient 2 in one, left by an
earlier `backward` on another loss, and 0 in the other. -/
theorem C35_full_false :
    ∃ l₁ l₂ : List (Step Int), ∃ loss : Nat,
      tapeOf (run (init 0) l₁) (active (run (init 0) l₁)) =
        tapeOf (run (init 0) l₂) (active (run (init 0) l₂)) ∧
      (run (init 0) l₁).requires = (run (init 0) l₂).requires ∧
      (run (init 0) l₁).alive = (run (init 0) l₂).alive ∧
      (run (init 0) l₁).vals = (run (init 0) l₂).vals ∧
      (backward (run (init 0) l₁) loss 1).2 = true ∧ (backward (run (init 0) l₂) loss 1).2 = true ∧
      (backward (run (init 0) l₁) loss 1).1.grads 0 ≠ (backward (run (init 0) l₂) loss 1).1.grads 0 := by
  refine ⟨residue false, residue true, 3, rfl, rfl, rfl, rfl, ?_, ?_, ?_⟩ <;> decide +kernel

/-- The hypotheses of `C35_replaces_partial` hold of the same pair of histories: `x` (tensor 2)
gets the same gradient in both. -/
example : (backward (run (init 0) (residue false)) 3 1).1.grads 2 =
    (backward (run (init 0) (residue true)) 3 1).1.grads 2 := by
  have htape : tapeOf (run (init (0 : Int)) (residue false))
      (active (run (init (0 : Int)) (residue false))) =
      [{ out := 3, ins := [2], vjp := fun _ g => .ok [g * 3] }] := rfl
  have key := C35_replaces_partial (0 : Int) (residue false) (residue true) 3 1
    (backward (run (init 0) (residue false)) 3 1).1 (backward (run (init 0) (residue true)) 3 1).1
    rfl rfl rfl rfl ?_ (backward_pair (by decide +kernel))
  · refine (key.2 (backward_pair (by decide +kernel)) 2).1 ?_ (by decide +kernel)
    rw [htape]
    refine Spec.Reaches.input (i := 2)
      (e := ({ out := 3, ins := [2], vjp := fun _ g => .ok [g * 3] } : Entry Int)) ?_ ?_ ?_
    · simp
    · exact .loss
    · simp
  · intro e he g gs hgs
    rw [htape] at he
    simp only [List.mem_cons, List.not_mem_nil, or_false] at he
    subst he
    simp only [Res.ok.injEq] at hgs
    subst hgs
    rfl

/-- `C35_second_backward` on the concrete computation. -/
example : ∃ st'', backward (backward (run (init 0) exHist) 2 1).1 2 1 = (st'', true) ∧
    ∀ i, st''.grads i = if i = 2 then some 1 else (backward (run (init 0) exHist) 2 1).1.grads i :=
  C35_second_backward _ _ 2 2 1 1 (backward_pair (by decide +kernel)) (by decide +kernel)
    (by decide +kernel)

/-! ## C36 -/

namespace Spec

variable {V : Type}

/-- The contexts whose guard is still held after a history, newest first; `n` is the number the
next context gets. -/
def live : Nat → List Nat → List (Step V) → List Nat
  | _, gs, [] => gs
  | n, gs, s :: l =>
    match s with
    | .enter => live (n + 1) (n :: gs) l
    | .leave c => live n (gs.erase c) l
    | _ => live n gs l

/-- Guards are dropped in the reverse order of their creation. -/
def Lifo : Nat → List Nat → List (Step V) → Prop
  | _, _, [] => True
  | n, gs, s :: l =>
    match s with
    | .enter => Lifo (n + 1) (n :: gs) l
    | .leave c => gs.head? = some c ∧ Lifo n (gs.erase c) l
    | _ => Lifo n gs l

/-- Each guard is dropped at most once and only after it was made, in any order. -/
def Held : Nat → List Nat → List (Step V) → Prop
  | _, _, [] => True
  | n, gs, s :: l =>
    match s with
    | .enter => Held (n + 1) (n :: gs) l
    | .leave c => c ∈ gs ∧ Held n (gs.erase c) l
    | _ => Held n gs l

end Spec

section C36

variable {V : Type}

/-- The stack, the numbering and the tapes of a state whose guards `gs` are held. -/
structure Nest (n : Nat) (gs : List Nat) (st : St V) : Prop where
  stack : st.stack = gs
  next : st.nextCtx = n
  pos : 0 < n
  lt : ∀ c ∈ gs, c < n ∧ c ≠ 0
  nodup : gs.Nodup
  tape : ∀ c, (st.tapes c).isSome = true ↔ c = 0 ∨ c ∈ gs

theorem pushEntry_isSome (tapes : Nat → Option (List (Entry V))) (c : Nat) (e : Entry V)
    (c' : Nat) : (pushEntry tapes c e c').isSome = (tapes c').isSome := by
  unfold pushEntry
  cases h : tapes c with
  | none => rfl
  | some t =>
    by_cases hc : c' = c
    · subst hc; simp [h]
    · simp [update_of_ne hc]

theorem removeEntries_isSome (tapes : Nat → Option (List (Entry V))) (c i : Nat)
    (c' : Nat) : (removeEntries tapes c i c').isSome = (tapes c').isSome := by
  unfold removeEntries
  cases h : tapes c with
  | none => rfl
  | some t =>
    by_cases hc : c' = c
    · subst hc; simp [h]
    · simp [update_of_ne hc]

theorem clearTape_isSome (tapes : Nat → Option (List (Entry V))) (c : Nat)
    (c' : Nat) : (clearTape tapes c c').isSome = (tapes c').isSome := by
  unfold clearTape
  cases h : tapes c with
  | none => rfl
  | some t =>
    by_cases hc : c' = c
    · subst hc; simp [h]
    · simp [update_of_ne hc]

/-- Steps other than entering and leaving change neither the stack nor which tapes exist. -/
theorem step_nest [Add V] (st : St V) (s : Step V) (he : s ≠ .enter) (hl : ∀ c, s ≠ .leave c) :
    (step st s).stack = st.stack ∧ (step st s).nextCtx = st.nextCtx ∧
      ∀ c, ((step st s).tapes c).isSome = (st.tapes c).isSome := by
  cases s with
  | enter => exact absurd rfl he
  | leave c => exact absurd rfl (hl c)
  | leaf v r => exact ⟨rfl, rfl, fun _ => rfl⟩
  | op ins f vjp diff =>
    simp only [step, op]
    split
    · split
      · simp only [record]
        split
        · exact ⟨rfl, rfl, fun _ => rfl⟩
        · split
          · refine ⟨rfl, rfl, fun c => ?_⟩
            simp only [pushEntry_isSome]
            rfl
          · exact ⟨rfl, rfl, fun _ => rfl⟩
      · exact ⟨rfl, rfl, fun _ => rfl⟩
    · exact ⟨rfl, rfl, fun _ => rfl⟩
  | backward loss one =>
    simp only [step, backward]
    split
    · split
      · refine ⟨rfl, rfl, fun c => ?_⟩
        simp only [clearTape_isSome]
      · exact ⟨rfl, rfl, fun _ => rfl⟩
    · exact ⟨rfl, rfl, fun _ => rfl⟩
  | zeroGrad i z =>
    simp only [step, zeroGrad]
    split
    · cases st.grads i <;> exact ⟨rfl, rfl, fun _ => rfl⟩
    · exact ⟨rfl, rfl, fun _ => rfl⟩
  | dropLeaf i =>
    refine ⟨rfl, rfl, fun c => ?_⟩
    simp only [step, removeEntries_isSome]
  | die i => exact ⟨rfl, rfl, fun _ => rfl⟩
  | setReq i b =>
    simp only [step]
    split <;> exact ⟨rfl, rfl, fun _ => rfl⟩
  | setVal i v =>
    simp only [step]
    split <;> exact ⟨rfl, rfl, fun _ => rfl⟩
  | optFlag b => exact ⟨rfl, rfl, fun _ => rfl⟩

theorem Nest.other [Add V] {n : Nat} {gs : List Nat} {st : St V} (h : Nest n gs st) (s : Step V)
    (he : s ≠ .enter) (hl : ∀ c, s ≠ .leave c) : Nest n gs (step st s) := by
  obtain ⟨h1, h2, h3⟩ := step_nest st s he hl
  exact ⟨h1.trans h.stack, h2.trans h.next, h.pos, h.lt, h.nodup, fun c => by rw [h3]; exact h.tape c⟩

theorem Nest.enter {n : Nat} {gs : List Nat} {st : St V} (h : Nest n gs st) :
    Nest (n + 1) (n :: gs) (enter st) := by
  refine ⟨by simp [Autograd.enter, h.stack, h.next], by simp [Autograd.enter, h.next], by omega,
    ?_, ?_, ?_⟩
  · intro c hc
    rcases List.mem_cons.mp hc with hc | hc
    · have := h.pos
      omega
    · have := h.lt c hc
      omega
  · refine List.nodup_cons.mpr ⟨?_, h.nodup⟩
    intro hn
    have := h.lt n hn
    omega
  · intro c
    simp only [Autograd.enter, h.next]
    by_cases hc : c = n
    · subst hc; simp
    · rw [update_of_ne hc, h.tape c]
      simp [hc]

theorem Nest.leave {n : Nat} {gs : List Nat} {st : St V} (h : Nest n gs st) (c : Nat)
    (hc : gs.head? = some c) : Nest n (gs.erase c) (leave st c) := by
  cases gs with
  | nil => simp at hc
  | cons g gs =>
    simp only [List.head?_cons, Option.some.injEq] at hc
    subst hc
    have hne := (h.lt g (by simp)).2
    have hnd := List.nodup_cons.mp h.nodup
    rw [List.erase_cons_head]
    unfold Autograd.leave
    rw [if_neg hne]
    refine ⟨by simp [h.stack], h.next, h.pos, fun c hc => h.lt c (by simp [hc]), hnd.2, ?_⟩
    intro c
    by_cases hcg : c = g
    · subst hcg
      simp [hne, hnd.1]
    · simp only [update_of_ne hcg, h.tape c, List.mem_cons, hcg, false_or]

theorem nest_run [Add V] : ∀ (l : List (Step V)) (n : Nat) (gs : List Nat) (st : St V),
    Nest n gs st → Spec.Lifo n gs l → ∃ n', Nest n' (Spec.live n gs l) (run st l) := by
  intro l
  induction l with
  | nil => intro n gs st h _; exact ⟨n, h⟩
  | cons s l ih =>
    intro n gs st h hl
    cases s with
    | enter => exact ih _ _ _ h.enter hl
    | leave c => exact ih _ _ _ (h.leave c hl.1) hl.2
    | leaf v r => exact ih _ _ _ (h.other (.leaf v r) (by simp) (by simp)) hl
    | op ins f vjp diff =>
      exact ih _ _ _ (h.other (.op ins f vjp diff) (by simp) (by simp)) hl
    | backward loss one =>
      exact ih _ _ _ (h.other (.backward loss one) (by simp) (by simp)) hl
    | zeroGrad i z => exact ih _ _ _ (h.other (.zeroGrad i z) (by simp) (by simp)) hl
    | dropLeaf i => exact ih _ _ _ (h.other (.dropLeaf i) (by simp) (by simp)) hl
    | die i => exact ih _ _ _ (h.other (.die i) (by simp) (by simp)) hl
    | setReq i b => exact ih _ _ _ (h.other (.setReq i b) (by simp) (by simp)) hl
    | setVal i v => exact ih _ _ _ (h.other (.setVal i v) (by simp) (by simp)) hl
    | optFlag b => exact ih _ _ _ (h.other (.optFlag b) (by simp) (by simp)) hl

theorem nest_init (z : V) : Nest 1 [] (init z) := by
  refine ⟨rfl, rfl, by omega, by simp, by simp, ?_⟩
  intro c
  by_cases hc : c = 0 <;> simp [init, hc]

/-- C36, for guards dropped in the reverse order of their creation: after any history the active
context is the newest one whose guard is still held, or the default one; it has a tape; and
exactly the held contexts and the default one have a tape.

What is missing from C36: any other order of drops (`C36_full_false`). -/
theorem C36_nesting_partial [Add V] (z : V) (l : List (Step V)) (h : Spec.Lifo 1 [] l) :
    active (run (init z) l) = (Spec.live 1 [] l).head?.getD 0 ∧
    (∀ c, ((run (init z) l).tapes c).isSome = true ↔ c = 0 ∨ c ∈ Spec.live 1 [] l) ∧
    ((run (init z) l).tapes (active (run (init z) l))).isSome = true := by
  obtain ⟨n, hn⟩ := nest_run l 1 [] (init z) (nest_init z) h
  have hact : active (run (init z) l) = (Spec.live 1 [] l).head?.getD 0 := by
    unfold active
    rw [hn.stack]
    cases Spec.live 1 [] l <;> rfl
  refine ⟨hact, hn.tape, ?_⟩
  rw [hn.tape, hact]
  cases hl : Spec.live 1 [] l with
  | nil => left; rfl
  | cons g gs => right; simp

/-- C36, second half, in every state whatever the order of drops: an operation changes at most the
tape of the active context, by at most one entry at its end, and that entry is the operation. -/
theorem C36_records_active (st : St V) (ins : List Nat) (f : List V → V)
    (vjp : (Nat → V) → V → Res (List V)) (diff : Bool) :
    (∀ c, c ≠ active st → (op st ins f vjp diff).tapes c = st.tapes c) ∧
    (∀ t, st.tapes (active st) = some t →
      (op st ins f vjp diff).tapes (active st) =
        if diff = true ∧ st.optStep = false ∧ ins.all st.alive = true ∧
            (∃ i ∈ ins, st.requires i = true)
        then some (t ++ [{ out := st.next, ins := ins, vjp := vjp }])
        else some t) := by
  have hact : ∀ v r, active (leaf st v r) = active st := fun _ _ => rfl
  have htp : ∀ v r, (leaf st v r).tapes = st.tapes := fun _ _ => rfl
  have hany : ∀ p : Nat → Bool, (ins.any p = true ↔ ∃ i ∈ ins, p i = true) := by
    intro p; simp
  refine ⟨?_, ?_⟩
  · intro c hc
    unfold op
    split
    · simp only
      split
      · simp only [record]
        split
        · rfl
        · split
          · simp only [pushEntry, hact, htp]
            cases st.tapes (active st) with
            | none => rfl
            | some t => simp [update_of_ne hc]
          · rfl
      · rfl
    · rfl
  · intro t ht
    unfold op
    by_cases hal : ins.all st.alive = true
    · rw [if_pos hal]
      by_cases hd : diff = true
      · by_cases hr : ins.any st.requires = true
        · simp only [hd, hr, Bool.and_self, if_true]
          have hex := (hany _).mp hr
          by_cases ho : st.optStep = true
          · simp [record, leaf, ho, ht]
          · have ho' : st.optStep = false := by simpa using ho
            obtain ⟨i, hi, hri⟩ := hex
            have hrec : ins.any (leaf st (f (ins.map st.vals)) true).requires = true := by
              rw [hany]
              refine ⟨i, hi, ?_⟩
              by_cases hin : i = st.next
              · subst hin; simp [leaf]
              · simpa [leaf, update_of_ne hin] using hri
            have h1 : (record (leaf st (f (ins.map st.vals)) true)
                { out := st.next, ins := ins, vjp := vjp }).tapes (active st) =
                some (t ++ [{ out := st.next, ins := ins, vjp := vjp }]) := by
              simp only [record]
              rw [if_neg (by simpa [leaf] using ho), if_pos hrec]
              simp only [pushEntry, hact, htp, ht, update_self]
            rw [h1, if_pos ⟨trivial, ho', hal, i, hi, hri⟩]
        · have hr' : ins.any st.requires = false := by simpa using hr
          have hne : ¬ ∃ i ∈ ins, st.requires i = true := fun h => hr ((hany _).mpr h)
          simp only [hr', Bool.and_false]
          rw [if_neg (by simp), if_neg (fun h => hne h.2.2.2), htp, ht]
      · have hd' : diff = false := by simpa using hd
        simp [hd', leaf, ht]
    · rw [if_neg hal, if_neg (fun h => hal h.2.2.1), ht]

end C36

/-- The hypotheses of `C36_nesting_partial` hold of a history with two nested contexts, one
already left. -/
example : Spec.Lifo 1 [] ([.enter, .leaf 1 true, .enter, mulK 2 0, .leave 2] : List (Step Int)) ∧
    active (run (init 0) ([.enter, .leaf 1 true, .enter, mulK 2 0, .leave 2] : List (Step Int))) = 1 := by
  refine ⟨⟨rfl, trivial⟩, by decide +kernel⟩

/-- C36 as stated is false: two contexts, the outer guard dropped first.  The context that stays
active is the one just left, not the inner one still held; it has no tape, so an operation that
requires a gradient is recorded nowhere, without an error. -/
theorem C36_full_false :
    ∃ l : List (Step Int), Spec.Held 1 [] l ∧
      active (run (init 0) l) ≠ (Spec.live 1 [] l).head?.getD 0 ∧
      active (run (init 0) l) ∉ Spec.live 1 [] l ∧ active (run (init 0) l) ≠ 0 ∧
      (∀ k : Int, (run (init 0) l).requires 0 = true ∧
        (step (run (init 0) l) (mulK k 0)).tapes = (run (init 0) l).tapes ∧
        (step (run (init 0) l) (mulK k 0)).requires 1 = true) := by
  refine ⟨[.leaf 1 true, .enter, .enter, .leave 1], ⟨by simp, trivial⟩, by decide +kernel,
    by decide +kernel, by decide +kernel, fun k => ⟨rfl, rfl, rfl⟩⟩

end Hodu.Autograd
