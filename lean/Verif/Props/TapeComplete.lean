import Verif.Props.Autograd2

/-!
# C57: does the gradient reach every tensor the loss was computed from?
-/

namespace Hodu.Autograd

open Function

namespace Spec

variable {V : Type}

/-- What the program made, tensor by tensor in the order of creation: the inputs, and whether the
operation is a differentiable one.  Written from the program text alone. -/
def made : List (Step V) → List (List Nat × Bool) :=
  List.foldl (fun m s => match s with
    | .leaf _ _ => m ++ [([], false)]
    | .op ins _ _ diff => m ++ [(ins, diff)]
    | _ => m) []

/-- `j` was computed from `i` by differentiable operations. -/
inductive ComputedFrom (m : List (List Nat × Bool)) : Nat → Nat → Prop
  | refl {i : Nat} : ComputedFrom m i i
  | op {j k i : Nat} {ins : List Nat} : m[j]? = some (ins, true) → k ∈ ins →
      ComputedFrom m k i → ComputedFrom m j i

/-- Programs that create tensors, apply operations to tensors made before, zero gradients and
replace values, and drop only handles of intermediate results (such a drop leaves the result in
the registry until its context is gone, tensor/core.rs:56-62, so it is not a step here). -/
def Plain : Nat → List (Step V) → Prop
  | _, [] => True
  | n, s :: l =>
    match s with
    | .leaf _ _ => Plain (n + 1) l
    | .op ins _ _ _ => (∀ i ∈ ins, i < n) ∧ Plain (n + 1) l
    | .zeroGrad _ _ => Plain n l
    | .setVal _ _ => Plain n l
    | _ => False

end Spec

section Complete

variable {V : Type}

/-- What every state reached by a plain program satisfies. -/
structure Full (m : List (List Nat × Bool)) (st : St V) : Prop where
  next : st.next = m.length
  alive : ∀ i, i < st.next → st.alive i = true
  stack : st.stack = []
  opt : st.optStep = false
  tape : ∃ t, st.tapes 0 = some t ∧ (∀ e ∈ t, ∀ i ∈ e.ins, i < st.next) ∧
    ∀ (j : Nat) (ins : List Nat), m[j]? = some (ins, true) →
    (∃ i ∈ ins, st.requires i = true) →
      st.requires j = true ∧ ∃ e ∈ t, e.out = j ∧ e.ins = ins
  ins : ∀ (j : Nat) (is : List Nat) (d : Bool), m[j]? = some (is, d) → ∀ i ∈ is, i < j

theorem Full.leaf {m : List (List Nat × Bool)} {st : St V} (h : Full m st) (v : V) (r : Bool) :
    Full (m ++ [([], false)]) (leaf st v r) := by
  obtain ⟨hn, ha, hs, ho, ⟨t, ht, hti, htm⟩, hi⟩ := h
  have hget : ∀ (j : Nat) (is : List Nat) (d : Bool),
      (m ++ [(([] : List Nat), false)])[j]? = some (is, d) →
      (m[j]? = some (is, d) ∧ j < m.length) ∨ (is = [] ∧ d = false) := by
    intro j is d hj
    by_cases hjl : j < m.length
    · rw [List.getElem?_append_left hjl] at hj
      exact Or.inl ⟨hj, hjl⟩
    · rw [List.getElem?_append_right (by omega)] at hj
      right
      cases hk : j - m.length with
      | zero => rw [hk] at hj; simp at hj; exact ⟨hj.1, hj.2⟩
      | succ k => rw [hk] at hj; simp at hj
  refine ⟨by simp [Autograd.leaf, hn], ?_, hs, ho, ⟨t, ht, ?_, ?_⟩, ?_⟩
  · intro i hlt
    simp only [Autograd.leaf] at hlt ⊢
    by_cases hin : i = st.next
    · subst hin; simp
    · rw [update_of_ne hin]; exact ha i (by omega)
  · intro e he i hie
    have := hti e he i hie
    simp only [Autograd.leaf]
    omega
  · intro j ins hj hr
    rcases hget j ins true hj with ⟨hj', hjl⟩ | hj'
    · obtain ⟨i, hii, hri⟩ := hr
      have hlt := hi j ins true hj' i hii
      have h2 := htm j ins hj' ⟨i, hii, by
        simpa [Autograd.leaf, update_of_ne (show i ≠ st.next by omega)] using hri⟩
      refine ⟨?_, h2.2⟩
      simp only [Autograd.leaf]
      rw [update_of_ne (by omega)]
      exact h2.1
    · exact absurd hj'.2 (by simp)
  · intro j is d hj i hii
    rcases hget j is d hj with ⟨hj', _⟩ | hj'
    · exact hi j is d hj' i hii
    · rw [hj'.1] at hii; simp at hii

theorem Full.op {m : List (List Nat × Bool)} {st : St V} (h : Full m st) (ins : List Nat)
    (f : List V → V) (vjp : (Nat → V) → V → Res (List V)) (diff : Bool)
    (hlt : ∀ i ∈ ins, i < m.length) : Full (m ++ [(ins, diff)]) (op st ins f vjp diff) := by
  have hal : ins.all st.alive = true := by
    rw [List.all_eq_true]
    intro i hi
    exact h.alive i (by rw [h.next]; exact hlt i hi)
  have hfull := h
  obtain ⟨hn, ha, hs, ho, ⟨t, ht, hti, htm⟩, hi⟩ := h
  have hget : ∀ (j : Nat) (is : List Nat) (d : Bool),
      (m ++ [(ins, diff)])[j]? = some (is, d) →
      (m[j]? = some (is, d) ∧ j < m.length) ∨ (is = ins ∧ d = diff ∧ j = m.length) := by
    intro j is d hj
    by_cases hjl : j < m.length
    · rw [List.getElem?_append_left hjl] at hj
      exact Or.inl ⟨hj, hjl⟩
    · rw [List.getElem?_append_right (by omega)] at hj
      right
      cases hk : j - m.length with
      | zero =>
        rw [hk] at hj
        simp at hj
        exact ⟨hj.1.symm, hj.2.symm, by omega⟩
      | succ k => rw [hk] at hj; simp at hj
  have hact : active st = 0 := by simp [active, hs]
  have hcond : ∀ rq : Bool, (∃ i ∈ ins, st.requires i = true) →
      ins.any (Autograd.leaf st (f (ins.map st.vals)) rq).requires = true := by
    rintro rq ⟨i, hii, hri⟩
    rw [List.any_eq_true]
    refine ⟨i, hii, ?_⟩
    have := hlt i hii
    simpa [Autograd.leaf, update_of_ne (show i ≠ st.next by omega)] using hri
  -- the tape afterwards
  have htape : ∃ t', (Autograd.op st ins f vjp diff).tapes 0 = some t' ∧ (∀ e ∈ t, e ∈ t') ∧
      (∀ e ∈ t', e ∈ t ∨ e = { out := st.next, ins := ins, vjp := vjp }) ∧
      ((diff = true ∧ ∃ i ∈ ins, st.requires i = true) →
        ({ out := st.next, ins := ins, vjp := vjp } : Entry V) ∈ t') := by
    have hrec := (C36_records_active st ins f vjp diff).2 t (by rw [hact]; exact ht)
    rw [hact] at hrec
    by_cases hc : diff = true ∧ st.optStep = false ∧ ins.all st.alive = true ∧
        (∃ i ∈ ins, st.requires i = true)
    · rw [if_pos hc] at hrec
      exact ⟨_, hrec, fun e he => by simp [he], fun e he => by simpa using he,
        fun _ => by simp⟩
    · rw [if_neg hc] at hrec
      exact ⟨t, hrec, fun e he => he, fun e he => Or.inl he,
        fun hd => absurd ⟨hd.1, ho, hal, hd.2⟩ hc⟩
  have hfields : (Autograd.op st ins f vjp diff).next = st.next + 1 ∧
      (Autograd.op st ins f vjp diff).stack = st.stack ∧
      (Autograd.op st ins f vjp diff).optStep = st.optStep ∧
      (Autograd.op st ins f vjp diff).alive = update st.alive st.next true ∧
      (Autograd.op st ins f vjp diff).requires =
        update st.requires st.next (diff && ins.any st.requires) := by
    unfold Autograd.op
    rw [if_pos hal]
    simp only
    split
    · simp only [record]
      split
      · exact ⟨rfl, rfl, rfl, rfl, rfl⟩
      · split <;> exact ⟨rfl, rfl, rfl, rfl, rfl⟩
    · exact ⟨rfl, rfl, rfl, rfl, rfl⟩
  obtain ⟨f1, f2, f3, f4, f5⟩ := hfields
  obtain ⟨t', ht', hsub, hold, hnew⟩ := htape
  refine ⟨by rw [f1, hn]; simp, ?_, f2.trans hs, f3.trans ho, ⟨t', ht', ?_, ?_⟩, ?_⟩
  · intro i hlt'
    rw [f4]
    by_cases hin : i = st.next
    · subst hin; simp
    · rw [update_of_ne hin]; exact ha i (by omega)
  · intro e he i hie
    rw [f1]
    rcases hold e he with he | he
    · have := hti e he i hie
      omega
    · subst he
      have := hlt i hie
      omega
  · intro j is hj hr
    rcases hget j is true hj with ⟨hj', hjl⟩ | ⟨rfl, hd, rfl⟩
    · obtain ⟨i, hii, hri⟩ := hr
      have hlt' := hi j is true hj' i hii
      rw [f5, update_of_ne (by omega)] at hri
      obtain ⟨h1, e, he, he2⟩ := htm j is hj' ⟨i, hii, hri⟩
      refine ⟨?_, e, hsub e he, he2⟩
      rw [f5, update_of_ne (by omega)]
      exact h1
    · have hr' : ∃ i ∈ is, st.requires i = true := by
        obtain ⟨i, hii, hri⟩ := hr
        have := hlt i hii
        rw [f5, update_of_ne (by omega)] at hri
        exact ⟨i, hii, hri⟩
      refine ⟨?_, _, hnew ⟨hd.symm, hr'⟩, hn, rfl⟩
      rw [f5, ← hn, update_self, ← hd]
      simpa using hr'
  · intro j is d hj i hii
    rcases hget j is d hj with ⟨hj', _⟩ | ⟨rfl, -, rfl⟩
    · exact hi j is d hj' i hii
    · exact hlt i hii

theorem full_run [Add V] : ∀ (l : List (Step V)) (m : List (List Nat × Bool)) (st : St V),
    Full m st → Spec.Plain m.length l →
    Full (l.foldl (fun m s => match s with
      | .leaf _ _ => m ++ [([], false)]
      | .op ins _ _ diff => m ++ [(ins, diff)]
      | _ => m) m) (run st l) := by
  intro l
  induction l with
  | nil => intro m st h _; exact h
  | cons s l ih =>
    intro m st h hp
    cases s with
    | leaf v r => exact ih _ _ (h.leaf v r) (by simpa [Spec.Plain] using hp)
    | op ins f vjp diff =>
      exact ih _ _ (h.op ins f vjp diff hp.1) (by simpa [Spec.Plain] using hp.2)
    | zeroGrad i z =>
      refine ih _ _ ?_ hp
      simp only [step, zeroGrad]
      split
      · cases st.grads i
        · exact h
        · exact ⟨h.next, h.alive, h.stack, h.opt, h.tape, h.ins⟩
      · exact h
    | setVal i v =>
      refine ih _ _ ?_ hp
      simp only [step]
      split
      · exact ⟨h.next, h.alive, h.stack, h.opt, h.tape, h.ins⟩
      · exact h
    | enter => exact absurd hp (by simp [Spec.Plain])
    | leave c => exact absurd hp (by simp [Spec.Plain])
    | backward loss one => exact absurd hp (by simp [Spec.Plain])
    | dropLeaf i => exact absurd hp (by simp [Spec.Plain])
    | die i => exact absurd hp (by simp [Spec.Plain])
    | setReq i b => exact absurd hp (by simp [Spec.Plain])
    | optFlag b => exact absurd hp (by simp [Spec.Plain])

theorem full_init (z : V) : Full [] (init z) := by
  refine ⟨rfl, by simp [init], rfl, rfl, ⟨[], rfl, by simp, by simp⟩, by simp⟩

/-- C57, for programs that keep the handle of every created tensor until `backward`: if the loss
was computed from `w` by differentiable operations and `w` requires a gradient, then `backward`
succeeds (when the vector-Jacobian products do) and `w` has a gradient.

What is missing from C57: dropping a created tensor in between (`C57_constant_false`,
`C57_other_leaf_false`). -/
theorem C57_complete_partial {V : Type} [AddCommMonoid V] (z : V) (l : List (Step V))
    (w loss : Nat) (one : V)
    (hl : Spec.Plain 0 l) (hw : (run (init z) l).requires w = true)
    (hloss : loss < (Spec.made l).length)
    (hdep : Spec.ComputedFrom (Spec.made l) loss w)
    (hvjp : ∀ e ∈ tapeOf (run (init z) l) 0, ∀ g, ∃ gs, e.vjp (run (init z) l).vals g = .ok gs ∧
      gs.length = e.ins.length) :
    ∃ st', backward (run (init z) l) loss one = (st', true) ∧ st'.grads w ≠ none := by
  have hfull : Full (Spec.made l) (run (init z) l) := full_run l [] _ (full_init z) hl
  have hgood := good_run z l
  generalize run (init z) l = st at *
  obtain ⟨hn, ha, hs, ho, ⟨t, ht, hti, htm⟩, hi⟩ := hfull
  have hact : active st = 0 := by simp [active, hs]
  have htape : tapeOf st 0 = t := by simp [tapeOf, ht]
  have hflow : ∀ j i, Spec.ComputedFrom (Spec.made l) j i → st.requires i = true →
      st.requires j = true ∧ ∀ x, Spec.Reaches t x j → Spec.Reaches t x i := by
    intro j i h
    induction h with
    | refl => intro hr; exact ⟨hr, fun x hx => hx⟩
    | @op j k i ins hm hk _ ih =>
      intro hr
      obtain ⟨h1, h2⟩ := ih hr
      obtain ⟨h3, e, he, he1, he2⟩ := htm j ins hm ⟨k, hk, h1⟩
      refine ⟨h3, fun x hx => h2 x ?_⟩
      subst he1
      exact .input he hx (by rw [he2]; exact hk)
  obtain ⟨hrl, hreach⟩ := hflow loss w hdep hw
  have hsucc := C34_succeeds st loss one hrl (ha loss (by omega)) (by
    intro e he
    rw [hact, htape] at he
    refine ⟨fun i hie => ha i (hti e he i hie), fun g => ?_⟩
    obtain ⟨gs, hgs, _⟩ := hvjp e (by rw [htape]; exact he) g
    exact ⟨gs, hgs⟩)
  refine ⟨_, backward_pair hsucc, ?_⟩
  obtain ⟨-, -, a, hwk, hg, -⟩ := backward_ok (backward_pair hsucc)
  have hord := hgood.tapeOf (active st)
  rw [hact, htape] at hwk hord
  have hdom := walk_dom st.requires st.alive st.vals t.reverse _ a
    (List.pairwise_reverse.mpr hord.1) (fun e he => hord.2 e (List.mem_reverse.mp he))
    (by
      intro e he g gs hgs
      obtain ⟨gs', hgs', hlen⟩ := hvjp e (by rw [htape]; exact List.mem_reverse.mp he) g
      rw [hgs'] at hgs
      injection hgs with hgs
      subst hgs
      exact hlen) hwk w
  have hne : a.map w ≠ none := by
    rw [hdom]
    refine From.mono ?_ ((from_iff_reaches t loss w).mpr (hreach loss .loss))
    intro j hj
    subst hj
    simp
  have hsync : Synced st.requires a := by
    have := walk_inv (Synced st.requires) st.requires st.alive st.vals
      (fun a p h => h.accOne p) t.reverse
      { map := update (fun _ => none) loss (some one), grads := update st.grads loss (some one) }
      (by
        intro i _ g hgi
        by_cases hil : i = loss
        · subst hil; simpa using hgi
        · simp [update_of_ne hil] at hgi)
    rw [hwk] at this
    exact this
  cases hm : a.map w with
  | none => exact absurd hm hne
  | some g =>
    rw [hg, hsync w hw g hm]
    simp

end Complete

/-- `w * c` -/
def mulStep (i j : Nat) : Step Int :=
  .op [i, j] (fun v => v.getD 0 0 * v.getD 1 0) (fun vals g => .ok [g * vals j, g * vals i]) true

/-- The hypotheses of `C57_complete_partial` hold of `loss = (w * c) * w`. -/
example : ∃ st', backward (run (init 0) [.leaf 2 true, .leaf 5 false, mulStep 0 1, mulStep 2 0]) 3 1
    = (st', true) ∧ st'.grads 0 ≠ none := by
  refine C57_complete_partial (0 : Int) [.leaf 2 true, .leaf 5 false, mulStep 0 1, mulStep 2 0] 0 3 1
    ?_ (by decide +kernel) (by decide +kernel) ?_ ?_
  · simp [Spec.Plain, mulStep]
  · refine .op (k := 2) (ins := [2, 0]) (by decide +kernel) (by simp) ?_
    exact .op (k := 0) (ins := [0, 1]) (by decide +kernel) (by simp) .refl
  · intro e he g
    have htape : tapeOf (run (init (0 : Int))
        [.leaf 2 true, .leaf 5 false, mulStep 0 1, mulStep 2 0]) 0 =
        [{ out := 2, ins := [0, 1], vjp := fun vals g => .ok [g * vals 1, g * vals 0] },
         { out := 3, ins := [2, 0], vjp := fun vals g => .ok [g * vals 0, g * vals 2] }] := rfl
    rw [htape] at he
    simp only [List.mem_cons, List.not_mem_nil, or_false] at he
    rcases he with rfl | rfl <;> exact ⟨_, rfl, rfl⟩

/-- C57 is false when a constant operand is dropped: `loss = w * c` with `c` a temporary.  The
tape holds no handle, so `c` has left the registry when `backward` runs, and `backward` fails. -/
theorem C57_constant_false :
    ∃ l : List (Step Int), Spec.ComputedFrom (Spec.made l) 2 0 ∧
      (run (init 0) l).requires 0 = true ∧ (run (init 0) l).alive 0 = true ∧
      (run (init 0) l).alive 2 = true ∧
      (backward (run (init 0) l) 2 1).2 = false ∧
      (backward (run (init 0) l) 2 1).1.grads 0 = none := by
  refine ⟨[.leaf 2 true, .leaf 5 false, mulStep 0 1, .die 1], ?_, by decide +kernel,
    by decide +kernel, by decide +kernel, by decide +kernel, by decide +kernel⟩
  exact .op (k := 0) (ins := [0, 1]) (by decide +kernel) (by simp) .refl

/-- C57 is false when another leaf that requires a gradient is dropped: `y = w * v; drop(v)`.  The
entry of `y` is deleted from the tape, `backward` on `y` succeeds, and `w`, still held, gets no
gradient. -/
theorem C57_other_leaf_false :
    ∃ l : List (Step Int), Spec.ComputedFrom (Spec.made l) 2 0 ∧
      (run (init 0) l).requires 0 = true ∧ (run (init 0) l).alive 0 = true ∧
      (run (init 0) l).alive 2 = true ∧
      (backward (run (init 0) l) 2 1).2 = true ∧
      (backward (run (init 0) l) 2 1).1.grads 0 = none := by
  refine ⟨[.leaf 2 true, .leaf 5 true, mulStep 0 1, .dropLeaf 1], ?_, by decide +kernel,
    by decide +kernel, by decide +kernel, by decide +kernel, by decide +kernel⟩
  exact .op (k := 0) (ins := [0, 1]) (by decide +kernel) (by simp) .refl

/-- C57 is false through `contiguous()` on a non-contiguous tensor (ops/cast_memory.rs:56-83, which
every shape operation calls first on such a tensor): the copy does not require a gradient and is
not recorded.  With `loss = w + contiguous(w)` the gradient of `w` is `1`, not `2`, and a loss
computed from the copy alone refuses `backward`. -/
theorem C57_contiguous_false :
    ∃ l : List (Step Int), Spec.ComputedFrom (Spec.made l) 2 0 ∧ (Spec.made l)[1]? = some ([0], false) ∧
      (run (init 0) l).vals 1 = (run (init 0) l).vals 0 ∧
      (run (init 0) l).vals 2 = 2 * (run (init 0) l).vals 0 ∧
      (run (init 0) l).requires 0 = true ∧ (∀ i < 3, (run (init 0) l).alive i = true) ∧
      (backward (run (init 0) l) 2 1).2 = true ∧
      (backward (run (init 0) l) 2 1).1.grads 0 = some 1 ∧
      (backward (run (init 0) l) 1 1).2 = false := by
  refine ⟨[.leaf 2 true, .op [0] (fun v => v.getD 0 0) (fun _ g => .ok [g]) false,
    .op [0, 1] (fun v => v.getD 0 0 + v.getD 1 0) (fun _ g => .ok [g, g]) true], ?_, by decide +kernel, by decide +kernel,
    by decide +kernel, by decide +kernel, by decide +kernel, by decide +kernel, by decide +kernel,
    by decide +kernel⟩
  exact .op (k := 0) (ins := [0, 1]) (by decide +kernel) (by simp) .refl

end Hodu.Autograd
