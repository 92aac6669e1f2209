import Verif.Model.Autograd
import Mathlib.Algebra.BigOperators.Group.Finset.Basic
import Mathlib.Algebra.BigOperators.Group.List.Basic

/-!
# C34 and C35: what `backward` computes

The specification is written without any definition of the model's walk: a recorded computation
is a list of entries; `tangent` pushes a perturbation of the leaves *forward* through it with the
local derivatives; `Reaches` says which tensors the loss depends on.
-/

namespace Hodu.Autograd

open Function

namespace Spec

/-- What the first-order change of every tensor is when the leaves change by `δ`: forward through
the recorded operations, oldest first, with the local derivative `jac` of each. -/
def tangent {V : Type} (jac : Entry V → List V → V) (δ : Nat → V) (tape : List (Entry V)) :
    Nat → V :=
  tape.foldl (fun t e => update t e.out (jac e (e.ins.map t))) δ

/-- The tensors a recorded computation of `loss` starts from: those it reads, and the loss itself,
unless an operation of the tape made them. -/
def leaves {V : Type} (tape : List (Entry V)) (loss : Nat) : Finset Nat :=
  (loss :: tape.flatMap (·.ins)).toFinset \ (tape.map (·.out)).toFinset

/-- The vector-Jacobian product of an entry is the adjoint of its local derivative: for every
gradient `g` of the output and all perturbations `ds` of the inputs,
`Σ ⟨vjp g, ds⟩ = ⟨g, jac ds⟩`, and it returns one gradient per input. -/
def LocalAdjoint {V K : Type} [AddCommMonoid K] (pair : V → V → K) (vals : Nat → V)
    (jac : Entry V → List V → V) (e : Entry V) : Prop :=
  ∀ g gs, e.vjp vals g = .ok gs → gs.length = e.ins.length ∧
    ∀ ds, ds.length = e.ins.length → (List.zipWith pair gs ds).sum = pair g (jac e ds)

/-- `i` is the loss or is read by an operation whose result reaches the loss. -/
inductive Reaches {V : Type} (tape : List (Entry V)) (loss : Nat) : Nat → Prop
  | loss : Reaches tape loss loss
  | input {e : Entry V} {i : Nat} : e ∈ tape → Reaches tape loss e.out → i ∈ e.ins →
      Reaches tape loss i

end Spec

/-! ## Recorded tapes are in order -/

section Order

variable {V : Type}

/-- An operation's inputs exist before its output, and outputs get larger along the tape. -/
def Ordered (t : List (Entry V)) : Prop :=
  t.Pairwise (fun a b => a.out < b.out) ∧ ∀ e ∈ t, ∀ i ∈ e.ins, i < e.out

/-- What holds in every reachable state. -/
structure Good (st : St V) : Prop where
  alive : ∀ i, st.alive i = true → i < st.next
  tape : ∀ c t, st.tapes c = some t → Ordered t ∧ ∀ e ∈ t, e.out < st.next

theorem Ordered.nil : Ordered ([] : List (Entry V)) := by simp [Ordered]

theorem Ordered.filter {t : List (Entry V)} (h : Ordered t) (p : Entry V → Bool) :
    Ordered (t.filter p) :=
  ⟨h.1.filter p, fun e he => h.2 e (List.mem_of_mem_filter he)⟩

theorem Ordered.snoc {t : List (Entry V)} {e : Entry V} (h : Ordered t)
    (hlt : ∀ a ∈ t, a.out < e.out) (hin : ∀ i ∈ e.ins, i < e.out) : Ordered (t ++ [e]) := by
  refine ⟨?_, ?_⟩
  · rw [List.pairwise_append]
    refine ⟨h.1, by simp, ?_⟩
    intro a ha b hb
    simp at hb
    subst hb
    exact hlt a ha
  · intro a ha
    rcases List.mem_append.mp ha with ha | ha
    · exact h.2 a ha
    · simp at ha
      subst ha
      exact hin

theorem good_init (z : V) : Good (init z) := by
  refine ⟨by simp [init], ?_⟩
  intro c t h
  simp only [init] at h
  split at h
  · injection h with h
    subst h
    exact ⟨Ordered.nil, by simp⟩
  · simp at h

theorem good_leaf {st : St V} (h : Good st) (v : V) (req : Bool) : Good (leaf st v req) := by
  refine ⟨?_, ?_⟩
  · intro i hi
    simp only [leaf] at hi ⊢
    by_cases hn : i = st.next
    · omega
    · rw [update_of_ne hn] at hi
      have := h.alive i hi
      omega
  · intro c t ht
    have := h.tape c t ht
    exact ⟨this.1, fun e he => Nat.lt_succ_of_lt (this.2 e he)⟩

theorem good_record {st : St V} (h : Good st) {e : Entry V}
    (hlt : ∀ c t, st.tapes c = some t → ∀ a ∈ t, a.out < e.out) (hin : ∀ i ∈ e.ins, i < e.out)
    (hn : e.out < st.next) : Good (record st e) := by
  unfold record
  split
  · exact h
  · split
    · refine ⟨h.alive, ?_⟩
      intro c t ht
      simp only [pushEntry] at ht
      cases ha : st.tapes (active st) with
      | none => rw [ha] at ht; exact h.tape c t ht
      | some u =>
        rw [ha] at ht
        by_cases hc : c = active st
        · subst hc
          simp only [update_self, Option.some.injEq] at ht
          subst ht
          have hu := h.tape _ u ha
          refine ⟨hu.1.snoc (hlt _ u ha) hin, ?_⟩
          intro a ham
          rcases List.mem_append.mp ham with ham | ham
          · exact hu.2 a ham
          · simp at ham
            subst ham
            exact hn
        · simp only [update_of_ne hc] at ht
          exact h.tape c t ht
    · exact h

theorem good_op {st : St V} (h : Good st) (ins : List Nat) (f : List V → V)
    (vjp : (Nat → V) → V → Res (List V)) (diff : Bool) : Good (op st ins f vjp diff) := by
  unfold op
  split
  · rename_i hal
    have h1 := good_leaf h (f (ins.map st.vals)) (diff && ins.any st.requires)
    simp only
    split
    · refine good_record h1 ?_ ?_ ?_
      · intro c t ht a ha
        exact (h.tape c t ht).2 a ha
      · intro i hi
        exact h.alive i (List.all_eq_true.mp hal i hi)
      · simp [leaf]
    · exact h1
  · exact h

theorem good_backward [Add V] {st : St V} (h : Good st) (loss : Nat) (one : V) :
    Good (backward st loss one).1 := by
  unfold backward
  split
  · simp only
    split
    · refine ⟨h.alive, ?_⟩
      intro c t ht
      simp only [clearTape] at ht
      cases ha : st.tapes (active st) with
      | none => rw [ha] at ht; exact h.tape c t ht
      | some u =>
        rw [ha] at ht
        by_cases hc : c = active st
        · subst hc
          simp only [update_self, Option.some.injEq] at ht
          subst ht
          exact ⟨Ordered.nil, by simp⟩
        · simp only [update_of_ne hc] at ht
          exact h.tape c t ht
    · exact ⟨h.alive, h.tape⟩
  · exact h

theorem good_step [Add V] {st : St V} (h : Good st) (s : Step V) : Good (step st s) := by
  cases s with
  | leaf v req => exact good_leaf h v req
  | op ins f vjp diff => exact good_op h ins f vjp diff
  | enter =>
    refine ⟨h.alive, ?_⟩
    intro c t ht
    simp only [step, enter] at ht
    by_cases hc : c = st.nextCtx
    · subst hc
      simp only [update_self, Option.some.injEq] at ht
      subst ht
      exact ⟨Ordered.nil, by simp⟩
    · rw [update_of_ne hc] at ht
      exact h.tape c t ht
  | leave c' =>
    simp only [step, leave]
    split
    · exact h
    · refine ⟨h.alive, ?_⟩
      intro c t ht
      simp only at ht
      by_cases hc : c = c'
      · subst hc
        simp at ht
      · rw [update_of_ne hc] at ht
        exact h.tape c t ht
  | backward loss one => exact good_backward h loss one
  | zeroGrad i zero =>
    simp only [step, zeroGrad]
    split
    · cases st.grads i with
      | none => exact h
      | some _ => exact ⟨h.alive, h.tape⟩
    · exact h
  | dropLeaf i =>
    refine ⟨?_, ?_⟩
    · intro j hj
      simp only [step] at hj ⊢
      by_cases hji : j = i
      · subst hji; simp at hj
      · rw [update_of_ne hji] at hj
        exact h.alive j hj
    · intro c t ht
      simp only [step, removeEntries] at ht ⊢
      cases ha : st.tapes (active st) with
      | none => rw [ha] at ht; exact h.tape c t ht
      | some u =>
        rw [ha] at ht
        by_cases hc : c = active st
        · subst hc
          simp only [update_self, Option.some.injEq] at ht
          subst ht
          have hu := h.tape _ u ha
          exact ⟨hu.1.filter _, fun e he => hu.2 e (List.mem_of_mem_filter he)⟩
        · simp only [update_of_ne hc] at ht
          exact h.tape c t ht
  | die i =>
    refine ⟨?_, h.tape⟩
    intro j hj
    simp only [step] at hj ⊢
    by_cases hji : j = i
    · subst hji; simp at hj
    · rw [update_of_ne hji] at hj
      exact h.alive j hj
  | setReq i b =>
    simp only [step]
    split
    · exact ⟨h.alive, h.tape⟩
    · exact h
  | setVal i v =>
    simp only [step]
    split
    · exact ⟨h.alive, h.tape⟩
    · exact h
  | optFlag b => exact ⟨h.alive, h.tape⟩

theorem good_run [Add V] (z : V) (l : List (Step V)) : Good (run (init z) l) := by
  suffices ∀ (l : List (Step V)) (st : St V), Good st → Good (run st l) from this l _ (good_init z)
  intro l
  induction l with
  | nil => intro st h; exact h
  | cons s l ih => intro st h; exact ih _ (good_step h s)

theorem Good.tapeOf {st : St V} (h : Good st) (c : Nat) : Ordered (tapeOf st c) := by
  unfold Autograd.tapeOf
  cases ha : st.tapes c with
  | none => exact Ordered.nil
  | some t => exact (h.tape c t ha).1

end Order

/-! ## Forward tangents of an ordered tape -/

section Tangent

variable {V : Type} (jac : Entry V → List V → V)

theorem tangent_snoc (δ : Nat → V) (t : List (Entry V)) (e : Entry V) :
    Spec.tangent jac δ (t ++ [e]) =
      update (Spec.tangent jac δ t) e.out (jac e (e.ins.map (Spec.tangent jac δ t))) := by
  simp [Spec.tangent]

theorem tangent_leaf (δ : Nat → V) (t : List (Entry V)) (i : Nat)
    (h : ∀ e ∈ t, e.out ≠ i) : Spec.tangent jac δ t i = δ i := by
  induction t using List.reverseRecOn with
  | nil => rfl
  | append_singleton t e ih =>
    rw [tangent_snoc, update_of_ne (Ne.symm (h e (by simp)))]
    exact ih fun e' he => h e' (by simp [he])

theorem tangent_entry (δ : Nat → V) (t : List (Entry V)) (ho : Ordered t) (e : Entry V)
    (he : e ∈ t) :
    Spec.tangent jac δ t e.out = jac e (e.ins.map (Spec.tangent jac δ t)) := by
  induction t using List.reverseRecOn with
  | nil => simp at he
  | append_singleton t a ih =>
    have hp := List.pairwise_append.mp ho.1
    have ho' : Ordered t := ⟨hp.1, fun e he => ho.2 e (by simp [he])⟩
    have hstable : ∀ e ∈ t ++ [a], e.ins.map (Spec.tangent jac δ (t ++ [a])) =
        e.ins.map (Spec.tangent jac δ t) := by
      intro e he
      apply List.map_congr_left
      intro i hi
      rw [tangent_snoc, update_of_ne]
      have h1 := ho.2 e he i hi
      rcases List.mem_append.mp he with h | h
      · have := hp.2.2 e h a (by simp)
        omega
      · simp at h
        subst h
        omega
    rw [hstable e he]
    rcases List.mem_append.mp he with h | h
    · have hlt := hp.2.2 e h a (by simp)
      rw [tangent_snoc, update_of_ne (by omega)]
      exact ih ho' h
    · simp at h
      subst h
      rw [tangent_snoc, update_self]

end Tangent

/-! ## The walk keeps the pairing -/

section Walk

variable {V K : Type} [AddCommMonoid V] [AddCommMonoid K]

/-- The contribution of tensor `i` to the pairing. -/
def weight (pair : V → V → K) (m : Nat → Option V) (tan : Nat → V) (i : Nat) : K :=
  match m i with
  | some g => pair g (tan i)
  | none => 0

theorem weight_acc (pair : V → V → K) (hadd : ∀ a b d, pair (a + b) d = pair a d + pair b d)
    (requires : Nat → Bool) (a : Acc V) (p : Nat × V) (tan : Nat → V) (U : Finset Nat)
    (hp : p.1 ∈ U) :
    ∑ i ∈ U, weight pair (accOne requires a p).map tan i =
      ∑ i ∈ U, weight pair a.map tan i + pair p.2 (tan p.1) := by
  rw [← Finset.add_sum_erase U _ hp, ← Finset.add_sum_erase U (weight pair a.map tan) hp]
  have hrest : ∑ i ∈ U.erase p.1, weight pair (accOne requires a p).map tan i =
      ∑ i ∈ U.erase p.1, weight pair a.map tan i := by
    apply Finset.sum_congr rfl
    intro i hi
    have hne : i ≠ p.1 := Finset.ne_of_mem_erase hi
    simp [weight, accOne, update_of_ne hne]
  rw [hrest]
  have hself : weight pair (accOne requires a p).map tan p.1 =
      weight pair a.map tan p.1 + pair p.2 (tan p.1) := by
    simp only [weight, accOne, update_self]
    cases a.map p.1 with
    | none => simp
    | some x => simp [hadd]
  rw [hself]
  exact add_right_comm _ _ _

theorem weight_fold (pair : V → V → K) (hadd : ∀ a b d, pair (a + b) d = pair a d + pair b d)
    (requires : Nat → Bool) (tan : Nat → V) (U : Finset Nat) (l : List (Nat × V)) :
    ∀ a : Acc V, (∀ p ∈ l, p.1 ∈ U) →
    ∑ i ∈ U, weight pair (l.foldl (accOne requires) a).map tan i =
      ∑ i ∈ U, weight pair a.map tan i + (l.map fun p => pair p.2 (tan p.1)).sum := by
  induction l with
  | nil => intro a _; simp
  | cons p l ih =>
    intro a h
    rw [List.foldl_cons, ih _ (fun q hq => h q (by simp [hq])),
      weight_acc pair hadd requires a p tan U (h p (by simp))]
    simp [add_assoc]

omit [AddCommMonoid V] [AddCommMonoid K] in
theorem zip_map_pair (pair : V → V → K) (tan : Nat → V) (ins : List Nat) (gs : List V) :
    ((ins.zip gs).map fun p => pair p.2 (tan p.1)) = List.zipWith pair gs (ins.map tan) := by
  induction ins generalizing gs with
  | nil => cases gs <;> simp
  | cons i ins ih => cases gs with
    | nil => simp
    | cons g gs => simp [ih]

/-- The walk over the newest-first entries `es` moves the pairing from everything in `U` to what
none of them produced. -/
theorem walk_pairing (pair : V → V → K) (hadd : ∀ a b d, pair (a + b) d = pair a d + pair b d)
    (requires alive : Nat → Bool) (vals : Nat → V) (jac : Entry V → List V → V) (tan : Nat → V) :
    ∀ (es : List (Entry V)) (a a' : Acc V) (U : Finset Nat),
      es.Pairwise (fun x y => y.out < x.out) → (∀ e ∈ es, ∀ i ∈ e.ins, i < e.out) →
      (∀ e ∈ es, e.out ∈ U ∧ ∀ i ∈ e.ins, i ∈ U) →
      (∀ e ∈ es, Spec.LocalAdjoint pair vals jac e) →
      (∀ e ∈ es, tan e.out = jac e (e.ins.map tan)) →
      walk requires alive vals es a = (a', true) →
      ∑ i ∈ U \ (es.map (·.out)).toFinset, weight pair a'.map tan i =
        ∑ i ∈ U, weight pair a.map tan i := by
  intro es
  induction es with
  | nil =>
    intro a a' U _ _ _ _ _ h
    simp only [walk, Prod.mk.injEq, and_true] at h
    subst h
    simp
  | cons e es ih =>
    intro a a' U hpw hin hU hadj htan h
    have hpw' := List.pairwise_cons.mp hpw
    have heU := hU e (by simp)
    have hset : U \ ((e :: es).map (·.out)).toFinset =
        (U.erase e.out) \ (es.map (·.out)).toFinset := by
      ext i
      simp only [List.map_cons, List.toFinset_cons, Finset.mem_sdiff, Finset.mem_insert,
        Finset.mem_erase, not_or]
      tauto
    have hrec : ∀ b : Acc V, walk requires alive vals es b = (a', true) →
        ∑ i ∈ U \ ((e :: es).map (·.out)).toFinset, weight pair a'.map tan i =
          ∑ i ∈ U.erase e.out, weight pair b.map tan i := by
      intro b hb
      rw [hset]
      refine ih b a' (U.erase e.out) hpw'.2 (fun x hx => hin x (by simp [hx])) ?_
        (fun x hx => hadj x (by simp [hx])) (fun x hx => htan x (by simp [hx])) hb
      intro x hx
      have hxU := hU x (by simp [hx])
      have hlt := hpw'.1 x hx
      refine ⟨Finset.mem_erase.mpr ⟨by omega, hxU.1⟩, ?_⟩
      intro i hi
      have := hin x (by simp [hx]) i hi
      exact Finset.mem_erase.mpr ⟨by omega, hxU.2 i hi⟩
    rw [← Finset.add_sum_erase U (weight pair a.map tan) heU.1]
    unfold walk at h
    cases hg : a.map e.out with
    | none =>
      rw [hg] at h
      rw [hrec a h]
      simp [weight, hg]
    | some g =>
      rw [hg] at h
      simp only at h
      split at h
      · cases hv : e.vjp vals g with
        | ok gs =>
          rw [hv] at h
          simp only at h
          rw [hrec _ h]
          have hl := hadj e (by simp) g gs hv
          have hmem : ∀ p ∈ e.ins.zip gs, p.1 ∈ U.erase e.out := by
            intro p hp
            have hpi := (List.of_mem_zip hp).1
            have := hin e (by simp) p.1 hpi
            exact Finset.mem_erase.mpr ⟨by omega, heU.2 _ hpi⟩
          rw [weight_fold pair hadd requires tan _ _ a hmem, zip_map_pair,
            hl.2 (e.ins.map tan) (by simp), ← htan e (by simp), add_comm]
          simp [weight, hg]
        | err => rw [hv] at h; simp at h
        | panic => rw [hv] at h; simp at h
        | ub => rw [hv] at h; simp at h
      · simp at h

/-- What is stored in a tensor that requires a gradient is what the map holds, once it holds
something. -/
def Synced (requires : Nat → Bool) (a : Acc V) : Prop :=
  ∀ i, requires i = true → ∀ g, a.map i = some g → a.grads i = some g

theorem Synced.accOne {requires : Nat → Bool} {a : Acc V} (h : Synced requires a) (p : Nat × V) :
    Synced requires (accOne requires a p) := by
  intro i hi g hg
  by_cases hip : i = p.1
  · subst hip
    simp only [Autograd.accOne, update_self] at hg ⊢
    rw [if_pos hi, update_self]
    exact hg
  · simp only [Autograd.accOne, update_of_ne hip] at hg ⊢
    split
    · rw [update_of_ne hip]
      exact h i hi g hg
    · exact h i hi g hg

theorem Synced.fold {requires : Nat → Bool} (l : List (Nat × V)) :
    ∀ {a : Acc V}, Synced requires a → Synced requires (l.foldl (Autograd.accOne requires) a) := by
  induction l with
  | nil => intro a h; exact h
  | cons p l ih => intro a h; exact ih (h.accOne p)

/-- A tensor the map knows nothing about keeps what was stored in it. -/
def Frame (old : Nat → Option V) (a : Acc V) : Prop :=
  ∀ i, a.map i = none → a.grads i = old i

theorem Frame.accOne {old : Nat → Option V} {a : Acc V} (h : Frame old a)
    (requires : Nat → Bool) (p : Nat × V) : Frame old (accOne requires a p) := by
  intro i hi
  by_cases hip : i = p.1
  · subst hip
    simp [Autograd.accOne] at hi
  · simp only [Autograd.accOne, update_of_ne hip] at hi ⊢
    split
    · rw [update_of_ne hip]
      exact h i hi
    · exact h i hi

theorem Frame.fold {old : Nat → Option V} (requires : Nat → Bool) (l : List (Nat × V)) :
    ∀ {a : Acc V}, Frame old a → Frame old (l.foldl (Autograd.accOne requires) a) := by
  induction l with
  | nil => intro a h; exact h
  | cons p l ih => intro a h; exact ih (h.accOne requires p)

/-- An invariant of the inner loop is one of the walk. -/
theorem walk_inv (P : Acc V → Prop) (requires alive : Nat → Bool) (vals : Nat → V)
    (hP : ∀ a p, P a → P (accOne requires a p)) :
    ∀ (es : List (Entry V)) (a : Acc V), P a → P (walk requires alive vals es a).1 := by
  have hfold : ∀ (l : List (Nat × V)) a, P a → P (l.foldl (accOne requires) a) := by
    intro l
    induction l with
    | nil => intro a h; exact h
    | cons p l ih => intro a h; exact ih _ (hP a p h)
  intro es
  induction es with
  | nil => intro a h; exact h
  | cons e es ih =>
    intro a h
    unfold walk
    cases hg : a.map e.out with
    | none => exact ih a h
    | some g =>
      simp only
      split
      · cases hv : e.vjp vals g with
        | ok gs => exact ih _ (hfold _ a h)
        | err => exact h
        | panic => exact h
        | ub => exact h
      · exact h

end Walk

/-! ## Which tensors the walk reaches -/

section Reach

variable {V : Type}

/-- Reached from a set of tensors `D` through entries of `es`. -/
inductive From (es : List (Entry V)) (D : Nat → Prop) : Nat → Prop
  | base {i : Nat} : D i → From es D i
  | input {e : Entry V} {i : Nat} : e ∈ es → From es D e.out → i ∈ e.ins → From es D i

theorem From.mono {es : List (Entry V)} {D D' : Nat → Prop} (h : ∀ i, D i → D' i) {i : Nat}
    (hi : From es D i) : From es D' i := by
  induction hi with
  | base hd => exact .base (h _ hd)
  | input he _ hin ih => exact .input he ih hin

theorem from_iff_reaches (t : List (Entry V)) (loss i : Nat) :
    From t.reverse (fun j => j = loss) i ↔ Spec.Reaches t loss i := by
  constructor
  · intro h
    induction h with
    | base hd => subst hd; exact .loss
    | input he _ hin ih => exact .input (List.mem_reverse.mp he) ih hin
  · intro h
    induction h with
    | loss => exact .base rfl
    | input he _ hin ih => exact .input (List.mem_reverse.mpr he) ih hin

theorem from_cons (e : Entry V) (es : List (Entry V)) (D : Nat → Prop)
    (hlt : ∀ x ∈ es, x.out < e.out) (hin : ∀ x ∈ e :: es, ∀ i ∈ x.ins, i < x.out) (i : Nat) :
    From (e :: es) D i ↔ From es (fun j => D j ∨ (D e.out ∧ j ∈ e.ins)) i := by
  constructor
  · intro h
    induction h with
    | base hd => exact .base (Or.inl hd)
    | @input x j hx _ hj ih =>
      rcases List.mem_cons.mp hx with hxe | hxe
      · subst hxe
        refine .base (Or.inr ⟨?_, hj⟩)
        cases ih with
        | base hd =>
          rcases hd with hd | hd
          · exact hd
          · exact absurd (hin x (by simp) _ hd.2) (Nat.lt_irrefl _)
        | @input y _ hy _ hym =>
          have h1 := hin y (by simp [hy]) _ hym
          have h2 := hlt y hy
          exact absurd (Nat.lt_trans h1 h2) (Nat.lt_irrefl _)
      · exact .input hxe ih hj
  · intro h
    induction h with
    | base hd =>
      rcases hd with hd | hd
      · exact .base hd
      · exact .input (by simp) (.base hd.1) hd.2
    | input hx _ hj ih => exact .input (List.mem_cons_of_mem _ hx) ih hj

theorem fold_dom [Add V] (requires : Nat → Bool) (l : List (Nat × V)) :
    ∀ (a : Acc V) (i : Nat), ((l.foldl (accOne requires) a).map i ≠ none ↔
      a.map i ≠ none ∨ i ∈ l.map (·.1)) := by
  induction l with
  | nil => intro a i; simp
  | cons p l ih =>
    intro a i
    rw [List.foldl_cons, ih]
    by_cases hip : i = p.1
    · subst hip; simp [accOne]
    · simp [accOne, hip]

theorem walk_dom [Add V] (requires alive : Nat → Bool) (vals : Nat → V) :
    ∀ (es : List (Entry V)) (a a' : Acc V), es.Pairwise (fun x y => y.out < x.out) →
      (∀ e ∈ es, ∀ i ∈ e.ins, i < e.out) →
      (∀ e ∈ es, ∀ g gs, e.vjp vals g = .ok gs → gs.length = e.ins.length) →
      walk requires alive vals es a = (a', true) →
      ∀ i, a'.map i ≠ none ↔ From es (fun j => a.map j ≠ none) i := by
  intro es
  induction es with
  | nil =>
    intro a a' _ _ _ h i
    simp only [walk, Prod.mk.injEq, and_true] at h
    subst h
    constructor
    · intro h; exact .base h
    · intro h
      cases h with
      | base h => exact h
      | input h => simp at h
  | cons e es ih =>
    intro a a' hpw hin hlen h i
    have hpw' := List.pairwise_cons.mp hpw
    rw [from_cons e es _ hpw'.1 hin]
    have hrec := fun (b : Acc V) hb => ih b a' hpw'.2 (fun x hx => hin x (by simp [hx]))
      (fun x hx => hlen x (by simp [hx])) hb i
    unfold walk at h
    cases hg : a.map e.out with
    | none =>
      rw [hg] at h
      rw [hrec a h]
      constructor
      · exact From.mono fun j hj => Or.inl hj
      · exact From.mono fun j hj => hj.elim id fun hj => absurd rfl hj.1
    | some g =>
      rw [hg] at h
      simp only at h
      split at h
      · cases hv : e.vjp vals g with
        | ok gs =>
          rw [hv] at h
          simp only at h
          rw [hrec _ h]
          have hl := hlen e (by simp) g gs hv
          have hmap : (e.ins.zip gs).map (·.1) = e.ins := by
            rw [List.map_fst_zip]
            omega
          have hd : ∀ j, (((e.ins.zip gs).foldl (accOne requires) a).map j ≠ none) ↔
              (a.map j ≠ none ∨ (some g ≠ none ∧ j ∈ e.ins)) := by
            intro j
            rw [fold_dom, hmap]
            simp
          constructor
          · exact From.mono fun j hj => (hd j).mp hj
          · exact From.mono fun j hj => (hd j).mpr hj
        | err => rw [hv] at h; simp at h
        | panic => rw [hv] at h; simp at h
        | ub => rw [hv] at h; simp at h
      · simp at h

end Reach

/-! ## C34 -/

section C34

variable {V K : Type} [AddCommMonoid V] [AddCommMonoid K]

/-- The result of a `backward` that succeeds. -/
theorem backward_ok {st st' : St V} {loss : Nat} {one : V}
    (h : backward st loss one = (st', true)) :
    st.requires loss = true ∧ st.alive loss = true ∧
    ∃ a, walk st.requires st.alive st.vals (tapeOf st (active st)).reverse
        { map := update (fun _ => none) loss (some one),
          grads := update st.grads loss (some one) } = (a, true) ∧
      st'.grads = a.grads ∧ st'.requires = st.requires ∧ tapeOf st' (active st') = [] ∧
      st'.alive = st.alive ∧ st'.vals = st.vals ∧ st'.stack = st.stack ∧
      (∀ c, c ≠ active st → st'.tapes c = st.tapes c) := by
  unfold backward at h
  split at h
  · rename_i hc
    simp only [Bool.and_eq_true] at hc
    refine ⟨hc.1, hc.2, ?_⟩
    simp only at h
    split at h
    · rename_i hr
      injection h with h _
      refine ⟨_, Prod.ext rfl hr, ?_⟩
      subst h
      refine ⟨rfl, rfl, ?_, rfl, rfl, rfl, ?_⟩
      · show (match clearTape st.tapes (active st) (active st) with
          | some t => t
          | none => []) = []
        unfold clearTape
        cases ht : st.tapes (active st) with
        | none => simp [ht]
        | some t => simp
      · intro c hcne
        simp only [clearTape]
        cases ht : st.tapes (active st) with
        | none => rfl
        | some t => simp [update_of_ne hcne]
    · simp at h
  · simp at h

/-- C34.  In every state a history of creations, operations, contexts, `backward`, `zero_grad`,
drops and optimizer steps can reach: if the vector-Jacobian product of each recorded operation is
the adjoint of its local derivative, and the leaves the loss does not depend on hold no gradient
from before (never computed, or zeroed; C35 says why this is needed), then after a successful `backward()` the gradients stored in the leaves that require
one, paired with any perturbation of them, give the pairing of the seed with the first-order
change of the loss.  The tape is any graph: shared inputs, diamonds, an input used twice by the
same operation, operations the loss does not depend on. -/
theorem C34_adjoint (z : V) (l : List (Step V)) (loss : Nat) (one : V) (st' : St V)
    (pair : V → V → K) (hadd : ∀ a b d, pair (a + b) d = pair a d + pair b d)
    (hzl : ∀ d, pair 0 d = 0) (hzr : ∀ g, pair g 0 = 0) (jac : Entry V → List V → V)
    (hadj : ∀ e ∈ tapeOf (run (init z) l) (active (run (init z) l)),
      Spec.LocalAdjoint pair (run (init z) l).vals jac e)
    (hb : backward (run (init z) l) loss one = (st', true))
    (hfresh : ∀ i ∈ Spec.leaves (tapeOf (run (init z) l) (active (run (init z) l))) loss,
      ¬ Spec.Reaches (tapeOf (run (init z) l) (active (run (init z) l))) loss i →
        ((run (init z) l).grads i).getD 0 = 0)
    (δ : Nat → V)
    (hδ : ∀ i, (run (init z) l).requires i = false → δ i = 0) :
    ∑ i ∈ (Spec.leaves (tapeOf (run (init z) l) (active (run (init z) l))) loss).filter
        (fun i => (run (init z) l).requires i = true),
      pair ((st'.grads i).getD 0) (δ i) =
    pair one (Spec.tangent jac δ (tapeOf (run (init z) l) (active (run (init z) l))) loss) := by
  have hgood := good_run z l
  generalize run (init z) l = st at *
  have ho := hgood.tapeOf (active st)
  obtain ⟨hrl, _, a, hw, hg, hr, -, -, -, -, -⟩ := backward_ok hb
  generalize htape : tapeOf st (active st) = t at *
  have hsync : Synced st.requires a := by
    have := walk_inv (Synced st.requires) st.requires st.alive st.vals
      (fun a p h => h.accOne p) t.reverse
      { map := update (fun _ => none) loss (some one), grads := update st.grads loss (some one) }
      (by
        intro i _ g hgi
        by_cases hil : i = loss
        · subst hil; simpa using hgi
        · simp [update_of_ne hil] at hgi)
    rw [hw] at this
    exact this
  have hframe : Frame (update st.grads loss (some one)) a := by
    have := walk_inv (Frame (update st.grads loss (some one))) st.requires st.alive st.vals
      (fun a p h => h.accOne st.requires p) t.reverse
      { map := update (fun _ => none) loss (some one), grads := update st.grads loss (some one) }
      (fun i _ => rfl)
    rw [hw] at this
    exact this
  have hdom : ∀ i, a.map i ≠ none ↔ Spec.Reaches t loss i := by
    intro i
    rw [← from_iff_reaches, walk_dom st.requires st.alive st.vals t.reverse _ a
      (List.pairwise_reverse.mpr ho.1) (fun e he => ho.2 e (List.mem_reverse.mp he))
      (fun e he g gs hgs => (hadj e (List.mem_reverse.mp he) g gs hgs).1) hw]
    have hseed : ∀ j, (update (fun _ => none) loss (some one) : Nat → Option V) j ≠ none ↔
        j = loss := by
      intro j
      by_cases hj : j = loss
      · subst hj; simp
      · simp [hj]
    exact ⟨From.mono fun j hj => (hseed j).mp hj, From.mono fun j hj => (hseed j).mpr hj⟩
  have key := walk_pairing pair hadd st.requires st.alive st.vals jac (Spec.tangent jac δ t)
    t.reverse _ a ((loss :: t.flatMap (·.ins)).toFinset ∪ (t.map (·.out)).toFinset)
    (List.pairwise_reverse.mpr ho.1) (fun e he => ho.2 e (List.mem_reverse.mp he))
    (by
      intro e he
      have he' := List.mem_reverse.mp he
      refine ⟨Finset.mem_union_right _ (by
        rw [List.mem_toFinset]; exact List.mem_map_of_mem he'), ?_⟩
      intro i hi
      refine Finset.mem_union_left _ ?_
      rw [List.mem_toFinset]
      exact List.mem_cons_of_mem _ (List.mem_flatMap.mpr ⟨e, he', hi⟩))
    (fun e he => hadj e (List.mem_reverse.mp he))
    (fun e he => tangent_entry jac δ t ho e (List.mem_reverse.mp he)) hw
  have hset : ((loss :: t.flatMap (·.ins)).toFinset ∪ (t.map (·.out)).toFinset) \
      (t.reverse.map (·.out)).toFinset = Spec.leaves t loss := by
    ext i
    simp only [Spec.leaves, Finset.mem_sdiff, Finset.mem_union, List.mem_toFinset, List.map_reverse,
      List.mem_reverse]
    tauto
  have hseed : ∑ i ∈ (loss :: t.flatMap (·.ins)).toFinset ∪ (t.map (·.out)).toFinset,
      weight pair (update (fun _ => none) loss (some one)) (Spec.tangent jac δ t) i =
      pair one (Spec.tangent jac δ t loss) := by
    rw [Finset.sum_eq_single loss]
    · simp [weight]
    · intro i _ hi
      simp [weight, update_of_ne hi]
    · intro hn
      exact absurd (Finset.mem_union_left _ (by simp)) hn
  rw [hset] at key
  rw [← hseed, ← key, Finset.sum_filter]
  apply Finset.sum_congr rfl
  intro i hi
  have hleaf : Spec.tangent jac δ t i = δ i := by
    apply tangent_leaf
    intro e he hei
    have := (Finset.mem_sdiff.mp hi).2
    apply this
    rw [List.mem_toFinset, ← hei]
    exact List.mem_map_of_mem he
  rw [hg]
  simp only [weight, hleaf]
  by_cases hri : st.requires i = true
  · rw [if_pos hri]
    cases hm : a.map i with
    | some g => rw [hsync i hri g hm]; rfl
    | none =>
      have hnr : ¬ Spec.Reaches t loss i := fun hr => (hdom i).mpr hr hm
      have hil : i ≠ loss := by intro hil; subst hil; exact hnr .loss
      rw [hframe i hm, update_of_ne hil]
      simp [hfresh i hi hnr, hzl]
  · rw [if_neg hri]
    have hri' : st.requires i = false := by simpa using hri
    rw [hδ i hri']
    cases a.map i <;> simp [hzr]

/-- `backward` succeeds when the loss is a tensor that requires a gradient, every input of every
recorded operation still exists, and the vector-Jacobian products do. -/
theorem C34_succeeds (st : St V) (loss : Nat) (one : V) (hr : st.requires loss = true)
    (ha : st.alive loss = true)
    (h : ∀ e ∈ tapeOf st (active st), (∀ i ∈ e.ins, st.alive i = true) ∧
      ∀ g, ∃ gs, e.vjp st.vals g = .ok gs) :
    (backward st loss one).2 = true := by
  have hw : ∀ (es : List (Entry V)) (a : Acc V), (∀ e ∈ es, (∀ i ∈ e.ins, st.alive i = true) ∧
      ∀ g, ∃ gs, e.vjp st.vals g = .ok gs) →
      (walk st.requires st.alive st.vals es a).2 = true := by
    intro es
    induction es with
    | nil => intro a _; rfl
    | cons e es ih =>
      intro a hes
      unfold walk
      cases hg : a.map e.out with
      | none => exact ih a fun x hx => hes x (by simp [hx])
      | some g =>
        obtain ⟨h1, h2⟩ := hes e (by simp)
        obtain ⟨gs, hgs⟩ := h2 g
        simp only
        rw [if_pos (List.all_eq_true.mpr h1), hgs]
        exact ih _ fun x hx => hes x (by simp [hx])
  unfold backward
  rw [hr, ha]
  simp only [Bool.and_self, if_true]
  rw [if_pos (hw _ _ fun e he => h e (List.mem_reverse.mp he))]

end C34

end Hodu.Autograd
