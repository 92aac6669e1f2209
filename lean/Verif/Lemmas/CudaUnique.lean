import Verif.Lemmas.Bitonic
import Verif.Lemmas.CudaProg

/-!
# Kernels of `unique` on CUDA, one by one
-/

namespace Hodu.Cuda
open Cuda.Spec

variable {V : Type}

/-! ## Generic -/

/-- Who may touch a cell: everybody reads it, everybody updates it by `u`, or it belongs to one index. -/
structure Plan (V : Type) where
  ro : Addr → Prop
  at_ : Addr → Prop
  own : Nat → Addr → Prop
  u : V → V

/-- The cells of the three kinds are different. -/
def Plan.Ok (P : Plan V) (n : Nat) : Prop :=
  (∀ a, P.ro a → ¬ P.at_ a) ∧ (∀ i a, i < n → P.own i a → ¬ P.ro a ∧ ¬ P.at_ a) ∧
  ∀ i j a, i < n → j < n → P.own i a → P.own j a → i = j

/-- An operation of index `i` that keeps to the plan. -/
def Plan.Keeps (P : Plan V) (i : Nat) (a : Addr) (f : V → V) (k : V → Prog V) : Prop :=
  (P.ro a ∧ f = fun v => v) ∨ (P.at_ a ∧ f = P.u ∧ ∃ p, k = fun _ => p) ∨ P.own i a

theorem Plan.indep {P : Plan V} {n : Nat} (hP : P.Ok n) {T : Addr → V → Prop} {i j : Nat} (hi : i < n) (hj : j < n)
    (hij : i ≠ j) {p q : Prog V} (hp : All T (P.Keeps i) p) (hq : All T (P.Keeps j) q) : Indep T p q := by
  refine All.mono (fun a f k h1 => All.mono (fun b g h h2 => ?_) hq) hp
  by_cases hab : a = b
  · subst hab
    refine Or.inr fun x _ => ?_
    rcases h1 with ⟨r1, rfl⟩ | ⟨a1, rfl, p1, rfl⟩ | o1 <;> rcases h2 with ⟨r2, rfl⟩ | ⟨a2, rfl, p2, rfl⟩ | o2
    · exact ⟨rfl, rfl, rfl⟩
    · exact absurd a2 (hP.1 a r1)
    · exact absurd r1 (hP.2.1 j a hj o2).1
    · exact absurd a1 (hP.1 a r2)
    · exact ⟨rfl, rfl, rfl⟩
    · exact absurd a1 (hP.2.1 j a hj o2).2
    · exact absurd r2 (hP.2.1 i a hi o1).1
    · exact absurd a2 (hP.2.1 i a hi o1).2
    · exact absurd (hP.2.2 i j a hi hj o1 o2) hij
  · exact Or.inl hab

theorem All.and {T : Addr → V → Prop} {P Q : Addr → (V → V) → (V → Prog V) → Prop} {p : Prog V} :
    All T P p → All T Q p → All T (fun a f k => P a f k ∧ Q a f k) p := by
  induction p with
  | done => exact fun _ _ => trivial
  | ub => exact fun h _ => h
  | op a f k ih => exact fun h1 h2 => ⟨⟨h1.1, h2.1⟩, fun v hv => ⟨(h1.2 v hv).1, ih v (h1.2 v hv).2 (h2.2 v hv).2⟩⟩

/-- A kernel that keeps to a plan ends with what its programs do one after the other. -/
theorem plan_ends {T : Addr → V → Prop} {n D : Nat} (hn : n ≤ 2 ^ 32 - 256) {prog : Nat → Prog V} {m0 : Mem V}
    (P : Plan V) (hP : P.Ok n) (hT : Typed T m0)
    (h : ∀ i, i < n → All T (fun a f k => P.Keeps i a f k ∧ (m0 a).isSome = true) (prog i))
    (hD : ∀ i, i < n → Depth (prog i) D) {M : Mem V} (hM : seq ((List.range n).map prog) m0 = .ok M) :
    Ends (progGrid64 n prog) m0 M := by
  obtain ⟨M', e, hE⟩ := grid64_ends (T := T) hn hT (fun i hi => All.mono (fun _ _ _ h => h.2) (h i hi))
    (fun i j hi hj hij => P.indep hP hi hj hij (All.mono (fun _ _ _ h => h.1) (h i hi))
      (All.mono (fun _ _ _ h => h.1) (h j hj))) hD
  rw [hM] at e
  cases e
  exact hE

/-- The programs one after the other, by an invariant. -/
theorem seq_inv {prog : Nat → Prog V} (I : Nat → Mem V → Prop) {m0 : Mem V} (h0 : I 0 m0) : ∀ (n : Nat),
    (∀ i m, i < n → I i m → ∃ m', (prog i).run m = .ok m' ∧ I (i + 1) m') →
    ∃ M, seq ((List.range n).map prog) m0 = .ok M ∧ I n M := by
  intro n
  induction n with
  | zero => exact fun _ => ⟨m0, rfl, h0⟩
  | succ n ih =>
    intro h
    obtain ⟨M, e, hM⟩ := ih fun i m hi => h i m (by omega)
    obtain ⟨M', e', hM'⟩ := h n M (by omega) hM
    refine ⟨M', ?_, hM'⟩
    rw [List.range_succ, List.map_append, seq_append, e]
    show seq [prog n] M = _
    show ((prog n).run M).bind (fun m => .ok m) = _
    rw [e']
    rfl

theorem run_load {m : Mem V} {a : Addr} {v : V} (h : m a = some v) (k : V → Prog V) :
    (Prog.load a k).run m = (k v).run m := by
  have : m.upd a (fun v => v) = m := by
    unfold Mem.upd
    rw [show (m a).map (fun v => v) = m a by cases m a <;> rfl, Function.update_eq_self]
  unfold Prog.load
  rw [Prog.run, h]
  simp only [this]

theorem run_store {m : Mem V} {a : Addr} {v : V} (h : m a = some v) (w : V) (p : Prog V) :
    (Prog.store a w p).run m = p.run (m.upd a fun _ => w) := by
  unfold Prog.store
  rw [Prog.run, h]

theorem run_atomic {m : Mem V} {a : Addr} {v : V} (h : m a = some v) (f : V → V) (p : Prog V) :
    (Prog.atomic a f p).run m = p.run (m.upd a f) := by
  unfold Prog.atomic
  rw [Prog.run, h]

/-! ## Launches -/

theorem done_stays {k : PKernel V} {m0 : Mem V} {t : Nat} (ht : ¬ t < k.threads) : ∀ (sched : List Nat) (s : PSt V),
    k.exec m0 sched = .ok s → s.pc t = .done := by
  intro sched
  induction sched using List.reverseRecOn with
  | nil =>
    intro s h
    cases h
    show (if t < k.threads then _ else _) = _
    rw [if_neg ht]
  | append_singleton l u ih =>
    intro s h
    rw [PKernel.exec_snoc] at h
    cases hl : k.exec m0 l with
    | ok s1 =>
      rw [hl] at h
      have h1 := ih s1 hl
      change k.step s1 u = .ok s at h
      by_cases hu : u = t
      · subst hu
        rw [step_done h h1]
        exact h1
      · rw [step_other h (Ne.symm hu)]
        exact h1
    | err => rw [hl] at h; cases h
    | panic => rw [hl] at h; cases h
    | ub => rw [hl] at h; cases h

/-- A launch of a kernel without races: unfinished or with its memory, never anything else. -/
theorem launch_ends {k : PKernel V} {m M : Mem V} (h : Ends k m M) :
    (∀ sched, k.launch m sched = .ok none ∨ k.launch m sched = .ok (some M)) ∧
    ∃ B, ∀ sched, (∀ t, t < k.threads → B ≤ sched.count t) → k.launch m sched = .ok (some M) := by
  have key : ∀ sched s, k.exec m sched = .ok s → s.allDone k.threads = true → s.finished := by
    intro sched s hs hd t
    by_cases ht : t < k.threads
    · have := List.all_eq_true.mp hd t (List.mem_range.mpr ht)
      revert this
      cases s.pc t <;> simp [PPc.isDone]
    · exact done_stays ht sched s hs
  constructor
  · intro sched
    obtain ⟨s, hs, hM⟩ := h.1 sched
    unfold PKernel.launch
    rw [hs]
    cases hd : s.allDone k.threads with
    | false => exact Or.inl (by simp [Res.bind, hd])
    | true => exact Or.inr (by simp [Res.bind, hd, hM (key sched s hs hd)])
  · obtain ⟨B, hB⟩ := h.2
    refine ⟨B, fun sched hf => ?_⟩
    obtain ⟨s, hs, hM⟩ := h.1 sched
    have hfin := hB sched s hf hs
    have hd : s.allDone k.threads = true := List.all_eq_true.mpr fun t _ => by rw [hfin t]; rfl
    unfold PKernel.launch
    rw [hs]
    simp [Res.bind, hd, hM hfin]

/-- Kernels without races, one after the other. -/
inductive Chain : List (PKernel V) → Mem V → Mem V → Prop
  | nil (m : Mem V) : Chain [] m m
  | cons {k : PKernel V} {ks : List (PKernel V)} {m m1 m2 : Mem V} :
    Ends k m m1 → Chain ks m1 m2 → Chain (k :: ks) m m2

theorem Chain.append {ks ls : List (PKernel V)} {m m1 m2 : Mem V} (h : Chain ks m m1) (h' : Chain ls m1 m2) :
    Chain (ks ++ ls) m m2 := by
  induction h with
  | nil => exact h'
  | cons e _ ih => exact .cons e (ih h')

/-- Every thread of every launch gets at least `B` steps. -/
def Spec.Fair (B : Nat) (ks : List (PKernel V)) (scheds : List (List Nat)) : Prop :=
  List.Forall₂ (fun (k : PKernel V) (s : List Nat) => ∀ t, t < k.threads → B ≤ s.count t) ks scheds

theorem chain_runAll {ks : List (PKernel V)} {m M : Mem V} (h : Chain ks m M) :
    (∀ scheds, runAll ks scheds m = .ok none ∨ runAll ks scheds m = .ok (some M)) ∧
    ∃ B, ∀ scheds, Fair B ks scheds → runAll ks scheds m = .ok (some M) := by
  induction h with
  | nil m => exact ⟨fun _ => Or.inr rfl, 0, fun _ _ => rfl⟩
  | @cons k ks m m1 m2 e _ ih =>
    obtain ⟨l1, B1, l2⟩ := launch_ends e
    obtain ⟨i1, B2, i2⟩ := ih
    constructor
    · intro scheds
      unfold runAll
      rcases l1 (scheds.headD []) with h | h
      · rw [h]; exact Or.inl rfl
      · rw [h]; exact i1 _
    · refine ⟨max B1 B2, fun scheds hf => ?_⟩
      cases hf with
      | @cons _ s _ ss hk hs =>
        unfold runAll
        show ((k.launch m s).bind _) = _
        rw [l2 s fun t ht => le_trans (le_max_left _ _) (hk t ht)]
        exact i2 ss (hs.imp fun _ _ h t ht => le_trans (le_max_right _ _) (h t ht))

/-! ## Memories -/

variable {α : Type}

/-- A memory with `sorted_values` and `sorted_indices` replaced. -/
def Mem.pair (m : Mem (Cell α)) (p : Nat) (s : Nat → α × Int) : Mem (Cell α) := fun a =>
  if a.1 = bSorted then (if a.2 < p then some (.val (s a.2).1) else none)
  else if a.1 = bOrder then (if a.2 < p then some (.int (s a.2).2) else none) else m a

theorem pair_sorted {m : Mem (Cell α)} {p : Nat} {s : Nat → α × Int} {x : Nat} (h : x < p) :
    m.pair p s (bSorted, x) = some (.val (s x).1) := by
  simp [Mem.pair, h]

theorem pair_order {m : Mem (Cell α)} {p : Nat} {s : Nat → α × Int} {x : Nat} (h : x < p) :
    m.pair p s (bOrder, x) = some (.int (s x).2) := by
  simp [Mem.pair, h]

theorem pair_other {m : Mem (Cell α)} {p : Nat} {s : Nat → α × Int} {a : Addr} (h1 : a.1 ≠ bSorted)
    (h2 : a.1 ≠ bOrder) : m.pair p s a = m a := by
  unfold Mem.pair
  rw [if_neg h1, if_neg h2]

theorem pair_upd_sorted {m : Mem (Cell α)} {p : Nat} {s : Nat → α × Int} {x : Nat} (h : x < p) (w : α) :
    (m.pair p s).upd (bSorted, x) (fun _ => .val w) = m.pair p (Function.update s x (w, (s x).2)) := by
  funext a
  by_cases ha : a = (bSorted, x)
  · subst ha
    rw [Mem.upd_self (pair_sorted h), pair_sorted h, Function.update_self]
  · rw [Mem.upd_ne ha]
    obtain ⟨b, y⟩ := a
    unfold Mem.pair
    by_cases hy : y = x
    · subst hy
      have hb : b ≠ bSorted := fun e => ha (by rw [e])
      simp only [hb, if_false, Function.update_self]
    · simp only [Function.update_of_ne hy]

theorem pair_upd_order {m : Mem (Cell α)} {p : Nat} {s : Nat → α × Int} {x : Nat} (h : x < p) (w : Int) :
    (m.pair p s).upd (bOrder, x) (fun _ => .int w) = m.pair p (Function.update s x ((s x).1, w)) := by
  funext a
  by_cases ha : a = (bOrder, x)
  · subst ha
    rw [Mem.upd_self (pair_order h), pair_order h, Function.update_self]
  · rw [Mem.upd_ne ha]
    obtain ⟨b, y⟩ := a
    unfold Mem.pair
    by_cases hy : y = x
    · subst hy
      have hb : b ≠ bOrder := fun e => ha (by rw [e])
      simp only [hb, if_false, Function.update_self]
    · simp only [Function.update_of_ne hy]

/-! ## Filling -/

/-- What is sorted: the elements with their places, then the padding. -/
def padded0 (maxVal : α) (xs : Nat → α) (n : Nat) (x : Nat) : α × Int := (if x < n then xs x else maxVal, (x : Int))

theorem castI32_small {x : Nat} (h : x < 2 ^ 31) : castI32 x = x := by
  unfold castI32
  omega

theorem sort_ends {maxVal : α} {n off P : Nat} {xs : Nat → α} {m0 : Mem (Cell α)} {s0 : Nat → α × Int}
    (hP : P ≤ 2 ^ 31) (hin : ∀ x, x < n → m0 (bInput, off + x) = some (.val (xs x))) :
    Ends (progGrid64 P (uniqueSortProg maxVal n off)) (m0.pair P s0) (m0.pair P (padded0 maxVal xs n)) := by
  have hin' : ∀ s x, x < n → m0.pair P s (bInput, off + x) = some (.val (xs x)) := by
    intro s x hx
    rw [pair_other (by simp) (by simp)]
    exact hin x hx
  obtain ⟨M, hM, eM⟩ := seq_inv (prog := uniqueSortProg maxVal n off)
    (fun i m => m = m0.pair P fun x => if x < i then padded0 maxVal xs n x else s0 x)
    (m0 := m0.pair P s0) (by simp) P (by
      rintro i m hi rfl
      refine ⟨_, ?_, rfl⟩
      have hc := castI32_small (show i < 2 ^ 31 by omega)
      have hfin : ∀ w, w = (padded0 maxVal xs n i).1 →
          (Prog.store (bSorted, i) (.val w) <| Prog.store (bOrder, i) (.int (castI32 i)) .done).run
            (m0.pair P fun x => if x < i then padded0 maxVal xs n x else s0 x) =
          .ok (m0.pair P fun x => if x < i + 1 then padded0 maxVal xs n x else s0 x) := by
        rintro w rfl
        rw [run_store (pair_sorted hi), pair_upd_sorted hi, run_store (pair_order hi), pair_upd_order hi, hc]
        refine congrArg (fun s => Res.ok (m0.pair P s)) (funext fun x => ?_)
        by_cases hx : x = i
        · subst hx
          rw [Function.update_self, Function.update_self, if_pos (Nat.lt_succ_self x)]
          rfl
        · rw [Function.update_of_ne hx, Function.update_of_ne hx]
          by_cases h : x < i
          · rw [if_pos h, if_pos (by omega)]
          · rw [if_neg h, if_neg (by omega)]
      unfold uniqueSortProg
      by_cases h : i < n
      · rw [if_pos h, run_load (hin' _ _ h)]
        exact hfin _ (by unfold padded0; rw [if_pos h])
      · rw [if_neg h]
        exact hfin _ (by unfold padded0; rw [if_neg h]))
  have eM' : M = m0.pair P (padded0 maxVal xs n) := by
    rw [eM]
    funext a
    unfold Mem.pair
    by_cases h : a.2 < P
    · simp only [h, if_true]
    · simp only [h, if_false]
  rw [← eM']
  refine plan_ends (T := fun _ _ => True) (D := 3) (by omega)
    { ro := fun a => a.1 = bInput, at_ := fun _ => False, own := fun i a => a.1 ≠ bInput ∧ a.2 = i, u := id } ?_
    (fun _ _ _ => trivial) ?_ ?_ hM
  · refine ⟨fun _ _ h => h, fun i a _ h => ⟨h.1, fun h => h⟩, ?_⟩
    rintro i j a _ _ ⟨_, rfl⟩ ⟨_, rfl⟩
    rfl
  · intro i hi
    have h2 : ∀ w : Cell α, All (fun _ _ => True) (fun a f k => Plan.Keeps
        { ro := fun a => a.1 = bInput, at_ := fun _ => False, own := fun i a => a.1 ≠ bInput ∧ a.2 = i, u := id }
          i a f k ∧ (m0.pair P s0 a).isSome = true)
        (Prog.store (bSorted, i) w <| Prog.store (bOrder, i) (Cell.int (castI32 i)) .done) := by
      intro w
      refine ⟨⟨Or.inr (Or.inr ⟨by simp, rfl⟩), by rw [pair_sorted hi]; rfl⟩, fun v _ => ⟨trivial, ?_⟩⟩
      exact ⟨⟨Or.inr (Or.inr ⟨by simp, rfl⟩), by rw [pair_order hi]; rfl⟩, fun v _ => ⟨trivial, trivial⟩⟩
    unfold uniqueSortProg
    split
    · next h => exact ⟨⟨Or.inl ⟨rfl, rfl⟩, by rw [hin' _ _ h]; rfl⟩, fun v _ => ⟨trivial, h2 _⟩⟩
    · exact h2 _
  · intro i _
    unfold uniqueSortProg
    split
    · exact fun _ _ _ => trivial
    · exact fun _ _ => trivial

/-! ## Comparing -/

open Bitonic in
theorem bitonic_ends {less : α → α → Bool} {q r k : Nat} (hq : 2 ^ q ≤ 2 ^ 31) (hr : r < q) {m0 : Mem (Cell α)}
    (v : Nat → α × Int) :
    Ends (progGrid64 (2 ^ q) (bitonicProg less (2 ^ q) k (2 ^ r))) (m0.pair (2 ^ q) v)
      (m0.pair (2 ^ q) (bstep (fun a b => less a.1 b.1) k (2 ^ r) v)) := by
  have hx2 : ∀ x, x < 2 ^ q → x ^^^ 2 ^ r < 2 ^ q := fun x hx =>
    Nat.xor_lt_two_pow hx (Nat.pow_lt_pow_right (by decide) hr)
  have hne : ∀ x, x ^^^ 2 ^ r ≠ x := by
    intro x
    have := Nat.two_pow_pos r
    rw [xor_two_pow]
    by_cases h : x % (2 * 2 ^ r) < 2 ^ r
    · rw [if_pos h]; omega
    · rw [if_neg h]
      have := Nat.mod_le x (2 * 2 ^ r)
      omega
  have hinv : ∀ x, (x ^^^ 2 ^ r) ^^^ 2 ^ r = x := fun x => by rw [Nat.xor_assoc, Nat.xor_self, Nat.xor_zero]
  obtain ⟨M, hM, eM⟩ := seq_inv (prog := bitonicProg less (2 ^ q) k (2 ^ r))
    (fun i m => m = m0.pair (2 ^ q) fun x => if min x (x ^^^ 2 ^ r) < i
      then bstep (fun a b => less a.1 b.1) k (2 ^ r) v x else v x)
    (m0 := m0.pair (2 ^ q) v) (by simp) (2 ^ q) (by
      rintro i m hi rfl
      refine ⟨_, ?_, rfl⟩
      unfold bitonicProg
      have hj := hx2 i hi
      have hnei := hne i
      by_cases h : i < i ^^^ 2 ^ r
      · dsimp only
        rw [if_pos ⟨h, hj⟩, run_load (pair_sorted hi), run_load (pair_sorted hj), hinv, min_comm (i ^^^ 2 ^ r),
          Nat.min_eq_left (Nat.le_of_lt h)]
        simp only [Nat.lt_irrefl, if_false]
        have hsw : swaps (fun a b : α × Int => less a.1 b.1) k (2 ^ r) v i =
            if i &&& k = 0 then !less (v i).1 (v (i ^^^ 2 ^ r)).1 else less (v i).1 (v (i ^^^ 2 ^ r)).1 := by
          unfold swaps
          dsimp only
          rw [Nat.min_eq_left (Nat.le_of_lt h), Nat.max_eq_right (Nat.le_of_lt h)]
        have hsw' := swaps_partner (fun a b : α × Int => less a.1 b.1) k (2 ^ r) v i
        have hmin : ∀ x, x ≠ i → x ≠ i ^^^ 2 ^ r → (min x (x ^^^ 2 ^ r) < i + 1 ↔ min x (x ^^^ 2 ^ r) < i) := by
          intro x h1 h2
          have : x ^^^ 2 ^ r ≠ i := fun e => h2 (by rw [← e, hinv])
          omega
        rw [← hsw]
        cases hs : swaps (fun a b : α × Int => less a.1 b.1) k (2 ^ r) v i with
        | true =>
          rw [hs] at hsw'
          rw [if_pos rfl, run_store (pair_sorted hi), pair_upd_sorted hi, run_store (pair_sorted hj), pair_upd_sorted hj,
            run_load (pair_order hi), run_load (pair_order hj), run_store (pair_order hi), pair_upd_order hi,
            run_store (pair_order hj), pair_upd_order hj]
          show Res.ok _ = _
          congr 2
          funext x
          by_cases h1 : x = i
          · subst h1
            simp only [Function.update_of_ne hnei, Function.update_of_ne (Ne.symm hnei), Function.update_self, hinv,
              min_comm (x ^^^ 2 ^ r) x, Nat.min_eq_left (Nat.le_of_lt h), Nat.lt_irrefl, if_false, Nat.lt_succ_self,
              if_true, bstep, from_, hs]
          · by_cases h2 : x = i ^^^ 2 ^ r
            · subst h2
              simp only [Function.update_of_ne hnei, Function.update_of_ne (Ne.symm hnei), Function.update_self, hinv,
                min_comm (i ^^^ 2 ^ r) i, Nat.min_eq_left (Nat.le_of_lt h), Nat.lt_irrefl, if_false, Nat.lt_succ_self,
                if_true, bstep, from_, hsw']
            · simp only [Function.update_of_ne h1, Function.update_of_ne h2, hmin x h1 h2]
        | false =>
          rw [hs] at hsw'
          rw [if_neg (by simp)]
          show Res.ok _ = _
          congr 2
          funext x
          by_cases h1 : x = i
          · subst h1
            simp only [Nat.min_eq_left (Nat.le_of_lt h), Nat.lt_irrefl, if_false, Nat.lt_succ_self,
              if_true, bstep, from_, hs, Bool.false_eq_true]
          · by_cases h2 : x = i ^^^ 2 ^ r
            · subst h2
              simp only [hinv, min_comm (i ^^^ 2 ^ r) i, Nat.min_eq_left (Nat.le_of_lt h), Nat.lt_irrefl, if_false,
                Nat.lt_succ_self, if_true, bstep, from_, hsw', Bool.false_eq_true]
            · simp only [hmin x h1 h2]
      · dsimp only
        rw [if_neg (by rintro ⟨h', _⟩; exact h h')]
        show Res.ok _ = _
        congr 2
        funext x
        have : min x (x ^^^ 2 ^ r) < i + 1 ↔ min x (x ^^^ 2 ^ r) < i := by
          have h1 : x = i → x ^^^ 2 ^ r = i ^^^ 2 ^ r := fun e => by rw [e]
          have h2 : x ^^^ 2 ^ r = i → x = i ^^^ 2 ^ r := fun e => by rw [← e, hinv]
          omega
        simp only [this])
  have eM' : M = m0.pair (2 ^ q) (bstep (fun a b => less a.1 b.1) k (2 ^ r) v) := by
    rw [eM]
    funext a
    unfold Mem.pair
    by_cases h : a.2 < 2 ^ q
    · have : min a.2 (a.2 ^^^ 2 ^ r) < 2 ^ q := by omega
      simp only [h, this, if_true]
    · simp only [h, if_false]
  rw [← eM']
  let P : Plan (Cell α) :=
    { ro := fun _ => False, at_ := fun _ => False, own := fun i a => min a.2 (a.2 ^^^ 2 ^ r) = i, u := id }
  refine plan_ends (T := fun a c => a.1 = bSorted → ∃ w, c = .val w) (D := 8) (by omega) P ?_ ?_ ?_ ?_ hM
  · refine ⟨fun _ h => h.elim, fun i a _ _ => ⟨fun h => h, fun h => h⟩, ?_⟩
    rintro i j a _ _ rfl rfl
    rfl
  · rintro ⟨b, x⟩ c hc (hb : b = bSorted)
    subst hb
    unfold Mem.pair at hc
    simp only [if_true] at hc
    split at hc
    · exact ⟨_, (Option.some.inj hc).symm⟩
    · cases hc
  · intro i hi
    unfold bitonicProg
    dsimp only
    split
    · next h =>
      obtain ⟨h, hj⟩ := h
      have k1 : ∀ b f c, P.Keeps i (b, i) f c := fun b f c =>
        Or.inr (Or.inr (show min i (i ^^^ 2 ^ r) = i by omega))
      have k2 : ∀ b f c, P.Keeps i (b, i ^^^ 2 ^ r) f c := fun b f c =>
        Or.inr (Or.inr (show min (i ^^^ 2 ^ r) ((i ^^^ 2 ^ r) ^^^ 2 ^ r) = i by rw [hinv]; omega))
      have s1 : (m0.pair (2 ^ q) v (bSorted, i)).isSome = true := by rw [pair_sorted hi]; rfl
      have s2 : (m0.pair (2 ^ q) v (bSorted, i ^^^ 2 ^ r)).isSome = true := by rw [pair_sorted hj]; rfl
      have s3 : (m0.pair (2 ^ q) v (bOrder, i)).isSome = true := by rw [pair_order hi]; rfl
      have s4 : (m0.pair (2 ^ q) v (bOrder, i ^^^ 2 ^ r)).isSome = true := by rw [pair_order hj]; rfl
      refine ⟨⟨k1 _ _ _, s1⟩, fun c1 t1 => ⟨t1, ⟨k2 _ _ _, s2⟩, fun c2 t2 => ⟨t2, ?_⟩⟩⟩
      obtain ⟨w1, rfl⟩ := t1 rfl
      obtain ⟨w2, rfl⟩ := t2 rfl
      dsimp only
      generalize (if i &&& k = 0 then !less w1 w2 else less w1 w2) = sw
      cases sw with
      | false => trivial
      | true =>
        rw [if_pos rfl]
        refine ⟨⟨k1 _ _ _, s1⟩, fun _ _ => ⟨fun _ => ⟨_, rfl⟩, ?_⟩⟩
        refine ⟨⟨k2 _ _ _, s2⟩, fun _ _ => ⟨fun _ => ⟨_, rfl⟩, ?_⟩⟩
        refine ⟨⟨k1 _ _ _, s3⟩, fun _ _ => ⟨fun h => absurd h (by simp), ?_⟩⟩
        refine ⟨⟨k2 _ _ _, s4⟩, fun _ _ => ⟨fun h => absurd h (by simp), ?_⟩⟩
        refine ⟨⟨k1 _ _ _, s3⟩, fun _ _ => ⟨fun h => absurd h (by simp), ?_⟩⟩
        exact ⟨⟨k2 _ _ _, s4⟩, fun _ _ => ⟨fun h => absurd h (by simp), trivial⟩⟩
    · trivial
  · intro i _
    unfold bitonicProg
    dsimp only
    split
    · intro c1 c2
      cases c1 with
      | int _ => cases c2 <;> trivial
      | val w1 =>
        cases c2 with
        | int _ => trivial
        | val w2 =>
          dsimp only
          generalize (if i &&& k = 0 then !less w1 w2 else less w1 w2) = sw
          cases sw with
          | false => trivial
          | true => exact fun _ _ _ _ _ _ => trivial
    · trivial

/-! ## Marks and their sums -/

/-- Number of marks before `i`. -/
def marksTo (mk : Nat → Bool) : Nat → Nat
  | 0 => 0
  | i + 1 => marksTo mk i + if mk i then 1 else 0

/-- A cell differs from the one before. -/
def isMark (eq : α → α → Bool) (v : Nat → α × Int) (t : Nat) : Bool := t == 0 || !eq (v t).1 (v (t - 1)).1

/-- A memory with one cell replaced. -/
def Mem.set (m : Mem V) (a : Addr) (v : V) : Mem V := Function.update m a (some v)

theorem set_upd {m : Mem V} {a : Addr} {v : V} (f : V → V) : (m.set a v).upd a f = m.set a (f v) := by
  unfold Mem.upd Mem.set
  rw [Function.update_self, Function.update_idem]
  rfl

theorem count_ends {eq : α → α → Bool} {n P : Nat} (hn : n ≤ 2 ^ 31) (hnP : n ≤ P) {m0 : Mem (Cell α)}
    (v : Nat → α × Int) (hc : m0 (bCount, 0) = some (.int 0)) :
    Ends (progGrid64 n (uniqueCountProg eq)) (m0.pair P v)
      ((m0.pair P v).set (bCount, 0) (.int (marksTo (isMark eq v) n))) := by
  have hs : ∀ w x, x < n → (m0.pair P v).set (bCount, 0) w (bSorted, x) = some (.val (v x).1) := by
    intro w x hx
    unfold Mem.set
    rw [Function.update_of_ne (by simp), pair_sorted (by omega)]
  have hat : ∀ w, (m0.pair P v).set (bCount, 0) w (bCount, 0) = some w := by
    intro w
    unfold Mem.set
    rw [Function.update_self]
  obtain ⟨M, hM, eM⟩ := seq_inv (prog := uniqueCountProg eq)
    (fun i m => m = (m0.pair P v).set (bCount, 0) (.int (marksTo (isMark eq v) i)))
    (m0 := m0.pair P v) (by
      unfold Mem.set
      rw [show some (Cell.int ((marksTo (isMark eq v) 0 : Nat) : Int)) = m0.pair P v (bCount, 0) by
        rw [pair_other (by simp) (by simp), hc]; rfl, Function.update_eq_self]) n (by
      rintro i m hi rfl
      refine ⟨_, ?_, rfl⟩
      unfold uniqueCountProg
      by_cases h0 : i = 0
      · subst h0
        rw [if_pos rfl, run_atomic (hat _), set_upd]
        rfl
      · rw [if_neg h0, run_load (hs _ _ hi), run_load (hs _ _ (by omega))]
        dsimp only
        have hmk : isMark eq v i = !eq (v i).1 (v (i - 1)).1 := by simp [isMark, h0]
        rw [marksTo, hmk]
        cases eq (v i).1 (v (i - 1)).1 with
        | true => simp [Prog.run]
        | false =>
          simp only [Bool.false_eq_true, if_false, Bool.not_false, if_true]
          rw [run_atomic (hat _), set_upd]
          simp [Prog.run, inc])
  rw [← eM]
  let P' : Plan (Cell α) :=
    { ro := fun a => a.1 = bSorted, at_ := fun a => a = (bCount, 0), own := fun _ _ => False, u := inc }
  refine plan_ends (T := fun a c => a.1 = bSorted → ∃ w, c = .val w) (D := 3) (by omega) P' ?_ ?_ ?_ ?_ hM
  · refine ⟨?_, fun i a _ h => h.elim, fun i j a _ _ h => h.elim⟩
    rintro ⟨b, x⟩ h1 h2
    cases h2
    cases h1
  · rintro ⟨b, x⟩ c hc (hb : b = bSorted)
    subst hb
    unfold Mem.pair at hc
    simp only [if_true] at hc
    split at hc
    · exact ⟨_, (Option.some.inj hc).symm⟩
    · cases hc
  · intro i hi
    have hA : All (fun (a : Addr) (c : Cell α) => a.1 = bSorted → ∃ w, c = .val w)
        (fun a f k => P'.Keeps i a f k ∧ (m0.pair P v a).isSome = true) (.atomic (bCount, 0) inc .done) :=
      ⟨⟨Or.inr (Or.inl ⟨rfl, rfl, _, rfl⟩), by rw [pair_other (by simp) (by simp), hc]; rfl⟩,
        fun _ _ => ⟨fun h => absurd h (by simp), trivial⟩⟩
    unfold uniqueCountProg
    split
    · exact hA
    · refine ⟨⟨Or.inl ⟨rfl, rfl⟩, by rw [pair_sorted (by omega)]; rfl⟩, fun c1 t1 => ⟨t1, ?_⟩⟩
      refine ⟨⟨Or.inl ⟨rfl, rfl⟩, by rw [pair_sorted (by omega)]; rfl⟩, fun c2 t2 => ⟨t2, ?_⟩⟩
      obtain ⟨w1, rfl⟩ := t1 rfl
      obtain ⟨w2, rfl⟩ := t2 rfl
      dsimp only
      split
      · trivial
      · exact hA
  · intro i _
    unfold uniqueCountProg
    split
    · exact fun _ => trivial
    · intro c1 c2
      cases c1 <;> cases c2 <;> try trivial
      dsimp only
      split
      · trivial
      · exact fun _ => trivial

/-- A memory with a buffer of integers replaced. -/
def Mem.ints (m : Mem (Cell α)) (b n : Nat) (s : Nat → Int) : Mem (Cell α) := fun a =>
  if a.1 = b then (if a.2 < n then some (.int (s a.2)) else none) else m a

theorem ints_at {m : Mem (Cell α)} {b n : Nat} {s : Nat → Int} {x : Nat} (h : x < n) :
    m.ints b n s (b, x) = some (.int (s x)) := by simp [Mem.ints, h]

theorem ints_other {m : Mem (Cell α)} {b n : Nat} {s : Nat → Int} {a : Addr} (h : a.1 ≠ b) : m.ints b n s a = m a := by
  unfold Mem.ints
  rw [if_neg h]

theorem ints_upd {m : Mem (Cell α)} {b n : Nat} {s : Nat → Int} {x : Nat} (h : x < n) (w : Int) :
    (m.ints b n s).upd (b, x) (fun _ => .int w) = m.ints b n (Function.update s x w) := by
  funext a
  by_cases ha : a = (b, x)
  · subst ha
    rw [Mem.upd_self (ints_at h), ints_at h, Function.update_self]
  · rw [Mem.upd_ne ha]
    obtain ⟨c, y⟩ := a
    unfold Mem.ints
    by_cases hy : y = x
    · subst hy
      have hb : c ≠ b := fun e => ha (by rw [e])
      simp only [hb, if_false]
    · simp only [Function.update_of_ne hy]

theorem mark_ends {eq : α → α → Bool} {n : Nat} (hn : n ≤ 2 ^ 31) {m0 : Mem (Cell α)}
    (v : Nat → α × Int) (hs : ∀ x, x < n → m0 (bSorted, x) = some (.val (v x).1)) :
    Ends (progGrid64 n (uniqueMarkProg eq)) (m0.ints bMarks n fun _ => 0)
      (m0.ints bMarks n fun t => if isMark eq v t then 1 else 0) := by
  have hs' : ∀ w x, x < n → m0.ints bMarks n w (bSorted, x) = some (.val (v x).1) := by
    intro w x hx
    rw [ints_other (by simp), hs x hx]
  obtain ⟨M, hM, eM⟩ := seq_inv (prog := uniqueMarkProg eq)
    (fun i m => m = m0.ints bMarks n fun t => if t < i then (if isMark eq v t then 1 else 0) else 0)
    (m0 := m0.ints bMarks n fun _ => 0) (by simp) n (by
      rintro i m hi rfl
      refine ⟨_, ?_, rfl⟩
      have hfin : ∀ w : Int, w = (if isMark eq v i then 1 else 0) →
          (Prog.store (bMarks, i) (.int w) .done).run
            (m0.ints bMarks n fun t => if t < i then (if isMark eq v t then 1 else 0) else 0) =
          .ok (m0.ints bMarks n fun t => if t < i + 1 then (if isMark eq v t then 1 else 0) else 0) := by
        rintro w rfl
        rw [run_store (ints_at hi), ints_upd hi]
        refine congrArg (fun s => Res.ok (m0.ints bMarks n s)) (funext fun x => ?_)
        by_cases hx : x = i
        · subst hx
          rw [Function.update_self, if_pos (Nat.lt_succ_self x)]
        · rw [Function.update_of_ne hx]
          by_cases h : x < i
          · rw [if_pos h, if_pos (show x < i + 1 by omega)]
          · rw [if_neg h, if_neg (by omega)]
      unfold uniqueMarkProg
      by_cases h0 : i = 0
      · rw [if_pos h0]
        exact hfin 1 (by simp [isMark, h0])
      · rw [if_neg h0, run_load (hs' _ _ hi), run_load (hs' _ _ (by omega))]
        dsimp only
        refine hfin _ ?_
        have hmk : isMark eq v i = !eq (v i).1 (v (i - 1)).1 := by simp [isMark, h0]
        rw [hmk]
        cases eq (v i).1 (v (i - 1)).1 <;> rfl)
  have eM' : M = m0.ints bMarks n fun t => if isMark eq v t then 1 else 0 := by
    rw [eM]
    funext a
    unfold Mem.ints
    by_cases h : a.2 < n
    · simp only [h, if_true]
    · simp only [h, if_false]
  rw [← eM']
  let P' : Plan (Cell α) :=
    { ro := fun a => a.1 = bSorted, at_ := fun a => False, own := fun i a => a.1 = bMarks ∧ a.2 = i, u := inc }
  refine plan_ends (T := fun a c => a.1 = bSorted → m0 a = some c) (D := 3) (by omega) P' ?_ ?_ ?_ ?_ hM
  · refine ⟨fun _ _ h => h, fun i a _ h => ⟨fun h' => absurd (h.1.symm.trans h') (by simp), fun h => h⟩, ?_⟩
    rintro i j a _ _ ⟨_, rfl⟩ ⟨_, rfl⟩
    rfl
  · rintro a c hc ha
    rw [ints_other (by rw [ha]; simp)] at hc
    exact hc
  · intro i hi
    have hA : ∀ w, All (fun (a : Addr) (c : Cell α) => a.1 = bSorted → m0 a = some c)
        (fun a f k => P'.Keeps i a f k ∧ (m0.ints bMarks n (fun _ => 0) a).isSome = true) (.store (bMarks, i) w .done) := by
      intro w
      exact ⟨⟨Or.inr (Or.inr ⟨rfl, rfl⟩), by rw [ints_at hi]; rfl⟩, fun _ _ => ⟨fun h => absurd h (by simp), trivial⟩⟩
    unfold uniqueMarkProg
    split
    · exact hA _
    · refine ⟨⟨Or.inl ⟨rfl, rfl⟩, by rw [hs' _ _ hi]; rfl⟩, fun c1 t1 => ⟨t1, ?_⟩⟩
      refine ⟨⟨Or.inl ⟨rfl, rfl⟩, by rw [hs' _ _ (by omega)]; rfl⟩, fun c2 t2 => ⟨t2, ?_⟩⟩
      have t1 := t1 rfl
      have t2 := t2 rfl
      rw [hs _ hi] at t1
      rw [hs _ (by omega)] at t2
      cases t1
      cases t2
      exact hA _
  · intro i _
    unfold uniqueMarkProg
    split
    · exact fun _ => trivial
    · intro c1 c2
      cases c1 <;> cases c2 <;> first | trivial | exact fun _ => trivial

/-- The number of a value: marks up to here, minus one. -/
def uidOf (mk : Nat → Bool) (t : Nat) : Int := (marksTo mk (t + 1) : Int) - 1

theorem prefix_run {mk : Nat → Bool} {n : Nat} {m0 : Mem (Cell α)}
    (hm : ∀ t, t < n → m0 (bMarks, t) = some (.int (if mk t then 1 else 0))) : ∀ r i, i + r = n →
    (prefixFrom r i (marksTo mk i)).run (m0.ints bUid n fun t => if t < i then uidOf mk t else 0) =
      .ok (m0.ints bUid n (uidOf mk)) := by
  intro r
  induction r with
  | zero =>
    intro i hi
    refine congrArg Res.ok (funext fun a => ?_)
    unfold Mem.ints
    by_cases h : a.2 < n
    · simp only [h, show a.2 < i by omega, if_true]
    · simp only [h, if_false]
  | succ r ih =>
    intro i hi
    have hm' : ∀ s, m0.ints bUid n s (bMarks, i) = some (.int (if mk i then 1 else 0)) := by
      intro s
      rw [ints_other (by simp), hm i (by omega)]
    have hu : ∀ w : Int, w = uidOf mk i →
        Function.update (fun t => if t < i then uidOf mk t else 0) i w = fun t => if t < i + 1 then uidOf mk t else 0 := by
      rintro w rfl
      funext x
      by_cases hx : x = i
      · subst hx
        rw [Function.update_self, if_pos (Nat.lt_succ_self x)]
      · rw [Function.update_of_ne hx]
        by_cases h : x < i
        · rw [if_pos h, if_pos (show x < i + 1 by omega)]
        · rw [if_neg h, if_neg (by omega)]
    have := ih (i + 1) (by omega)
    rw [prefixFrom, run_load (hm' _)]
    cases hk : mk i with
    | true =>
      have e : marksTo mk (i + 1) = marksTo mk i + 1 := by rw [marksTo, hk]; rfl
      dsimp only
      rw [if_pos (by simp), run_store (ints_at (by omega)), ints_upd (by omega),
        hu _ (by unfold uidOf; rw [e]; omega)]
      rw [e] at this
      exact this
    | false =>
      have e : marksTo mk (i + 1) = marksTo mk i := by rw [marksTo, hk]; rfl
      dsimp only
      rw [if_neg (by simp), run_store (ints_at (by omega)), ints_upd (by omega),
        hu _ (by unfold uidOf; rw [e])]
      rw [e] at this
      exact this

theorem prefix_ends {mk : Nat → Bool} {n : Nat} {m0 : Mem (Cell α)}
    (hm : ∀ t, t < n → m0 (bMarks, t) = some (.int (if mk t then 1 else 0))) :
    Ends (prefixKernel n) (m0.ints bUid n fun _ => 0) (m0.ints bUid n (uidOf mk)) := by
  have hinc : ∀ i, i < (prefixKernel (α := α) n).bound → i < (prefixKernel (α := α) n).next i := fun i _ =>
    Nat.lt_succ_self i
  have hcov := cover (k := prefixKernel (α := α) n) hinc
    (fun t ht => (Nat.lt_one_iff.mp ht).symm) (fun i _ => Nat.le_add_left 1 i) (le_refl _)
  have hA : ∀ r i s, i + r = n → Inside (fun (a : Addr) (c : Cell α) => a.1 = bMarks → m0 a = some c)
      (m0.ints bUid n fun _ => 0) (prefixFrom r i s) := by
    intro r
    induction r with
    | zero => exact fun _ _ _ => trivial
    | succ r ih =>
      intro i s hi
      rw [prefixFrom]
      refine ⟨by dsimp only; rw [ints_other (by simp), hm i (by omega)]; rfl, fun c t => ⟨t, ?_⟩⟩
      have t := t rfl
      rw [hm i (by omega)] at t
      cases t
      dsimp only
      split
      · exact ⟨by dsimp only; rw [ints_at (by omega)]; rfl, fun _ _ => ⟨fun h => absurd h (by simp), ih _ _ (by omega)⟩⟩
      · exact ⟨by dsimp only; rw [ints_at (by omega)]; rfl, fun _ _ => ⟨fun h => absurd h (by simp), ih _ _ (by omega)⟩⟩
  have hD : ∀ r i s, Depth (prefixFrom (α := α) r i s) (2 * r) := by
    intro r
    induction r with
    | zero => exact fun _ _ => trivial
    | succ r ih =>
      intro i s
      rw [prefixFrom, show 2 * (r + 1) = 2 * r + 1 + 1 by omega]
      intro c
      cases c with
      | val _ => trivial
      | int x =>
        dsimp only
        split
        · exact fun _ => ih _ _
        · exact fun _ => ih _ _
  obtain ⟨M, e1, _, _, e4⟩ := race_free (T := fun (a : Addr) (c : Cell α) => a.1 = bMarks → m0 a = some c)
    (k := prefixKernel n) (m0 := m0.ints bUid n fun _ => 0) hinc
    (by
      intro a c hc ha
      rw [ints_other (by rw [ha]; simp)] at hc
      exact hc)
    (fun i _ => hA n 0 0 (by omega))
    (fun i j hi hj hij => absurd ((Nat.lt_one_iff.mp hi).trans (Nat.lt_one_iff.mp hj).symm) hij) (by rw [hcov])
  have hrun := prefix_run hm n 0 (by omega)
  have e1' : ((prefixFrom (α := α) n 0 0).run (m0.ints bUid n fun _ => 0)).bind (fun m => .ok m) = .ok M := e1
  simp only [Nat.not_lt_zero, if_false] at hrun
  rw [show ((marksTo mk 0 : Nat) : Int) = 0 from rfl] at hrun
  rw [hrun] at e1'
  cases e1'
  exact ⟨e4, terminates hinc fun i _ => hD n 0 0⟩

/-! ## Results -/

theorem build_ends {n C : Nat} (hn : n ≤ 2 ^ 31) {m0 : Mem (Cell α)} {mk : Nat → Bool} {uid σ : Nat → Nat} {w : Nat → α}
    (hu : ∀ t, t < n → m0 (bUid, t) = some (.int (uid t)) ∧ uid t < C)
    (ho : ∀ t, t < n → m0 (bOrder, t) = some (.int (σ t)) ∧ σ t < n)
    (hm : ∀ t, t < n → m0 (bMarks, t) = some (.int (if mk t then 1 else 0)))
    (hs : ∀ t, t < n → m0 (bSorted, t) = some (.val (w t)))
    (hi : ∀ x, x < n → (m0 (bInverse, x)).isSome = true)
    (hv : ∀ k, k < C → (m0 (bValues, k)).isSome = true)
    (hc : ∀ k, k < C → m0 (bCounts, k) = some (.int 0))
    (hσ : ∀ t u, t < n → u < n → σ t = σ u → t = u)
    (hmk : ∀ t u, t < n → u < n → mk t = true → mk u = true → uid t = uid u → t = u) :
    ∃ M, Ends (progGrid64 n uniqueBuildProg) m0 M ∧ SameCells m0 M ∧
      (∀ t, t < n → M (bInverse, σ t) = some (.int (uid t))) ∧
      (∀ t, t < n → mk t = true → M (bValues, uid t) = some (.val (w t))) ∧
      ∀ k, k < C → M (bCounts, k) = some (.int (marksTo (fun t => uid t == k) n)) := by
  have n6 : ¬ (6 : Nat) ≤ 5 := by decide
  have n7 : ¬ (7 : Nat) ≤ 5 := by decide
  have n8 : ¬ (8 : Nat) ≤ 5 := by decide
  obtain ⟨M, hM, ⟨_, i2, i3, i4, i5⟩⟩ := seq_inv (prog := uniqueBuildProg)
    (fun i m => (∀ a, a.1 ≤ 5 → m a = m0 a) ∧ (∀ t, t < i → m (bInverse, σ t) = some (.int (uid t))) ∧
      (∀ t, t < i → mk t = true → m (bValues, uid t) = some (.val (w t))) ∧
      (∀ k, k < C → m (bCounts, k) = some (.int (marksTo (fun t => uid t == k) i))) ∧ SameCells m0 m)
    (m0 := m0) ⟨fun _ _ => rfl, fun _ h => absurd h (by omega), fun _ h => absurd h (by omega), hc, fun _ => rfl⟩ n (by
      rintro i m hin ⟨j1, j2, j3, j4, j5⟩
      obtain ⟨u1, u2⟩ := hu i hin
      obtain ⟨o1, o2⟩ := ho i hin
      have l1 : m (bUid, i) = some (.int (uid i)) := by rw [j1 _ (Nat.le_of_ble_eq_true rfl), u1]
      have l2 : m (bOrder, i) = some (.int (σ i)) := by rw [j1 _ (Nat.le_of_ble_eq_true rfl), o1]
      obtain ⟨c1, s1⟩ : ∃ c, m (bInverse, σ i) = some c := by
        have := hi _ o2
        rw [j5] at this
        exact Option.isSome_iff_exists.mp this
      let m1 := m.upd (bInverse, σ i) fun _ => .int (uid i)
      have n1 : ∀ a : Addr, a.1 ≠ bInverse → m1 a = m a := fun a ha => Mem.upd_ne (fun e => ha (by rw [e])) _
      have l3 : m1 (bMarks, i) = some (.int (if mk i then 1 else 0)) := by
        rw [n1 _ (by simp), j1 _ (Nat.le_of_ble_eq_true rfl), hm i hin]
      -- what holds whatever happens to the value
      have fin : ∀ m2 : Mem (Cell α), (∀ a : Addr, a.1 ≠ bValues → m2 a = m1 a) → SameCells m0 m2 →
          (∀ t, t < i + 1 → mk t = true → m2 (bValues, uid t) = some (.val (w t))) →
          ∃ m', (Prog.atomic (bCounts, uid i) inc .done).run m2 = .ok m' ∧
            (∀ a, a.1 ≤ 5 → m' a = m0 a) ∧ (∀ t, t < i + 1 → m' (bInverse, σ t) = some (.int (uid t))) ∧
            (∀ t, t < i + 1 → mk t = true → m' (bValues, uid t) = some (.val (w t))) ∧
            (∀ k, k < C → m' (bCounts, k) = some (.int (marksTo (fun t => uid t == k) (i + 1)))) ∧ SameCells m0 m' := by
        intro m2 e1 e2 e3
        have h4 : ∀ k, k < C → m2 (bCounts, k) = some (.int (marksTo (fun t => uid t == k) i)) := by
          intro k hk
          rw [e1 _ (by simp), n1 _ (by simp), j4 k hk]
        refine ⟨_, run_atomic (h4 _ u2) _ _, ?_, ?_, ?_, ?_, sc_trans e2 (sameCells_upd _ _ _)⟩
        · intro a ha
          rw [Mem.upd_ne (by rintro rfl; exact n8 ha), e1 a (by intro e; rw [e] at ha; exact n6 ha),
            n1 a (by intro e; rw [e] at ha; exact n7 ha), j1 a ha]
        · intro t ht
          rw [Mem.upd_ne (by simp), e1 _ (by simp)]
          by_cases hti : t = i
          · subst hti
            exact Mem.upd_self s1 _
          · show m.upd _ _ _ = _
            rw [Mem.upd_ne (by
              intro e
              exact hti (hσ t i (by omega) hin (Prod.mk.inj e).2))]
            exact j2 t (by omega)
        · intro t ht hk
          rw [Mem.upd_ne (by simp)]
          exact e3 t ht hk
        · intro k hk
          rw [marksTo]
          by_cases hki : k = uid i
          · subst hki
            rw [Mem.upd_self (h4 _ u2)]
            simp [inc]
          · rw [Mem.upd_ne (by intro e; exact hki (Prod.mk.inj e).2), h4 k hk]
            have : (uid i == k) = false := by simpa using fun e => hki e.symm
            simp [this]
      unfold uniqueBuildProg
      rw [run_load l1, run_load l2]
      dsimp only
      rw [if_neg (by omega), Int.toNat_natCast, Int.toNat_natCast, run_store s1, run_load l3]
      dsimp only
      cases hk : mk i with
      | true =>
        rw [if_pos (by simp), run_load (show m1 (bSorted, i) = some (.val (w i)) by
          rw [n1 _ (by simp), j1 _ (Nat.le_of_ble_eq_true rfl), hs i hin])]
        obtain ⟨c2, s2⟩ : ∃ c, m1 (bValues, uid i) = some c := by
          have := hv _ u2
          rw [j5, ← n1 _ (by simp)] at this
          exact Option.isSome_iff_exists.mp this
        rw [run_store s2]
        refine fin _ (fun a ha => Mem.upd_ne (fun e => ha (by rw [e])) _)
          (sc_trans j5 (sc_trans (sameCells_upd _ _ _) (sameCells_upd _ _ _))) ?_
        intro t ht hkt
        by_cases hti : t = i
        · subst hti
          exact Mem.upd_self s2 _
        · rw [Mem.upd_ne (by
            intro e
            exact hti (hmk t i (by omega) hin hkt hk (Prod.mk.inj e).2)), n1 _ (by simp)]
          exact j3 t (by omega) hkt
      | false =>
        rw [if_neg (by simp)]
        refine fin _ (fun _ _ => rfl) (sc_trans j5 (sameCells_upd _ _ _)) ?_
        intro t ht hkt
        by_cases hti : t = i
        · subst hti
          rw [hk] at hkt
          cases hkt
        · rw [n1 _ (by simp)]
          exact j3 t (by omega) hkt)
  refine ⟨M, ?_, i5, i2, i3, i4⟩
  let P' : Plan (Cell α) :=
    { ro := fun a => a.1 ≤ 5, at_ := fun a => a.1 = bCounts
      own := fun i a => a = (bInverse, σ i) ∨ (mk i = true ∧ a = (bValues, uid i)), u := inc }
  refine plan_ends (T := fun a c => a.1 ≤ 5 → m0 a = some c) (D := 7) (by omega) P' ?_ (fun a c h _ => h) ?_ ?_ hM
  · refine ⟨fun a h1 h2 => ?_, ?_, ?_⟩
    · have h1 : a.1 ≤ 5 := h1
      have h2 : a.1 = 8 := h2
      omega
    · rintro i a _ (rfl | ⟨_, rfl⟩)
      · exact ⟨fun h => absurd (show (7 : Nat) ≤ 5 from h) (by omega), fun h => absurd (show (7 : Nat) = 8 from h) (by omega)⟩
      · exact ⟨fun h => absurd (show (6 : Nat) ≤ 5 from h) (by omega), fun h => absurd (show (6 : Nat) = 8 from h) (by omega)⟩
    · rintro i j a hin hjn (rfl | ⟨k1, rfl⟩) (h | ⟨k2, h⟩)
      · exact hσ i j hin hjn (Prod.mk.inj h).2
      · exact absurd (Prod.mk.inj h).1 (by simp)
      · exact absurd (Prod.mk.inj h).1 (by simp)
      · exact hmk i j hin hjn k1 k2 (Prod.mk.inj h).2
  · intro i hin
    obtain ⟨u1, u2⟩ := hu i hin
    obtain ⟨o1, o2⟩ := ho i hin
    have hA : All (fun (a : Addr) (c : Cell α) => a.1 ≤ 5 → m0 a = some c)
        (fun a f k => P'.Keeps i a f k ∧ (m0 a).isSome = true) (.atomic (bCounts, uid i) inc .done) :=
      ⟨⟨Or.inr (Or.inl ⟨rfl, rfl, _, rfl⟩), by rw [hc _ u2]; rfl⟩, fun _ _ => ⟨fun h => absurd h n8, trivial⟩⟩
    unfold uniqueBuildProg
    refine ⟨⟨Or.inl ⟨Nat.le_of_ble_eq_true rfl, rfl⟩, by rw [u1]; rfl⟩, fun c t1 => ⟨t1, ?_⟩⟩
    have t1 := t1 (Nat.le_of_ble_eq_true rfl)
    rw [u1] at t1
    cases t1
    refine ⟨⟨Or.inl ⟨Nat.le_of_ble_eq_true rfl, rfl⟩, by rw [o1]; rfl⟩, fun c t2 => ⟨t2, ?_⟩⟩
    have t2 := t2 (Nat.le_of_ble_eq_true rfl)
    rw [o1] at t2
    cases t2
    dsimp only
    rw [if_neg (by omega), Int.toNat_natCast, Int.toNat_natCast]
    refine ⟨⟨Or.inr (Or.inr (Or.inl rfl)), hi _ o2⟩, fun _ _ => ⟨fun h => absurd h n7, ?_⟩⟩
    refine ⟨⟨Or.inl ⟨Nat.le_of_ble_eq_true rfl, rfl⟩, by rw [hm i hin]; rfl⟩, fun c t3 => ⟨t3, ?_⟩⟩
    have t3 := t3 (Nat.le_of_ble_eq_true rfl)
    rw [hm i hin] at t3
    cases t3
    dsimp only
    cases hk : mk i with
    | false =>
      rw [if_neg (by simp)]
      exact hA
    | true =>
      rw [if_pos (by simp)]
      refine ⟨⟨Or.inl ⟨Nat.le_of_ble_eq_true rfl, rfl⟩, by rw [hs i hin]; rfl⟩, fun c t4 => ⟨t4, ?_⟩⟩
      exact ⟨⟨Or.inr (Or.inr (Or.inr ⟨hk, rfl⟩)), hv _ u2⟩, fun _ _ => ⟨fun h => absurd h n6, hA⟩⟩
  · intro i _
    unfold uniqueBuildProg
    intro c1 c2
    cases c1 <;> cases c2 <;> try trivial
    dsimp only
    split
    · trivial
    · intro _ c3
      cases c3 with
      | val _ => trivial
      | int x =>
        dsimp only
        split
        · exact fun _ _ _ => trivial
        · exact fun _ => trivial

end Hodu.Cuda
