import Mathlib.Data.List.Perm.Basic
import Mathlib.Data.List.Basic
import Verif.Model.CudaProg
import Verif.Lemmas.Cuda

/-!
# Kernels without races are deterministic

If the programs of different indices do not interfere (they touch different cells, or only read them, or
only update them by operations that can be swapped and whose result is not used), every interleaving ends
with the memory that the programs leave when they run one after the other.
-/

namespace Hodu.Cuda

variable {V : Type}

/-- Every operation of a program satisfies `P`, whatever it reads from cells whose contents satisfy `T`; it
keeps `T`, and there is no access outside of a constant buffer. -/
def Spec.All (T : Addr → V → Prop) (P : Addr → (V → V) → (V → Prog V) → Prop) : Prog V → Prop
  | .done => True
  | .ub => False
  | .op a f k => P a f k ∧ ∀ v, T a v → T a (f v) ∧ All T P (k v)

/-- Two operations do not interfere: different cells, or neither sees what the other does to the cell. -/
def Spec.Apart (T : Addr → V → Prop) (a : Addr) (f : V → V) (k : V → Prog V) (b : Addr) (g : V → V)
    (h : V → Prog V) : Prop :=
  a ≠ b ∨ ∀ x, T a x → f (g x) = g (f x) ∧ k (g x) = k x ∧ h (f x) = h x

/-- Two programs do not interfere. -/
def Spec.Indep (T : Addr → V → Prop) (p q : Prog V) : Prop :=
  All T (fun a f k => All T (fun b g h => Apart T a f k b g h) q) p

/-- Every cell of a memory satisfies `T`. -/
def Spec.Typed (T : Addr → V → Prop) (m : Mem V) : Prop := ∀ a v, m a = some v → T a v

/-- Two memories have the same cells. -/
def Spec.SameCells (m m' : Mem V) : Prop := ∀ a, (m a).isSome = (m' a).isSome

/-- All accesses are inside of the buffers. -/
def Spec.Inside (T : Addr → V → Prop) (m : Mem V) (p : Prog V) : Prop := All T (fun a _ _ => (m a).isSome) p

/-- At most `n` operations. -/
def Spec.Depth : Prog V → Nat → Prop
  | .done, _ => True
  | .ub, _ => True
  | .op _ _ _, 0 => False
  | .op _ _ k, n + 1 => ∀ v, Depth (k v) n

/-- Programs one after the other. -/
def Spec.seq (ps : List (Prog V)) (m : Mem V) : Res (Mem V) := Res.foldL (fun m p => p.run m) m ps

open Cuda.Spec

theorem All.mono {T : Addr → V → Prop} {P Q : Addr → (V → V) → (V → Prog V) → Prop}
    (h : ∀ a f k, P a f k → Q a f k) {p : Prog V} (hp : All T P p) : All T Q p := by
  induction p with
  | done => trivial
  | ub => exact hp
  | op a f k ih => exact ⟨h _ _ _ hp.1, fun v hv => ⟨(hp.2 v hv).1, ih v (hp.2 v hv).2⟩⟩

theorem Mem.upd_self {m : Mem V} {a : Addr} {v : V} (h : m a = some v) (f : V → V) : m.upd a f a = some (f v) := by
  unfold Mem.upd
  rw [Function.update_self, h]
  rfl

theorem Mem.upd_ne {m : Mem V} {a b : Addr} (h : b ≠ a) (f : V → V) : m.upd a f b = m b := by
  unfold Mem.upd
  rw [Function.update_of_ne h]

theorem sameCells_upd (m : Mem V) (a : Addr) (f : V → V) : SameCells m (m.upd a f) := by
  intro b
  by_cases h : b = a
  · subst h
    unfold Mem.upd
    rw [Function.update_self]
    cases m b <;> rfl
  · rw [Mem.upd_ne h]

theorem sc_trans {a b c : Mem V} (h : SameCells a b) (h' : SameCells b c) : SameCells a c :=
  fun x => (h x).trans (h' x)

theorem typed_upd {T : Addr → V → Prop} {m : Mem V} (hm : Typed T m) {a : Addr} {f : V → V}
    (hf : ∀ v, T a v → T a (f v)) : Typed T (m.upd a f) := by
  intro b v hv
  by_cases h : b = a
  · subst h
    unfold Mem.upd at hv
    rw [Function.update_self] at hv
    cases hb : m b with
    | none => rw [hb] at hv; cases hv
    | some w =>
      rw [hb] at hv
      injection hv with hv
      subst hv
      exact hf w (hm b w hb)
  · rw [Mem.upd_ne h] at hv
    exact hm b v hv

theorem Inside.same {T : Addr → V → Prop} {m m' : Mem V} (h : SameCells m m') {p : Prog V} (hp : Inside T m p) :
    Inside T m' p := All.mono (fun a _ _ ha => by rw [← h a]; exact ha) hp

theorem run_ok {T : Addr → V → Prop} {p : Prog V} : ∀ {m : Mem V}, Typed T m → Inside T m p →
    ∃ m', p.run m = .ok m' ∧ Typed T m' ∧ SameCells m m' := by
  induction p with
  | done => intro m hm _; exact ⟨m, rfl, hm, fun _ => rfl⟩
  | ub => intro m _ h; exact h.elim
  | op a f k ih =>
    intro m hm h
    obtain ⟨v, hv⟩ := Option.isSome_iff_exists.mp h.1
    obtain ⟨h1, h2⟩ := h.2 v (hm a v hv)
    have hm' : Typed T (m.upd a f) := typed_upd hm fun w hw => (h.2 w hw).1
    obtain ⟨m', e1, e2, e3⟩ := ih v hm' (Inside.same (sameCells_upd m a f) h2)
    refine ⟨m', ?_, e2, sc_trans (sameCells_upd m a f) e3⟩
    rw [Prog.run, hv]
    exact e1

theorem seq_ok {T : Addr → V → Prop} (ps : List (Prog V)) : ∀ {m : Mem V}, Typed T m →
    (∀ p ∈ ps, Inside T m p) → ∃ m', seq ps m = .ok m' ∧ Typed T m' ∧ SameCells m m' := by
  induction ps with
  | nil => intro m hm _; exact ⟨m, rfl, hm, fun _ => rfl⟩
  | cons p ps ih =>
    intro m hm h
    obtain ⟨m1, e1, e2, e3⟩ := run_ok hm (h p (by simp))
    obtain ⟨m2, g1, g2, g3⟩ := ih e2 fun q hq => Inside.same e3 (h q (by simp [hq]))
    refine ⟨m2, ?_, g2, sc_trans e3 g3⟩
    unfold seq Res.foldL
    rw [e1]
    exact g1

/-- An operation that does not interfere with `q` can be moved past it. -/
theorem op_past {T : Addr → V → Prop} {a : Addr} {f : V → V} {k : V → Prog V} {q : Prog V}
    (hf : ∀ v, T a v → T a (f v)) :
    ∀ {m : Mem V} {v : V}, Typed T m → Inside T m q → All T (fun b g h => Apart T a f k b g h) q → m a = some v →
    ∃ mq w, q.run m = .ok mq ∧ mq a = some w ∧ k w = k v ∧ q.run (m.upd a f) = .ok (mq.upd a f) := by
  induction q with
  | done => intro m v _ _ _ hv; exact ⟨m, v, rfl, hv, rfl, rfl⟩
  | ub => intro m v _ h _ _; exact h.elim
  | op b g h ih =>
    intro m v hm hin hap hv
    obtain ⟨y, hy⟩ := Option.isSome_iff_exists.mp hin.1
    have hT := hm b y hy
    have hm1 : Typed T (m.upd b g) := typed_upd hm fun w hw => (hin.2 w hw).1
    have hin1 := Inside.same (sameCells_upd m b g) (hin.2 y hT).2
    have hap1 := (hap.2 y hT).2
    by_cases hab : b = a
    · subst hab
      rw [hv] at hy
      injection hy with hy
      subst hy
      rcases hap.1 with hne | hcom
      · exact absurd rfl hne
      obtain ⟨c1, c2, c3⟩ := hcom v hT
      obtain ⟨mq, w, e1, e2, e3, e4⟩ := ih v hm1 hin1 hap1 (Mem.upd_self hv g)
      refine ⟨mq, w, ?_, e2, by rw [e3, c2], ?_⟩
      · rw [Prog.run, hv]; exact e1
      · rw [Prog.run, Mem.upd_self hv f]
        show (h (f v)).run _ = _
        have : (m.upd b f).upd b g = (m.upd b g).upd b f := by
          unfold Mem.upd
          rw [Function.update_self, Function.update_self, Function.update_idem, Function.update_idem, hv]
          simp only [Option.map_some]
          rw [c1]
        rw [c3, this]
        exact e4
    · obtain ⟨mq, w, e1, e2, e3, e4⟩ := ih y hm1 hin1 hap1 (by rw [Mem.upd_ne (Ne.symm hab)]; exact hv)
      refine ⟨mq, w, ?_, e2, e3, ?_⟩
      · rw [Prog.run, hy]; exact e1
      · rw [Prog.run, Mem.upd_ne hab, hy]
        show (h y).run _ = _
        have : (m.upd a f).upd b g = (m.upd b g).upd a f := by
          unfold Mem.upd
          rw [Function.update_of_ne hab, Function.update_of_ne (Ne.symm hab), Function.update_comm hab]
        rw [this]
        exact e4

/-- The same past a list of programs. -/
theorem op_past_seq {T : Addr → V → Prop} {a : Addr} {f : V → V} {k : V → Prog V}
    (hf : ∀ v, T a v → T a (f v)) (qs : List (Prog V)) :
    ∀ {m : Mem V} {v : V}, Typed T m → (∀ q ∈ qs, Inside T m q) →
    (∀ q ∈ qs, All T (fun b g h => Apart T a f k b g h) q) → m a = some v →
    ∃ mq w, seq qs m = .ok mq ∧ mq a = some w ∧ k w = k v ∧ seq qs (m.upd a f) = .ok (mq.upd a f) := by
  induction qs with
  | nil => intro m v _ _ _ hv; exact ⟨m, v, rfl, hv, rfl, rfl⟩
  | cons q qs ih =>
    intro m v hm hin hap hv
    obtain ⟨m1, w1, e1, e2, e3, e4⟩ := op_past hf hm (hin q (by simp)) (hap q (by simp)) hv
    obtain ⟨m1', d1, d2, d3⟩ := run_ok hm (hin q (by simp))
    rw [e1] at d1
    injection d1 with d1
    subst d1
    obtain ⟨m2, w2, g1, g2, g3, g4⟩ := ih d2 (fun p hp => Inside.same d3 (hin p (by simp [hp])))
      (fun p hp => hap p (by simp [hp])) e2
    refine ⟨m2, w2, ?_, g2, g3.trans e3, ?_⟩
    · unfold seq Res.foldL; rw [e1]; exact g1
    · unfold seq Res.foldL; rw [e4]; exact g4

/-- Programs that do not interfere can be swapped. -/
theorem run_swap {T : Addr → V → Prop} {q : Prog V} {p : Prog V} :
    ∀ {m : Mem V}, Typed T m → Inside T m p → Inside T m q → Indep T p q →
    (p.run m).bind q.run = (q.run m).bind p.run := by
  induction p with
  | done =>
    intro m hm _ hq _
    obtain ⟨m', e, _⟩ := run_ok hm hq
    rw [e]
    show q.run m = .ok m'
    exact e
  | ub => intro m _ h; exact h.elim
  | op a f k ih =>
    intro m hm hp hq hi
    obtain ⟨v, hv⟩ := Option.isSome_iff_exists.mp hp.1
    have hT := hm a v hv
    have hf : ∀ v, T a v → T a (f v) := fun w hw => (hp.2 w hw).1
    obtain ⟨mq, w, e1, e2, e3, e4⟩ := op_past hf hm hq hi.1 hv
    have hsame := sameCells_upd m a f
    have := ih v (typed_upd hm hf) (Inside.same hsame (hp.2 v hT).2) (Inside.same hsame hq) (hi.2 v hT).2
    have e5 : Prog.run (.op a f k) m = (k v).run (m.upd a f) := by rw [Prog.run, hv]
    have e6 : Prog.run (.op a f k) mq = (k v).run (mq.upd a f) := by
      rw [Prog.run, e2]
      show (k w).run _ = _
      rw [e3]
    rw [e5, this, e4, e1]
    show (k v).run (mq.upd a f) = Prog.run (.op a f k) mq
    rw [e6]

/-- The order of programs that do not interfere does not matter. -/
theorem seq_perm {T : Addr → V → Prop} {prog : Nat → Prog V} {l l' : List Nat} (hp : l.Perm l') :
    ∀ {m : Mem V}, Typed T m → l.Nodup → (∀ i ∈ l, Inside T m (prog i)) →
    (∀ i ∈ l, ∀ j ∈ l, i ≠ j → Indep T (prog i) (prog j)) → seq (l.map prog) m = seq (l'.map prog) m := by
  induction hp with
  | nil => intros; rfl
  | cons x _ ih =>
    intro m hm hnd hin hi
    rw [List.nodup_cons] at hnd
    obtain ⟨m1, e1, e2, e3⟩ := run_ok hm (hin x (by simp))
    have := ih e2 hnd.2 (fun i h => Inside.same e3 (hin i (by simp [h])))
      (fun i h j h' => hi i (by simp [h]) j (by simp [h']))
    simp only [List.map_cons, seq, Res.foldL]
    rw [e1]
    exact this
  | swap x y l =>
    intro m hm hnd hin hi
    have hxy : y ≠ x := by
      intro h
      subst h
      simp at hnd
    have := run_swap hm (hin y (by simp)) (hin x (by simp)) (hi y (by simp) x (by simp) hxy)
    simp only [List.map_cons, seq, Res.foldL]
    have h2 : ∀ (a : Res (Mem V)) (p : Prog V), (a.bind fun m => (p.run m).bind fun m =>
        Res.foldL (fun m p => p.run m) m (l.map prog)) =
        (a.bind p.run).bind fun m => Res.foldL (fun m p => p.run m) m (l.map prog) := by
      intro a p; cases a <;> rfl
    rw [h2, h2, this]
  | trans p1 _ ih1 ih2 =>
    intro m hm hnd hin hi
    rw [ih1 hm hnd hin hi, ih2 hm (p1.nodup_iff.mp hnd) (fun i h => hin i (p1.mem_iff.mpr h))
      (fun i h j h' => hi i (p1.mem_iff.mpr h) j (p1.mem_iff.mpr h'))]

/-! ## Executions -/

/-- The indices a thread that stands before `i` still takes, at most `n` of them. -/
def tailN (k : PKernel V) : Nat → Nat → List Nat
  | 0, _ => []
  | n + 1, i => if i < k.bound then i :: tailN k n (k.next i) else []

/-- The indices a thread that stands before `i` still takes. -/
def PKernel.tail (k : PKernel V) (i : Nat) : List Nat := tailN k (k.bound - i) i

theorem tailN_enough {k : PKernel V} (hinc : ∀ i, i < k.bound → i < k.next i) :
    ∀ n m i, k.bound - i ≤ n → k.bound - i ≤ m → tailN k n i = tailN k m i := by
  intro n
  induction n with
  | zero =>
    intro m i hn hm
    cases m with
    | zero => rfl
    | succ m => rw [tailN, tailN, if_neg (by omega)]
  | succ n ih =>
    intro m i hn hm
    cases m with
    | zero => rw [tailN, tailN, if_neg (by omega)]
    | succ m =>
      rw [tailN, tailN]
      split_ifs with h
      · have := hinc i h
        rw [ih m (k.next i) (by omega) (by omega)]
      · rfl

theorem tail_step {k : PKernel V} (hinc : ∀ i, i < k.bound → i < k.next i) {i : Nat} (h : i < k.bound) :
    k.tail i = i :: k.tail (k.next i) := by
  unfold PKernel.tail
  have := hinc i h
  obtain ⟨n, hn⟩ : ∃ n, k.bound - i = n + 1 := ⟨k.bound - i - 1, by omega⟩
  rw [hn, tailN, if_pos h, tailN_enough hinc n (k.bound - k.next i) _ (by omega) (le_refl _)]

theorem tail_end {k : PKernel V} {i : Nat} (h : ¬ i < k.bound) : k.tail i = [] := by
  unfold PKernel.tail
  rw [show k.bound - i = 0 by omega, tailN]

/-- What a thread still has to do. -/
def left (k : PKernel V) (s : PSt V) (t : Nat) : List (Prog V) :=
  match s.pc t with
  | .head i => (k.tail i).map k.prog
  | .run i p => p :: (k.tail (k.next i)).map k.prog
  | .done => []

theorem seq_append (ps qs : List (Prog V)) (m : Mem V) : seq (ps ++ qs) m = (seq ps m).bind (seq qs) := by
  induction ps generalizing m with
  | nil => rfl
  | cons p ps ih =>
    simp only [seq, List.cons_append, Res.foldL] at ih ⊢
    cases p.run m with
    | ok m' => exact ih m'
    | err => rfl
    | panic => rfl
    | ub => rfl

theorem PKernel.exec_snoc (k : PKernel V) (m : Mem V) (sched : List Nat) (t : Nat) :
    k.exec m (sched ++ [t]) = (k.exec m sched).bind fun s => k.step s t := by
  unfold PKernel.exec
  generalize k.init m = s0
  induction sched generalizing s0 with
  | nil => simp only [List.nil_append, Res.foldL, Res.ok_bind]; cases k.step s0 t <;> rfl
  | cons x xs ih =>
    simp only [List.cons_append, Res.foldL]
    cases k.step s0 x <;> simp [ih]

/-- What holds between any two steps. -/
structure PInv (T : Addr → V → Prop) (k : PKernel V) (m0 : Mem V) (M : Mem V) (s : PSt V) : Prop where
  typed : Typed T s.mem
  same : SameCells m0 s.mem
  inside : ∀ t, ∀ p ∈ left k s t, Inside T m0 p
  apart : ∀ t u, t ≠ u → ∀ p ∈ left k s t, ∀ q ∈ left k s u, Indep T p q
  outside : ∀ t, ¬ t < k.threads → s.pc t = .done
  total : seq ((List.range k.threads).flatMap (left k s)) s.mem = .ok M

theorem left_goto_ne {k : PKernel V} {s : PSt V} {t u : Nat} (h : u ≠ t) (p : PPc V) :
    left k (s.goto t p) u = left k s u := by
  unfold left PSt.goto
  simp only [Function.update_of_ne h]

theorem left_goto (k : PKernel V) (s : PSt V) (t : Nat) (p : PPc V) :
    left k (s.goto t p) t = match p with
      | .head i => (k.tail i).map k.prog
      | .run i q => q :: (k.tail (k.next i)).map k.prog
      | .done => [] := by
  unfold left PSt.goto
  simp only [Function.update_self]

/-- A move that neither touches memory nor changes what is left. -/
theorem pinv_goto {T : Addr → V → Prop} {k : PKernel V} {m0 M : Mem V} {s : PSt V} (hi : PInv T k m0 M s) {t : Nat}
    (ht : t < k.threads) {p : PPc V} (h : ∀ m, seq (left k (s.goto t p) t) m = seq (left k s t) m)
    (hsub : ∀ q ∈ left k (s.goto t p) t, q ∈ left k s t) : PInv T k m0 M (s.goto t p) := by
  have hl : ∀ u, ∀ q ∈ left k (s.goto t p) u, q ∈ left k s u := by
    intro u q hq
    by_cases hu : u = t
    · subst hu; exact hsub q hq
    · rwa [left_goto_ne hu] at hq
  refine ⟨hi.typed, hi.same, fun u q hq => hi.inside u q (hl u q hq), fun u v huv q hq r hr =>
    hi.apart u v huv q (hl u q hq) r (hl v r hr), fun u hu => ?_, ?_⟩
  · show Function.update s.pc t p u = _
    rw [Function.update_of_ne (by omega)]
    exact hi.outside u hu
  · have e : ∀ l : List Nat, ∀ m, seq (l.flatMap (left k (s.goto t p))) m = seq (l.flatMap (left k s)) m := by
      intro l
      induction l with
      | nil => intro m; rfl
      | cons u l ih =>
        intro m
        rw [List.flatMap_cons, List.flatMap_cons, seq_append, seq_append]
        have h1 : seq (left k (s.goto t p) u) m = seq (left k s u) m := by
          by_cases hu : u = t
          · subst hu; exact h m
          · rw [left_goto_ne hu]
        rw [h1]
        cases seq (left k s u) m with
        | ok m' => exact ih m'
        | err => rfl
        | panic => rfl
        | ub => rfl
    rw [e]
    exact hi.total

theorem range_split {n t : Nat} (h : t < n) : ∃ r, List.range n = List.range t ++ t :: r ∧ t ∉ r := by
  obtain ⟨d, rfl⟩ := Nat.exists_eq_add_of_lt h
  refine ⟨(List.range d).map (t + 1 + ·), ?_, ?_⟩
  · rw [show t + d + 1 = t + (d + 1) by omega, List.range_add, List.range_succ_eq_map]
    simp only [List.map_cons, List.map_map, Nat.add_zero]
    congr 2
    refine List.map_congr_left fun x _ => ?_
    show t + (x + 1) = _
    omega
  · simp only [List.mem_map, List.mem_range, not_exists, not_and]
    intro x _
    omega

theorem pinv_step {T : Addr → V → Prop} {k : PKernel V} {m0 M : Mem V} (hinc : ∀ i, i < k.bound → i < k.next i)
    {s : PSt V} (hi : PInv T k m0 M s) (t : Nat) : ∃ s', k.step s t = .ok s' ∧ PInv T k m0 M s' := by
  by_cases ht : t < k.threads
  swap
  · have := hi.outside t ht
    refine ⟨s, ?_, hi⟩
    unfold PKernel.step
    rw [this]
  unfold PKernel.step
  rcases hpc : s.pc t with i | ⟨i, p⟩ | _
  · simp only
    have hleft : left k s t = (k.tail i).map k.prog := by unfold left; rw [hpc]
    split_ifs with hb
    · have e : left k (s.goto t (.run i (k.prog i))) t = left k s t := by
        rw [left_goto, hleft, tail_step hinc hb]
        rfl
      exact ⟨_, rfl, pinv_goto hi ht (fun m => by rw [e]) (fun q hq => by rwa [e] at hq)⟩
    · have e : left k (s.goto t .done) t = left k s t := by
        rw [left_goto, hleft, tail_end hb]
        rfl
      exact ⟨_, rfl, pinv_goto hi ht (fun m => by rw [e]) (fun q hq => by rwa [e] at hq)⟩
  · have hleft : left k s t = p :: (k.tail (k.next i)).map k.prog := by unfold left; rw [hpc]
    have hin := hi.inside t p (by rw [hleft]; simp)
    cases p with
    | done =>
      refine ⟨_, rfl, pinv_goto hi ht (fun m => ?_) (fun q hq => ?_)⟩
      · rw [left_goto, hleft]
        rfl
      · rw [left_goto] at hq
        rw [hleft]
        exact List.mem_cons_of_mem _ hq
    | ub => exact hin.elim
    | op a f c =>
      obtain ⟨v, hv⟩ : ∃ v, s.mem a = some v := by
        apply Option.isSome_iff_exists.mp
        rw [← hi.same a]
        exact hin.1
      have hT := hi.typed a v hv
      have hf : ∀ v, T a v → T a (f v) := fun w hw => (hin.2 w hw).1
      simp only [hv]
      let s' : PSt V := { (s.goto t (.run i (c v))) with mem := s.mem.upd a f }
      have hl : ∀ u, u ≠ t → left k s' u = left k s u := fun u hu => left_goto_ne hu _
      have hlt : left k s' t = c v :: (k.tail (k.next i)).map k.prog := left_goto k s t (.run i (c v))
      have hsame := sameCells_upd s.mem a f
      refine ⟨s', rfl, typed_upd hi.typed hf, sc_trans hi.same hsame, ?_, ?_, ?_, ?_⟩
      · intro u q hq
        by_cases hu : u = t
        · subst hu
          rw [hlt, List.mem_cons] at hq
          rcases hq with rfl | hq
          · exact (hin.2 v hT).2
          · exact hi.inside u q (by rw [hleft]; exact List.mem_cons_of_mem _ hq)
        · rw [hl u hu] at hq
          exact hi.inside u q hq
      · intro u w huw q hq r hr
        by_cases hu : u = t
        · subst hu
          rw [hl w (Ne.symm huw)] at hr
          rw [hlt, List.mem_cons] at hq
          rcases hq with rfl | hq
          · have := hi.apart u w huw (.op a f c) (by rw [hleft]; simp) r hr
            exact (this.2 v hT).2
          · exact hi.apart u w huw q (by rw [hleft]; exact List.mem_cons_of_mem _ hq) r hr
        · rw [hl u hu] at hq
          by_cases hw : w = t
          · subst hw
            rw [hlt, List.mem_cons] at hr
            rcases hr with rfl | hr
            · have := hi.apart u w huw q hq (.op a f c) (by rw [hleft]; simp)
              exact All.mono (fun b g h hb => (hb.2 v hT).2) this
            · exact hi.apart u w huw q hq r (by rw [hleft]; exact List.mem_cons_of_mem _ hr)
          · rw [hl w hw] at hr
            exact hi.apart u w huw q hq r hr
      · intro u hu
        show Function.update s.pc t _ u = _
        rw [Function.update_of_ne (by omega)]
        exact hi.outside u hu
      · obtain ⟨r, hr1, hr2⟩ := range_split ht
        have htot := hi.total
        rw [hr1, List.flatMap_append, List.flatMap_cons] at htot ⊢
        have ea : (List.range t).flatMap (left k s') = (List.range t).flatMap (left k s) := by
          rw [List.flatMap_def, List.flatMap_def]
          refine congrArg List.flatten (List.map_congr_left fun u hu => hl u ?_)
          rw [List.mem_range] at hu; omega
        have er : r.flatMap (left k s') = r.flatMap (left k s) := by
          rw [List.flatMap_def, List.flatMap_def]
          refine congrArg List.flatten (List.map_congr_left fun u hu => hl u ?_)
          intro h; subst h; exact hr2 hu
        rw [ea, er, hlt]
        rw [hleft] at htot
        obtain ⟨mq, w, e1, e2, e3, e4⟩ := op_past_seq (k := c) hf ((List.range t).flatMap (left k s)) hi.typed
          (fun q hq => by
            obtain ⟨u, _, hu⟩ := List.mem_flatMap.mp hq
            exact Inside.same hi.same (hi.inside u q hu))
          (fun q hq => by
            obtain ⟨u, hut, hu⟩ := List.mem_flatMap.mp hq
            rw [List.mem_range] at hut
            exact (hi.apart t u (by omega) (.op a f c) (by rw [hleft]; simp) q hu).1) hv
        rw [seq_append, e1] at htot
        show seq _ (s.mem.upd a f) = _
        rw [seq_append, e4]
        show seq (c v :: _ ++ _) (mq.upd a f) = _
        have : seq ((.op a f c :: (k.tail (k.next i)).map k.prog) ++ r.flatMap (left k s)) mq = .ok M := htot
        rw [← this]
        simp only [seq, List.cons_append, Res.foldL]
        have e5 : Prog.run (.op a f c) mq = (c v).run (mq.upd a f) := by
          rw [Prog.run, e2]
          show (c w).run _ = _
          rw [e3]
        rw [e5]
  · exact ⟨s, rfl, hi⟩

/-- No kernel without races goes wrong, and when it has finished its memory is that of the indices one after
the other. -/
theorem race_free {T : Addr → V → Prop} {k : PKernel V} {m0 : Mem V} (hinc : ∀ i, i < k.bound → i < k.next i)
    (hT : Typed T m0) (hin : ∀ i, i < k.bound → Inside T m0 (k.prog i))
    (hind : ∀ i j, i < k.bound → j < k.bound → i ≠ j → Indep T (k.prog i) (k.prog j))
    (hcov : ((List.range k.threads).flatMap fun t => k.tail (k.start t)).Perm (List.range k.bound)) :
    ∃ M, seq ((List.range k.bound).map k.prog) m0 = .ok M ∧ Typed T M ∧ SameCells m0 M ∧
      ∀ sched, ∃ s, k.exec m0 sched = .ok s ∧ (s.finished → s.mem = M) := by
  obtain ⟨M, hM, hM1, hM2⟩ := seq_ok (T := T) ((List.range k.bound).map k.prog) hT (fun p hp => by
    obtain ⟨i, hi, rfl⟩ := List.mem_map.mp hp
    exact hin i (List.mem_range.mp hi))
  refine ⟨M, hM, hM1, hM2, ?_⟩
  have hnd : ((List.range k.threads).flatMap fun t => k.tail (k.start t)).Nodup :=
    hcov.nodup_iff.mpr List.nodup_range
  have hlt : ∀ i ∈ (List.range k.threads).flatMap fun t => k.tail (k.start t), i < k.bound := fun i hi =>
    List.mem_range.mp (hcov.mem_iff.mp hi)
  have hleft0 : ∀ t, left k (k.init m0) t = if t < k.threads then (k.tail (k.start t)).map k.prog else [] := by
    intro t
    unfold left PKernel.init
    by_cases ht : t < k.threads
    · simp only [if_pos ht]
    · simp only [if_neg ht]
  have h0 : PInv T k m0 M (k.init m0) := by
    have hmem : ∀ t, ∀ p ∈ left k (k.init m0) t, ∃ i, i ∈ k.tail (k.start t) ∧ t < k.threads ∧ p = k.prog i := by
      intro t p hp
      rw [hleft0] at hp
      split_ifs at hp with ht
      · obtain ⟨i, hi, rfl⟩ := List.mem_map.mp hp
        exact ⟨i, hi, ht, rfl⟩
      · cases hp
    have hmf : ∀ {t i}, t < k.threads → i ∈ k.tail (k.start t) →
        i ∈ (List.range k.threads).flatMap fun t => k.tail (k.start t) := fun ht hi =>
      List.mem_flatMap.mpr ⟨_, List.mem_range.mpr ht, hi⟩
    refine ⟨hT, fun _ => rfl, ?_, ?_, ?_, ?_⟩
    · intro t p hp
      obtain ⟨i, hi, ht, rfl⟩ := hmem t p hp
      exact hin i (hlt i (hmf ht hi))
    · intro t u htu p hp q hq
      obtain ⟨i, hi, ht, rfl⟩ := hmem t p hp
      obtain ⟨j, hj, hu, rfl⟩ := hmem u q hq
      refine hind i j (hlt i (hmf ht hi)) (hlt j (hmf hu hj)) ?_
      intro hij
      subst hij
      have := (List.nodup_flatMap.mp hnd).2
      have hd : ∀ {a b : Nat}, [a, b].Sublist (List.range k.threads) →
          List.Disjoint (k.tail (k.start a)) (k.tail (k.start b)) := List.pairwise_iff_forall_sublist.mp this
      rcases Nat.lt_or_gt_of_ne htu with h | h
      · have hs : [t, u].Sublist (List.range k.threads) := by
          obtain ⟨r, hr1, _⟩ := range_split hu
          rw [hr1, show [t, u] = [t] ++ [u] from rfl]
          exact List.Sublist.append (List.singleton_sublist.mpr (List.mem_range.mpr h))
            (List.singleton_sublist.mpr (by simp))
        exact (hd hs) hi hj
      · have hs : [u, t].Sublist (List.range k.threads) := by
          obtain ⟨r, hr1, _⟩ := range_split ht
          rw [hr1, show [u, t] = [u] ++ [t] from rfl]
          exact List.Sublist.append (List.singleton_sublist.mpr (List.mem_range.mpr h))
            (List.singleton_sublist.mpr (by simp))
        exact (hd hs) hj hi
    · intro t ht
      show (if t < k.threads then PPc.head (k.start t) else .done) = _
      rw [if_neg ht]
    · have e : (List.range k.threads).flatMap (left k (k.init m0)) =
          ((List.range k.threads).flatMap fun t => k.tail (k.start t)).map k.prog := by
        rw [List.map_flatMap, List.flatMap_def, List.flatMap_def]
        refine congrArg List.flatten (List.map_congr_left fun t ht => ?_)
        rw [hleft0, if_pos (List.mem_range.mp ht)]
      rw [e]
      show seq _ m0 = _
      rw [seq_perm (T := T) hcov hT hnd (fun i hi => hin i (hlt i hi))
        (fun i hi j hj hij => hind i j (hlt i hi) (hlt j hj) hij), hM]
  intro sched
  have hall : ∃ s, k.exec m0 sched = .ok s ∧ PInv T k m0 M s := by
    induction sched using List.reverseRecOn with
    | nil => exact ⟨_, rfl, h0⟩
    | append_singleton xs t ih =>
      obtain ⟨s, hs, hi⟩ := ih
      obtain ⟨s', hs', hi'⟩ := pinv_step hinc hi t
      exact ⟨s', by rw [PKernel.exec_snoc, hs]; exact hs', hi'⟩
  obtain ⟨s, hs, hi⟩ := hall
  refine ⟨s, hs, fun hf => ?_⟩
  have ht := hi.total
  have : (List.range k.threads).flatMap (left k s) = [] := by
    rw [List.flatMap_eq_nil_iff]
    intro t _
    unfold left
    rw [hf t]
  rw [this] at ht
  injection ht

/-! ## Termination -/

/-- Steps a thread has left, at most. -/
def budget (k : PKernel V) (D : Nat) : PPc V → Nat → Prop
  | .head i, n => (k.bound - i) * (D + 2) + 1 ≤ n
  | .run i p, n => ∃ d, Depth p d ∧ d + 1 + (k.bound - k.next i) * (D + 2) + 1 ≤ n
  | .done, _ => True

theorem budget_step {k : PKernel V} {D : Nat} (hinc : ∀ i, i < k.bound → i < k.next i)
    (hD : ∀ i, i < k.bound → Depth (k.prog i) D) {s s' : PSt V} {t n : Nat} (h : budget k D (s.pc t) n)
    (hs : k.step s t = .ok s') (hnd : s.pc t ≠ .done) : 0 < n ∧ budget k D (s'.pc t) (n - 1) := by
  unfold PKernel.step at hs
  rcases hpc : s.pc t with i | ⟨i, p⟩ | _
  · rw [hpc] at hs h
    have h' : (k.bound - i) * (D + 2) + 1 ≤ n := h
    simp only at hs
    refine ⟨by omega, ?_⟩
    split_ifs at hs with hb
    · injection hs with hs
      subst hs
      show budget k D (Function.update s.pc t _ t) _
      rw [Function.update_self]
      have := hinc i hb
      refine ⟨D, hD i hb, ?_⟩
      have h2 : (k.bound - k.next i) + 1 ≤ k.bound - i := by omega
      have h3 := Nat.mul_le_mul_right (D + 2) h2
      rw [Nat.add_mul, Nat.one_mul] at h3
      omega
    · injection hs with hs
      subst hs
      show budget k D (Function.update s.pc t _ t) _
      rw [Function.update_self]
      trivial
  · rw [hpc] at hs h
    obtain ⟨d, hd, h'⟩ := h
    refine ⟨by omega, ?_⟩
    cases p with
    | done =>
      simp only at hs
      injection hs with hs
      subst hs
      show budget k D (Function.update s.pc t _ t) _
      rw [Function.update_self]
      show _ ≤ _
      omega
    | ub => cases hs
    | op a f c =>
      simp only at hs
      cases hm : s.mem a with
      | none => rw [hm] at hs; cases hs
      | some v =>
        rw [hm] at hs
        injection hs with hs
        subst hs
        show budget k D (Function.update s.pc t _ t) _
        rw [Function.update_self]
        cases d with
        | zero => exact hd.elim
        | succ d => exact ⟨d, hd v, by omega⟩
  · exact absurd hpc hnd

theorem step_other {k : PKernel V} {s s' : PSt V} {t u : Nat} (hs : k.step s t = .ok s') (h : u ≠ t) :
    s'.pc u = s.pc u := by
  unfold PKernel.step at hs
  have hg : ∀ p, (s.goto t p).pc u = s.pc u := fun p => Function.update_of_ne h _ _
  rcases hpc : s.pc t with i | ⟨i, p⟩ | _
  · rw [hpc] at hs
    simp only at hs
    split_ifs at hs <;> (injection hs with hs; subst hs; exact hg _)
  · rw [hpc] at hs
    cases p with
    | done => simp only at hs; injection hs with hs; subst hs; exact hg _
    | ub => cases hs
    | op a f c =>
      simp only at hs
      cases hm : s.mem a with
      | none => rw [hm] at hs; cases hs
      | some v => rw [hm] at hs; injection hs with hs; subst hs; exact hg _
  · rw [hpc] at hs
    injection hs with hs
    subst hs
    rfl

theorem step_done {k : PKernel V} {s s' : PSt V} {t : Nat} (hs : k.step s t = .ok s') (h : s.pc t = .done) :
    s' = s := by
  unfold PKernel.step at hs
  rw [h] at hs
  injection hs with hs
  exact hs.symm

/-- Once every thread has taken enough steps, the kernel has finished. -/
theorem terminates {k : PKernel V} {m0 : Mem V} {D : Nat} (hinc : ∀ i, i < k.bound → i < k.next i)
    (hD : ∀ i, i < k.bound → Depth (k.prog i) D) :
    ∃ B, ∀ sched s, (∀ t, t < k.threads → B ≤ sched.count t) → k.exec m0 sched = .ok s → s.finished := by
  refine ⟨k.bound * (D + 2) + 1, ?_⟩
  have hinv : ∀ sched s, k.exec m0 sched = .ok s → ∀ t, s.pc t = .done ∨ (t < k.threads ∧
      sched.count t ≤ k.bound * (D + 2) + 1 ∧ budget k D (s.pc t) (k.bound * (D + 2) + 1 - sched.count t)) := by
    intro sched
    induction sched using List.reverseRecOn with
    | nil =>
      intro s hs t
      injection hs with hs
      subst hs
      show (if t < k.threads then PPc.head (k.start t) else .done) = _ ∨ _
      by_cases ht : t < k.threads
      · right
        refine ⟨ht, by simp, ?_⟩
        show budget k D (if t < k.threads then PPc.head (k.start t) else .done) _
        rw [if_pos ht]
        show _ ≤ _
        rw [List.count_nil]
        have : (k.bound - k.start t) * (D + 2) ≤ k.bound * (D + 2) := Nat.mul_le_mul_right _ (by omega)
        omega
      · left; rw [if_neg ht]
    | append_singleton xs u ih =>
      intro s' hs' t
      rw [PKernel.exec_snoc] at hs'
      cases hs : k.exec m0 xs with
      | ok s =>
        rw [hs] at hs'
        have hst : k.step s u = .ok s' := hs'
        by_cases htu : t = u
        · subst htu
          rcases ih s hs t with hd | ⟨h1, h2, h3⟩
          · rw [step_done hst hd]; exact Or.inl hd
          · by_cases hd : s.pc t = .done
            · rw [step_done hst hd]; exact Or.inl hd
            · obtain ⟨b1, b2⟩ := budget_step hinc hD h3 hst hd
              right
              refine ⟨h1, ?_, ?_⟩
              · rw [List.count_append, List.count_singleton_self]; omega
              · rw [List.count_append, List.count_singleton_self]
                rw [Nat.sub_sub] at b2
                exact b2
        · rw [step_other hst htu, List.count_append, List.count_singleton]
          have : (u == t) = false := by simpa using fun h => htu h.symm
          rw [this]
          exact ih s hs t
      | err => rw [hs] at hs'; cases hs'
      | panic => rw [hs] at hs'; cases hs'
      | ub => rw [hs] at hs'; cases hs'
  intro sched s hB hs t
  rcases hinv sched s hs t with h | ⟨h1, h2, h3⟩
  · exact h
  · have := hB t h1
    have hz : k.bound * (D + 2) + 1 - sched.count t = 0 := by omega
    rw [hz] at h3
    cases hpc : s.pc t with
    | done => rfl
    | head i => rw [hpc] at h3; simp [budget] at h3
    | run i p =>
      rw [hpc] at h3
      obtain ⟨d, _, h4⟩ := h3
      omega

/-! ## Launches -/

/-- Threads that take one index each. -/
theorem cover {k : PKernel V} (hinc : ∀ i, i < k.bound → i < k.next i) (hst : ∀ t, t < k.threads → k.start t = t)
    (hnx : ∀ i, i < k.bound → k.bound ≤ k.next i) (hb : k.bound ≤ k.threads) :
    ((List.range k.threads).flatMap fun t => k.tail (k.start t)) = List.range k.bound := by
  have e : ∀ t ∈ List.range k.threads, k.tail (k.start t) = if t < k.bound then [t] else [] := by
    intro t ht
    rw [hst t (List.mem_range.mp ht)]
    split_ifs with h
    · rw [tail_step hinc h, tail_end (by have := hnx t h; omega)]
    · exact tail_end h
  rw [List.flatMap_def, List.map_congr_left e, ← List.flatMap_def]
  obtain ⟨d, hd⟩ := Nat.exists_eq_add_of_le hb
  rw [hd, List.range_add, List.flatMap_append]
  have e1 : (List.range k.bound).flatMap (fun t => if t < k.bound then [t] else []) = List.range k.bound := by
    rw [List.flatMap_def, List.map_congr_left (g := fun t => [t]) (fun t ht => if_pos (List.mem_range.mp ht))]
    rw [← List.flatMap_def, List.flatMap_singleton']
  have e2 : (List.map (fun x => k.bound + x) (List.range d)).flatMap (fun t => if t < k.bound then [t] else []) = [] := by
    rw [List.flatMap_eq_nil_iff]
    intro t ht
    obtain ⟨x, _, rfl⟩ := List.mem_map.mp ht
    rw [if_neg (by omega)]
  rw [e1, e2, List.append_nil]

/-- What a kernel without races does: nothing goes wrong under any schedule, it finishes, and then the memory is `M`. -/
def Spec.Ends (k : PKernel V) (m0 M : Mem V) : Prop :=
  (∀ sched, ∃ s, k.exec m0 sched = .ok s ∧ (s.finished → s.mem = M)) ∧
  ∃ B, ∀ sched s, (∀ t, t < k.threads → B ≤ sched.count t) → k.exec m0 sched = .ok s → s.finished

/-- Loops with a `size_t` counter. -/
theorem grid64_ends {T : Addr → V → Prop} {n D : Nat} (hn : n ≤ 2 ^ 32 - 256) {prog : Nat → Prog V} {m0 : Mem V}
    (hT : Typed T m0) (hin : ∀ i, i < n → Inside T m0 (prog i))
    (hind : ∀ i j, i < n → j < n → i ≠ j → Indep T (prog i) (prog j)) (hD : ∀ i, i < n → Depth (prog i) D) :
    ∃ M, seq ((List.range n).map prog) m0 = .ok M ∧ Ends (progGrid64 n prog) m0 M := by
  obtain ⟨h1, h2⟩ := grid_bounds hn
  have hadv : ∀ i, advance64 (gridSize n) i = i + 256 * gridSize n := by
    intro i
    unfold advance64 u32
    rw [Nat.mod_eq_of_lt (by omega)]
  have hpos : 0 < gridSize n := by unfold gridSize; omega
  have hinc : ∀ i, i < (progGrid64 n prog).bound → i < (progGrid64 n prog).next i := by
    intro i _
    show i < advance64 (gridSize n) i
    rw [hadv]; omega
  have hcov := cover (k := progGrid64 n prog) hinc (fun t ht => threadStart_eq (by
    have : t < 256 * gridSize n := ht
    omega)) (fun i _ => by
      show n ≤ advance64 (gridSize n) i
      rw [hadv]; omega) h1
  obtain ⟨M, e1, _, _, e4⟩ := race_free (T := T) (k := progGrid64 n prog) (m0 := m0) hinc hT hin hind (by rw [hcov])
  exact ⟨M, e1, e4, terminates hinc hD⟩

/-- Loops with a `uint32_t` counter. -/
theorem grid32_ends {T : Addr → V → Prop} {n D : Nat} (hn : n ≤ 2 ^ 31) {prog : Nat → Prog V} {m0 : Mem V}
    (hT : Typed T m0) (hin : ∀ i, i < n → Inside T m0 (prog i))
    (hind : ∀ i j, i < n → j < n → i ≠ j → Indep T (prog i) (prog j)) (hD : ∀ i, i < n → Depth (prog i) D) :
    ∃ M, seq ((List.range n).map prog) m0 = .ok M ∧ Ends (progGrid32 n prog) m0 M := by
  obtain ⟨h1, h2⟩ := grid_bounds (show n ≤ 2 ^ 32 - 256 by omega)
  have hG : 256 * gridSize n ≤ max (2 ^ 31) 256 := by
    have hu : u32 n = n := Nat.mod_eq_of_lt (by omega)
    unfold gridSize
    rw [hu]
    omega
  have hadv : ∀ i, i < n → advance (gridSize n) i = i + 256 * gridSize n := by
    intro i hi
    unfold advance u32
    rw [Nat.mod_eq_of_lt (show 256 * gridSize n < 2 ^ 32 by omega), Nat.mod_eq_of_lt (by omega)]
  have hpos : 0 < gridSize n := by unfold gridSize; omega
  have hinc : ∀ i, i < (progGrid32 n prog).bound → i < (progGrid32 n prog).next i := by
    intro i hi
    show i < advance (gridSize n) i
    rw [hadv i hi]; omega
  have hcov := cover (k := progGrid32 n prog) hinc (fun t ht => threadStart_eq (by
    have : t < 256 * gridSize n := ht
    omega)) (fun i hi => by
      show n ≤ advance (gridSize n) i
      rw [hadv i hi]; omega) h1
  obtain ⟨M, e1, _, _, e4⟩ := race_free (T := T) (k := progGrid32 n prog) (m0 := m0) hinc hT hin hind (by rw [hcov])
  exact ⟨M, e1, e4, terminates hinc hD⟩

end Hodu.Cuda
