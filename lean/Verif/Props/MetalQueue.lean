import Verif.Model.MetalQueue
import Mathlib.Data.Nat.Log
import Mathlib.Data.List.Basic

/-!
# C120: pooled buffers and deferred execution on Metal

Reading a tensor back gives the value the calls would have computed one after the other, if all calls
are made by one thread, no operation commits the shared command buffer itself, and no size in bytes is
one more than a power of two.  Each of the three conditions is necessary.
-/

namespace Hodu.Metal

variable {V : Type}

namespace Spec

/-- A tensor program run eagerly: every call computes its value at once into a cell of its own. -/
structure Eager (V : Type) where
  cells : List V
  env : List (Nat × Nat)
  out : List V

/-- The cell a name is bound to. -/
def Eager.find (e : Eager V) (h : Nat) : Option Nat := (e.env.find? (fun p => p.1 == h)).map (·.2)

/-- The value of a name. -/
def Eager.val (e : Eager V) (h : Nat) : Option V := (e.find h).bind (fun c => e.cells[c]?)

/-- Eager execution of one call. -/
def Eager.call (e : Eager V) : Instr V → Option (Eager V)
  | .upload h v _ _ => some { e with cells := e.cells ++ [v], env := (h, e.cells.length) :: e.env }
  | .op h srcs f _ _ => (srcs.mapM e.val).map fun vs =>
      { e with cells := e.cells ++ [f vs], env := (h, e.cells.length) :: e.env }
  | .opSync h srcs f _ _ => (srcs.mapM e.val).map fun vs =>
      { e with cells := e.cells ++ [f vs], env := (h, e.cells.length) :: e.env }
  | .set h f => (e.find h).bind fun c => (e.cells[c]?).map fun v => { e with cells := e.cells.set c (f [v]) }
  | .clone h h' => (e.find h).map fun c => { e with env := (h', c) :: e.env }
  | .drop h => some { e with env := e.env.eraseP (fun p => p.1 == h) }
  | .read h => (e.val h).map fun v => { e with out := e.out ++ [v] }

/-- Eager execution of a program. -/
def eager : List (Instr V) → Eager V → Option (Eager V)
  | [], e => some e
  | i :: is, e => (e.call i).bind (eager is)

/-- The calls of a run, in their order. -/
def calls (evs : List (Event V)) : List (Instr V) :=
  evs.filterMap fun
    | .host _ i => some i
    | _ => none

/-- A size for which `buf_size` is large enough. -/
def GoodSize (n esz : Nat) : Prop := n ≠ 0 ∧ ∀ k, n * esz ≠ 2 ^ k + 1

/-- A call that leaves the shared command buffer alone and has a good size. -/
def Plain : Instr V → Prop
  | .upload _ _ n esz => GoodSize n esz
  | .op _ _ _ n esz => GoodSize n esz
  | .opSync .. => False
  | _ => True

/-- All calls are made by thread `t` and are plain. -/
def OneThread (t : Nat) (evs : List (Event V)) : Prop :=
  ∀ t' i, Event.host t' i ∈ evs → t' = t ∧ Plain i

/-- The start of an eager run. -/
def Eager.empty : Eager V := ⟨[], [], []⟩

end Spec

open Spec

/-! ## Sizes -/

theorem nextPow2_ge (n : Nat) : n ≤ nextPow2 n := by
  unfold nextPow2
  split
  · assumption
  · have := @Nat.lt_log2_self (n - 1)
    omega

theorem bufSize_lt (s : Nat) (h : bufSize s < s) : ∃ k, s = 2 ^ k + 1 := by
  have h1 := nextPow2_ge (s - 1)
  have h2 : s - 1 = bufSize s := by unfold bufSize at *; omega
  unfold bufSize nextPow2 at h2 h
  split at h2
  · exact ⟨0, by omega⟩
  · exact ⟨Nat.log2 (s - 1 - 1) + 1, by omega⟩

theorem bufSize_pow (k : Nat) : bufSize (2 ^ k + 1) = 2 ^ k := by
  unfold bufSize nextPow2
  rw [Nat.add_sub_cancel]
  rcases k with _ | j
  · rfl
  · have h2 : 2 ≤ 2 ^ (j + 1) := by
      have := Nat.one_le_two_pow (n := j)
      rw [Nat.pow_succ]
      omega
    rw [if_neg (by omega)]
    congr 2
    have h3 : 2 ^ (j + 1) - 1 ≠ 0 := by omega
    apply le_antisymm
    · have : Nat.log2 (2 ^ (j + 1) - 1) < j + 1 := (Nat.log2_lt h3).mpr (by omega)
      omega
    · rw [Nat.le_log2 h3, Nat.pow_succ]
      have := Nat.one_le_two_pow (n := j)
      omega

/-- **C120, sizes.**  A new buffer is smaller than what was asked for exactly when the size in bytes is
one more than a power of two. -/
theorem C120_buf_size (s : Nat) : bufSize s < s ↔ ∃ k, s = 2 ^ k + 1 := by
  constructor
  · exact bufSize_lt s
  · rintro ⟨k, rfl⟩
    rw [bufSize_pow]
    omega

example : bufSize 5 = 4 ∧ bufSize 12 = 16 ∧ bufSize 2 = 1 := by decide

/-- Tensors of 4 and 8 byte elements are never affected, those of 2 byte elements only with one
element. -/
theorem C120_size_by_element (n esz : Nat) (hn : n ≠ 0) (h : 4 ∣ esz ∨ (2 ∣ esz ∧ 2 < n * esz)) : GoodSize n esz := by
  refine ⟨hn, fun k hk => ?_⟩
  rcases h with ⟨m, rfl⟩ | ⟨⟨m, rfl⟩, h2⟩
  · rw [show n * (4 * m) = 4 * (n * m) from Nat.mul_left_comm _ _ _] at hk
    generalize n * m = a at hk
    rcases k with _ | k
    · omega
    · rw [Nat.pow_succ] at hk
      omega
  · rw [show n * (2 * m) = 2 * (n * m) from Nat.mul_left_comm _ _ _] at hk h2
    generalize n * m = a at hk h2
    rcases k with _ | k
    · omega
    · rw [Nat.pow_succ] at hk
      omega

example : GoodSize 3 4 := C120_size_by_element 3 4 (by decide) (Or.inl (by decide))

/-! ## The pool -/

theorem lastFree_from (free : Nat → Bool) (bs : List Nat) (acc : Option Nat) (b : Nat)
    (h : bs.foldl (fun acc b => if free b then some b else acc) acc = some b) :
    acc = some b ∨ (b ∈ bs ∧ free b = true) := by
  induction bs generalizing acc with
  | nil => exact Or.inl h
  | cons x xs ih =>
    rcases ih _ h with h1 | ⟨h1, h2⟩
    · dsimp only at h1
      by_cases hx : free x = true
      · rw [if_pos hx] at h1
        obtain rfl := Option.some.inj h1
        exact Or.inr ⟨.head _, hx⟩
      · rw [if_neg hx] at h1
        exact Or.inl h1
    · exact Or.inr ⟨.tail _ h1, h2⟩

theorem lastFree_some {free : Nat → Bool} {bs : List Nat} {b : Nat} (h : lastFree free bs = some b) :
    b ∈ bs ∧ free b = true := by
  rcases lastFree_from free bs none b h with h | h
  · exact absurd h (by simp)
  · exact h

theorem lastFree_none_from (free : Nat → Bool) (bs : List Nat) (acc : Option Nat)
    (h : bs.foldl (fun acc b => if free b then some b else acc) acc = none) :
    acc = none ∧ ∀ b ∈ bs, free b = false := by
  induction bs generalizing acc with
  | nil => exact ⟨h, by simp⟩
  | cons x xs ih =>
    obtain ⟨h1, h2⟩ := ih _ h
    dsimp only at h1
    by_cases hx : free x = true
    · rw [if_pos hx] at h1
      exact absurd h1 (by simp)
    · rw [if_neg hx] at h1
      refine ⟨h1, fun b hb => ?_⟩
      rcases List.mem_cons.mp hb with rfl | hb
      · simpa using hx
      · exact h2 b hb

/-- What the search has found after a part of the pool. -/
def Best (size : Nat) (free : Nat → Bool) (done : List (Nat × List Nat)) : Option (Nat × Nat) → Prop
  | none => ∀ e ∈ done, size ≤ e.1 → ∀ b ∈ e.2, free b = false
  | some (b, k) => (∃ e ∈ done, e.1 = k ∧ b ∈ e.2 ∧ free b = true ∧ size ≤ k) ∧
      ∀ e ∈ done, size ≤ e.1 → e.1 < k → ∀ b ∈ e.2, free b = false

theorem findBest_from (size : Nat) (free : Nat → Bool) (todo done : List (Nat × List Nat))
    (best : Option (Nat × Nat)) (hb : Best size free done best) :
    Best size free (done ++ todo) (todo.foldl (fun best e =>
      if size ≤ e.1 ∧ (∀ q, best = some q → e.1 < q.2) then
        match lastFree free e.2 with
        | some b => some (b, e.1)
        | none => best
      else best) best) := by
  induction todo generalizing done best with
  | nil => simpa using hb
  | cons e es ih =>
    rw [List.foldl_cons, show done ++ e :: es = (done ++ [e]) ++ es by simp]
    refine ih _ _ ?_
    by_cases hc : size ≤ e.1 ∧ (∀ q, best = some q → e.1 < q.2)
    · rw [if_pos hc]
      cases hl : lastFree free e.2 with
      | some b =>
        obtain ⟨h1, h2⟩ := lastFree_some hl
        refine ⟨⟨e, by simp, rfl, h1, h2, hc.1⟩, fun x hx hs hlt => ?_⟩
        rcases List.mem_append.mp hx with hx | hx
        · rcases best with _ | ⟨b', k'⟩
          · exact hb x hx hs
          · exact hb.2 x hx hs (by have := hc.2 _ rfl; simp only at this; omega)
        · obtain rfl := List.mem_singleton.mp hx
          omega
      | none =>
        have hn := (lastFree_none_from free e.2 none hl).2
        rcases best with _ | ⟨b', k'⟩
        · intro x hx hs
          rcases List.mem_append.mp hx with hx | hx
          · exact hb x hx hs
          · obtain rfl := List.mem_singleton.mp hx
            exact hn
        · obtain ⟨⟨y, hy, r⟩, h2⟩ := hb
          refine ⟨⟨y, List.mem_append_left _ hy, r⟩, fun x hx hs hlt => ?_⟩
          rcases List.mem_append.mp hx with hx | hx
          · exact h2 x hx hs hlt
          · obtain rfl := List.mem_singleton.mp hx
            exact hn
    · rw [if_neg hc]
      rcases best with _ | ⟨b', k'⟩
      · intro x hx hs
        rcases List.mem_append.mp hx with hx | hx
        · exact hb x hx hs
        · obtain rfl := List.mem_singleton.mp hx
          exact absurd ⟨hs, by simp⟩ hc
      · obtain ⟨⟨y, hy, r⟩, h2⟩ := hb
        refine ⟨⟨y, List.mem_append_left _ hy, r⟩, fun x hx hs hlt => ?_⟩
        rcases List.mem_append.mp hx with hx | hx
        · exact h2 x hx hs hlt
        · obtain rfl := List.mem_singleton.mp hx
          exact absurd ⟨hs, by rintro q ⟨⟩; exact hlt⟩ hc

/-- **C120, reuse.**  The search returns a buffer no tensor holds that is large enough, from the smallest
size class that has one, and returns none only if there is none; the order of the map does not matter
for which class it is. -/
theorem C120_find (size : Nat) (free : Nat → Bool) (pool : List (Nat × List Nat)) :
    (findBest size free pool = none ↔ ∀ e ∈ pool, size ≤ e.1 → ∀ b ∈ e.2, free b = false) ∧
    ∀ b k, findBest size free pool = some (b, k) →
      (∃ e ∈ pool, e.1 = k ∧ b ∈ e.2 ∧ free b = true ∧ size ≤ k) ∧
      ∀ e ∈ pool, size ≤ e.1 → e.1 < k → ∀ b ∈ e.2, free b = false := by
  have h : Best size free pool (findBest size free pool) := by
    have := findBest_from size free pool [] none (by intro e he; simp at he)
    rw [List.nil_append] at this
    exact this
  refine ⟨⟨fun hn => by rw [hn] at h; exact h, fun ha => ?_⟩, fun b k hs => by rw [hs] at h; exact h⟩
  cases hf : findBest size free pool with
  | none => rfl
  | some q =>
    rw [hf] at h
    obtain ⟨⟨e, he, h1, h2, h3, h4⟩, _⟩ := h
    have := ha e he (by omega) _ h2
    rw [h3] at this
    exact absurd this (by simp)

example : findBest 10 (fun b => b != 4) [(64, [1]), (16, [2, 3, 4]), (8, [5])] = some (3, 16) := by decide

/-! ## Running commands -/

/-- The memory after a list of commands. -/
def runAll (ks : List (Cmd V)) (mem : Nat → V) : Nat → V := ks.foldl (fun m k => k.run m) mem

theorem runAll_snoc (ks : List (Cmd V)) (k : Cmd V) (mem : Nat → V) :
    runAll (ks ++ [k]) mem = k.run (runAll ks mem) := by
  simp [runAll]

theorem upd_same {α : Type} (f : Nat → α) (i : Nat) (a : α) : upd f i a i = a := if_pos rfl

theorem upd_ne {α : Type} (f : Nat → α) (i : Nat) (a : α) {j : Nat} (h : j ≠ i) : upd f i a j = f j := if_neg h

theorem run_ne (k : Cmd V) (m : Nat → V) {x : Nat} (h : x ≠ k.dst) : k.run m x = m x := upd_ne _ _ _ h

theorem run_dst (k : Cmd V) (m : Nat → V) : k.run m k.dst = k.f (k.srcs.map m) := upd_same _ _ _

/-- Commands do not see a buffer they do not mention. -/
theorem runAll_upd (ks : List (Cmd V)) (mem : Nat → V) (n : Nat) (v : V)
    (h : ∀ k ∈ ks, k.dst < n ∧ ∀ x ∈ k.srcs, x < n) :
    runAll ks (upd mem n v) = upd (runAll ks mem) n v := by
  induction ks generalizing mem with
  | nil => rfl
  | cons k ks ih =>
    have hk := h k (.head _)
    have e : k.run (upd mem n v) = upd (k.run mem) n v := by
      funext x
      unfold Cmd.run
      have hs : k.srcs.map (upd mem n v) = k.srcs.map mem :=
        List.map_congr_left fun y hy => upd_ne _ _ _ (by have := hk.2 y hy; omega)
      rw [hs]
      by_cases h1 : x = k.dst
      · subst h1
        rw [upd_same, upd_ne _ _ _ (by omega), upd_same]
      · rw [upd_ne _ _ _ h1]
        by_cases h2 : x = n
        · subst h2; rw [upd_same, upd_same]
        · rw [upd_ne _ _ _ h2, upd_ne _ _ _ h2, upd_ne _ _ _ h1]
    show runAll ks (k.run (upd mem n v)) = upd (runAll ks (k.run mem)) n v
    rw [e]
    exact ih _ (fun k' hk' => h k' (.tail _ hk'))

/-! ## The invariant of one thread -/

/-- The command buffers of thread `t`: `front` are committed, `c` is open. -/
structure Queued (t : Nat) (s : State V) (c : Nat) (front : List Nat) : Prop where
  cur : s.cur t = some c
  place : (s.queue = front ∧ (s.cbs c).status = .notEnqueued) ∨
    (s.queue = front ++ [c] ∧ (s.cbs c).status = .enqueued)
  fresh : c ∉ front
  nodup : front.Nodup
  comm : ∀ d ∈ front, (s.cbs d).status = .committed
  lt : c < s.ncb ∧ ∀ d ∈ front, d < s.ncb

/-- The commands that were not executed yet. -/
def pend (s : State V) (c : Nat) (front : List Nat) : List (Cmd V) :=
  front.flatMap (fun d => (s.cbs d).cmds) ++ (s.cbs c).cmds

/-- The data: every handle's buffer will have the value of its cell once the pending commands `ks` ran. -/
structure Holds (s : State V) (ks : List (Cmd V)) (β : List (Handle × Nat)) (e : Eager V) : Prop where
  bound : ∀ k ∈ ks, k.dst < s.next ∧ ∀ x ∈ k.srcs, x < s.next
  live : s.live = β.map (·.1)
  env : e.env = β.map (fun x => (x.1.name, x.2))
  vals : ∀ x ∈ β, e.cells[x.2]? = some (runAll ks s.mem x.1.buf)
  same : ∀ x ∈ β, ∀ y ∈ β, x.1.buf = y.1.buf ↔ x.2 = y.2
  size : ∀ x ∈ β, x.1.buf < s.next ∧ x.1.count * x.1.esz ≤ s.cap x.1.buf ∧ GoodSize x.1.count x.1.esz
  pool : ∀ p ∈ s.pool, ∀ b ∈ p.2, b < s.next ∧ p.1 ≤ s.cap b

/-- Waiting: nobody, or thread `t` for a command buffer behind which nothing is pending. -/
def Waiting (t : Nat) (s : State V) (c : Nat) (front : List Nat) (e : Eager V) : Prop :=
  (s.waits = [] ∧ s.out = e.out) ∨
  ∃ w b, s.waits = [w] ∧ w.tid = t ∧ w.tmp = some b ∧ e.out = s.out ++ [runAll (pend s c front) s.mem b] ∧
    (s.cbs c).cmds = [] ∧ ((∃ pre, front = pre ++ [w.cb]) ∨ (front = [] ∧ (s.cbs w.cb).status = .completed ∧ w.cb ≠ c))

/-- The invariant. -/
def Inv (t : Nat) (s : State V) (e : Eager V) : Prop :=
  ∃ c front β, Queued t s c front ∧ Holds s (pend s c front) β e ∧ Waiting t s c front e

theorem init_inv (t : Nat) (mem : Nat → V) : Inv t (init t mem) Eager.empty := by
  refine ⟨0, [], [], ⟨upd_same (fun _ => none) t (some 0), Or.inr ⟨rfl, rfl⟩, by simp, .nil, by simp,
    Nat.zero_lt_one, by simp⟩,
    ⟨?_, rfl, rfl, by simp, by simp, by simp, ?_⟩, Or.inl ⟨rfl, rfl⟩⟩
  · intro k hk
    simp [pend, init] at hk
  · intro p hp
    simp [init] at hp

theorem commit_next {s : State V} {c : Nat} {front : List Nat}
    (hp : (s.queue = front ∧ (s.cbs c).status = .notEnqueued) ∨
      (s.queue = front ++ [c] ∧ (s.cbs c).status = .enqueued)) (hf : c ∉ front) :
    s.commit c = .next { s with
      cbs := upd s.cbs c ⟨.committed, (s.cbs c).cmds⟩
      queue := front ++ [c] } := by
  unfold State.commit
  rcases hp with ⟨h1, h2⟩ | ⟨h1, h2⟩
  · rw [h2]
    simp only
    rw [if_neg (by rw [h1]; exact hf), h1]
  · rw [h2]
    simp only
    rw [if_pos (by rw [h1]; simp), h1]

/-- The device after the open command buffer was committed and replaced. -/
theorem rotate {t : Nat} {s : State V} {c : Nat} {front : List Nat} (hq : Queued t s c front) {s' : State V}
    (hs : s' = ({ s with
      cbs := upd s.cbs c ⟨.committed, (s.cbs c).cmds⟩
      queue := front ++ [c] } : State V).newCb t) :
    Queued t s' s.ncb (front ++ [c]) ∧ pend s' s.ncb (front ++ [c]) = pend s c front ∧
      (s'.cbs s.ncb).cmds = [] := by
  have hcb : ∀ d, d ∈ front → s'.cbs d = s.cbs d := by
    intro d hd
    have h1 := hq.lt.2 d hd
    have h2 : d ≠ c := fun h => hq.fresh (h ▸ hd)
    rw [hs]
    show upd (upd s.cbs c _) s.ncb _ d = _
    rw [upd_ne _ _ _ (by omega), upd_ne _ _ _ h2]
  have hc : s'.cbs c = ⟨.committed, (s.cbs c).cmds⟩ := by
    have h1 := hq.lt.1
    rw [hs]
    show upd (upd s.cbs c _) s.ncb _ c = _
    rw [upd_ne _ _ _ (by omega), upd_same]
  have hn : s'.cbs s.ncb = ⟨.notEnqueued, []⟩ := by
    rw [hs]
    exact upd_same _ _ _
  refine ⟨⟨?_, ?_, ?_, ?_, ?_, ?_, ?_⟩, ?_, by rw [hn]⟩
  · rw [hs]; exact upd_same _ _ _
  · exact Or.inl ⟨by rw [hs]; rfl, by rw [hn]⟩
  · intro h
    rcases List.mem_append.mp h with h | h
    · have := hq.lt.2 _ h; omega
    · have := hq.lt.1
      rw [List.mem_singleton] at h
      omega
  · exact List.nodup_append.mpr ⟨hq.nodup, by simp, fun a ha b hb => by
      rw [List.mem_singleton] at hb
      subst hb
      exact fun h => hq.fresh (h ▸ ha)⟩
  · intro d hd
    rcases List.mem_append.mp hd with h | h
    · rw [hcb d h]; exact hq.comm d h
    · rw [List.mem_singleton] at h
      rw [h, hc]
  · rw [hs]; exact Nat.lt_succ_self _
  · intro d hd
    rw [hs]
    show d < s.ncb + 1
    rcases List.mem_append.mp hd with h | h
    · have := hq.lt.2 _ h; omega
    · have := hq.lt.1
      rw [List.mem_singleton] at h
      omega
  · unfold pend
    rw [hn, List.append_nil, List.flatMap_append, List.flatMap_singleton, hc]
    congr 1
    exact List.flatMap_congr fun d hd => by rw [hcb d hd]

/-- What fetching the command buffer leaves alone. -/
structure SameData (s s' : State V) : Prop where
  mem : s'.mem = s.mem
  cap : s'.cap = s.cap
  next : s'.next = s.next
  live : s'.live = s.live
  waits : s'.waits = s.waits
  out : s'.out = s.out
  pool : ∀ p ∈ s'.pool, ∃ q ∈ s.pool, q.1 = p.1 ∧ ∀ b ∈ p.2, b ∈ q.2

theorem Holds.of_same {s s' : State V} {ks : List (Cmd V)} {β : List (Handle × Nat)} {e : Eager V}
    (h : Holds s ks β e) (hs : SameData s s') : Holds s' ks β e := by
  refine ⟨?_, ?_, h.env, ?_, h.same, ?_, ?_⟩
  · rw [hs.next]; exact h.bound
  · rw [hs.live]; exact h.live
  · rw [hs.mem]; exact h.vals
  · rw [hs.next, hs.cap]; exact h.size
  · intro p hp b hb
    obtain ⟨q, h1, h2, h3⟩ := hs.pool p hp
    rw [hs.next, hs.cap, ← h2]
    exact h.pool q h1 b (h3 b hb)

theorem commandBuffer_next {t : Nat} {s : State V} {c : Nat} {front : List Nat} (hq : Queued t s c front) :
    ∃ s' c' front', s.commandBuffer t = .next s' ∧ Queued t s' c' front' ∧
      pend s' c' front' = pend s c front ∧ SameData s s' := by
  have he : s.ensureCb t = s := by unfold State.ensureCb; rw [hq.cur]
  unfold State.commandBuffer
  simp only [he]
  by_cases hi : computePerBuffer < s.idx
  · rw [if_pos hi, hq.cur]
    simp only
    rw [commit_next hq.place hq.fresh]
    obtain ⟨h1, h2, h3⟩ := rotate hq rfl
    refine ⟨_, s.ncb, front ++ [c], rfl, ⟨h1.cur, h1.place, h1.fresh, h1.nodup, h1.comm, h1.lt⟩, h2,
      ⟨rfl, rfl, rfl, rfl, rfl, rfl, ?_⟩⟩
    intro p hp
    obtain ⟨q, hq1, rfl⟩ := List.mem_map.mp hp
    exact ⟨q, hq1, rfl, fun b hb => (List.mem_filter.mp hb).1⟩
  · rw [if_neg hi]
    exact ⟨_, c, front, rfl, ⟨hq.cur, hq.place, hq.fresh, hq.nodup, hq.comm, hq.lt⟩, rfl,
      ⟨rfl, rfl, rfl, rfl, rfl, rfl, fun p hp => ⟨p, hp, rfl, fun b hb => hb⟩⟩⟩

theorem encode_next {t : Nat} {s : State V} {c : Nat} {front : List Nat} (hq : Queued t s c front) (k : Cmd V) :
    ∃ s', s.encode t k = .next s' ∧ Queued t s' c front ∧ pend s' c front = pend s c front ++ [k] ∧
      SameData s s' := by
  have key : ∀ st, (s.cbs c).status = st → (st = .notEnqueued ∨ st = .enqueued) →
      s.encode t k = .next { s with cbs := upd s.cbs c ⟨st, (s.cbs c).cmds ++ [k]⟩ } := by
    intro st h1 h2
    unfold State.encode
    rw [hq.cur]
    simp only
    rcases h2 with rfl | rfl <;> rw [h1]
  obtain ⟨st, h1, h2⟩ : ∃ st, (s.cbs c).status = st ∧ (st = .notEnqueued ∨ st = .enqueued) := by
    rcases hq.place with ⟨_, h⟩ | ⟨_, h⟩
    · exact ⟨_, h, Or.inl rfl⟩
    · exact ⟨_, h, Or.inr rfl⟩
  have hcb : ∀ d, d ∈ front → upd s.cbs c ⟨st, (s.cbs c).cmds ++ [k]⟩ d = s.cbs d := by
    intro d hd
    exact upd_ne _ _ _ (fun h => hq.fresh (h ▸ hd))
  refine ⟨_, key st h1 h2, ⟨hq.cur, ?_, hq.fresh, hq.nodup, ?_, hq.lt⟩, ?_,
    ⟨rfl, rfl, rfl, rfl, rfl, rfl, fun p hp => ⟨p, hp, rfl, fun b hb => hb⟩⟩⟩
  · simp only [upd_same]
    rw [← h1]
    exact hq.place
  · intro d hd
    simp only [hcb d hd]
    exact hq.comm d hd
  · unfold pend
    simp only [upd_same]
    rw [← List.append_assoc]
    congr 2
    exact List.flatMap_congr fun d hd => by rw [hcb d hd]

theorem pushPool_mem (size b : Nat) (pool : List (Nat × List Nat)) (P : Nat → Nat → Prop)
    (h : ∀ p ∈ pool, ∀ x ∈ p.2, P p.1 x) (hb : P size b) : ∀ p ∈ pushPool size b pool, ∀ x ∈ p.2, P p.1 x := by
  induction pool with
  | nil =>
    intro p hp x hx
    simp only [pushPool, List.mem_singleton] at hp
    subst hp
    simp only [List.mem_singleton] at hx
    subst hx
    exact hb
  | cons e es ih =>
    intro p hp x hx
    unfold pushPool at hp
    split at hp
    · rename_i he
      rcases List.mem_cons.mp hp with rfl | hp
      · rcases List.mem_append.mp hx with hx | hx
        · exact h e (.head _) x hx
        · rw [List.mem_singleton] at hx
          subst hx
          simp only
          rw [he]
          exact hb
      · exact h p (.tail _ hp) x hx
    · rcases List.mem_cons.mp hp with rfl | hp
      · exact h p (.head _) x hx
      · exact ih (fun p hp => h p (.tail _ hp)) p hp x hx

/-- Allocation: a buffer no handle has, large enough for a good size. -/
theorem alloc_spec {s : State V} {ks : List (Cmd V)} {β : List (Handle × Nat)} {e : Eager V}
    (h : Holds s ks β e) {size : Nat} (hz : ∀ k, size ≠ 2 ^ k + 1) {b : Nat} {s' : State V}
    (ha : s.alloc size = (b, s')) :
    Holds s' ks β e ∧ b < s'.next ∧ size ≤ s'.cap b ∧ (∀ x ∈ β, x.1.buf ≠ b) ∧ s'.mem = s.mem ∧
      s'.cbs = s.cbs ∧ s'.ncb = s.ncb ∧ s'.cur = s.cur ∧ s'.queue = s.queue ∧ s'.waits = s.waits ∧
      s'.out = s.out := by
  unfold State.alloc at ha
  cases hf : findBest size s.free s.pool with
  | some q =>
    obtain ⟨b', k⟩ := q
    rw [hf] at ha
    obtain ⟨rfl, rfl⟩ := Prod.mk.inj ha
    obtain ⟨⟨p, hp, h1, h2, h3, h4⟩, _⟩ := (C120_find size s.free s.pool).2 b' k hf
    obtain ⟨h5, h6⟩ := h.pool p hp b' h2
    refine ⟨h, h5, by omega, fun x hx hxb => ?_, rfl, rfl, rfl, rfl, rfl, rfl, rfl⟩
    unfold State.free at h3
    rw [Bool.and_eq_true, List.all_eq_true] at h3
    have := h3.1 x.1 (by rw [h.live]; exact List.mem_map_of_mem hx)
    simp [hxb] at this
  | none =>
    rw [hf] at ha
    obtain ⟨rfl, rfl⟩ := Prod.mk.inj ha
    refine ⟨⟨?_, h.live, h.env, h.vals, h.same, ?_, ?_⟩, Nat.lt_succ_self _, ?_, fun x hx hxb => ?_,
      rfl, rfl, rfl, rfl, rfl, rfl, rfl⟩
    · intro k hk
      obtain ⟨h1, h2⟩ := h.bound k hk
      exact ⟨Nat.lt_succ_of_lt h1, fun x hx => Nat.lt_succ_of_lt (h2 x hx)⟩
    · intro x hx
      obtain ⟨h1, h2, h3⟩ := h.size x hx
      refine ⟨Nat.lt_succ_of_lt h1, ?_, h3⟩
      simp only
      rw [upd_ne _ _ _ (by omega)]
      exact h2
    · refine pushPool_mem _ _ _ (fun p x => x < s.next + 1 ∧ p ≤ upd s.cap s.next (bufSize size) x) ?_ ?_
      · intro p hp x hx
        obtain ⟨h1, h2⟩ := h.pool p hp x hx
        exact ⟨by omega, by rw [upd_ne _ _ _ (by omega)]; exact h2⟩
      · exact ⟨by omega, by rw [upd_same]⟩
    · simp only
      rw [upd_same]
      rcases Nat.lt_or_ge (bufSize size) size with h1 | h1
      · obtain ⟨k, hk⟩ := bufSize_lt size h1
        exact absurd hk (hz k)
      · exact h1
    · have := (h.size x hx).1
      omega

theorem find_eq {s : State V} {ks : List (Cmd V)} {β : List (Handle × Nat)} {e : Eager V}
    (h : Holds s ks β e) (n : Nat) :
    s.find n = (β.find? (fun x => x.1.name == n)).map (·.1) ∧
    e.find n = (β.find? (fun x => x.1.name == n)).map (·.2) := by
  unfold State.find Eager.find
  rw [h.live, h.env, List.find?_map, List.find?_map, Option.map_map]
  exact ⟨rfl, rfl⟩

theorem find_some {s : State V} {ks : List (Cmd V)} {β : List (Handle × Nat)} {e : Eager V}
    (h : Holds s ks β e) {n : Nat} {H : Handle} (hf : s.find n = some H) :
    ∃ x ∈ β, x.1 = H ∧ e.find n = some x.2 ∧ e.val n = some (runAll ks s.mem H.buf) := by
  obtain ⟨h1, h2⟩ := find_eq h n
  rw [h1] at hf
  obtain ⟨x, hx, rfl⟩ := Option.map_eq_some_iff.mp hf
  have hm := List.mem_of_find?_eq_some hx
  rw [hx] at h2
  refine ⟨x, hm, rfl, h2, ?_⟩
  unfold Eager.val
  rw [h2]
  exact h.vals x hm

theorem srcs_some {s : State V} {ks : List (Cmd V)} {β : List (Handle × Nat)} {e : Eager V}
    (h : Holds s ks β e) (srcs : List Nat) {es : List Handle} (hf : srcs.mapM s.find = some es) :
    (∀ E ∈ es, ∃ x ∈ β, x.1 = E) ∧
    srcs.mapM e.val = some ((es.map (·.buf)).map (runAll ks s.mem)) := by
  induction srcs generalizing es with
  | nil =>
    simp only [List.mapM_nil] at hf
    obtain rfl := Option.some.inj hf
    exact ⟨by simp, rfl⟩
  | cons n ns ih =>
    rw [List.mapM_cons] at hf
    obtain ⟨H, hH, hf⟩ := Option.bind_eq_some_iff.mp hf
    obtain ⟨Hs, hHs, hf⟩ := Option.bind_eq_some_iff.mp hf
    obtain rfl := Option.some.inj hf
    obtain ⟨x, hx, hxe, _, hv⟩ := find_some h hH
    obtain ⟨h1, h2⟩ := ih hHs
    refine ⟨?_, ?_⟩
    · intro E hE
      rcases List.mem_cons.mp hE with rfl | hE
      · exact ⟨x, hx, hxe⟩
      · exact h1 E hE
    · rw [List.mapM_cons, hv, h2]
      rfl

/-- A kernel into a buffer no handle has does not change what the handles will hold. -/
theorem Holds.snoc {s : State V} {ks : List (Cmd V)} {β : List (Handle × Nat)} {e : Eager V}
    (h : Holds s ks β e) {k : Cmd V} (hd : k.dst < s.next) (hs : ∀ x ∈ k.srcs, x < s.next)
    (hn : ∀ x ∈ β, x.1.buf ≠ k.dst) : Holds s (ks ++ [k]) β e := by
  refine ⟨?_, h.live, h.env, ?_, h.same, h.size, h.pool⟩
  · intro k' hk'
    rcases List.mem_append.mp hk' with hk' | hk'
    · exact h.bound k' hk'
    · rw [List.mem_singleton] at hk'
      subst hk'
      exact ⟨hd, hs⟩
  · intro x hx
    rw [runAll_snoc, run_ne _ _ (hn x hx)]
    exact h.vals x hx

theorem Holds.bind {s : State V} {ks : List (Cmd V)} {β : List (Handle × Nat)} {e : Eager V}
    (h : Holds s ks β e) {nm b n esz : Nat} (hb : b < s.next) (hc : n * esz ≤ s.cap b) (hg : GoodSize n esz)
    (hn : ∀ x ∈ β, x.1.buf ≠ b) {v : V} (hv : runAll ks s.mem b = v) :
    Holds { s with live := ⟨nm, b, n, esz⟩ :: s.live } ks ((⟨nm, b, n, esz⟩, e.cells.length) :: β)
      { e with cells := e.cells ++ [v], env := (nm, e.cells.length) :: e.env } := by
  have hlt : ∀ x ∈ β, x.2 < e.cells.length := fun x hx =>
    (List.getElem?_eq_some_iff.mp (h.vals x hx)).1
  refine ⟨h.bound, ?_, ?_, ?_, ?_, ?_, h.pool⟩
  · simp only [List.map_cons, h.live]
  · simp only [List.map_cons, h.env]
  · intro x hx
    rcases List.mem_cons.mp hx with rfl | hx
    · simp [hv]
    · rw [List.getElem?_append_left (hlt x hx)]
      exact h.vals x hx
  · intro x hx y hy
    rcases List.mem_cons.mp hx with rfl | hx <;> rcases List.mem_cons.mp hy with rfl | hy
    · simp
    · have h1 := hn y hy
      have h2 := hlt y hy
      simp only
      constructor
      · intro h3; exact absurd h3.symm h1
      · intro h3; omega
    · have h1 := hn x hx
      have h2 := hlt x hx
      simp only
      constructor
      · intro h3; exact absurd h3 h1
      · intro h3; omega
    · exact h.same x hx y hy
  · intro x hx
    rcases List.mem_cons.mp hx with rfl | hx
    · exact ⟨hb, hc, hg⟩
    · exact h.size x hx

theorem launch_inv {t : Nat} {s : State V} {e : Eager V} {c : Nat} {front : List Nat} {β : List (Handle × Nat)}
    (hq : Queued t s c front) (h : Holds s (pend s c front) β e) (hw : s.waits = []) (ho : s.out = e.out)
    (nm : Nat) (bufs : List Nat) (hbuf : ∀ b ∈ bufs, ∃ x ∈ β, x.1.buf = b) (f : List V → V) {n esz : Nat}
    (hg : GoodSize n esz) :
    ∃ s', s.launch t nm bufs f n esz = .next s' ∧
      Inv t s' { e with cells := e.cells ++ [f (bufs.map (runAll (pend s c front) s.mem))]
                        env := (nm, e.cells.length) :: e.env } := by
  unfold State.launch
  cases ha : s.alloc (n * esz) with
  | mk b s1 =>
  obtain ⟨a1, a2, a3, a4, a5, a6, a7, a8, a9, a10, a11⟩ := alloc_spec h hg.2 ha
  have hq1 : Queued t s1 c front := ⟨by rw [a8]; exact hq.cur, by rw [a9, a6]; exact hq.place, hq.fresh,
    hq.nodup, by rw [a6]; exact hq.comm, by rw [a7]; exact hq.lt⟩
  have hp1 : pend s1 c front = pend s c front := by unfold pend; rw [a6]
  obtain ⟨s2, c2, f2, e2, hq2, hp2, hd2⟩ := commandBuffer_next hq1
  simp only [e2, Out.bind]
  rw [if_neg hg.1, if_neg (by rw [hd2.cap]; omega)]
  obtain ⟨s3, e3, hq3, hp3, hd3⟩ := encode_next hq2 ⟨bufs, b, f⟩
  rw [e3]
  simp only
  have h3 : Holds s3 (pend s3 c2 f2) β e := by
    rw [hp3, hp2, hp1]
    refine (((a1.of_same hd2).of_same hd3).snoc (k := ⟨bufs, b, f⟩) ?_ ?_ a4)
    · simp only; rw [hd3.next, hd2.next]; exact a2
    · intro y hy
      obtain ⟨x, hx, rfl⟩ := hbuf y hy
      rw [hd3.next, hd2.next]
      exact (a1.size x hx).1
  refine ⟨_, rfl, c2, f2, (⟨nm, b, n, esz⟩, e.cells.length) :: β,
    ⟨hq3.cur, hq3.place, hq3.fresh, hq3.nodup, hq3.comm, hq3.lt⟩, ?_, Or.inl ⟨?_, ?_⟩⟩
  · refine h3.bind ?_ ?_ hg a4 ?_
    · rw [hd3.next, hd2.next]; exact a2
    · rw [hd3.cap, hd2.cap]; exact a3
    · rw [hp3, runAll_snoc, hp2, hp1, hd3.mem, hd2.mem, a5]
      exact run_dst ⟨bufs, b, f⟩ _
  · simp only; rw [hd3.waits, hd2.waits, a10]; exact hw
  · simp only; rw [hd3.out, hd2.out, a11]; exact ho

theorem Holds.upload {s : State V} {ks : List (Cmd V)} {β : List (Handle × Nat)} {e : Eager V}
    (h : Holds s ks β e) (size : Nat) (v : V) : Holds (s.newData size v).2 ks β e := by
  unfold State.newData
  refine ⟨?_, h.live, h.env, ?_, h.same, ?_, ?_⟩
  · intro k hk
    obtain ⟨h1, h2⟩ := h.bound k hk
    exact ⟨Nat.lt_succ_of_lt h1, fun x hx => Nat.lt_succ_of_lt (h2 x hx)⟩
  · intro x hx
    have := (h.size x hx).1
    rw [runAll_upd _ _ _ _ h.bound, upd_ne _ _ _ (by omega)]
    exact h.vals x hx
  · intro x hx
    obtain ⟨h1, h2, h3⟩ := h.size x hx
    refine ⟨Nat.lt_succ_of_lt h1, ?_, h3⟩
    simp only
    rw [upd_ne _ _ _ (by omega)]
    exact h2
  · refine pushPool_mem _ _ _ (fun p x => x < s.next + 1 ∧ p ≤ upd s.cap s.next size x) ?_ ?_
    · intro p hp x hx
      obtain ⟨h1, h2⟩ := h.pool p hp x hx
      exact ⟨by omega, by rw [upd_ne _ _ _ (by omega)]; exact h2⟩
    · exact ⟨by omega, by rw [upd_same]⟩

theorem call_inv {t : Nat} {s : State V} {e : Eager V} (hi : Inv t s e) (hw : s.waits = []) {i : Instr V}
    (hp : Plain i) :
    s.call t i = .blocked ∨ ∃ s' e', s.call t i = .next s' ∧ e.call i = some e' ∧ Inv t s' e' := by
  obtain ⟨c, front, β, hq, h, hwt⟩ := hi
  have ho : s.out = e.out := by
    rcases hwt with ⟨_, h⟩ | ⟨w, b, h, _⟩
    · exact h
    · rw [hw] at h; exact absurd h (by simp)
  have hl : s.locked = false := by unfold State.locked; rw [hw]; rfl
  cases i with
  | upload nm v n esz =>
    refine Or.inr ⟨_, _, rfl, rfl, c, front, (⟨nm, s.next, n, esz⟩, e.cells.length) :: β,
      ⟨hq.cur, hq.place, hq.fresh, hq.nodup, hq.comm, hq.lt⟩, ?_, Or.inl ⟨hw, ho⟩⟩
    refine (h.upload (n * esz) v).bind (Nat.lt_succ_self _) (by simp [State.newData, upd_same]) hp ?_ ?_
    · intro x hx
      have := (h.size x hx).1
      omega
    · show runAll (pend s c front) (upd s.mem s.next v) s.next = v
      rw [runAll_upd _ _ _ _ h.bound, upd_same]
  | clone a b =>
    simp only [State.call]
    cases hf : s.find a with
    | none => exact Or.inl rfl
    | some E =>
      obtain ⟨x, hx, rfl, h1, h2⟩ := find_some h hf
      refine Or.inr ⟨_, { e with env := (b, x.2) :: e.env }, rfl, by simp [Eager.call, h1], c, front,
        ({ x.1 with name := b }, x.2) :: β, ⟨hq.cur, hq.place, hq.fresh, hq.nodup, hq.comm, hq.lt⟩,
        ⟨h.bound, ?_, ?_, ?_, ?_, ?_, h.pool⟩, Or.inl ⟨hw, ho⟩⟩
      · simp only [List.map_cons, h.live]
      · simp only [List.map_cons, h.env]
      · intro y hy
        rcases List.mem_cons.mp hy with rfl | hy
        · exact h.vals x hx
        · exact h.vals y hy
      · intro y hy z hz
        rcases List.mem_cons.mp hy with rfl | hy <;> rcases List.mem_cons.mp hz with rfl | hz
        · simp
        · exact h.same x hx z hz
        · exact h.same y hy x hx
        · exact h.same y hy z hz
      · intro y hy
        rcases List.mem_cons.mp hy with rfl | hy
        · exact h.size x hx
        · exact h.size y hy
  | drop a =>
    have hsub : ∀ x, x ∈ β.eraseP (fun x => x.1.name == a) → x ∈ β := fun x hx => List.mem_of_mem_eraseP hx
    refine Or.inr ⟨_, _, rfl, rfl, c, front, β.eraseP (fun x => x.1.name == a),
      ⟨hq.cur, hq.place, hq.fresh, hq.nodup, hq.comm, hq.lt⟩,
      ⟨h.bound, ?_, ?_, fun x hx => h.vals x (hsub x hx), fun x hx y hy => h.same x (hsub x hx) y (hsub y hy),
        fun x hx => h.size x (hsub x hx), h.pool⟩, Or.inl ⟨hw, ho⟩⟩
    · simp only [h.live, List.eraseP_map]
      rfl
    · simp only [h.env, List.eraseP_map]
      rfl
  | op nm srcs f n esz =>
    simp only [State.call, hl, Bool.false_eq_true, if_false]
    cases hf : srcs.mapM s.find with
    | none => exact Or.inl rfl
    | some es =>
      obtain ⟨h1, h2⟩ := srcs_some h srcs hf
      obtain ⟨s', e1, h3⟩ := launch_inv hq h hw ho nm (es.map (·.buf)) (by
        intro b hb
        obtain ⟨E, hE, rfl⟩ := List.mem_map.mp hb
        obtain ⟨x, hx, rfl⟩ := h1 E hE
        exact ⟨x, hx, rfl⟩) f hp
      exact Or.inr ⟨s', _, e1, by simp only [Eager.call, h2]; rfl, h3⟩
  | opSync nm srcs f n esz => exact absurd hp (by simp [Plain])
  | set a f =>
    simp only [State.call, hl, Bool.false_eq_true, if_false]
    cases hf : s.find a with
    | none => exact Or.inl rfl
    | some E =>
      obtain ⟨x, hx, rfl, h1, h2⟩ := find_some h hf
      obtain ⟨s2, c2, f2, e2, hq2, hp2, hd2⟩ := commandBuffer_next hq
      obtain ⟨s3, e3, hq3, hp3, hd3⟩ := encode_next hq2 ⟨[x.1.buf], x.1.buf, f⟩
      have hsz := h.size x hx
      have hv := h.vals x hx
      refine Or.inr ⟨s3, { e with cells := e.cells.set x.2 (f [runAll (pend s c front) s.mem x.1.buf]) }, ?_, ?_, c2, f2, β, hq3, ?_, Or.inl ⟨?_, ?_⟩⟩
      · simp only [e2, Out.bind]
        rw [if_neg hsz.2.2.1]
        exact e3
      · simp only [Eager.call, h1, Option.bind_some, hv]
        rfl
      · have hh := (h.of_same hd2).of_same hd3
        rw [hp3, hp2]
        refine ⟨?_, hh.live, hh.env, ?_, hh.same, hh.size, hh.pool⟩
        · intro k' hk'
          rcases List.mem_append.mp hk' with hk' | hk'
          · exact hh.bound k' hk'
          · rw [List.mem_singleton] at hk'
            subst hk'
            have := (hh.size x hx).1
            exact ⟨this, by simpa using this⟩
        · intro y hy
          rw [runAll_snoc, hd3.mem, hd2.mem]
          by_cases hb : y.1.buf = x.1.buf
          · have := (h.same y hy x hx).mp hb
            rw [this, hb, run_dst ⟨[x.1.buf], x.1.buf, f⟩]
            rw [List.getElem?_set_self (List.getElem?_eq_some_iff.mp hv).1]
            rfl
          · rw [run_ne _ _ (by exact hb)]
            have h4 : x.2 ≠ y.2 := fun h' => hb ((h.same y hy x hx).mpr h'.symm)
            rw [List.getElem?_set_ne h4]
            exact h.vals y hy
      · rw [hd3.waits, hd2.waits]; exact hw
      · rw [hd3.out, hd2.out]; exact ho
  | read a =>
    simp only [State.call, hl, Bool.false_eq_true, if_false]
    cases hf : s.find a with
    | none => exact Or.inl rfl
    | some E =>
      obtain ⟨x, hx, rfl, h1, h2⟩ := find_some h hf
      have hsz := h.size x hx
      cases ha : s.alloc (x.1.count * x.1.esz) with
      | mk b s1 =>
      obtain ⟨a1, a2, a3, a4, a5, a6, a7, a8, a9, a10, a11⟩ := alloc_spec h hsz.2.2.2 ha
      have hq1 : Queued t s1 c front := ⟨by rw [a8]; exact hq.cur, by rw [a9, a6]; exact hq.place, hq.fresh,
        hq.nodup, by rw [a6]; exact hq.comm, by rw [a7]; exact hq.lt⟩
      have hp1 : pend s1 c front = pend s c front := by unfold pend; rw [a6]
      obtain ⟨s2, c2, f2, e2, hq2, hp2, hd2⟩ := commandBuffer_next hq1
      obtain ⟨s3, e3, hq3, hp3, hd3⟩ := encode_next hq2 ⟨[x.1.buf], b, fun vs => vs.headD (s2.mem b)⟩
      have h3 : Holds s3 (pend s3 c2 f2) β e := by
        rw [hp3, hp2, hp1]
        refine (((a1.of_same hd2).of_same hd3).snoc (k := ⟨[x.1.buf], b, fun vs => vs.headD (s2.mem b)⟩) ?_ ?_ a4)
        · simp only; rw [hd3.next, hd2.next]; exact a2
        · intro y hy
          simp only [List.mem_singleton] at hy
          rw [hd3.next, hd2.next, hy]
          exact (a1.size x hx).1
      let s4 : State V := { s3 with
        cbs := upd s3.cbs c2 ⟨.committed, (s3.cbs c2).cmds⟩
        queue := f2 ++ [c2] }
      obtain ⟨r1, r2, r3⟩ := rotate hq3 (s' := s4.newCb t) rfl
      have hwa : s3.waitAll t (some b) =
          .next { s4.newCb t with waits := ⟨t, c2, true, some b⟩ :: s3.waits } := by
        unfold State.waitAll
        rw [hq3.cur]
        have hlt := hq3.lt.1
        have hst : ((s3.newCb t).cbs c2) = s3.cbs c2 := upd_ne _ _ _ (by omega)
        have hcm : (s3.newCb t).commit c2 = .next (s4.newCb t) := by
          have hpl : ((s3.newCb t).queue = f2 ∧ ((s3.newCb t).cbs c2).status = .notEnqueued) ∨
              ((s3.newCb t).queue = f2 ++ [c2] ∧ ((s3.newCb t).cbs c2).status = .enqueued) := by
            rw [hst]; exact hq3.place
          rw [commit_next hpl hq3.fresh]
          have hfun : upd (upd s3.cbs s3.ncb ⟨.notEnqueued, []⟩) c2 ⟨.committed, ((s3.newCb t).cbs c2).cmds⟩ =
              upd (upd s3.cbs c2 ⟨.committed, (s3.cbs c2).cmds⟩) s3.ncb ⟨.notEnqueued, []⟩ := by
            rw [hst]
            funext d
            by_cases hd : d = c2
            · subst hd
              rw [upd_same, upd_ne _ _ _ (by omega), upd_same]
            · rw [upd_ne _ _ _ hd]
              by_cases hd' : d = s3.ncb
              · subst hd'; rw [upd_same, upd_same]
              · rw [upd_ne _ _ _ hd', upd_ne _ _ _ hd', upd_ne _ _ _ hd]
          show Out.next { s3.newCb t with cbs := upd (upd s3.cbs s3.ncb _) c2 _, queue := f2 ++ [c2] } = _
          rw [hfun]
          rfl
        simp only
        rw [hst]
        rcases hq3.place with ⟨_, hs⟩ | ⟨_, hs⟩
        · rw [hs]
          simp only
          rw [hcm]
          rfl
        · rw [hs]
          simp only
          rw [hcm]
          rfl
      refine Or.inr ⟨{ s4.newCb t with waits := ⟨t, c2, true, some b⟩ :: s3.waits },
        { e with out := e.out ++ [runAll (pend s c front) s.mem x.1.buf] }, ?_, ?_,
        s3.ncb, f2 ++ [c2], β, ⟨r1.cur, r1.place, r1.fresh, r1.nodup, r1.comm, r1.lt⟩, ?_, Or.inr ?_⟩
      · simp only [ha, e2, Out.bind]
        rw [if_neg (by rw [hd2.cap]; omega), e3]
        exact hwa
      · simp only [Eager.call, h2]
        rfl
      · have h5 : Holds s3 (pend (s4.newCb t) s3.ncb (f2 ++ [c2])) β e := by rw [r2]; exact h3
        exact ⟨h5.bound, h5.live, h5.env, h5.vals, h5.same, h5.size, h5.pool⟩
      · refine ⟨⟨t, c2, true, some b⟩, b, ?_, rfl, rfl, ?_, r3, Or.inl ⟨f2, rfl⟩⟩
        · simp only
          rw [hd3.waits, hd2.waits, a10, hw]
        · have h6 : runAll (pend (s4.newCb t) s3.ncb (f2 ++ [c2])) s3.mem b =
              runAll (pend s c front) s.mem x.1.buf := by
            rw [r2, hp3, runAll_snoc, hp2, hp1, hd3.mem, hd2.mem, a5]
            exact run_dst ⟨[x.1.buf], b, fun vs => vs.headD (s2.mem b)⟩ _
          show e.out ++ [_] = s3.out ++ [runAll (pend (s4.newCb t) s3.ncb (f2 ++ [c2])) s3.mem b]
          rw [h6, hd3.out, hd2.out, a11, ho]

theorem gpu_inv {t : Nat} {s s' : State V} {e : Eager V} (hi : Inv t s e) (hs : s.gpu = .next s') : Inv t s' e := by
  obtain ⟨c, front, β, hq, h, hwt⟩ := hi
  unfold State.gpu at hs
  cases front with
  | nil =>
    rcases hq.place with ⟨h1, h2⟩ | ⟨h1, h2⟩
    · rw [h1] at hs
      exact absurd hs (by simp)
    · rw [h1, List.nil_append] at hs
      simp only [h2] at hs
      exact absurd hs (by simp)
  | cons d fs =>
    have hque : s.queue = d :: (if (s.cbs c).status = .notEnqueued then fs else fs ++ [c]) := by
      rcases hq.place with ⟨h1, h2⟩ | ⟨h1, h2⟩
      · rw [h1, h2]; rfl
      · rw [h1, h2]; rfl
    have hdc : d ≠ c := fun h => hq.fresh (h ▸ .head _)
    have hdf : d ∉ fs := (List.nodup_cons.mp hq.nodup).1
    have hd := hq.comm d (.head _)
    rw [hque] at hs
    simp only [hd] at hs
    cases hc : (s.cbs d).cmds with
    | cons k ks =>
      rw [hc] at hs
      simp only at hs
      have hs := (Out.next.inj hs).symm
      have hcbs : ∀ x, x ≠ d → s'.cbs x = s.cbs x := fun x hx => by rw [hs]; exact upd_ne _ _ _ hx
      have hcd : s'.cbs d = ⟨.committed, ks⟩ := by rw [hs]; exact upd_same _ _ _
      have hfs : ∀ x ∈ fs, s'.cbs x = s.cbs x := fun x hx => hcbs x (fun h => hdf (h ▸ hx))
      have hfl : fs.flatMap (fun d => (s'.cbs d).cmds) = fs.flatMap (fun d => (s.cbs d).cmds) :=
        List.flatMap_congr fun x hx => by rw [hfs x hx]
      have hpe : pend s c (d :: fs) = k :: pend s' c (d :: fs) := by
        unfold pend
        rw [List.flatMap_cons, List.flatMap_cons, hc, hcd, hcbs c hdc.symm,
          hfl]
        simp
      have hrun : ∀ b, runAll (pend s' c (d :: fs)) s'.mem b = runAll (pend s c (d :: fs)) s.mem b := by
        intro b
        rw [hpe, hs]
        rfl
      refine ⟨c, d :: fs, β, ⟨by rw [hs]; exact hq.cur, ?_, hq.fresh, hq.nodup, ?_, by rw [hs]; exact hq.lt⟩,
        ⟨?_, by rw [hs]; exact h.live, h.env, ?_, h.same, by rw [hs]; exact h.size, by rw [hs]; exact h.pool⟩, ?_⟩
      · rw [hcbs c hdc.symm, show s'.queue = s.queue by rw [hs, hque]]
        exact hq.place
      · intro x hx
        rcases List.mem_cons.mp hx with rfl | hx
        · rw [hcd]
        · rw [hfs x hx]; exact hq.comm x (.tail _ hx)
      · intro k' hk'
        have := h.bound k' (by rw [hpe]; exact .tail _ hk')
        rw [hs]
        exact this
      · intro x hx
        rw [hrun]
        exact h.vals x hx
      · rcases hwt with ⟨h1, h2⟩ | ⟨w, b, h1, h2, h3, h4, h5, h6⟩
        · exact Or.inl ⟨by rw [hs]; exact h1, by rw [hs]; exact h2⟩
        · refine Or.inr ⟨w, b, by rw [hs]; exact h1, h2, h3, ?_, by rw [hcbs c hdc.symm]; exact h5, ?_⟩
          · rw [hrun, h4, hs]
          · rcases h6 with h6 | ⟨h6, _⟩
            · exact Or.inl h6
            · exact absurd h6 (by simp)
    | nil =>
      rw [hc] at hs
      simp only at hs
      have hs := (Out.next.inj hs).symm
      have hcbs : ∀ x, x ≠ d → s'.cbs x = s.cbs x := fun x hx => by rw [hs]; exact upd_ne _ _ _ hx
      have hcd : s'.cbs d = ⟨.completed, []⟩ := by rw [hs]; exact upd_same _ _ _
      have hfs : ∀ x ∈ fs, s'.cbs x = s.cbs x := fun x hx => hcbs x (fun h => hdf (h ▸ hx))
      have hfl : fs.flatMap (fun d => (s'.cbs d).cmds) = fs.flatMap (fun d => (s.cbs d).cmds) :=
        List.flatMap_congr fun x hx => by rw [hfs x hx]
      have hpe : pend s c (d :: fs) = pend s' c fs := by
        unfold pend
        rw [List.flatMap_cons, hc, hcbs c hdc.symm, List.nil_append,
          hfl]
      have hrun : ∀ b, runAll (pend s' c fs) s'.mem b = runAll (pend s c (d :: fs)) s.mem b := by
        intro b
        rw [hpe, hs]
      refine ⟨c, fs, β, ⟨by rw [hs]; exact hq.cur, ?_, fun h => hq.fresh (.tail _ h), (List.nodup_cons.mp hq.nodup).2, ?_,
        by rw [hs]; exact ⟨hq.lt.1, fun x hx => hq.lt.2 x (.tail _ hx)⟩⟩,
        ⟨?_, by rw [hs]; exact h.live, h.env, ?_, h.same, by rw [hs]; exact h.size, by rw [hs]; exact h.pool⟩, ?_⟩
      · rw [hcbs c hdc.symm, hs]
        simp only
        rcases hq.place with ⟨_, h2⟩ | ⟨_, h2⟩
        · exact Or.inl ⟨by rw [h2]; rfl, h2⟩
        · exact Or.inr ⟨by rw [h2]; rfl, h2⟩
      · intro x hx
        rw [hfs x hx]; exact hq.comm x (.tail _ hx)
      · intro k' hk'
        have := h.bound k' (by rw [hpe]; exact hk')
        rw [hs]
        exact this
      · intro x hx
        rw [hrun]
        exact h.vals x hx
      · rcases hwt with ⟨h1, h2⟩ | ⟨w, b, h1, h2, h3, h4, h5, h6⟩
        · exact Or.inl ⟨by rw [hs]; exact h1, by rw [hs]; exact h2⟩
        · refine Or.inr ⟨w, b, by rw [hs]; exact h1, h2, h3, ?_, by rw [hcbs c hdc.symm]; exact h5, ?_⟩
          · rw [hrun, h4, hs]
          · rcases h6 with ⟨pre, h6⟩ | ⟨h6, _⟩
            · rcases pre with _ | ⟨p, pre⟩
              · rw [List.nil_append] at h6
                obtain ⟨h7, h8⟩ := List.cons.inj h6
                exact Or.inr ⟨h8, by rw [← h7, hcd], by rw [← h7]; exact hdc⟩
              · rw [List.cons_append] at h6
                exact Or.inl ⟨pre, (List.cons.inj h6).2⟩
            · exact absurd h6 (by simp)

theorem resume_inv {t t' : Nat} {s s' : State V} {e : Eager V} (hi : Inv t s e) (hs : s.resume t' = .next s') :
    Inv t s' e ∧ s'.waits = [] := by
  obtain ⟨c, front, β, hq, h, hwt⟩ := hi
  unfold State.resume at hs
  rcases hwt with ⟨h1, h2⟩ | ⟨w, b, h1, h2, h3, h4, h5, h6⟩
  · rw [h1] at hs
    exact absurd hs (by simp)
  · rw [h1] at hs
    by_cases ht : w.tid = t'
    · have hb : (w.tid == t') = true := by simpa using ht
      simp only [List.find?_cons, hb] at hs
      cases hst : (s.cbs w.cb).status with
      | completed =>
        rw [hst] at hs
        simp only [List.eraseP_cons, hb, cond_true, h3] at hs
        have hs := (Out.next.inj hs).symm
        have hfr : front = [] := by
          rcases h6 with ⟨pre, h6⟩ | ⟨h6, _⟩
          · have := hq.comm w.cb (by rw [h6]; simp)
            rw [hst] at this
            exact absurd this (by simp)
          · exact h6
        have hpe : pend s c front = [] := by
          rw [hfr]
          exact h5
        have hpe' : pend s' c front = pend s c front := by unfold pend; rw [hs]
        refine ⟨⟨c, front, β, by rw [hs]; exact ⟨hq.cur, hq.place, hq.fresh, hq.nodup, hq.comm, hq.lt⟩, ?_,
          Or.inl ⟨by rw [hs], ?_⟩⟩, by rw [hs]⟩
        · rw [hpe', hs]
          exact ⟨h.bound, h.live, h.env, h.vals, h.same, h.size, h.pool⟩
        · rw [hs, h4, hpe]
          rfl
      | committed => rw [hst] at hs; exact absurd hs (by simp)
      | enqueued => rw [hst] at hs; exact absurd hs (by simp)
      | notEnqueued => rw [hst] at hs; exact absurd hs (by simp)
    · have hb : (w.tid == t') = false := by simpa using ht
      simp only [List.find?_cons, hb, List.find?_nil] at hs
      exact absurd hs (by simp)

theorem gpu_no_fault (s : State V) : s.gpu ≠ .fault := by
  unfold State.gpu
  cases s.queue with
  | nil => simp
  | cons c q =>
    simp only
    cases (s.cbs c).status with
    | committed => cases (s.cbs c).cmds <;> simp
    | _ => simp

theorem resume_no_fault (s : State V) (t : Nat) : s.resume t ≠ .fault := by
  unfold State.resume
  cases s.waits.find? (fun w => w.tid == t) with
  | none => simp
  | some w =>
    simp only
    cases (s.cbs w.cb).status <;> simp

theorem exec_inv (t : Nat) (evs : List (Event V)) (h1 : OneThread t evs) (s : State V) (e : Eager V)
    (hi : Inv t s e) :
    exec evs s ≠ .fault ∧ ∀ s', exec evs s = .next s' → ∃ e', eager (calls evs) e = some e' ∧ Inv t s' e' := by
  induction evs generalizing s e with
  | nil => exact ⟨by simp [exec], fun s' h => ⟨e, rfl, by obtain rfl := Out.next.inj h; exact hi⟩⟩
  | cons ev evs ih =>
    have ho : OneThread t evs := fun t' i h => h1 t' i (.tail _ h)
    have ih := fun s e hi => ih ho s e hi
    unfold exec
    cases ev with
    | gpu =>
      cases hg : s.gpu with
      | next s1 =>
        simp only [State.step, hg, Out.bind]
        exact ih s1 e (gpu_inv hi hg)
      | blocked => simp [State.step, hg, Out.bind]
      | fault => exact absurd hg (gpu_no_fault s)
    | resume t' =>
      cases hg : s.resume t' with
      | next s1 =>
        simp only [State.step, hg, Out.bind]
        exact ih s1 e (resume_inv hi hg).1
      | blocked => simp [State.step, hg, Out.bind]
      | fault => exact absurd hg (resume_no_fault s t')
    | host t' i =>
      obtain ⟨rfl, hp⟩ := h1 t' i (.head _)
      by_cases hw : s.waits = []
      · rcases call_inv hi hw hp with hc | ⟨s1, e1, hc, he, hi1⟩
        · simp [State.step, hw, hc, Out.bind]
        · simp only [State.step, hw, List.any_nil, Bool.false_eq_true, if_false, hc, Out.bind]
          obtain ⟨h2, h3⟩ := ih s1 e1 hi1
          refine ⟨h2, fun s' hs' => ?_⟩
          obtain ⟨e', h4, h5⟩ := h3 s' hs'
          refine ⟨e', ?_, h5⟩
          show (e.call i).bind (eager (calls evs)) = some e'
          rw [he]
          exact h4
      · have hb : s.waits.any (fun w => w.tid == t') = true := by
          obtain ⟨c, front, β, hq, h, ⟨h2, _⟩ | ⟨w, b, h2, h3, _⟩⟩ := hi
          · exact absurd h2 hw
          · rw [h2]
            simp [h3]
        simp [State.step, hb, Out.bind]

/-- **C120, reads.**  Calls of one thread that leave the shared command buffer alone and have good sizes:
whatever the GPU has executed when, no contract is broken, and the values read back are those of eager
execution, although buffers are reused while commands that read them are pending.  (Full claim: for all
threads, operations and sizes; see the refutations below.) -/
theorem C120_reads_partial (t : Nat) (mem : Nat → V) (evs : List (Event V)) (h : OneThread t evs) :
    exec evs (init t mem) ≠ .fault ∧
    ∀ s, exec evs (init t mem) = .next s →
      ∃ e, eager (calls evs) Eager.empty = some e ∧ s.out <+: e.out ∧ (s.waits = [] → s.out = e.out) := by
  obtain ⟨h1, h2⟩ := exec_inv t evs h _ _ (init_inv t mem)
  refine ⟨h1, fun s hs => ?_⟩
  obtain ⟨e, he, c, front, β, hq, hh, ⟨h3, h4⟩ | ⟨w, b, h3, _, _, h4, _⟩⟩ := h2 s hs
  · exact ⟨e, he, h4 ▸ List.prefix_refl _, fun _ => h4⟩
  · exact ⟨e, he, by rw [h4]; exact List.prefix_append _ _, fun h5 => by rw [h3] at h5; exact absurd h5 (by simp)⟩

/-- What the GPU has left to do. -/
def work (s : State V) : Nat := (s.queue.map (fun d => (s.cbs d).cmds.length + 1)).sum

theorem gpu_work {s : State V} {d : Nat} {q : List Nat} (hs : s.queue = d :: q) (hd : d ∉ q)
    (hc : (s.cbs d).status = .committed) : ∃ s', s.gpu = .next s' ∧ work s' < work s ∧ s'.waits = s.waits := by
  unfold State.gpu
  rw [hs]
  simp only [hc]
  have hq : ∀ (x : CB V), q.map (fun y => (upd s.cbs d x y).cmds.length + 1) =
      q.map (fun y => (s.cbs y).cmds.length + 1) := fun x =>
    List.map_congr_left fun y hy => by
      have hy' : y ≠ d := fun h => hd (h ▸ hy)
      rw [upd_ne _ _ _ hy']
  cases hk : (s.cbs d).cmds with
  | nil =>
    refine ⟨_, rfl, ?_, rfl⟩
    unfold work
    simp only
    rw [hs, hq, List.map_cons, List.sum_cons]
    omega
  | cons k ks =>
    refine ⟨_, rfl, ?_, rfl⟩
    unfold work
    simp only
    rw [hs, List.map_cons, List.map_cons, List.sum_cons, List.sum_cons, hq, upd_same, hk]
    simp only [List.length_cons]
    omega

theorem exec_append (es fs : List (Event V)) (s : State V) :
    exec (es ++ fs) s = (exec es s).bind (exec fs) := by
  induction es generalizing s with
  | nil => rfl
  | cons e es ih =>
    show (s.step e).bind (exec (es ++ fs)) = ((s.step e).bind (exec es)).bind (exec fs)
    cases s.step e with
    | next s1 => exact ih s1
    | blocked => rfl
    | fault => rfl

theorem drain (t : Nat) (n : Nat) (s : State V) (e : Eager V) (hi : Inv t s e) (hn : work s ≤ n) (hw : s.waits ≠ []) :
    ∃ k s', exec (List.replicate k .gpu ++ [.resume t]) s = .next s' ∧ s'.waits = [] := by
  induction n using Nat.strongRecOn generalizing s with
  | _ n ih =>
    have hi' := hi
    obtain ⟨c, front, β, hq, h, ⟨h1, _⟩ | ⟨w, b, h1, h2, h3, h4, h5, h6⟩⟩ := hi'
    · exact absurd h1 hw
    · have done : (s.cbs w.cb).status = .completed → ∃ s', s.resume t = .next s' := by
        intro hst
        unfold State.resume
        rw [h1]
        simp only [List.find?_cons, h2, beq_self_eq_true, hst]
        exact ⟨_, rfl⟩
      rcases h6 with ⟨pre, h6⟩ | ⟨h6, h7, _⟩
      · obtain ⟨d, fs, hfs⟩ : ∃ d fs, front = d :: fs := by
          rcases pre with _ | ⟨p, pre⟩
          · exact ⟨_, _, h6⟩
          · exact ⟨_, _, h6⟩
        have hd : d ∈ front := by rw [hfs]; exact .head _
        obtain ⟨q, hque, hdq⟩ : ∃ q, s.queue = d :: q ∧ d ∉ q := by
          have hdf : d ∉ fs := by have := hq.nodup; rw [hfs] at this; exact (List.nodup_cons.mp this).1
          rcases hq.place with ⟨h7, _⟩ | ⟨h7, _⟩
          · exact ⟨fs, by rw [h7, hfs], hdf⟩
          · refine ⟨fs ++ [c], by rw [h7, hfs]; rfl, ?_⟩
            rw [List.mem_append, List.mem_singleton]
            rintro (h8 | h8)
            · exact hdf h8
            · exact hq.fresh (h8 ▸ hd)
        obtain ⟨s1, g1, g2, g3⟩ := gpu_work hque hdq (hq.comm d hd)
        obtain ⟨k, s', hk, hk'⟩ := ih (work s1) (by omega) s1 (gpu_inv hi g1) (Nat.le_refl _) (by rw [g3]; exact hw)
        refine ⟨k + 1, s', ?_, hk'⟩
        rw [List.replicate_succ, List.cons_append]
        show (s.gpu).bind _ = _
        rw [g1]
        exact hk
      · obtain ⟨s', hs'⟩ := done h7
        refine ⟨0, s', ?_, (resume_inv hi hs').2⟩
        show (s.resume t).bind _ = _
        rw [hs']
        rfl

/-- **C120, progress.**  A read of such a thread always ends: from every state reached the GPU can run
until the wait is over. -/
theorem C120_progress (t : Nat) (mem : Nat → V) (evs : List (Event V)) (h : OneThread t evs) (s : State V)
    (hs : exec evs (init t mem) = .next s) (hw : s.waits ≠ []) :
    ∃ k s', exec (evs ++ (List.replicate k .gpu ++ [.resume t])) (init t mem) = .next s' ∧ s'.waits = [] := by
  obtain ⟨e, _, hi⟩ := (exec_inv t evs h _ _ (init_inv t mem)).2 s hs
  obtain ⟨k, s', h1, h2⟩ := drain t _ s e hi (Nat.le_refl _) hw
  refine ⟨k, s', ?_, h2⟩
  rw [exec_append, hs]
  exact h1

/-- The values read, if the run did not stop. -/
def Out.vals : Out V → Option (List V)
  | .next s => some s.out
  | _ => none

/-- Does a run break a contract? -/
def Out.isFault : Out V → Bool
  | .fault => true
  | _ => false

/-- A program of one thread: the buffer of a dropped tensor is reused by the second operation while the
first, which reads it, is pending. -/
def exOne : List (Event Nat) :=
  [.host 0 (.upload 0 5 3 4), .host 0 (.op 1 [0] List.sum 3 4), .host 0 (.drop 0),
   .host 0 (.op 2 [1, 1] List.sum 3 4), .host 0 (.set 2 (fun vs => vs.sum + 1)), .host 0 (.read 2)]

theorem exOne_plain : OneThread 0 exOne := by
  have hg : GoodSize 3 4 := C120_size_by_element 3 4 (by decide) (Or.inl (by decide))
  intro t i h
  simp only [exOne, List.mem_cons, Event.host.injEq, List.not_mem_nil, or_false] at h
  rcases h with ⟨rfl, rfl⟩ | ⟨rfl, rfl⟩ | ⟨rfl, rfl⟩ | ⟨rfl, rfl⟩ | ⟨rfl, rfl⟩ | ⟨rfl, rfl⟩ <;>
    first | exact ⟨rfl, hg⟩ | exact ⟨rfl, trivial⟩

example : (exec (exOne ++ [.gpu, .gpu, .gpu, .gpu, .gpu, .resume 0]) (init 0 (fun _ => 99))).vals = some [11] ∧
    (eager (calls exOne) Eager.empty).map (·.out) = some [11] := by
  decide

/-! ## Refutations -/

/-- **C120, operations that commit.**  After an operation that commits the command buffer itself (flip,
cumsum, topk, einsum, resize, nonzero, unique, compress) the thread's command buffer is a committed one,
and the next operation or read of the thread breaks the contract of Metal: in every state with a
committed command buffer. -/
theorem C120_sync_stuck (t : Nat) (s : State V) (c : Nat) (hc : s.cur t = some c)
    (hst : (s.cbs c).status = .committed ∨ (s.cbs c).status = .completed) (hl : s.locked = false) :
    (∀ h srcs f n esz, (srcs.mapM s.find).isSome → s.call t (.op h srcs f n esz) = .fault) ∧
    (∀ h f, (s.find h).isSome → s.call t (.set h f) = .fault) ∧
    (∀ h, (s.find h).isSome → s.call t (.read h) = .fault) := by
  have henc : ∀ (s' : State V) k, s'.cur t = some c →
      ((s'.cbs c).status = .committed ∨ (s'.cbs c).status = .completed) → s'.encode t k = .fault := by
    intro s' k h1 h2
    unfold State.encode
    rw [h1]
    simp only
    rcases h2 with h2 | h2 <;> rw [h2]
  have hcb : ∀ s' : State V, s'.cur t = some c →
      ((s'.cbs c).status = .committed ∨ (s'.cbs c).status = .completed) →
      s'.commandBuffer t = .fault ∨ ∃ s2, s'.commandBuffer t = .next s2 ∧ s2.cur t = some c ∧ s2.cbs = s'.cbs := by
    intro s' h1 h2
    have he : s'.ensureCb t = s' := by unfold State.ensureCb; rw [h1]
    unfold State.commandBuffer
    simp only [he]
    split
    · left
      rw [h1]
      simp only [State.commit]
      rcases h2 with h2 | h2 <;> rw [h2] <;> rfl
    · exact Or.inr ⟨_, rfl, h1, rfl⟩
  have hal : ∀ size, (s.alloc size).2.cur = s.cur ∧ (s.alloc size).2.cbs = s.cbs := by
    intro size
    unfold State.alloc
    split <;> exact ⟨rfl, rfl⟩
  refine ⟨fun h srcs f n esz hs => ?_, fun h f hs => ?_, fun h hs => ?_⟩
  · obtain ⟨es, hs⟩ := Option.isSome_iff_exists.mp hs
    simp only [State.call, hl, Bool.false_eq_true, if_false, hs, State.launch]
    obtain ⟨g1, g2⟩ := hal (n * esz)
    rcases hcb (s.alloc (n * esz)).2 (by rw [g1]; exact hc) (by rw [g2]; exact hst) with h1 | ⟨s2, h1, h2, h3⟩
    · rw [h1]; rfl
    · rw [h1]
      simp only [Out.bind]
      rw [henc s2 _ h2 (by rw [h3, g2]; exact hst)]
      split
      · rfl
      · split <;> rfl
  · obtain ⟨e, hs⟩ := Option.isSome_iff_exists.mp hs
    simp only [State.call, hl, Bool.false_eq_true, if_false, hs]
    rcases hcb s hc hst with h1 | ⟨s2, h1, h2, h3⟩
    · rw [h1]; rfl
    · rw [h1]
      simp only [Out.bind]
      rw [henc s2 _ h2 (by rw [h3]; exact hst)]
      split <;> rfl
  · obtain ⟨e, hs⟩ := Option.isSome_iff_exists.mp hs
    simp only [State.call, hl, Bool.false_eq_true, if_false, hs]
    obtain ⟨g1, g2⟩ := hal (e.count * e.esz)
    rcases hcb (s.alloc (e.count * e.esz)).2 (by rw [g1]; exact hc) (by rw [g2]; exact hst) with h1 | ⟨s2, h1, h2, h3⟩
    · rw [h1]; rfl
    · rw [h1]
      simp only [Out.bind]
      rw [henc s2 _ h2 (by rw [h3, g2]; exact hst)]
      split <;> rfl

/-- A flip whose result is read back: one thread, sizes are good. -/
def exFlip : List (Event Nat) :=
  [.host 0 (.upload 0 5 3 4), .host 0 (.opSync 1 [0] List.sum 3 4), .gpu, .gpu, .resume 0]

example : ((exec exFlip (init 0 (fun _ => 99))).vals = some []) := by decide

/-- **C120 is false for operations that commit**: reading the result of a flip back breaks the contract,
whereas eager execution gives its value. -/
theorem C120_sync_false : (exec (exFlip ++ [.host 0 (.read 1)]) (init 0 (fun _ => 99))).isFault = true ∧
    (eager (calls (exFlip ++ [.host 0 (.read 1)])) Eager.empty).map (·.out) = some [5] := by
  decide

/-- **C120 is false for two threads**: thread 1 reads a tensor thread 0 computed and gets what was in the
buffer before, because it waits for its own command buffer only (the device was created by thread 1). -/
theorem C120_threads_false :
    let evs : List (Event Nat) := [.host 0 (.upload 0 5 3 4), .host 0 (.op 1 [0] List.sum 3 4),
      .host 1 (.read 1), .gpu, .gpu, .resume 1]
    (exec evs (init 1 (fun _ => 99))).vals = some [99] ∧
    (eager (calls evs) Eager.empty).map (·.out) = some [5] := by
  decide

/-- **C120 is false for two threads also when each uses its own tensors only**: thread 1 is given the
buffer of a tensor thread 0 dropped, and writes it before thread 0's pending operation has read it. -/
theorem C120_reuse_false :
    let evs : List (Event Nat) := [.host 0 (.upload 0 5 4 4), .host 0 (.op 1 [0] List.sum 4 4), .host 0 (.drop 0),
      .host 1 (.upload 2 7 4 4), .host 1 (.op 3 [2] List.sum 4 4), .host 1 (.read 3),
      .gpu, .gpu, .gpu, .resume 1, .host 0 (.read 1), .gpu, .gpu, .gpu, .resume 0]
    (exec evs (init 1 (fun _ => 99))).vals = some [7, 7] ∧
    (eager (calls evs) Eager.empty).map (·.out) = some [7, 5] := by
  decide

/-- **C120 is false for sizes one above a power of two**: a boolean tensor of five elements is written
into a buffer of four bytes. -/
theorem C120_small_false :
    (exec [.host 0 (.upload 0 5 5 1), .host 0 (.op 1 [0] List.sum 5 1)] (init 0 (fun _ => 99))).isFault = true := by
  decide

/-- **C120 is false for empty tensors**: the launch of every kernel divides by zero. -/
theorem C120_empty_false :
    (exec [.host 0 (.upload 0 5 0 4), .host 0 (.op 1 [0] List.sum 0 4)] (init 0 (fun _ => 99))).isFault = true := by
  decide

/-- Thread 1 waits with the lock for command buffer 1, behind command buffer 0, which has the first place
and was not committed. -/
structure Dead (s : State V) : Prop where
  head : ∃ q, s.queue = 0 :: q
  open0 : (s.cbs 0).status = .enqueued
  waits : s.waits = [⟨1, 1, true, some 1⟩]
  st1 : (s.cbs 1).status = .committed

theorem dead_step {s s' : State V} (hd : Dead s) (ev : Event V) (hs : s.step ev = .next s') : Dead s' := by
  obtain ⟨q, hq⟩ := hd.head
  have hl : s.locked = true := by unfold State.locked; rw [hd.waits]; rfl
  cases ev with
  | gpu =>
    simp only [State.step, State.gpu, hq, hd.open0] at hs
    exact absurd hs (by simp)
  | resume t =>
    simp only [State.step, State.resume, hd.waits, List.find?_cons] at hs
    cases ht : ((1 : Nat) == t) with
    | true =>
      rw [ht] at hs
      simp only [hd.st1] at hs
      exact absurd hs (by simp)
    | false =>
      rw [ht] at hs
      simp only [List.find?_nil] at hs
      exact absurd hs (by simp)
  | host t i =>
    unfold State.step at hs
    simp only at hs
    split at hs
    · exact absurd hs (by simp)
    · cases i with
      | upload h v n esz =>
        have hs := (Out.next.inj hs).symm
        rw [hs]
        exact ⟨⟨q, hq⟩, hd.open0, hd.waits, hd.st1⟩
      | clone a b =>
        simp only [State.call] at hs
        cases hf : s.find a with
        | none => rw [hf] at hs; exact absurd hs (by simp)
        | some E =>
          rw [hf] at hs
          have hs := (Out.next.inj hs).symm
          rw [hs]
          exact ⟨⟨q, hq⟩, hd.open0, hd.waits, hd.st1⟩
      | drop a =>
        have hs := (Out.next.inj hs).symm
        rw [hs]
        exact ⟨⟨q, hq⟩, hd.open0, hd.waits, hd.st1⟩
      | op h srcs f n esz => simp only [State.call, hl, if_true] at hs; exact absurd hs (by simp)
      | opSync h srcs f n esz => simp only [State.call, hl, if_true] at hs; exact absurd hs (by simp)
      | set h f => simp only [State.call, hl, if_true] at hs; exact absurd hs (by simp)
      | read h => simp only [State.call, hl, if_true] at hs; exact absurd hs (by simp)

theorem dead_exec {s : State V} (hd : Dead s) (evs : List (Event V)) (s' : State V) (hs : exec evs s = .next s') :
    Dead s' := by
  induction evs generalizing s with
  | nil => obtain rfl := Out.next.inj hs; exact hd
  | cons e es ih =>
    unfold exec at hs
    cases h1 : s.step e with
    | next s1 =>
      rw [h1] at hs
      exact ih (dead_step hd e h1) hs
    | blocked => rw [h1] at hs; exact absurd hs (by simp [Out.bind])
    | fault => rw [h1] at hs; exact absurd hs (by simp [Out.bind])

/-- **C120, progress is false for two threads**: when the device was created by thread 0, a read back by
thread 1 never ends, whatever the threads and the GPU do afterwards.  The command buffer created with the
device has the first place in the queue, thread 1 waits behind it with the lock thread 0 needs to commit
it. -/
theorem C120_deadlock : ∃ s : State Nat,
    exec [.host 1 (.upload 0 5 3 4), .host 1 (.read 0)] (init 0 (fun _ => 99)) = .next s ∧
    ∀ evs s', exec evs s = .next s' → s'.waits = [⟨1, 1, true, some 1⟩] := by
  refine ⟨_, rfl, fun evs s' hs => ?_⟩
  have hd := dead_exec (s := _) ⟨⟨[1], rfl⟩, rfl, rfl, rfl⟩ evs s' hs
  exact hd.waits

end Hodu.Metal
