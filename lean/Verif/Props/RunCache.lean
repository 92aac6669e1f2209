import Verif.Model.RunCache

/-!
# C119: the cached library of a run
-/

namespace Hodu.RunCache

variable {H : Type} [DecidableEq H]

/-! ## Specifications -/

/-- No two different inputs of the hash that occur have the same hash: the contents `C` followed by
the known targets. -/
def Spec.NoCollision (hash : List Char → H) (C : List Char → Prop) : Prop :=
  ∀ c t c' t', C c → C c' → t ∈ triples → t' ∈ triples → hash (c ++ t) = hash (c' ++ t') →
    c ++ t = c' ++ t'

/-- The process still needs its model file. -/
def Spec.Reads (s : State H) (path : Nat) : Prop :=
  ∃ p r c, (s.procs p = some (.hashed r c) ∨ s.procs p = some (.building r c)) ∧ r.path = path

/-- A history in which requests are of the kind `R`, contents of the kind `C`, libraries appear in
one step, and no model file changes while a run still has to read it; without upgrades if `fixed`,
without cleaning if `kept`. -/
def Spec.Calm (hash : List Char → H) (C : List Char → Prop) (R : Request → Prop)
    (fixed kept : Prop) : State H → List Event → Prop
  | _, [] => True
  | s, e :: es =>
    (match e with
      | .start _ r => R r ∧ r.triple ∈ triples
      | .unfinished _ => False
      | .edit path c => C c ∧ ¬ Spec.Reads s path
      | .upgrade _ => ¬ fixed
      | .clean _ => ¬ kept
      | _ => True) ∧ Spec.Calm hash C R fixed kept (step hash s e).1 es

/-- Nothing cached and nothing running. -/
def Spec.Fresh (C : List Char → Prop) (s : State H) : Prop :=
  (∀ b k, s.cache b k = none) ∧ (∀ p, s.procs p = none) ∧ ∀ i, C (s.files i)

/-- The library is the one of the request: built by the installed backend from the content that was
read, for the target and the device of the request, and finished. -/
def Spec.Right (u : Use) : Prop :=
  u.lib = some ⟨u.content, u.req.triple, u.req.device, u.version, true⟩

/-! ## Keys -/

theorem suffix_free : ∀ t ∈ triples, ∀ t' ∈ triples, t <:+ t' → t = t' := by decide

/-- Content and target are determined by what is hashed. -/
theorem hashed_inj {c t c' t' : List Char} (ht : t ∈ triples) (ht' : t' ∈ triples)
    (h : c ++ t = c' ++ t') : c = c' ∧ t = t' := by
  have : t = t' := by
    have h1 : t <:+ c' ++ t' := ⟨c, h⟩
    have h2 : t' <:+ c' ++ t' := ⟨c', rfl⟩
    rcases List.suffix_or_suffix_of_suffix h1 h2 with h | h
    · exact suffix_free t ht t' ht' h
    · exact (suffix_free t' ht' t ht h).symm
  subst this
  exact ⟨List.append_cancel_right h, rfl⟩

/-! ## The invariant -/

/-- What stays true of the machine. -/
structure Inv (hash : List Char → H) (C : List Char → Prop) (R : Request → Prop)
    (fixed kept : Prop) (s : State H) : Prop where
  files : ∀ i, C (s.files i)
  cache : ∀ b k l, s.cache b k = some l →
    k = key hash l.content l.triple ∧ C l.content ∧ l.triple ∈ triples ∧ l.complete = true ∧
      l.version ≤ s.version b ∧ (fixed → l.version = s.version b) ∧
      ∃ r, R r ∧ r.backend = b ∧ r.device = l.device
  reads : ∀ p r c, s.procs p = some (.hashed r c) ∨ s.procs p = some (.building r c) →
    s.files r.path = c
  procs : ∀ p r c, s.procs p = some (.hashed r c) ∨ s.procs p = some (.building r c) ∨
    s.procs p = some (.ready r c) → R r ∧ r.triple ∈ triples ∧ C c
  ready : kept → ∀ p r c, s.procs p = some (.ready r c) →
    s.cache r.backend (key hash c r.triple) ≠ none

variable {hash : List Char → H} {C : List Char → Prop} {R : Request → Prop} {fixed kept : Prop}
  {s : State H}

omit [DecidableEq H] in
theorem inv_fresh (h : Spec.Fresh C s) : Inv hash C R fixed kept s where
  files := h.2.2
  cache := fun b k l e => by rw [h.1] at e; cases e
  reads := fun p r c e => by rw [h.2.1] at e; simp at e
  procs := fun p r c e => by rw [h.2.1] at e; simp at e
  ready := fun _ p r c e => by rw [h.2.1] at e; simp at e

theorem upd_same {α β : Type} [DecidableEq α] (f : α → β) (a : α) (b : β) : upd f a b a = b := by
  simp [upd]

theorem upd_other {α β : Type} [DecidableEq α] (f : α → β) {a x : α} (b : β) (h : x ≠ a) :
    upd f a b x = f x := by simp [upd, h]

omit [DecidableEq H] in
/-- Only the table of processes changes, at one place. -/
theorem inv_proc (h : Inv hash C R fixed kept s) (p : Nat) (x : Option Phase)
    (h1 : ∀ r c, x = some (.hashed r c) ∨ x = some (.building r c) → s.files r.path = c)
    (h2 : ∀ r c, x = some (.hashed r c) ∨ x = some (.building r c) ∨ x = some (.ready r c) →
      R r ∧ r.triple ∈ triples ∧ C c)
    (h3 : kept → ∀ r c, x = some (.ready r c) → s.cache r.backend (key hash c r.triple) ≠ none) :
    Inv hash C R fixed kept { s with procs := upd s.procs p x } where
  files := h.files
  cache := h.cache
  reads := fun q r c e => by
    by_cases hq : q = p
    · subst hq
      simp only [upd_same] at e
      exact h1 r c e
    · simp only [upd_other _ _ hq] at e
      exact h.reads q r c e
  procs := fun q r c e => by
    by_cases hq : q = p
    · subst hq
      simp only [upd_same] at e
      exact h2 r c e
    · simp only [upd_other _ _ hq] at e
      exact h.procs q r c e
  ready := fun hk q r c e => by
    by_cases hq : q = p
    · subst hq
      simp only [upd_same] at e
      exact h3 hk r c e
    · simp only [upd_other _ _ hq] at e
      exact h.ready hk q r c e

theorem inv_store (h : Inv hash C R fixed kept s) {r : Request} {c : List Char} (hr : R r)
    (ht : r.triple ∈ triples) (hc : s.files r.path = c) :
    Inv hash C R fixed kept (s.store hash r c true) ∧
      (s.store hash r c true).cache r.backend (key hash c r.triple) ≠ none := by
  have hget : ∀ b k, (s.store hash r c true).cache b k =
      if b = r.backend ∧ k = key hash c r.triple then some (libOf s r true) else s.cache b k := by
    intro b k
    by_cases h1 : b = r.backend
    · subst h1
      by_cases h2 : k = key hash c r.triple <;> simp [State.store, upd, h2]
    · simp [State.store, upd, h1]
  refine ⟨⟨h.files, fun b k l e => ?_, h.reads, h.procs, fun hk p r' c' e => ?_⟩, ?_⟩
  · rw [hget] at e
    split at e
    · rename_i hbk
      obtain rfl := Option.some.inj e
      refine ⟨?_, ?_, ht, rfl, ?_, fun _ => ?_, r, hr, hbk.1.symm, rfl⟩
      · rw [hbk.2, ← hc]; rfl
      · exact h.files _
      · rw [hbk.1]; exact Nat.le_refl _
      · rw [hbk.1]; rfl
    · exact h.cache b k l e
  · rw [hget]
    split
    · simp
    · exact h.ready hk p r' c' e
  · rw [hget, if_pos ⟨rfl, rfl⟩]
    simp

/-- The invariant stays, and a used library has these properties. -/
theorem inv_step {e : Event} {es : List Event} (h : Inv hash C R fixed kept s)
    (hn : Spec.NoCollision hash C) (hc : Spec.Calm hash C R fixed kept s (e :: es)) :
    Inv hash C R fixed kept (step hash s e).1 ∧ Spec.Calm hash C R fixed kept (step hash s e).1 es ∧
    ∀ u, (step hash s e).2 = some u →
      R u.req ∧ u.req.triple ∈ triples ∧ (kept → u.lib ≠ none) ∧
      ∀ l, u.lib = some l → l.content = u.content ∧ l.triple = u.req.triple ∧ l.complete = true ∧
        l.version ≤ u.version ∧ (fixed → l.version = u.version) ∧
        ∃ r, R r ∧ r.backend = u.req.backend ∧ r.device = l.device := by
  obtain ⟨h0, hrest⟩ := hc
  refine ⟨?_, hrest, ?_⟩
  · cases e with
    | start p r =>
      simp only [step]
      split
      · exact h
      · refine inv_proc h p _ ?_ ?_ ?_
        · intro r' c' e; simp at e; obtain ⟨rfl, rfl⟩ := e; rfl
        · intro r' c' e; simp at e; obtain ⟨rfl, rfl⟩ := e
          exact ⟨h0.1, h0.2, h.files _⟩
        · intro _ r' c' e; simp at e
    | check p =>
      simp only [step]
      split
      · rename_i r c hp
        have hpr := h.procs p r c (Or.inl hp)
        split
        · rename_i l hl
          refine inv_proc h p _ ?_ ?_ ?_
          · intro r' c' e; simp at e
          · intro r' c' e; simp at e; obtain ⟨rfl, rfl⟩ := e; exact hpr
          · intro _ r' c' e; simp at e; obtain ⟨rfl, rfl⟩ := e; rw [hl]; simp
        · refine inv_proc h p _ ?_ ?_ ?_
          · intro r' c' e; simp at e; obtain ⟨rfl, rfl⟩ := e; exact h.reads p _ _ (Or.inl hp)
          · intro r' c' e; simp at e; obtain ⟨rfl, rfl⟩ := e; exact hpr
          · intro _ r' c' e; simp at e
      · exact h
    | unfinished p => exact h0.elim
    | built p =>
      simp only [step]
      split
      · rename_i r c hp
        have hpr := h.procs p r c (Or.inr (Or.inl hp))
        obtain ⟨a, b⟩ := inv_store h hpr.1 hpr.2.1 (h.reads p r c (Or.inr hp))
        refine inv_proc a p _ ?_ ?_ ?_
        · intro r' c' e; simp at e
        · intro r' c' e; simp at e; obtain ⟨rfl, rfl⟩ := e; exact hpr
        · intro _ r' c' e; simp at e; obtain ⟨rfl, rfl⟩ := e; exact b
      · exact h
    | use p =>
      simp only [step]
      split
      · exact inv_proc h p _ (by simp) (by simp) (by simp)
      · exact h
    | kill p => exact inv_proc h p _ (by simp) (by simp) (by simp)
    | edit path c =>
      refine ⟨fun i => ?_, h.cache, fun p r c' e => ?_, h.procs, h.ready⟩
      · simp only [step, upd]
        split
        · exact h0.1
        · exact h.files i
      · have hne : r.path ≠ path := fun hp => h0.2 ⟨p, r, c', e, hp⟩
        simp only [step, upd_other _ _ hne]
        exact h.reads p r c' e
    | upgrade b =>
      refine ⟨h.files, fun b' k l e => ?_, h.reads, h.procs, h.ready⟩
      obtain ⟨h1, h2, h3, h4, h5, h6, h7⟩ := h.cache b' k l e
      refine ⟨h1, h2, h3, h4, ?_, fun hf => absurd hf h0, h7⟩
      simp only [step, upd]
      split
      · rename_i hb; subst hb; omega
      · exact h5
    | clean b =>
      refine ⟨h.files, fun b' k l e => ?_, h.reads, h.procs, fun hk => absurd hk h0⟩
      refine h.cache b' k l ?_
      simp only [step, upd] at e
      split at e
      · cases e
      · exact e
  · intro u hu
    cases e with
    | use p =>
      simp only [step] at hu
      split at hu
      · rename_i r c hp
        obtain rfl := Option.some.inj hu
        obtain ⟨a1, a2, a3⟩ := h.procs p r c (Or.inr (Or.inr hp))
        refine ⟨a1, a2, fun hk => h.ready hk p r c hp, fun l hl => ?_⟩
        obtain ⟨h1, h2, h3, h4, h5, h6, h7⟩ := h.cache _ _ l hl
        obtain ⟨e1, e2⟩ := hashed_inj a2 h3 (hn _ _ _ _ a3 h2 a2 h3 h1)
        exact ⟨e1.symm, e2.symm, h4, h5, h6, h7⟩
      · cases hu
    | start p r => simp only [step] at hu; split at hu <;> cases hu
    | check p =>
      simp only [step] at hu
      split at hu
      · split at hu <;> cases hu
      · cases hu
    | unfinished p => simp only [step] at hu; split at hu <;> cases hu
    | built p => simp only [step] at hu; split at hu <;> cases hu
    | kill p => cases hu
    | edit _ _ => cases hu
    | upgrade _ => cases hu
    | clean _ => cases hu

theorem uses_of_inv {es : List Event} (h : Inv hash C R fixed kept s)
    (hn : Spec.NoCollision hash C) (hc : Spec.Calm hash C R fixed kept s es) :
    ∀ u ∈ (exec hash s es).2,
      R u.req ∧ u.req.triple ∈ triples ∧ (kept → u.lib ≠ none) ∧
      ∀ l, u.lib = some l → l.content = u.content ∧ l.triple = u.req.triple ∧ l.complete = true ∧
        l.version ≤ u.version ∧ (fixed → l.version = u.version) ∧
        ∃ r, R r ∧ r.backend = u.req.backend ∧ r.device = l.device := by
  induction es generalizing s with
  | nil => simp [exec]
  | cons e es ih =>
    obtain ⟨h1, h2, h3⟩ := inv_step h hn hc
    intro u hu
    simp only [exec, List.mem_append, Option.mem_toList] at hu
    rcases hu with hu | hu
    · exact h3 u hu
    · exact ih h1 h2 u hu

/-- What the code should do: whatever happens, a run uses the library of its request. -/
def C119_full (hash : List Char → H) : Prop :=
  ∀ (s : State H) (es : List Event), Spec.Fresh (fun _ => True) s →
    (∀ p r, Event.start p r ∈ es → r.triple ∈ triples) →
    ∀ u ∈ (exec hash s es).2, Spec.Right u

/-- **C119, what holds of every history** of any number of processes, killed runs, upgrades and
cleanings included, as long as libraries appear in one step and no model changes while a run still
has to read it: a library that is used was built from exactly the content the run has read, for its
target, and is finished; the backend that built it is at most as new as the installed one, and the
device is that of some request to the same backend.  Missing: the device and the version of the
request, and the library being there at all. -/
theorem C119_content_partial {es : List Event} (hn : Spec.NoCollision hash C) (hs : Spec.Fresh C s)
    (hc : Spec.Calm hash C R False False s es) :
    ∀ u ∈ (exec hash s es).2, ∀ l, u.lib = some l →
      l.content = u.content ∧ l.triple = u.req.triple ∧ l.complete = true ∧ l.version ≤ u.version ∧
      ∃ r, R r ∧ r.backend = u.req.backend ∧ r.device = l.device := by
  intro u hu l hl
  obtain ⟨-, -, -, h⟩ := uses_of_inv (inv_fresh hs) hn hc u hu
  obtain ⟨h1, h2, h3, h4, -, h5⟩ := h l hl
  exact ⟨h1, h2, h3, h4, h5⟩

/-- **C119, what holds without upgrades and cleanings**, when every backend is used with one device
only: every run uses the library of its request. -/
theorem C119_right_partial {es : List Event} (hn : Spec.NoCollision hash C) (hs : Spec.Fresh C s)
    (hR : ∀ r r', R r → R r' → r.backend = r'.backend → r.device = r'.device)
    (hc : Spec.Calm hash C R True True s es) : ∀ u ∈ (exec hash s es).2, Spec.Right u := by
  intro u hu
  obtain ⟨h1, -, h2, h⟩ := uses_of_inv (inv_fresh hs) hn hc u hu
  cases hl : u.lib with
  | none => exact absurd hl (h2 trivial)
  | some l =>
    obtain ⟨e1, e2, e3, -, e4, r, hr, hb, hd⟩ := h l hl
    unfold Spec.Right
    rw [hl, ← e1, ← e2, ← e4 trivial, ← hR r u.req hr h1 hb, hd, ← e3]

/-- A machine with two model files, an empty cache and nothing running. -/
def exState : State (List Char) :=
  ⟨fun i => if i = 0 then "model".toList else "other".toList, fun _ _ => none, fun _ => 1, fun _ => none⟩

/-- A request for the first model. -/
def exReq (device : List Char) : Request :=
  ⟨0, "x86_64-unknown-linux-gnu".toList, device, "jit".toList⟩

theorem exFresh : Spec.Fresh (fun _ => True) exState := ⟨fun _ _ => rfl, fun _ => rfl, fun _ => trivial⟩

theorem id_free : Spec.NoCollision (id : List Char → List Char) (fun _ => True) :=
  fun _ _ _ _ _ _ _ _ h => h

/-- C119: two runs at the same time, both building, and a third that finds the library; the other
model is edited meanwhile. -/
example : ∃ u v w, (exec id exState [.start 1 (exReq "cpu".toList), .start 2 (exReq "cpu".toList),
    .check 1, .check 2, .edit 1 "new".toList, .built 1, .built 2, .use 2, .start 3 (exReq "cpu".toList),
    .check 3, .use 1, .use 3]).2 = [u, v, w] ∧ Spec.Right u ∧ Spec.Right v ∧ Spec.Right w := by
  have h := C119_right_partial (C := fun _ => True)
    (R := fun r => r.backend = "jit".toList ∧ r.device = "cpu".toList) (es :=
    [.start 1 (exReq "cpu".toList), .start 2 (exReq "cpu".toList), .check 1, .check 2,
      .edit 1 "new".toList, .built 1, .built 2, .use 2, .start 3 (exReq "cpu".toList), .check 3,
      .use 1, .use 3]) id_free exFresh (fun r r' a b _ => a.2.trans b.2.symm) (by
      refine ⟨⟨⟨rfl, rfl⟩, by decide⟩, ⟨⟨rfl, rfl⟩, by decide⟩, trivial, trivial, ⟨trivial, ?_⟩,
        trivial, trivial, trivial, ⟨⟨rfl, rfl⟩, by decide⟩, trivial, trivial, trivial, trivial⟩
      rintro ⟨p, r, c, hp, hr⟩
      have hall : ∀ p, (match (exec id exState [.start 1 (exReq "cpu".toList),
          .start 2 (exReq "cpu".toList), .check 1, .check 2]).1.procs p with
          | some (.building r _) => r.path = 0
          | some _ => False
          | none => True) := by
        intro p
        by_cases h2 : p = 2
        · subst h2; exact rfl
        by_cases h1 : p = 1
        · subst h1; exact rfl
        have : (exec id exState [.start 1 (exReq "cpu".toList),
          .start 2 (exReq "cpu".toList), .check 1, .check 2]).1.procs p = none := by
          show upd (upd (upd (upd (fun _ => none) 1 _) 2 _) 1 _) 2 _ p = none
          simp [upd, h1, h2]
        rw [this]
        trivial
      have hp' := hall p
      rcases hp with hp | hp
      · rw [show (exec id exState [.start 1 (exReq "cpu".toList),
          .start 2 (exReq "cpu".toList), .check 1, .check 2]).1.procs p = _ from hp] at hp'
        exact hp'
      · rw [show (exec id exState [.start 1 (exReq "cpu".toList),
          .start 2 (exReq "cpu".toList), .check 1, .check 2]).1.procs p = _ from hp] at hp'
        exact absurd (hr.symm.trans hp') (by decide))
  exact ⟨_, _, _, rfl, h _ (by decide +kernel), h _ (by decide +kernel), h _ (by decide +kernel)⟩

/-! ## What does not hold -/

/-- The key lacks the device: a run on the second card uses the library built for the first. -/
theorem C119_device_false : ∃ u v, (exec id exState [.start 1 (exReq "cuda::0".toList), .check 1,
      .built 1, .use 1, .start 2 (exReq "cuda::1".toList), .check 2, .use 2]).2 = [u, v] ∧
    Spec.Right u ∧ ¬ Spec.Right v ∧ v.req.device = "cuda::1".toList ∧
    v.lib.map (·.device) = some "cuda::0".toList :=
  ⟨⟨exReq "cuda::0".toList, "model".toList, 1, some ⟨"model".toList, (exReq []).triple,
      "cuda::0".toList, 1, true⟩⟩,
    ⟨exReq "cuda::1".toList, "model".toList, 1, some ⟨"model".toList, (exReq []).triple,
      "cuda::0".toList, 1, true⟩⟩, by unfold Spec.Right; decide +kernel⟩

/-- **C119 is false of the code**, whatever the hash. -/
theorem C119_full_false (hash : List Char → H) : ¬ C119_full hash := by
  intro h
  have h := h ⟨fun _ => [], fun _ _ => none, fun _ => 1, fun _ => none⟩
    [.start 1 (exReq "cuda::0".toList), .check 1, .built 1, .use 1,
      .start 2 (exReq "cuda::1".toList), .check 2, .use 2]
    ⟨fun _ _ => rfl, fun _ => rfl, fun _ => trivial⟩ (by
      intro p r hm
      simp only [List.mem_cons, Event.start.injEq, reduceCtorEq, List.not_mem_nil, or_false,
        false_or] at hm
      rcases hm with ⟨-, rfl⟩ | ⟨-, rfl⟩ <;> decide)
    ⟨exReq "cuda::1".toList, [], 1, some ⟨[], (exReq []).triple, "cuda::0".toList, 1, true⟩⟩ (by
      simp [exec, step, upd, State.store, libOf, exReq])
  unfold Spec.Right at h
  exact absurd h (by decide)

/-- A build that was killed leaves an unfinished file that every later run uses; a second run does
not wait for the build of the first. -/
theorem C119_unfinished_false :
    (∃ u, (exec id exState [.start 1 (exReq "cpu".toList), .check 1, .unfinished 1, .kill 1,
        .start 2 (exReq "cpu".toList), .check 2, .use 2]).2 = [u] ∧
      u.lib.map (·.complete) = some false) ∧
    (∃ u, (exec id exState [.start 1 (exReq "cpu".toList), .check 1, .unfinished 1,
        .start 2 (exReq "cpu".toList), .check 2, .use 2, .built 1]).2 = [u] ∧
      u.lib.map (·.complete) = some false) :=
  ⟨⟨⟨exReq "cpu".toList, "model".toList, 1, some ⟨"model".toList, (exReq []).triple, "cpu".toList, 1,
      false⟩⟩, by decide +kernel⟩,
    ⟨⟨exReq "cpu".toList, "model".toList, 1, some ⟨"model".toList, (exReq []).triple, "cpu".toList, 1,
      false⟩⟩, by decide +kernel⟩⟩

/-- After an upgrade of the backend its old libraries are used; a library cleaned between the test
and the use is missing. -/
theorem C119_stale_false :
    (∃ u v, (exec id exState [.start 1 (exReq "cpu".toList), .check 1, .built 1, .use 1,
        .upgrade "jit".toList, .start 2 (exReq "cpu".toList), .check 2, .use 2]).2 = [u, v] ∧
      Spec.Right u ∧ v.version = 2 ∧ v.lib.map (·.version) = some 1) ∧
    (∃ u v, (exec id exState [.start 1 (exReq "cpu".toList), .check 1, .built 1, .use 1,
        .start 2 (exReq "cpu".toList), .check 2, .clean "jit".toList, .use 2]).2 = [u, v] ∧
      Spec.Right u ∧ v.lib = none) :=
  ⟨⟨⟨exReq "cpu".toList, "model".toList, 1, some ⟨"model".toList, (exReq []).triple, "cpu".toList, 1,
      true⟩⟩, ⟨exReq "cpu".toList, "model".toList, 2, some ⟨"model".toList, (exReq []).triple,
      "cpu".toList, 1, true⟩⟩, by unfold Spec.Right; decide +kernel⟩,
    ⟨⟨exReq "cpu".toList, "model".toList, 1, some ⟨"model".toList, (exReq []).triple, "cpu".toList, 1,
      true⟩⟩, ⟨exReq "cpu".toList, "model".toList, 1, none⟩, by unfold Spec.Right; decide +kernel⟩⟩

/-- A model edited between the hash and the build is cached under the hash of the old content: with
the old content back in place, later runs use the library of the other model. -/
theorem C119_edit_false : ∃ u v, (exec id exState [.start 1 (exReq "cpu".toList), .check 1,
      .edit 0 "draft".toList, .built 1, .use 1, .edit 0 "model".toList,
      .start 2 (exReq "cpu".toList), .check 2, .use 2]).2 = [u, v] ∧
    v.content = "model".toList ∧ v.lib.map (·.content) = some "draft".toList :=
  ⟨⟨exReq "cpu".toList, "model".toList, 1, some ⟨"draft".toList, (exReq []).triple, "cpu".toList, 1,
      true⟩⟩, ⟨exReq "cpu".toList, "model".toList, 1, some ⟨"draft".toList, (exReq []).triple,
      "cpu".toList, 1, true⟩⟩, by decide +kernel⟩

/-! ## Cleaning -/

/-- **C119, cleaning one backend.**  A directory that is removed exists, and lies in the cache unless
the name is absolute. -/
theorem C119_clean_inside {dirs : List Char → Bool} {cache name d : List Char}
    (h : cleanDir dirs cache name = some d) :
    dirs d = true ∧ (name.head? ≠ some '/' → ∃ rest, d = cache ++ '/' :: rest) := by
  have hj : ∀ n : List Char, n.head? ≠ some '/' → RunFiles.join cache n = cache ++ '/' :: n := by
    intro n hn
    cases n with
    | nil => rfl
    | cons c n =>
      have : c ≠ '/' := fun e => hn (by rw [e]; rfl)
      unfold RunFiles.join
      split
      · rename_i e
        exact absurd (List.cons.inj e).1 this
      · rfl
  unfold cleanDir at h
  simp only at h
  split at h
  · rename_i hd
    obtain rfl := Option.some.inj h
    exact ⟨hd, fun hn => ⟨name, hj name hn⟩⟩
  · split at h
    · rename_i hd
      obtain rfl := Option.some.inj h
      exact ⟨hd, fun _ => ⟨_, hj _ (by simp)⟩⟩
    · cases h

/-- C119: the cache of one backend. -/
example : cleanDir (fun d => d = "c/hodu-backend-x-plugin".toList) "c".toList "x".toList =
    some "c/hodu-backend-x-plugin".toList := by decide +kernel

/-- An absolute name removes any directory; the name by which a backend is run and its cache is kept
is not the one by which it is cleaned. -/
theorem C119_clean_false :
    cleanDir (fun d => d = "/home/me".toList) "c".toList "/home/me".toList =
      some "/home/me".toList ∧
    runDir ["hodu-backend-x".toList] "x".toList = some "hodu-backend-x".toList ∧
    cleanDir (fun d => d = RunFiles.join "c".toList "hodu-backend-x".toList) "c".toList "x".toList =
      none := by decide +kernel

end Hodu.RunCache
