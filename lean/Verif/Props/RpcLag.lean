import Verif.Props.Rpc

/-!
# C47: calls after a timeout or a cancel

The world of this file is a client together with a plugin that answers every request, in order:
for each request some notification lines and then one line with a response carrying the id of
that request (this is what `PluginServer::run` does, C49).  `queue` is what the plugin has
written, or will write for the requests it has received, and the client has not read.  A script
says what happens while a call waits: the next line arrives, another thread cancels, or the
timeout expires.
-/

namespace Hodu.Rpc

/-- The lines of a plugin for each request. -/
structure Plugin where
  notes : Sent → List String
  answer : Sent → String

/-- All the lines for one request. -/
def Plugin.lines (P : Plugin) (s : Sent) : List String := P.notes s ++ [P.answer s]

/-- A plugin that answers every request it can receive with a response carrying its id, preceded
by notifications. -/
structure Plugin.Answers (P : Plugin) (parse : String → Option Json) : Prop where
  note : ∀ s, ∀ l ∈ P.notes s, l ≠ "" ∧ ∃ j, parse l = some j ∧ hasId j = false
  answer : ∀ s : Sent, -2 ^ 63 ≤ s.id → s.id < 2 ^ 63 → P.answer s ≠ "" ∧ ∃ j r,
    parse (P.answer s) = some j ∧ hasId j = true ∧ decodeResponse j = some r ∧
    r.id = .number s.id

/-- What happens while a call waits. -/
inductive Sched where
  | next
  | cancel
  | timeout

/-- The events of a call for a script and the lines available; when the script is over the
remaining lines arrive. -/
def schedule : List Sched → List String → List Event
  | [], q => q.map .line
  | .next :: s, l :: q => .line l :: schedule s q
  | .next :: s, [] => schedule s []
  | .cancel :: s, q => .cancel :: schedule s q
  | .timeout :: s, q => .timeout :: schedule s q

/-- The lines among some events. -/
def linesOf (es : List Event) : List String :=
  es.filterMap fun e => match e with | .line l => some l | _ => none

/-- A client and the lines it has not read. -/
structure World where
  client : Client
  queue : List String

/-- The beginning. -/
def World.new : World := ⟨Client.new, []⟩

/-- One call in the world: the request goes out, the plugin's lines for it join the queue, the
call runs, and the plugin's lines for the cancels sent meanwhile join the queue. -/
def World.call {R : Type} (P : Plugin) (parse : String → Option Json) (dec : Json → Option R)
    (w : World) (m : String) (p : Option Json) (script : List Sched) :
    World × Option (Except ClientError R) :=
  let r := w.client.call parse dec m p true
    (schedule script (w.queue ++ P.lines ⟨w.client.nextId, m, p⟩))
  (⟨r.1, linesOf r.2.2 ++ (r.1.sent.drop (w.client.sent.length + 1)).flatMap P.lines⟩, r.2.1)

/-- A cancel while no call waits. -/
def World.cancel (P : Plugin) (w : World) : World :=
  ⟨w.client.cancel, w.queue ++ (w.client.cancel.sent.drop w.client.sent.length).flatMap P.lines⟩

/-- A step of the program. -/
inductive Step where
  | call (m : String) (p : Option Json) (script : List Sched)
  | cancel

/-- A history: the world, how many calls were made and how many of them timed out. -/
structure Hist where
  world : World
  calls : Nat
  timeouts : Nat

/-- Did a call time out? -/
def isTimeout {R : Type} (o : Option (Except ClientError R)) : Bool :=
  match o with
  | some (.error .timeout) => true
  | _ => false

/-- One step of a history. -/
def Hist.step (P : Plugin) (parse : String → Option Json) (h : Hist) : Step → Hist
  | .call m p script =>
    let r := h.world.call P parse (some : Json → Option Json) m p script
    ⟨r.1, h.calls + 1, h.timeouts + if isTimeout r.2 then 1 else 0⟩
  | .cancel => { h with world := h.world.cancel P }

/-- A history from the beginning. -/
def Hist.run (P : Plugin) (parse : String → Option Json) (steps : List Step) : Hist :=
  steps.foldl (Hist.step P parse) ⟨World.new, 0, 0⟩

/-- The number of cancel requests the client has written: all its requests that are not calls. -/
def Hist.cancelsSent (h : Hist) : Nat := h.world.client.sent.length - h.calls

/-- How many cancels a script contains. -/
def schedCancels (s : List Sched) : Nat :=
  s.countP fun e => match e with | .cancel => true | _ => false

/-- How many request ids a step may use up. -/
def Step.ids : Step → Nat
  | .call _ _ s => 1 + schedCancels s
  | .cancel => 1

/-! ## Proof -/

theorem cancels_schedule (s : List Sched) : ∀ q, cancels (schedule s q) ≤ schedCancels s := by
  induction s with
  | nil =>
    intro q
    simp only [schedule]
    have : cancels (q.map Event.line) = 0 := by simp [cancels]
    omega
  | cons e s ih =>
    intro q
    cases e with
    | next =>
      cases q with
      | nil => have := ih []; simp [schedule, schedCancels] at this ⊢; exact this
      | cons l q => have := ih q; simp [schedule, schedCancels, cancels] at this ⊢; exact this
    | cancel => have := ih q; simp [schedule, schedCancels, cancels] at this ⊢; exact this
    | timeout => have := ih q; simp [schedule, schedCancels, cancels] at this ⊢; exact this

theorem linesOf_schedule (s : List Sched) : ∀ q, linesOf (schedule s q) = q := by
  induction s with
  | nil =>
    intro q
    simp only [schedule]
    induction q with
    | nil => rfl
    | cons l q ih => simp [linesOf]
  | cons e s ih =>
    intro q
    cases e with
    | next =>
      cases q with
      | nil => exact ih []
      | cons l q => have := ih q; simp [schedule, linesOf] at this ⊢; exact this
    | cancel => have := ih q; simp [schedule, linesOf] at this ⊢; exact this
    | timeout => have := ih q; simp [schedule, linesOf] at this ⊢; exact this

/-- What a wait does when the lines at hand are notifications and then a line with an id. -/
theorem recvLoop_schedule {R : Type} (parse : String → Option Json) (dec : Json → Option R)
    (id : Int) (a : String) (tail : List String) (j : Json) (ha : a ≠ "")
    (hj : parse a = some j) (hi : hasId j = true) (s : List Sched) :
    ∀ (c : Client) (notes : List String),
    (∀ l ∈ notes, l ≠ "" ∧ ∃ j, parse l = some j ∧ hasId j = false) →
    let r := recvLoop parse dec id c (schedule s (notes ++ a :: tail))
    (r.2.1 = some (.error .timeout) ∧ ∃ k, linesOf r.2.2 = notes.drop k ++ a :: tail) ∨
    (r.2.1 = some (onResponse dec id j) ∧ linesOf r.2.2 = tail) := by
  have stepNote : ∀ (c : Client) (l : String) (es : List Event),
      (l ≠ "" ∧ ∃ j, parse l = some j ∧ hasId j = false) →
      recvLoop parse dec id c (.line l :: es) = recvLoop parse dec id c es := by
    intro c l es ⟨h1, j, h2, h3⟩
    rw [recvLoop, if_neg h1, h2]
    simp [h3]
  have stepAns : ∀ (c : Client) (es : List Event),
      recvLoop parse dec id c (.line a :: es) =
        ({ c with currentId := 0 }, some (onResponse dec id j), es) := by
    intro c es
    rw [recvLoop, if_neg ha, hj]
    simp [hi]
  induction s with
  | nil =>
    intro c notes
    induction notes generalizing c with
    | nil =>
      intro _
      simp only [schedule, List.nil_append, List.map_cons]
      rw [stepAns]
      exact Or.inr ⟨rfl, linesOf_schedule [] tail⟩
    | cons l notes ih =>
      intro hn
      simp only [schedule, List.cons_append, List.map_cons]
      rw [stepNote c l _ (hn l (by simp))]
      rcases ih c (fun l hl => hn l (by simp [hl])) with ⟨h1, k, h2⟩ | h
      · exact Or.inl ⟨h1, k + 1, h2⟩
      · exact Or.inr h
  | cons e s ih =>
    intro c notes hn
    cases e with
    | next =>
      cases notes with
      | nil =>
        simp only [schedule, List.nil_append]
        rw [stepAns]
        exact Or.inr ⟨rfl, linesOf_schedule s tail⟩
      | cons l notes =>
        simp only [schedule, List.cons_append]
        rw [stepNote c l _ (hn l (by simp))]
        rcases ih c notes (fun l hl => hn l (by simp [hl])) with ⟨h1, k, h2⟩ | h
        · exact Or.inl ⟨h1, k + 1, h2⟩
        · exact Or.inr h
    | cancel =>
      simp only [schedule, recvLoop]
      exact ih c.cancel notes hn
    | timeout =>
      exact Or.inl ⟨rfl, 0, linesOf_schedule s _⟩

/-- The unread lines are those for the requests `owed`, some of the first one's notifications
having been read. -/
def Pending (P : Plugin) : List Sent → List String → Prop
  | [], q => q = []
  | s :: ss, q => ∃ k, q = (P.notes s).drop k ++ P.answer s :: ss.flatMap P.lines

theorem Pending.append {P : Plugin} {owed more : List Sent} {q : List String}
    (h : Pending P owed q) : Pending P (owed ++ more) (q ++ more.flatMap P.lines) := by
  cases owed with
  | nil =>
    have hq : q = [] := h
    subst hq
    cases more with
    | nil => rfl
    | cons s ss => exact ⟨0, by simp [Plugin.lines]⟩
  | cons s ss =>
    obtain ⟨k, rfl⟩ := h
    exact ⟨k, by simp⟩

theorem Pending.lines {P : Plugin} (ss : List Sent) : Pending P ss (ss.flatMap P.lines) := by
  have := Pending.append (P := P) (owed := []) (more := ss) (q := []) rfl
  simpa using this

/-- What holds between steps: the requests answered but not read. -/
structure Inv (P : Plugin) (h : Hist) (n : Nat) (owed : List Sent) : Prop where
  ids : Ids h.world.client n
  pending : Pending P owed h.world.queue
  sub : ∀ s ∈ owed, s ∈ h.world.client.sent
  calls : h.calls ≤ h.world.client.sent.length
  count : owed.length = h.timeouts + h.cancelsSent

theorem sent_range {c : Client} {n : Nat} (h : Ids c n) : ∀ s ∈ c.sent,
    -2 ^ 63 ≤ s.id ∧ s.id < 2 ^ 63 := by
  intro s hs
  obtain ⟨ks, hk, -, -⟩ := h.sent
  have : s.id ∈ c.sent.map Sent.id := List.mem_map.mpr ⟨s, hs, rfl⟩
  rw [hk] at this
  obtain ⟨k, -, he⟩ := List.mem_map.mp this
  rw [← he]
  unfold wrapI64
  constructor
  · have := Int.le_bmod (x := 1 + (k : Int)) (m := 2 ^ 64) (by norm_num)
    norm_num at this ⊢
    omega
  · have := Int.bmod_lt (x := 1 + (k : Int)) (m := 2 ^ 64) (by norm_num)
    norm_num at this ⊢
    omega

/-- One call: either it times out and the plugin's answer to it is still to come, or it is given
the response to the first request owed. -/
theorem call_spec {R : Type} (P : Plugin) (parse : String → Option Json) (dec : Json → Option R)
    (hP : P.Answers parse) (w : World) (owed : List Sent) (n : Nat) (hids : Ids w.client n)
    (hp : Pending P owed w.queue) (hsub : ∀ s ∈ owed, s ∈ w.client.sent) (m : String)
    (p : Option Json) (script : List Sched) :
    let req : Sent := ⟨w.client.nextId, m, p⟩
    let r := w.call P parse dec m p script
    ∃ extra n', r.1.client.sent = w.client.sent ++ [req] ++ extra ∧
      n' ≤ n + (1 + schedCancels script) ∧ Ids r.1.client n' ∧
      ((r.2 = some (.error .timeout) ∧ Pending P (owed ++ [req] ++ extra) r.1.queue) ∨
       (∃ s0 rest j, owed ++ [req] = s0 :: rest ∧ parse (P.answer s0) = some j ∧
          r.2 = some (onResponse dec w.client.nextId j) ∧ Pending P (rest ++ extra) r.1.queue)) := by
  intro req r
  have hids1 := hids.push m p w.client.nextId
  obtain ⟨n', hn', hids2, hpre⟩ := recvLoop_ids parse dec w.client.nextId
    (schedule script (w.queue ++ P.lines req)) _ _ hids1
  obtain ⟨extra, hextra⟩ := hpre
  have hr1 : r.1.client.sent = w.client.sent ++ [req] ++ extra := by
    simp only [r, World.call, Client.call, if_true]
    exact hextra.symm
  have hcs := cancels_schedule script (w.queue ++ P.lines req)
  refine ⟨extra, n', hr1, by omega, hids2, ?_⟩
  have hP1 : Pending P (owed ++ [req]) (w.queue ++ P.lines req) := by
    have := hp.append (more := [req])
    simpa using this
  have hq : r.1.queue = linesOf (recvLoop parse dec w.client.nextId
      ⟨wrapI64 (w.client.nextId + 1), w.client.nextId, w.client.sent ++ [req]⟩
      (schedule script (w.queue ++ P.lines req))).2.2 ++ extra.flatMap P.lines := by
    have : r.1.client.sent.drop (w.client.sent.length + 1) = extra := by
      rw [hr1]
      have : w.client.sent.length + 1 = (w.client.sent ++ [req]).length := by simp
      rw [this, List.drop_left]
    rw [← this]
    rfl
  obtain ⟨s0, rest, hs⟩ : ∃ s0 rest, owed ++ [req] = s0 :: rest := by
    cases owed with
    | nil => exact ⟨req, [], rfl⟩
    | cons s ss => exact ⟨s, ss ++ [req], rfl⟩
  have hs0 : s0 ∈ w.client.sent ++ [req] := by
    have : s0 ∈ owed ++ [req] := by rw [hs]; simp
    rcases List.mem_append.mp this with h | h
    · exact List.mem_append.mpr (Or.inl (hsub s0 h))
    · exact List.mem_append.mpr (Or.inr h)
  obtain ⟨hlo, hhi⟩ := sent_range hids1 s0 hs0
  obtain ⟨hne, j, resp, hj, hi, -, -⟩ := hP.answer s0 hlo hhi
  rw [hs] at hP1 ⊢
  obtain ⟨k, hk⟩ := hP1
  have hnotes : ∀ l ∈ (P.notes s0).drop k, l ≠ "" ∧ ∃ j, parse l = some j ∧ hasId j = false :=
    fun l hl => hP.note s0 l (List.mem_of_mem_drop hl)
  have hmain := recvLoop_schedule parse dec w.client.nextId (P.answer s0) (rest.flatMap P.lines) j
    hne hj hi script ⟨wrapI64 (w.client.nextId + 1), w.client.nextId, w.client.sent ++ [req]⟩
    ((P.notes s0).drop k) hnotes
  rw [← hk] at hmain
  rcases hmain with ⟨h1, k2, h2⟩ | ⟨h1, h2⟩
  · refine Or.inl ⟨h1, ?_⟩
    rw [hq, h2]
    exact ⟨k + k2, by simp [List.drop_drop]⟩
  · refine Or.inr ⟨s0, rest, j, rfl, hj, h1, ?_⟩
    rw [hq, h2, ← List.flatMap_append]
    exact Pending.lines _

theorem onResponse_not_timeout {R : Type} (dec : Json → Option R) (id : Int) (j : Json) :
    isTimeout (some (onResponse dec id j)) = false := by
  unfold onResponse isTimeout
  split
  · rename_i h
    split at h
    · simp at h
    · split at h
      · simp at h
      · split at h
        · simp at h
        · split at h
          · simp at h
          · split at h <;> simp at h
  · rfl

theorem inv_step (P : Plugin) (parse : String → Option Json) (hP : P.Answers parse) (h : Hist)
    (n : Nat) (owed : List Sent) (hi : Inv P h n owed) (st : Step) :
    ∃ n' owed', n' ≤ n + st.ids ∧ Inv P (h.step P parse st) n' owed' := by
  cases st with
  | cancel =>
    obtain ⟨n', hn', hids⟩ := hi.ids.cancel
    obtain ⟨extra, he⟩ := cancel_sent h.world.client
    have hd : h.world.client.cancel.sent.drop h.world.client.sent.length = extra := by
      rw [← he, List.drop_left]
    refine ⟨n', owed ++ extra, hn', hids, ?_, ?_, ?_, ?_⟩
    · simp only [Hist.step, World.cancel]
      rw [hd]
      exact hi.pending.append
    · intro s hs
      show s ∈ h.world.client.cancel.sent
      rw [← he]
      rcases List.mem_append.mp hs with h1 | h1
      · exact List.mem_append.mpr (Or.inl (hi.sub s h1))
      · exact List.mem_append.mpr (Or.inr h1)
    · show h.calls ≤ h.world.client.cancel.sent.length
      rw [← he]
      have := hi.calls
      simp
      omega
    · have h1 := hi.count
      have h2 := hi.calls
      have h3 : (h.world.client.cancel).sent.length = h.world.client.sent.length + extra.length := by
        rw [← he]; simp
      simp only [Hist.cancelsSent, Hist.step, World.cancel, List.length_append] at *
      omega
  | call m p script =>
    obtain ⟨extra, n', hsent, hn', hids, hcase⟩ := call_spec P parse (some : Json → Option Json) hP
      h.world owed n hi.ids hi.pending hi.sub m p script
    have hlen : (h.world.call P parse (some : Json → Option Json) m p script).1.client.sent.length
        = h.world.client.sent.length + 1 + extra.length := by rw [hsent]; simp; omega
    have h1 := hi.count
    have h2 := hi.calls
    rcases hcase with ⟨ht, hpend⟩ | ⟨s0, rest, j, hs, hj, ho, hpend⟩
    · refine ⟨n', owed ++ [_] ++ extra, hn', hids, hpend, ?_, ?_, ?_⟩
      · intro s hs
        show s ∈ (h.world.call P parse (some : Json → Option Json) m p script).1.client.sent
        rw [hsent]
        simp only [List.mem_append] at hs ⊢
        rcases hs with (hs | hs) | hs
        · exact Or.inl (Or.inl (hi.sub s hs))
        · exact Or.inl (Or.inr hs)
        · exact Or.inr hs
      · show h.calls + 1 ≤ _
        rw [show (h.step P parse (.call m p script)).world.client.sent.length = _ from hlen]
        omega
      · simp only [Hist.cancelsSent, Hist.step, hlen, ht, isTimeout, List.length_append,
          List.length_singleton, if_true] at *
        omega
    · refine ⟨n', rest ++ extra, hn', hids, hpend, ?_, ?_, ?_⟩
      · intro s hs2
        show s ∈ (h.world.call P parse (some : Json → Option Json) m p script).1.client.sent
        rw [hsent]
        have hmem : s ∈ s0 :: rest → s ∈ h.world.client.sent ++
            [(⟨h.world.client.nextId, m, p⟩ : Sent)] := by
          intro h3
          rw [← hs] at h3
          rcases List.mem_append.mp h3 with h3 | h3
          · exact List.mem_append.mpr (Or.inl (hi.sub s h3))
          · exact List.mem_append.mpr (Or.inr h3)
        rcases List.mem_append.mp hs2 with h3 | h3
        · exact List.mem_append.mpr (Or.inl (hmem (by simp [h3])))
        · exact List.mem_append.mpr (Or.inr h3)
      · show h.calls + 1 ≤ _
        rw [show (h.step P parse (.call m p script)).world.client.sent.length = _ from hlen]
        omega
      · have h3 : owed.length + 1 = rest.length + 1 := by
          have := congrArg List.length hs
          simpa using this
        simp only [Hist.cancelsSent, Hist.step, hlen, ho, onResponse_not_timeout,
          List.length_append] at *
        simp
        omega

theorem inv_run (P : Plugin) (parse : String → Option Json) (hP : P.Answers parse)
    (steps : List Step) : ∃ n owed, n ≤ (steps.map Step.ids).sum ∧
      Inv P (Hist.run P parse steps) n owed := by
  have key : ∀ (steps : List Step) (h : Hist) (n : Nat) (owed : List Sent), Inv P h n owed →
      ∃ n' owed', n' ≤ n + (steps.map Step.ids).sum ∧
        Inv P (steps.foldl (Hist.step P parse) h) n' owed' := by
    intro steps
    induction steps with
    | nil => intro h n owed hi; exact ⟨n, owed, by simp, hi⟩
    | cons st steps ih =>
      intro h n owed hi
      obtain ⟨n1, owed1, hn1, hi1⟩ := inv_step P parse hP h n owed hi st
      obtain ⟨n2, owed2, hn2, hi2⟩ := ih _ n1 owed1 hi1
      refine ⟨n2, owed2, ?_, hi2⟩
      simp only [List.map_cons, List.sum_cons]
      omega
  have h0 : Inv P ⟨World.new, 0, 0⟩ 0 [] :=
    ⟨⟨by decide, [], rfl, by simp, by simp⟩, rfl, by simp, by simp, rfl⟩
  obtain ⟨n, owed, h1, h2⟩ := key steps _ 0 [] h0
  exact ⟨n, owed, by omega, h2⟩

/-- The exact behaviour of a call after any history: it times out, or it returns its own answer
if nothing ever timed out or was cancelled, or else it fails with `IdMismatch`. -/
theorem call_exact {R : Type} (P : Plugin) (parse : String → Option Json) (dec : Json → Option R)
    (hP : P.Answers parse) (steps : List Step) (m : String) (p : Option Json)
    (script : List Sched)
    (hb : (steps.map Step.ids).sum + (1 + schedCancels script) ≤ 2 ^ 64) :
    let h := Hist.run P parse steps
    let o := (h.world.call P parse dec m p script).2
    o = some (.error .timeout) ∨
    (h.timeouts + h.cancelsSent = 0 ∧ ∃ j, parse (P.answer ⟨h.world.client.nextId, m, p⟩) = some j ∧
      o = some (onResponse dec h.world.client.nextId j)) ∨
    (h.timeouts + h.cancelsSent ≠ 0 ∧ o = some (.error .idMismatch)) := by
  intro h o
  obtain ⟨n, owed, hn, hi⟩ := inv_run P parse hP steps
  obtain ⟨extra, n', hsent, hn', hids, hcase⟩ := call_spec P parse dec hP h.world owed n hi.ids
    hi.pending hi.sub m p script
  rcases hcase with ⟨ht, -⟩ | ⟨s0, rest, j, hs, hj, ho, -⟩
  · exact Or.inl ht
  · refine Or.inr ?_
    have hcount := hi.count
    cases owed with
    | nil =>
      left
      simp at hs
      obtain ⟨rfl, rfl⟩ := hs
      refine ⟨by simpa using hcount.symm, j, hj, ho⟩
    | cons s ss =>
      right
      have hs' : s = s0 := by simpa using (List.cons.inj hs).1
      subst hs'
      have hpos : 0 < (s :: ss).length := by simp
      rw [hcount] at hpos
      refine ⟨Nat.pos_iff_ne_zero.mp hpos, ?_⟩
      show (h.world.call P parse dec m p script).2 = _
      rw [ho]
      have hmem : s ∈ h.world.client.sent := hi.sub s (by simp)
      obtain ⟨hlo, hhi⟩ := sent_range hi.ids s hmem
      obtain ⟨-, j', r, hj', -, hdec, hid⟩ := hP.answer s hlo hhi
      rw [hj] at hj'
      cases hj'
      have hne : r.id ≠ .number h.world.client.nextId := by
        rw [hid]
        intro he
        injection he with he
        have hnd := hids.nodup (by omega)
        rw [hsent, List.map_append, List.map_append] at hnd
        have h1 := (List.nodup_append.mp hnd).1
        have h2 := (List.nodup_append.mp h1).2.2
        exact h2 s.id (List.mem_map.mpr ⟨s, hmem, rfl⟩) h.world.client.nextId (by simp) he
      unfold onResponse
      rw [hdec]
      simp [hne]

/-- **C47 (part).**  Against a plugin that answers every request in order: after a history in
which no call timed out and no cancel was sent, a call that does not time out returns the
plugin's answer to it.
Missing: exactly the histories the claim is about (see `C47_full_false`, `C47_stuck`). -/
theorem C47_undisturbed_partial {R : Type} (P : Plugin) (parse : String → Option Json)
    (dec : Json → Option R) (hP : P.Answers parse) (steps : List Step) (m : String)
    (p : Option Json) (script : List Sched)
    (hb : (steps.map Step.ids).sum + (1 + schedCancels script) ≤ 2 ^ 64)
    (hq : (Hist.run P parse steps).timeouts = 0 ∧ (Hist.run P parse steps).cancelsSent = 0)
    (ht : ((Hist.run P parse steps).world.call P parse dec m p script).2 ≠ some (.error .timeout))
    (j v : Json) (x : R)
    (hj : parse (P.answer ⟨(Hist.run P parse steps).world.client.nextId, m, p⟩) = some j)
    (hr : decodeResponse j =
      some ⟨some v, none, .number (Hist.run P parse steps).world.client.nextId⟩)
    (hv : dec v = some x) :
    ((Hist.run P parse steps).world.call P parse dec m p script).2 = some (.ok x) := by
  rcases call_exact P parse dec hP steps m p script hb with h | ⟨-, j', hj', ho⟩ | ⟨h, -⟩
  · exact absurd h ht
  · rw [hj] at hj'
    cases hj'
    rw [ho]
    unfold onResponse
    rw [hr]
    simp [hv]
  · exact absurd (by rw [hq.1, hq.2]) h

/-- **C47 fails for good.**  Once one call has timed out or one cancel has been sent, no later
call ever succeeds, although the plugin answers every single one: it times out or fails with
`IdMismatch`. -/
theorem C47_stuck {R : Type} (P : Plugin) (parse : String → Option Json) (dec : Json → Option R)
    (hP : P.Answers parse) (steps : List Step) (m : String) (p : Option Json)
    (script : List Sched)
    (hb : (steps.map Step.ids).sum + (1 + schedCancels script) ≤ 2 ^ 64)
    (hd : (Hist.run P parse steps).timeouts ≠ 0 ∨ (Hist.run P parse steps).cancelsSent ≠ 0) :
    ((Hist.run P parse steps).world.call P parse dec m p script).2 = some (.error .timeout) ∨
    ((Hist.run P parse steps).world.call P parse dec m p script).2 = some (.error .idMismatch) := by
  rcases call_exact P parse dec hP steps m p script hb with h | ⟨h, -⟩ | ⟨-, h⟩
  · exact Or.inl h
  · have h1 : (Hist.run P parse steps).timeouts = 0 := Nat.eq_zero_of_add_eq_zero_right h
    have h2 : (Hist.run P parse steps).cancelsSent = 0 := Nat.eq_zero_of_add_eq_zero_left h
    rcases hd with hd | hd
    · exact absurd h1 hd
    · exact absurd h2 hd
  · exact Or.inr h

/-! A plugin for the examples: the line for a request is a letter and the absolute value of the
id in unary, and it parses to a response with that id whose result is the id. -/

/-- The text of an id. -/
def idText (n : Int) : String :=
  String.ofList ((if 0 ≤ n then 'p' else 'm') :: List.replicate n.natAbs 'x')

/-- The example plugin: one notification, then the answer. -/
def echo : Plugin := ⟨fun _ => ["note"], fun s => idText s.id⟩

/-- The response with a given id. -/
def echoJson (n : Int) : Json :=
  .obj [("jsonrpc", .str "2.0"), ("result", .int n), ("id", .int n)]

/-- Reads the lines of the example plugin. -/
def echoParse (l : String) : Option Json :=
  match l.toList with
  | 'p' :: xs => some (echoJson xs.length)
  | 'm' :: xs => some (echoJson (-xs.length))
  | 'n' :: _ => some (.obj [("jsonrpc", .str "2.0"), ("method", .str "$/log")])
  | _ => none

theorem echoParse_idText (n : Int) : echoParse (idText n) = some (echoJson n) := by
  unfold echoParse idText
  rw [String.toList_ofList]
  by_cases h : 0 ≤ n
  · simp only [if_pos h, List.length_replicate]
    congr 2
    omega
  · simp only [if_neg h, List.length_replicate]
    congr 2
    omega

theorem echo_answers : echo.Answers echoParse := by
  refine ⟨?_, ?_⟩
  · intro s l hl
    have : l = "note" := by simpa [echo] using hl
    subst this
    exact ⟨by decide, _, rfl, by decide⟩
  · intro s h1 h2
    refine ⟨?_, echoJson s.id, ⟨some (.int s.id), none, .number s.id⟩, echoParse_idText s.id,
      by simp [hasId, echoJson], ?_, rfl⟩
    · intro h
      have h3 := congrArg String.toList h
      simp [echo, idText] at h3
    · simp [decodeResponse, echoJson, member, optMember, optError, decodeId]
      norm_num at h1 h2
      exact ⟨h1, h2⟩

/-- C47_undisturbed_partial applies: two calls without disturbance, the second returns its own
id. -/
example :
    (Hist.run echo echoParse [.call "a" none []]).timeouts = 0 ∧
    (Hist.run echo echoParse [.call "a" none []]).cancelsSent = 0 ∧
    ((Hist.run echo echoParse [.call "a" none []]).world.call echo echoParse exDec "b" none []).2 =
      some (.ok 2) := by
  refine ⟨by decide +kernel, by decide +kernel, rfl⟩

/-- C47_stuck applies after a timeout, and after a cancel. -/
example :
    (Hist.run echo echoParse [.call "a" none [.timeout]]).timeouts = 1 ∧
    (Hist.run echo echoParse [.call "a" none [.next, .cancel]]).cancelsSent = 1 := by
  refine ⟨by decide +kernel, by decide +kernel⟩

/-- **C47 is false of the code.**  There are a plugin that answers every request in order and a
history whose first call timed out, such that a later call for which the plugin's answer arrives
in time (nothing happens while it waits but lines arriving) does not return that answer. -/
theorem C47_full_false : ¬ ∀ (P : Plugin) (parse : String → Option Json) (steps : List Step)
    (m : String) (p : Option Json) (j : Json) (x : Int),
    P.Answers parse →
    parse (P.answer ⟨(Hist.run P parse steps).world.client.nextId, m, p⟩) = some j →
    decodeResponse j =
      some ⟨some (.int x), none, .number (Hist.run P parse steps).world.client.nextId⟩ →
    ((Hist.run P parse steps).world.call P parse exDec m p []).2 = some (.ok x) := by
  intro h
  have h1 := h echo echoParse [.call "a" none [.timeout]] "b" none (echoJson 2) 2 echo_answers
    (echoParse_idText 2) (by rfl)
  have h2 := C47_stuck echo echoParse exDec echo_answers [.call "a" none [.timeout]] "b" none []
    (by decide) (Or.inl (by decide +kernel))
  rw [h1] at h2
  rcases h2 with h2 | h2 <;> cases h2

/-- The same for a cancelled call. -/
theorem C47_cancel_false :
    ((Hist.run echo echoParse [.call "a" none [.cancel]]).world.call echo echoParse exDec "b" none
      []).2 ≠ some (.ok 3) := by
  have h2 := C47_stuck echo echoParse exDec echo_answers [.call "a" none [.cancel]] "b" none []
    (by decide) (Or.inr (by decide +kernel))
  rcases h2 with h2 | h2 <;> rw [h2] <;> simp

end Hodu.Rpc
