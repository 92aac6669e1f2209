import Verif.Props.Rpc
import Verif.Props.RpcEnd

/-!
# C46, C48, C56: malformed lines, malformed versions, codes out of range

What the client does with messages and version texts that a correct plugin would not send.
-/

namespace Hodu.Rpc

/-! ## Version texts of any form -/

/-- A piece of a version text that is a number: an optional plus sign and at least one decimal
digit, of a value below `2 ^ 32`. -/
def IsNumber (p : List Char) (n : Nat) : Prop :=
  n < 2 ^ 32 ∧ ∃ ds : List Nat, ds ≠ [] ∧ (∀ d ∈ ds, d < 10) ∧ value ds = n ∧
    (p = numeral ds ∨ p = '+' :: numeral ds)

/-- The numbers among the pieces, in order. -/
inductive Numbers : List (List Char) → List Nat → Prop
  | nil : Numbers [] []
  | skip {p ps ns} (h : ∀ n, ¬ IsNumber p n) (hs : Numbers ps ns) : Numbers (p :: ps) ns
  | take {p n ps ns} (h : IsNumber p n) (hs : Numbers ps ns) : Numbers (p :: ps) (n :: ns)

/-- The pieces of a text between its dots. -/
def Pieces (v : List Char) (ps : List (List Char)) : Prop :=
  ps ≠ [] ∧ (∀ p ∈ ps, '.' ∉ p) ∧ v = (ps.intersperse ['.']).flatten

theorem digit_some (c : Char) (d : Nat) (h : digit? c = some d) : d < 10 ∧ c = Nat.digitChar d := by
  unfold digit? at h
  split at h
  · rename_i hc
    have h0 : '0'.toNat = 48 := by decide
    have h9 : '9'.toNat = 57 := by decide
    rw [h0, h9] at hc
    rw [h0] at h
    simp only [Option.some.injEq] at h
    refine ⟨by omega, ?_⟩
    have hn : c.toNat = (Nat.digitChar d).toNat := by
      have hd : d < 10 := by omega
      have : c.toNat = d + 48 := by omega
      rw [this]
      interval_cases d <;> decide
    exact Char.toNat_inj.mp hn
  · cases h

theorem parseDigits_some : ∀ (cs : List Char) (a n : Nat), parseDigits a cs = some n → a < 2 ^ 32 →
    n < 2 ^ 32 ∧ ∃ ds : List Nat, ds.length = cs.length ∧ (∀ d ∈ ds, d < 10) ∧
      ds.foldl (fun a d => a * 10 + d) a = n ∧ cs = numeral ds := by
  intro cs
  induction cs with
  | nil =>
    intro a n h ha
    simp only [parseDigits, Option.some.injEq] at h
    exact ⟨h ▸ ha, [], rfl, by simp, h, rfl⟩
  | cons c cs ih =>
    intro a n h _
    simp only [parseDigits] at h
    cases hd : digit? c with
    | none => rw [hd] at h; cases h
    | some d =>
      rw [hd] at h
      simp only at h
      split at h
      · rename_i hlt
        obtain ⟨h1, ds, h2, h3, h4, h5⟩ := ih _ _ h hlt
        obtain ⟨hd1, hd2⟩ := digit_some c d hd
        refine ⟨h1, d :: ds, by simp [h2], ?_, h4, ?_⟩
        · intro x hx
          rcases List.mem_cons.mp hx with rfl | hx
          · exact hd1
          · exact h3 x hx
        · simp [numeral, hd2, h5]
      · cases h

theorem parseU32_iff (p : List Char) (n : Nat) : parseU32 p = some n ↔ IsNumber p n := by
  constructor
  · intro h
    have key : ∀ (c : Char) (cs : List Char), parseDigits 0 (c :: cs) = some n → n < 2 ^ 32 ∧
        ∃ ds : List Nat, ds ≠ [] ∧ (∀ d ∈ ds, d < 10) ∧ value ds = n ∧ c :: cs = numeral ds := by
      intro c cs hp
      obtain ⟨h1, ds, h2, h3, h4, h5⟩ := parseDigits_some _ _ _ hp (by norm_num)
      refine ⟨h1, ds, ?_, h3, h4, h5⟩
      rintro rfl
      simp at h2
    unfold parseU32 at h
    split at h
    · obtain ⟨h1, ds, h2, h3, h4, h5⟩ := key _ _ h
      exact ⟨h1, ds, h2, h3, h4, Or.inr (by rw [h5])⟩
    · split at h
      · cases h
      · obtain ⟨h1, ds, h2, h3, h4, h5⟩ := key _ _ h
        exact ⟨h1, ds, h2, h3, h4, Or.inl h5⟩
    · cases h
  · rintro ⟨h1, ds, h2, h3, rfl, rfl | rfl⟩
    · exact parseU32_numeral ds h3 h2 h1
    · cases ds with
      | nil => exact absurd rfl h2
      | cons d ds => exact parseDigits_numeral (d :: ds) h3 0 h1

theorem numbers_filterMap {ps : List (List Char)} {ns : List Nat} (h : Numbers ps ns) :
    ps.filterMap parseU32 = ns := by
  induction h with
  | nil => rfl
  | @skip p ps ns h _ ih =>
    have : parseU32 p = none := by
      cases hp : parseU32 p with
      | none => rfl
      | some n => exact absurd ((parseU32_iff p n).mp hp) (h n)
    rw [List.filterMap_cons, this, ih]
  | @take p n ps ns h _ ih => rw [List.filterMap_cons, (parseU32_iff p n).mpr h, ih]

theorem splitDot_pieces : ∀ ps : List (List Char), ps ≠ [] → (∀ p ∈ ps, '.' ∉ p) →
    splitDot (ps.intersperse ['.']).flatten = ps := by
  intro ps
  induction ps with
  | nil => intro h; exact absurd rfl h
  | cons p ps ih =>
    intro _ hd
    have hp : ∀ c ∈ p, c ≠ '.' := fun c hc h => hd p (by simp) (h ▸ hc)
    cases ps with
    | nil => simpa using splitDot_end p hp
    | cons q qs =>
      have := ih (by simp) (fun r hr => hd r (by simp [hr]))
      simp only [List.intersperse, List.flatten_cons] at this ⊢
      rw [List.singleton_append, splitDot_digits p hp, this]

/-- **C48, texts of any form.**  Whatever the two texts are, the check compares the first two of
the pieces that are numbers, a missing one counting as 0, with the rule of `Compatible`; pieces
that are not numbers are skipped. -/
theorem C48_texts (v1 v2 : List Char) (ps1 ps2 : List (List Char)) (ns1 ns2 : List Nat)
    (h1 : Pieces v1 ps1) (h2 : Pieces v2 ps2) (hn1 : Numbers ps1 ns1) (hn2 : Numbers ps2 ns2) :
    isProtocolCompatible v1 v2 = true ↔
      Compatible (ns1.getD 0 0) (ns1.getD 1 0) (ns2.getD 0 0) (ns2.getD 1 0) := by
  obtain ⟨a1, b1, rfl⟩ := h1
  obtain ⟨a2, b2, rfl⟩ := h2
  rw [compat_iff]
  unfold versionKey
  rw [splitDot_pieces ps1 a1 b1, splitDot_pieces ps2 a2 b2, numbers_filterMap hn1,
    numbers_filterMap hn2]
  cases ns1 <;> cases ns2 <;> simp

/-- Every text has pieces and numbers, so `C48_texts` leaves no text out. -/
theorem exists_pieces (v : List Char) : ∃ ps ns, Pieces v ps ∧ Numbers ps ns := by
  have hp : ∀ v : List Char, ∃ p ps, '.' ∉ p ∧ (∀ q ∈ ps, '.' ∉ q) ∧
      v = ((p :: ps).intersperse ['.']).flatten := by
    intro v
    induction v with
    | nil => exact ⟨[], [], by simp, by simp, rfl⟩
    | cons c v ih =>
      obtain ⟨p, ps, h1, h2, h3⟩ := ih
      by_cases hc : c = '.'
      · subst hc
        refine ⟨[], p :: ps, by simp, ?_, ?_⟩
        · intro q hq
          rcases List.mem_cons.mp hq with rfl | hq
          · exact h1
          · exact h2 q hq
        · simp only [List.intersperse, List.flatten_cons, List.nil_append, List.singleton_append]
          rw [← h3]
      · refine ⟨c :: p, ps, ?_, h2, ?_⟩
        · simp only [List.mem_cons, not_or]; exact ⟨fun h => hc h.symm, h1⟩
        · cases ps with
          | nil => simpa using h3
          | cons q qs =>
            simp only [List.intersperse, List.flatten_cons, List.cons_append] at h3 ⊢
            rw [← h3]
  obtain ⟨p, ps, h1, h2, h3⟩ := hp v
  have hn : ∀ qs : List (List Char), ∃ ns, Numbers qs ns := by
    intro qs
    induction qs with
    | nil => exact ⟨[], .nil⟩
    | cons q qs ih =>
      obtain ⟨ns, h⟩ := ih
      by_cases hq : ∃ n, IsNumber q n
      · obtain ⟨n, hn⟩ := hq; exact ⟨_, .take hn h⟩
      · exact ⟨_, .skip (fun n h' => hq ⟨n, h'⟩) h⟩
  obtain ⟨ns, h⟩ := hn (p :: ps)
  refine ⟨_, ns, ⟨by simp, ?_, h3⟩, h⟩
  intro q hq
  rcases List.mem_cons.mp hq with rfl | hq
  · exact h1
  · exact h2 q hq

/-- Pieces and numbers of `v1.+2`: the piece `v1` is no number, the piece `+2` is. -/
example : Pieces "v1.+2".toList ["v1".toList, "+2".toList] ∧
    Numbers ["v1".toList, "+2".toList] [2] := by
  refine ⟨⟨by decide, by decide, by decide⟩, .skip ?_ (.take ⟨by decide, [2], by decide, by decide,
    by decide, Or.inr (by decide)⟩ .nil)⟩
  intro n h
  have := (parseU32_iff _ _).mpr h
  revert this
  have h0 : parseU32 "v1".toList = none := by decide +kernel
  rw [h0]
  intro h; cases h

/-! ## Lines without an id -/

/-- A JSON text that carries an id: an object with a member of that name. -/
def CarriesId (j : Json) : Prop := ∃ fs v, j = .obj fs ∧ ("id", v) ∈ fs

theorem hasId_iff (j : Json) : hasId j = true ↔ CarriesId j := by
  unfold hasId CarriesId
  cases j with
  | obj fs =>
    simp only [List.any_eq_true, beq_iff_eq, Json.obj.injEq]
    constructor
    · rintro ⟨⟨k, v⟩, hm, hk⟩
      simp only at hk
      subst hk
      exact ⟨fs, v, rfl, hm⟩
    · rintro ⟨fs', v, rfl, hm⟩
      exact ⟨_, hm, rfl⟩
  | _ => simp

theorem recvLoop_notes {R : Type} (parse : String → Option Json) (dec : Json → Option R) (id : Int)
    (rest : List Event) : ∀ (notes : List (String × Json)) (c : Client),
    (∀ p ∈ notes, p.1 ≠ "" ∧ parse p.1 = some p.2 ∧ ¬ CarriesId p.2) →
    recvLoop parse dec id c (notes.map (fun p => Event.line p.1) ++ rest) =
      recvLoop parse dec id c rest := by
  intro notes
  induction notes with
  | nil => intro c _; rfl
  | cons p notes ih =>
    intro c h
    obtain ⟨h1, h2, h3⟩ := h p (by simp)
    have h4 : hasId p.2 = false := by
      rw [← Bool.not_eq_true, hasId_iff]; exact h3
    simp only [List.map_cons, List.cons_append, recvLoop, if_neg h1, h2, h4]
    exact ih c (fun q hq => h q (by simp [hq]))

/-- **C46, what is skipped.**  While a call waits, every line that parses to something without an
id (an object without that member, or no object at all) leaves the call waiting; the first line
that carries an id ends it, with the result it would have had without the lines before it, and
what comes later is left for the next call. -/
theorem C46_skips {R : Type} (parse : String → Option Json) (dec : Json → Option R) (c : Client)
    (m : String) (ps : Option Json) (notes : List (String × Json)) (l : String) (j : Json)
    (rest : List Event)
    (hn : ∀ p ∈ notes, p.1 ≠ "" ∧ parse p.1 = some p.2 ∧ ¬ CarriesId p.2)
    (hl0 : l ≠ "") (hl : parse l = some j) (hj : CarriesId j) :
    (c.call parse dec m ps true (notes.map (fun p => Event.line p.1))).2 = (none, []) ∧
      ∃ o, (c.call parse dec m ps true
        (notes.map (fun p => Event.line p.1) ++ Event.line l :: rest)).2 = (some o, rest) ∧
      (c.call parse dec m ps true [Event.line l]).2 = (some o, []) := by
  have hj' : hasId j = true := (hasId_iff j).mpr hj
  unfold Client.call
  simp only [if_true]
  refine ⟨?_, ?_⟩
  · have := recvLoop_notes parse dec c.nextId [] notes
      { nextId := wrapI64 (c.nextId + 1), currentId := c.nextId,
        sent := c.sent ++ [⟨c.nextId, m, ps⟩] } hn
    rw [List.append_nil] at this
    rw [this]
    rfl
  · rw [recvLoop_notes parse dec c.nextId _ notes _ hn]
    simp only [recvLoop, if_neg hl0, hl, hj', if_true]
    exact ⟨_, rfl, rfl⟩

/-- Notes that are skipped: an object without id, and a line that is a bare number. -/
example : ∃ parse : String → Option Json, ∃ notes : List (String × Json),
    notes.length = 2 ∧ (∀ p ∈ notes, p.1 ≠ "" ∧ parse p.1 = some p.2 ∧ ¬ CarriesId p.2) ∧
      ∃ j, parse "r" = some j ∧ CarriesId j := by
  refine ⟨fun l => if l = "n" then some (.obj [("method", .str "x")])
    else if l = "7" then some (.int 7) else some (.obj [("id", .null)]),
    [("n", .obj [("method", .str "x")]), ("7", .int 7)], rfl, ?_, .obj [("id", .null)], rfl,
    ⟨_, .null, rfl, by simp⟩⟩
  intro p hp
  simp only [List.mem_cons, List.not_mem_nil, or_false] at hp
  rcases hp with rfl | rfl
  · refine ⟨by decide, rfl, ?_⟩
    rintro ⟨fs, v, h1, h2⟩
    injection h1 with h1
    subst h1
    simp at h2
  · refine ⟨by decide, rfl, ?_⟩
    rintro ⟨fs, v, h1, h2⟩
    cases h1

/-! ## Cancelling when nothing is being waited for -/

/-- **C46, idle cancels.**  Before the first call no cancel request is ever written, and after a
call that was ended by a line carrying an id, a cancel writes nothing and changes nothing, until
the next call. -/
theorem C46_cancel_idle (parse : String → Option Json) :
    (∀ ops : List Op, (∀ o ∈ ops, o = .cancel ∨ o = .shutdown) →
      ∀ s ∈ (Client.after parse ops).sent, s.method ≠ "$/cancel") ∧
    ∀ {R : Type} (dec : Json → Option R) (c : Client) (m : String) (ps : Option Json)
      (l : String) (j : Json), l ≠ "" → parse l = some j → CarriesId j →
      (c.call parse dec m ps true [Event.line l]).1.cancel =
        (c.call parse dec m ps true [Event.line l]).1 := by
  refine ⟨?_, ?_⟩
  · have key : ∀ (ops : List Op) (c : Client), (∀ o ∈ ops, o = .cancel ∨ o = .shutdown) →
        c.currentId = 0 → (∀ s ∈ c.sent, s.method ≠ "$/cancel") →
        ∀ s ∈ (ops.foldl (Client.step parse) c).sent, s.method ≠ "$/cancel" := by
      intro ops
      induction ops with
      | nil => intro c _ _ h; exact h
      | cons o ops ih =>
        intro c ho h0 h
        rw [List.foldl_cons]
        have hops : ∀ o ∈ ops, o = .cancel ∨ o = .shutdown := fun q hq => ho q (by simp [hq])
        rcases ho o (by simp) with rfl | rfl
        · have : c.step parse .cancel = c := by simp [Client.step, Client.cancel, h0]
          rw [this]
          exact ih c hops h0 h
        · refine ih _ hops ?_ ?_
          · simpa [Client.step, Client.shutdown] using h0
          · intro s hs
            simp only [Client.step, Client.shutdown, List.mem_append, List.mem_singleton] at hs
            rcases hs with hs | rfl
            · exact h s hs
            · simp
    intro ops ho
    exact key ops Client.new ho rfl (by simp [Client.new])
  · intro R dec c m ps l j hl0 hl hj
    have hj' : hasId j = true := (hasId_iff j).mpr hj
    unfold Client.call
    simp only [if_true, recvLoop, if_neg hl0, hl, hj', Client.cancel]

/-- Cancels and shutdowns before any call: two requests are written, neither is a cancel. -/
example : ((Client.after exParse [.cancel, .shutdown, .cancel, .shutdown]).sent.map Sent.method) =
    ["shutdown", "shutdown"] := rfl

/-! ## Error codes out of range -/

/-- **C56, codes.**  An error response whose code is outside of `i32` is not reported as an error
of the plugin: the call ends with a parse error, whatever the message and the data are. -/
theorem C56_code_range {R : Type} (dec : Json → Option R) (id : Int) (e : RpcError) (n : ReqId)
    (h : e.code < -2 ^ 31 ∨ 2 ^ 31 ≤ e.code) :
    onResponse dec id (encodeResponse ⟨none, some e, n⟩) = .error .parse := by
  have hd : decodeError (encodeError e) = none := by
    obtain ⟨c, m, d⟩ := e
    have hc : ¬ (-2147483648 ≤ c ∧ c < 2147483648) := by
      intro hc
      rcases h with h | h
      · simp only at h; omega
      · simp only at h; omega
    unfold decodeError encodeError
    cases d with
    | none => simp [member, optMember]; omega
    | some d => cases d <;> simp [member, optMember] <;> omega
  have : decodeResponse (encodeResponse ⟨none, some e, n⟩) = none := by
    unfold decodeResponse encodeResponse
    simp only [encodeError, List.cons_append, List.nil_append] at hd
    simp only [encodeError, List.cons_append, List.nil_append]
    simp [member, optMember, optError, hd]
  unfold onResponse
  rw [this]

/-- A code one past the range. -/
example : (2147483648 : Int) < -2 ^ 31 ∨ (2 : Int) ^ 31 ≤ 2147483648 := by norm_num

end Hodu.Rpc
