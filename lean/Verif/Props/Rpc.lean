import Verif.Model.Rpc
import Mathlib.Tactic.Linarith
import Mathlib.Tactic.NormNum
import Mathlib.Tactic.IntervalCases

/-!
# C46, C48: plugin calls return their own answer; protocol versions
-/

namespace Hodu.Rpc

/-! ## Histories of a client -/

/-- One use of a client: a call with everything that happens while it waits, a cancel when no
call is waiting (another thread may do so at any time), or a shutdown. -/
inductive Op where
  | call (method : String) (params : Option Json) (sendOk : Bool) (es : List Event)
  | cancel
  | shutdown

/-- What one operation does to the client. -/
def Client.step (parse : String → Option Json) (c : Client) : Op → Client
  | .call m p ok es => (c.call parse (some : Json → Option Json) m p ok es).1
  | .cancel => c.cancel
  | .shutdown => c.shutdown

/-- A client after a history of operations. -/
def Client.after (parse : String → Option Json) (ops : List Op) : Client :=
  ops.foldl (Client.step parse) Client.new

/-- The number of cancels among the events seen by a call. -/
def cancels (es : List Event) : Nat :=
  es.countP fun e => match e with | .cancel => true | _ => false

/-- How many ids an operation may use up. -/
def Op.ids : Op → Nat
  | .call _ _ _ es => 1 + cancels es
  | .cancel => 1
  | .shutdown => 1

/-- The request ids of a client that has handed out `n` ids: the requests carry the ids number
`k` for increasing `k < n`. -/
structure Ids (c : Client) (n : Nat) : Prop where
  next : c.nextId = wrapI64 (1 + n)
  sent : ∃ ks : List Nat, c.sent.map Sent.id = ks.map (fun k : Nat => wrapI64 (1 + (k : Int))) ∧
    ks.Pairwise (· < ·) ∧ ∀ k ∈ ks, k < n

theorem wrapI64_succ (n : Nat) : wrapI64 (wrapI64 (1 + n) + 1) = wrapI64 (1 + ((n + 1 : Nat) : Int)) := by
  unfold wrapI64
  rw [Int.bmod_add_bmod]
  congr 1

theorem wrapI64_inj {a b : Nat} (ha : a < 2 ^ 64) (hb : b < 2 ^ 64)
    (h : wrapI64 (1 + (a : Int)) = wrapI64 (1 + (b : Int))) : a = b := by
  unfold wrapI64 at h
  have h2 : (1 + (a : Int)) % ((2 ^ 64 : Nat) : Int) = (1 + (b : Int)) % ((2 ^ 64 : Nat) : Int) := by
    rw [← Int.bmod_emod, h, Int.bmod_emod]
  norm_num at h2 ha hb
  omega

theorem Ids.nodup {c : Client} {n : Nat} (h : Ids c n) (hn : n ≤ 2 ^ 64) :
    (c.sent.map Sent.id).Nodup := by
  obtain ⟨ks, hk, hp, hlt⟩ := h.sent
  rw [hk]
  have : (ks.map (fun k : Nat => wrapI64 (1 + (k : Int)))).Pairwise (· ≠ ·) := by
    rw [List.pairwise_map]
    refine hp.imp_of_mem ?_
    intro a b ha hb hab he
    have := wrapI64_inj (lt_of_lt_of_le (hlt a ha) hn) (lt_of_lt_of_le (hlt b hb) hn) he
    omega
  exact this

theorem Ids.push {c : Client} {n : Nat} (h : Ids c n) (m : String) (p : Option Json) (cur : Int) :
    Ids ⟨wrapI64 (c.nextId + 1), cur, c.sent ++ [⟨c.nextId, m, p⟩]⟩ (n + 1) := by
  obtain ⟨ks, hk, hp, hlt⟩ := h.sent
  refine ⟨?_, ks ++ [n], ?_, ?_, ?_⟩
  · simp only [h.next]
    exact wrapI64_succ n
  · simp [hk, h.next]
  · rw [List.pairwise_append]
    exact ⟨hp, by simp, fun a ha b hb => by
      simp at hb; subst hb; exact hlt a ha⟩
  · intro k hk2
    rw [List.mem_append] at hk2
    rcases hk2 with hk2 | hk2
    · have := hlt k hk2; omega
    · simp at hk2; omega

theorem Ids.skip {c : Client} {n : Nat} (h : Ids c n) (cur : Int) :
    Ids ⟨wrapI64 (c.nextId + 1), cur, c.sent⟩ (n + 1) := by
  obtain ⟨ks, hk, hp, hlt⟩ := h.sent
  refine ⟨?_, ks, hk, hp, fun k hk2 => by have := hlt k hk2; omega⟩
  simp only [h.next]
  exact wrapI64_succ n

theorem Ids.current {c : Client} {n : Nat} (h : Ids c n) (cur : Int) :
    Ids { c with currentId := cur } n := ⟨h.next, h.sent⟩

theorem Ids.cancel {c : Client} {n : Nat} (h : Ids c n) :
    ∃ n', n' ≤ n + 1 ∧ Ids c.cancel n' := by
  unfold Client.cancel
  by_cases hc : c.currentId = 0
  · rw [if_pos hc]; exact ⟨n, by omega, h⟩
  · rw [if_neg hc]; exact ⟨n + 1, by omega, h.push _ _ _⟩

theorem cancel_sent (c : Client) : c.sent <+: c.cancel.sent := by
  unfold Client.cancel
  split
  · exact List.prefix_rfl
  · exact List.prefix_append _ _

theorem recvLoop_ids {R : Type} (parse : String → Option Json) (dec : Json → Option R) (id : Int)
    (es : List Event) : ∀ (c : Client) (n : Nat), Ids c n →
    ∃ n', n' ≤ n + cancels es ∧ Ids (recvLoop parse dec id c es).1 n' ∧
      c.sent <+: (recvLoop parse dec id c es).1.sent := by
  induction es with
  | nil => intro c n h; exact ⟨n, by omega, h, List.prefix_rfl⟩
  | cons e es ih =>
    intro c n h
    cases e with
    | cancel =>
      obtain ⟨n1, hn1, h1⟩ := h.cancel
      obtain ⟨n2, hn2, h2, h3⟩ := ih c.cancel n1 h1
      refine ⟨n2, ?_, h2, (cancel_sent c).trans h3⟩
      simp only [cancels, List.countP_cons] at hn2 ⊢
      simp
      omega
    | ioError => exact ⟨n, by omega, h, List.prefix_rfl⟩
    | timeout => exact ⟨n, by omega, h, List.prefix_rfl⟩
    | disconnected => exact ⟨n, by omega, h, List.prefix_rfl⟩
    | line l =>
      have hc : cancels (Event.line l :: es) = cancels es := by simp [cancels]
      rw [hc]
      unfold recvLoop
      split
      · exact ⟨n, by omega, h, List.prefix_rfl⟩
      · split
        · exact ⟨n, by omega, h, List.prefix_rfl⟩
        · split
          · exact ⟨n, by omega, h.current 0, List.prefix_rfl⟩
          · exact ih c n h

theorem call_ids {R : Type} (parse : String → Option Json) (dec : Json → Option R) (c : Client)
    (m : String) (p : Option Json) (ok : Bool) (es : List Event) (n : Nat) (h : Ids c n) :
    ∃ n', n' ≤ n + (1 + cancels es) ∧ Ids (c.call parse dec m p ok es).1 n' := by
  unfold Client.call
  cases ok with
  | false => exact ⟨n + 1, by omega, h.skip _⟩
  | true =>
    obtain ⟨n', h1, h2, -⟩ := recvLoop_ids parse dec c.nextId es _ _ (h.push m p c.nextId)
    exact ⟨n', by omega, h2⟩

theorem after_ids (parse : String → Option Json) (ops : List Op) :
    ∃ n, n ≤ (ops.map Op.ids).sum ∧ Ids (Client.after parse ops) n := by
  unfold Client.after
  have key : ∀ (ops : List Op) (c : Client) (n : Nat), Ids c n →
      ∃ n', n' ≤ n + (ops.map Op.ids).sum ∧ Ids (ops.foldl (Client.step parse) c) n' := by
    intro ops
    induction ops with
    | nil => intro c n h; exact ⟨n, by simp, h⟩
    | cons o ops ih =>
      intro c n h
      have h1 : ∃ n1, n1 ≤ n + o.ids ∧ Ids (c.step parse o) n1 := by
        cases o with
        | call m p ok es => exact call_ids parse _ c m p ok es n h
        | cancel => exact h.cancel
        | shutdown => exact ⟨n + 1, le_rfl, h.push _ _ _⟩
      obtain ⟨n1, hn1, h1⟩ := h1
      obtain ⟨n2, hn2, h2⟩ := ih _ n1 h1
      refine ⟨n2, ?_, h2⟩
      simp only [List.map_cons, List.sum_cons]
      omega
  have h0 : Ids Client.new 0 := ⟨by decide, [], rfl, by simp, by simp⟩
  simpa using key ops Client.new 0 h0

/-! ## What a successful wait has read -/

theorem member_one {k : String} {fs : List (String × Json)} {v : Json}
    (h : member k fs = .one v) : (k, v) ∈ fs ∧ ∀ w, (k, w) ∈ fs → w = v := by
  unfold member at h
  split at h
  · cases h
  · rename_i f hf
    cases h
    have hm : f ∈ fs.filter (fun f => f.1 == k) := by rw [hf]; simp
    have hm2 := List.mem_filter.mp hm
    have hk : f.1 = k := by simpa using hm2.2
    refine ⟨by rw [← hk]; exact hm2.1, fun w hw => ?_⟩
    have : (k, w) ∈ fs.filter (fun f => f.1 == k) := List.mem_filter.mpr ⟨hw, by simp⟩
    rw [hf] at this
    simp at this
    rw [← this]
  · cases h

theorem member_missing {k : String} {fs : List (String × Json)} (h : member k fs = .missing) :
    ∀ w, (k, w) ∉ fs := by
  unfold member at h
  split at h
  · rename_i hf
    intro w hw
    have : (k, w) ∈ fs.filter (fun f => f.1 == k) := List.mem_filter.mpr ⟨hw, by simp⟩
    rw [hf] at this
    cases this
  · cases h
  · cases h

/-- The JSON text of a response: it carries the id `id`, the result `v` and no error. -/
def IsAnswer (j : Json) (id : Int) (v : Json) : Prop :=
  ∃ fs, j = .obj fs ∧
    ("id", Json.int id) ∈ fs ∧ (∀ w, ("id", w) ∈ fs → w = .int id) ∧
    ("result", v) ∈ fs ∧ (∀ w, ("result", w) ∈ fs → w = v) ∧
    (∀ w, ("error", w) ∈ fs → w = .null)

theorem onResponse_ok {R : Type} {dec : Json → Option R} {id : Int} {j : Json} {x : R}
    (h : onResponse dec id j = .ok x) : ∃ v, IsAnswer j id v ∧ dec v = some x := by
  unfold onResponse at h
  split at h
  · cases h
  rename_i r hr
  split at h
  · cases h
  rename_i hid
  have hid : r.id = .number id := not_not.mp hid
  split at h
  · cases h
  rename_i herr
  split at h
  · cases h
  rename_i v hv
  split at h
  · cases h
  rename_i y hy
  cases h
  refine ⟨v, ?_, hy⟩
  unfold decodeResponse at hr
  split at hr
  · rename_i fs
    split at hr
    · rename_i hj hres he hidm
      rename_i s rr e i
      obtain ⟨i', hi', rfl⟩ := Option.map_eq_some_iff.mp hr
      simp only at hid herr hv
      subst hid
      refine ⟨fs, rfl, ?_⟩
      have hi : i = .int id := by
        unfold decodeId at hi'
        split at hi'
        · split at hi'
          · cases hi'; rfl
          · cases hi'
        · cases hi'
        · cases hi'
      subst hi
      obtain ⟨a1, a2⟩ := member_one hidm
      refine ⟨a1, a2, ?_⟩
      rw [hv] at hres
      have hm : member "result" fs = .one v := by
        generalize member "result" fs = mm at hres
        unfold optMember at hres
        split at hres
        · cases hres
        · cases hres
        · cases hres; rfl
        · cases hres
      obtain ⟨b1, b2⟩ := member_one hm
      refine ⟨b1, b2, ?_⟩
      intro w hw
      rw [herr] at he
      cases hmm : member "error" fs with
      | missing => exact absurd hw (member_missing hmm w)
      | one u =>
        rw [hmm] at he
        have hu : u = .null := by
          unfold optError at he
          split at he
          · rename_i h1; cases h1
          · rename_i h1; cases h1; rfl
          · rename_i h1 h2
            cases h2
            obtain ⟨y, -, hy⟩ := Option.map_eq_some_iff.mp he
            cases hy
          · cases he
        rw [(member_one hmm).2 w hw, hu]
      | dup => rw [hmm] at he; cases he
    · cases hr
  · cases hr

theorem recvLoop_ok {R : Type} (parse : String → Option Json) (dec : Json → Option R) (id : Int)
    (x : R) (es : List Event) : ∀ c : Client,
    (recvLoop parse dec id c es).2.1 = some (.ok x) →
    ∃ pre l post j v, es = pre ++ Event.line l :: post ∧ parse l = some j ∧ IsAnswer j id v ∧
      dec v = some x ∧
      ∀ e ∈ pre, e = .cancel ∨ ∃ l j, e = .line l ∧ parse l = some j ∧ hasId j = false := by
  induction es with
  | nil => intro c h; cases h
  | cons e es ih =>
    intro c h
    have step : ∀ c : Client, (e = .cancel ∨ ∃ l j, e = .line l ∧ parse l = some j ∧ hasId j = false) →
        (recvLoop parse dec id c es).2.1 = some (.ok x) →
        ∃ pre l post j v, e :: es = pre ++ Event.line l :: post ∧ parse l = some j ∧
          IsAnswer j id v ∧ dec v = some x ∧
          ∀ e ∈ pre, e = .cancel ∨ ∃ l j, e = .line l ∧ parse l = some j ∧ hasId j = false := by
      intro c he hx
      obtain ⟨pre, l, post, j, v, h1, h2, h3, h4, h5⟩ := ih c hx
      refine ⟨e :: pre, l, post, j, v, by rw [h1]; rfl, h2, h3, h4, ?_⟩
      intro e' he'
      rcases List.mem_cons.mp he' with rfl | he'
      · exact he
      · exact h5 e' he'
    cases e with
    | cancel => exact step c.cancel (Or.inl rfl) h
    | ioError => cases h
    | timeout => cases h
    | disconnected => cases h
    | line l =>
      unfold recvLoop at h
      split at h
      · cases h
      · split at h
        · cases h
        · rename_i j hj
          split at h
          · have h : onResponse dec id j = .ok x := by simpa using h
            obtain ⟨v, hv, hd⟩ := onResponse_ok h
            exact ⟨[], l, es, j, v, rfl, hj, hv, hd, by simp⟩
          · rename_i hid
            exact step c (Or.inr ⟨l, j, rfl, hj, by simpa using hid⟩) h

/-- **C46.**  After any history of calls, timeouts, failures, cancels and shutdowns (with fewer
than 2^64 requests altogether), whatever a plugin sends: if a call returns `Ok x`, then the
request it wrote has an id no other request ever had, and among the events it saw there is a line
whose JSON is a response with that very id, no error and a result that deserialises to `x`;
everything before that line was a notification (JSON without an `id`) or a cancel. -/
theorem C46_own_response {R : Type} (parse : String → Option Json) (dec : Json → Option R)
    (ops : List Op) (method : String) (params : Option Json) (sendOk : Bool) (es : List Event)
    (x : R) (hb : (ops.map Op.ids).sum + (1 + cancels es) ≤ 2 ^ 64)
    (h : ((Client.after parse ops).call parse dec method params sendOk es).2.1 = some (.ok x)) :
    ∃ s pre l post j v,
      let c' := ((Client.after parse ops).call parse dec method params sendOk es).1
      c'.sent[(Client.after parse ops).sent.length]? = some s ∧
      s.method = method ∧ s.params = params ∧ (c'.sent.map Sent.id).Nodup ∧
      es = pre ++ Event.line l :: post ∧ parse l = some j ∧ IsAnswer j s.id v ∧ dec v = some x ∧
      ∀ e ∈ pre, e = .cancel ∨ ∃ l j, e = .line l ∧ parse l = some j ∧ hasId j = false := by
  obtain ⟨n, hn, hc⟩ := after_ids parse ops
  generalize Client.after parse ops = c at *
  obtain ⟨n', hn', hc'⟩ := call_ids parse dec c method params sendOk es n hc
  have hnd := hc'.nodup (by omega)
  unfold Client.call at h hnd ⊢
  cases sendOk with
  | false => simp at h
  | true =>
    simp only [if_true] at h hnd ⊢
    obtain ⟨pre, l, post, j, v, h1, h2, h3, h4, h5⟩ := recvLoop_ok parse dec _ x es _ h
    obtain ⟨-, -, -, hp⟩ := recvLoop_ids parse dec c.nextId es _ _ (hc.push method params c.nextId)
    refine ⟨⟨c.nextId, method, params⟩, pre, l, post, j, v, ?_, rfl, rfl, hnd, h1, h2, h3, h4, h5⟩
    obtain ⟨t, ht⟩ := hp
    rw [← ht]
    simp

/-- A toy parser for the examples: three different lines. -/
def exParse (l : String) : Option Json :=
  if l = "note" then some (.obj [("jsonrpc", .str "2.0"), ("method", .str "$/progress")])
  else if l = "r1" then
    some (.obj [("jsonrpc", .str "2.0"), ("result", .int 41), ("id", .int 1)])
  else if l = "r2" then
    some (.obj [("jsonrpc", .str "2.0"), ("result", .int 42), ("id", .int 2)])
  else none

/-- A decoder for the examples: the result is an integer. -/
def exDec : Json → Option Int
  | .int n => some n
  | _ => none

/-- C46 applies to a call that returns `Ok 42` after a first call failed to write, a notification
and its own response. -/
example : ((Client.after exParse [.call "a" none false []]).call exParse exDec "b" none true
    [.line "note", .line "r2"]).2.1 = some (.ok 42) := rfl

/-! ## C48 -/

/-- Decimal text of a list of digits. -/
def numeral (ds : List Nat) : List Char := ds.map Nat.digitChar

/-- The number a list of decimal digits denotes, most significant digit first. -/
def value (ds : List Nat) : Nat := ds.foldl (fun a d => a * 10 + d) 0

/-- `v` is a version text with the given major and minor number: digits, a dot, digits, and then
nothing or a dot followed by anything (`1.2.3`, `1.2`, `1.2.0-beta+x.y`). -/
def IsVersion (v : List Char) (major minor : Nat) : Prop :=
  ∃ ds es rest, ds ≠ [] ∧ es ≠ [] ∧ (∀ d ∈ ds, d < 10) ∧ (∀ d ∈ es, d < 10) ∧
    value ds = major ∧ value es = minor ∧ (rest = [] ∨ ∃ t, rest = '.' :: t) ∧
    v = numeral ds ++ '.' :: (numeral es ++ rest)

/-- Two texts are compatible iff majors agree, and minors agree too when the major is 0. -/
def Compatible (m1 n1 m2 n2 : Nat) : Prop := m1 = m2 ∧ (m1 = 0 → n1 = n2)

theorem compat_iff (v1 v2 : List Char) :
    isProtocolCompatible v1 v2 = true ↔
      Compatible (versionKey v1).1 (versionKey v1).2 (versionKey v2).1 (versionKey v2).2 := by
  unfold isProtocolCompatible Compatible
  generalize versionKey v1 = k1
  generalize versionKey v2 = k2
  by_cases h1 : k1.1 = 0
  · simp only [h1]
    by_cases h2 : k2.1 = 0
    · simp [h2]
    · simp only [true_or, if_true]
      have h3 : ¬ 0 = k2.1 := fun h => h2 h.symm
      simp [h3]
  · by_cases h2 : k2.1 = 0
    · simp [h1, h2]
    · simp [h1, h2]

theorem splitDot_digits (ds : List Char) (hd : ∀ c ∈ ds, c ≠ '.') (rest : List Char) :
    splitDot (ds ++ '.' :: rest) = ds :: splitDot rest := by
  induction ds with
  | nil => simp [splitDot]
  | cons c ds ih =>
    have hc : c ≠ '.' := hd c (by simp)
    simp only [List.cons_append, splitDot, if_neg hc]
    rw [ih (fun c hc => hd c (by simp [hc]))]

theorem splitDot_end (ds : List Char) (hd : ∀ c ∈ ds, c ≠ '.') : splitDot ds = [ds] := by
  induction ds with
  | nil => rfl
  | cons c ds ih =>
    have hc : c ≠ '.' := hd c (by simp)
    simp only [splitDot, if_neg hc]
    rw [ih (fun c hc => hd c (by simp [hc]))]

theorem splitDot_head (ds : List Char) (hd : ∀ c ∈ ds, c ≠ '.') (rest : List Char)
    (hr : rest = [] ∨ ∃ t, rest = '.' :: t) : ∃ l, splitDot (ds ++ rest) = ds :: l := by
  rcases hr with rfl | ⟨t, rfl⟩
  · exact ⟨[], by rw [List.append_nil]; exact splitDot_end ds hd⟩
  · exact ⟨_, splitDot_digits ds hd t⟩

theorem digit_digitChar (d : Nat) (h : d < 10) : digit? (Nat.digitChar d) = some d := by
  interval_cases d <;> decide

theorem digitChar_ne (d : Nat) (h : d < 10) : Nat.digitChar d ≠ '.' ∧ Nat.digitChar d ≠ '+' := by
  interval_cases d <;> decide

theorem foldl_ge (ds : List Nat) : ∀ a : Nat, a ≤ ds.foldl (fun a d => a * 10 + d) a := by
  induction ds with
  | nil => intro a; exact le_rfl
  | cons d ds ih => intro a; exact le_trans (by omega) (ih (a * 10 + d))

theorem parseDigits_numeral (ds : List Nat) (hd : ∀ d ∈ ds, d < 10) : ∀ a : Nat,
    ds.foldl (fun a d => a * 10 + d) a < 2 ^ 32 →
    parseDigits a (numeral ds) = some (ds.foldl (fun a d => a * 10 + d) a) := by
  induction ds with
  | nil => intro a _; rfl
  | cons d ds ih =>
    intro a ha
    have h1 := foldl_ge ds (a * 10 + d)
    have h2 : a * 10 + d < 2 ^ 32 := lt_of_le_of_lt h1 ha
    simp only [numeral, List.map_cons, parseDigits, digit_digitChar d (hd d (by simp))]
    rw [if_pos h2]
    exact ih (fun d hd' => hd d (by simp [hd'])) _ ha

theorem parseU32_numeral (ds : List Nat) (hd : ∀ d ∈ ds, d < 10) (hne : ds ≠ [])
    (hv : value ds < 2 ^ 32) : parseU32 (numeral ds) = some (value ds) := by
  cases ds with
  | nil => exact absurd rfl hne
  | cons d ds =>
    have hp : Nat.digitChar d ≠ '+' := (digitChar_ne d (hd d (by simp))).2
    have h := parseDigits_numeral (d :: ds) hd 0 hv
    simp only [numeral, List.map_cons] at h ⊢
    unfold parseU32
    split
    · rename_i heq; injection heq with h1 h2; exact absurd h1 hp
    · rename_i heq
      simp at heq
      rw [← heq.1, ← heq.2, if_neg hp]
      exact h
    · rename_i heq; simp at heq

theorem numeral_ne_dot (ds : List Nat) (hd : ∀ d ∈ ds, d < 10) : ∀ c ∈ numeral ds, c ≠ '.' := by
  intro c hc
  simp only [numeral, List.mem_map] at hc
  obtain ⟨d, h1, rfl⟩ := hc
  exact (digitChar_ne d (hd d h1)).1

theorem versionKey_of (v : List Char) (major minor : Nat) (h : IsVersion v major minor)
    (h1 : major < 2 ^ 32) (h2 : minor < 2 ^ 32) : versionKey v = (major, minor) := by
  obtain ⟨ds, es, rest, hds, hes, hd, he, rfl, rfl, hr, rfl⟩ := h
  unfold versionKey
  rw [splitDot_digits _ (numeral_ne_dot ds hd)]
  obtain ⟨l, hl⟩ := splitDot_head (numeral es) (numeral_ne_dot es he) rest hr
  rw [hl]
  simp [parseU32_numeral ds hd hds h1, parseU32_numeral es he hes h2]

/-- **C48 (part).**  Of two version texts whose numbers fit `u32`, the check accepts exactly those
that agree in the major number, and in the minor number too when the major is 0.
Missing: numbers that do not fit (see `C48_full_false`). -/
theorem C48_compatible_partial (v1 v2 : List Char) (m1 n1 m2 n2 : Nat)
    (h1 : IsVersion v1 m1 n1) (h2 : IsVersion v2 m2 n2) (b1 : m1 < 2 ^ 32) (b2 : n1 < 2 ^ 32)
    (b3 : m2 < 2 ^ 32) (b4 : n2 < 2 ^ 32) :
    isProtocolCompatible v1 v2 = true ↔ Compatible m1 n1 m2 n2 := by
  rw [compat_iff, versionKey_of v1 m1 n1 h1 b1 b2, versionKey_of v2 m2 n2 h2 b3 b4]

/-- `1.0.0` and `0.3.7` are version texts, so C48 applies to them. -/
example : IsVersion "1.0.0".toList 1 0 ∧ IsVersion "0.3.7".toList 0 3 :=
  ⟨⟨[1], [0], ".0".toList, by decide, by decide, by decide, by decide, by decide, by decide,
    Or.inr ⟨['0'], by decide⟩, by decide⟩,
   ⟨[0], [3], ".7".toList, by decide, by decide, by decide, by decide, by decide, by decide,
    Or.inr ⟨['7'], by decide⟩, by decide⟩⟩

/-- **C48, equivalence.**  On all texts, well-formed or not, the check is an equivalence
relation. -/
theorem C48_equivalence :
    (∀ v, isProtocolCompatible v v = true) ∧
    (∀ v w, isProtocolCompatible v w = isProtocolCompatible w v) ∧
    (∀ u v w, isProtocolCompatible u v = true → isProtocolCompatible v w = true →
      isProtocolCompatible u w = true) := by
  refine ⟨fun v => ?_, fun v w => ?_, fun u v w h1 h2 => ?_⟩
  · rw [compat_iff]; exact ⟨rfl, fun _ => rfl⟩
  · rw [Bool.eq_iff_iff, compat_iff, compat_iff]
    unfold Compatible
    constructor <;> (rintro ⟨a, b⟩; exact ⟨a.symm, fun h => (b (by omega)).symm⟩)
  · rw [compat_iff] at *
    unfold Compatible at *
    exact ⟨h1.1.trans h2.1, fun h => (h1.2 h).trans (h2.2 (by omega))⟩

/-- The equivalence is not the trivial one. -/
example : isProtocolCompatible "1.2.0".toList "1.7.3".toList = true ∧
    isProtocolCompatible "0.2.0".toList "0.3.0".toList = false ∧
    isProtocolCompatible "1.0.0".toList "2.0.0".toList = false := by decide +kernel

/-- **C48 is false as stated.**  A number that does not fit `u32` is dropped and the next one
takes its place: version `4294967296.1.0` is accepted by a `1.0.0` command line. -/
theorem C48_full_false : ¬ ∀ (v1 v2 : List Char) (m1 n1 m2 n2 : Nat),
    IsVersion v1 m1 n1 → IsVersion v2 m2 n2 →
    (isProtocolCompatible v1 v2 = true ↔ Compatible m1 n1 m2 n2) := by
  intro h
  have h1 : IsVersion "4294967296.1.0".toList 4294967296 1 :=
    ⟨[4, 2, 9, 4, 9, 6, 7, 2, 9, 6], [1], ".0".toList, by decide, by decide, by decide, by decide,
      by decide, by decide, Or.inr ⟨['0'], by decide⟩, by decide⟩
  have h2 : IsVersion "1.0.0".toList 1 0 :=
    ⟨[1], [0], ".0".toList, by decide, by decide, by decide, by decide, by decide, by decide,
      Or.inr ⟨['0'], by decide⟩, by decide⟩
  have := (h _ _ _ _ _ _ h1 h2).mp (by decide +kernel)
  exact absurd this.1 (by decide)

end Hodu.Rpc
