import Verif.Model.PluginServer
import Mathlib.Tactic.Linarith

/-!
# C49: the plugin server
-/

namespace Hodu.Server

open Hodu.Rpc

/-! ## Specification -/

/-- The lines the server is to look at: the non-empty ones before a line that cannot be read. -/
def readable : List (Option String) → List String
  | [] => []
  | none :: _ => []
  | some l :: ls => if l = "" then readable ls else l :: readable ls

/-- The id a response to a line must carry: the id of the request, or 0 when the line is not a
request. -/
def idOf : Option Request → ReqId
  | some r => r.id
  | none => .number 0

/-- The id a response to a line must carry. -/
def expectedId (parseReq : String → Option Request) (l : String) : ReqId := idOf (parseReq l)

/-- Line `l` asks to initialize, and `e` answers it with success. -/
def Initialized (parseReq : String → Option Request) (l : String) (e : Effect) : Prop :=
  (∃ r, parseReq l = some r ∧ r.method = "initialize") ∧
    ∃ resp, e.response = some resp ∧ resp.error = none

/-- A line that ends the process: a shutdown request, or a handler that panics. -/
def Ends (parseReq : String → Option Request) (s : State) (l : String) : Prop :=
  ∃ r, parseReq l = some r ∧
    (r.method = "shutdown" ∨
     ∃ h, s.handlers r.method = some h ∧ (h r.params).result = none)

/-! ## Proof -/

theorem handleInitialize_handlers (s : State) (p : Option Json) :
    (handleInitialize s p).1.handlers = s.handlers := by
  unfold handleInitialize
  split
  · rfl
  · split
    · rfl
    · split <;> rfl

theorem handleMessage_go {s s' : State} {req : Option Request} {e : Effect}
    (h : handleMessage s req = (.go s', e)) :
    s'.handlers = s.handlers ∧
    (∃ resp, e.response = some resp ∧
      resp.id = idOf req) ∧
    (e.ranHandler = true → s.initialized = true) ∧
    (s.initialized = true → s'.initialized = true) ∧
    (s.initialized = true → ∀ r, req = some r → r.method = "initialize" →
      ∀ resp, e.response = some resp → resp.error ≠ none) ∧
    (s.initialized = false → s'.initialized = true →
      (∃ r, req = some r ∧ r.method = "initialize") ∧
      ∃ resp, e.response = some resp ∧ resp.error = none) ∧
    (s'.initialized = false → ∀ r, req = some r → r.method = "initialize" →
      ∀ resp, e.response = some resp → resp.error ≠ none) := by
  unfold handleMessage at h
  cases req with
  | none =>
    cases h
    refine ⟨rfl, ⟨_, rfl, rfl⟩, by simp, id, by simp, fun h1 h2 => ?_, by simp⟩
    rw [h1] at h2; cases h2
  | some r =>
    simp only at h
    by_cases hm : r.method = "initialize"
    · rw [if_pos hm] at h
      simp only [Prod.mk.injEq, Next.go.injEq] at h
      obtain ⟨rfl, rfl⟩ := h
      refine ⟨handleInitialize_handlers s _, ⟨_, rfl, ?_⟩, by simp, ?_⟩
      · cases (handleInitialize s r.params).2 <;> rfl
      · unfold handleInitialize
        cases hi : s.initialized with
        | true =>
          simp only [if_true]
          refine ⟨fun _ => hi, fun _ r' _ _ resp hr => ?_, fun h => absurd h (by simp), fun h => ?_⟩
          · simp only [respond, Option.some.injEq] at hr
            subst hr
            simp
          · rw [hi] at h; cases h
        | false =>
          simp only [Bool.false_eq_true, if_false]
          cases r.params with
          | none =>
            refine ⟨fun h => absurd h (by simp), fun h => absurd h (by simp), fun _ h => ?_,
              fun _ r' _ _ resp hr => ?_⟩
            · rw [hi] at h; cases h
            · simp only [respond, Option.some.injEq] at hr
              subst hr
              simp
          | some v =>
            simp only
            by_cases hv : s.initParams v = true
            · simp only [if_pos hv]
              refine ⟨fun _ => trivial, fun h => absurd h (by simp),
                fun _ _ => ⟨⟨r, rfl, hm⟩, _, rfl, rfl⟩, fun h => absurd h (by simp)⟩
            · simp only [if_neg hv]
              refine ⟨fun h => absurd h (by simp), fun h => absurd h (by simp), fun _ h => ?_,
                fun _ r' _ _ resp hr => ?_⟩
              · rw [hi] at h; cases h
              · simp only [respond, Option.some.injEq] at hr
                subst hr
                simp
    · rw [if_neg hm] at h
      have hno : ∀ r', some r = some r' → r'.method = "initialize" → False := by
        intro r' hr' hm'
        cases hr'
        exact hm hm'
      by_cases hs : r.method = "shutdown"
      · rw [if_pos hs] at h; simp at h
      · rw [if_neg hs] at h
        by_cases hi : s.initialized = false
        · rw [if_pos hi] at h
          simp only [Prod.mk.injEq, Next.go.injEq] at h
          obtain ⟨rfl, rfl⟩ := h
          refine ⟨rfl, ⟨_, rfl, rfl⟩, by simp, id, fun _ r' h1 h2 => (hno r' h1 h2).elim,
            fun h1 h2 => ?_, fun _ r' h1 h2 => (hno r' h1 h2).elim⟩
          rw [h1] at h2; cases h2
        · rw [if_neg hi] at h
          have hi' : s.initialized = true := by simpa using hi
          cases hh : s.handlers r.method with
          | none =>
            rw [hh] at h
            simp only [Prod.mk.injEq, Next.go.injEq] at h
            obtain ⟨rfl, rfl⟩ := h
            refine ⟨rfl, ⟨_, rfl, rfl⟩, by simp, id, fun _ r' h1 h2 => (hno r' h1 h2).elim,
              fun h1 => absurd h1 hi, fun _ r' h1 h2 => (hno r' h1 h2).elim⟩
          | some hd =>
            rw [hh] at h
            simp only at h
            cases hx : (hd r.params).result with
            | none => rw [hx] at h; simp at h
            | some x =>
              rw [hx] at h
              simp only [Prod.mk.injEq, Next.go.injEq] at h
              obtain ⟨rfl, rfl⟩ := h
              refine ⟨rfl, ⟨_, rfl, ?_⟩, fun _ => hi', id,
                fun _ r' h1 h2 => (hno r' h1 h2).elim,
                fun h1 => absurd h1 hi, fun _ r' h1 h2 => (hno r' h1 h2).elim⟩
              cases x <;> rfl

theorem handleMessage_stop {s : State} {req : Option Request} {e : Effect}
    (h : handleMessage s req = (.stop, e)) :
    e.response = none ∧ (e.ranHandler = true → s.initialized = true) ∧
    ∃ r, req = some r ∧ (r.method = "shutdown" ∨
      ∃ hd, s.handlers r.method = some hd ∧ (hd r.params).result = none) := by
  unfold handleMessage at h
  cases req with
  | none => simp at h
  | some r =>
    simp only at h
    by_cases hm : r.method = "initialize"
    · rw [if_pos hm] at h; simp at h
    · rw [if_neg hm] at h
      by_cases hs : r.method = "shutdown"
      · rw [if_pos hs] at h
        simp at h
        subst h
        exact ⟨rfl, by simp, r, rfl, Or.inl hs⟩
      · rw [if_neg hs] at h
        by_cases hi : s.initialized = false
        · rw [if_pos hi] at h; simp at h
        · rw [if_neg hi] at h
          cases hh : s.handlers r.method with
          | none => rw [hh] at h; simp at h
          | some hd =>
            rw [hh] at h
            simp only at h
            cases hx : (hd r.params).result with
            | none =>
              rw [hx] at h
              simp at h
              subst h
              exact ⟨rfl, fun _ => by simpa using hi, r, rfl, Or.inr ⟨hd, hh, hx⟩⟩
            | some x => rw [hx] at h; simp at h

theorem run_go {parseReq : String → Option Request} {s s' : State} {l : String} {e : Effect}
    (ls : List (Option String)) (hl : ¬ l = "")
    (hm : handleMessage s (parseReq l) = (.go s', e)) :
    run parseReq s (some l :: ls) = (l, e) :: run parseReq s' ls := by
  rw [run, if_neg hl, hm]

theorem run_stop {parseReq : String → Option Request} {s : State} {l : String} {e : Effect}
    (ls : List (Option String)) (hl : ¬ l = "")
    (hm : handleMessage s (parseReq l) = (.stop, e)) :
    run parseReq s (some l :: ls) = [(l, e)] := by
  rw [run, if_neg hl, hm]

theorem run_lines (parseReq : String → Option Request) (ls : List (Option String)) :
    ∀ s : State, ∃ tail, readable ls = (run parseReq s ls).map Prod.fst ++ tail ∧
      (tail = [] ∨ ∃ pre l e, run parseReq s ls = pre ++ [(l, e)] ∧ Ends parseReq s l) ∧
      (∀ (i : Nat) (l : String) (e : Effect), (run parseReq s ls)[i]? = some (l, e) →
        (∃ resp, e.response = some resp ∧ resp.id = expectedId parseReq l) ∨
        (e.response = none ∧ i + 1 = (run parseReq s ls).length ∧ Ends parseReq s l)) := by
  induction ls with
  | nil => intro s; exact ⟨[], rfl, Or.inl rfl, by simp [run]⟩
  | cons o ls ih =>
    intro s
    cases o with
    | none => exact ⟨[], rfl, Or.inl rfl, by simp [run]⟩
    | some l =>
      by_cases hl : l = ""
      · simp only [readable, run, if_pos hl]
        exact ih s
      · simp only [readable, if_neg hl]
        cases hm : handleMessage s (parseReq l) with
        | mk nx e =>
          cases nx with
          | go s' =>
            rw [run_go ls hl hm]
            obtain ⟨tail, h1, h2, h3⟩ := ih s'
            obtain ⟨hh, ⟨resp, hr, hid⟩, -⟩ := handleMessage_go hm
            have hE : ∀ l, Ends parseReq s' l → Ends parseReq s l := by
              intro l h; unfold Ends at *; rwa [← hh]
            refine ⟨tail, by simp [h1], ?_, ?_⟩
            · rcases h2 with h2 | ⟨pre, l', e', h4, h5⟩
              · exact Or.inl h2
              · exact Or.inr ⟨(l, e) :: pre, l', e', by rw [h4]; rfl, hE _ h5⟩
            · intro i l' e' hi
              cases i with
              | zero =>
                simp at hi
                obtain ⟨rfl, rfl⟩ := hi
                exact Or.inl ⟨resp, hr, hid⟩
              | succ i =>
                simp only [List.getElem?_cons_succ] at hi
                rcases h3 i l' e' hi with h4 | ⟨h4, h5, h6⟩
                · exact Or.inl h4
                · exact Or.inr ⟨h4, by simp; omega, hE _ h6⟩
          | stop =>
            rw [run_stop ls hl hm]
            obtain ⟨hr, -, hends⟩ := handleMessage_stop hm
            refine ⟨readable ls, rfl, Or.inr ⟨[], l, e, rfl, hends⟩, ?_⟩
            intro i l' e' hi
            cases i with
            | zero =>
              simp at hi
              obtain ⟨rfl, rfl⟩ := hi
              exact Or.inr ⟨hr, rfl, hends⟩
            | succ i => simp at hi

theorem run_init (parseReq : String → Option Request) (ls : List (Option String)) :
    ∀ s : State,
      (∀ (i : Nat) (l : String) (e : Effect), (run parseReq s ls)[i]? = some (l, e) →
        e.ranHandler = true → s.initialized = true ∨
          ∃ (k : Nat) (l' : String) (e' : Effect), k < i ∧
            (run parseReq s ls)[k]? = some (l', e') ∧ Initialized parseReq l' e') ∧
      (s.initialized = true → ∀ (i : Nat) (l : String) (e : Effect),
        (run parseReq s ls)[i]? = some (l, e) → ¬ Initialized parseReq l e) ∧
      (∀ (i k : Nat) (l l' : String) (e e' : Effect), (run parseReq s ls)[i]? = some (l, e) →
        (run parseReq s ls)[k]? = some (l', e') → Initialized parseReq l e →
        Initialized parseReq l' e' → i = k) := by
  induction ls with
  | nil => intro s; simp [run]
  | cons o ls ih =>
    intro s
    cases o with
    | none => simp [run]
    | some l =>
      by_cases hl : l = ""
      · simp only [run, if_pos hl]
        exact ih s
      · cases hm : handleMessage s (parseReq l) with
        | mk nx e =>
          cases nx with
          | stop =>
            rw [run_stop ls hl hm]
            obtain ⟨hr, hran, -⟩ := handleMessage_stop hm
            have hno : ¬ Initialized parseReq l e := by
              rintro ⟨-, resp, h1, -⟩
              rw [hr] at h1; cases h1
            refine ⟨?_, ?_, ?_⟩
            · intro i l' e' hi hrun
              cases i with
              | zero =>
                simp at hi
                obtain ⟨rfl, rfl⟩ := hi
                exact Or.inl (hran hrun)
              | succ i => simp at hi
            · intro _ i l' e' hi
              cases i with
              | zero =>
                simp at hi
                obtain ⟨rfl, rfl⟩ := hi
                exact hno
              | succ i => simp at hi
            · intro i k l1 l2 e1 e2 hi hk _ _
              cases i with
              | zero =>
                cases k with
                | zero => rfl
                | succ k => simp at hk
              | succ i => simp at hi
          | go s' =>
            rw [run_go ls hl hm]
            obtain ⟨-, -, hran, hmono, hinit, hbecame, hstay⟩ := handleMessage_go hm
            obtain ⟨ih1, ih2, ih3⟩ := ih s'
            have hfirst : Initialized parseReq l e → s.initialized = false ∧ s'.initialized = true := by
              rintro ⟨⟨r, h1, h2⟩, resp, h3, h4⟩
              constructor
              · cases hs : s.initialized with
                | false => rfl
                | true => exact absurd h4 (hinit hs r h1 h2 resp h3)
              · cases hs : s'.initialized with
                | true => rfl
                | false => exact absurd h4 (hstay hs r h1 h2 resp h3)
            refine ⟨?_, ?_, ?_⟩
            · intro i l' e' hi hrun
              cases i with
              | zero =>
                simp at hi
                obtain ⟨rfl, rfl⟩ := hi
                exact Or.inl (hran hrun)
              | succ i =>
                simp only [List.getElem?_cons_succ] at hi
                rcases ih1 i l' e' hi hrun with h | ⟨k, l2, e2, hk, h1, h2⟩
                · cases hs : s.initialized with
                  | true => exact Or.inl rfl
                  | false =>
                    obtain ⟨⟨r, h1, h2⟩, h3⟩ := hbecame hs h
                    exact Or.inr ⟨0, l, e, by omega, rfl, ⟨r, h1, h2⟩, h3⟩
                · exact Or.inr ⟨k + 1, l2, e2, by omega, by simpa using h1, h2⟩
            · intro hs i l' e' hi
              cases i with
              | zero =>
                simp at hi
                obtain ⟨rfl, rfl⟩ := hi
                intro h
                rw [(hfirst h).1] at hs
                cases hs
              | succ i =>
                simp only [List.getElem?_cons_succ] at hi
                exact ih2 (hmono hs) i l' e' hi
            · intro i k l1 l2 e1 e2 hi hk h1 h2
              cases i with
              | zero =>
                simp at hi
                obtain ⟨rfl, rfl⟩ := hi
                cases k with
                | zero => rfl
                | succ k =>
                  simp only [List.getElem?_cons_succ] at hk
                  exact absurd h2 (ih2 (hfirst h1).2 k l2 e2 hk)
              | succ i =>
                simp only [List.getElem?_cons_succ] at hi
                cases k with
                | zero =>
                  simp at hk
                  obtain ⟨rfl, rfl⟩ := hk
                  exact absurd h1 (ih2 (hfirst h2).2 i l1 e1 hi)
                | succ k =>
                  simp only [List.getElem?_cons_succ] at hk
                  rw [ih3 i k l1 l2 e1 e2 hi hk h1 h2]

/-- **C49.**  Whatever lines arrive at a fresh server, whatever handlers are registered:

* the lines it deals with are the readable non-empty lines in order, all of them unless the last
  one it dealt with ends the process (a shutdown request, or a handler that panics);
* each of them gets exactly one response, carrying the id of the request (0 when it is not a
  request), except for that last one, which gets none;
* a registered handler runs for a line only after an `initialize` that succeeded;
* at most one `initialize` succeeds. -/
theorem C49_server (parseReq : String → Option Request) (s : State) (hs : s.initialized = false)
    (input : List (Option String)) :
    (∃ tail, readable input = (run parseReq s input).map Prod.fst ++ tail ∧
      (tail = [] ∨ ∃ pre l e, run parseReq s input = pre ++ [(l, e)] ∧ Ends parseReq s l)) ∧
    (∀ (i : Nat) (l : String) (e : Effect), (run parseReq s input)[i]? = some (l, e) →
      (∃ resp, e.response = some resp ∧ resp.id = expectedId parseReq l) ∨
      (e.response = none ∧ i + 1 = (run parseReq s input).length ∧ Ends parseReq s l)) ∧
    (∀ (i : Nat) (l : String) (e : Effect), (run parseReq s input)[i]? = some (l, e) →
      e.ranHandler = true →
      ∃ (k : Nat) (l' : String) (e' : Effect), k < i ∧
        (run parseReq s input)[k]? = some (l', e') ∧ Initialized parseReq l' e') ∧
    (∀ (i k : Nat) (l l' : String) (e e' : Effect), (run parseReq s input)[i]? = some (l, e) →
      (run parseReq s input)[k]? = some (l', e') → Initialized parseReq l e →
      Initialized parseReq l' e' → i = k) := by
  obtain ⟨tail, h1, h2, h3⟩ := run_lines parseReq input s
  obtain ⟨h4, -, h5⟩ := run_init parseReq input s
  refine ⟨⟨tail, h1, h2⟩, h3, ?_, h5⟩
  intro i l e hi hr
  rcases h4 i l e hi hr with h | h
  · rw [hs] at h; cases h
  · exact h

/-- A server with one handler, and requests written as single words. -/
def exServer : State :=
  ⟨fun m => if m = "backend.run" then some (fun _ => ⟨["note"], some (.ok (.int 7))⟩) else none,
    false, fun _ => true, .str "info"⟩

/-- A toy request parser. -/
def exReq (l : String) : Option Request :=
  if l = "init" then some ⟨"initialize", some (.obj []), .number 1⟩
  else if l = "run" then some ⟨"backend.run", some .null, .number 2⟩
  else if l = "cancel" then some ⟨"$/cancel", none, .string "c"⟩
  else if l = "quit" then some ⟨"shutdown", none, .number 3⟩
  else none

/-- C49 on a session: a run before the initialisation is refused, garbage is answered with id 0,
a second initialisation is refused, a cancel is answered like any request, and nothing follows a
shutdown. -/
example : (run exReq exServer [some "run", some "", some "init", some "?", some "run",
      some "init", some "cancel", some "quit", some "run"]).map
    (fun x => (x.1, x.2.response.map (fun r => (r.id, r.error.map RpcError.code)), x.2.ranHandler))
    = [("run", some (.number 2, some (-32600)), false), ("init", some (.number 1, none), false),
       ("?", some (.number 0, some (-32700)), false), ("run", some (.number 2, none), true),
       ("init", some (.number 1, some (-32600)), false),
       ("cancel", some (.string "c", some (-32601)), false), ("quit", none, false)] := by
  decide +kernel

end Hodu.Server
