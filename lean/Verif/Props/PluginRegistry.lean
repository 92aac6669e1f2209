import Verif.Model.PluginRegistry
import Mathlib.Tactic.Linarith
import Mathlib.Data.List.Nodup

/-!
# C50 and C52: installed and running plugins
-/

namespace Hodu.Plugins

/-! ## C50 -/

/-- One change of the registry. -/
inductive Op where
  | upsert (e : Entry)
  | remove (name : String)
  | enable (name : String)
  | disable (name : String)

/-- What a change does. -/
def Op.apply (r : Registry) : Op → Registry
  | .upsert e => Plugins.upsert r e
  | .remove n => (Plugins.remove r n).1
  | .enable n => (setEnabled r n true).1
  | .disable n => (setEnabled r n false).1

/-- What a name should refer to after one change, given what it referred to before: the entry
last upserted under this name, switched on or off since, nothing after it was removed. -/
def Op.track (name : String) (old : Option Entry) : Op → Option Entry
  | .upsert e => if e.name = name then some e else old
  | .remove n => if n = name then none else old
  | .enable n => if n = name then old.map fun e => { e with enabled := true } else old
  | .disable n => if n = name then old.map fun e => { e with enabled := false } else old

/-- The names of the entries. -/
def names (r : Registry) : List String := r.map Entry.name

theorem find_cons (p : Entry) (ps : Registry) (name : String) :
    find (p :: ps) name = if p.name = name then some p else find ps name := by
  unfold find
  rw [List.find?_cons]
  by_cases h : p.name = name
  · simp [h]
  · have hb : (p.name == name) = false := by simp [h]
    rw [hb, if_neg h]

theorem find_none {r : Registry} {name : String} : find r name = none ↔ name ∉ names r := by
  unfold find names
  rw [List.find?_eq_none]
  constructor
  · intro h hm
    obtain ⟨p, hp, hn⟩ := List.mem_map.mp hm
    exact h p hp (by simp [hn])
  · intro h p hp hn
    exact h (List.mem_map.mpr ⟨p, hp, by simpa using hn⟩)

theorem find_append (r : Registry) (e : Entry) (name : String) :
    find (r ++ [e]) name = (find r name).or (if e.name = name then some e else none) := by
  unfold find
  rw [List.find?_append]
  congr 1
  by_cases h : e.name = name <;> simp [h]

theorem modify_spec (r : Registry) (name : String) (f : Entry → Entry)
    (hf : ∀ e, e.name = name → (f e).name = name) :
    (name ∉ names r ∧ modify r name f = none) ∨
    (∃ r', modify r name f = some r' ∧ names r' = names r ∧ name ∈ names r ∧
      ∀ n, find r' n = if n = name then (find r name).map f else find r n) := by
  induction r with
  | nil => exact Or.inl ⟨by simp [names], rfl⟩
  | cons p ps ih =>
    by_cases hp : p.name = name
    · right
      refine ⟨f p :: ps, by simp [modify, hp], by simp [names, hp, hf p hp], by simp [names, hp], ?_⟩
      intro n
      rw [find_cons, find_cons, find_cons, if_pos hp, hf p hp]
      by_cases hn : n = name
      · subst hn; simp
      · rw [if_neg hn, if_neg (fun h => hn h.symm), hp, if_neg (fun h => hn h.symm)]
    · have hb : (p.name == name) = false := by simp [hp]
      rcases ih with ⟨h1, h2⟩ | ⟨r', h1, h2, h3, h4⟩
      · left
        refine ⟨?_, by simp [modify, hb, h2]⟩
        simp only [names, List.map_cons, List.mem_cons] at h1 ⊢
        rintro (h | h)
        · exact hp h.symm
        · exact h1 h
      · right
        refine ⟨p :: r', by simp [modify, hb, h1], ?_, ?_, ?_⟩
        · simp only [names, List.map_cons] at h2 ⊢
          rw [h2]
        · simp only [names, List.map_cons, List.mem_cons] at h3 ⊢
          exact Or.inr h3
        · intro n
          rw [find_cons, find_cons, find_cons, if_neg hp, h4]
          by_cases hn : n = name
          · subst hn; simp [hp]
          · simp [hn]

theorem remove_spec (r : Registry) (name : String) (hnd : (names r).Nodup) :
    (names (remove r name).1).Nodup ∧
    (∀ n, find (remove r name).1 n = if n = name then none else find r n) ∧
    (remove r name).2 = find r name := by
  unfold remove
  induction r with
  | nil =>
    refine ⟨by simp [names], fun n => ?_, by simp [find]⟩
    simp [find]
  | cons p ps ih =>
    have hnd' : (names ps).Nodup := by
      simp only [names, List.map_cons, List.nodup_cons] at hnd ⊢
      exact hnd.2
    have hpn : p.name ∉ names ps := by
      simp only [names, List.map_cons, List.nodup_cons] at hnd ⊢
      exact hnd.1
    rw [List.findIdx?_cons]
    by_cases hp : p.name = name
    · simp only [hp, beq_self_eq_true, if_true]
      refine ⟨by simpa using hnd', fun n => ?_, ?_⟩
      · simp only [List.eraseIdx_cons_zero]
        rw [find_cons]
        by_cases hn : n = name
        · subst hn
          rw [if_pos rfl]
          exact find_none.mpr (by rw [← hp]; exact hpn)
        · rw [if_neg hn, if_neg (by rw [hp]; exact fun h => hn h.symm)]
      · rw [find_cons, if_pos hp]; rfl
    · have hb : (p.name == name) = false := by simp [hp]
      obtain ⟨h1, h2, h3⟩ := ih hnd'
      rw [hb]
      simp only [Bool.false_eq_true, if_false]
      cases hi : List.findIdx? (fun p : Entry => p.name == name) ps with
      | none =>
        rw [hi] at h2 h3
        simp only [Option.map_none]
        refine ⟨hnd, fun n => ?_, ?_⟩
        · rw [find_cons]
          by_cases hn : n = name
          · subst hn
            have := h2 n
            rw [if_neg hp, if_pos rfl]
            rw [if_pos rfl] at this
            exact this
          · rw [if_neg hn]
        · rw [find_cons, if_neg hp]; exact h3
      | some i =>
        rw [hi] at h1 h2 h3
        simp only [Option.map_some, List.eraseIdx_cons_succ, List.getElem?_cons_succ] at *
        refine ⟨?_, fun n => ?_, ?_⟩
        · simp only [names, List.map_cons, List.nodup_cons]
          refine ⟨?_, h1⟩
          intro h
          apply hpn
          obtain ⟨q, hq, hqn⟩ := List.mem_map.mp h
          exact List.mem_map.mpr ⟨q, List.mem_of_mem_eraseIdx hq, hqn⟩
        · rw [find_cons, find_cons, h2 n]
          by_cases hn : n = name
          · subst hn; simp [hp]
          · simp [hn]
        · rw [find_cons, if_neg hp]; exact h3

theorem apply_spec (r : Registry) (hnd : (names r).Nodup) (op : Op) :
    (names (op.apply r)).Nodup ∧ ∀ n, find (op.apply r) n = op.track n (find r n) := by
  have henable : ∀ (name : String) (b : Bool),
      (names (setEnabled r name b).1).Nodup ∧ ∀ n, find (setEnabled r name b).1 n =
        if name = n then (find r n).map (fun e => { e with enabled := b }) else find r n := by
    intro name b
    unfold setEnabled
    rcases modify_spec r name (fun p => { p with enabled := b }) (fun e h => h) with
      ⟨h1, h2⟩ | ⟨r', h1, h2, h3, h4⟩
    · rw [h2]
      refine ⟨hnd, fun n => ?_⟩
      by_cases hn : name = n
      · subst hn
        rw [find_none.mpr h1]
        simp
      · rw [if_neg hn]
    · rw [h1]
      refine ⟨by rw [h2]; exact hnd, fun n => ?_⟩
      simp only [h4]
      by_cases hn : n = name
      · subst hn; simp
      · rw [if_neg hn, if_neg (fun h => hn h.symm)]
  cases op with
  | upsert e =>
    simp only [Op.apply, Op.track, upsert]
    rcases modify_spec r e.name (fun _ => e) (fun _ _ => rfl) with ⟨h1, h2⟩ | ⟨r', h1, h2, h3, h4⟩
    · rw [h2]
      constructor
      · simp only [names, List.map_append, List.map_cons, List.map_nil]
        rw [List.nodup_append]
        refine ⟨hnd, by simp, ?_⟩
        intro a ha b hb hab
        simp at hb
        subst hb
        rw [hab] at ha
        exact h1 ha
      · intro n
        simp only [find_append]
        by_cases hn : e.name = n
        · subst hn
          rw [find_none.mpr h1]
          simp
        · simp [hn]
    · rw [h1]
      refine ⟨by rw [h2]; exact hnd, fun n => ?_⟩
      simp only [h4]
      by_cases hn : n = e.name
      · subst hn
        rw [if_pos rfl, if_pos rfl]
        cases hf : find r e.name with
        | none => exact absurd h3 (find_none.mp hf)
        | some q => rfl
      · rw [if_neg hn, if_neg (fun h => hn h.symm)]
  | remove name =>
    obtain ⟨h1, h2, -⟩ := remove_spec r name hnd
    refine ⟨h1, fun n => ?_⟩
    simp only [Op.apply, Op.track, h2]
    by_cases hn : n = name
    · subst hn; simp
    · rw [if_neg hn, if_neg (fun h => hn h.symm)]
  | enable name => exact henable name true
  | disable name => exact henable name false

theorem find?_first {α : Type} (p : α → Bool) (l : List α) (x : α) (h : l.find? p = some x) :
    x ∈ l ∧ p x = true := ⟨List.mem_of_find?_eq_some h, List.find?_some h⟩

/-- What a lookup among the enabled plugins of one kind should return: an enabled plugin of that
kind that has the wanted property, and nothing only when there is none. -/
def IsLookup (r : Registry) (kind : Kind) (has : Entry → Prop) (o : Option Entry) : Prop :=
  (∀ p, o = some p → p ∈ r ∧ p.enabled = true ∧ p.kind = kind ∧ has p) ∧
  (o = none → ∀ p ∈ r, ¬ (p.enabled = true ∧ p.kind = kind ∧ has p))

theorem isLookup_of (r : Registry) (kind : Kind) (has : Entry → Prop) (b : Entry → Bool)
    (hb : ∀ p, b p = true ↔ has p) : IsLookup r kind has ((ofKind r kind).find? b) := by
  constructor
  · intro p hp
    obtain ⟨h1, h2⟩ := find?_first _ _ _ hp
    obtain ⟨h3, h4⟩ := List.mem_filter.mp h1
    simp only [Bool.and_eq_true, beq_iff_eq] at h4
    exact ⟨h3, h4.2, h4.1, (hb p).mp h2⟩
  · intro hn p hp ⟨h1, h2, h3⟩
    rw [List.find?_eq_none] at hn
    refine hn p (List.mem_filter.mpr ⟨hp, ?_⟩) ((hb p).mpr h3)
    simp [h1, h2]

/-- **C50.**  Starting from an empty registry, after any sequence of upserts, removals and
switchings: no two entries have the same name; `find` returns the entry last upserted under that
name as switched since (nothing once removed); and the lookups by device and by extension return
only enabled plugins of the right kind that list the device or extension, and find one whenever
there is one. -/
theorem C50_registry (ops : List Op) (lower trim : String → String) :
    let r := ops.foldl Op.apply []
    (names r).Nodup ∧
    (∀ name, find r name = ops.foldl (Op.track name) none) ∧
    (∀ device, IsLookup r .backend (fun p => ∃ d ∈ p.devices, lower d = lower device)
      (findByDevice lower r device)) ∧
    (∀ ext, IsLookup r .modelFormat
      (fun p => ∃ e ∈ p.modelExts, lower (trim e) = lower (trim ext))
      (findByModelExt lower trim r ext)) ∧
    (∀ ext, IsLookup r .tensorFormat
      (fun p => ∃ e ∈ p.tensorExts, lower (trim e) = lower (trim ext))
      (findByTensorExt lower trim r ext)) := by
  intro r
  have key : ∀ (ops : List Op) (r0 : Registry), (names r0).Nodup →
      (names (ops.foldl Op.apply r0)).Nodup ∧
      ∀ name, find (ops.foldl Op.apply r0) name = ops.foldl (Op.track name) (find r0 name) := by
    intro ops
    induction ops with
    | nil => intro r0 h; exact ⟨h, fun _ => rfl⟩
    | cons op ops ih =>
      intro r0 h
      obtain ⟨h1, h2⟩ := apply_spec r0 h op
      obtain ⟨h3, h4⟩ := ih _ h1
      refine ⟨h3, fun name => ?_⟩
      simp only [List.foldl_cons]
      rw [h4, h2]
  obtain ⟨h1, h2⟩ := key ops [] (by simp [names])
  refine ⟨h1, h2, fun device => ?_, fun ext => ?_, fun ext => ?_⟩
  · refine isLookup_of r .backend _ _ fun p => ?_
    simp only [List.any_eq_true, beq_iff_eq]
  · refine isLookup_of r .modelFormat _ _ fun p => ?_
    simp only [List.any_eq_true, beq_iff_eq, normExt]
  · refine isLookup_of r .tensorFormat _ _ fun p => ?_
    simp only [List.any_eq_true, beq_iff_eq, normExt]

/-- An entry for the examples. -/
def exEntry (name : String) (v : Nat) : Entry := ⟨name, .backend, true, ["cpu"], [], [], [], v⟩

/-- C50 on a history: the second `a` replaces the first, `b` is switched off and `c` removed. -/
example :
    let ops := [Op.upsert (exEntry "b" 1), .upsert (exEntry "a" 2), .upsert (exEntry "c" 3),
      .upsert (exEntry "a" 4), .disable "b", .remove "c"]
    ops.foldl Op.apply [] = [{ exEntry "b" 1 with enabled := false }, exEntry "a" 4] ∧
    findByDevice (fun s => s) (ops.foldl Op.apply []) "cpu" = some (exEntry "a" 4) := by decide

/-- `check_dependencies` reports exactly the dependencies that are not installed or not enabled. -/
theorem C50_dependencies (r : Registry) (name : String) (p : Entry) (hp : find r name = some p)
    (d : String) :
    d ∈ missingDeps r name ↔
      d ∈ p.dependencies ∧ ∀ q, find r d = some q → q.enabled = false := by
  unfold missingDeps
  rw [hp]
  simp only [List.mem_filter]
  constructor
  · rintro ⟨h1, h2⟩
    refine ⟨h1, fun q hq => ?_⟩
    rw [hq] at h2
    simpa using h2
  · rintro ⟨h1, h2⟩
    refine ⟨h1, ?_⟩
    cases hq : find r d with
    | none => rfl
    | some q => simp [h2 q hq]

/-- C50_dependencies applies: one dependency is missing, one disabled, one fine. -/
example : missingDeps [{ exEntry "p" 0 with dependencies := ["x", "y", "z"] },
    { exEntry "y" 1 with enabled := false }, exEntry "z" 2] "p" = ["x", "y"] := by decide

/-! ## C52 -/

/-- What can happen to a manager. -/
inductive Event where
  | get (name : String) (s : Start)
  | shutdown (name : String)
  | exits (pid : Nat)

/-- One event. -/
def Manager.step (m : Manager) : Event → Manager
  | .get name s => (m.get name s).1
  | .shutdown name => m.shutdown name
  | .exits pid => m.exits pid

/-- A manager after a sequence of events. -/
def Manager.run (r : Registry) (es : List Event) : Manager := es.foldl Manager.step (Manager.new r)

/-- The number of running processes of a plugin. -/
def Manager.running (m : Manager) (name : String) : Nat := m.alive.countP fun p => p.1 == name

theorem lookup_none {l : List (String × Nat)} {n : String} (h : l.lookup n = none) :
    ∀ p ∈ l, p.1 ≠ n := by
  induction l with
  | nil => intro p hp; cases hp
  | cons q l ih =>
    rw [List.lookup_cons] at h
    intro p hp
    by_cases hq : n = q.1
    · simp [hq] at h
    · have hb : (n == q.1) = false := by simp [hq]
      rw [hb] at h
      rcases List.mem_cons.mp hp with rfl | hp
      · exact fun h => hq h.symm
      · exact ih h p hp

theorem lookup_some {l : List (String × Nat)} {n : String} {v : Nat} (h : l.lookup n = some v) :
    (n, v) ∈ l := by
  induction l with
  | nil => cases h
  | cons q l ih =>
    rw [List.lookup_cons] at h
    by_cases hq : n = q.1
    · simp [hq] at h
      rw [hq, ← h]
      simp
    · have hb : (n == q.1) = false := by simp [hq]
      rw [hb] at h
      exact List.mem_cons_of_mem _ (ih h)

/-- What holds of a manager at all times. -/
structure Manager.Ok (r : Registry) (m : Manager) : Prop where
  reg : m.registry = r
  keys : (m.processes.map Prod.fst).Nodup
  pids : ∀ p ∈ m.processes, p.2 < m.nextPid
  alivePids : ∀ p ∈ m.alive, p.2 < m.nextPid
  aliveNodup : (m.alive.map Prod.snd).Nodup
  enabled : ∀ p ∈ m.alive, ∃ e, find r p.1 = some e ∧ e.enabled = true

theorem find_name {r : Registry} {n : String} {e : Entry} (h : find r n = some e) : e.name = n := by
  have := List.find?_some h
  simpa using this

theorem nodup_map_filter {α β : Type} (f : α → β) (p : α → Bool) (l : List α)
    (h : (l.map f).Nodup) : ((l.filter p).map f).Nodup :=
  List.Nodup.sublist (List.Sublist.map f List.filter_sublist) h

theorem ok_step (r : Registry) (m : Manager) (h : m.Ok r) (e : Event) : (m.step e).Ok r := by
  cases e with
  | exits pid =>
    exact ⟨h.reg, h.keys, h.pids, fun p hp => h.alivePids p (List.mem_filter.mp hp).1,
      nodup_map_filter _ _ _ h.aliveNodup, fun p hp => h.enabled p (List.mem_filter.mp hp).1⟩
  | shutdown name =>
    simp only [Manager.step, Manager.shutdown]
    cases hl : m.processes.lookup name with
    | none => exact h
    | some pid =>
      exact ⟨h.reg, nodup_map_filter _ _ _ h.keys,
        fun p hp => h.pids p (List.mem_filter.mp hp).1,
        fun p hp => h.alivePids p (List.mem_filter.mp hp).1,
        nodup_map_filter _ _ _ h.aliveNodup, fun p hp => h.enabled p (List.mem_filter.mp hp).1⟩
  | get name s =>
    simp only [Manager.step, Manager.get]
    cases hl : m.processes.lookup name with
    | some pid => exact h
    | none =>
      cases hf : find m.registry name with
      | none => exact h
      | some e =>
        have hname : e.name = name := find_name hf
        by_cases he : e.enabled = false
        · simp only [he, if_true]; exact h
        · have het : e.enabled = true := by simpa using he
          have hreg : find r e.name = some e := by rw [← h.reg, hname]; exact hf
          simp only [if_neg he]
          have fresh : ∀ p ∈ m.alive, p.2 ≠ m.nextPid :=
            fun p hp => Nat.ne_of_lt (h.alivePids p hp)
          have aliveOk : ((e.name, m.nextPid) :: m.alive).map Prod.snd |>.Nodup := by
            simp only [List.map_cons, List.nodup_cons]
            refine ⟨fun hm => ?_, h.aliveNodup⟩
            obtain ⟨p, hp, hpe⟩ := List.mem_map.mp hm
            exact fresh p hp hpe
          have aliveLt : ∀ p ∈ (e.name, m.nextPid) :: m.alive, p.2 < m.nextPid + 1 := by
            intro p hp
            rcases List.mem_cons.mp hp with rfl | hp
            · exact Nat.lt_succ_self _
            · exact Nat.lt_succ_of_lt (h.alivePids p hp)
          have aliveEn : ∀ p ∈ (e.name, m.nextPid) :: m.alive,
              ∃ q, find r p.1 = some q ∧ q.enabled = true := by
            intro p hp
            rcases List.mem_cons.mp hp with rfl | hp
            · exact ⟨e, hreg, het⟩
            · exact h.enabled p hp
          cases s with
          | noBinary => exact h
          | spawnFails => exact h
          | initFails lingers =>
            cases lingers with
            | false =>
              exact ⟨h.reg, h.keys, fun p hp => Nat.lt_succ_of_lt (h.pids p hp),
                fun p hp => Nat.lt_succ_of_lt (h.alivePids p hp), h.aliveNodup, h.enabled⟩
            | true =>
              exact ⟨h.reg, h.keys, fun p hp => Nat.lt_succ_of_lt (h.pids p hp),
                aliveLt, aliveOk, aliveEn⟩
          | works =>
            refine ⟨h.reg, ?_, ?_, aliveLt, aliveOk, aliveEn⟩
            · simp only [Manager.spawn, List.map_cons, List.nodup_cons]
              refine ⟨fun hm => ?_, h.keys⟩
              obtain ⟨p, hp, hpe⟩ := List.mem_map.mp hm
              exact lookup_none hl p hp hpe
            · intro p hp
              simp only [Manager.spawn] at hp ⊢
              rcases List.mem_cons.mp hp with rfl | hp
              · exact Nat.lt_succ_self _
              · exact Nat.lt_succ_of_lt (h.pids p hp)

theorem ok_run (r : Registry) (es : List Event) : (Manager.run r es).Ok r := by
  have key : ∀ (es : List Event) (m : Manager), m.Ok r → (es.foldl Manager.step m).Ok r := by
    intro es
    induction es with
    | nil => intro m h; exact h
    | cons e es ih => intro m h; exact ih _ (ok_step r m h e)
  exact key es _ ⟨rfl, by simp [Manager.new], by simp [Manager.new], by simp [Manager.new],
    by simp [Manager.new], by simp [Manager.new]⟩

/-- A start of this event leaves no process behind when it fails: the plugin exits when its
initialisation failed. -/
def Event.Clean : Event → Prop
  | .get _ s => s ≠ .initFails true
  | _ => True

/-- With clean starts every running process is the managed one of its name. -/
theorem managed_step (r : Registry) (m : Manager) (h : m.Ok r)
    (hm : ∀ p ∈ m.alive, p ∈ m.processes) (e : Event) (he : e.Clean) :
    ∀ p ∈ (m.step e).alive, p ∈ (m.step e).processes := by
  cases e with
  | exits pid => exact fun p hp => hm p (List.mem_filter.mp hp).1
  | shutdown name =>
    simp only [Manager.step, Manager.shutdown]
    cases hl : m.processes.lookup name with
    | none => exact hm
    | some pid =>
      intro p hp
      obtain ⟨h1, h2⟩ := List.mem_filter.mp hp
      refine List.mem_filter.mpr ⟨hm p h1, ?_⟩
      have hpid := lookup_some hl
      simp only [bne_iff_ne, ne_eq] at h2 ⊢
      intro hn
      apply h2
      have hp1 : (name, p.2) ∈ m.processes := by
        have := hm p h1
        rw [← hn]; exact this
      have : (name, p.2) = (name, pid) := List.inj_on_of_nodup_map h.keys hp1 hpid rfl
      exact (Prod.mk.inj this).2
  | get name s =>
    simp only [Manager.step, Manager.get]
    cases hl : m.processes.lookup name with
    | some pid => exact hm
    | none =>
      cases hf : find m.registry name with
      | none => exact hm
      | some e =>
        have hname : e.name = name := find_name hf
        by_cases hen : e.enabled = false
        · simp only [hen, if_true]; exact hm
        · simp only [if_neg hen]
          cases s with
          | noBinary => exact hm
          | spawnFails => exact hm
          | initFails lingers =>
            cases lingers with
            | false => exact hm
            | true => exact absurd rfl he
          | works =>
            intro p hp
            simp only [Manager.spawn] at hp ⊢
            rcases List.mem_cons.mp hp with rfl | hp
            · rw [hname]; simp
            · exact List.mem_cons_of_mem _ (hm p hp)

/-- **C52 (part).**  For every registry, every sequence of `get_plugin`, `shutdown_plugin` and
exiting processes, and every outcome of the starts:

* only plugins present and enabled in the registry are ever running;
* the manager has at most one process per plugin name;
* a `get_plugin` that fails leaves the manager's running plugins as they were;
* if plugins whose initialisation fails exit, at most one process per plugin name is running.

Missing: a plugin that fails to initialise and does not exit (`C52_full_false`). -/
theorem C52_manager_partial (r : Registry) (es : List Event) :
    (∀ p ∈ (Manager.run r es).alive, ∃ e, find r p.1 = some e ∧ e.enabled = true) ∧
    ((Manager.run r es).processes.map Prod.fst).Nodup ∧
    (∀ name s x, ((Manager.run r es).get name s).2 = .error x →
      ((Manager.run r es).get name s).1.processes = (Manager.run r es).processes) ∧
    ((∀ e ∈ es, e.Clean) → ∀ name, (Manager.run r es).running name ≤ 1) := by
  have hok := ok_run r es
  refine ⟨hok.enabled, hok.keys, ?_, ?_⟩
  · intro name s x hx
    generalize Manager.run r es = m at *
    unfold Manager.get at hx ⊢
    cases hl : m.processes.lookup name with
    | some pid => rfl
    | none =>
      rw [hl] at hx
      cases hf : find m.registry name with
      | none => rfl
      | some e =>
        rw [hf] at hx
        simp only at hx ⊢
        by_cases hen : e.enabled = false
        · simp [hen]
        · simp only [if_neg hen] at hx ⊢
          cases s with
          | noBinary => rfl
          | spawnFails => rfl
          | initFails l => rfl
          | works => simp [Manager.spawn] at hx
  · intro hc name
    have hman : ∀ p ∈ (Manager.run r es).alive, p ∈ (Manager.run r es).processes := by
      have key : ∀ (es : List Event) (m : Manager), m.Ok r → (∀ p ∈ m.alive, p ∈ m.processes) →
          (∀ e ∈ es, e.Clean) → ∀ p ∈ (es.foldl Manager.step m).alive,
            p ∈ (es.foldl Manager.step m).processes := by
        intro es
        induction es with
        | nil => intro m _ h _; exact h
        | cons e es ih =>
          intro m h1 h2 h3
          exact ih _ (ok_step r m h1 e) (managed_step r m h1 h2 e (h3 e (by simp)))
            (fun e he => h3 e (by simp [he]))
      exact key es _ (ok_run r []) (by simp [Manager.new]) hc
    generalize Manager.run r es = m at *
    unfold Manager.running
    rw [List.countP_eq_length_filter]
    by_contra hlt
    have hlen : 2 ≤ (m.alive.filter fun p => p.1 == name).length := by omega
    obtain ⟨a, b, l, hab⟩ : ∃ a b l, m.alive.filter (fun p => p.1 == name) = a :: b :: l := by
      cases hfl : m.alive.filter (fun p => p.1 == name) with
      | nil => rw [hfl] at hlen; simp at hlen
      | cons a t =>
        cases t with
        | nil => rw [hfl] at hlen; simp at hlen
        | cons b l => exact ⟨a, b, l, rfl⟩
    have ha : a ∈ m.alive.filter (fun p => p.1 == name) := by rw [hab]; simp
    have hb : b ∈ m.alive.filter (fun p => p.1 == name) := by rw [hab]; simp
    have hnd := nodup_map_filter Prod.snd (fun p : String × Nat => p.1 == name) _ hok.aliveNodup
    rw [hab] at hnd
    simp only [List.map_cons, List.nodup_cons, List.mem_cons, not_or] at hnd
    obtain ⟨ha1, ha2⟩ := List.mem_filter.mp ha
    obtain ⟨hb1, hb2⟩ := List.mem_filter.mp hb
    simp only [beq_iff_eq] at ha2 hb2
    have : a = b := List.inj_on_of_nodup_map hok.keys (hman a ha1) (hman b hb1)
      (ha2.trans hb2.symm)
    exact hnd.1.1 (by rw [this])

/-- C52 on a history: a missing plugin, a failing start, a start, a second `get` (which reuses the
process), a shutdown and a restart. -/
example :
    let es := [Event.get "x" .works, .get "a" .spawnFails, .get "a" .works, .get "a" .works,
      .shutdown "a", .get "a" .works]
    (∀ e ∈ es, e.Clean) ∧ (Manager.run [exEntry "a" 1] es).running "a" = 1 ∧
      (Manager.run [exEntry "a" 1] es).nextPid = 2 := by
  refine ⟨?_, by decide, by decide⟩
  intro e he
  simp only [List.mem_cons, List.not_mem_nil, or_false] at he
  rcases he with rfl | rfl | rfl | rfl | rfl | rfl <;> simp [Event.Clean]

/-- **C52 is false of the code.**  A plugin that hangs in `initialize` is left running when
`get_plugin` gives up on it, and the next `get_plugin` starts another one. -/
theorem C52_full_false :
    ¬ ∀ (r : Registry) (es : List Event) (name : String), (Manager.run r es).running name ≤ 1 := by
  intro h
  have := h [exEntry "a" 1] [.get "a" (.initFails true), .get "a" .works] "a"
  revert this
  decide

end Hodu.Plugins
