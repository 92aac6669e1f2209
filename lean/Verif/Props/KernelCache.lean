import Verif.Model.KernelCache
import Mathlib.Tactic.Cases
import Mathlib.Data.List.Induction

/-!
# C132: the caches in front of the kernels

However the calls are interleaved: a kernel name has one leaked string and a device id one device; a Metal pipeline is the one asked for
as long as no name is used with two sources, and the names the hosts use belong to one source; a CUDA function is the one asked for, but may
come from a second copy of its module.  The leak is not bounded by 1024 strings.
-/

namespace Hodu.KernelCache

/-! ## Specification -/

/-- What a call was for. -/
def Spec.Call.key {K : Type} : Call K → K
  | .enter k | .slow k | .done k _ => k

/-- The critical sections a call has still to go through, at most. -/
def Spec.Call.left {K : Type} : Call K → Nat
  | .enter _ => 2
  | .slow _ => 1
  | .done _ _ => 0

open Spec

section
variable {K : Type} [DecidableEq K] {mayFail : Bool}

/-- The invariant of the double-checked caches. -/
structure DInv (mayFail : Bool) (s : DState K) : Prop where
  names : ∀ k o, s.cache.lookup k = some o → s.made[o]? = some k
  cached : ∀ k ∈ s.made, ∃ o, s.cache.lookup k = some o
  nodup : s.made.Nodup
  answers : ∀ k o, Call.done k (some o) ∈ s.calls → s.cache.lookup k = some o
  asked : ∀ k ∈ s.made, ∃ c ∈ s.calls, Spec.Call.key c = k
  fails : mayFail = false → ∀ k, Call.done k none ∉ s.calls

theorem lookup_cons_self' (k : K) (o : Nat) (l : List (K × Nat)) : List.lookup k ((k, o) :: l) = some o := by
  simp [List.lookup]

theorem lookup_cons_ne' {k k' : K} (h : k ≠ k') (o : Nat) (l : List (K × Nat)) :
    List.lookup k ((k', o) :: l) = List.lookup k l := by
  have : (k == k') = false := by simpa using h
  simp [List.lookup, this]

omit [DecidableEq K] in
/-- Whoever was there is there after a call moved on, with the same key. -/
theorem key_set {calls : List (Call K)} {i : Nat} {c c' : Call K} (hc : calls[i]? = some c)
    (hk : Spec.Call.key c' = Spec.Call.key c) {k : K} (h : ∃ c ∈ calls, Spec.Call.key c = k) :
    ∃ c ∈ calls.set i c', Spec.Call.key c = k := by
  obtain ⟨x, hx, rfl⟩ := h
  obtain ⟨j, hj⟩ := List.mem_iff_getElem?.mp hx
  by_cases hij : i = j
  · subst hij
    rw [hc] at hj
    cases hj
    obtain ⟨hi, -⟩ := List.getElem?_eq_some_iff.mp hc
    exact ⟨c', List.mem_set hi c', hk⟩
  · exact ⟨x, List.mem_iff_getElem?.mpr ⟨j, by rw [List.getElem?_set_ne hij]; exact hj⟩, rfl⟩

theorem dinv_step {s s' : DState K} (hI : DInv mayFail s) (hs : DStep mayFail s s') : DInv mayFail s' := by
  cases hs with
  | call k =>
    refine ⟨hI.names, hI.cached, hI.nodup, ?_, ?_, ?_⟩
    · intro k' o h
      rcases List.mem_append.mp h with h | h
      · exact hI.answers k' o h
      · simp at h
    · intro k' h
      obtain ⟨c, hc, e⟩ := hI.asked k' h
      exact ⟨c, List.mem_append_left _ hc, e⟩
    · intro hf k' h
      rcases List.mem_append.mp h with h | h
      · exact hI.fails hf k' h
      · simp at h
  | look i k h =>
    have hkey : Spec.Call.key (look s k) = Spec.Call.key (Call.enter k) := by
      unfold look; split <;> rfl
    refine ⟨hI.names, hI.cached, hI.nodup, ?_, fun k' hk' => key_set h hkey (hI.asked k' hk'), ?_⟩
    · intro k' o hm
      rcases List.mem_or_eq_of_mem_set hm with hm | hm
      · exact hI.answers k' o hm
      · unfold look at hm
        split at hm
        · rename_i o' ho
          cases hm
          exact ho
        · cases hm
    · intro hf k' hm
      rcases List.mem_or_eq_of_mem_set hm with hm | hm
      · exact hI.fails hf k' hm
      · unfold look at hm
        split at hm <;> cases hm
  | create i k works h hw =>
    unfold create
    split
    · rename_i o ho
      show DInv mayFail (⟨s.cache, s.made, s.calls.set i (.done k (some o))⟩ : DState K)
      refine ⟨hI.names, hI.cached, hI.nodup, ?_, fun k' hk' => key_set (c' := .done k (some o)) h rfl (hI.asked k' hk'), ?_⟩
      · intro k' o' hm
        rcases List.mem_or_eq_of_mem_set hm with hm | hm
        · exact hI.answers k' o' hm
        · cases hm; exact ho
      · intro hf k' hm
        rcases List.mem_or_eq_of_mem_set hm with hm | hm
        · exact hI.fails hf k' hm
        · cases hm
    · rename_i hno
      have hnew : k ∉ s.made := by
        intro hk
        obtain ⟨o, ho⟩ := hI.cached k hk
        rw [hno] at ho
        cases ho
      cases works with
      | false =>
        show DInv mayFail (⟨s.cache, s.made, s.calls.set i (.done k none)⟩ : DState K)
        refine ⟨hI.names, hI.cached, hI.nodup, ?_, fun k' hk' => key_set (c' := .done k none) h rfl (hI.asked k' hk'), ?_⟩
        · intro k' o' hm
          rcases List.mem_or_eq_of_mem_set hm with hm | hm
          · exact hI.answers k' o' hm
          · cases hm
        · intro hf
          rw [hw rfl] at hf
          cases hf
      | true =>
        show DInv mayFail (⟨(k, s.made.length) :: s.cache, s.made ++ [k], s.calls.set i (.done k (some s.made.length))⟩ : DState K)
        refine ⟨?_, ?_, ?_, ?_, ?_, ?_⟩
        · intro k' o ho
          show (s.made ++ [k])[o]? = some k'
          by_cases hk : k' = k
          · subst hk
            rw [show List.lookup k' ((k', s.made.length) :: s.cache) = _ from lookup_cons_self' ..] at ho
            cases ho
            simp
          · rw [show List.lookup k' ((k, s.made.length) :: s.cache) = _ from lookup_cons_ne' hk ..] at ho
            have := hI.names k' o ho
            rw [List.getElem?_append_left (List.getElem?_eq_some_iff.mp this).1]
            exact this
        · intro k' hk'
          show ∃ o, List.lookup k' ((k, s.made.length) :: s.cache) = some o
          by_cases hk : k' = k
          · subst hk
            exact ⟨_, lookup_cons_self' ..⟩
          · rw [lookup_cons_ne' hk]
            rcases List.mem_append.mp hk' with h' | h'
            · exact hI.cached k' h'
            · simp at h'; exact absurd h' hk
        · show (s.made ++ [k]).Nodup
          rw [List.nodup_append]
          exact ⟨hI.nodup, by simp, by intro a ha b hb; simp at hb; subst hb; intro e; exact hnew (e ▸ ha)⟩
        · intro k' o hm
          show List.lookup k' ((k, s.made.length) :: s.cache) = some o
          rcases List.mem_or_eq_of_mem_set hm with hm | hm
          · have := hI.answers k' o hm
            have hne : k' ≠ k := by rintro rfl; rw [hno] at this; cases this
            rw [lookup_cons_ne' hne]
            exact this
          · cases hm; exact lookup_cons_self' ..
        · intro k' hk'
          rcases List.mem_append.mp hk' with h' | h'
          · exact key_set (c' := .done k (some s.made.length)) h rfl (hI.asked k' h')
          · simp at h'
            subst h'
            exact key_set (c' := .done k' (some s.made.length)) h rfl ⟨_, List.mem_of_getElem? h, rfl⟩
        · intro hf k' hm
          rcases List.mem_or_eq_of_mem_set hm with hm | hm
          · exact hI.fails hf k' hm
          · cases hm

theorem dinv {s : DState K} (h : DReach mayFail s) : DInv mayFail s := by
  induction h with
  | init =>
    exact ⟨(fun _ _ h => nomatch h), (fun _ h => nomatch h), List.nodup_nil, (fun _ _ h => nomatch h), (fun _ h => nomatch h),
      (fun _ _ h => nomatch h)⟩
  | step _ hs ih => exact dinv_step ih hs

/-- **C132, one object per key**: however the calls are interleaved, the object a call returns was created for what it asked for (the leaked
string has the text of the name, the device the id), and two calls return the same object exactly when they asked for the same. -/
theorem C132_one_object {s : DState K} (h : DReach mayFail s) {k k' : K} {o o' : Nat} (hc : Call.done k (some o) ∈ s.calls)
    (hc' : Call.done k' (some o') ∈ s.calls) : s.made[o]? = some k ∧ (o = o' ↔ k = k') := by
  have hI := dinv h
  have h1 := hI.answers k o hc
  have h2 := hI.answers k' o' hc'
  have e1 := hI.names k o h1
  have e2 := hI.names k' o' h2
  refine ⟨e1, ?_, ?_⟩
  · rintro rfl
    rw [e1] at e2
    exact Option.some.inj e2
  · rintro rfl
    rw [h1] at h2
    exact Option.some.inj h2

/-- **C132, created once**: the objects are created for different keys, each of which somebody asked for; so there are never more of them
than different keys. -/
theorem C132_created_once {s : DState K} (h : DReach mayFail s) :
    s.made.Nodup ∧ ∀ k ∈ s.made, k ∈ s.calls.map Spec.Call.key := by
  have hI := dinv h
  refine ⟨hI.nodup, fun k hk => ?_⟩
  obtain ⟨c, hc, e⟩ := hI.asked k hk
  exact List.mem_map.mpr ⟨c, hc, e⟩

/-- **C132, names always work**: a call for a kernel name never fails, and leaves its string in the cache. -/
theorem C132_names_ok {s : DState K} (h : DReach false s) {k : K} {o : Option Nat} (hc : Call.done k o ∈ s.calls) :
    ∃ p, o = some p ∧ s.made[p]? = some k := by
  have hI := dinv h
  cases o with
  | none => exact absurd hc (hI.fails rfl k)
  | some p => exact ⟨p, rfl, hI.names k p (hI.answers k p hc)⟩

/-- **C132, calls end**: a call that has not returned can always go on, and needs at most two critical sections, whatever the others
do: a step of another call, or a new call, leaves it where it is. -/
theorem C132_calls_end {s : DState K} {i : Nat} {c : Call K} (hc : s.calls[i]? = some c) (hn : ∀ k o, c ≠ .done k o) :
    (∃ s' c', DStep mayFail s s' ∧ s'.calls[i]? = some c' ∧ Spec.Call.key c' = Spec.Call.key c ∧
      Spec.Call.left c' < Spec.Call.left c) ∧
    ∀ s', DStep mayFail s s' → ∃ c', s'.calls[i]? = some c' ∧ (c' = c ∨ Spec.Call.left c' < Spec.Call.left c) := by
  have hi := (List.getElem?_eq_some_iff.mp hc).1
  refine ⟨?_, ?_⟩
  · cases c with
    | done k o => exact absurd rfl (hn k o)
    | enter k =>
      refine ⟨_, look s k, .look s i k hc, by simp [hi], ?_, ?_⟩ <;> (unfold look; split <;> simp [Spec.Call.key, Spec.Call.left])
    | slow k =>
      refine ⟨_, (create s k true).2, .create s i k true hc (by simp), by simp [hi], ?_, ?_⟩ <;>
        (unfold create; split <;> simp [Spec.Call.key, Spec.Call.left])
  · intro s' hs
    cases hs with
    | call k => exact ⟨c, by simp [List.getElem?_append_left hi, hc], Or.inl rfl⟩
    | look j k h =>
      by_cases hij : j = i
      · subst hij
        rw [hc] at h; cases h
        refine ⟨look s k, by simp [hi], Or.inr ?_⟩
        unfold look; split <;> simp [Spec.Call.left]
      · exact ⟨c, by simp [List.getElem?_set_ne hij, hc], Or.inl rfl⟩
    | create j k works h hw =>
      by_cases hij : j = i
      · subst hij
        rw [hc] at h; cases h
        refine ⟨(create s k works).2, by simp [hi], Or.inr ?_⟩
        unfold create; split
        · simp [Spec.Call.left]
        · split <;> simp [Spec.Call.left]
      · exact ⟨c, by simp [List.getElem?_set_ne hij, hc], Or.inl rfl⟩

/-- One call after the other, for each of a list of different names. -/
theorem leaks (l : List K) (hl : l.Nodup) : ∃ s : DState K, DReach false s ∧ s.made = l ∧
    ∀ k, k ∉ l → s.cache.lookup k = none := by
  induction l using List.reverseRecOn with
  | nil => exact ⟨DState.init K, .init, rfl, fun _ _ => rfl⟩
  | append_singleton l k ih =>
    rw [List.nodup_append] at hl
    obtain ⟨s, hr, hm, hn⟩ := ih hl.1
    have hk : k ∉ l := fun h => hl.2.2 k h k (by simp) rfl
    have hno : s.cache.lookup k = none := hn k hk
    have r1 := DReach.step hr (.call s k)
    have r2 := DReach.step r1 (.look _ s.calls.length k (by simp))
    have e : look { s with calls := s.calls ++ [.enter k] } k = .slow k := by
      unfold look; simp [hno]
    rw [e] at r2
    have r3 := DReach.step r2 (.create _ s.calls.length k true (by simp) (by simp))
    refine ⟨_, r3, ?_, ?_⟩
    · unfold create; simp [hno, hm]
    · intro k' hk'
      simp at hk'
      unfold create
      simp only [hno]
      show List.lookup k' ((k, _) :: s.cache) = none
      rw [lookup_cons_ne' hk'.2]
      exact hn k' hk'.1

/-- **C132, the leak is not bounded** (negation of "the cache size is bounded", cache/kernel.rs:9-11 and :53): for every list of different names
there is an execution that leaks all of them; with 1025 names more than `MAX_KERNEL_NAMES` strings. -/
theorem C132_not_bounded : ¬ ∀ s : DState Nat, DReach false s → s.made.length ≤ 1024 := by
  intro h
  obtain ⟨s, hr, hm, -⟩ := leaks (List.range 1025) List.nodup_range
  have := h s hr
  rw [hm, List.length_range] at this
  omega

end

/-! ## Metal -/

section
variable {N C : Type} [DecidableEq N] [DecidableEq C] {has : Source → N → Bool}

/-- The invariant of the two caches: a library is the one of its source, and a pipeline the one of its name and constants, out of a source that
has the function and that `from_` allows. -/
structure MInv (has : Source → N → Bool) (from_ : N → C → Source → Prop) (s : MState N C) : Prop where
  libs : ∀ a b, s.libraries.lookup a = some b → b = a
  pipes : ∀ n c p, s.pipelines.lookup (n, c) = some p → p.name = n ∧ p.consts = c ∧ has p.source n = true ∧ from_ n c p.source

theorem loadLibrary_inv {from_ : N → C → Source → Prop} (d : Device) {s : MState N C} (hI : MInv has from_ s) (src : Source) :
    MInv has from_ (loadLibrary d s src).1 ∧ (∀ l, (loadLibrary d s src).2 = .ok l → l = src) ∧
      (loadLibrary d s src).1.pipelines = s.pipelines := by
  unfold loadLibrary
  split
  · rename_i l hl
    exact ⟨hI, fun l' h => by cases h; exact hI.libs _ _ hl, rfl⟩
  · split
    · refine ⟨⟨?_, hI.pipes⟩, fun l h => by cases h; rfl, rfl⟩
      intro a b h
      by_cases e : a = src
      · subst e
        simp [List.lookup] at h
        exact h.symm
      · have : (a == src) = false := by simpa using e
        simp only [List.lookup, this] at h
        exact hI.libs a b h
    · exact ⟨hI, fun l h => by simp at h, rfl⟩

theorem loadPipeline_inv {from_ : N → C → Source → Prop} {s : MState N C} (hI : MInv has from_ s) (r : Req N C)
    (hr : from_ r.name r.consts r.source) :
    MInv has from_ (loadPipeline has s r).1 ∧ ∀ p, (loadPipeline has s r).2 = .ok p →
      p.name = r.name ∧ p.consts = r.consts ∧ has p.source r.name = true ∧ from_ r.name r.consts p.source := by
  unfold loadPipeline
  split
  · rename_i p hp
    exact ⟨hI, fun p' h => by cases h; exact hI.pipes _ _ _ hp⟩
  · obtain ⟨h1, h2, h3⟩ := loadLibrary_inv r.device hI r.source
    generalize loadLibrary r.device s r.source = a at h1 h2 h3
    obtain ⟨s', x⟩ := a
    cases x with
    | ok l =>
      have hl : l = r.source := h2 l rfl
      subst hl
      simp only
      split
      · exact ⟨h1, fun p h => by simp at h⟩
      · rename_i hh
        have hh : has r.source r.name = true := by simpa using hh
        split
        · exact ⟨h1, fun p h => by simp at h⟩
        · refine ⟨⟨h1.libs, ?_⟩, fun p h => by cases h; exact ⟨rfl, rfl, hh, hr⟩⟩
          intro n c p h
          by_cases e : (n, c) = (r.name, r.consts)
          · rw [e] at h
            simp [List.lookup] at h
            subst h
            cases e
            exact ⟨rfl, rfl, hh, hr⟩
          · have : ((n, c) == (r.name, r.consts)) = false := by simpa using e
            simp only [List.lookup, this] at h
            exact h1.pipes n c p h
    | err => exact ⟨h1, fun p h => by simp at h⟩
    | panic => exact ⟨h1, fun p h => by simp at h⟩
    | ub => exact ⟨h1, fun p h => by simp at h⟩

theorem loadAll_inv {from_ : N → C → Source → Prop} (rs : List (Req N C)) {s : MState N C} (hI : MInv has from_ s)
    (hr : ∀ r ∈ rs, from_ r.name r.consts r.source) (i : Nat) {r : Req N C} {p : Pipe N C} (hi : rs[i]? = some r)
    (hp : (loadAll has s rs).2[i]? = some (.ok p)) :
    p.name = r.name ∧ p.consts = r.consts ∧ has p.source r.name = true ∧ from_ r.name r.consts p.source := by
  induction rs generalizing s i with
  | nil => simp at hi
  | cons q rs ih =>
    obtain ⟨h1, h2⟩ := loadPipeline_inv hI q (hr q (by simp))
    cases i with
    | zero =>
      simp at hi
      subst hi
      simp [loadAll] at hp
      exact h2 p hp
    | succ i => exact ih h1 (fun r h => hr r (by simp [h])) i (by simpa using hi) (by simpa [loadAll] using hp)

/-- **C132, Metal pipelines**: in any sequence of calls on fresh caches, whatever the device answers, a pipeline handed out is compiled from the
function and the constants asked for, out of a source that has the function — and out of the source asked for, when the calls agree on the source of
each name. -/
theorem C132_metal (rs : List (Req N C)) (home : N → Source) (hh : ∀ r ∈ rs, r.source = home r.name) (i : Nat) {r : Req N C}
    {p : Pipe N C} (hi : rs[i]? = some r) (hp : (loadAll has ⟨[], []⟩ rs).2[i]? = some (.ok p)) :
    p = ⟨r.source, r.name, r.consts⟩ ∧ has r.source r.name = true := by
  obtain ⟨h1, h2, h3, h4⟩ := loadAll_inv (from_ := fun n _ s => s = home n) rs
    ⟨fun a b h => by simp at h, fun n c p h => by simp at h⟩ hh i hi hp
  have hr := hh r (List.mem_of_getElem? hi)
  have e : p.source = r.source := by rw [h4, hr]
  refine ⟨?_, e ▸ h3⟩
  cases p
  simp only at h1 h2 e
  subst h1 h2 e
  rfl

/-- **C132, a failure is not remembered**: a call that fails leaves the pipelines as they were; and on a device that compiles and links, a
function of the source is always found, whatever failed before. -/
theorem C132_metal_retry (s : MState N C) (r : Req N C) :
    ((loadPipeline has s r).2 = .err → (loadPipeline has s r).1.pipelines = s.pipelines) ∧
    (r.device = ⟨true, true⟩ → (∀ a b, s.libraries.lookup a = some b → b = a) → has r.source r.name = true →
      ∃ p, (loadPipeline has s r).2 = .ok p) := by
  obtain ⟨src, n, c, d⟩ := r
  constructor
  · intro h
    cases hp : s.pipelines.lookup (n, c) <;> cases hl : s.libraries.lookup src <;> cases hd : d.compiles <;>
      simp only [loadPipeline, loadLibrary, hp, hl, hd, if_true, Bool.false_eq_true, if_false] at h ⊢ <;>
      (split <;> first | rfl | (split <;> first | rfl | simp_all))
  · intro hd hb hh
    simp only at hd hh
    subst hd
    cases hp : s.pipelines.lookup (n, c) with
    | some p => exact ⟨p, by simp [loadPipeline, hp]⟩
    | none =>
      cases hl : s.libraries.lookup src with
      | some l =>
        have := hb _ _ hl
        subst this
        exact ⟨_, by simp [loadPipeline, loadLibrary, hp, hl, hh]; rfl⟩
      | none => exact ⟨_, by simp [loadPipeline, loadLibrary, hp, hl, hh]; rfl⟩

end

/-- **C132, the source is not part of the key** (hodu_metal_kernels/src/kernel.rs:56): a name used with a second source is answered with the pipeline
of the first, even if the second has no such function. -/
theorem C132_metal_wrong_source : ¬ ∀ (has : Source → Nat → Bool) (rs : List (Req Nat Unit)) (i : Nat) (r : Req Nat Unit) (p : Pipe Nat Unit),
    rs[i]? = some r → (loadAll has ⟨[], []⟩ rs).2[i]? = some (.ok p) → p.source = r.source := by
  intro h
  have := h (fun s _ => s == .binary) [⟨.binary, 7, (), ⟨true, true⟩⟩, ⟨.unary, 7, (), ⟨true, true⟩⟩] 1 ⟨.unary, 7, (), ⟨true, true⟩⟩
    ⟨.binary, 7, ()⟩ rfl rfl
  cases this

/-! ## The names of the kernels -/

theorem split_last {a b t u : List Char} (ht : '_' ∉ t) (hu : '_' ∉ u) (h : a ++ '_' :: t = b ++ '_' :: u) : a = b ∧ t = u := by
  rcases List.append_eq_append_iff.mp h with ⟨c, h1, h2⟩ | ⟨c, h1, h2⟩
  · cases c with
    | nil => simp at h1 h2; exact ⟨h1.symm, h2⟩
    | cons x c =>
      simp at h2
      exact absurd (h2.2 ▸ (by simp : '_' ∈ c ++ '_' :: u)) ht
  · cases c with
    | nil => simp at h1 h2; exact ⟨h1, h2.symm⟩
    | cons x c =>
      simp at h2
      exact absurd (h2.2 ▸ (by simp : '_' ∈ c ++ '_' :: t)) hu

theorem ops_nodup : (ops.map Prod.snd).Nodup := by decide +kernel

/-- **C132, one source per name**: two kernels the hosts can ask for have the same name only if they are the same operation, of the same source, for the
same type; so the calls of the hosts agree on the source of each name, as `C132_metal` wants. -/
theorem C132_names {s s' : Source} {op op' : List Char} {ty ty' : String} (h : (s, op) ∈ ops) (h' : (s', op') ∈ ops)
    (ht : ty ∈ typeNames) (ht' : ty' ∈ typeNames) (e : kernelName op ty.toList = kernelName op' ty'.toList) :
    s = s' ∧ op = op' ∧ ty = ty' := by
  have hu : ∀ t ∈ typeNames, '_' ∉ t.toList := by decide +kernel
  obtain ⟨e1, e2⟩ := split_last (hu ty ht) (hu ty' ht') (List.append_cancel_left e)
  subst e1
  have := List.inj_on_of_nodup_map ops_nodup h h' rfl
  exact ⟨congrArg Prod.fst this, rfl, String.toList_injective e2⟩

/-! ## CUDA -/

section
variable {S N : Type} [DecidableEq S] [DecidableEq N] {has : S → N → Bool} {mayFail : Bool}

/-- The function is the one named `n` of the source `s`, taken from a module that was loaded from `s`. -/
def Spec.Right (has : S → N → Bool) (loaded : List S) (s : S) (n : N) (f : Fn S N) : Prop :=
  f.source = s ∧ f.name = n ∧ has s n = true ∧ loaded[f.module_]? = some s

/-- What a call has in hand is right. -/
def Good (has : S → N → Bool) (mayFail : Bool) (loaded : List S) : CCall S N → Prop
  | .enter _ _ | .noFn _ _ | .noMod _ _ | .ptx _ _ => True
  | .newMod s _ m | .mod s _ m => loaded[m]? = some s
  | .newFn s n f | .done s n (some f) => Spec.Right has loaded s n f
  | .done s n none => mayFail = false → has s n = false

/-- The steps a call has still to take, at most. -/
def Spec.CCall.left : CCall S N → Nat
  | .enter _ _ => 7
  | .noFn _ _ => 6
  | .noMod _ _ => 5
  | .ptx _ _ => 4
  | .newMod _ _ _ => 3
  | .mod _ _ _ => 2
  | .newFn _ _ _ => 1
  | .done _ _ _ => 0

structure CInv (has : S → N → Bool) (mayFail : Bool) (st : CState S N) : Prop where
  mods : ∀ s m, st.modules.lookup s = some m → st.loaded[m]? = some s
  fns : ∀ s n f, st.functions.lookup (s, n) = some f → Spec.Right has st.loaded s n f
  calls : ∀ c ∈ st.calls, Good has mayFail st.loaded c

omit [DecidableEq S] [DecidableEq N] in
theorem grows {l : List S} {m : Nat} {s : S} (x : S) (h : l[m]? = some s) : (l ++ [x])[m]? = some s := by
  rw [List.getElem?_append_left (List.getElem?_eq_some_iff.mp h).1]
  exact h

omit [DecidableEq S] [DecidableEq N] in
theorem Good.grows {l : List S} {c : CCall S N} (x : S) (h : Good has mayFail l c) : Good has mayFail (l ++ [x]) c := by
  cases c with
  | enter | noFn | noMod | ptx => trivial
  | newMod s n m => exact KernelCache.grows x h
  | mod s n m => exact KernelCache.grows x h
  | newFn s n f => exact ⟨h.1, h.2.1, h.2.2.1, KernelCache.grows x h.2.2.2⟩
  | done s n f =>
    cases f with
    | none => exact h
    | some f => exact ⟨h.1, h.2.1, h.2.2.1, KernelCache.grows x h.2.2.2⟩

theorem cmove_inv {st : CState S N} (hI : CInv has mayFail st) {c : CCall S N} (hc : Good has mayFail st.loaded c) (hd : c.isDone = false)
    {works : Bool} (hw : works = false → mayFail = true) :
    CInv has mayFail (cmove has works st c).1 ∧ Good has mayFail (cmove has works st c).1.loaded (cmove has works st c).2 ∧
      Spec.CCall.left (cmove has works st c).2 < Spec.CCall.left c := by
  cases c with
  | enter s n =>
    simp only [cmove]
    split
    · rename_i f hf
      exact ⟨hI, hI.fns _ _ _ hf, by simp [Spec.CCall.left]⟩
    · exact ⟨hI, trivial, by simp [Spec.CCall.left]⟩
  | noFn s n =>
    simp only [cmove]
    split
    · rename_i m hm
      exact ⟨hI, hI.mods _ _ hm, by simp [Spec.CCall.left]⟩
    · exact ⟨hI, trivial, by simp [Spec.CCall.left]⟩
  | noMod s n => exact ⟨⟨hI.mods, hI.fns, hI.calls⟩, trivial, by simp [cmove, Spec.CCall.left]⟩
  | ptx s n =>
    cases works with
    | false =>
      refine ⟨hI, ?_, by simp [cmove, Spec.CCall.left]⟩
      intro hf
      rw [hw rfl] at hf
      cases hf
    | true =>
      refine ⟨⟨fun s' m h => grows s (hI.mods s' m h), ?_, fun c hc => (hI.calls c hc).grows s⟩, ?_, by simp [cmove, Spec.CCall.left]⟩
      · intro s' n' f h
        obtain ⟨h1, h2, h3, h4⟩ := hI.fns s' n' f h
        exact ⟨h1, h2, h3, grows s h4⟩
      · show (st.loaded ++ [s])[st.loaded.length]? = some s
        simp
  | newMod s n m =>
    refine ⟨⟨?_, hI.fns, hI.calls⟩, hc, by simp [cmove, Spec.CCall.left]⟩
    intro s' m' h
    by_cases e : s' = s
    · subst e
      simp [cmove] at h
      subst h
      exact hc
    · have : (s' == s) = false := by simpa using e
      simp only [cmove, List.lookup, this] at h
      exact hI.mods s' m' h
  | mod s n m =>
    have hm : st.loaded[m]? = some s := hc
    simp only [cmove, hm]
    split
    · rename_i hh
      exact ⟨hI, ⟨rfl, rfl, hh, hm⟩, by simp [Spec.CCall.left]⟩
    · rename_i hh
      exact ⟨hI, fun _ => by simpa using hh, by simp [Spec.CCall.left]⟩
  | newFn s n f =>
    refine ⟨⟨hI.mods, ?_, hI.calls⟩, hc, by simp [cmove, Spec.CCall.left]⟩
    intro s' n' f' h
    by_cases e : (s', n') = (s, n)
    · cases e
      simp [cmove] at h
      subst h
      exact hc
    · have : ((s', n') == (s, n)) = false := by simpa using e
      simp only [cmove, List.lookup, this] at h
      exact hI.fns s' n' f' h
  | done s n f => cases hd

theorem cinv {st : CState S N} (h : CReach has mayFail st) : CInv has mayFail st := by
  induction h with
  | init => exact ⟨(fun _ _ h => nomatch h), (fun _ _ _ h => nomatch h), (fun _ h => nomatch h)⟩
  | step _ hs ih =>
    cases hs with
    | call s n =>
      refine ⟨ih.mods, ih.fns, ?_⟩
      intro c hc
      rcases List.mem_append.mp hc with hc | hc
      · exact ih.calls c hc
      · simp at hc
        subst hc
        trivial
    | move i c works h hd hw =>
      obtain ⟨h1, h2, -⟩ := cmove_inv ih (ih.calls c (List.mem_of_getElem? h)) hd hw
      refine ⟨h1.mods, h1.fns, ?_⟩
      intro x hx
      rcases List.mem_or_eq_of_mem_set hx with hy | hy
      · cases c with
        | ptx s n =>
          cases works with
          | false => exact ih.calls x hy
          | true => exact (ih.calls x hy).grows s
        | enter s n => simp only [cmove]; split <;> exact ih.calls x hy
        | noFn s n => simp only [cmove]; split <;> exact ih.calls x hy
        | noMod s n => exact ih.calls x hy
        | newMod s n m => exact ih.calls x hy
        | mod s n m => simp only [cmove]; (repeat' split) <;> exact ih.calls x hy
        | newFn s n f => exact ih.calls x hy
        | done s n f => exact ih.calls x hy
      · subst hy
        exact h2

/-- **C132, CUDA functions**: however the calls of `load_function` are interleaved, a function handed out is the one of the name in the source
asked for, taken from a module that was loaded from that source; and when the driver loads every module, an error means that the source has no
function of the name. -/
theorem C132_cuda {st : CState S N} (h : CReach has mayFail st) {s : S} {n : N} {f : Option (Fn S N)} (hc : CCall.done s n f ∈ st.calls) :
    (∀ g, f = some g → Spec.Right has st.loaded s n g) ∧ (mayFail = false → f = none → has s n = false) := by
  have hg := (cinv h).calls _ hc
  constructor
  · rintro g rfl
    exact hg
  · rintro hf rfl
    exact hg hf

/-- **C132, CUDA calls end**: a call that has not returned can go on, with fewer steps before it, at most seven in all. -/
theorem C132_cuda_calls_end {st : CState S N} (h : CReach has mayFail st) {i : Nat} {c : CCall S N} (hc : st.calls[i]? = some c)
    (hn : ∀ s n f, c ≠ .done s n f) :
    ∃ st' c', CStep has mayFail st st' ∧ st'.calls[i]? = some c' ∧ Spec.CCall.left c' < Spec.CCall.left c := by
  have hd : c.isDone = false := by
    cases c <;> first | rfl | exact absurd rfl (hn _ _ _)
  have hi := (List.getElem?_eq_some_iff.mp hc).1
  exact ⟨_, (cmove has true st c).2, .move st i c true hc hd (by simp), by simp [hi],
    (cmove_inv (cinv h) ((cinv h).calls c (List.mem_of_getElem? hc)) hd (by simp)).2.2⟩

/-- Executions to compute with: start a call, or move the call `i`. -/
def crun (has : S → N → Bool) : CState S N → List ((S × N) ⊕ Nat) → CState S N
  | st, [] => st
  | st, .inl (s, n) :: l => crun has { st with calls := st.calls ++ [.enter s n] } l
  | st, .inr i :: l =>
    match st.calls[i]? with
    | none => crun has st l
    | some c =>
      if c.isDone then crun has st l
      else crun has { (cmove has true st c).1 with calls := st.calls.set i (cmove has true st c).2 } l

theorem crun_reach (l : List ((S × N) ⊕ Nat)) {st : CState S N} (h : CReach has mayFail st) : CReach has mayFail (crun has st l) := by
  induction l generalizing st with
  | nil => exact h
  | cons a l ih =>
    rcases a with ⟨s, n⟩ | i
    · exact ih (.step h (.call st s n))
    · simp only [crun]
      split
      · exact ih h
      · rename_i c hc
        split
        · exact ih h
        · rename_i hd
          exact ih (.step h (.move st i c true hc (by simpa using hd) (by simp)))

end

/-- **C132, a module may be loaded twice** (hodu_cuda_kernels/src/kernel.rs:187-203; the caches do not look again before they insert): two threads that ask for
the same kernel at once can end up with functions of two copies of the module, where the name and device caches would have one. -/
theorem C132_cuda_twice : ¬ ∀ st : CState Nat Nat, CReach (fun _ _ => true) false st → st.loaded.Nodup ∧
    ∀ s n f f', CCall.done s n (some f) ∈ st.calls → CCall.done s n (some f') ∈ st.calls → f = f' := by
  intro h
  have := (h _ (crun_reach [.inl (3, 5), .inl (3, 5), .inr 0, .inr 0, .inr 1, .inr 1, .inr 0, .inr 0, .inr 0, .inr 0, .inr 0, .inr 1, .inr 1,
    .inr 1, .inr 1, .inr 1] .init)).2 3 5 ⟨0, 3, 5⟩ ⟨1, 3, 5⟩ (by decide) (by decide)
  cases this

/-! ## Examples -/

/-- Two threads ask for the same name at once: both look before either creates, and get the same string; a third name gets another one. -/
example : ∃ s : DState String, DReach false s ∧ s.made = ["hodu_metal_add_f32"] ∧
    s.calls = [.done "hodu_metal_add_f32" (some 0), .done "hodu_metal_add_f32" (some 0)] :=
  ⟨_, .step (.step (.step (.step (.step (.step .init (.call _ "hodu_metal_add_f32")) (.call _ "hodu_metal_add_f32")) (.look _ 0 _ rfl))
    (.look _ 1 _ rfl)) (.create _ 0 "hodu_metal_add_f32" true rfl (by simp))) (.create _ 1 "hodu_metal_add_f32" true rfl (by simp)),
    by decide, by decide⟩

/-- A pipeline that fails to link, then links, then is cached. -/
example : (loadAll (fun _ _ => true) (⟨[], []⟩ : MState Nat Unit)
      [⟨.binary, 7, (), ⟨true, false⟩⟩, ⟨.binary, 7, (), ⟨false, true⟩⟩, ⟨.binary, 7, (), ⟨false, false⟩⟩]).2 =
    [.err, .ok ⟨.binary, 7, ()⟩, .ok ⟨.binary, 7, ()⟩] := by decide

example : (Source.unary, "add_scalar".toList) ∈ ops ∧ (Source.binary, "add".toList) ∈ ops ∧
    kernelName "add".toList "f32".toList = "hodu_metal_add_f32".toList ∧
    (Source.cast, "cast_f32_to".toList) ∈ ops := by decide +kernel

/-- A function the source does not have is an error, one it has is found. -/
example : (crun (fun s n => s == n) (CState.init Nat Nat) [.inl (3, 4), .inr 0, .inr 0, .inr 0, .inr 0, .inr 0, .inr 0, .inl (3, 3), .inr 1, .inr 1,
    .inr 1, .inr 1]).calls = [.done 3 4 none, .done 3 3 (some ⟨0, 3, 3⟩)] := by decide

end Hodu.KernelCache
