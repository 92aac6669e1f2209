import Verif.Lemmas.Cuda
import Verif.Lemmas.Move
import Verif.Model.CudaMove

/-! # Grid-stride loops against sequential loops -/

namespace Hodu.Cuda
open _root_.Hodu.Spec
open Cuda.Spec

variable {β : Type}

/-- If the sequential loop over `n` positions succeeds, every interleaving of the grid ends with its result. -/
theorem gridLoop_of_runLoop {n : Nat} {val : Nat → Res β} {zs : List β} (hn : n ≤ 2 ^ 32 - 256)
    (h : runLoop n val = .ok zs) {buf : List β} (hb : buf.length = n) :
    Computes (gridLoop n val fun i => i) buf zs := by
  obtain ⟨hl, hg⟩ := Res.mapL_ok_inv h
  simp only [List.length_range] at hl
  apply gridLoop_list hn hb hl
  intro i hi
  have := hg i (by simpa using (by omega : i < n)) hi
  rwa [List.getElem_range] at this

/-- Into a longer buffer: the rest keeps its content. -/
theorem gridLoop_prefix {n : Nat} {val : Nat → Res β} {zs : List β} (hn : n ≤ 2 ^ 32 - 256)
    (h : runLoop n val = .ok zs) {buf : List β} (hb : n ≤ buf.length) :
    Computes (gridLoop n val fun i => i) buf (zs ++ buf.drop n) := by
  obtain ⟨hl, hg⟩ := Res.mapL_ok_inv h
  simp only [List.length_range] at hl
  apply gridLoop_computes hn (by simp; omega)
  · intro i hi
    refine ⟨by omega, zs[i]'(by omega), ?_, by rw [List.getElem?_append_left (by omega)]; simp⟩
    have := hg i (by simpa using hi) (by omega)
    rwa [List.getElem_range] at this
  · intro a ha
    have : n ≤ a := by
      by_contra hc
      exact ha a (by omega) rfl
    rw [List.getElem?_append_right (by omega), List.getElem?_drop]
    congr 1
    omega

/-- A position whose value cannot be computed: the thread that starts there goes wrong at once. -/
theorem gridLoop_ub {n i : Nat} {val : Nat → Res β} {dst : Nat → Nat} {buf : List β} (hn : n ≤ 2 ^ 32 - 256)
    (hi : i < n) (h : val i = .ub) : (gridLoop n val dst).exec buf [i] = .ub := by
  obtain ⟨h1, h2⟩ := grid_bounds hn
  have hs : ((gridLoop n val dst).init buf).pc i = .head i := by
    show (if i < 256 * gridSize n then Pc.head (threadStart i) else Pc.done) = _
    rw [if_pos (by omega), threadStart_eq (by omega)]
  have hstep : (gridLoop n val dst).step ((gridLoop n val dst).init buf) i = .ub := by
    unfold Loop.step
    rw [hs]
    simp only
    rw [if_pos (show i < (gridLoop n val dst).bound from hi), show (gridLoop n val dst).val i = .ub from h]
    rfl
  unfold Loop.exec
  simp only [Res.foldL, hstep]
  rfl

/-- A position that is stored outside of the buffer. -/
theorem gridLoop_store_ub {n i : Nat} {v : β} {val : Nat → Res β} {dst : Nat → Nat} {buf : List β}
    (hn : n ≤ 2 ^ 32 - 256) (hi : i < n) (h : val i = .ok v) (hd : buf.length ≤ dst i) :
    (gridLoop n val dst).exec buf [i, i] = .ub := by
  obtain ⟨h1, h2⟩ := grid_bounds hn
  have hs : ((gridLoop n val dst).init buf).pc i = .head i := by
    show (if i < 256 * gridSize n then Pc.head (threadStart i) else Pc.done) = _
    rw [if_pos (by omega), threadStart_eq (by omega)]
  have hstep : (gridLoop n val dst).step ((gridLoop n val dst).init buf) i =
      .ok { (gridLoop n val dst).init buf with
            pc := Function.update ((gridLoop n val dst).init buf).pc i (.store i v) } := by
    unfold Loop.step
    rw [hs]
    simp only
    rw [if_pos (show i < (gridLoop n val dst).bound from hi), show (gridLoop n val dst).val i = .ok v from h]
    rfl
  have hstep2 : (gridLoop n val dst).step { (gridLoop n val dst).init buf with
            pc := Function.update ((gridLoop n val dst).init buf).pc i (.store i v) } i = .ub := by
    unfold Loop.step
    simp only [Function.update_self]
    rw [if_neg (by
      show ¬ dst i < buf.length
      omega)]
  unfold Loop.exec
  simp only [Res.foldL, hstep, Res.ok_bind, hstep2]
  rfl

/-- Different results cannot both be computed. -/
theorem Computes.unique {k : Loop β} {buf a b : List β} (ha : Computes k buf a) (hb : Computes k buf b)
    (hfair : ∀ B, ∃ s : List Nat, ∀ t, t < k.threads → B ≤ s.count t) : a = b := by
  obtain ⟨B, hB⟩ := ha.2
  obtain ⟨s, hs⟩ := hfair B
  obtain ⟨st, e, h1⟩ := ha.1 s
  obtain ⟨st', e', h2⟩ := hb.1 s
  rw [e] at e'
  injection e' with e'
  subst e'
  have hf := hB s st hs e
  rw [← h1 hf, ← h2 hf]

theorem grid_le (n : Nat) : 256 * gridSize n ≤ 2 ^ 32 := by
  have : u32 n < 2 ^ 32 := Nat.mod_lt _ (by decide)
  unfold gridSize
  omega

theorem grid_covers {n : Nat} (h : n ≤ 2 ^ 32 - 1) : n ≤ 256 * gridSize n := by
  have hn : u32 n = n := Nat.mod_eq_of_lt (by omega)
  unfold gridSize
  rw [hn]
  omega

/-- A kernel with one store per thread: the positions for which there is a thread get their values, the others keep
their content. -/
theorem onceLoop_of_runLoop {n : Nat} {val : Nat → Res β} {zs : List β} (h : runLoop n val = .ok zs) {buf : List β}
    (hb : buf.length = n) :
    Computes (onceLoop n val) buf (zs.take (256 * gridSize n) ++ buf.drop (256 * gridSize n)) := by
  obtain ⟨hl, hg⟩ := Res.mapL_ok_inv h
  simp only [List.length_range] at hl
  have hG := grid_le n
  set G := 256 * gridSize n with hGd
  -- only positions below `G` are ever computed: the same executions as with the bound `min n G`
  have hval : ∀ i (hi : i < n), val i = .ok (zs[i]'(by omega)) := by
    intro i hi
    have := hg i (by simpa using hi) (by omega)
    rwa [List.getElem_range] at this
  have key : ∀ sched, ∃ s, (onceLoop n val).exec buf sched = .ok s ∧ s.out.length = n ∧
      (∀ t, t < G → (s.pc t = .head t ∧ sched.count t = 0 ∧ s.out[t]? = buf[t]?) ∨
        (∃ v, t < n ∧ s.pc t = .store t v ∧ zs[t]? = some v ∧ sched.count t = 1) ∨
        (t < n ∧ s.pc t = .head n ∧ s.out[t]? = zs[t]? ∧ sched.count t = 2) ∨
        (s.pc t = .done ∧ (t < n → s.out[t]? = zs[t]?))) ∧
      (∀ t, G ≤ t → s.pc t = .done ∧ s.out[t]? = buf[t]?) := by
    intro sched
    induction sched using List.reverseRecOn with
    | nil =>
      refine ⟨_, rfl, hb, ?_, ?_⟩
      · intro t ht
        refine Or.inl ⟨?_, by simp, rfl⟩
        show (if t < G then Pc.head (threadStart t) else Pc.done) = _
        rw [if_pos ht, threadStart_eq (by omega)]
      · intro t ht
        refine ⟨?_, rfl⟩
        show (if t < G then Pc.head (threadStart t) else Pc.done) = _
        rw [if_neg (by omega)]
    | append_singleton as a ih =>
      obtain ⟨s, hs, hlen, hin, hout⟩ := ih
      have hct : (as ++ [a]).count a = as.count a + 1 := by simp
      have hcu : ∀ u, u ≠ a → (as ++ [a]).count u = as.count u := by
        intro u hu
        rw [List.count_append, List.count_singleton]
        simp [Ne.symm hu]
      rw [exec_snoc, hs, Res.ok_bind]
      rcases Nat.lt_or_ge a G with ha | ha
      · rcases hin a ha with ⟨e, c, o⟩ | ⟨v, hn, e, z, c⟩ | ⟨hn, e, o, c⟩ | ⟨e, o⟩
        · rcases Nat.lt_or_ge a n with han | han
          · refine ⟨{ s with pc := Function.update s.pc a (.store a (zs[a]'(by omega))) }, ?_, hlen, ?_, ?_⟩
            · unfold Loop.step
              rw [e]
              simp only
              rw [if_pos (show a < (onceLoop n val).bound from han),
                show (onceLoop n val).val a = _ from hval a han]
              rfl
            · intro t ht
              by_cases hta : t = a
              · subst hta
                exact Or.inr (Or.inl ⟨_, han, Function.update_self .., by simp, by omega⟩)
              · simpa only [Function.update_of_ne hta, hcu t hta] using hin t ht
            · intro t ht
              simpa only [Function.update_of_ne (show t ≠ a by omega)] using hout t ht
          · refine ⟨{ s with pc := Function.update s.pc a .done }, ?_, hlen, ?_, ?_⟩
            · unfold Loop.step
              rw [e]
              simp only
              rw [if_neg (show ¬ a < (onceLoop n val).bound from by show ¬ a < n; omega)]
            · intro t ht
              by_cases hta : t = a
              · subst hta
                exact Or.inr (Or.inr (Or.inr ⟨Function.update_self .., by omega⟩))
              · simpa only [Function.update_of_ne hta, hcu t hta] using hin t ht
            · intro t ht
              simpa only [Function.update_of_ne (show t ≠ a by omega)] using hout t ht
        · refine ⟨{ out := s.out.set a v, pc := Function.update s.pc a (.head n) }, ?_, by simpa using hlen, ?_, ?_⟩
          · unfold Loop.step
            rw [e]
            simp only
            rw [if_pos (show (onceLoop n val).dst a < s.out.length from by show a < _; omega)]
            rfl
          · intro t ht
            by_cases hta : t = a
            · subst hta
              refine Or.inr (Or.inr (Or.inl ⟨hn, Function.update_self .., ?_, by omega⟩))
              rw [z, List.getElem?_set_self (by omega)]
            · simpa only [Function.update_of_ne hta, hcu t hta, List.getElem?_set_ne (Ne.symm hta)] using hin t ht
          · intro t ht
            simpa only [Function.update_of_ne (show t ≠ a by omega),
              List.getElem?_set_ne (show a ≠ t by omega)] using hout t ht
        · refine ⟨{ s with pc := Function.update s.pc a .done }, ?_, hlen, ?_, ?_⟩
          · unfold Loop.step
            rw [e]
            simp only
            rw [if_neg (show ¬ n < (onceLoop n val).bound from by show ¬ n < n; omega)]
          · intro t ht
            by_cases hta : t = a
            · subst hta
              exact Or.inr (Or.inr (Or.inr ⟨Function.update_self .., fun _ => o⟩))
            · simpa only [Function.update_of_ne hta, hcu t hta] using hin t ht
          · intro t ht
            simpa only [Function.update_of_ne (show t ≠ a by omega)] using hout t ht
        · refine ⟨s, ?_, hlen, ?_, hout⟩
          · unfold Loop.step
            rw [e]
          · intro t ht
            by_cases hta : t = a
            · subst hta
              exact Or.inr (Or.inr (Or.inr ⟨e, o⟩))
            · simpa only [hcu t hta] using hin t ht
      · refine ⟨s, ?_, hlen, ?_, hout⟩
        · unfold Loop.step
          rw [(hout a ha).1]
        · intro t ht
          simpa only [hcu t (show t ≠ a by omega)] using hin t ht
  constructor
  · intro sched
    obtain ⟨s, hs, hlen, hin, hout⟩ := key sched
    refine ⟨s, hs, fun hf => ?_⟩
    apply List.ext_getElem?
    intro t
    rcases Nat.lt_or_ge t G with ht | ht
    · rcases Nat.lt_or_ge t n with hn | hn
      · rcases hin t ht with ⟨e, _⟩ | ⟨v, _, e, _⟩ | ⟨_, e, _⟩ | ⟨_, o⟩
        · rw [hf t] at e; cases e
        · rw [hf t] at e; cases e
        · rw [hf t] at e; cases e
        · rw [o hn, List.getElem?_append_left (by simp; omega), List.getElem?_take_of_lt ht]
      · rw [List.getElem?_eq_none (by omega), List.getElem?_eq_none (by simp; omega)]
    · rw [(hout t ht).2]
      rcases Nat.lt_or_ge t n with hn | hn
      · rw [List.getElem?_append_right (by simp; omega), List.getElem?_drop]
        congr 1
        simp
        omega
      · rw [List.getElem?_eq_none (by omega), List.getElem?_eq_none (by simp; omega)]
  · refine ⟨3, fun sched s hc hs t => ?_⟩
    obtain ⟨s', hs', _, hin, hout⟩ := key sched
    rw [hs] at hs'
    cases hs'
    rcases Nat.lt_or_ge t G with ht | ht
    · have := hc t ht
      rcases hin t ht with ⟨_, c, _⟩ | ⟨_, _, _, _, c⟩ | ⟨_, _, _, c⟩ | ⟨e, _⟩
      · omega
      · omega
      · omega
      · exact e
    · exact (hout t ht).1

/-- With at most `2 ^ 32 - 1` elements there is a thread for each. -/
theorem onceLoop_all {n : Nat} {val : Nat → Res β} {zs : List β} (hn : n ≤ 2 ^ 32 - 1) (h : runLoop n val = .ok zs)
    {buf : List β} (hb : buf.length = n) : Computes (onceLoop n val) buf zs := by
  have hl : zs.length = n := by simpa using (Res.mapL_ok_inv h).1
  have hc := grid_covers hn
  have := onceLoop_of_runLoop h hb
  rwa [List.take_of_length_le (by omega), List.drop_eq_nil_of_le (by omega), List.append_nil] at this

end Hodu.Cuda
