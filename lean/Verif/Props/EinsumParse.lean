import Verif.Model.Einsum
import Verif.Props.ReadBack

/-!
# C26: einsum equations are parsed soundly
-/

namespace Hodu
open Spec

/-! ## Specification -/

/-- The text contains no arrow `->`. -/
def Spec.NoArrow (s : List Char) : Prop := ¬ ['-', '>'] <:+: s

/-- `s`, blanks aside, is the equation `ins₁,ins₂,... [-> out]` with exactly one or no arrow. -/
structure Spec.IsEquation (s : List Char) (ins : List (List Char)) (out : Option (List Char)) : Prop where
  text : s.filter (· ≠ ' ') = [','].intercalate ins ++ (match out with
    | none => []
    | some o => '-' :: '>' :: o)
  operands : ins ≠ []
  commas : ∀ x ∈ ins, ',' ∉ x
  left : NoArrow ([','].intercalate ins)
  right : ∀ o, out = some o → NoArrow o

/-- Label `c` names a dimension of size `n` of some operand. -/
def Spec.LabelSize (ins : List (List Char)) (shapes : List (List Nat)) (c : Char) (n : Nat) : Prop :=
  ∃ (i j : Nat) (subs : List Char) (dims : List Nat), ins[i]? = some subs ∧ shapes[i]? = some dims ∧ subs[j]? = some c ∧ dims[j]? = some n

/-- Every operand has as many labels as dimensions. -/
def Spec.RanksMatch (ins : List (List Char)) (shapes : List (List Nat)) : Prop :=
  ∀ (i : Nat) (subs : List Char) (dims : List Nat), ins[i]? = some subs → shapes[i]? = some dims →
    subs.length = dims.length

/-! ## Splitting -/

theorem consHead_ne (c : Char) (l : List (List Char)) : consHead c l ≠ [] := by cases l <;> simp [consHead]

theorem splitChar_ne (sep : Char) (s : List Char) : splitChar sep s ≠ [] := by
  cases s with
  | nil => simp [splitChar]
  | cons c cs => unfold splitChar; split <;> simp [consHead_ne]

theorem splitArrow_ne (s : List Char) : splitArrow s ≠ [] := by
  match s with
  | [] => simp [splitArrow]
  | [c] => simp [splitArrow]
  | c :: c' :: cs => unfold splitArrow; split <;> simp [consHead_ne]

theorem intercalate_consHead (sep : List Char) (c : Char) {l : List (List Char)} (h : l ≠ []) :
    sep.intercalate (consHead c l) = c :: sep.intercalate l := by
  match l with
  | [] => exact absurd rfl h
  | [p] => simp [consHead, List.intercalate]
  | p :: q :: ps => simp [consHead, List.intercalate, List.intersperse]

theorem intercalate_nil_cons (sep : List Char) {l : List (List Char)} (h : l ≠ []) :
    sep.intercalate ([] :: l) = sep ++ sep.intercalate l := by
  match l with
  | [] => exact absurd rfl h
  | p :: ps => simp [List.intercalate, List.intersperse]

theorem splitChar_join (sep : Char) (s : List Char) : [sep].intercalate (splitChar sep s) = s := by
  induction s with
  | nil => simp [splitChar, List.intercalate]
  | cons c cs ih =>
    unfold splitChar
    by_cases h : c = sep
    · rw [if_pos h, intercalate_nil_cons _ (splitChar_ne _ _), ih, h]; rfl
    · rw [if_neg h, intercalate_consHead _ _ (splitChar_ne _ _), ih]

theorem splitChar_free (sep : Char) (s : List Char) : ∀ x ∈ splitChar sep s, sep ∉ x := by
  induction s with
  | nil => simp [splitChar]
  | cons c cs ih =>
    unfold splitChar
    by_cases h : c = sep
    · rw [if_pos h]
      intro x hx
      rcases List.mem_cons.mp hx with rfl | hx
      · simp
      · exact ih x hx
    · rw [if_neg h]
      revert ih
      have := splitChar_ne sep cs
      cases hs : splitChar sep cs with
      | nil => exact absurd hs this
      | cons p ps =>
        intro ih x hx
        rcases List.mem_cons.mp hx with rfl | hx
        · intro hm
          rcases List.mem_cons.mp hm with rfl | hm
          · exact h rfl
          · exact ih p (by simp) hm
        · exact ih x (by simp [hx])

theorem splitChar_of_free {sep : Char} {x : List Char} (h : sep ∉ x) : splitChar sep x = [x] := by
  induction x with
  | nil => rfl
  | cons c cs ih =>
    unfold splitChar
    rw [if_neg (fun e => h (by simp [e])), ih (fun e => h (by simp [e]))]
    rfl

theorem splitChar_append {sep : Char} {x : List Char} (h : sep ∉ x) (y : List Char) :
    splitChar sep (x ++ sep :: y) = x :: splitChar sep y := by
  induction x with
  | nil => simp [splitChar]
  | cons c cs ih =>
    rw [List.cons_append, splitChar, if_neg (fun e => h (by simp [e])), ih (fun e => h (by simp [e]))]
    rfl

theorem splitChar_intercalate {sep : Char} {ins : List (List Char)} (h : ins ≠ [])
    (hf : ∀ x ∈ ins, sep ∉ x) : splitChar sep ([sep].intercalate ins) = ins := by
  induction ins with
  | nil => exact absurd rfl h
  | cons x xs ih =>
    cases xs with
    | nil =>
      simp only [List.intercalate, List.intersperse, List.flatten_cons, List.flatten_nil, List.append_nil]
      exact splitChar_of_free (hf x (by simp))
    | cons y ys =>
      have : [sep].intercalate (x :: y :: ys) = x ++ sep :: [sep].intercalate (y :: ys) := by
        simp [List.intercalate, List.intersperse]
      rw [this, splitChar_append (hf x (by simp)), ih (by simp) (fun z hz => hf z (by simp [hz]))]

theorem splitArrow_join (s : List Char) : ['-', '>'].intercalate (splitArrow s) = s := by
  match s with
  | [] => simp [splitArrow, List.intercalate]
  | [c] => simp [splitArrow, List.intercalate]
  | c :: c' :: cs =>
    unfold splitArrow
    split
    · rename_i h
      rw [intercalate_nil_cons _ (splitArrow_ne _), splitArrow_join cs, h.1, h.2]; rfl
    · rw [intercalate_consHead _ _ (splitArrow_ne _), splitArrow_join (c' :: cs)]

theorem noArrow_nil : NoArrow [] := by simp [NoArrow]

theorem noArrow_cons {c : Char} {s : List Char} :
    NoArrow (c :: s) ↔ ¬ (c = '-' ∧ s.head? = some '>') ∧ NoArrow s := by
  unfold NoArrow
  rw [List.infix_cons_iff]
  have : ['-', '>'] <+: (c :: s) ↔ (c = '-' ∧ s.head? = some '>') := by
    cases s with
    | nil => simp
    | cons d ds => simp [List.cons_prefix_cons, eq_comm]
  rw [this]
  exact not_or

theorem splitArrow_free (s : List Char) : ∀ x ∈ splitArrow s, NoArrow x := by
  match s with
  | [] => simp [splitArrow, noArrow_nil]
  | [c] =>
    intro x hx
    simp only [splitArrow, List.mem_singleton] at hx
    subst hx
    simp [noArrow_cons, noArrow_nil]
  | c :: c' :: cs =>
    unfold splitArrow
    split
    · intro x hx
      rcases List.mem_cons.mp hx with rfl | hx
      · exact noArrow_nil
      · exact splitArrow_free cs x hx
    · rename_i h
      have ih := splitArrow_free (c' :: cs)
      have hj := splitArrow_join (c' :: cs)
      revert ih hj
      have := splitArrow_ne (c' :: cs)
      cases hs : splitArrow (c' :: cs) with
      | nil => exact absurd hs this
      | cons p ps =>
        intro ih hj x hx
        rcases List.mem_cons.mp hx with rfl | hx
        · rw [noArrow_cons]
          refine ⟨fun hc => h ⟨hc.1, ?_⟩, ih p (by simp)⟩
          cases p with
          | nil => simp at hc
          | cons d ds =>
            have hd : d = '>' := by simpa using hc.2
            cases ps with
            | nil =>
              simp [List.intercalate] at hj
              rw [← hj.1, hd]
            | cons q qs =>
              simp [List.intercalate, List.intersperse] at hj
              rw [← hj.1, hd]
        · exact ih x (by simp [hx])

theorem splitArrow_of_free {s : List Char} (h : NoArrow s) : splitArrow s = [s] := by
  match s with
  | [] => rfl
  | [c] => rfl
  | c :: c' :: cs =>
    rw [noArrow_cons] at h
    unfold splitArrow
    rw [if_neg (by simpa using h.1), splitArrow_of_free h.2]
    rfl

theorem splitArrow_append {s : List Char} (h : NoArrow s) (o : List Char) :
    splitArrow (s ++ '-' :: '>' :: o) = s :: splitArrow o := by
  match s with
  | [] => simp [splitArrow]
  | [c] =>
    simp only [List.cons_append, List.nil_append]
    rw [splitArrow, if_neg (by simp), splitArrow]
    simp [consHead]
  | c :: c' :: cs =>
    rw [noArrow_cons] at h
    simp only [List.cons_append]
    rw [splitArrow, if_neg (by simpa using h.1)]
    have := splitArrow_append h.2 o
    rw [List.cons_append] at this
    rw [this]
    rfl

/-- Splitting at arrows and commas finds the equation. -/
theorem split_isEquation {s a : List Char} {o : Option (List Char)}
    (h : einsumSplit (s.filter (· ≠ ' ')) = .ok (a, o)) : IsEquation s (splitChar ',' a) o := by
  have hj := splitArrow_join (s.filter (· ≠ ' '))
  have hf := splitArrow_free (s.filter (· ≠ ' '))
  unfold einsumSplit at h
  revert h hj hf
  generalize splitArrow (s.filter (· ≠ ' ')) = parts
  intro h hj hf
  match parts with
  | [] => simp at h
  | [x] =>
    simp only [Res.ok.injEq, Prod.mk.injEq] at h
    obtain ⟨rfl, rfl⟩ := h
    simp only [List.intercalate, List.intersperse, List.flatten_cons, List.flatten_nil, List.append_nil] at hj
    refine ⟨?_, splitChar_ne _ _, splitChar_free _ _, ?_, by simp⟩
    · rw [splitChar_join, ← hj]; simp
    · rw [splitChar_join]; exact hf x (by simp)
  | [x, y] =>
    simp only [Res.ok.injEq, Prod.mk.injEq] at h
    obtain ⟨rfl, rfl⟩ := h
    refine ⟨?_, splitChar_ne _ _, splitChar_free _ _, ?_, ?_⟩
    · rw [splitChar_join, ← hj]; simp [List.intercalate, List.intersperse]
    · rw [splitChar_join]; exact hf x (by simp)
    · intro o ho
      injection ho with ho
      subst ho
      exact hf y (by simp)
  | x :: y :: z :: w => simp at h

theorem isEquation_split {s : List Char} {ins : List (List Char)} {o : Option (List Char)}
    (h : IsEquation s ins o) :
    einsumSplit (s.filter (· ≠ ' ')) = .ok ([','].intercalate ins, o) ∧ splitChar ',' ([','].intercalate ins) = ins := by
  refine ⟨?_, splitChar_intercalate h.operands h.commas⟩
  rw [h.text]
  unfold einsumSplit
  cases o with
  | none => simp only [List.append_nil]; rw [splitArrow_of_free h.left]
  | some o => simp only; rw [splitArrow_append h.left, splitArrow_of_free (h.right o rfl)]

/-! ## Sizes -/

/-- A map without repeated keys gives exactly the pairs of `l`. -/
structure SizesOf (m l : List (Char × Nat)) : Prop where
  nodup : (m.map Prod.fst).Nodup
  mem : ∀ c n, m.lookup c = some n ↔ (c, n) ∈ l

theorem lookup_append_single {m : List (Char × Nat)} {c d : Char} {n : Nat} :
    (m ++ [(c, n)]).lookup d = (m.lookup d).or (if d = c then some n else none) := by
  induction m with
  | nil =>
    rw [List.nil_append, List.lookup_cons]
    by_cases h : d = c
    · simp [h]
    · have : (d == c) = false := by simp [h]
      simp [h, this]
  | cons p ps ih =>
    obtain ⟨k, v⟩ := p
    rw [List.cons_append, List.lookup_cons, List.lookup_cons]
    cases h : d == k <;> simp [ih]

theorem lookup_none_iff {m : List (Char × Nat)} {c : Char} : m.lookup c = none ↔ c ∉ m.map Prod.fst := by
  induction m with
  | nil => simp
  | cons p ps ih =>
    obtain ⟨k, v⟩ := p
    rw [List.lookup_cons]
    by_cases h : c = k
    · simp [h]
    · have : (c == k) = false := by simp [h]
      simp only [this, ih, List.map_cons, List.mem_cons, not_or]
      simp [h]

/-- The pairs agree on the size of every label. -/
def Consistent (l : List (Char × Nat)) : Prop := ∀ c n n', (c, n) ∈ l → (c, n') ∈ l → n = n'

theorem einsumSizes_sound {m seen l : List (Char × Nat)} (hm : SizesOf m seen) {m' : List (Char × Nat)}
    (h : einsumSizes m l = .ok m') : SizesOf m' (seen ++ l) := by
  induction l generalizing m seen with
  | nil => simp only [einsumSizes, Res.ok.injEq] at h; subst h; simpa using hm
  | cons p ps ih =>
    obtain ⟨c, d⟩ := p
    rw [einsumSizes] at h
    cases hl : m.lookup c with
    | some e =>
      rw [hl] at h
      by_cases he : e = d
      · subst he
        simp only [ne_eq, not_true_eq_false, if_false] at h
        have : SizesOf m (seen ++ [(c, e)]) := ⟨hm.nodup, fun c' n => by
          rw [hm.mem, List.mem_append]
          constructor
          · exact Or.inl
          · rintro (h | h)
            · exact h
            · simp only [List.mem_singleton, Prod.mk.injEq] at h
              rw [h.1, h.2]
              exact (hm.mem c e).mp hl⟩
        have := ih this h
        simpa using this
      · simp only [ne_eq, he, not_false_eq_true, if_true] at h
        cases h
    | none =>
      rw [hl] at h
      simp only at h
      have : SizesOf (m ++ [(c, d)]) (seen ++ [(c, d)]) := by
        constructor
        · rw [List.map_append, List.nodup_append]
          refine ⟨hm.nodup, by simp, ?_⟩
          intro a ha b hb
          simp only [List.map_cons, List.map_nil, List.mem_singleton] at hb
          subst hb
          intro e
          subst e
          exact lookup_none_iff.mp hl ha
        · intro c' n
          rw [lookup_append_single, List.mem_append, ← hm.mem]
          by_cases hc : c' = c
          · subst hc
            simp [hl, eq_comm]
          · simp [hc]
      have := ih this h
      simpa using this

theorem einsumSizes_err {m seen l : List (Char × Nat)} (hm : SizesOf m seen)
    (h : einsumSizes m l = .err) : ¬ Consistent (seen ++ l) := by
  induction l generalizing m seen with
  | nil => simp [einsumSizes] at h
  | cons p ps ih =>
    obtain ⟨c, d⟩ := p
    rw [einsumSizes] at h
    cases hl : m.lookup c with
    | some e =>
      rw [hl] at h
      by_cases he : e = d
      · subst he
        simp only [ne_eq, not_true_eq_false, if_false] at h
        have : SizesOf m (seen ++ [(c, e)]) := ⟨hm.nodup, fun c' n => by
          rw [hm.mem, List.mem_append]
          constructor
          · exact Or.inl
          · rintro (h | h)
            · exact h
            · simp only [List.mem_singleton, Prod.mk.injEq] at h
              rw [h.1, h.2]
              exact (hm.mem c e).mp hl⟩
        have := ih this h
        simpa using this
      · intro hc
        exact he (hc c e d (by simp [(hm.mem c e).mp hl]) (by simp))
    | none =>
      rw [hl] at h
      simp only at h
      have : SizesOf (m ++ [(c, d)]) (seen ++ [(c, d)]) := by
        constructor
        · rw [List.map_append, List.nodup_append]
          refine ⟨hm.nodup, by simp, ?_⟩
          intro a ha b hb
          simp only [List.map_cons, List.map_nil, List.mem_singleton] at hb
          subst hb
          intro e
          subst e
          exact lookup_none_iff.mp hl ha
        · intro c' n
          rw [lookup_append_single, List.mem_append, ← hm.mem]
          by_cases hc : c' = c
          · subst hc
            simp [hl, eq_comm]
          · simp [hc]
      have := ih this h
      simpa using this

theorem einsumSizes_ok_or_err (m l : List (Char × Nat)) :
    (∃ m', einsumSizes m l = .ok m') ∨ einsumSizes m l = .err := by
  induction l generalizing m with
  | nil => exact Or.inl ⟨m, rfl⟩
  | cons p ps ih =>
    obtain ⟨c, d⟩ := p
    rw [einsumSizes]
    cases m.lookup c with
    | some e =>
      by_cases he : e = d
      · simp only [ne_eq, he, not_true_eq_false, if_false]; exact ih m
      · exact Or.inr (by simp [he])
    | none => exact ih _

theorem sizesOf_nil : SizesOf [] [] := ⟨by simp, by simp⟩

theorem mem_einsumPairs {ins : List (List Char)} {shapes : List (List Nat)} {c : Char} {n : Nat} :
    (c, n) ∈ einsumPairs ins shapes ↔ LabelSize ins shapes c n := by
  unfold einsumPairs LabelSize
  simp only [List.mem_flatMap]
  constructor
  · rintro ⟨⟨s, d⟩, h1, h2⟩
    obtain ⟨i, hi⟩ := List.mem_iff_getElem?.mp h1
    obtain ⟨j, hj⟩ := List.mem_iff_getElem?.mp h2
    rw [List.getElem?_zip_eq_some] at hi hj
    exact ⟨i, j, s, d, hi.1, hi.2, hj.1, hj.2⟩
  · rintro ⟨i, j, s, d, h1, h2, h3, h4⟩
    exact ⟨(s, d), List.mem_iff_getElem?.mpr ⟨i, List.getElem?_zip_eq_some.mpr ⟨h1, h2⟩⟩,
      List.mem_iff_getElem?.mpr ⟨j, List.getElem?_zip_eq_some.mpr ⟨h3, h4⟩⟩⟩

/-! ## Sorting -/

theorem mem_insertChar {c d : Char} {l : List Char} : d ∈ insertChar c l ↔ d = c ∨ d ∈ l := by
  induction l with
  | nil => simp [insertChar]
  | cons e es ih =>
    unfold insertChar
    split
    · simp
    · simp [ih]; tauto

theorem mem_sortChars {d : Char} {l : List Char} : d ∈ sortChars l ↔ d ∈ l := by
  induction l with
  | nil => simp [sortChars]
  | cons c cs ih =>
    show d ∈ insertChar c (sortChars cs) ↔ _
    rw [mem_insertChar, ih]; simp

theorem insertChar_sorted {c : Char} {l : List Char} (h : l.Pairwise (· < ·)) (hc : c ∉ l) :
    (insertChar c l).Pairwise (· < ·) := by
  induction l with
  | nil => simp [insertChar]
  | cons e es ih =>
    rw [List.pairwise_cons] at h
    unfold insertChar
    split
    · rename_i hle
      have hlt : c < e := by
        by_contra hn
        exact hc (by simp [Char.le_antisymm hle (Char.not_lt.mp hn)])
      rw [List.pairwise_cons, List.pairwise_cons]
      refine ⟨fun a ha => ?_, h⟩
      rcases List.mem_cons.mp ha with rfl | ha
      · exact hlt
      · exact Char.lt_trans hlt (h.1 a ha)
    · rename_i hle
      rw [List.pairwise_cons]
      refine ⟨fun a ha => ?_, ih h.2 (fun hm => hc (by simp [hm]))⟩
      rcases mem_insertChar.mp ha with rfl | ha
      · exact Char.not_le.mp hle
      · exact h.1 a ha

theorem sortChars_sorted {l : List Char} (h : l.Nodup) : (sortChars l).Pairwise (· < ·) := by
  induction l with
  | nil => simp [sortChars]
  | cons c cs ih =>
    rw [List.nodup_cons] at h
    exact insertChar_sorted (ih h.2) (fun hm => h.1 (mem_sortChars.mp hm))

theorem einsumRanks_iff {ins : List (List Char)} {shapes : List (List Nat)} (h : ins.length = shapes.length) :
    einsumRanks ins shapes = true ↔ RanksMatch ins shapes := by
  unfold RanksMatch
  induction ins generalizing shapes with
  | nil => simp [einsumRanks]
  | cons s ss ih =>
    cases shapes with
    | nil => simp at h
    | cons d ds =>
      unfold einsumRanks
      rw [Bool.and_eq_true, ih (by simpa using h), decide_eq_true_eq]
      constructor
      · rintro ⟨h1, h2⟩ i subs dims hi hd
        cases i with
        | zero =>
          simp only [List.getElem?_cons_zero, Option.some.injEq] at hi hd
          rw [← hi, ← hd]; exact h1
        | succ i => exact h2 i subs dims (by simpa using hi) (by simpa using hd)
      · intro h
        exact ⟨h 0 s d rfl rfl, fun i subs dims hi hd => h (i + 1) subs dims (by simpa using hi) (by simpa using hd)⟩

/-! ## The theorems -/

/-- What a successful parse says. -/
structure Spec.EinsumSpec (eq : List Char) (shapes : List (List Nat)) (p : ParsedEinsum) : Prop where
  /-- the text has the form of an equation; an explicit output is taken as written, an implicit one
  consists of the labels occurring once, in order -/
  equation : ∃ out, IsEquation eq p.inputs out ∧ (∀ o, out = some o → p.output = o) ∧
    (out = none → p.output.Pairwise (· < ·) ∧ ∀ c, c ∈ p.output ↔ p.inputs.flatten.count c = 1)
  operands : p.inputs.length = shapes.length
  ranks : RanksMatch p.inputs shapes
  /-- one size per label -/
  sizes : ∀ c n, p.sizes.lookup c = some n ↔ LabelSize p.inputs shapes c n
  sorted : p.all.Pairwise (· < ·)
  labels : ∀ c, c ∈ p.all ↔ ∃ subs ∈ p.inputs, c ∈ subs
  summedSorted : p.contraction.Pairwise (· < ·)
  summed : ∀ c, c ∈ p.contraction ↔ (∃ subs ∈ p.inputs, c ∈ subs) ∧ c ∉ p.output
  outputLabels : ∀ c ∈ p.output, ∃ subs ∈ p.inputs, c ∈ subs
  /-- the output shape lists the sizes of the output labels -/
  shape : ∃ dims, p.outputShape = .ok dims ∧ dims.length = p.output.length ∧
    ∀ (j : Nat) (c : Char), p.output[j]? = some c → ∃ n, dims[j]? = some n ∧ LabelSize p.inputs shapes c n

theorem label_has_size {ins : List (List Char)} {shapes : List (List Nat)} (hl : ins.length = shapes.length)
    (hr : RanksMatch ins shapes) {c : Char} :
    (∃ subs ∈ ins, c ∈ subs) ↔ ∃ n, LabelSize ins shapes c n := by
  constructor
  · rintro ⟨subs, h1, h2⟩
    obtain ⟨i, hi⟩ := List.mem_iff_getElem?.mp h1
    obtain ⟨j, hj⟩ := List.mem_iff_getElem?.mp h2
    have hi' : i < ins.length := (List.getElem?_eq_some_iff.mp hi).1
    have hj' : j < subs.length := (List.getElem?_eq_some_iff.mp hj).1
    have hd : shapes[i]? = some (shapes[i]'(by omega)) := List.getElem?_eq_getElem _
    have hlen := hr i _ _ hi hd
    exact ⟨_, i, j, subs, _, hi, hd, hj, List.getElem?_eq_getElem (by omega)⟩
  · rintro ⟨n, i, j, s, d, h1, h2, h3, h4⟩
    exact ⟨s, List.mem_of_getElem? h1, List.mem_of_getElem? h3⟩

theorem parse_unfold (eq : List Char) (shapes : List (List Nat)) (a : List Char) (o : Option (List Char))
    (h : einsumSplit (eq.filter (· ≠ ' ')) = .ok (a, o)) :
    ParsedEinsum.parse eq shapes =
      (let ins := splitChar ',' a
       if ins.length ≠ shapes.length then .err
       else if einsumRanks ins shapes = false then .err
       else (einsumSizes [] (einsumPairs ins shapes)).bind fun sizes =>
        let all := sortChars (sizes.map Prod.fst)
        let output := einsumOutput ins all o
        if output.any (fun c => (sizes.lookup c).isNone) then .err
        else .ok ⟨ins, output, all.filter (fun c => !output.contains c), all, sizes⟩) := by
  unfold ParsedEinsum.parse
  simp only [h, Res.ok_bind]

/-- C26, soundness: whatever parses has the form of an equation that fits the operands, and the parsed
fields describe it. -/
theorem C26_sound {eq : List Char} {shapes : List (List Nat)} {p : ParsedEinsum}
    (h : ParsedEinsum.parse eq shapes = .ok p) : EinsumSpec eq shapes p := by
  cases hio : einsumSplit (eq.filter (· ≠ ' ')) with
  | ok io =>
    obtain ⟨a, o⟩ := io
    have heq := split_isEquation hio
    rw [parse_unfold eq shapes a o hio] at h
    simp only at h
    revert h heq
    generalize splitChar ',' a = ins
    intro heq h
    by_cases hl : ins.length = shapes.length
    · rw [if_neg (by simpa using hl)] at h
      by_cases hr : einsumRanks ins shapes = false
      · rw [if_pos hr] at h; cases h
      · rw [if_neg hr] at h
        rw [Bool.not_eq_false] at hr
        have hranks := (einsumRanks_iff hl).mp hr
        rw [Res.bind_eq_ok] at h
        obtain ⟨sizes, hs, h⟩ := h
        have hsz := einsumSizes_sound sizesOf_nil hs
        rw [List.nil_append] at hsz
        have hlk : ∀ c n, sizes.lookup c = some n ↔ LabelSize ins shapes c n := fun c n => by
          rw [hsz.mem, mem_einsumPairs]
        have hkey : ∀ c, c ∈ sizes.map Prod.fst ↔ ∃ subs ∈ ins, c ∈ subs := by
          intro c
          rw [label_has_size hl hranks]
          constructor
          · intro hm
            cases hq : sizes.lookup c with
            | none => exact absurd hm (lookup_none_iff.mp hq)
            | some n => exact ⟨n, (hlk c n).mp hq⟩
          · rintro ⟨n, hn⟩
            have := (hlk c n).mpr hn
            by_contra hm
            rw [lookup_none_iff.mpr hm] at this
            cases this
        have hall : ∀ c, c ∈ sortChars (sizes.map Prod.fst) ↔ ∃ subs ∈ ins, c ∈ subs := fun c => by
          rw [mem_sortChars, hkey]
        have hsort := sortChars_sorted hsz.nodup
        generalize hout : einsumOutput ins (sortChars (sizes.map Prod.fst)) o = out at h
        by_cases hany : out.any (fun c => (sizes.lookup c).isNone) = true
        · rw [if_pos hany] at h; cases h
        · rw [if_neg hany] at h
          rw [Bool.not_eq_true, List.any_eq_false] at hany
          injection h with h
          subst h
          have hex : ∀ c ∈ out, ∃ n, sizes.lookup c = some n := by
            intro c hc
            have := hany c hc
            cases hq : sizes.lookup c with
            | none => simp [hq] at this
            | some n => exact ⟨n, rfl⟩
          refine ⟨⟨o, heq, ?_, ?_⟩, hl, hranks, hlk, hsort, hall, hsort.filter _, ?_, ?_, ?_⟩
          · intro o' ho'
            subst ho'
            exact hout.symm
          · intro ho'
            subst ho'
            rw [← hout]
            refine ⟨hsort.filter _, fun c => ?_⟩
            simp only [einsumOutput, List.mem_filter, decide_eq_true_eq, hall]
            constructor
            · exact fun h => h.2
            · intro hc
              refine ⟨?_, hc⟩
              have : c ∈ ins.flatten := by rw [← List.count_pos_iff]; omega
              simpa using this
          · intro c
            simp only [List.mem_filter, hall]
            simp
          · intro c hc
            obtain ⟨n, hn⟩ := hex c hc
            exact (label_has_size hl hranks).mpr ⟨n, (hlk c n).mp hn⟩
          · have hm : Res.mapL (ParsedEinsum.size ⟨ins, out, (sortChars (sizes.map Prod.fst)).filter
                (fun c => !out.contains c), sortChars (sizes.map Prod.fst), sizes⟩) out =
                .ok (out.map fun c => (sizes.lookup c).getD 0) := by
              apply Res.mapL_eq_ok_of
              intro c hc
              obtain ⟨n, hn⟩ := hex c hc
              simp only [ParsedEinsum.size, hn, Option.getD_some]
            refine ⟨_, hm, by simp, ?_⟩
            intro j c hj
            obtain ⟨n, hn⟩ := hex c (List.mem_of_getElem? hj)
            refine ⟨n, ?_, (hlk c n).mp hn⟩
            simp only at hj
            rw [List.getElem?_map, hj, Option.map_some, hn, Option.getD_some]
    · rw [if_pos (by simpa using hl)] at h; cases h
  | err => unfold ParsedEinsum.parse at h; simp only [hio, Res.err_bind] at h; cases h
  | panic => unfold ParsedEinsum.parse at h; simp only [hio, Res.panic_bind] at h; cases h
  | ub => unfold ParsedEinsum.parse at h; simp only [hio, Res.ub_bind] at h; cases h

/-- C26, completeness: an equation with one operand per tensor, matching ranks, one size per label and
an output made of input labels parses; everything else is an error (never a panic). -/
theorem C26_complete (eq : List Char) (shapes : List (List Nat)) :
    (∃ p, ParsedEinsum.parse eq shapes = .ok p) ∨
    (ParsedEinsum.parse eq shapes = .err ∧
      ¬ ∃ ins out, IsEquation eq ins out ∧ ins.length = shapes.length ∧
        RanksMatch ins shapes ∧
        (∀ c n n', LabelSize ins shapes c n → LabelSize ins shapes c n' → n = n') ∧
        (∀ o, out = some o → ∀ c ∈ o, ∃ subs ∈ ins, c ∈ subs)) := by
  cases hp : ParsedEinsum.parse eq shapes with
  | ok p => exact Or.inl ⟨p, rfl⟩
  | panic | ub =>
    exfalso
    unfold ParsedEinsum.parse at hp
    cases hio : einsumSplit (eq.filter (· ≠ ' ')) with
    | ok io =>
      rw [hio] at hp
      simp only [Res.ok_bind] at hp
      by_cases h1 : (splitChar ',' io.1).length ≠ shapes.length
      · rw [if_pos h1] at hp; cases hp
      · rw [if_neg h1] at hp
        by_cases h2 : einsumRanks (splitChar ',' io.1) shapes = false
        · rw [if_pos h2] at hp; cases hp
        · rw [if_neg h2] at hp
          rcases einsumSizes_ok_or_err [] (einsumPairs (splitChar ',' io.1) shapes) with ⟨m, hm⟩ | hm
          · rw [hm] at hp
            simp only [Res.ok_bind] at hp
            split at hp <;> cases hp
          · rw [hm] at hp; cases hp
    | err => rw [hio] at hp; cases hp
    | panic | ub =>
      unfold einsumSplit at hio
      split at hio <;> cases hio
  | err =>
    refine Or.inr ⟨rfl, ?_⟩
    rintro ⟨ins, out, heq, hl, hr, hc, ho⟩
    obtain ⟨h1, h2⟩ := isEquation_split heq
    rw [parse_unfold eq shapes _ _ h1] at hp
    simp only [h2] at hp
    rw [if_neg (by simpa using hl), if_neg (by rw [(einsumRanks_iff hl).mpr hr]; simp)] at hp
    rcases einsumSizes_ok_or_err [] (einsumPairs ins shapes) with ⟨m, hm⟩ | hm
    · rw [hm] at hp
      simp only [Res.ok_bind] at hp
      have hsz := einsumSizes_sound sizesOf_nil hm
      rw [List.nil_append] at hsz
      split at hp
      · rename_i hany
        rw [List.any_eq_true] at hany
        obtain ⟨c, hc1, hc2⟩ := hany
        rw [Option.isNone_iff_eq_none] at hc2
        have hno : ¬ ∃ subs ∈ ins, c ∈ subs := by
          rw [label_has_size hl hr]
          rintro ⟨n, hn⟩
          have := (hsz.mem c n).mpr (mem_einsumPairs.mpr hn)
          rw [hc2] at this
          cases this
        cases out with
        | some o => exact hno (ho o rfl c hc1)
        | none =>
          simp only [einsumOutput, List.mem_filter, mem_sortChars] at hc1
          exact lookup_none_iff.mp hc2 hc1.1
      · cases hp
    · have := einsumSizes_err sizesOf_nil hm
      apply this
      intro c n n' h1 h2
      rw [List.nil_append] at h1 h2
      exact hc c n n' (mem_einsumPairs.mp h1) (mem_einsumPairs.mp h2)

example : ParsedEinsum.parse "ij, jk -> ik".toList [[2, 3], [3, 4]] =
    .ok ⟨[['i', 'j'], ['j', 'k']], ['i', 'k'], ['j'], ['i', 'j', 'k'], [('i', 2), ('j', 3), ('k', 4)]⟩ := by
  decide +kernel

example : ParsedEinsum.parse "ba".toList [[2, 3]] =
    .ok ⟨[['b', 'a']], ['a', 'b'], [], ['a', 'b'], [('b', 2), ('a', 3)]⟩ := by decide +kernel

example : ParsedEinsum.parse "ij,jk->ik".toList [[2, 3], [4, 5]] = .err := by decide +kernel

end Hodu
