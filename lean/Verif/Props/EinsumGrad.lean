import Verif.Model.EinsumRules
import Verif.Props.Einsum

/-!
# C80: the backward rule of einsum
-/

namespace Hodu
open Spec

variable {α A : Type}

/-- The labels are letters or the like: none of the characters with a meaning in equations. -/
def Spec.PlainLabels (p : ParsedEinsum) : Prop :=
  ∀ subs ∈ p.inputs, ∀ c ∈ subs, c ≠ ',' ∧ c ≠ '-' ∧ c ≠ '>' ∧ c ≠ ' '

theorem noArrow_of_no_dash {s : List Char} (h : '-' ∉ s) : NoArrow s := by
  rintro ⟨a, b, rfl⟩
  exact h (by simp)

theorem mem_intercalate {sep : List Char} {l : List (List Char)} {c : Char} (h : c ∈ sep.intercalate l) :
    c ∈ sep ∨ ∃ x ∈ l, c ∈ x := by
  induction l with
  | nil => simp [List.intercalate] at h
  | cons x l ih =>
    cases l with
    | nil => right; exact ⟨x, by simp, by simpa [List.intercalate] using h⟩
    | cons y l =>
      have e : sep.intercalate (x :: y :: l) = x ++ (sep ++ sep.intercalate (y :: l)) := by
        simp [List.intercalate, List.intersperse]
      rw [e, List.mem_append, List.mem_append] at h
      rcases h with h | h | h
      · exact .inr ⟨x, by simp, h⟩
      · exact .inl h
      · rcases ih h with h | ⟨z, h1, h2⟩
        · exact .inl h
        · exact .inr ⟨z, by simp [List.mem_cons.mp h1], h2⟩

theorem eraseIdx_getElem? {l : List α} {i j : Nat} {x : α} (h : (l.eraseIdx i)[j]? = some x) :
    ∃ k, k ≠ i ∧ l[k]? = some x ∧ ∀ {β : Type} (m : List β), (m.eraseIdx i)[j]? = m[k]? := by
  rw [List.getElem?_eraseIdx] at h
  split at h
  · rename_i hj
    refine ⟨j, by omega, h, fun m => ?_⟩
    rw [List.getElem?_eraseIdx, if_pos hj]
  · rename_i hj
    refine ⟨j + 1, by omega, h, fun m => ?_⟩
    rw [List.getElem?_eraseIdx, if_neg hj]

theorem eraseIdx_of_ne {i k : Nat} (h : k ≠ i) :
    ∃ j : Nat, ∀ {β : Type} (m : List β), (m.eraseIdx i)[j]? = m[k]? := by
  by_cases hk : k < i
  · exact ⟨k, fun m => by rw [List.getElem?_eraseIdx, if_pos hk]⟩
  · exact ⟨k - 1, fun m => by
      rw [List.getElem?_eraseIdx, if_neg (by omega), show k - 1 + 1 = k by omega]⟩

/-- **C80, the gradient's equation**: for an einsum that parsed, with plain labels, and operand `i`: if each label of
the operand occurs in the output or in another operand, the equation of its gradient parses, contracts the upstream
gradient with the other operands, and gives the shape of the operand; if some label does not, the gradient is an
error whatever the data.
Missing: that the values are right — `Tensor::einsum` ignores its first operand's layout (C27), so that they are not
(`C80_full_false`). -/
theorem C80_equation_partial {eq : List Char} {shapes : List (List Nat)} {p : ParsedEinsum} {gd : List Nat}
    (hp : ParsedEinsum.parse eq shapes = .ok p) (hpl : PlainLabels p) (hg : p.outputShape = .ok gd) {i : Nat}
    {subs : List Char} {di : List Nat} (hi : p.inputs[i]? = some subs) (hdi : shapes[i]? = some di) :
    ((∀ c ∈ subs, c ∈ p.output ∨ ∃ k s, k ≠ i ∧ p.inputs[k]? = some s ∧ c ∈ s) →
      ∃ q, ParsedEinsum.parse (einsumGradEq p i) (gd :: shapes.eraseIdx i) = .ok q ∧
        q.inputs = p.output :: p.inputs.eraseIdx i ∧ q.output = subs ∧ q.outputShape = .ok di) ∧
    ((∃ c ∈ subs, c ∉ p.output ∧ ∀ k s, k ≠ i → p.inputs[k]? = some s → c ∉ s) →
      ParsedEinsum.parse (einsumGradEq p i) (gd :: shapes.eraseIdx i) = .err) := by
  have hs := C26_sound hp
  have hfun : ∀ c n n', LabelSize p.inputs shapes c n → LabelSize p.inputs shapes c n' → n = n' := by
    intro c n n' h h'
    have := (hs.sizes c n).mpr h
    rw [(hs.sizes c n').mpr h'] at this
    cases this; rfl
  obtain ⟨gd', g1, g2, g3⟩ := hs.shape
  rw [hg] at g1; cases g1
  set ins := p.output :: p.inputs.eraseIdx i with hins
  have hplain : ∀ x ∈ ins, ∀ c ∈ x, c ≠ ',' ∧ c ≠ '-' ∧ c ≠ '>' ∧ c ≠ ' ' := by
    intro x hx c hc
    rcases List.mem_cons.mp hx with rfl | hx
    · obtain ⟨s, h1, h2⟩ := hs.outputLabels c hc
      exact hpl s h1 c h2
    · exact hpl x (List.mem_of_mem_eraseIdx hx) c hc
  have hsub : ∀ c ∈ subs, c ≠ ',' ∧ c ≠ '-' ∧ c ≠ '>' ∧ c ≠ ' ' := hpl subs (List.mem_of_getElem? hi)
  have hget : p.inputs.getD i [] = subs := by rw [List.getD_eq_getElem?_getD, hi]; rfl
  have hnd : '-' ∉ [','].intercalate ins := by
    intro h
    rcases mem_intercalate h with h | ⟨x, h1, h2⟩
    · simp at h
    · exact (hplain x h1 _ h2).2.1 rfl
  have heq : IsEquation (einsumGradEq p i) ins (some subs) := by
    refine ⟨?_, by simp [hins], fun x hx hc => (hplain x hx _ hc).1 rfl, noArrow_of_no_dash hnd, ?_⟩
    · rw [einsumGradEq, hget, ← hins]
      rw [List.filter_eq_self.mpr]
      intro c hc
      rw [List.mem_append, List.mem_cons, List.mem_cons] at hc
      rcases hc with hc | rfl | rfl | hc
      · rcases mem_intercalate hc with h | ⟨x, h1, h2⟩
        · simp only [List.mem_singleton] at h; subst h; decide
        · simpa using (hplain x h1 _ h2).2.2.2
      · decide
      · decide
      · simpa using (hsub c hc).2.2.2
    · intro o ho; cases ho
      exact noArrow_of_no_dash fun h => (hsub _ h).2.1 rfl
  have hlab : ∀ c n, LabelSize ins (gd :: shapes.eraseIdx i) c n → LabelSize p.inputs shapes c n := by
    rintro c n ⟨k, j, s, d, h1, h2, h3, h4⟩
    cases k with
    | zero =>
      simp only [hins, List.getElem?_cons_zero, Option.some.injEq] at h1 h2
      subst h1; subst h2
      obtain ⟨m, hm1, hm2⟩ := g3 j c h3
      rw [h4] at hm1; cases hm1
      exact hm2
    | succ k =>
      simp only [hins, List.getElem?_cons_succ] at h1 h2
      obtain ⟨k', _, h5, h6⟩ := eraseIdx_getElem? h1
      rw [h6] at h2
      exact ⟨k', j, s, d, h5, h2, h3, h4⟩
  have hsplit := isEquation_split heq
  have hinsq : ∀ q, ParsedEinsum.parse (einsumGradEq p i) (gd :: shapes.eraseIdx i) = .ok q →
      q.inputs = ins ∧ q.output = subs := by
    intro q hq
    rw [parse_unfold _ _ _ _ hsplit.1] at hq
    simp only [hsplit.2] at hq
    split at hq
    · cases hq
    split at hq
    · cases hq
    cases hz : einsumSizes [] (einsumPairs ins (gd :: shapes.eraseIdx i)) with
    | ok m =>
      rw [hz, Res.ok_bind] at hq
      split at hq
      · cases hq
      · cases hq; exact ⟨rfl, rfl⟩
    | _ => rw [hz] at hq; cases hq
  have hlen : ins.length = (gd :: shapes.eraseIdx i).length := by
    have := (List.getElem?_eq_some_iff.mp hi).1
    have := (List.getElem?_eq_some_iff.mp hdi).1
    simp only [hins, List.length_cons, List.length_eraseIdx, hs.operands]
  have hrank : RanksMatch ins (gd :: shapes.eraseIdx i) := by
    intro k s d h1 h2
    cases k with
    | zero =>
      simp only [hins, List.getElem?_cons_zero, Option.some.injEq] at h1 h2
      subst h1; subst h2; exact g2.symm
    | succ k =>
      simp only [hins, List.getElem?_cons_succ] at h1 h2
      obtain ⟨k', _, h5, h6⟩ := eraseIdx_getElem? h1
      rw [h6] at h2
      exact hs.ranks k' s d h5 h2
  constructor
  · intro hall
    rcases C26_complete (einsumGradEq p i) (gd :: shapes.eraseIdx i) with ⟨q, hq⟩ | ⟨_, hno⟩
    · obtain ⟨q1, q2⟩ := hinsq q hq
      refine ⟨q, hq, q1, q2, ?_⟩
      obtain ⟨dims, d1, d2, d3⟩ := (C26_sound hq).shape
      rw [d1]
      congr 1
      rw [q2] at d2 d3
      have hr := hs.ranks i subs di hi hdi
      apply List.ext_getElem? 
      intro j
      by_cases hj : j < subs.length
      · obtain ⟨n, n1, n2⟩ := d3 j subs[j] (List.getElem?_eq_getElem hj)
        rw [q1] at n2
        have hn := hlab _ _ n2
        have hdj : di[j]? = some (di[j]'(by omega)) := List.getElem?_eq_getElem _
        rw [n1, hdj, hfun _ _ _ hn ⟨i, j, subs, di, hi, hdi, List.getElem?_eq_getElem hj, hdj⟩]
      · rw [List.getElem?_eq_none (by omega), List.getElem?_eq_none (by omega)]
    · exfalso
      apply hno
      refine ⟨ins, some subs, heq, hlen, hrank, fun c n n' h h' => hfun c n n' (hlab c n h) (hlab c n' h'), ?_⟩
      intro o ho c hc
      cases ho
      rcases hall c hc with h | ⟨k, s, hk, h1, h2⟩
      · exact ⟨p.output, by simp [hins], h⟩
      · obtain ⟨j, hj⟩ := eraseIdx_of_ne hk
        refine ⟨s, ?_, h2⟩
        rw [hins, List.mem_cons]
        right
        exact List.mem_of_getElem? (by rw [hj, h1])
  · rintro ⟨c, hc, hno, hother⟩
    rcases C26_complete (einsumGradEq p i) (gd :: shapes.eraseIdx i) with ⟨q, hq⟩ | ⟨h, _⟩
    · exfalso
      obtain ⟨q1, q2⟩ := hinsq q hq
      obtain ⟨s, h1, h2⟩ := (C26_sound hq).outputLabels c (by rw [q2]; exact hc)
      rw [q1, hins, List.mem_cons] at h1
      rcases h1 with rfl | h1
      · exact hno h2
      · obtain ⟨j, hj⟩ := List.mem_iff_getElem?.mp h1
        obtain ⟨k, hk, h3, _⟩ := eraseIdx_getElem? hj
        exact hother k s hk h3 h2
    · exact h

/-- In particular the gradient of such an operand is an error for all data: einsum sums over a label of one operand,
as in `ij->i`, have no gradient. -/
theorem C80_private_label_fails (zero one : A) (add mul : A → A → A) (ld : α → A) (st : A → α) {eq : List Char}
    {ts : List (Tensor α)} {p : ParsedEinsum} {g : Tensor α}
    (hp : ParsedEinsum.parse eq (ts.map (·.dims)) = .ok p) (hpl : PlainLabels p)
    (hg : p.outputShape = .ok g.dims) {i : Nat} {subs : List Char} (hi : p.inputs[i]? = some subs)
    (h : ∃ c ∈ subs, c ∉ p.output ∧ ∀ k s, k ≠ i → p.inputs[k]? = some s → c ∉ s) :
    einsumGrad zero one add mul ld st p ts g i = .err := by
  have hlt : i < ts.length := by
    have h1 := (List.getElem?_eq_some_iff.mp hi).1
    have h2 := (C26_sound hp).operands
    rw [List.length_map] at h2
    omega
  have := (C80_equation_partial hp hpl hg hi (di := ts[i].dims) (by simp [hlt])).2 h
  unfold einsumGrad Tensor.einsum
  split
  · rfl
  split
  · rfl
  rw [List.map_cons, ← List.eraseIdx_map, this]
  rfl

/-- The hypotheses hold for the row sums `ij->i` of a `[2, 3]` matrix. -/
example (t g : Tensor Int) (ht : t.dims = [2, 3]) (hg : g.dims = [2]) :
    einsumGrad 0 1 (· + ·) (· * ·) id id ⟨[['i', 'j']], ['i'], ['j'], ['i', 'j'], [('i', 2), ('j', 3)]⟩ [t] g 0 = .err :=
  C80_private_label_fails _ _ _ _ _ _ (eq := "ij->i".toList) (by rw [List.map_cons, ht]; decide +kernel)
    (by intro s hs c hc; simp only [List.mem_singleton] at hs; subst hs
        simp only [List.mem_cons, List.not_mem_nil, or_false] at hc
        rcases hc with rfl | rfl <;> decide)
    (by rw [hg]; decide +kernel) (i := 0) rfl ⟨'j', by decide, by decide, fun k s hk hs => by
      match k, hk with
      | k + 1, _ => simp at hs⟩

/-- The hypotheses of the first part hold for the first operand of a matrix product. -/
example : ∃ q, ParsedEinsum.parse "ik,jk->ij".toList [[2, 4], [3, 4]] = .ok q ∧ q.outputShape = .ok [2, 3] := by
  have hp : ParsedEinsum.parse "ij,jk->ik".toList [[2, 3], [3, 4]] =
    .ok ⟨[['i', 'j'], ['j', 'k']], ['i', 'k'], ['j'], ['i', 'j', 'k'], [('i', 2), ('j', 3), ('k', 4)]⟩ := by
    decide +kernel
  obtain ⟨q, h1, _, _, h2⟩ := (C80_equation_partial hp
    (by
      intro s hs c hc
      simp only [List.mem_cons, List.not_mem_nil, or_false] at hs
      rcases hs with rfl | rfl <;>
      · simp only [List.mem_cons, List.not_mem_nil, or_false] at hc
        rcases hc with rfl | rfl <;> decide)
    (gd := [2, 4]) (by decide +kernel) (i := 0) rfl rfl).1 (by
      intro c hc
      simp only [List.mem_cons, List.not_mem_nil, or_false] at hc
      rcases hc with rfl | rfl
      · exact .inl (by decide)
      · exact .inr ⟨1, ['j', 'k'], by decide, rfl, by decide⟩)
  exact ⟨q, h1, h2⟩

/-- **C80, full claim for one operand** (false): for `i->i`, the identity, the gradient is the upstream gradient. -/
def C80_full : Prop :=
  ∀ (t g : Tensor Int) (n : Nat) (p : ParsedEinsum), t.WF → g.WF → t.dims = [n] → g.dims = [n] → 0 < n →
    ParsedEinsum.parse "i->i".toList [t.dims] = .ok p →
    ∃ r, einsumVjp 0 1 (· + ·) (· * ·) id id p [t] g = .ok [r] ∧ r.dims = [n] ∧
      ∀ k, k < n → r.elem [k] = g.elem [k]

/-- **C80 is false**: the gradient of the identity is all ones, whatever the upstream gradient. -/
theorem C80_full_false : ¬ C80_full := by
  intro h
  obtain ⟨r, h1, _, h2⟩ := h ⟨[3, 4], Layout.fromShape [2]⟩ ⟨[10, 20], Layout.fromShape [2]⟩ 2
    ⟨[['i']], ['i'], [], ['i'], [('i', 2)]⟩ (fresh_wf rfl) (fresh_wf rfl) rfl rfl (by decide) (by decide +kernel)
  have e : einsumVjp 0 1 (· + ·) (· * ·) id id ⟨[['i']], ['i'], [], ['i'], [('i', 2)]⟩
      [(⟨[3, 4], Layout.fromShape [2]⟩ : Tensor Int)] ⟨[10, 20], Layout.fromShape [2]⟩ =
    .ok [⟨[1, 1], Layout.fromShape [2]⟩] := by decide +kernel
  rw [e] at h1
  cases h1
  have := h2 0 (by decide)
  revert this
  decide

/-- With two operands the kernel reads the upstream gradient with the layout of the other operand: for the dot product of `[1, 2]` and `[3, 4]` and upstream gradient 7 the gradient should be `[21, 28]`;
the kernel reads past the end of the one-element buffer. -/
theorem C80_dot_ub :
    einsumGrad 0 1 (· + ·) (· * ·) id id ⟨[['i'], ['i']], [], ['i'], ['i'], [('i', 2)]⟩
      [(⟨[1, 2], Layout.fromShape [2]⟩ : Tensor Int), ⟨[3, 4], Layout.fromShape [2]⟩] ⟨[7], Layout.fromShape []⟩ 0 =
    .ub := by decide +kernel

end Hodu
