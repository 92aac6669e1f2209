import Verif.Props.Capture

/-!
# C58: the layouts in a snapshot describe the values the nodes read
-/

namespace Hodu.Cap

open Function

variable {O V : Type}

/-- What the registry and the boards say about layouts. -/
structure LGood (reg : Nat → Option (Tn V)) (bd : Board O) : Prop where
  out : ∀ op ∈ bd.ops, reg op.out = some { val := none, layout := op.outLayout }
  inp : ∀ p ∈ bd.inputs, reg p.id = some { val := none, layout := Layout.fromShape p.dims }
  reads : ∀ op ∈ bd.ops, ∀ (k i : Nat), op.ins[k]? = some i →
    (∀ m ∈ bd.ops, m.out = i → op.inLayouts[k]? = some m.outLayout) ∧
    (∀ p ∈ bd.inputs, p.id = i → op.inLayouts[k]? = some (Layout.fromShape p.dims))

theorem LGood.reg_congr {reg reg' : Nat → Option (Tn V)} {bd : Board O} (h : LGood reg bd)
    (hr : ∀ i l, reg i = some { val := none, layout := l } →
      reg' i = some { val := none, layout := l }) : LGood reg' bd :=
  ⟨fun op ho => hr _ _ (h.out op ho), fun p hp => hr _ _ (h.inp p hp), h.reads⟩

def LInv (st : St O V) : Prop := ∀ b bd, st.boards b = some bd → LGood st.reg bd

theorem linv_insert {sem : O → List V → V} {ρ : String → V} {st : St O V} {env : Nat → V}
    (h : Inv sem ρ st env) (hl : LInv st) (t : Tn V) : LInv (insert st t) := by
  intro b bd hb
  refine (hl b bd hb).reg_congr ?_
  intro i l hi
  have := h.lt i (by rw [hi]; simp)
  simp only [insert]
  rw [update_of_ne (by omega)]
  exact hi

theorem linv_onBoard {st : St O V} (hl : LInv st) (b : Nat) (f : Board O → Board O)
    (hf : ∀ bd, st.boards b = some bd → LGood st.reg (f bd)) : LInv (onBoard st b f) := by
  unfold onBoard
  cases hb : st.boards b with
  | none => exact hl
  | some bd =>
    intro b' bd' hb'
    by_cases hbb : b' = b
    · subst hbb
      simp only [update_self] at hb'
      injection hb' with hb'
      subst hb'
      exact hf bd hb
    · simp only [update_of_ne hbb] at hb'
      exact hl b' bd' hb'

theorem linv_step {sem : O → List V → V} {ρ : String → V} {st : St O V} {env : Nat → V}
    (h : Inv sem ρ st env) (hl : LInv st) (s : Step O V) (hp : Spec.Possible st s)
    (hs : Spec.NotSet s) : LInv (step st s) := by
  have hfresh : ∀ {b : Nat} {bd : Board O}, st.boards b = some bd →
      (∀ op ∈ bd.ops, op.out ≠ st.next ∧ ∀ i ∈ op.ins, i ≠ st.next) ∧
        ∀ p ∈ bd.inputs, p.id ≠ st.next := by
    intro b bd hb
    obtain ⟨h1, _⟩ := h.board b bd hb
    refine ⟨fun op ho => ?_, fun p hp => Nat.ne_of_lt (h1.ins_lt p hp)⟩
    obtain ⟨h2, h3⟩ := h1.ops_lt op ho
    refine ⟨Nat.ne_of_lt h2, fun i hi => ?_⟩
    have := h3 i hi
    omega
  cases s with
  | const v l => exact linv_insert h hl _
  | board =>
    intro b bd hb
    simp only [step] at hb
    by_cases hbb : b = st.nextBoard
    · subst hbb
      rw [update_self] at hb
      injection hb with hb
      subst hb
      exact ⟨by simp, by simp, by simp⟩
    · rw [update_of_ne hbb] at hb
      exact hl b bd hb
  | «open» b => exact hl
  | close => exact hl
  | input name dims =>
    simp only [step]
    cases ha : st.active with
    | none => exact hl
    | some b =>
      refine linv_onBoard (linv_insert h hl _) b _ ?_
      intro bd hbd
      have h1 := linv_insert h hl { val := none, layout := Layout.fromShape dims } b bd hbd
      obtain ⟨hf1, _⟩ := hfresh (b := b) (bd := bd) hbd
      refine ⟨h1.out, ?_, ?_⟩
      · intro p hp
        rcases List.mem_append.mp hp with hp | hp
        · exact h1.inp p hp
        · simp only [List.mem_singleton] at hp
          subst hp
          simp [insert]
      · intro op ho k i hk
        obtain ⟨h2, h3⟩ := h1.reads op ho k i hk
        refine ⟨h2, ?_⟩
        intro p hp he
        rcases List.mem_append.mp hp with hp | hp
        · exact h3 p hp he
        · simp only [List.mem_singleton] at hp
          subst hp
          exact absurd he.symm ((hf1 op ho).2 i (List.mem_of_getElem? hk))
  | op o ins l =>
    simp only [step]
    cases ha : st.active with
    | none => exact hl
    | some b =>
      refine linv_onBoard (linv_insert h hl _) b _ ?_
      intro bd hbd
      have h0 := hl b bd hbd
      have h1 := linv_insert h hl { val := none, layout := l } b bd hbd
      obtain ⟨hf1, hf2⟩ := hfresh (b := b) (bd := bd) hbd
      refine ⟨?_, h1.inp, ?_⟩
      · intro op ho
        rcases List.mem_append.mp ho with ho | ho
        · exact h1.out op ho
        · simp only [List.mem_singleton] at ho
          subst ho
          simp [insert]
      · intro op ho k i hk
        rcases List.mem_append.mp ho with ho | ho
        · obtain ⟨h2, h3⟩ := h1.reads op ho k i hk
          refine ⟨?_, h3⟩
          intro m hm he
          rcases List.mem_append.mp hm with hm | hm
          · exact h2 m hm he
          · simp only [List.mem_singleton] at hm
            subst hm
            exact absurd he.symm ((hf1 op ho).2 i (List.mem_of_getElem? hk))
        · simp only [List.mem_singleton] at ho
          subst ho
          simp only at hk ⊢
          have hlay : (ins.map (layoutOf st))[k]? = some (layoutOf st i) := by
            rw [List.getElem?_map, hk]; rfl
          refine ⟨?_, ?_⟩
          · intro m hm he
            rcases List.mem_append.mp hm with hm | hm
            · rw [hlay]
              unfold layoutOf
              rw [← he, h0.out m hm]
            · simp only [List.mem_singleton] at hm
              subst hm
              have := hp i (List.mem_of_getElem? hk)
              simp only at he
              omega
          · intro p hp' he
            rw [hlay]
            unfold layoutOf
            rw [← he, h0.inp p hp']
  | hidden l => exact linv_insert h hl _
  | target b name i =>
    refine linv_onBoard hl b _ ?_
    intro bd hbd
    have h0 := hl b bd hbd
    exact ⟨h0.out, h0.inp, h0.reads⟩
  | drop i =>
    simp only [step]
    cases hr : st.reg i with
    | none => exact hl
    | some t =>
      simp only
      split
      · rename_i hv
        intro b bd hb
        refine (hl b bd hb).reg_congr ?_
        intro j l hj
        have hji : j ≠ i := by
          intro hc
          subst hc
          rw [hr] at hj
          injection hj with hj
          subst hj
          simp at hv
        simp only
        rw [update_of_ne hji]
        exact hj
      · exact hl
  | set i j => exact absurd hs (by simp [Spec.NotSet])

theorem linv_run {sem : O → List V → V} {ρ : String → V} : ∀ (l : List (Step O V)) (st : St O V)
    (env : Nat → V), Inv sem ρ st env → LInv st → Spec.Along Spec.Possible st l →
    (∀ s ∈ l, Spec.NotSet s) → LInv (run st l) := by
  intro l
  induction l with
  | nil => intro st env _ h _ _; exact h
  | cons s l ih =>
    intro st env h hl hp hs
    exact ih _ _ (inv_step h s hp.1 (hs s List.mem_cons_self))
      (linv_step h hl s hp.1 (hs s List.mem_cons_self)) hp.2
      (fun x hx => hs x (List.mem_cons_of_mem _ hx))

/-- C58 for inputs and results of nodes: after any history without `set_`, the layout a node records
for what it reads is the output layout of the node that produces it, or the row-major layout of the
input's shape.

What is missing from C58: constants, see `C58_constant_false`. -/
theorem C58_layouts_partial [Nonempty V] (l : List (Step O V))
    (hp : Spec.Along Spec.Possible init l) (hs : ∀ s ∈ l, Spec.NotSet s) (b : Nat) (bd : Board O)
    (hbd : (run init l).boards b = some bd) (st' : St O V) (s : Snap O V)
    (hcap : capture (run init l) b = .ok (st', s)) (n : COp O) (hn : n ∈ s.nodes) (k i : Nat)
    (hi : n.ins[k]? = some i) :
    (∀ m ∈ s.nodes, m.out = i → n.inLayouts[k]? = some m.outLayout) ∧
    (∀ p ∈ s.inputs, p.id = i → n.inLayouts[k]? = some (Layout.fromShape p.dims)) := by
  obtain ⟨z⟩ := ‹Nonempty V›
  have hl := linv_run (sem := fun _ _ => z) (ρ := fun _ => z) l init (fun _ => z)
    (inv_init _ _ _) (by intro b bd hb; simp [init] at hb) hp hs
  have h := inv_run (sem := fun _ _ => z) (ρ := fun _ => z) l init (fun _ => z)
    (inv_init _ _ _) hp hs
  obtain ⟨hb, _⟩ := h.board b bd hbd
  have h1 := hl b bd hbd
  simp only [capture, hbd, Res.ok.injEq, Prod.mk.injEq] at hcap
  obtain ⟨-, rfl⟩ := hcap
  simp only [snapshotOf, List.mem_map] at hn ⊢
  obtain ⟨op, ho, rfl⟩ := hn
  simp only [List.getElem?_map, Option.map_eq_some_iff] at hi
  obtain ⟨j, hj, rfl⟩ := hi
  have hjm := (mentioned_op bd ho).2 j (List.mem_of_getElem? hj)
  have hops := ((keptOps_mem hb).mp ho).1
  obtain ⟨h2, h3⟩ := h1.reads op hops k j hj
  refine ⟨?_, ?_⟩
  · rintro m ⟨m', hm', rfl⟩ he
    exact h2 m' ((keptOps_mem hb).mp hm').1
      (idOffset_inj bd (mentioned_op bd hm').1 hjm he)
  · rintro p ⟨p', hp', rfl⟩ he
    exact h3 p' hp' (idOffset_inj bd (mentioned_input bd hp') hjm he)

/-- The hypotheses of `C58_layouts_partial` hold of the transposition of an input followed by an
operation; the second node records the strided layout the first declares. -/
example : ∃ st' s, capture (run (init : St Nat Int) [.board, .open 0, .input "x" [2, 3],
      .op 0 [0] { dims := [3, 2], strides := [1, 3], offset := 0 },
      .op 1 [1, 1] (Layout.fromShape [3, 2]), .target 0 "y" 2, .close]) 0 = .ok (st', s) ∧
    ∀ n ∈ s.nodes, ∀ k i : Nat, n.ins[k]? = some i →
      ∀ m ∈ s.nodes, m.out = i → n.inLayouts[k]? = some m.outLayout := by
  refine ⟨_, _, rfl, fun n hn k i hk => ?_⟩
  refine (C58_layouts_partial [.board, .open 0, .input "x" [2, 3],
      .op 0 [0] { dims := [3, 2], strides := [1, 3], offset := 0 },
      .op 1 [1, 1] (Layout.fromShape [3, 2]), .target 0 "y" 2, .close] ?_
      (by simp [Spec.NotSet]) 0 _ rfl _ _ rfl n hn k i hk).1
  simp only [Spec.Along, Spec.Possible]
  decide +kernel

/-- C58 is false of constants: a transposed weight (made before the board was opened) is stored in
logical order with its shape only, and the node that reads it records the strides of the view, which
over the stored data name the wrong elements. -/
theorem C58_constant_false :
    ∃ l : List (Step Nat Int), Spec.Along Spec.Possible init l ∧
      ∃ st' s, capture (run init l) 0 = .ok (st', s) ∧
        ∃ c ∈ s.constants, ∃ n ∈ s.nodes, n.ins[1]? = some c.1 ∧
          n.inLayouts[1]? ≠ some (Layout.fromShape c.2.2) := by
  refine ⟨[.const 0 { dims := [2, 3], strides := [1, 2], offset := 0 }, .board, .open 0,
    .input "x" [2, 3], .op 0 [1, 0] (Layout.fromShape [2, 3]), .target 0 "y" 2, .close], ?_, _, _,
    rfl, (0, 0, [2, 3]), by decide +kernel, _, List.mem_singleton.mpr rfl, by decide +kernel,
    by decide +kernel⟩
  simp only [Spec.Along, Spec.Possible]
  decide +kernel

end Hodu.Cap
