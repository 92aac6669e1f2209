import Verif.Model.CudaSelect
import Verif.Lemmas.CudaUnique

/-!
# Kernels that write every cell once, kernels that take tickets, and the orders that schedules reach
-/

namespace Hodu.Cuda

open _root_.Hodu.Spec Cuda.Spec

variable {V : Type} {α : Type}

/-! ## Cells written once -/

/-- As `plan_ends`, for a `uint32_t` counter. -/
theorem plan_ends32 {T : Addr → V → Prop} {n D : Nat} (hn : n ≤ 2 ^ 31) {prog : Nat → Prog V} {m0 : Mem V}
    (P : Plan V) (hP : P.Ok n) (hT : Typed T m0)
    (h : ∀ i, i < n → All T (fun a f k => P.Keeps i a f k ∧ (m0 a).isSome = true) (prog i))
    (hD : ∀ i, i < n → Depth (prog i) D) {M : Mem V} (hM : seq ((List.range n).map prog) m0 = .ok M) :
    Ends (progGrid32 n prog) m0 M := by
  obtain ⟨M', e, hE⟩ := grid32_ends (T := T) hn hT (fun i hi => All.mono (fun _ _ _ h => h.2) (h i hi))
    (fun i j hi hj hij => P.indep hP hi hj hij (All.mono (fun _ _ _ h => h.1) (h i hi))
      (All.mono (fun _ _ _ h => h.1) (h j hj))) hD
  rw [hM] at e
  cases e
  exact hE

/-- Stores of known values. -/
def stores (cs : List (Nat × α)) : Prog α := writeCells (cs.map fun c => (c.1, .ok c.2))

theorem stores_cons (c : Nat × α) (cs : List (Nat × α)) : stores (c :: cs) = .store (bOut, c.1) c.2 (stores cs) := rfl

theorem stores_run (f : Nat → α) : ∀ (cs : List (Nat × α)) (m : Mem α), (∀ c ∈ cs, (m (bOut, c.1)).isSome = true) →
    (∀ c ∈ cs, c.2 = f c.1) →
    (stores cs).run m = .ok fun a => if ∃ c ∈ cs, a = (bOut, c.1) then some (f a.2) else m a := by
  intro cs
  induction cs with
  | nil =>
    intro m _ _
    simp [stores, writeCells, Prog.run]
  | cons c cs ih =>
    intro m h hf
    obtain ⟨v, hv⟩ := Option.isSome_iff_exists.mp (h c (by simp))
    rw [stores_cons, run_store hv, ih _ (fun d hd => by
      rw [← sameCells_upd m (bOut, c.1) _ (bOut, d.1)]; exact h d (by simp [hd])) (fun d hd => hf d (by simp [hd]))]
    refine congrArg Res.ok (funext fun a => ?_)
    by_cases h1 : ∃ d ∈ cs, a = (bOut, d.1)
    · rw [if_pos h1, if_pos (by obtain ⟨d, hd, e⟩ := h1; exact ⟨d, by simp [hd], e⟩)]
    · rw [if_neg h1]
      by_cases h2 : a = (bOut, c.1)
      · rw [if_pos ⟨c, by simp, h2⟩, h2, Mem.upd_self hv, ← hf c (by simp)]
      · rw [if_neg, Mem.upd_ne h2]
        rintro ⟨d, hd, e⟩
        rcases List.mem_cons.mp hd with rfl | hd
        · exact h2 e
        · exact h1 ⟨d, hd, e⟩

theorem stores_all {T : Addr → α → Prop} {P : Addr → (α → α) → (α → Prog α) → Prop} : ∀ (cs : List (Nat × α)),
    (∀ c ∈ cs, T (bOut, c.1) c.2 ∧ ∀ f k, P (bOut, c.1) f k) → All T P (stores cs) := by
  intro cs
  induction cs with
  | nil => exact fun _ => trivial
  | cons c cs ih =>
    intro h
    rw [stores_cons]
    exact ⟨(h c (by simp)).2 _ _, fun v _ => ⟨(h c (by simp)).1, ih fun d hd => h d (by simp [hd])⟩⟩

theorem stores_depth : ∀ (cs : List (Nat × α)) (d : Nat), cs.length ≤ d → Depth (stores cs) d := by
  intro cs
  induction cs with
  | nil => exact fun _ _ => trivial
  | cons c cs ih =>
    intro d h
    obtain ⟨e, rfl⟩ : ∃ e, d = e + 1 := ⟨d - 1, by simp at h; omega⟩
    rw [stores_cons]
    exact fun _ => ih e (by simpa using h)

/-- The memory with the first `size` cells of the buffer `bOut` filled by `f`. -/
def Mem.out (m : Mem V) (size : Nat) (f : Nat → V) : Mem V := fun a =>
  if a.1 = bOut ∧ a.2 < size then some (f a.2) else m a

theorem stores_seq {n size : Nat} {cells : Nat → List (Nat × α)} {f : Nat → α} {m0 : Mem α}
    (hm : ∀ a, a < size → (m0 (bOut, a)).isSome = true)
    (hin : ∀ i, i < n → ∀ c ∈ cells i, c.1 < size ∧ c.2 = f c.1)
    (hcov : ∀ a, a < size → ∃ i, i < n ∧ ∃ c ∈ cells i, c.1 = a) :
    seq ((List.range n).map fun i => stores (cells i)) m0 = .ok (m0.out size f) := by
  obtain ⟨M, e, h1, h2⟩ := seq_inv (prog := fun i => stores (cells i))
    (fun i m => SameCells m0 m ∧ ∀ a, m a = if ∃ j, j < i ∧ ∃ c ∈ cells j, a = (bOut, c.1) then some (f a.2) else m0 a)
    (m0 := m0) ⟨fun _ => rfl, fun a => by rw [if_neg]; rintro ⟨j, hj, _⟩; omega⟩ n (by
      rintro i m hi ⟨h1, h2⟩
      refine ⟨_, stores_run f (cells i) m (fun c hc => by rw [← h1]; exact hm _ (hin i hi c hc).1)
        (fun c hc => (hin i hi c hc).2), ?_, ?_⟩
      · intro a
        dsimp only
        split_ifs with h
        · obtain ⟨c, hc, rfl⟩ := h
          rw [hm _ (hin i hi c hc).1]
          rfl
        · exact h1 a
      · intro a
        by_cases h3 : ∃ c ∈ cells i, a = (bOut, c.1)
        · rw [if_pos h3, if_pos ⟨i, by omega, h3⟩]
        · rw [if_neg h3, h2 a]
          by_cases h4 : ∃ j, j < i ∧ ∃ c ∈ cells j, a = (bOut, c.1)
          · rw [if_pos h4, if_pos (by obtain ⟨j, hj, h⟩ := h4; exact ⟨j, by omega, h⟩)]
          · rw [if_neg h4, if_neg]
            rintro ⟨j, hj, h⟩
            rcases Nat.lt_or_eq_of_le (Nat.le_of_lt_succ hj) with hj | rfl
            · exact h4 ⟨j, hj, h⟩
            · exact h3 h)
  rw [e]
  refine congrArg Res.ok (funext fun a => ?_)
  rw [h2 a]
  unfold Mem.out
  obtain ⟨b, x⟩ := a
  dsimp only
  by_cases hb : b = bOut ∧ x < size
  · obtain ⟨rfl, hx⟩ := hb
    obtain ⟨i, hi, c, hc, rfl⟩ := hcov x hx
    rw [if_pos ⟨i, hi, c, hc, rfl⟩, if_pos ⟨rfl, hx⟩]
  · rw [if_neg hb, if_neg]
    rintro ⟨i, hi, c, hc, e⟩
    injection e with e e'
    exact hb ⟨e, e' ▸ (hin i hi c hc).1⟩

theorem exists_bound (g : Nat → Nat) : ∀ n : Nat, ∃ D, ∀ i, i < n → g i ≤ D := by
  intro n
  induction n with
  | zero => exact ⟨0, fun i h => absurd h (by omega)⟩
  | succ n ih =>
    obtain ⟨D, hD⟩ := ih
    refine ⟨max D (g n), fun i hi => ?_⟩
    rcases Nat.lt_or_eq_of_le (Nat.le_of_lt_succ hi) with h | rfl
    · exact le_trans (hD i h) (le_max_left _ _)
    · exact le_max_right _ _

/-- The plan of a kernel whose indices write different cells. -/
def storePlan (cells : Nat → List (Nat × α)) : Plan α :=
  { ro := fun _ => False, at_ := fun _ => False, own := fun i a => ∃ c ∈ cells i, a = (bOut, c.1), u := fun v => v }

theorem storePlan_ok {n : Nat} {cells : Nat → List (Nat × α)}
    (hinj : ∀ i j, i < n → j < n → ∀ c ∈ cells i, ∀ d ∈ cells j, c.1 = d.1 → i = j) : (storePlan cells).Ok n := by
  refine ⟨fun _ h => h.elim, fun _ _ _ _ => ⟨fun h => h, fun h => h⟩, ?_⟩
  rintro i j a hi hj ⟨c, hc, rfl⟩ ⟨d, hd, e⟩
  injection e with _ e
  exact hinj i j hi hj c hc d hd e

/-- The programs of the indices below `n` write different cells, together those below `size`, with the values `f`. -/
def Spec.Writes (prog : Nat → Prog α) (n size : Nat) (f : Nat → α) : Prop :=
  ∃ cells : Nat → List (Nat × α), (∀ i, i < n → prog i = stores (cells i)) ∧
    (∀ i, i < n → ∀ c ∈ cells i, c.1 < size ∧ c.2 = f c.1) ∧
    (∀ i j, i < n → j < n → ∀ c ∈ cells i, ∀ d ∈ cells j, c.1 = d.1 → i = j) ∧
    ∀ a, a < size → ∃ i, i < n ∧ ∃ c ∈ cells i, c.1 = a

/-- A kernel whose indices write different cells, together all of them, ends with these cells. -/
theorem stores_ends {n size : Nat} (hn : n ≤ 2 ^ 31) {prog : Nat → Prog α} {f : Nat → α} {m0 : Mem α}
    (hm : ∀ a, a < size → (m0 (bOut, a)).isSome = true) (h : Spec.Writes prog n size f) :
    Ends (progGrid32 n prog) m0 (m0.out size f) := by
  obtain ⟨cells, hp, hin, hinj, hcov⟩ := h
  obtain ⟨D, hD⟩ := exists_bound (fun i => (cells i).length) n
  refine plan_ends32 (T := fun _ _ => True) (D := D) hn (storePlan cells) (storePlan_ok hinj) (fun _ _ _ => trivial)
    (fun i hi => ?_) (fun i hi => ?_) ?_
  · rw [hp i hi]
    exact stores_all _ fun c hc => ⟨trivial, fun _ _ => ⟨Or.inr (Or.inr ⟨c, hc, rfl⟩), hm _ (hin i hi c hc).1⟩⟩
  · rw [hp i hi]
    exact stores_depth _ _ (hD i hi)
  · rw [← stores_seq hm hin hcov]
    refine congrArg (seq · m0) (List.map_congr_left fun i hi => hp i (List.mem_range.mp hi))

/-- The same for any launch that gives every index to one thread. -/
theorem stores_from {size : Nat} {k : PKernel α} (hnx : ∀ i, i < k.bound → k.bound ≤ k.next i)
    (hT : k.bound ≤ k.threads) (hst : ∀ t, t < k.threads → k.start t = t) {f : Nat → α} {m0 : Mem α}
    (hm : ∀ a, a < size → (m0 (bOut, a)).isSome = true) (h : Spec.Writes k.prog k.bound size f) :
    Ends k m0 (m0.out size f) := by
  obtain ⟨cells, hp, hin, hinj, hcov⟩ := h
  obtain ⟨D, hD⟩ := exists_bound (fun i => (cells i).length) k.bound
  have hinc : ∀ i, i < k.bound → i < k.next i := fun i hi => lt_of_lt_of_le hi (hnx i hi)
  have hcover := cover (k := k) hinc hst hnx hT
  have hall : ∀ i, i < k.bound → All (fun _ _ => True) (fun a f kk => (storePlan cells).Keeps i a f kk ∧
      (m0 a).isSome = true) (k.prog i) := fun i hi => by
    rw [hp i hi]
    exact stores_all _ fun c hc => ⟨trivial, fun _ _ => ⟨Or.inr (Or.inr ⟨c, hc, rfl⟩), hm _ (hin i hi c hc).1⟩⟩
  obtain ⟨M, e1, _, _, e4⟩ := race_free (T := fun _ _ => True) (k := k) (m0 := m0) hinc (fun _ _ _ => trivial)
    (fun i hi => All.mono (fun _ _ _ h => h.2) (hall i hi))
    (fun i j hi hj hij => (storePlan cells).indep (storePlan_ok hinj) hi hj hij
      (All.mono (fun _ _ _ h => h.1) (hall i hi)) (All.mono (fun _ _ _ h => h.1) (hall j hj))) (by rw [hcover])
  have e2 : seq ((List.range k.bound).map k.prog) m0 = .ok (m0.out size f) := by
    rw [← stores_seq hm hin hcov]
    exact congrArg (seq · m0) (List.map_congr_left fun i hi => hp i (List.mem_range.mp hi))
  rw [e2] at e1
  cases e1
  exact ⟨e4, terminates hinc fun i hi => by rw [hp i hi]; exact stores_depth _ _ (hD i hi)⟩

theorem read_out (m : Mem V) (size : Nat) (f : Nat → V) : (m.out size f).read bOut size = (List.range size).map f := by
  unfold Mem.read
  rw [← List.filterMap_eq_map]
  refine List.filterMap_congr fun x hx => ?_
  simp [Mem.out, List.mem_range.mp hx]

/-! ## Every order -/

theorem exec_append (k : PKernel V) (s : PSt V) (a b : List Nat) :
    Res.foldL k.step s (a ++ b) = (Res.foldL k.step s a).bind fun s' => Res.foldL k.step s' b := by
  induction a generalizing s with
  | nil => rfl
  | cons x a ih =>
    rw [List.cons_append, Res.foldL, Res.foldL]
    cases k.step s x with
    | ok s' => exact ih s'
    | err => rfl
    | panic => rfl
    | ub => rfl

/-- A thread left alone runs its program. -/
theorem alone {k : PKernel V} {t i : Nat} {p : Prog V} : ∀ {s : PSt V} {m : Mem V}, s.pc t = .run i p →
    p.run s.mem = .ok m → ∃ j, Res.foldL k.step s (List.replicate j t) = .ok ⟨m, Function.update s.pc t (.run i .done)⟩ := by
  induction p with
  | done =>
    intro s m hp hr
    cases hr
    exact ⟨0, by rw [← hp, Function.update_eq_self]; rfl⟩
  | ub => intro s m _ hr; cases hr
  | op a f c ih =>
    intro s m hp hr
    rw [Prog.run] at hr
    cases hv : s.mem a with
    | none => rw [hv] at hr; cases hr
    | some v =>
      rw [hv] at hr
      obtain ⟨j, hj⟩ := ih v (s := { (s.goto t (.run i (c v))) with mem := s.mem.upd a f }) (m := m)
        (Function.update_self ..) hr
      refine ⟨j + 1, ?_⟩
      rw [List.replicate_succ, Res.foldL]
      have : k.step s t = .ok { (s.goto t (.run i (c v))) with mem := s.mem.upd a f } := by
        unfold PKernel.step
        rw [hp]
        dsimp only
        rw [hv]
      rw [this]
      refine hj.trans (congrArg Res.ok ?_)
      simp only [PSt.goto, Function.update_idem]

/-- A thread left alone takes its only index and leaves. -/
theorem alone_index {k : PKernel V} {t : Nat} (ht : t < k.bound) (hnx : k.bound ≤ k.next t) {s : PSt V} {m : Mem V}
    (hp : s.pc t = .head t) (hr : (k.prog t).run s.mem = .ok m) :
    ∃ j, Res.foldL k.step s (List.replicate j t) = .ok ⟨m, Function.update s.pc t .done⟩ := by
  have h1 : k.step s t = .ok (s.goto t (.run t (k.prog t))) := by
    unfold PKernel.step
    rw [hp]
    exact if_pos ht
  obtain ⟨j, hj⟩ := alone (k := k) (s := s.goto t (.run t (k.prog t))) (Function.update_self ..) hr
  refine ⟨1 + (j + 2), ?_⟩
  rw [List.replicate_add, exec_append]
  simp only [List.replicate_one, Res.foldL, h1, Res.bind]
  rw [List.replicate_add, exec_append, hj]
  simp only [List.replicate, Res.foldL, Res.bind, PKernel.step, PSt.goto, Function.update_self, Function.update_idem]
  rw [if_neg (by omega)]

/-- The programs of the indices, in any order, are reached by a schedule. -/
theorem order_reached {k : PKernel V} (hst : ∀ t, t < k.threads → k.start t = t)
    (hnx : ∀ i, i < k.bound → k.bound ≤ k.next i) (hb : k.bound ≤ k.threads) {l : List Nat}
    (hl : l.Perm (List.range k.bound)) {m0 M : Mem V} (hM : seq (l.map k.prog) m0 = .ok M) :
    ∃ sched s, k.exec m0 sched = .ok s ∧ s.finished ∧ s.mem = M := by
  have key : ∀ (l : List Nat) (s : PSt V) (M : Mem V), l.Nodup → (∀ t ∈ l, t < k.bound ∧ s.pc t = .head t) →
      seq (l.map k.prog) s.mem = .ok M → ∃ sched pc', Res.foldL k.step s sched = .ok ⟨M, pc'⟩ ∧
        ∀ t, pc' t = if t ∈ l then .done else s.pc t := by
    intro l
    induction l with
    | nil =>
      intro s M _ _ h
      cases h
      exact ⟨[], s.pc, rfl, fun t => by simp⟩
    | cons x l ih =>
      intro s M hnd h hs
      rw [List.nodup_cons] at hnd
      obtain ⟨hx, hpx⟩ := h x (by simp)
      rw [List.map_cons, seq, Res.foldL] at hs
      cases hr : (k.prog x).run s.mem with
      | ok m =>
        rw [hr] at hs
        obtain ⟨j, hj⟩ := alone_index hx (hnx x hx) hpx hr
        obtain ⟨sched, pc', e, hpc⟩ := ih ⟨m, Function.update s.pc x .done⟩ M hnd.2 (fun t ht => by
          refine ⟨(h t (by simp [ht])).1, ?_⟩
          show Function.update s.pc x .done t = _
          rw [Function.update_of_ne (by rintro rfl; exact hnd.1 ht)]
          exact (h t (by simp [ht])).2) hs
        refine ⟨List.replicate j x ++ sched, pc', by rw [exec_append, hj]; exact e, fun t => ?_⟩
        rw [hpc t]
        by_cases htl : t ∈ l
        · rw [if_pos htl, if_pos (by simp [htl])]
        · rw [if_neg htl]
          show Function.update s.pc x .done t = _
          by_cases htx : t = x
          · rw [htx, Function.update_self, if_pos (by simp)]
          · rw [Function.update_of_ne htx, if_neg (by simp [htx, htl])]
      | err => rw [hr] at hs; cases hs
      | panic => rw [hr] at hs; cases hs
      | ub => rw [hr] at hs; cases hs
  have rest : ∀ (l : List Nat) (s : PSt V), (∀ t ∈ l, k.bound ≤ t ∧ (s.pc t = .head t ∨ s.pc t = .done)) →
      ∃ pc', Res.foldL k.step s l = .ok ⟨s.mem, pc'⟩ ∧ ∀ t, pc' t = if t ∈ l then .done else s.pc t := by
    intro l
    induction l with
    | nil => exact fun s _ => ⟨s.pc, rfl, fun t => by simp⟩
    | cons x l ih =>
      intro s h
      have hstep : k.step s x = .ok (s.goto x .done) := by
        unfold PKernel.step
        rcases (h x (by simp)).2 with hx | hx
        · rw [hx]
          dsimp only
          rw [if_neg (by have := (h x (by simp)).1; omega)]
        · rw [hx]
          dsimp only
          unfold PSt.goto
          rw [← hx, Function.update_eq_self]
      obtain ⟨pc', e, hpc⟩ := ih (s.goto x .done) (fun t ht => by
        refine ⟨(h t (by simp [ht])).1, ?_⟩
        show Function.update s.pc x .done t = _ ∨ Function.update s.pc x .done t = _
        by_cases htx : t = x
        · rw [htx, Function.update_self]; exact Or.inr rfl
        · rw [Function.update_of_ne htx]; exact (h t (by simp [ht])).2)
      refine ⟨pc', by rw [Res.foldL, hstep]; exact e, fun t => ?_⟩
      rw [hpc t]
      by_cases htl : t ∈ l
      · rw [if_pos htl, if_pos (by simp [htl])]
      · rw [if_neg htl]
        show Function.update s.pc x .done t = _
        by_cases htx : t = x
        · rw [htx, Function.update_self, if_pos (by simp)]
        · rw [Function.update_of_ne htx, if_neg (by simp [htx, htl])]
  have hmem : ∀ t, t ∈ l ↔ t < k.bound := fun t => by rw [hl.mem_iff, List.mem_range]
  have hinit : ∀ t, t < k.threads → (k.init m0).pc t = .head t := fun t ht => by
    show (if t < k.threads then PPc.head (k.start t) else .done) = _
    rw [if_pos ht, hst t ht]
  obtain ⟨s1, pc1, e1, h1⟩ := key l (k.init m0) M (hl.nodup_iff.mpr List.nodup_range)
    (fun t ht => ⟨(hmem t).mp ht, hinit t (lt_of_lt_of_le ((hmem t).mp ht) hb)⟩) hM
  obtain ⟨pc2, e2, h2⟩ := rest ((List.range k.threads).filter fun t => decide (k.bound ≤ t)) ⟨M, pc1⟩ (fun t ht => by
    obtain ⟨ht1, ht2⟩ := List.mem_filter.mp ht
    have ht2 : k.bound ≤ t := by simpa using ht2
    refine ⟨ht2, Or.inl ?_⟩
    show pc1 t = _
    rw [h1 t, if_neg (by rw [hmem]; omega)]
    exact hinit t (List.mem_range.mp ht1))
  refine ⟨s1 ++ _, ⟨M, pc2⟩, by unfold PKernel.exec; rw [exec_append, e1]; exact e2, fun t => ?_, rfl⟩
  show pc2 t = _
  rw [h2 t]
  split_ifs with h3
  · rfl
  · show pc1 t = _
    rw [h1 t]
    split_ifs with h4
    · rfl
    · show (if t < k.threads then PPc.head (k.start t) else .done) = _
      rw [if_neg]
      intro h5
      exact h3 (List.mem_filter.mpr ⟨List.mem_range.mpr h5, by rw [hmem] at h4; simpa using h4⟩)

/-! ## Tickets -/

/-- What a thread of a kernel with tickets does for one index, ops_indexing.cu:608-613. -/
def ticketProg (hit : Nat → Bool) (row : Nat → List Nat) (D i : Nat) : Prog Int :=
  if hit i then .fetch (bCounter, 0) incU32 fun o => writeRow (o.toNat * D) (row i) else .done

/-- The first `d` cells of the row that index `t` writes to place `o`. -/
def Spec.Written (row : Nat → List Nat) (D : Nat) (m : Mem Int) (o t d : Nat) : Prop :=
  ∀ c x, c < d → (row t)[c]? = some x → m (bOut, o * D + c) = some (castI32 x)

/-- Index `t` has been dealt with; `order` lists the indices by their tickets, the first of which is `base`. -/
def Spec.Dealt (hit : Nat → Bool) (row : Nat → List Nat) (D n base : Nat) (m : Mem Int) (order : List Nat) (t : Nat) : Prop :=
  t < n → hit t = true → ∃ o : Nat, order[o]? = some t ∧ Written row D m (base + o) t D

/-- Where thread `t` may stand. -/
def Spec.Place (hit : Nat → Bool) (row : Nat → List Nat) (D n base : Nat) (m : Mem Int) (order : List Nat) (t : Nat) :
    PPc Int → Prop
  | .head i => (i = t ∧ t ∉ order) ∨ (n ≤ i ∧ Dealt hit row D n base m order t)
  | .run i p => i = t ∧ t < n ∧ ((p = ticketProg hit row D t ∧ t ∉ order) ∨
      ∃ o d : Nat, order[o]? = some t ∧ d ≤ D ∧ p = writeRow ((base + o) * D + d) ((row t).drop d) ∧
        Written row D m (base + o) t d)
  | .done => Dealt hit row D n base m order t

/-- The invariant of a kernel with tickets. -/
structure Spec.Tickets (hit : Nat → Bool) (row : Nat → List Nat) (D n base : Nat) (m0 : Mem Int) (s : PSt Int)
    (order : List Nat) : Prop where
  nodup : order.Nodup
  hits : ∀ i ∈ order, i < n ∧ hit i = true
  counter : s.mem (bCounter, 0) = some ((base + order.length : Nat) : Int)
  cells : SameCells m0 s.mem
  low : ∀ x, x < base * D → s.mem (bOut, x) = m0 (bOut, x)
  place : ∀ t, Place hit row D n base s.mem order t (s.pc t)

open Cuda.Spec

theorem place_mono {hit : Nat → Bool} {row : Nat → List Nat} {D n base : Nat} {m m' : Mem Int} {order new : List Nat} {t : Nat}
    {p : PPc Int} (h : Place hit row D n base m order t p) (ht : t ∉ new)
    (hm : ∀ o c : Nat, order[o]? = some t → c < D →
      m' (bOut, (base + o) * D + c) = m (bOut, (base + o) * D + c)) :
    Place hit row D n base m' (order ++ new) t p := by
  have hget : ∀ o : Nat, order[o]? = some t → (order ++ new)[o]? = some t := fun o ho => by
    rw [List.getElem?_append_left (List.getElem?_eq_some_iff.mp ho).1, ho]
  have hw : ∀ o d, d ≤ D → order[o]? = some t → Written row D m (base + o) t d → Written row D m' (base + o) t d :=
    fun o d hd ho hW c x hc hx => by rw [hm o c ho (by omega)]; exact hW c x hc hx
  have hd : Dealt hit row D n base m order t → Dealt hit row D n base m' (order ++ new) t := fun hD h1 h2 => by
    obtain ⟨o, ho, hW⟩ := hD h1 h2
    exact ⟨o, hget o ho, hw o D (le_refl _) ho hW⟩
  have hni : t ∉ order → t ∉ order ++ new := fun h => by simp [h, ht]
  cases p with
  | head i =>
    rcases h with ⟨h1, h2⟩ | ⟨h1, h2⟩
    · exact Or.inl ⟨h1, hni h2⟩
    · exact Or.inr ⟨h1, hd h2⟩
  | run i p =>
    obtain ⟨h1, h2, h3⟩ := h
    refine ⟨h1, h2, ?_⟩
    rcases h3 with ⟨h3, h4⟩ | ⟨o, d, h3, h4, h5, h6⟩
    · exact Or.inl ⟨h3, hni h4⟩
    · exact Or.inr ⟨o, d, hget o h3, h4, h5, hw o d h4 h3 h6⟩
  | done => exact hd h

theorem incU32_small {k : Nat} (h : k < 2 ^ 32 - 1) : incU32 (k : Int) = ((k + 1 : Nat) : Int) := by
  unfold incU32
  omega

theorem tickets_step {hit : Nat → Bool} {row : Nat → List Nat} {D n base : Nat} {m0 : Mem Int} {k : PKernel Int}
    (hw : base + ((List.range n).filter hit).length < 2 ^ 32) (hb : k.bound = n) (hnx : ∀ i, i < n → n ≤ k.next i)
    (hp : ∀ i, i < n → k.prog i = ticketProg hit row D i) (hrow : ∀ i, i < n → (row i).length = D)
    (hout : ∀ x, x < (base + ((List.range n).filter hit).length) * D → (m0 (bOut, x)).isSome = true)
    {s : PSt Int} {order : List Nat} (h : Tickets hit row D n base m0 s order) (t : Nat) :
    ∃ s' order', k.step s t = .ok s' ∧ Tickets hit row D n base m0 s' order' := by
  have hlen : ∀ l : List Nat, l.Nodup → (∀ i ∈ l, i < n ∧ hit i = true) → l.length ≤ ((List.range n).filter hit).length :=
    fun l h1 h2 => (List.subperm_of_subset h1 fun i hi => List.mem_filter.mpr
      ⟨List.mem_range.mpr (h2 i hi).1, (h2 i hi).2⟩).length_le
  have hgo : ∀ p, Place hit row D n base s.mem order t p → Tickets hit row D n base m0 (s.goto t p) order := by
    intro p hpl
    refine ⟨h.nodup, h.hits, h.counter, h.cells, h.low, fun u => ?_⟩
    show Place hit row D n base s.mem order u (Function.update s.pc t p u)
    by_cases hu : u = t
    · subst hu; rw [Function.update_self]; exact hpl
    · rw [Function.update_of_ne hu]; exact h.place u
  have hpl := h.place t
  unfold PKernel.step
  cases hpc : s.pc t with
  | head i =>
    rw [hpc] at hpl
    dsimp only
    rw [hb]
    rcases hpl with ⟨rfl, h2⟩ | ⟨h1, h2⟩
    · split_ifs with hi
      · exact ⟨_, order, rfl, hgo _ ⟨rfl, hi, Or.inl ⟨hp i hi, h2⟩⟩⟩
      · exact ⟨_, order, rfl, hgo _ fun h3 => absurd h3 hi⟩
    · rw [if_neg (by omega)]
      exact ⟨_, order, rfl, hgo _ h2⟩
  | done => exact ⟨s, order, rfl, h⟩
  | run i p =>
    rw [hpc] at hpl
    obtain ⟨rfl, h2, h3⟩ := hpl
    rcases h3 with ⟨h3, h4⟩ | ⟨o, d, h3, h4, h5, h6⟩
    · by_cases hh : hit i = true
      · -- the ticket
        have e : p = .op (bCounter, 0) incU32 fun o => writeRow (o.toNat * D) (row i) := by
          rw [h3]; unfold ticketProg; rw [if_pos hh]; rfl
        rw [e]
        dsimp only
        rw [h.counter]
        dsimp only
        have hnd : (order ++ [i]).Nodup := by
          rw [List.nodup_append]
          refine ⟨h.nodup, by simp, ?_⟩
          rintro a ha b hb' rfl
          simp at hb'
          subst hb'
          exact h4 ha
        have hhits : ∀ j ∈ order ++ [i], j < n ∧ hit j = true := by
          intro j hj
          rcases List.mem_append.mp hj with hj | hj
          · exact h.hits j hj
          · simp at hj; subst hj; exact ⟨h2, hh⟩
        have hle := hlen _ hnd hhits
        rw [List.length_append, List.length_singleton] at hle
        have hne : ∀ x, (bOut, x) ≠ (bCounter, 0) := fun x => by simp
        refine ⟨_, order ++ [i], rfl, hnd, hhits, ?_, sc_trans h.cells (sameCells_upd _ _ _),
          fun x hx => Eq.trans (b := s.mem (bOut, x)) (Mem.upd_ne (hne x) incU32) (h.low x hx), fun u => ?_⟩
        · show s.mem.upd (bCounter, 0) incU32 (bCounter, 0) = _
          rw [Mem.upd_self h.counter, incU32_small (by omega), List.length_append, List.length_singleton, Nat.add_assoc]
        · show Place hit row D n base (s.mem.upd (bCounter, 0) incU32) (order ++ [i]) u (Function.update s.pc i _ u)
          by_cases hu : u = i
          · subst hu
            rw [Function.update_self]
            refine ⟨rfl, h2, Or.inr ⟨order.length, 0, ?_, Nat.zero_le _, ?_, fun c x hc => absurd hc (by omega)⟩⟩
            · simp
            · rw [List.drop_zero, Nat.add_zero, Int.toNat_natCast]
          · rw [Function.update_of_ne hu]
            exact place_mono (h.place u) (by simpa using hu) fun o c _ _ => Mem.upd_ne (hne _) _
      · have e : p = .done := by rw [h3]; unfold ticketProg; rw [if_neg hh]
        rw [e]
        exact ⟨_, order, rfl, hgo _ (Or.inr ⟨hnx i h2, fun _ h => absurd h hh⟩)⟩
    · by_cases hdD : d = D
      · have e : p = .done := by rw [h5, hdD, List.drop_eq_nil_of_le (by rw [hrow i h2])]; rfl
        rw [e]
        rw [hdD] at h6
        exact ⟨_, order, rfl, hgo _ (Or.inr ⟨hnx i h2, fun _ _ => ⟨o, h3, h6⟩⟩)⟩
      · have hd : d < (row i).length := by rw [hrow i h2]; omega
        have e : p = .op (bOut, (base + o) * D + d) (fun _ => castI32 ((row i)[d])) fun _ =>
            writeRow ((base + o) * D + (d + 1)) ((row i).drop (d + 1)) := by
          rw [h5, List.drop_eq_getElem_cons hd]
          rfl
        have ho : o < order.length := (List.getElem?_eq_some_iff.mp h3).1
        have hle := hlen _ h.nodup h.hits
        have hsome : (s.mem (bOut, (base + o) * D + d)).isSome = true := by
          rw [← h.cells]
          refine hout _ ?_
          calc (base + o) * D + d < (base + o + 1) * D := by rw [Nat.succ_mul]; omega
            _ ≤ _ := Nat.mul_le_mul_right _ (by omega)
        obtain ⟨v, hv⟩ := Option.isSome_iff_exists.mp hsome
        rw [e]
        dsimp only
        rw [hv]
        dsimp only
        have hoth : ∀ o' c, (o' ≠ o ∨ c ≠ d) → c < D → (bOut, (base + o') * D + c) ≠ (bOut, (base + o) * D + d) := by
          intro o' c hne hc he
          injection he with _ he
          have h7 : o' = o := by
            have : ((base + o') * D + c) / D = ((base + o) * D + d) / D := congrArg (· / D) he
            rw [Nat.mul_comm, Nat.mul_add_div (by omega), Nat.mul_comm (base + o), Nat.mul_add_div (by omega),
              Nat.div_eq_of_lt hc, Nat.div_eq_of_lt (by omega), Nat.add_zero, Nat.add_zero] at this
            omega
          subst h7
          omega
        refine ⟨_, order, rfl, h.nodup, h.hits, ?_, sc_trans h.cells (sameCells_upd s.mem (bOut, (base + o) * D + d) fun _ => castI32 ((row i)[d])),
          fun x hx => Eq.trans (b := s.mem (bOut, x)) (Mem.upd_ne (by
            intro he
            injection he with _ he
            rw [Nat.add_mul] at he
            omega) fun _ => castI32 ((row i)[d])) (h.low x hx), fun u => ?_⟩
        · show s.mem.upd (bOut, (base + o) * D + d) (fun _ => castI32 ((row i)[d])) (bCounter, 0) = _
          rw [Mem.upd_ne (by simp), h.counter]
        · show Place hit row D n base (s.mem.upd (bOut, (base + o) * D + d) fun _ => castI32 ((row i)[d])) order u (Function.update s.pc i _ u)
          by_cases hu : u = i
          · subst hu
            rw [Function.update_self]
            refine ⟨rfl, h2, Or.inr ⟨o, d + 1, h3, by omega, rfl, fun c x hc hx => ?_⟩⟩
            by_cases hcd : c = d
            · subst hcd
              rw [Mem.upd_self hv]
              rw [List.getElem?_eq_getElem hd] at hx
              injection hx with hx
              rw [hx]
            · rw [Mem.upd_ne (hoth o c (Or.inr hcd) (by omega))]
              exact h6 c x (by omega) hx
          · rw [Function.update_of_ne hu]
            have := place_mono (new := []) (m' := s.mem.upd (bOut, (base + o) * D + d) fun _ => castI32 ((row i)[d])) (h.place u)
              (by simp) (fun o' c ho' hc => Mem.upd_ne (hoth o' c (Or.inl (by
                rintro rfl
                rw [h3] at ho'
                injection ho' with ho'
                exact hu ho'.symm)) hc) _)
            rwa [List.append_nil] at this

theorem writeRow_depth : ∀ (xs : List Nat) (a d : Nat), xs.length ≤ d → Depth (writeRow a xs) d := by
  intro xs
  induction xs with
  | nil => exact fun _ _ _ => trivial
  | cons x xs ih =>
    intro a d h
    obtain ⟨e, rfl⟩ : ∃ e, d = e + 1 := ⟨d - 1, by simp at h; omega⟩
    exact fun _ => ih (a + 1) e (by simpa using h)

/-- A kernel with tickets, under every schedule: nothing goes wrong, it finishes, and then the counter has grown
by the number of hits, the rows of the hits stand one after the other behind the first `base` rows, in the order
of the tickets, and the first `base` rows have not been touched. -/
theorem tickets_from {hit : Nat → Bool} {row : Nat → List Nat} {D n base : Nat} {m0 : Mem Int} {k : PKernel Int}
    (hw : base + ((List.range n).filter hit).length < 2 ^ 32) (hb : k.bound = n) (hnx : ∀ i, i < n → n ≤ k.next i)
    (hT : n ≤ k.threads) (hst : ∀ t, t < k.threads → k.start t = t)
    (hp : ∀ i, i < n → k.prog i = ticketProg hit row D i) (hrow : ∀ i, i < n → (row i).length = D)
    (hout : ∀ x, x < (base + ((List.range n).filter hit).length) * D → (m0 (bOut, x)).isSome = true)
    (hcnt : m0 (bCounter, 0) = some (base : Int)) :
    (∀ sched, ∃ s, k.exec m0 sched = .ok s ∧ (s.finished → SameCells m0 s.mem ∧
      s.mem (bCounter, 0) = some ((base + ((List.range n).filter hit).length : Nat) : Int) ∧
      (∀ x, x < base * D → s.mem (bOut, x) = m0 (bOut, x)) ∧
      ∃ order : List Nat, order.Perm ((List.range n).filter hit) ∧
        ∀ o t c x : Nat, order[o]? = some t → (row t)[c]? = some x →
          s.mem (bOut, (base + o) * D + c) = some (castI32 x))) ∧
    ∃ B, ∀ sched s, (∀ t, t < k.threads → B ≤ sched.count t) → k.exec m0 sched = .ok s → s.finished := by
  constructor
  · intro sched
    obtain ⟨s, order, e, hT⟩ : ∃ s order, k.exec m0 sched = .ok s ∧ Tickets hit row D n base m0 s order := by
      induction sched using List.reverseRecOn with
      | nil =>
        refine ⟨_, [], rfl, by simp, by simp, hcnt, fun _ => rfl, fun _ _ => rfl, fun t => ?_⟩
        show Place hit row D n base m0 [] t (if t < k.threads then PPc.head (k.start t) else .done)
        split_ifs with ht
        · rw [hst t ht]
          exact Or.inl ⟨rfl, by simp⟩
        · exact fun h3 => absurd h3 (by omega)
      | append_singleton l u ih =>
        obtain ⟨s, order, e, hT⟩ := ih
        obtain ⟨s', order', e', hT'⟩ := tickets_step hw hb hnx hp hrow hout hT u
        exact ⟨s', order', by rw [PKernel.exec_snoc, e]; exact e', hT'⟩
    refine ⟨s, e, fun hf => ?_⟩
    have hperm : order.Perm ((List.range n).filter hit) := by
      refine (List.perm_ext_iff_of_nodup hT.nodup (List.nodup_range.filter _)).mpr fun t => ?_
      rw [List.mem_filter, List.mem_range]
      refine ⟨hT.hits t, fun ⟨h3, h4⟩ => ?_⟩
      have := hT.place t
      rw [hf t] at this
      obtain ⟨o, ho, _⟩ := this h3 h4
      exact List.mem_of_getElem? ho
    refine ⟨hT.cells, by rw [hT.counter, hperm.length_eq], hT.low, order, hperm, ?_⟩
    intro o t c x ho hx
    have hmem := hT.hits t (List.mem_of_getElem? ho)
    have := hT.place t
    rw [hf t] at this
    obtain ⟨o', ho', hW⟩ := this hmem.1 hmem.2
    have : o' = o := (List.getElem?_inj (List.getElem?_eq_some_iff.mp ho').1 hT.nodup).mp (ho'.trans ho.symm)
    subst this
    refine hW c x ?_ hx
    rw [← hrow t hmem.1]
    exact (List.getElem?_eq_some_iff.mp hx).1
  · refine terminates (D := D + 1) (fun i hi => ?_) (fun i hi => ?_)
    · have := hnx i (hb ▸ hi); omega
    · rw [hp i (hb ▸ hi)]
      unfold ticketProg
      split_ifs
      · exact fun v => writeRow_depth _ _ _ (by rw [hrow i (hb ▸ hi)])
      · trivial

/-- The kernel with tickets in the grid of ops_indexing.cu, from a counter of zero. -/
theorem tickets_ends {hit : Nat → Bool} {row : Nat → List Nat} {D n : Nat} {m0 : Mem Int} (hn : n ≤ 2 ^ 32 - 256)
    {prog : Nat → Prog Int} (hp : ∀ i, i < n → prog i = ticketProg hit row D i) (hrow : ∀ i, i < n → (row i).length = D)
    (hout : ∀ x, x < ((List.range n).filter hit).length * D → (m0 (bOut, x)).isSome = true)
    (hcnt : m0 (bCounter, 0) = some 0) :
    (∀ sched, ∃ s, (progGrid64 n prog).exec m0 sched = .ok s ∧ (s.finished → SameCells m0 s.mem ∧
      ∃ order : List Nat, order.Perm ((List.range n).filter hit) ∧
        ∀ o t c x : Nat, order[o]? = some t → (row t)[c]? = some x → s.mem (bOut, o * D + c) = some (castI32 x))) ∧
    ∃ B, ∀ sched s, (∀ t, t < (progGrid64 n prog).threads → B ≤ sched.count t) →
      (progGrid64 n prog).exec m0 sched = .ok s → s.finished := by
  obtain ⟨h1, h2⟩ := grid_bounds hn
  have hC : ((List.range n).filter hit).length ≤ n := by
    have := List.length_filter_le hit (List.range n)
    simpa using this
  obtain ⟨a, b⟩ := tickets_from (n := n) (base := 0) (k := progGrid64 n prog) (m0 := m0) (hit := hit) (row := row) (D := D)
    (by omega) rfl (fun i _ => by
      show n ≤ advance64 (gridSize n) i
      unfold advance64 u32
      rw [Nat.mod_eq_of_lt (by omega)]; omega) (by show n ≤ 256 * gridSize n; omega)
    (fun t ht => threadStart_eq (by have : t < 256 * gridSize n := ht; omega)) hp hrow
    (by simpa using hout) hcnt
  refine ⟨fun sched => ?_, b⟩
  obtain ⟨s, e, h⟩ := a sched
  refine ⟨s, e, fun hf => ?_⟩
  obtain ⟨c1, -, -, order, c2, c3⟩ := h hf
  exact ⟨c1, order, c2, by simpa using c3⟩

end Hodu.Cuda
