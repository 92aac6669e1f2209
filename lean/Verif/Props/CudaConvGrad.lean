import Verif.Lemmas.CudaNested
import Verif.Props.CudaAtomic
import Verif.Props.CudaConv
import Verif.Props.ConvGrad
import Verif.Props.Compress

/-!
# C115: weight gradients of the convolutions on CUDA
-/

namespace Hodu.Cuda

open _root_.Hodu _root_.Hodu.Spec Cuda.Spec

variable {α A V W : Type} [DecidableEq W]

/-- Under every schedule no access of the kernel leaves its buffer; a finished execution has added to every element
`idx` of a tensor of shape `dims`, as `view` reads it, the values `terms idx`, each once, in some order; and the kernel
finishes once every thread has taken enough steps. -/
def Spec.Accumulates (k : Rmw W V) (mem : List W) (view : List W → Nat → Option V) (op : V → V → V) (dims : List Nat)
    (terms : List Nat → List V) : Prop :=
  (∀ sched, ∃ s, k.exec mem sched = .ok s ∧ (s.finished → ∀ idx, InRange idx dims → ∃ ts : List V, ts.Perm (terms idx) ∧
    view s.mem (rowMajor dims idx) = (view mem (rowMajor dims idx)).map fun x => ts.foldl op x)) ∧
  ∃ B, ∀ sched s, (∀ t, t < k.threads → B ≤ sched.count t) → k.exec mem sched = .ok s → s.finished

/-! ## Loops over pairs -/

theorem range_mul_flatMap (n T : Nat) :
    List.range (n * T) = (List.range n).flatMap fun i => (List.range T).map (i * T + ·) := by
  induction n with
  | zero => simp
  | succ n ih =>
    rw [Nat.add_mul, Nat.one_mul, List.range_add, ih, List.range_succ, List.flatMap_append, List.flatMap_singleton]

theorem filterMap_range_get (l : List β) (f : β → Option γ) :
    (List.range l.length).filterMap (fun j => l[j]?.bind f) = l.filterMap f := by
  have h : (List.range l.length).filterMap (fun j => l[j]?) = l := by
    apply List.ext_getElem?
    induction l with
    | nil => simp
    | cons a l ih =>
      intro i
      rw [List.length_cons, List.range_succ_eq_map, List.filterMap_cons_some (b := a) (by simp), List.filterMap_map]
      cases i with
      | zero => simp
      | succ i => simpa using ih i
  conv_rhs => rw [← h]
  rw [List.filterMap_filterMap]

theorem flatMap_range_get (l : List β) (f : β → List γ) :
    (List.range l.length).flatMap (fun j => (l[j]?).elim [] f) = l.flatMap f := by
  induction l with
  | nil => simp
  | cons a l ih =>
    rw [List.length_cons, List.range_succ_eq_map, List.flatMap_cons, List.flatMap_map, List.flatMap_cons, ← ih]
    simp

/-- The operands a cell gets from two nested loops in which every pair makes at most one update. -/
theorem operands_pairs {L1 : List β} {L2 : List γ} (hL2 : L2.Nodup) {stp : β → γ → Option (Nat × Nat × Nat)}
    {val : Nat × Nat × Nat → V} {job : Nat → Nat → Res (Option (Nat × V))}
    (hjob : ∀ i v j u, L1[i]? = some v → L2[j]? = some u →
      job i j = .ok ((stp v u).map fun t => (t.1, val t)))
    {P : Nat} {u0 : γ} (hu0 : u0 ∈ L2) (c : β → Prop) [∀ v, Decidable (c v)]
    (hc : ∀ v ∈ L1, ∀ u ∈ L2, ∀ t, stp v u = some t → (t.1 = P ↔ c v ∧ u = u0)) :
    operands (fun i => job (i / L2.length) (i % L2.length)) P (List.range (L1.length * L2.length)) =
      L1.filterMap fun v => if c v then (stp v u0).map val else none := by
  unfold operands
  rw [range_mul_flatMap, List.filterMap_flatMap, List.filterMap_eq_flatMap_toList, ← flatMap_range_get L1]
  apply List.flatMap_congr
  intro i hi
  have hi := List.mem_range.mp hi
  rw [List.getElem?_eq_getElem hi, List.filterMap_map]
  simp only [Option.elim]
  rw [← filter_inner hL2 hu0 (c L1[i]) (hc _ (List.getElem_mem hi)) (v := val), ← List.filterMap_eq_filter,
    List.filterMap_filterMap, List.map_filterMap, ← filterMap_range_get L2]
  apply List.filterMap_congr
  intro j hj
  have hj := List.mem_range.mp hj
  have hT : 0 < L2.length := by omega
  rw [List.getElem?_eq_getElem hj]
  simp only [Function.comp, Option.bind_some]
  rw [show (i * L2.length + j) / L2.length = i by
      rw [Nat.mul_comm, Nat.mul_add_div hT, Nat.div_eq_of_lt hj, Nat.add_zero],
    show (i * L2.length + j) % L2.length = j by rw [Nat.mul_comm, Nat.mul_add_mod, Nat.mod_eq_of_lt hj],
    hjob i _ j _ (List.getElem?_eq_getElem hi) (List.getElem?_eq_getElem hj)]
  cases stp L1[i] L2[j] with
  | none => rfl
  | some t =>
    by_cases ht : t.1 = P <;> simp [ht, Option.guard]

/-- A nested kernel adds up what its pairs address to every cell. -/
theorem nested_accumulates {L1 : List β} {L2 : List γ} (hL2 : L2.Nodup) {stp : β → γ → Option (Nat × Nat × Nat)}
    {val : Nat × Nat × Nat → V} {job : Nat → Nat → Res (Option (Nat × V))} {N : Nat} {start adv : Nat → Nat}
    (hst : ∀ t, t < N → start t = t) (hadv : ∀ i, i < L1.length → adv i = i + N) (hN : 0 < N)
    (hjob : ∀ i v j u, L1[i]? = some v → L2[j]? = some u →
      job i j = .ok ((stp v u).map fun t => (t.1, val t)))
    {word : Nat → Nat} {upd : Nat → W → V → W} {way : Way} {op : V → V → V} {view : List W → Nat → Option V}
    {P : List W → Prop} {Q : V → Prop} (hC : Cells word upd op view P Q) {mem : List W} (hP : P mem)
    (hQ : ∀ t, Q (val t)) {dims : List Nat} (hin : ∀ c, c < numel dims → (view mem c).isSome)
    (hlt : ∀ v ∈ L1, ∀ u ∈ L2, ∀ t, stp v u = some t → t.1 < numel dims) {terms : List Nat → List V}
    (hterm : ∀ idx, InRange idx dims → ∃ u0 ∈ L2, ∃ (c : β → Prop) (_ : ∀ v, Decidable (c v)),
      (∀ v ∈ L1, ∀ u ∈ L2, ∀ t, stp v u = some t → (t.1 = rowMajor dims idx ↔ c v ∧ u = u0)) ∧
      (L1.filterMap fun v => if c v then (stp v u0).map val else none).Perm (terms idx)) :
    Accumulates (rmwLoops N start adv L1.length L2.length job word upd way) mem view op dims terms := by
  have hok : ∀ idx tap, idx < L1.length → tap < L2.length →
      ∃ o, job idx tap = .ok o ∧ ∀ c v, o = some (c, v) → word c < mem.length := by
    intro i j hi hj
    refine ⟨_, hjob i _ j _ (List.getElem?_eq_getElem hi) (List.getElem?_eq_getElem hj), fun c v e => ?_⟩
    obtain ⟨t, ht, e2⟩ := Option.map_eq_some_iff.mp e
    injection e2 with e2 _
    subst e2
    obtain ⟨x, hx⟩ := Option.isSome_iff_exists.mp
      (hin t.1 (hlt _ (List.getElem_mem hi) _ (List.getElem_mem hj) t ht))
    exact hC.inside mem t.1 x hx
  obtain ⟨h1, h2⟩ := rmwLoops_linearizes hst hadv hN hok (upd := upd) (way := way)
  refine ⟨fun sched => ?_, h2⟩
  obtain ⟨s, e1, _, e3⟩ := h1 sched
  refine ⟨s, e1, fun hfin idx hidx => ?_⟩
  obtain ⟨order, ho, hm⟩ := e3 hfin
  obtain ⟨u0, hu0, c, _, hc, ht⟩ := hterm idx hidx
  refine ⟨operands (fun i => job (i / L2.length) (i % L2.length)) (rowMajor dims idx) order, ?_, ?_⟩
  · refine List.Perm.trans ?_ ht
    rw [← operands_pairs hL2 hjob hu0 c hc]
    exact ho.filterMap _
  · rw [hm]
    refine fold_cells (k := rmwLoops N start adv L1.length L2.length job word upd way) hC order ?_ mem hP _
    intro i hi c' v hv
    have hi := List.mem_range.mp (ho.mem_iff.mp hi)
    have hT : 0 < L2.length := Nat.pos_of_ne_zero fun e => by rw [e] at hi; simp at hi
    have h1 : i / L2.length < L1.length := (Nat.div_lt_iff_lt_mul hT).mpr hi
    have hv : job (i / L2.length) (i % L2.length) = .ok (some (c', v)) := hv
    rw [hjob _ _ _ _ (List.getElem?_eq_getElem h1) (List.getElem?_eq_getElem (Nat.mod_lt i hT))] at hv
    injection hv with hv
    obtain ⟨t, _, e2⟩ := Option.map_eq_some_iff.mp hv
    injection e2 with _ e2
    exact e2 ▸ hQ t

/-! ## The kernels -/

theorem indices_get_inv {dims v : List Nat} {i : Nat} (h : (indices dims)[i]? = some v) :
    InRange v dims ∧ i = rowMajor dims v := by
  unfold indices at h
  rw [List.getElem?_map] at h
  obtain ⟨j, hj, rfl⟩ := Option.map_eq_some_iff.mp h
  obtain ⟨hlt, e⟩ := List.getElem?_eq_some_iff.mp hj
  rw [List.getElem_range] at e
  subst e
  rw [List.length_range] at hlt
  exact ⟨unravel_inRange hlt, (rowMajor_unravel hlt).symm⟩

theorem cUnravel_batch {B Co b oc : Nat} {os o : List Nat} (hoc : oc < Co) (ho : InRange o os) :
    cUnravel (Co :: os) (rowMajor (B :: Co :: os) (b :: oc :: o)) = (oc :: o, b) := by
  have hr : InRange (oc :: o) (Co :: os) := ⟨hoc, ho⟩
  rw [cUnravel_eq, rowMajor]
  have hlt := rowMajor_lt hr
  rw [Nat.add_comm, Nat.add_mul_mod_self_right, Nat.mod_eq_of_lt hlt,
    Nat.add_mul_div_right _ _ (by omega), Nat.div_eq_of_lt hlt, unravel_rowMajor hr]
  simp

/-- The product of two elements, as the kernels compute it. -/
def gradVal [Inhabited A] (mul : A → A → A) (ld : α → A) (st : A → V) (x g : List α) (t : Nat × Nat × Nat) : V :=
  st (prodAt default mul (x.map ld) (g.map ld) t.2.1 t.2.2)

theorem gradVal_eq [Inhabited A] {mul : A → A → A} {ld : α → A} {st : A → V} {x g : List α} {c i j : Nat} {a b : α}
    (h1 : readC x i = .ok a) (h2 : readC g j = .ok b) : gradVal mul ld st x g (c, i, j) = st (mul (ld a) (ld b)) := by
  unfold gradVal
  have h : ∀ {l : List α} {i a}, readC l i = .ok a → readC (l.map ld) i = .ok (ld a) := fun h => by
    rw [readC_eq_ok, List.getElem?_map, readC_eq_ok.mp h]
    rfl
  rw [prodAt_eq (h h1) (h h2)]

/-- Weight gradient of the convolution: what the kernel adds to the weights. -/
theorem convGrad_accumulates [Inhabited A] {x g : Tensor α} {X G : List Nat → α} (mul : A → A → A) (ld : α → A)
    (st : A → V) {s p d B Ci Co N : Nat} {ns ks os : List Nat} (hx : Reads x X) (hg : Reads g G) (px : Packed x)
    (dx : x.dims = B :: Ci :: ns) (dg : g.dims = B :: Co :: os) (hk : ks.length = ns.length)
    (ho : os.length = ns.length) (hp : p < 2 ^ 31) (hf : Fits s d os ks ns) {T : Nat} {start adv : Nat → Nat}
    (hst : ∀ t, t < T → start t = t) (hadv : ∀ i, i < numel (B :: Co :: os) → adv i = i + T) (hT : 0 < T)
    {word : Nat → Nat} {upd : Nat → W → V → W} {way : Way} {op : V → V → V} {view : List W → Nat → Option V}
    {P : List W → Prop} {Q : V → Prop} (hC : Cells word upd op view P Q) {mem : List W} (hP : P mem)
    (hQ : ∀ a, Q (st a)) (hin : ∀ c, c < numel (Co :: Ci :: ks) → (view mem c).isSome) :
    Accumulates (rmwLoops T start adv (numel (B :: Co :: os)) (numel (Ci :: ks)) (gradJobCuda mul ld st x.storage g.storage
        ⟨N, B, Ci, Co, mkAxes s p d ns ks os, g.layout.strides, x.layout.offset, g.layout.offset⟩) word upd way)
      mem view op (Co :: Ci :: ks) fun idx => (gradWTerms mul s p d B ns os (fun i => ld (X i)) (fun i => ld (G i))
        (idx.getD 0 0) (idx.getD 1 0) (idx.drop 2)).map st := by
  have hgr' : ∀ b oc o, b < B → oc < Co → InRange o os →
      readC g.storage (g.layout.offset + dot (b :: oc :: o) g.layout.strides) = .ok (G (b :: oc :: o)) :=
    fun b oc o h1 h2 h3 => readC_eq_ok.mpr (hg _ (by rw [dg]; exact ⟨h1, h2, h3⟩))
  have hxr : ∀ b ic i, b < B → ic < Ci → InRange i ns →
      readC x.storage (x.layout.offset + cOffset (Ci :: ns) (b :: ic :: i)) = .ok (X (b :: ic :: i)) :=
    fun b ic i h1 h2 h3 => packed_read hx px dx (by rw [dx]; exact ⟨h1, h2, h3⟩)
  have hwi : ∀ oc ic k, InRange k ks → cOffset (Ci :: ks) (oc :: ic :: k) =
      rowMajor (Co :: Ci :: ks) (oc :: ic :: k) := fun oc ic k h => cOffset_cons (by simp [h.length])
  rw [← indices_length (B :: Co :: os), ← indices_length (Ci :: ks)]
  refine nested_accumulates (indices_nodup _)
    (stp := gradStp s p d Ci ns ks g.layout.strides x.layout.offset g.layout.offset)
    (val := gradVal mul ld st x.storage g.storage) hst
    (by rwa [indices_length]) hT ?_ hC hP (fun t => hQ _) hin ?_ ?_
  · intro i v j u hv hu
    obtain ⟨hv2, rfl⟩ := indices_get_inv hv
    have hu2 := (indices_get_inv hu).1
    obtain ⟨b, oc, o, rfl, h1, h2, h3⟩ := inRange_cons2 hv2
    cases u with
    | nil => exact hu2.elim
    | cons ic k =>
      obtain ⟨h4, h5⟩ := hu2
      unfold gradJobCuda
      dsimp only
      rw [mkAxes_o hk ho, cUnravel_batch h2 h3]
      dsimp only
      rw [cFlat_eq, hgr' b oc o h1 h2 h3, Res.ok_bind, mkAxes_k hk ho, loops_eq, readC_eq_ok.mpr hu, Res.ok_bind]
      simp only [gradStp]
      rw [cTaps_n hp hf ho.symm h3 h5 (by omega), Res.ok_bind]
      cases ht : tapIndex s p d ns o k with
      | none => rfl
      | some i =>
        simp only [Option.map_some]
        rw [mkAxes_n hk ho, hxr b ic i h1 h4 (tapIndex_inRange ht), Res.ok_bind,
          gradVal_eq (hxr b ic i h1 h4 (tapIndex_inRange ht)) (hgr' b oc o h1 h2 h3)]
  · intro v hv u hu t ht
    obtain ⟨b, oc, o, rfl, h1, h2, h3⟩ := inRange_cons2 (mem_indices.mp hv)
    have hu := mem_indices.mp hu
    cases u with
    | nil => exact hu.elim
    | cons ic k =>
      obtain ⟨h4, h5⟩ := hu
      obtain ⟨i, hi, rfl⟩ := Option.map_eq_some_iff.mp ht
      dsimp only
      rw [hwi oc ic k h5]
      exact rowMajor_lt (dims := Co :: Ci :: ks) (idx := oc :: ic :: k) ⟨h2, h4, h5⟩
  · intro idx hidx
    obtain ⟨oc, ic, k, rfl, hoc, hic, hki⟩ := inRange_cons2 hidx
    refine ⟨ic :: k, mem_indices.mpr ⟨hic, hki⟩, fun v => v.getD 1 0 = oc, fun v => inferInstance, ?_, ?_⟩
    · intro v hv u hu t ht
      obtain ⟨b, oc', o, rfl, h1, h2, h3⟩ := inRange_cons2 (mem_indices.mp hv)
      have hu := mem_indices.mp hu
      cases u with
      | nil => exact hu.elim
      | cons ic' k' =>
        obtain ⟨h4, h5⟩ := hu
        obtain ⟨i, hi, rfl⟩ := Option.map_eq_some_iff.mp ht
        dsimp only
        rw [hwi oc' ic' k' h5]
        constructor
        · intro h
          have := rowMajor_inj (dims := Co :: Ci :: ks) (a := oc' :: ic' :: k') ⟨h2, h4, h5⟩ hidx h
          simpa using this
        · rintro ⟨h, h'⟩
          simp only [List.getD_cons_succ, List.getD_cons_zero] at h
          rw [h, h']
    · apply List.Perm.of_eq
      rw [filterMap_indices_cons]
      unfold gradWTerms
      rw [List.map_flatMap]
      apply List.flatMap_congr
      intro b hb
      rw [filterMap_outer hoc (by intro b' r hne; simp [hne]), List.map_filterMap]
      apply List.filterMap_congr
      intro o hoi
      have hoi := mem_indices.mp hoi
      simp only [List.getD_cons_succ, List.getD_cons_zero, if_true, gradStp, List.drop_succ_cons, List.drop_zero]
      cases ht : tapIndex s p d ns o k with
      | none => rfl
      | some i =>
        simp only [Option.map_some]
        rw [gradVal_eq (hxr b ic i (List.mem_range.mp hb) hic (tapIndex_inRange ht))
          (hgr' b oc o (List.mem_range.mp hb) hoc hoi)]

/-- The order in which a partial bijection is enumerated does not matter. -/
theorem filterMap_swap {L : List β} {M : List γ} (hL : L.Nodup) (hM : M.Nodup) {fwd : β → Option γ} {bwd : γ → Option β}
    (h : ∀ a ∈ L, ∀ b, fwd a = some b → b ∈ M ∧ bwd b = some a)
    (h' : ∀ b ∈ M, ∀ a, bwd b = some a → a ∈ L ∧ fwd a = some b) (f : β → γ → δ) :
    (L.filterMap fun a => (fwd a).map (f a)).Perm (M.filterMap fun b => (bwd b).map fun a => f a b) := by
  have e1 : (L.filterMap fun a => (fwd a).map (f a)) =
      (L.filterMap fun a => (fwd a).map fun b => (a, b)).map fun q => f q.1 q.2 := by
    rw [List.map_filterMap]
    apply List.filterMap_congr
    intro a _
    cases fwd a <;> rfl
  have e2 : (M.filterMap fun b => (bwd b).map fun a => f a b) =
      (M.filterMap fun b => (bwd b).map fun a => (a, b)).map fun q => f q.1 q.2 := by
    rw [List.map_filterMap]
    apply List.filterMap_congr
    intro a _
    cases bwd a <;> rfl
  rw [e1, e2]
  apply List.Perm.map
  rw [List.perm_ext_iff_of_nodup]
  · rintro ⟨a, b⟩
    simp only [List.mem_filterMap, Option.map_eq_some_iff, Prod.mk.injEq]
    constructor
    · rintro ⟨_, ha, _, hb, rfl, rfl⟩
      exact ⟨_, (h _ ha _ hb).1, _, (h _ ha _ hb).2, rfl, rfl⟩
    · rintro ⟨_, hb, _, ha, rfl, rfl⟩
      exact ⟨_, (h' _ hb _ ha).1, _, (h' _ hb _ ha).2, rfl, rfl⟩
  · refine List.Nodup.filterMap ?_ hL
    intro a a' q hq hq'
    obtain ⟨_, _, rfl⟩ := Option.map_eq_some_iff.mp (Option.mem_def.mp hq)
    obtain ⟨_, _, e⟩ := Option.map_eq_some_iff.mp (Option.mem_def.mp hq')
    exact (congrArg Prod.fst e).symm
  · refine List.Nodup.filterMap ?_ hM
    intro a a' q hq hq'
    obtain ⟨_, _, rfl⟩ := Option.map_eq_some_iff.mp (Option.mem_def.mp hq)
    obtain ⟨_, _, e⟩ := Option.map_eq_some_iff.mp (Option.mem_def.mp hq')
    exact (congrArg Prod.snd e).symm

theorem tap_back {s p d : Nat} (hs : 0 < s) {ns os k o i : List Nat} (hk : k.length = ns.length)
    (ho : os.length = ns.length) :
    (InRange o os ∧ backIndex s p d ns o k = some i) ↔ (InRange i ns ∧ tapIndex s p d os i k = some o) := by
  constructor
  · rintro ⟨h1, h2⟩
    have hl := h1.length
    obtain ⟨h3, h4⟩ := (backIndex_eq_some hs (by omega) hk).mp h2
    have hl2 := h3.length
    refine ⟨h3, (tapIndex_eq_some (by omega) (by omega)).mpr ⟨h1, fun j hj => ?_⟩⟩
    have := h4 j (by omega)
    omega
  · rintro ⟨h1, h2⟩
    have hl := h1.length
    obtain ⟨h3, h4⟩ := (tapIndex_eq_some (by omega) (by omega)).mp h2
    have hl2 := h3.length
    refine ⟨h3, (backIndex_eq_some hs (by omega) hk).mpr ⟨h1, fun j hj => ?_⟩⟩
    have := h4 j (by omega)
    omega

/-- One turn of `gradTJobCuda` as a step. -/
def gradBStp (s p d Ci Co : Nat) (ns ks gs : List Nat) (xo go : Nat) : List Nat → List Nat →
    Option (Nat × Nat × Nat)
  | b :: oc :: o, ic :: k => (backIndex s p d ns o k).map fun i =>
      (cOffset (Co :: ks) (ic :: oc :: k), xo + cOffset (Ci :: ns) (b :: ic :: i),
        go + dot (b :: oc :: o) gs)
  | _, _ => none

/-- Weight gradient of the transposed convolution: what the kernel adds to the weights. -/
theorem convTGrad_accumulates [Inhabited A] {x g : Tensor α} {X G : List Nat → α} (mul : A → A → A) (ld : α → A)
    (st : A → V) {s p d B Ci Co N : Nat} {ns ks os : List Nat} (hx : Reads x X) (hg : Reads g G) (px : Packed x)
    (dx : x.dims = B :: Ci :: ns) (dg : g.dims = B :: Co :: os) (hk : ks.length = ns.length)
    (ho : os.length = ns.length) (hs : 0 < s) (hs' : s < 2 ^ 31)
    (hf : BackFits p d ns ks os) {T : Nat} {start adv : Nat → Nat}
    (hst : ∀ t, t < T → start t = t) (hadv : ∀ i, i < numel (B :: Co :: os) → adv i = i + T) (hT : 0 < T)
    {word : Nat → Nat} {upd : Nat → W → V → W} {way : Way} {op : V → V → V} {view : List W → Nat → Option V}
    {P : List W → Prop} {Q : V → Prop} (hC : Cells word upd op view P Q) {mem : List W} (hP : P mem)
    (hQ : ∀ a, Q (st a)) (hin : ∀ c, c < numel (Ci :: Co :: ks) → (view mem c).isSome) :
    Accumulates (rmwLoops T start adv (numel (B :: Co :: os)) (numel (Ci :: ks)) (gradTJobCuda mul ld st x.storage g.storage
        ⟨N, B, Ci, Co, mkAxes s p d ns ks os, g.layout.strides, x.layout.offset, g.layout.offset⟩) word upd way)
      mem view op (Ci :: Co :: ks) fun idx => (gradWTTerms mul s p d B ns os (fun i => ld (X i)) (fun i => ld (G i))
        (idx.getD 0 0) (idx.getD 1 0) (idx.drop 2)).map st := by
  have hgr' : ∀ b oc o, b < B → oc < Co → InRange o os →
      readC g.storage (g.layout.offset + dot (b :: oc :: o) g.layout.strides) = .ok (G (b :: oc :: o)) :=
    fun b oc o h1 h2 h3 => readC_eq_ok.mpr (hg _ (by rw [dg]; exact ⟨h1, h2, h3⟩))
  have hxr : ∀ b ic i, b < B → ic < Ci → InRange i ns →
      readC x.storage (x.layout.offset + cOffset (Ci :: ns) (b :: ic :: i)) = .ok (X (b :: ic :: i)) :=
    fun b ic i h1 h2 h3 => packed_read hx px dx (by rw [dx]; exact ⟨h1, h2, h3⟩)
  have hwi : ∀ ic oc k, InRange k ks → cOffset (Co :: ks) (ic :: oc :: k) =
      rowMajor (Ci :: Co :: ks) (ic :: oc :: k) := fun ic oc k h => cOffset_cons (by simp [h.length])
  rw [← indices_length (B :: Co :: os), ← indices_length (Ci :: ks)]
  refine nested_accumulates (indices_nodup _)
    (stp := gradBStp s p d Ci Co ns ks g.layout.strides x.layout.offset g.layout.offset)
    (val := gradVal mul ld st x.storage g.storage) hst
    (by rwa [indices_length]) hT ?_ hC hP (fun t => hQ _) hin ?_ ?_
  · intro i v j u hv hu
    obtain ⟨hv2, rfl⟩ := indices_get_inv hv
    have hu2 := (indices_get_inv hu).1
    obtain ⟨b, oc, o, rfl, h1, h2, h3⟩ := inRange_cons2 hv2
    cases u with
    | nil => exact hu2.elim
    | cons ic k =>
      obtain ⟨h4, h5⟩ := hu2
      unfold gradTJobCuda
      dsimp only
      rw [mkAxes_o hk ho, cUnravel_batch h2 h3]
      dsimp only
      rw [cFlat_eq, hgr' b oc o h1 h2 h3, Res.ok_bind, mkAxes_k hk ho, loops_eq, readC_eq_ok.mpr hu, Res.ok_bind]
      simp only [gradBStp]
      rw [backTaps_eq hs hs' hf ho.symm h3 h5 (by omega), Res.ok_bind]
      cases ht : backIndex s p d ns o k with
      | none => rfl
      | some i =>
        simp only [Option.map_some]
        rw [mkAxes_n hk ho, hxr b ic i h1 h4 (backIndex_inRange ht), Res.ok_bind,
          gradVal_eq (hxr b ic i h1 h4 (backIndex_inRange ht)) (hgr' b oc o h1 h2 h3)]
  · intro v hv u hu t ht
    obtain ⟨b, oc, o, rfl, h1, h2, h3⟩ := inRange_cons2 (mem_indices.mp hv)
    have hu := mem_indices.mp hu
    cases u with
    | nil => exact hu.elim
    | cons ic k =>
      obtain ⟨h4, h5⟩ := hu
      obtain ⟨i, hi, rfl⟩ := Option.map_eq_some_iff.mp ht
      dsimp only
      rw [hwi ic oc k h5]
      exact rowMajor_lt (dims := Ci :: Co :: ks) (idx := ic :: oc :: k) ⟨h4, h2, h5⟩
  · intro idx hidx
    obtain ⟨ic, oc, k, rfl, hic, hoc, hki⟩ := inRange_cons2 hidx
    refine ⟨ic :: k, mem_indices.mpr ⟨hic, hki⟩, fun v => v.getD 1 0 = oc, fun v => inferInstance, ?_, ?_⟩
    · intro v hv u hu t ht
      obtain ⟨b, oc', o, rfl, h1, h2, h3⟩ := inRange_cons2 (mem_indices.mp hv)
      have hu := mem_indices.mp hu
      cases u with
      | nil => exact hu.elim
      | cons ic' k' =>
        obtain ⟨h4, h5⟩ := hu
        obtain ⟨i, hi, rfl⟩ := Option.map_eq_some_iff.mp ht
        dsimp only
        rw [hwi ic' oc' k' h5]
        constructor
        · intro h
          have := rowMajor_inj (dims := Ci :: Co :: ks) (a := ic' :: oc' :: k') ⟨h4, h2, h5⟩ hidx h
          simp only [List.cons.injEq] at this
          simp [this]
        · rintro ⟨h, h'⟩
          simp only [List.getD_cons_succ, List.getD_cons_zero] at h
          injection h' with e1 e2
          rw [h, e1, e2]
    · rw [filterMap_indices_cons]
      unfold gradWTTerms
      rw [List.map_flatMap]
      apply List.Perm.flatMap_left
      intro b hb
      rw [filterMap_outer hoc (by intro b' r hne; simp [hne]), List.map_filterMap]
      have hkl := hki.length
      have := filterMap_swap (indices_nodup os) (indices_nodup ns) (fwd := fun o => backIndex s p d ns o k)
        (bwd := fun i => tapIndex s p d os i k)
        (fun o ho' i hi => by
          obtain ⟨h1, h2⟩ := (tap_back hs (by omega) ho).mp ⟨mem_indices.mp ho', hi⟩
          exact ⟨mem_indices.mpr h1, h2⟩)
        (fun i hi' o ho' => by
          obtain ⟨h1, h2⟩ := (tap_back hs (by omega) ho).mpr ⟨mem_indices.mp hi', ho'⟩
          exact ⟨mem_indices.mpr h1, h2⟩)
        (fun o i => st (mul (ld (X (b :: ic :: i))) (ld (G (b :: oc :: o)))))
      refine List.Perm.trans (List.Perm.of_eq ?_) (this.trans (List.Perm.of_eq ?_))
      · apply List.filterMap_congr
        intro o hoi
        have hoi := mem_indices.mp hoi
        simp only [List.getD_cons_succ, List.getD_cons_zero, if_true, gradBStp]
        cases ht : backIndex s p d ns o k with
        | none => rfl
        | some i =>
          simp only [Option.map_some]
          rw [gradVal_eq (hxr b ic i (List.mem_range.mp hb) hic (backIndex_inRange ht))
            (hgr' b oc o (List.mem_range.mp hb) hoc hoi)]
      · apply List.filterMap_congr
        intro i _
        simp only [List.getD_cons_succ, List.getD_cons_zero, List.drop_succ_cons, List.drop_zero]
        cases tapIndex s p d os i k <;> rfl

/-! ## The launches -/

/-- C115, convolution.  For every update of cells in memory, all floating types, sizes and contents of the buffer: the
launch adds to what is in the buffer the products of the weight gradient, each once.  Missing: the buffer is not
initialised (`C115_garbage`), other element types (`C115_types`), 8-bit floats (`C105_f8_wrong`), more than `2 ^ 32`
elements. -/
theorem C115_conv_partial [Inhabited A] {ty : DType} (hty : ty ∈ convTypes) {nsp : Nat} (h3 : nsp = 1 ∨ nsp = 2 ∨ nsp = 3)
    {x g : Tensor α} {X G : List Nat → α} (mul : A → A → A) (ld : α → A) (st : A → V) {s p d B Ci Co : Nat}
    {ns ks os : List Nat} (hx : Reads x X) (hg : Reads g G) (px : Packed x) (hxs : x.layout.strides.length = x.dims.length)
    (hgs : g.layout.strides.length = g.dims.length) (dx : x.dims = B :: Ci :: ns) (dg : g.dims = B :: Co :: os)
    (hn : ns.length = nsp) (hk : ks.length = nsp) (ho : os.length = nsp) (hp : p < 2 ^ 31) (hf : Fits s d os ks ns)
    (hsz : numel (B :: Co :: os) + 256 * gridSize (numel (Co :: Ci :: ks)) ≤ 2 ^ 32)
    {word : Nat → Nat} {upd : Nat → W → V → W} (way : Way) {op : V → V → V} {view : List W → Nat → Option V}
    {P : List W → Prop} {Q : V → Prop} (hC : Cells word upd op view P Q) (hQ : ∀ a, Q (st a)) :
    ∃ k, convGradWCuda ty (gradJobCuda mul ld st x.storage g.storage) word upd way nsp x.layout g.layout
        (Co :: Ci :: ks) s p d = .ok ⟨k, numel (Co :: Ci :: ks), Co :: Ci :: ks⟩ ∧
      ∀ mem : List W, P mem → (∀ c, c < numel (Co :: Ci :: ks) → (view mem c).isSome) →
        Accumulates k mem view op (Co :: Ci :: ks) fun idx => (gradWTerms mul s p d B ns os (fun i => ld (X i))
          (fun i => ld (G i)) (idx.getD 0 0) (idx.getD 1 0) (idx.drop 2)).map st := by
  refine ⟨_, ?_, fun mem hP hin => convGrad_accumulates (N := numel (Co :: Ci :: ks)) mul ld st hx hg px dx dg
    (by omega) (by omega) hp hf (grid_steps hsz).1 (grid_steps hsz).2
    (by unfold gridSize; omega) hC (way := way) hP hQ hin⟩
  unfold convGradWCuda gradLoopCuda
  rw [if_neg (by
      rw [show x.layout.dims = B :: Ci :: ns from dx, show g.layout.dims = B :: Co :: os from dg]; simp; omega),
    if_neg (by simpa using hty), decodeConvGrad_metadata h3 (show x.layout.dims = B :: Ci :: ns from dx)
      (show g.layout.dims = B :: Co :: os from dg) (ks := ks) rfl (by simp; omega) hxs hgs hn ho, Res.ok_bind, Res.ok_bind]
  dsimp only
  rw [mkAxes_o (by omega) (by omega), mkAxes_k (by omega) (by omega), loops_eq, indices_length, shapeSize_eq, shapeSize_eq]
  rfl

/-- C115, transposed convolution, as `C115_conv_partial`; the products are those the CPU adds up, although the kernel
runs over the output gradient. -/
theorem C115_convT_partial [Inhabited A] {ty : DType} (hty : ty ∈ convTypes) {nsp : Nat}
    (h3 : nsp = 1 ∨ nsp = 2 ∨ nsp = 3) {x g : Tensor α} {X G : List Nat → α} (mul : A → A → A) (ld : α → A) (st : A → V)
    {s p d B Ci Co : Nat} {ns ks os : List Nat} (hx : Reads x X) (hg : Reads g G) (px : Packed x)
    (hxs : x.layout.strides.length = x.dims.length) (hgs : g.layout.strides.length = g.dims.length)
    (dx : x.dims = B :: Ci :: ns) (dg : g.dims = B :: Co :: os) (hn : ns.length = nsp) (hk : ks.length = nsp)
    (ho : os.length = nsp) (hs : 0 < s) (hs' : s < 2 ^ 31) (hf : BackFits p d ns ks os)
    (hsz : numel (B :: Co :: os) + 256 * gridSize (numel (Ci :: Co :: ks)) ≤ 2 ^ 32)
    {word : Nat → Nat} {upd : Nat → W → V → W} (way : Way) {op : V → V → V} {view : List W → Nat → Option V}
    {P : List W → Prop} {Q : V → Prop} (hC : Cells word upd op view P Q) (hQ : ∀ a, Q (st a)) :
    ∃ k, convGradWCuda ty (gradTJobCuda mul ld st x.storage g.storage) word upd way nsp x.layout g.layout
        (Ci :: Co :: ks) s p d = .ok ⟨k, numel (Ci :: Co :: ks), Ci :: Co :: ks⟩ ∧
      ∀ mem : List W, P mem → (∀ c, c < numel (Ci :: Co :: ks) → (view mem c).isSome) →
        Accumulates k mem view op (Ci :: Co :: ks) fun idx => (gradWTTerms mul s p d B ns os (fun i => ld (X i))
          (fun i => ld (G i)) (idx.getD 0 0) (idx.getD 1 0) (idx.drop 2)).map st := by
  refine ⟨_, ?_, fun mem hP hin => convTGrad_accumulates (N := numel (Ci :: Co :: ks)) mul ld st hx hg px dx dg
    (by omega) (by omega) hs hs' hf (grid_steps hsz).1 (grid_steps hsz).2
    (by unfold gridSize; omega) hC (way := way) hP hQ hin⟩
  unfold convGradWCuda gradLoopCuda
  rw [if_neg (by
      rw [show x.layout.dims = B :: Ci :: ns from dx, show g.layout.dims = B :: Co :: os from dg]; simp; omega),
    if_neg (by simpa using hty), decodeConvGrad_metadata h3 (show x.layout.dims = B :: Ci :: ns from dx)
      (show g.layout.dims = B :: Co :: os from dg) (ks := ks) rfl (by simp; omega) hxs hgs hn ho, Res.ok_bind, Res.ok_bind]
  dsimp only
  rw [mkAxes_o (by omega) (by omega), mkAxes_k (by omega) (by omega), loops_eq, indices_length, shapeSize_eq, shapeSize_eq]
  rfl

/-- In every finished execution each element holds what the buffer held before plus the element of `r`. -/
def Spec.AddsTo [Add A] [DecidableEq A] (k : Rmw A A) (r : Tensor A) : Prop :=
  ∀ (mem : List A), numel r.dims ≤ mem.length →
    (∀ sched, ∃ s, k.exec mem sched = .ok s ∧ (s.finished → ∀ idx, InRange idx r.dims → ∃ a e,
      mem[rowMajor r.dims idx]? = some a ∧ r.elem idx = some e ∧ s.mem[rowMajor r.dims idx]? = some (a + e))) ∧
    ∃ B, ∀ sched s, (∀ t, t < k.threads → B ≤ sched.count t) → k.exec mem sched = .ok s → s.finished

theorem accumulates_adds [CommSemiring A] [DecidableEq A] {k : Rmw A A} {r : Tensor A} {terms : List Nat → List A}
    (h : ∀ mem : List A, (∀ c, c < numel r.dims → (mem[c]?).isSome) →
      Accumulates k mem (fun mem c => mem[c]?) (· + ·) r.dims terms)
    (hr : ∀ idx, InRange idx r.dims → r.elem idx = some ((terms idx).foldl (· + ·) 0)) : AddsTo k r := by
  intro mem hl
  obtain ⟨h1, h2⟩ := h mem fun c hc => by rw [List.getElem?_eq_getElem (by omega)]; rfl
  refine ⟨fun sched => ?_, h2⟩
  obtain ⟨s, e1, e2⟩ := h1 sched
  refine ⟨s, e1, fun hf idx hi => ?_⟩
  obtain ⟨ts, hp, hv⟩ := e2 hf idx hi
  have hlt := rowMajor_lt hi
  refine ⟨mem[rowMajor r.dims idx], _, List.getElem?_eq_getElem (by omega), hr idx hi, ?_⟩
  dsimp only at hv
  rw [List.getElem?_eq_getElem (l := mem) (by omega)] at hv
  simp only [Option.map_some] at hv
  rw [hv, foldl_sum, foldl_sum, hp.sum_eq, zero_add]

/-- The weight gradient of the convolution on CUDA, for a commutative semiring: the buffer plus what the CPU computes. -/
theorem C115_conv_adds [CommSemiring A] [DecidableEq A] {ty : DType} (hty : ty ∈ convTypes) {nsp : Nat}
    (h3 : nsp = 1 ∨ nsp = 2 ∨ nsp = 3) {x g : Tensor A} {X G : List Nat → A} {s p d B Ci Co : Nat} {ns ks os : List Nat}
    (hx : Reads x X) (hg : Reads g G) (px : Packed x) (hxs : x.layout.strides.length = x.dims.length)
    (hgs : g.layout.strides.length = g.dims.length) (dx : x.dims = B :: Ci :: ns) (dg : g.dims = B :: Co :: os)
    (hn : ns.length = nsp) (hk : ks.length = nsp) (ho : os.length = nsp) (hp : p < 2 ^ 31) (hf : Fits s d os ks ns)
    (hsz : numel (B :: Co :: os) + 256 * gridSize (numel (Co :: Ci :: ks)) ≤ 2 ^ 32) (way : Way) :
    ∃ k r, convGradWCuda ty (gradJobCuda (· * ·) id id x.storage g.storage) (fun c => c) (fun _ => (· + ·)) way nsp
        x.layout g.layout (Co :: Ci :: ks) s p d = .ok ⟨k, numel (Co :: Ci :: ks), Co :: Ci :: ks⟩ ∧
      x.convGradW 0 (· + ·) (· * ·) nsp g (Co :: Ci :: ks) s p d = .ok r ∧ r.dims = Co :: Ci :: ks ∧
      AddsTo k r := by
  have : Inhabited A := ⟨0⟩
  obtain ⟨k, e1, e2⟩ := C115_conv_partial (A := A) (V := A) (W := A) hty h3 (· * ·) id id hx hg px hxs hgs dx dg hn hk ho
    hp hf hsz way (C105_words (· + ·)) (fun _ => trivial)
  obtain ⟨out, g1, g2, g3⟩ := convGradKernel_ok (0 : A) (· + ·) (· * ·) hx hg px dx dg (by omega) (by omega) hp hf
    (decodeConvGrad_metadata h3 (show x.layout.dims = B :: Ci :: ns from dx)
      (show g.layout.dims = B :: Co :: os from dg) (ks := ks) (wd := Co :: Ci :: ks) (s := s) (p := p) (d := d) rfl
      (by simp; omega) hxs hgs hn ho)
  refine ⟨k, ⟨out, Layout.fromShape (Co :: Ci :: ks)⟩, e1, ?_, rfl, accumulates_adds (e2 · trivial) ?_⟩
  · unfold Tensor.convGradW
    rw [if_neg (by rw [dx, dg]; simp; omega), g1]
    rfl
  · intro idx hi
    obtain ⟨oc, ic, k', rfl, h1, h2, h4⟩ := inRange_cons2 (show InRange idx (Co :: Ci :: ks) from hi)
    unfold Layout.fromShape
    rw [elem_rowMajor, Nat.zero_add, g3 oc ic k' h1 h2 h4]
    simp

/-- The same for the transposed convolution. -/
theorem C115_convT_adds [CommSemiring A] [DecidableEq A] {ty : DType} (hty : ty ∈ convTypes) {nsp : Nat}
    (h3 : nsp = 1 ∨ nsp = 2 ∨ nsp = 3) {x g : Tensor A} {X G : List Nat → A} {s p d B Ci Co : Nat} {ns ks os : List Nat}
    (hx : Reads x X) (hg : Reads g G) (px : Packed x) (hxs : x.layout.strides.length = x.dims.length)
    (hgs : g.layout.strides.length = g.dims.length) (dx : x.dims = B :: Ci :: ns) (dg : g.dims = B :: Co :: os)
    (hn : ns.length = nsp) (hk : ks.length = nsp) (ho : os.length = nsp) (hs : 0 < s) (hs' : s < 2 ^ 31) (hp : p < 2 ^ 31)
    (hf : Fits s d ns ks os) (hb : BackFits p d ns ks os)
    (hsz : numel (B :: Co :: os) + 256 * gridSize (numel (Ci :: Co :: ks)) ≤ 2 ^ 32) (way : Way) :
    ∃ k r, convGradWCuda ty (gradTJobCuda (· * ·) id id x.storage g.storage) (fun c => c) (fun _ => (· + ·)) way nsp
        x.layout g.layout (Ci :: Co :: ks) s p d = .ok ⟨k, numel (Ci :: Co :: ks), Ci :: Co :: ks⟩ ∧
      x.convTGradW 0 (· + ·) (· * ·) nsp g (Ci :: Co :: ks) s p d = .ok r ∧ r.dims = Ci :: Co :: ks ∧
      AddsTo k r := by
  have : Inhabited A := ⟨0⟩
  obtain ⟨k, e1, e2⟩ := C115_convT_partial (A := A) (V := A) (W := A) hty h3 (· * ·) id id hx hg px hxs hgs dx dg hn hk ho
    hs hs' hb hsz way (C105_words (· + ·)) (fun _ => trivial)
  obtain ⟨out, g1, g2, g3⟩ := convTGradKernel_ok (0 : A) (· + ·) (· * ·) hx hg px dx dg (by omega) (by omega) hp hf
    (decodeConvGrad_metadata h3 (show x.layout.dims = B :: Ci :: ns from dx)
      (show g.layout.dims = B :: Co :: os from dg) (ks := ks) (wd := Ci :: Co :: ks) (s := s) (p := p) (d := d) rfl
      (by simp; omega) hxs hgs hn ho)
  refine ⟨k, ⟨out, Layout.fromShape (Ci :: Co :: ks)⟩, e1, ?_, rfl, accumulates_adds (e2 · trivial) ?_⟩
  · unfold Tensor.convTGradW
    rw [if_neg (by rw [dx, dg]; simp; omega), g1]
    rfl
  · intro idx hi
    obtain ⟨ic, oc, k', rfl, h1, h2, h4⟩ := inRange_cons2 (show InRange idx (Ci :: Co :: ks) from hi)
    unfold Layout.fromShape
    rw [elem_rowMajor, Nat.zero_add, g3 ic oc k' h1 h2 h4]
    simp

/-- Such a kernel gives the tensor of the CPU exactly if the buffer it finds is zero. -/
theorem C115_garbage [CommRing A] [DecidableEq A] {k : Rmw A A} {r : Tensor A} (h : AddsTo k r) {mem : List A}
    (hl : mem.length = numel r.dims) {sched : List Nat} {s : RSt A A} (he : k.exec mem sched = .ok s) (hf : s.finished) :
    (∀ idx, InRange idx r.dims → s.mem[rowMajor r.dims idx]? = r.elem idx) ↔ mem = List.replicate (numel r.dims) 0 := by
  obtain ⟨s', e1, e2⟩ := (h mem hl.ge).1 sched
  rw [he] at e1
  injection e1 with e1
  subst e1
  constructor
  · intro hall
    apply List.ext_getElem (by simpa using hl)
    intro i h1 h2
    have hi : i < numel r.dims := by omega
    obtain ⟨a, e, a1, a2, a3⟩ := e2 hf (unravel r.dims i) (unravel_inRange hi)
    rw [hall _ (unravel_inRange hi), a2] at a3
    injection a3 with a3
    rw [rowMajor_unravel hi, List.getElem?_eq_getElem h1] at a1
    injection a1 with a1
    rw [a1, List.getElem_replicate]
    exact left_eq_add.mp (by rw [add_comm]; exact a3)
  · intro hz idx hi
    obtain ⟨a, e, a1, a2, a3⟩ := e2 hf idx hi
    have hlt := rowMajor_lt hi
    rw [hz, List.getElem?_replicate, if_pos hlt] at a1
    injection a1 with a1
    rw [a3, a2, ← a1, zero_add]

/-- The claim: whatever is in the fresh buffer, a finished execution leaves the gradient of the CPU. -/
def Spec.GradWCudaCorrect : Prop :=
  ∀ (x g r : Tensor Int) (wdims : List Nat) (s p d : Nat) (l : GradLaunch Int Int),
    convGradWCuda .f32 (gradJobCuda (· * ·) id id x.storage g.storage) (fun c => c) (fun _ => (· + ·)) .single 1
      x.layout g.layout wdims s p d = .ok l →
    x.convGradW 0 (· + ·) (· * ·) 1 g wdims s p d = .ok r →
    ∀ mem, mem.length = l.len → ∀ sched s, l.kernel.exec mem sched = .ok s → s.finished → s.mem = r.storage

/-- One element everywhere: the gradient of the weight is 3, the launch leaves 10 in a buffer that held 7. -/
theorem C115_false : ¬ Spec.GradWCudaCorrect := by
  intro h
  have hs : Fits 1 1 [1] [1] [1] := ⟨fun x j h1 h2 => by omega, by decide, trivial⟩
  obtain ⟨k, r, e1, e2, e3, e4⟩ := C115_conv_adds (ty := .f32) (by decide) (Or.inl rfl) (ks := [1])
    (reads_mapped Int.ofNat (countUp_reads [1, 1, 1] 3)) (reads_mapped Int.ofNat (countUp_reads [1, 1, 1] 1))
    (packed_mapped _ (countUp_packed _ _)) rfl rfl (B := 1) (Ci := 1) (Co := 1) (ns := [1]) (os := [1]) rfl rfl rfl rfl rfl
    (p := 0) (by decide) hs (by decide) .single
  have hr : (Spec.mapped Int.ofNat (countUp [1, 1, 1] 3)).convGradW 0 (· + ·) (· * ·) 1
      (Spec.mapped Int.ofNat (countUp [1, 1, 1] 1)) [1, 1, 1] 1 0 1 = .ok ⟨[3], Layout.fromShape [1, 1, 1]⟩ := by
    decide +kernel
  rw [hr] at e2
  injection e2 with e2
  subst e2
  obtain ⟨h1, B, h2⟩ := e4 [7] (by decide)
  obtain ⟨sched, hf⟩ := exists_fair B k.threads
  obtain ⟨st, a1, a2⟩ := h1 sched
  have hfin := h2 sched st hf a1
  have hm := h _ _ _ _ _ _ _ _ e1 hr [7] rfl sched st a1 hfin
  obtain ⟨a, e, b1, b2, b3⟩ := a2 hfin [0, 0, 0] (by decide)
  rw [hm] at b3
  have c1 : a = 7 := by injection b1 with b1; exact b1.symm
  have c2 : e = 3 := by injection b2 with b2; exact b2.symm
  subst c1 c2
  revert b3
  decide

omit [DecidableEq W] in
/-- For other element types there is no kernel. -/
theorem C115_types {ty : DType} (hty : ty ∉ convTypes) (job : ConvGradMeta → Nat → Nat → Res (Option (Nat × V)))
    (word : Nat → Nat) (upd : Nat → W → V → W) (way : Way) (nsp : Nat) (x g : Layout) (wdims : List Nat) (s p d : Nat) :
    convGradWCuda ty job word upd way nsp x g wdims s p d = .err := by
  unfold convGradWCuda
  split_ifs <;> rfl

/-! ## Concrete cases -/

/-- The hypotheses of the theorems on the convolution hold for two dimensions, stride 2, padding 1, dilation 2, and
buffers of bytes. -/
example : Fits 2 2 [2, 3] [2, 2] [4, 6] ∧
    numel [2, 3, 2, 3] + 256 * gridSize (numel [3, 1, 2, 2]) ≤ 2 ^ 32 ∧ convOuts 2 1 2 [4, 6] [2, 2] = [2, 3] ∧
    gradWTerms (· * ·) 2 1 2 1 [4] [2] (fun i => 10 + i.getD 2 0) (fun i => 1 + i.getD 2 0) 0 0 [1] = [11 * 1, 13 * 2] ∧
    (byteAt [0x01020304] 2).isSome := by
  refine ⟨⟨?_, by decide, ?_, by decide, trivial⟩, by decide, by decide, by decide, by decide⟩ <;>
    intro x j h1 h2 <;> omega

/-- The hypotheses of the theorems on the transposed convolution hold for stride 2 and padding 1. -/
example : Fits 2 1 [3] [3] [5] ∧ BackFits 1 1 [3] [3] [5] ∧ convTOuts 2 1 0 1 [3] [3] = [5] ∧
    numel [2, 3, 5] + 256 * gridSize (numel [1, 3, 3]) ≤ 2 ^ 32 ∧
    gradWTTerms (· * ·) 2 1 1 1 [3] [5] (fun i => 10 + i.getD 2 0) (fun i => 1 + i.getD 2 0) 0 0 [0] =
      [11 * 2, 12 * 4] := by
  refine ⟨⟨?_, by decide, trivial⟩, ⟨by decide, ?_, ?_, trivial⟩, by decide, by decide, by decide⟩
  · intro x j h1 h2; omega
  · intro j h; omega
  · intro x h; omega

/-- More elements of the gradient than threads: 600 elements, one weight, 256 threads. -/
example : numel [1, 1, 600] + 256 * gridSize (numel [1, 1, 1]) ≤ 2 ^ 32 ∧ 256 * gridSize (numel [1, 1, 1]) < 600 ∧
    shareOf 256 600 87 = 3 ∧ shareOf 256 600 88 = 2 := by decide

end Hodu.Cuda
