import Verif.Model.MetalSelect
import Verif.Props.CudaSelect
import Verif.Props.MetalQueue
import Verif.Props.MetalMove

/-!
# C126: nonzero and compress on Metal

The count and the counter of the tickets live in buffers of the pool that nobody clears.  From two zeros the
result is that of the specification, in the order of the tickets; from what an earlier call left in them it is not.
`compress` counts the entries before its own, so that its result does not depend on the schedule; it takes the
buffer of the condition for the condition.
-/

namespace Hodu.Metal

open _root_.Hodu _root_.Hodu.Spec Cuda Cuda.Spec Metal.Spec

variable {α : Type}

/-- From row `start` on `y` lists `rows`. -/
def Spec.RowsFrom (y : Tensor Int) (start : Nat) (rows : List (List Nat)) : Prop :=
  ∀ (r : Nat) (row : List Nat), rows[r]? = some row → ∀ (c x : Nat), row[c]? = some x →
    y.elem [start + r, c] = some (x : Int)

/-- What a call does with the buffers `p` of the pool: behind the rows of old contents stand the hits, in some
order, and both counters have grown by their number. -/
def Spec.Appended (nz : α → Bool) (p : NonzeroPool) (t : Tensor α) (r : NonzeroOut) : Prop :=
  r.out.WF ∧ r.out.dims = [p.count + (hitIndices nz t).length, t.dims.length] ∧
    (∃ rows : List (List Nat), rows.Perm (hitIndices nz t) ∧ RowsFrom r.out p.counter rows) ∧
    (∀ i c, i < p.counter → c < t.dims.length → r.out.elem [i, c] = some (p.old (i * t.dims.length + c))) ∧
    r.count = p.count + (hitIndices nz t).length ∧ r.counter = p.counter + (hitIndices nz t).length

theorem bufSize_ge (n : Nat) : n ≤ bufSize (4 * n) / 4 := by
  by_contra hc
  have h1 : bufSize (4 * n) < 4 * n := by omega
  obtain ⟨k, hk⟩ := bufSize_lt _ h1
  cases k with
  | zero => omega
  | succ k => rw [Nat.pow_succ] at hk; omega

theorem fillMem_out {p : NonzeroPool} {size x : Nat} (h : x < size) :
    fillMem p size (bOut, x) = some (p.old x) := by
  have := bufSize_ge size
  unfold fillMem pooled
  simp only [show (bOut = bCounter) = False by simp, if_false, if_true]
  rw [if_pos (by omega)]

theorem countProg_ticket {nz : α → Bool} {inp : List α} {md : StridedMeta} {n : Nat} {hit : Nat → Bool}
    (hv : ∀ i, i < n → ∃ v, stridedRead inp md i = .ok v ∧ hit i = nz v) (i : Nat) (hi : i < n) :
    nonzeroCountProg nz inp md i = ticketProg hit (fun _ => []) 0 i := by
  obtain ⟨v, e, h⟩ := hv i hi
  unfold nonzeroCountProg ticketProg
  rw [e, h]
  rfl

/-- The host, given what the kernels do. -/
theorem nonzero_host {nz : α → Bool} {p : NonzeroPool} {t : Tensor α} {md : StridedMeta} {maxT T : Nat}
    (hmd : decodeStrided (stridedMetadata t.layout) = .ok md) (hT : linearSplit maxT md.numEls = .ok T) (s1 s2 : List Nat) :
    ((progThreads T md.numEls (nonzeroCountProg nz t.storage md)).launch (countMem p) s1 = .ok none →
      nonzeroMetal maxT nz p t s1 s2 = .ok none) ∧
    ∀ (m1 : Mem Int) (c : Nat), (progThreads T md.numEls (nonzeroCountProg nz t.storage md)).launch (countMem p) s1 =
        .ok (some m1) → m1 (bCounter, 0) = some (c : Int) →
      (c = 0 → nonzeroMetal maxT nz p t s1 s2 = .ok (some ⟨⟨[], Layout.fromShape [0, t.dims.length]⟩, 0, p.counter⟩)) ∧
      (c ≠ 0 → ((progThreads T md.numEls (nonzeroFillProg nz t.storage md)).launch (fillMem p (c * t.dims.length)) s2 =
          .ok none → nonzeroMetal maxT nz p t s1 s2 = .ok none) ∧
        ((progThreads T md.numEls (nonzeroFillProg nz t.storage md)).launch (fillMem p (c * t.dims.length)) s2 =
          .ub → nonzeroMetal maxT nz p t s1 s2 = .ub) ∧
        ∀ (m2 : Mem Int) (c' : Nat), (progThreads T md.numEls (nonzeroFillProg nz t.storage md)).launch
            (fillMem p (c * t.dims.length)) s2 = .ok (some m2) → m2 (bCounter, 0) = some (c' : Int) →
          nonzeroMetal maxT nz p t s1 s2 = .ok (some ⟨⟨m2.read bOut (c * t.dims.length),
            Layout.fromShape [c, t.dims.length]⟩, c, c'⟩)) := by
  refine ⟨fun h => ?_, fun m1 c h hc => ⟨fun h0 => ?_, fun h0 => ⟨fun h2 => ?_, fun h2 => ?_, fun m2 c' h2 hc' => ?_⟩⟩⟩ <;>
    unfold nonzeroMetal <;> rw [hmd, Res.ok_bind, hT, Res.ok_bind, h] <;> simp only [Res.ok_bind]
  · rw [hc]
    dsimp only
    rw [Int.toNat_natCast, if_pos h0, h0]
  · rw [hc]
    dsimp only
    rw [Int.toNat_natCast, if_neg h0, show t.layout.ndim = t.dims.length from rfl, h2]
    rfl
  · rw [hc]
    dsimp only
    rw [Int.toNat_natCast, if_neg h0, show t.layout.ndim = t.dims.length from rfl, h2]
    rfl
  · rw [hc]
    dsimp only
    rw [Int.toNat_natCast, if_neg h0, show t.layout.ndim = t.dims.length from rfl, h2, Res.ok_bind]
    dsimp only
    rw [hc']
    dsimp only
    rw [Int.toNat_natCast]

/-- The tensor read back after the second launch. -/
theorem appended_of_cells {dims order : List Nat} {m m0 : Mem Int} {size base : Nat} {old : Nat → Int}
    (hd : ∀ n ∈ dims, n ≤ 2 ^ 31) (hord : ∀ t ∈ order, t < numel dims) (hle : base + order.length ≤ size)
    (hold : ∀ x, x < size * dims.length → m0 (bOut, x) = some (old x)) (hs : SameCells m0 m)
    (hlow : ∀ x, x < base * dims.length → m (bOut, x) = m0 (bOut, x))
    (hcell : ∀ o t c x : Nat, order[o]? = some t → (unravel dims t)[c]? = some x →
      m (bOut, (base + o) * dims.length + c) = some (castI32 x)) :
    (⟨m.read bOut (size * dims.length), Layout.fromShape [size, dims.length]⟩ : Tensor Int).WF ∧
    RowsFrom ⟨m.read bOut (size * dims.length), Layout.fromShape [size, dims.length]⟩ base (order.map (unravel dims)) ∧
    ∀ i c, i < base → c < dims.length → Tensor.elem ⟨m.read bOut (size * dims.length),
      Layout.fromShape [size, dims.length]⟩ [i, c] = some (old (i * dims.length + c)) := by
  have hsome : ∀ x, x < size * dims.length → (m (bOut, x)).isSome = true := fun x hx => by
    rw [← hs, hold x hx]; rfl
  obtain ⟨hl, hg⟩ := read_get hsome
  have helem : ∀ r c, Tensor.elem ⟨m.read bOut (size * dims.length),
      Layout.fromShape [size, dims.length]⟩ [r, c] = (m.read bOut (size * dims.length))[r * dims.length + c]? := by
    intro r c
    rw [Layout.fromShape, elem_rowMajor, Nat.zero_add]
    simp [rowMajor, numel]
  have hlt : ∀ k r c, r < k → c < dims.length → r * dims.length + c < k * dims.length := by
    intro k r c hr hc
    calc r * dims.length + c < (r + 1) * dims.length := by rw [Nat.succ_mul]; omega
      _ ≤ _ := Nat.mul_le_mul_right _ hr
  refine ⟨⟨computeStrides_length _, ?_⟩, ?_, ?_⟩
  · intro idx hi
    match idx, hi with
    | [r, c], hi =>
      obtain ⟨h1, h2, _⟩ := hi
      rw [helem, hg _ (hlt _ r c h1 h2)]
      exact hsome _ (hlt _ r c h1 h2)
  · intro r row hr c x hx
    obtain ⟨t, ht, rfl⟩ := getElem?_of_perm_rows hr
    have hin := unravel_inRange (hord t (List.mem_of_getElem? ht))
    have hc : c < dims.length := by
      rw [← hin.length]
      exact (List.getElem?_eq_some_iff.mp hx).1
    have hrl := (List.getElem?_eq_some_iff.mp ht).1
    rw [helem, hg _ (hlt _ _ c (by omega) hc), hcell r t c x ht hx]
    rw [inRange_iff] at hin
    obtain ⟨hc', e⟩ := List.getElem?_eq_some_iff.mp hx
    have h1 := hin.2 c hc' hc
    have h2 := hd _ (List.getElem_mem hc)
    rw [castI32_of_lt (by omega)]
  · intro i c hi hc
    rw [helem, hg _ (hlt _ i c (by omega) hc), hlow _ (hlt _ i c hi hc), hold _ (hlt _ i c (by omega) hc)]

/-- **C126**, whatever the pool left in the counters, as long as the one of the tickets is not ahead of the count:
under every schedule the kernels stay inside of their buffers, fair schedules end, and the hits stand behind as
many rows of old contents as the counter said. -/
theorem C126_any_pool (nz : α → Bool) {maxT : Nat} (hm : GroupSize maxT) (p : NonzeroPool) {t : Tensor α} (ht : t.WF)
    (hr : t.dims.length ≤ 16) (hd : ∀ n ∈ t.dims, n ≤ 2 ^ 31) (h0 : 0 < numel t.dims)
    (hn : numel t.dims ≤ 2 ^ 32 - 1024) (hcc : p.counter ≤ p.count)
    (hw : p.count + (hitIndices nz t).length < 2 ^ 32) :
    (∀ s1 s2, nonzeroMetal maxT nz p t s1 s2 = .ok none ∨
      ∃ r, nonzeroMetal maxT nz p t s1 s2 = .ok (some r) ∧ Appended nz p t r) ∧
    ∃ T B, ∀ s1 s2, (∀ u, u < T → B ≤ s1.count u ∧ B ≤ s2.count u) →
      ∃ r, nonzeroMetal maxT nz p t s1 s2 = .ok (some r) := by
  obtain ⟨md, hit, hmd, hnum, hrows, hval, hfill⟩ := nonzero_setup nz ht hr
  obtain ⟨T, hT, hT1, hT2⟩ := linearSplit_ok hm.1 hm.2 h0 hn
  have hhost := nonzero_host (nz := nz) (p := p) hmd (hnum ▸ hT)
  rw [hnum] at hhost
  have hlen : (hitIndices nz t).length = ((List.range (numel t.dims)).filter hit).length := by rw [hrows, List.length_map]
  rw [hlen] at hw
  have hst : ∀ u, u < T → u32 u = u := fun u hu => u32_of_lt (by omega)
  obtain ⟨a1, a2⟩ := tickets_from (n := numel t.dims) (base := p.count) (m0 := countMem p)
    (k := progThreads T (numel t.dims) (nonzeroCountProg nz t.storage md)) hw rfl (fun _ _ => le_refl _) hT1 hst
    (countProg_ticket hval) (fun _ _ => rfl) (fun x hx => absurd hx (by omega)) rfl
  obtain ⟨c1, B1, c2⟩ := launch_such (P := fun m1 => m1 (bCounter, 0) =
      some ((p.count + ((List.range (numel t.dims)).filter hit).length : Nat) : Int))
    (fun s => (a1 s).imp fun _ h => ⟨h.1, fun hf => (h.2 hf).2.1⟩) a2
  generalize hC : ((List.range (numel t.dims)).filter hit).length = C at *
  obtain ⟨t1, t2⟩ := tickets_from (n := numel t.dims) (base := p.counter) (hit := hit) (row := unravel t.dims)
    (D := t.dims.length) (m0 := fillMem p ((p.count + C) * t.dims.length))
    (k := progThreads T (numel t.dims) (nonzeroFillProg nz t.storage md)) (by omega) rfl (fun _ _ => le_refl _) hT1 hst
    hfill (fun i hi => (unravel_inRange hi).length) (fun x hx => by
      rw [fillMem_out (lt_of_lt_of_le hx (Nat.mul_le_mul_right _ (by omega)))]; rfl) rfl
  obtain ⟨f1, B2, f2⟩ := launch_such (P := fun m2 => m2 (bCounter, 0) = some ((p.counter + C : Nat) : Int) ∧
      Appended nz p t ⟨⟨m2.read bOut ((p.count + C) * t.dims.length), Layout.fromShape [p.count + C, t.dims.length]⟩,
        p.count + C, p.counter + C⟩)
    (fun s => (t1 s).imp fun s h => ⟨h.1, fun hf => by
      obtain ⟨g1, g2, g3, order, g4, g5⟩ := h.2 hf
      rw [hC] at g2
      have hol : order.length = C := by rw [g4.length_eq, hC]
      obtain ⟨k1, k2, k3⟩ := appended_of_cells hd (fun u hu => by
        exact List.mem_range.mp (List.mem_filter.mp (g4.subset hu)).1) (size := p.count + C) (by omega)
        (fun x hx => fillMem_out hx) g1 g3 g5
      exact ⟨g2, k1, by rw [hlen]; rfl, ⟨_, by rw [hrows]; exact g4.map _, k2⟩, k3, by rw [hlen], by rw [hlen]⟩⟩) t2
  have none_ : p.count + C = 0 → Appended nz p t ⟨⟨[], Layout.fromShape [0, t.dims.length]⟩, 0, p.counter⟩ := by
    intro h0
    refine ⟨⟨computeStrides_length _, ?_⟩, ?_, ⟨[], ?_, fun r row h => by simp at h⟩, fun i c hi => absurd hi (by omega),
      by rw [hlen]; exact h0.symm, by rw [hlen]; show p.counter = _; omega⟩
    · intro idx hi
      match idx, hi with
      | [r, c], hi => exact absurd hi.1 (by omega)
    · rw [hlen, h0]; rfl
    · rw [hrows, List.length_eq_zero_iff.mp (hC.trans (by omega))]
      rfl
  constructor
  · intro s1 s2
    rcases c1 s1 with h | ⟨m1, h, hP⟩
    · exact Or.inl ((hhost s1 s2).1 h)
    · obtain ⟨g0, g1⟩ := (hhost s1 s2).2 _ _ h hP
      by_cases h0 : p.count + C = 0
      · exact Or.inr ⟨_, g0 h0, none_ h0⟩
      · obtain ⟨g2, _, g3⟩ := g1 h0
        rcases f1 s2 with h' | ⟨m2, h', hP⟩
        · exact Or.inl (g2 h')
        · exact Or.inr ⟨_, g3 m2 _ h' hP.1, hP.2⟩
  · refine ⟨T, max B1 B2, fun s1 s2 hf => ?_⟩
    obtain ⟨m1, h, hP⟩ := c2 s1 fun u hu => le_trans (le_max_left _ _) (hf u hu).1
    obtain ⟨g0, g1⟩ := (hhost s1 s2).2 _ _ h hP
    by_cases h0 : p.count + C = 0
    · exact ⟨_, g0 h0⟩
    · obtain ⟨m2, h', hP⟩ := f2 s2 fun u hu => le_trans (le_max_right _ _) (hf u hu).2
      exact ⟨_, (g1 h0).2.2 m2 _ h' hP.1⟩

/-- What a call should deliver: the indices of the specification (C63), each once. -/
def Spec.ListsHits (nz : α → Bool) (t : Tensor α) (y : Tensor Int) : Prop :=
  ∃ rows : List (List Nat), rows.Perm (hitIndices nz t) ∧ Lists y t.dims.length rows

/-- **C126**, from two counters of zero: under every schedule the result lists the indices of the specification,
each once, in some order.  Missing, and false: the order (`C126_order`), counters that an earlier call has used
(`C126_second_call`), empty tensors (`C126_empty`), more than 16 dimensions (`C126_rank_ub`). -/
theorem C126_zeroed_partial (nz : α → Bool) {maxT : Nat} (hm : GroupSize maxT) {p : NonzeroPool} (hp : p.count = 0)
    (hp' : p.counter = 0) {t : Tensor α} (ht : t.WF) (hr : t.dims.length ≤ 16) (hd : ∀ n ∈ t.dims, n ≤ 2 ^ 31)
    (h0 : 0 < numel t.dims) (hn : numel t.dims ≤ 2 ^ 32 - 1024) :
    (∀ s1 s2, nonzeroMetal maxT nz p t s1 s2 = .ok none ∨
      ∃ r, nonzeroMetal maxT nz p t s1 s2 = .ok (some r) ∧ ListsHits nz t r.out) ∧
    ∃ T B, ∀ s1 s2, (∀ u, u < T → B ≤ s1.count u ∧ B ≤ s2.count u) →
      ∃ r, nonzeroMetal maxT nz p t s1 s2 = .ok (some r) := by
  have hle : (hitIndices nz t).length ≤ numel t.dims := by
    unfold hitIndices
    refine (List.length_filter_le _ _).trans ?_
    unfold indices
    rw [List.length_map, List.length_range]
  obtain ⟨a, b⟩ := C126_any_pool nz hm p ht hr hd h0 hn (by omega) (by omega)
  refine ⟨fun s1 s2 => (a s1 s2).imp_right fun ⟨r, h1, h2, h3, ⟨rows, h4, h5⟩, _⟩ => ⟨r, h1, rows, h4, h2, ?_, ?_⟩, b⟩
  · rw [h3, hp, Nat.zero_add, h4.length_eq]
  · intro i row hi c x hx
    have := h5 i row hi c x hx
    rwa [hp', Nat.zero_add] at this

/-- Two ones in a row, from zeroed counters. -/
example : (GroupSize 1024 ∧ twoOnes.WF ∧ twoOnes.dims.length ≤ 16 ∧ 0 < numel twoOnes.dims) ∧
    ∃ s1 s2 r, nonzeroMetal 1024 (· != 0) ⟨0, 0, fun _ => 7, 0⟩ twoOnes s1 s2 = .ok (some r) ∧
      ListsHits (· != 0) twoOnes r.out := by
  refine ⟨⟨⟨by decide, by decide⟩, twoOnes_wf, by decide, by decide⟩, ?_⟩
  obtain ⟨a, T, B, b⟩ := C126_zeroed_partial (· != 0) (maxT := 1024) ⟨by decide, by decide⟩ (p := ⟨0, 0, fun _ => 7, 0⟩)
    rfl rfl twoOnes_wf (by decide) (by decide) (by decide) (by decide)
  obtain ⟨s, hs⟩ := exists_fair B T
  obtain ⟨r, hr⟩ := b s s fun u hu => ⟨hs u hu, hs u hu⟩
  refine ⟨s, s, r, hr, ?_⟩
  rcases a s s with h | ⟨r', h1, h2⟩
  · rw [hr] at h; cases h
  · rw [hr] at h1; cases h1; exact h2

/-- **C126** refuted for every second call: a call gets the two counters that the first one left in the pool; if
the first one had found anything, the result of the second, whatever tensor and schedule, is not the list of its
hits: it has as many rows too many as the first call had found, and these come first and hold old contents. -/
theorem C126_second_call (nz : α → Bool) {maxT : Nat} (hm : GroupSize maxT) {p p' : NonzeroPool} (hp : p.count = 0)
    (hp' : p.counter = 0) {t : Tensor α} (ht : t.WF) (hr : t.dims.length ≤ 16) (hd : ∀ n ∈ t.dims, n ≤ 2 ^ 31)
    (h0 : 0 < numel t.dims) (hn : numel t.dims ≤ 2 ^ 32 - 1024) (hit1 : hitIndices nz t ≠ [])
    {s1 s2 : List Nat} {r : NonzeroOut} (h1 : nonzeroMetal maxT nz p t s1 s2 = .ok (some r))
    {t' : Tensor α} (ht' : t'.WF) (hr' : t'.dims.length ≤ 16) (hd' : ∀ n ∈ t'.dims, n ≤ 2 ^ 31)
    (h0' : 0 < numel t'.dims) (hn' : numel t'.dims ≤ 2 ^ 31 - 1024) (hn'' : numel t.dims ≤ 2 ^ 31 - 1024)
    (hq : p'.count = r.count) (hq' : p'.counter = r.counter)
    {s1' s2' : List Nat} {r' : NonzeroOut} (h2 : nonzeroMetal maxT nz p' t' s1' s2' = .ok (some r')) :
    ¬ ListsHits nz t' r'.out ∧
    r'.out.dims = [(hitIndices nz t).length + (hitIndices nz t').length, t'.dims.length] ∧
    (∀ i c, i < (hitIndices nz t).length → c < t'.dims.length →
      r'.out.elem [i, c] = some (p'.old (i * t'.dims.length + c))) ∧
    ∃ rows : List (List Nat), rows.Perm (hitIndices nz t') ∧ RowsFrom r'.out (hitIndices nz t).length rows := by
  have hle : ∀ u : Tensor α, (hitIndices nz u).length ≤ numel u.dims := fun u => by
    unfold hitIndices
    refine (List.length_filter_le _ _).trans ?_
    unfold indices
    rw [List.length_map, List.length_range]
  have hl := hle t
  have hl' := hle t'
  obtain ⟨a, _⟩ := C126_any_pool nz hm p ht hr hd h0 hn (by omega) (by omega)
  have e1 : r.count = (hitIndices nz t).length ∧ r.counter = (hitIndices nz t).length := by
    rcases a s1 s2 with h | ⟨r0, g1, _, _, _, _, g2, g3⟩
    · rw [h1] at h; cases h
    · rw [h1] at g1; cases g1
      rw [hp, Nat.zero_add] at g2
      rw [hp', Nat.zero_add] at g3
      exact ⟨g2, g3⟩
  obtain ⟨a, _⟩ := C126_any_pool nz hm p' ht' hr' hd' h0' (by omega) (by omega) (by omega)
  rcases a s1' s2' with h | ⟨r0, g1, _, g2, g3, g4, _⟩
  · rw [h2] at h; cases h
  · rw [h2] at g1; cases g1
    rw [hq, e1.1] at g2
    rw [hq', e1.2] at g3 g4
    refine ⟨?_, g2, g4, g3⟩
    rintro ⟨rows, k1, _, k2, _⟩
    rw [g2] at k2
    injection k2 with k2
    rw [k1.length_eq] at k2
    have : 0 < (hitIndices nz t).length := List.length_pos_iff.mpr hit1
    omega

/-- The second call for the two ones: four rows, the first two of old contents. -/
example : ∃ s1 s2 r s1' s2' r',
    nonzeroMetal 1024 (· != 0) ⟨0, 0, fun _ => 7, 0⟩ twoOnes s1 s2 = .ok (some r) ∧
    nonzeroMetal 1024 (· != 0) ⟨r.count, r.counter, fun _ => 7, 0⟩ twoOnes s1' s2' = .ok (some r') ∧
    r'.out.dims = [4, 1] ∧ r'.out.elem [0, 0] = some 7 ∧ r'.out.elem [1, 0] = some 7 := by
  have hh : hitIndices (· != 0) twoOnes = [[0], [1]] := by decide +kernel
  obtain ⟨a, T, B, b⟩ := C126_any_pool (· != 0) (maxT := 1024) ⟨by decide, by decide⟩ ⟨0, 0, fun _ => 7, 0⟩
    twoOnes_wf (by decide) (by decide) (by decide) (by decide) (by decide) (by rw [hh]; decide)
  obtain ⟨s, hs⟩ := exists_fair B T
  obtain ⟨r, hr⟩ := b s s fun u hu => ⟨hs u hu, hs u hu⟩
  have e : r.count = 2 ∧ r.counter = 2 := by
    rcases a s s with h | ⟨r0, g1, _, _, _, _, g2, g3⟩
    · rw [hr] at h; cases h
    · rw [hr] at g1; cases g1
      rw [hh] at g2 g3
      exact ⟨g2, g3⟩
  obtain ⟨_, T', B', b'⟩ := C126_any_pool (· != 0) (maxT := 1024) ⟨by decide, by decide⟩
    ⟨r.count, r.counter, fun _ => 7, 0⟩ twoOnes_wf (by decide) (by decide) (by decide) (by decide)
    (by rw [e.1, e.2]) (by show r.count + _ < _; rw [hh, e.1]; decide)
  obtain ⟨s', hs'⟩ := exists_fair B' T'
  obtain ⟨r', hr'⟩ := b' s' s' fun u hu => ⟨hs' u hu, hs' u hu⟩
  obtain ⟨_, h2, h3, _⟩ := C126_second_call (· != 0) (maxT := 1024) ⟨by decide, by decide⟩ (p := ⟨0, 0, fun _ => 7, 0⟩)
    (p' := ⟨r.count, r.counter, fun _ => 7, 0⟩) rfl rfl twoOnes_wf (by decide) (by decide) (by decide) (by decide)
    (by rw [hh]; simp) hr twoOnes_wf (by decide) (by decide) (by decide) (by decide) (by decide) rfl rfl hr'
  rw [hh] at h2 h3
  exact ⟨s, s, r, s', s', r', hr, hr', h2, h3 0 0 (by decide) (by decide), h3 1 0 (by decide) (by decide)⟩

/-- An empty tensor panics in `linear_split`; the CPU answers with an empty list (C63). -/
theorem C126_empty (nz : α → Bool) (maxT : Nat) (p : NonzeroPool) {t : Tensor α} (ht : t.WF) (h0 : numel t.dims = 0)
    (s1 s2 : List Nat) : nonzeroMetal maxT nz p t s1 s2 = .panic := by
  have hsz : t.layout.size = 0 := (shapeSize_eq _).trans h0
  unfold nonzeroMetal
  rw [decodeStrided_stridedMetadata (l := t.layout) ht.1, Res.ok_bind, hsz, linearSplit_zero]
  rfl

example : (⟨[], Layout.fromShape [3, 0]⟩ : Tensor Int).WF ∧
    nonzeroMetal 1024 (· != 0) ⟨0, 0, fun _ => 7, 0⟩ (⟨[], Layout.fromShape [3, 0]⟩ : Tensor Int) [] [] = .panic ∧
    ((⟨[], Layout.fromShape [3, 0]⟩ : Tensor Int).nonzero (· != 0)).map (·.layout.dims) = .ok [0, 2] := by
  have h : (⟨[], Layout.fromShape [3, 0]⟩ : Tensor Int).WF := fresh_wf (by decide)
  exact ⟨h, C126_empty _ _ _ h (by decide) [] [], by decide +kernel⟩

/-! ## Undefined behaviour -/

/-- One thread, from the test to the end of its program or to undefined behaviour. -/
theorem thread_ub {k : PKernel Int} {m : Mem Int} {i : Nat} (hi : i < k.bound) (hT : i < k.threads) (hst : k.start i = i)
    {c : Int} (hc : m (bCounter, 0) = some c) {a : Nat} {xs : List Nat} {x : Nat}
    (hp : k.prog i = .fetch (bCounter, 0) incU32 fun o => writeRow (o.toNat * a) (x :: xs))
    (hno : m (bOut, c.toNat * a) = none) : k.launch m [i, i, i] = .ub := by
  have s0 : (k.init m).pc i = .head i := by
    show (if i < k.threads then PPc.head (k.start i) else .done) = _
    rw [if_pos hT, hst]
  have st1 : k.step (k.init m) i = .ok ((k.init m).goto i (.run i (k.prog i))) := by
    unfold PKernel.step
    rw [s0]
    dsimp only
    rw [if_pos hi]
  have st2 : ∃ s, k.step ((k.init m).goto i (.run i (k.prog i))) i = .ok s ∧
      s.mem = m.upd (bCounter, 0) incU32 ∧ s.pc i = .run i (writeRow (c.toNat * a) (x :: xs)) := by
    unfold PKernel.step
    rw [show ((k.init m).goto i (.run i (k.prog i))).pc i = .run i (k.prog i) by simp [PSt.goto], hp]
    dsimp only [Prog.fetch]
    rw [show ((k.init m).goto i (.run i (Prog.op (bCounter, 0) incU32
      fun o => writeRow (o.toNat * a) (x :: xs)))).mem (bCounter, 0) = some c from hc]
    exact ⟨_, rfl, rfl, by simp [PSt.goto]⟩
  obtain ⟨s, e2, hm, hpc⟩ := st2
  have st3 : k.step s i = .ub := by
    unfold PKernel.step
    rw [hpc]
    dsimp only [writeRow, Prog.store]
    rw [hm, Mem.upd_ne (by simp), hno]
  unfold PKernel.launch PKernel.exec
  simp only [Res.foldL, st1, e2, st3, Res.bind]

/-- A counter that is ahead of the count by more than the output buffer holds: the rows are written behind it. -/
theorem C126_counter_ub (nz : α → Bool) {maxT : Nat} (hm : GroupSize maxT) {p : NonzeroPool} (hp : p.count = 0)
    {t : Tensor α} (ht : t.WF) (hr : t.dims.length ≤ 16) (hr0 : 0 < t.dims.length) (h0 : 0 < numel t.dims)
    (hn : numel t.dims ≤ 2 ^ 32 - 1024) (hne : hitIndices nz t ≠ [])
    (hc : bufSize (4 * ((hitIndices nz t).length * t.dims.length)) / 4 + p.extra ≤ p.counter * t.dims.length) :
    ∃ s1 s2, nonzeroMetal maxT nz p t s1 s2 = .ub := by
  obtain ⟨md, hit, hmd, hnum, hrows, hval, hfill⟩ := nonzero_setup nz ht hr
  obtain ⟨T, hT, hT1, hT2⟩ := linearSplit_ok hm.1 hm.2 h0 hn
  have hhost := nonzero_host (nz := nz) (p := p) hmd (hnum ▸ hT)
  rw [hnum] at hhost
  have hlen : (hitIndices nz t).length = ((List.range (numel t.dims)).filter hit).length := by rw [hrows, List.length_map]
  have hle : ((List.range (numel t.dims)).filter hit).length ≤ numel t.dims := by
    have := List.length_filter_le hit (List.range (numel t.dims))
    simpa using this
  have hst : ∀ u, u < T → u32 u = u := fun u hu => u32_of_lt (by omega)
  obtain ⟨a1, a2⟩ := tickets_from (n := numel t.dims) (base := p.count) (m0 := countMem p)
    (k := progThreads T (numel t.dims) (nonzeroCountProg nz t.storage md)) (by omega) rfl (fun _ _ => le_refl _) hT1 hst
    (countProg_ticket hval) (fun _ _ => rfl) (fun x hx => absurd hx (by omega)) rfl
  obtain ⟨_, B1, c2⟩ := launch_such (P := fun m1 => m1 (bCounter, 0) =
      some ((p.count + ((List.range (numel t.dims)).filter hit).length : Nat) : Int))
    (fun s => (a1 s).imp fun _ h => ⟨h.1, fun hf => (h.2 hf).2.1⟩) a2
  rw [hp, Nat.zero_add, ← hlen] at c2
  obtain ⟨s1, hs1⟩ := exists_fair B1 T
  obtain ⟨m1, h, hP⟩ := c2 s1 hs1
  have hpos : (hitIndices nz t).length ≠ 0 := fun h => hne (List.length_eq_zero_iff.mp h)
  obtain ⟨i, hi⟩ := List.exists_mem_of_ne_nil _ (show (List.range (numel t.dims)).filter hit ≠ [] from fun h => by
    rw [hlen, h] at hpos
    exact hpos rfl)
  obtain ⟨hi1, hi2⟩ := List.mem_filter.mp hi
  have hi1 := List.mem_range.mp hi1
  obtain ⟨x, xs, hx⟩ : ∃ x xs, unravel t.dims i = x :: xs := by
    have := (unravel_inRange hi1).length
    cases e : unravel t.dims i with
    | nil => rw [e] at this; simp at this; omega
    | cons x xs => exact ⟨x, xs, rfl⟩
  refine ⟨s1, [i, i, i], (((hhost s1 [i, i, i]).2 m1 _ h hP).2 hpos).2.1 ?_⟩
  refine thread_ub (c := (p.counter : Int)) (a := t.dims.length) (x := x) (xs := xs) hi1 (lt_of_lt_of_le hi1 hT1)
    (hst i (lt_of_lt_of_le hi1 hT1)) rfl ?_ ?_
  · show nonzeroFillProg nz t.storage md i = _
    rw [hfill i hi1]
    unfold ticketProg
    rw [if_pos hi2, hx]
  · rw [Int.toNat_natCast]
    unfold fillMem pooled
    simp only [show (bOut = bCounter) = False by simp, if_false, if_true]
    rw [if_neg (by omega)]

/-- A counter buffer in which some other operation left five, and one output cell for each of the two ones. -/
example : ∃ s1 s2, nonzeroMetal 1024 (· != 0) ⟨0, 5, fun _ => 7, 0⟩ twoOnes s1 s2 = .ub := by
  have hh : hitIndices (· != 0) twoOnes = [[0], [1]] := by decide +kernel
  exact C126_counter_ub _ ⟨by decide, by decide⟩ rfl twoOnes_wf (by decide) (by decide) (by decide) (by decide)
    (by rw [hh]; simp) (by rw [hh]; decide +kernel)

/-- More than 16 dimensions: `multi_idx` is overrun as soon as the count is not zero. -/
theorem C126_rank_ub (nz : α → Bool) {maxT : Nat} (hm : GroupSize maxT) (p : NonzeroPool) {t : Tensor α} (ht : t.WF)
    (hr : 16 < t.dims.length) (h0 : 0 < numel t.dims) (hn : numel t.dims ≤ 2 ^ 32 - 1024)
    (hw : p.count + (hitIndices nz t).length < 2 ^ 32) (hne : p.count + (hitIndices nz t).length ≠ 0) :
    ∃ s1 s2, nonzeroMetal maxT nz p t s1 s2 = .ub := by
  let hit : Nat → Bool := fun i => (t.elem (unravel t.dims i)).any nz
  have hlen : (hitIndices nz t).length = ((List.range (numel t.dims)).filter hit).length := by
    unfold hitIndices indices
    rw [List.filter_map, List.length_map]
    rfl
  have hmd := decodeStrided_stridedMetadata (l := t.layout) ht.1
  have hnum : t.layout.size = numel t.dims := shapeSize_eq _
  obtain ⟨T, hT, hT1, hT2⟩ := linearSplit_ok hm.1 hm.2 h0 hn
  have hst : ∀ u, u < T → u32 u = u := fun u hu => u32_of_lt (by omega)
  have hhost := nonzero_host (nz := nz) (p := p) (T := T) hmd (show linearSplit maxT t.layout.size = _ by rw [hnum]; exact hT)
  dsimp only at hhost
  obtain ⟨a1, a2⟩ := tickets_from (n := t.layout.size) (base := p.count) (m0 := countMem p) (hit := hit)
    (k := progThreads T t.layout.size (nonzeroCountProg nz t.storage
      ⟨t.layout.size, t.layout.dims, t.layout.strides, t.layout.offset⟩)) (by rw [hnum]; omega) rfl
    (fun _ _ => le_refl _) (by rw [hnum]; exact hT1) hst (countProg_ticket fun i hi => by
      rw [hnum] at hi
      obtain ⟨v, hv⟩ := ht.get (unravel_inRange hi)
      exact ⟨v, stridedRead_eq _ hi hv, by simp [hit, hv]⟩) (fun _ _ => rfl) (fun x hx => absurd hx (by omega)) rfl
  obtain ⟨_, B1, c2⟩ := launch_such (P := fun m1 => m1 (bCounter, 0) =
      some ((p.count + ((List.range t.layout.size).filter hit).length : Nat) : Int))
    (fun s => (a1 s).imp fun _ h => ⟨h.1, fun hf => (h.2 hf).2.1⟩) a2
  obtain ⟨s1, hs1⟩ := exists_fair B1 T
  obtain ⟨m1, h, hP⟩ := c2 s1 hs1
  rw [hnum, ← hlen] at hP
  refine ⟨s1, [0, 0], (((hhost s1 [0, 0]).2 m1 _ h hP).2 hne).2.1 ?_⟩
  generalize fillMem p _ = m0
  have hub : nonzeroFillProg nz t.storage ⟨t.layout.size, t.layout.dims, t.layout.strides, t.layout.offset⟩ 0 = .ub := by
    unfold nonzeroFillProg
    rw [if_pos hr]
  generalize hk : progThreads T t.layout.size (nonzeroFillProg nz t.storage
    ⟨t.layout.size, t.layout.dims, t.layout.strides, t.layout.offset⟩) = k
  have k1 : k.prog 0 = .ub := by rw [← hk]; exact hub
  have k2 : 0 < k.bound := by rw [← hk]; show 0 < t.layout.size; omega
  have s0 : (k.init m0).pc 0 = .head 0 := by
    rw [← hk]
    show (if 0 < T then PPc.head (u32 0) else .done) = _
    rw [if_pos (by omega), hst 0 (by omega)]
  have st1 : k.step (k.init m0) 0 = .ok ((k.init m0).goto 0 (.run 0 .ub)) := by
    unfold PKernel.step
    rw [s0]
    dsimp only
    rw [if_pos k2, k1]
  have st2 : k.step ((k.init m0).goto 0 (.run 0 .ub)) 0 = .ub := by
    unfold PKernel.step
    rw [show ((k.init m0).goto 0 (.run 0 .ub)).pc 0 = .run 0 .ub by simp [PSt.goto]]
  unfold PKernel.launch PKernel.exec
  simp only [Res.foldL, st1, st2, Res.bind]

/-- Rank 17. -/
example : ∃ s1 s2, nonzeroMetal 1024 (· != 0) ⟨0, 0, fun _ => 7, 0⟩
    (⟨[1], Layout.fromShape (List.replicate 17 1)⟩ : Tensor Int) s1 s2 = .ub :=
  C126_rank_ub _ ⟨by decide, by decide⟩ _ (fresh_wf (by decide)) (by decide) (by decide +kernel) (by decide +kernel)
    (by decide +kernel) (by decide +kernel)

/-- The order depends on the schedule; the CPU's is ascending. -/
theorem C126_order : (twoOnes.nonzero (· != 0)).map (·.storage) = .ok [0, 1] ∧
    (nonzeroMetal 1024 (· != 0) ⟨0, 0, fun _ => 7, 0⟩ twoOnes [0, 0, 0, 0, 1, 1, 1, 1] [0, 0, 0, 0, 0, 1, 1, 1, 1, 1]).map
      (·.map (·.out.storage)) = .ok (some [0, 1]) ∧
    (nonzeroMetal 1024 (· != 0) ⟨0, 0, fun _ => 7, 0⟩ twoOnes [0, 0, 0, 0, 1, 1, 1, 1] [1, 1, 1, 1, 1, 0, 0, 0, 0, 0]).map
      (·.map (·.out.storage)) = .ok (some [1, 0]) := by
  refine ⟨by decide +kernel, by decide +kernel, by decide +kernel⟩

/-! ## compress -/

theorem pooled_out {w size : Nat} (hw : 0 < w) (hs : ∀ k, w * size ≠ 2 ^ k + 1) (old : Nat → α) (extra : Nat) (x : Nat)
    (hx : x < size) :
    ((pooled (Mem.empty (V := α)) bOut (bufSize (w * size) / w + extra) old) (bOut, x)).isSome = true := by
  have h1 : w * size ≤ bufSize (w * size) := by
    by_contra hc
    obtain ⟨k, hk⟩ := bufSize_lt _ (by omega : bufSize (w * size) < w * size)
    exact hs k hk
  have h2 : size ≤ bufSize (w * size) / w := by
    rw [Nat.le_div_iff_mul_le hw, Nat.mul_comm]
    exact h1
  unfold pooled
  rw [if_pos rfl, if_pos (show x < bufSize (w * size) / w + extra by omega)]
  rfl

/-- The host side of compress around a kernel that writes `f`. -/
theorem compress_host {maxT w : Nat} (hm : GroupSize maxT) (hw : 0 < w) (old : Nat → α) (extra : Nat) {t : Tensor α}
    (ht : t.WF) {bs : List Bool} (hn : bs.length ≤ 2 ^ 32 - 1024) {axis : Option Int} {a : Option Nat}
    (ha : compressAxis t bs.length axis = .ok a) {dims : List Nat} {f : Nat → α}
    (hdims : dims = a.elim [(keptPositions (mask bs)).length] fun a => t.dims.set a (keptPositions (mask bs)).length)
    (h0 : (keptPositions (mask bs)).length = 0 → numel dims = 0) (hs : ∀ k, w * numel dims ≠ 2 ^ k + 1)
    (hk : Writes (compressProg t.storage bs ⟨t.layout.size, t.layout.dims, t.layout.strides, t.layout.offset, bs.length,
        if a.isSome then 1 else 0, a.getD 0⟩) bs.length (numel dims) f) :
    (∀ s, compressMetal maxT w old extra t (mask bs) axis s = .ok none ∨
      compressMetal maxT w old extra t (mask bs) axis s =
        .ok (some ⟨(List.range (numel dims)).map f, Layout.fromShape dims⟩)) ∧
    ∃ T B, ∀ s, (∀ u, u < T → B ≤ s.count u) → compressMetal maxT w old extra t (mask bs) axis s =
      .ok (some ⟨(List.range (numel dims)).map f, Layout.fromShape dims⟩) := by
  have hst : (mask bs).storage = bs := rfl
  have hcount : (bs.take bs.length).count true = (keptPositions (mask bs)).length := by
    rw [List.take_length]; exact kept_count bs
  have hdims' : (a.elim [(bs.take bs.length).count true] fun a => t.dims.set a ((bs.take bs.length).count true)) = dims := by
    rw [hdims, hcount]
  by_cases hz : (keptPositions (mask bs)).length = 0
  · have key : ∀ s, compressMetal maxT w old extra t (mask bs) axis s =
        .ok (some ⟨(List.range (numel dims)).map f, Layout.fromShape dims⟩) := by
      intro s
      unfold compressMetal
      rw [if_neg (by simp [mask, Tensor.dims, Layout.fromShape]), mask_size, ha, Res.ok_bind, hst, if_neg (by omega)]
      dsimp only
      rw [hdims', if_pos (by rw [hcount]; exact hz), h0 hz]
      rfl
    exact ⟨fun s => .inr (key s), 0, 0, fun s _ => key s⟩
  · have hpos : 0 < bs.length := by
      rcases Nat.eq_zero_or_pos bs.length with h | h
      · exact absurd (by rw [← hcount, List.length_eq_zero_iff.mp h]; rfl) hz
      · exact h
    obtain ⟨T, hT, hT1, hT2⟩ := linearSplit_ok hm.1 hm.2 hpos hn
    have hE := stores_from (size := numel dims) (k := progThreads T bs.length (compressProg t.storage bs
        ⟨t.layout.size, t.layout.dims, t.layout.strides, t.layout.offset, bs.length, if a.isSome then 1 else 0, a.getD 0⟩))
      (m0 := pooled (Mem.empty (V := α)) bOut (bufSize (w * numel dims) / w + extra) old)
      (fun _ _ => le_refl _) hT1 (fun u hu => u32_of_lt (lt_trans hu hT2)) (pooled_out hw hs old extra) hk
    obtain ⟨c1, B, c2⟩ := launch_ends hE
    have key : ∀ s r, (progThreads T bs.length (compressProg t.storage bs
        ⟨t.layout.size, t.layout.dims, t.layout.strides, t.layout.offset, bs.length,
          if a.isSome then 1 else 0, a.getD 0⟩)).launch
          (pooled (Mem.empty (V := α)) bOut (bufSize (w * numel dims) / w + extra) old) s = .ok r →
        compressMetal maxT w old extra t (mask bs) axis s =
          .ok (r.map fun m => ⟨m.read bOut (numel dims), Layout.fromShape dims⟩) := by
      intro s r hr
      unfold compressMetal
      rw [if_neg (by simp [mask, Tensor.dims, Layout.fromShape]), mask_size, ha, Res.ok_bind, hst, if_neg (by omega)]
      dsimp only
      rw [hdims', if_neg (by rw [hcount]; exact hz), decodeCompress_axis ht.1, Res.ok_bind]
      dsimp only
      rw [hT, Res.ok_bind, shapeSize_eq, hr, Res.ok_bind]
      cases r <;> rfl
    refine ⟨fun s => ?_, T, B, fun s hs => ?_⟩
    · rcases c1 s with h | h
      · exact .inl (key s _ h)
      · right
        rw [key s _ h, Option.map_some, read_out]
    · rw [key s _ (c2 s hs), Option.map_some, read_out]

/-- **C126**, compress: for every layout of the tensor and a fresh condition, every schedule that ends produces the
same tensor, the kept elements in order; fair schedules end, also for an empty condition.  Missing, and false:
conditions that are views (`C126_condition_view`), results of 2^k + 1 bytes (`C126_compress_ub`). -/
theorem C126_compress_partial {maxT w : Nat} (hm : GroupSize maxT) (hw : 0 < w) (old : Nat → α) (extra : Nat)
    {t : Tensor α} (ht : t.WF) (bs : List Bool) (hn : bs.length ≤ 2 ^ 32 - 1024) :
    (bs.length = numel t.dims → (∀ k, w * (keptPositions (mask bs)).length ≠ 2 ^ k + 1) →
      ∃ y, IsCompressFlat t (mask bs) y ∧
        (∀ s, compressMetal maxT w old extra t (mask bs) none s = .ok none ∨
          compressMetal maxT w old extra t (mask bs) none s = .ok (some y)) ∧
        ∃ T B, ∀ s, (∀ u, u < T → B ≤ s.count u) → compressMetal maxT w old extra t (mask bs) none s = .ok (some y)) ∧
    ∀ (axis : Int) (a : Nat), IsAxis t.dims.length axis a → t.dims[a]? = some bs.length →
      (∀ k, w * numel (t.dims.set a (keptPositions (mask bs)).length) ≠ 2 ^ k + 1) →
      ∃ y, IsCompressAxis t (mask bs) a y ∧
        (∀ s, compressMetal maxT w old extra t (mask bs) (some axis) s = .ok none ∨
          compressMetal maxT w old extra t (mask bs) (some axis) s = .ok (some y)) ∧
        ∃ T B, ∀ s, (∀ u, u < T → B ≤ s.count u) →
          compressMetal maxT w old extra t (mask bs) (some axis) s = .ok (some y) := by
  constructor
  · intro hk hs
    have ha : compressAxis t bs.length none = .ok none := by
      unfold compressAxis; simp only; rw [if_neg (by rw [show t.layout.size = numel t.dims from shapeSize_eq _, hk]; simp)]
    obtain ⟨f, hf, hy⟩ := compress_flat_writes (old 0) ht bs hk
    have hnum : numel [(keptPositions (mask bs)).length] = (keptPositions (mask bs)).length := by simp [numel]
    obtain ⟨h1, h2⟩ := compress_host hm hw old extra ht hn ha (dims := [(keptPositions (mask bs)).length]) rfl
      (by simp [numel]) (by rw [hnum]; exact hs) hf
    exact ⟨_, hy, h1, h2⟩
  · intro axis a hax hk hs
    obtain ⟨f, hf, hy⟩ := compress_axis_writes (old 0) ht bs hk
    obtain ⟨h1, h2⟩ := compress_host hm hw old extra ht hn (compressAxis_some hax hk)
      (dims := t.dims.set a (keptPositions (mask bs)).length) rfl
      (numel_set_zero (List.getElem?_eq_some_iff.mp hk).1) hs hf
    exact ⟨_, hy, h1, h2⟩

/-- No power of two is one less than an even number above two. -/
theorem even_ne {n : Nat} (h : n % 2 = 0) (h2 : n ≠ 2) (k : Nat) : n ≠ 2 ^ k + 1 := by
  cases k with
  | zero => simpa using h2
  | succ k => rw [Nat.pow_succ]; omega

/-- Rows 0 and 2 of a transposed matrix, elements of four bytes. -/
example : ∃ y, IsCompressAxis transposed (mask [true, false, true]) 0 y ∧ ∃ s,
    compressMetal 1024 4 (fun _ => 0) 0 transposed (mask [true, false, true]) (some (-2)) s = .ok (some y) := by
  obtain ⟨y, h1, _, T, B, h3⟩ := (C126_compress_partial (maxT := 1024) (w := 4) ⟨by decide, by decide⟩ (by decide)
    (fun _ => (0 : Int)) 0 transposed_wf [true, false, true] (by decide)).2 (-2) 0 (by unfold IsAxis; decide) rfl
    (even_ne (by decide) (by decide))
  obtain ⟨s, hs⟩ := exists_fair B T
  exact ⟨y, h1, s, h3 s hs⟩

/-- Three kept elements of one byte get a buffer of two bytes: the third is written behind it. -/
theorem C126_compress_ub : compressMetal 1024 1 (fun _ => (0 : Int)) 0 ⟨[5, 6, 7], ⟨[3], [1], 0⟩⟩
    (mask [true, true, true]) none [2, 2] = .ub := by
  rfl

/-- A condition with an offset is read from the start of its buffer, and a broadcast one beyond its end: not the
elements of the specification. -/
theorem C126_condition_view :
    keptPositions ⟨[true, false, true], ⟨[2], [1], 1⟩⟩ = [1] ∧
    (compressMetal 1024 4 (fun _ => (0 : Int)) 0 ⟨[5, 6], ⟨[2], [1], 0⟩⟩ ⟨[true, false, true], ⟨[2], [1], 1⟩⟩ none
      [0, 0, 0, 0, 1, 1, 1, 1]).map (·.map (·.storage)) = .ok (some [5]) ∧
    keptPositions ⟨[true], ⟨[2], [0], 0⟩⟩ = [0, 1] ∧
    ∀ s, compressMetal 1024 4 (fun _ => (0 : Int)) 0 ⟨[5, 6], ⟨[2], [1], 0⟩⟩ ⟨[true], ⟨[2], [0], 0⟩⟩ none s = .ub :=
  ⟨by decide +kernel, by decide +kernel, by decide +kernel, fun _ => rfl⟩

end Hodu.Metal
