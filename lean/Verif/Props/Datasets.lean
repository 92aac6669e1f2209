import Verif.Model.Datasets
import Verif.Props.Views2
import Verif.Props.Concat

/-!
# Properties C40–C44: samplers, data loader, splits, concatenated datasets, batches
-/

namespace Hodu
open Spec

/-! ## C40 -/

/-- `bs` cuts `seq` into consecutive batches of `size` elements: all of them are full except possibly the last,
which is never empty; with `dropLast` a short remainder is left out, otherwise nothing is. -/
structure Spec.IsBatches (size : Nat) (dropLast : Bool) (seq : List α) (bs : List (List α)) : Prop where
  rest : ∃ r, bs.flatten ++ r = seq ∧ r.length < size ∧ (dropLast = false → r = [])
  nonempty : ∀ b ∈ bs, 0 < b.length ∧ b.length ≤ size
  full : ∀ i (h : i < bs.length), (dropLast = true ∨ i + 1 < bs.length) → bs[i].length = size

theorem swapR_ok {l : List α} {i j : Nat} (hi : i < l.length) (hj : j < l.length) :
    swapR l i j = .ok ((l.set i l[j]).set j l[i]) := by
  simp [swapR, readR_ok hi, readR_ok hj]

theorem shuffleFrom_perm {draw : Nat → Nat} : ∀ (i : Nat) (l : List α), (i = 0 ∨ i < l.length) →
    (∀ k, 1 ≤ k → k < l.length → draw k ≤ k) → ∃ r, shuffleFrom draw i l = .ok r ∧ r.Perm l
  | 0, l, _, _ => ⟨l, rfl, .refl _⟩
  | i + 1, l, h, hd => by
    have hi : i + 1 < l.length := by omega
    have hj : draw (i + 1) < l.length := by have := hd (i + 1) (by omega) hi; omega
    obtain ⟨r, h1, h2⟩ := shuffleFrom_perm i ((l.set (i + 1) l[draw (i + 1)]).set (draw (i + 1)) l[i + 1])
      (by simp; omega) (by simpa using hd)
    refine ⟨r, ?_, h2.trans (List.set_set_perm hi hj)⟩
    rw [shuffleFrom, swapR_ok hi hj, Res.ok_bind, h1]

theorem shuffle_perm {draw : Nat → Nat} {l : List α} (hd : ∀ k, 1 ≤ k → k < l.length → draw k ≤ k) :
    ∃ r, shuffle draw l = .ok r ∧ r.Perm l :=
  shuffleFrom_perm _ l (by omega) hd

/-- **C40, samplers.**  The sequential sampler yields `0, 1, .., n-1`; the random sampler yields a permutation of it
for every outcome of the generator, never panicking; with given indices, a permutation of those. -/
theorem C40_samplers (n : Nat) (draw : Nat → Nat) (hd : ∀ k, draw k ≤ k) :
    (∀ i, (sequentialSampler n)[i]? = if i < n then some i else none) ∧
    (∃ r, randomSampler draw n = .ok r ∧ r.Nodup ∧ (∀ i, i ∈ r ↔ i < n) ∧ r.length = n) ∧
    ∀ l, ∃ r, randomSamplerWith draw l = .ok r ∧ r.Perm l := by
  refine ⟨fun i => ?_, ?_, fun l => shuffle_perm (fun k _ _ => hd k)⟩
  · by_cases h : i < n <;> simp [sequentialSampler, h]
  · obtain ⟨r, h1, h2⟩ := shuffle_perm (draw := draw) (l := List.range n) (fun k _ _ => hd k)
    exact ⟨r, h1, h2.nodup_iff.mpr List.nodup_range, fun i => by rw [h2.mem_iff, List.mem_range],
      by rw [h2.length_eq, List.length_range]⟩

example : randomSampler (fun k => k / 2) 5 = .ok [4, 0, 3, 1, 2] := by decide

/-- The shuffle reaches every order: whatever permutation of a duplicate-free list is wanted, some outcome of
the generator produces it. -/
theorem C40_every_order {l r : List α} (h : r.Perm l) :
    ∃ draw : Nat → Nat, (∀ k, draw k ≤ k) ∧ shuffle draw l = .ok r := by
  suffices H : ∀ (i : Nat) (l r : List α), r.Perm l → (∀ k, i < k → r[k]? = l[k]?) → (i = 0 ∨ i < l.length) →
      ∃ draw : Nat → Nat, (∀ k, draw k ≤ k) ∧ shuffleFrom draw i l = .ok r by
    exact H _ l r h (fun k hk => by
      have := h.length_eq
      rw [List.getElem?_eq_none (by omega), List.getElem?_eq_none (by omega)]) (by omega)
  clear h l r
  intro i
  induction i with
  | zero =>
    intro l r h hk _
    refine ⟨fun k => 0, by simp, ?_⟩
    have : r = l := by
      have hl := h.length_eq
      match l, r, hl with
      | [], [], _ => rfl
      | a :: l', b :: r', hl =>
        have e : r' = l' := by
          apply List.ext_getElem?
          intro k
          simpa using hk (k + 1) (by omega)
        subst e
        have hp : ([b] ++ r').Perm ([a] ++ r') := h
        have h1 : [b].Perm [a] := (List.perm_append_right_iff r').mp hp
        have : b = a := by simpa using h1
        rw [this]
    rw [shuffleFrom, this]
  | succ i ih =>
    intro l r h hk hi
    have hi : i + 1 < l.length := by omega
    have hl := h.length_eq
    -- the element wanted at position `i + 1` is among the first `i + 2` of `l`
    have htail : r.drop (i + 2) = l.drop (i + 2) := by
      apply List.ext_getElem?
      intro k
      simp only [List.getElem?_drop]
      exact hk _ (by omega)
    have hhead : (r.take (i + 2)).Perm (l.take (i + 2)) := by
      have := h
      rw [← List.take_append_drop (i + 2) r, ← List.take_append_drop (i + 2) l, htail] at this
      exact (List.perm_append_right_iff _).mp this
    have hmem : r[i + 1] ∈ l.take (i + 2) := by
      rw [← hhead.mem_iff, List.mem_take_iff_getElem]
      exact ⟨i + 1, by omega, rfl⟩
    obtain ⟨j, hj, hje⟩ := List.mem_take_iff_getElem.mp hmem
    have hj1 : j ≤ i + 1 := by omega
    have hjl : j < l.length := by omega
    have hp2 := List.set_set_perm (as := l) hi hjl
    obtain ⟨draw, hd1, hd2⟩ := ih ((l.set (i + 1) l[j]).set j l[i + 1]) r (h.trans hp2.symm) (by
      intro k hki
      by_cases hk1 : k = i + 1
      · subst hk1
        rw [List.getElem?_eq_getElem (by omega)]
        by_cases hji : j = i + 1
        · subst hji; simp [hi, ← hje]
        · rw [List.getElem?_set_ne hji]; simp [hi, hje]
      · rw [List.getElem?_set_ne (by omega), List.getElem?_set_ne (by omega)]
        exact hk k (by omega)) (by simp; omega)
    refine ⟨fun k => if k = i + 1 then j else draw k, fun k => ?_, ?_⟩
    · by_cases h1 : k = i + 1
      · simp [h1, hj1]
      · simp [h1, hd1]
    · rw [shuffleFrom]
      simp only [if_true]
      rw [swapR_ok hi hjl, Res.ok_bind]
      rw [← hd2]
      -- the remaining steps use only draws at positions `≤ i`
      have : ∀ (m : Nat) (l : List α), m ≤ i →
          shuffleFrom (fun k => if k = i + 1 then j else draw k) m l = shuffleFrom draw m l := by
        intro m
        induction m with
        | zero => intros; rfl
        | succ m ihm =>
          intro l hm
          simp only [shuffleFrom, if_neg (show m + 1 ≠ i + 1 by omega)]
          congr 1
          funext l'
          exact ihm l' (by omega)
      exact this i _ (le_refl _)

theorem isBatches_chunks {size : Nat} (hs : 0 < size) (dropLast : Bool) :
    ∀ (fuel : Nat) (l : List α), l.length ≤ fuel →
      IsBatches size dropLast l (keepBatches size dropLast (chunksFuel size fuel l))
  | 0, l, h => by
    have : l = [] := by simpa using h
    subst this
    exact ⟨⟨[], by simp [chunksFuel, keepBatches], by simpa using hs, fun _ => rfl⟩,
      by simp [chunksFuel, keepBatches], by simp [chunksFuel, keepBatches]⟩
  | fuel + 1, l, h => by
    by_cases hl : l = []
    · subst hl
      exact ⟨⟨[], by simp [chunksFuel, keepBatches], by simpa using hs, fun _ => rfl⟩,
        by simp [chunksFuel, keepBatches], by simp [chunksFuel, keepBatches]⟩
    · have hpos : 0 < l.length := List.length_pos_iff.mpr hl
      have e : chunksFuel size (fuel + 1) l = l.take size :: chunksFuel size fuel (l.drop size) := by
        rw [chunksFuel, if_neg (by simpa using hl)]
      rw [e, keepBatches]
      by_cases hshort : l.length < size
      · have hd : l.drop size = [] := List.drop_eq_nil_of_le (by omega)
        have ht : l.take size = l := List.take_of_length_le (by omega)
        have hc : chunksFuel size fuel (l.drop size) = [] := by
          rw [hd]; cases fuel <;> simp [chunksFuel]
        rw [hc, ht]
        cases dropLast with
        | true =>
          rw [if_pos (by simp [hshort])]
          exact ⟨⟨l, by simp, hshort, by simp⟩, by simp, by simp⟩
        | false =>
          rw [if_neg (by simp)]
          exact ⟨⟨[], by simp [keepBatches], by simpa using hs, fun _ => rfl⟩,
            by simp [keepBatches]; omega, by simp [keepBatches]⟩
      · have hlen : (l.take size).length = size := by simp; omega
        rw [if_neg (by simp [hlen])]
        obtain ⟨⟨r, h1, h2, h3⟩, h4, h5⟩ := isBatches_chunks hs dropLast fuel (l.drop size) (by simp; omega)
        refine ⟨⟨r, ?_, h2, h3⟩, ?_, ?_⟩
        · rw [List.flatten_cons, List.append_assoc, h1, List.take_append_drop]
        · intro b hb
          rcases List.mem_cons.mp hb with rfl | hb
          · omega
          · exact h4 b hb
        · intro i hi hcond
          cases i with
          | zero => exact hlen
          | succ i =>
            simp only [List.getElem_cons_succ]
            apply h5 i (by simpa using hi)
            rcases hcond with h | h
            · exact .inl h
            · exact .inr (by simpa using h)

/-- **C40, batch sampler.**  Batches of the requested size, in order, joined they give the sequence; with
`drop_last` exactly an incomplete last batch is missing. -/
theorem C40_batches (seq : List Nat) (size : Nat) (dropLast : Bool) :
    (size = 0 → batchSampler seq size dropLast = .panic) ∧
    (0 < size → ∃ bs, batchSampler seq size dropLast = .ok bs ∧ IsBatches size dropLast seq bs) := by
  refine ⟨fun h => by simp [batchSampler, h], fun h => ⟨_, ?_, isBatches_chunks h dropLast _ _ (le_refl _)⟩⟩
  rw [batchSampler, if_neg (by omega)]

example : batchSampler [3, 1, 4, 0, 2] 2 false = .ok [[3, 1], [4, 0], [2]] ∧
    batchSampler [3, 1, 4, 0, 2] 2 true = .ok [[3, 1], [4, 0]] := by decide

/-- `IsBatches` determines the batches. -/
theorem isBatches_unique {size : Nat} {dl : Bool} {seq : List α} {a b : List (List α)}
    (ha : IsBatches size dl seq a) (hb : IsBatches size dl seq b) : a = b := by
  induction a generalizing seq b with
  | nil =>
    obtain ⟨⟨r, h1, h2, h3⟩, _, _⟩ := ha
    cases b with
    | nil => rfl
    | cons c b =>
      exfalso
      obtain ⟨⟨r', h1', h2', h3'⟩, h4', h5'⟩ := hb
      simp only [List.flatten_nil, List.nil_append] at h1
      subst h1
      have hc := (h4' c (by simp)).1
      have hlen := congrArg List.length h1'
      simp only [List.flatten_cons, List.length_append] at hlen
      cases dl with
      | true => have := h5' 0 (by simp) (.inl rfl); simp at this; omega
      | false => have := h3 rfl; subst this; simp only [List.length_nil] at hlen; omega
  | cons x a ih =>
    cases b with
    | nil =>
      exfalso
      obtain ⟨⟨r, h1, h2, h3⟩, h4, h5⟩ := ha
      obtain ⟨⟨r', h1', h2', h3'⟩, _, _⟩ := hb
      simp only [List.flatten_nil, List.nil_append] at h1'
      subst h1'
      have hc := (h4 x (by simp)).1
      have hlen := congrArg List.length h1
      simp only [List.flatten_cons, List.length_append] at hlen
      cases dl with
      | true => have := h5 0 (by simp) (.inl rfl); simp at this; omega
      | false => have := h3' rfl; subst this; simp only [List.length_nil] at hlen; omega
    | cons y b =>
      obtain ⟨⟨r, h1, h2, h3⟩, h4, h5⟩ := ha
      obtain ⟨⟨r', h1', h2', h3'⟩, h4', h5'⟩ := hb
      have hseq : x ++ (a.flatten ++ r) = y ++ (b.flatten ++ r') := by
        simp only [List.flatten_cons, List.append_assoc] at h1 h1'
        rw [h1, h1']
      have hxy : x.length = y.length := by
        have hx := h4 x (by simp)
        have hy := h4' y (by simp)
        have hlen := congrArg List.length hseq
        simp only [List.length_append] at hlen
        cases dl with
        | true =>
          have := h5 0 (by simp) (.inl rfl)
          have := h5' 0 (by simp) (.inl rfl)
          simp at *; omega
        | false =>
          have e1 := h3 rfl; have e2 := h3' rfl
          subst e1 e2
          have fx : a ≠ [] → x.length = size := fun hne => by
            have := h5 0 (by simp) (.inr (by simp [List.length_pos_iff.mpr hne])); simpa using this
          have fy : b ≠ [] → y.length = size := fun hne => by
            have := h5' 0 (by simp) (.inr (by simp [List.length_pos_iff.mpr hne])); simpa using this
          by_cases ea : a = [] <;> by_cases eb : b = []
          · subst ea eb; simp at hlen; exact hlen
          · have := fy eb; subst ea
            simp only [List.flatten_nil, List.length_nil] at hlen; omega
          · have := fx ea; subst eb
            simp only [List.flatten_nil, List.length_nil] at hlen; omega
          · rw [fx ea, fy eb]
      obtain ⟨hx, ht⟩ := List.append_inj hseq hxy
      subst hx
      congr 1
      apply ih (seq := a.flatten ++ r)
      · refine ⟨⟨r, rfl, h2, h3⟩, fun b hb => h4 b (by simp [hb]), fun i hi hc => ?_⟩
        have := h5 (i + 1) (by simpa using hi) (hc.imp_right (by simp))
        simpa using this
      · refine ⟨⟨r', ht.symm, h2', h3'⟩, fun b hb => h4' b (by simp [hb]), fun i hi hc => ?_⟩
        have := h5' (i + 1) (by simpa using hi) (hc.imp_right (by simp))
        simpa using this

/-! ## C41 -/

/-- What a user can do to a loader. -/
inductive LoaderOp
  | next
  | reset

/-- The loader after a sequence of calls; the results of the calls themselves, errors included, are ignored. -/
def Loader.after (rng : Nat → Nat → Nat) (get : Nat → Res ι) (collate : List ι → Res β) :
    List LoaderOp → Loader → Res Loader
  | [], l => .ok l
  | .next :: ops, l => Loader.after rng get collate ops (l.nextBatch get collate).2
  | .reset :: ops, l => (l.reset rng).bind fun l' => Loader.after rng get collate ops l'

/-- Number of resets in a history. -/
def resets : List LoaderOp → Nat
  | [] => 0
  | .next :: ops => resets ops
  | .reset :: ops => resets ops + 1

/-- What stays true of a loader. -/
structure Loader.Inv (n bs : Nat) (dl : Bool) (seed : Option Nat) (ep : Nat) (l : Loader) : Prop where
  n_eq : l.n = n
  bs_eq : l.batchSize = bs
  dl_eq : l.dropLast = dl
  seed_eq : l.seed = seed
  ep_eq : l.epoch = ep
  perm : l.indices.Perm (List.range n)
  cur_le : l.cur ≤ n

theorem Loader.shuffleIndices_inv {rng : Nat → Nat → Nat} (hr : ∀ s k, rng s k ≤ k) {l : Loader}
    {n bs dl seed ep} (h : l.Inv n bs dl seed ep) (hov : seed.getD 0 + ep < 2 ^ 64) :
    ∃ l', l.shuffleIndices rng = .ok l' ∧ l'.Inv n bs dl seed ep ∧ l'.cur = l.cur ∧ l'.shuffle = l.shuffle := by
  obtain ⟨ix, h1, h2⟩ := shuffle_perm (draw := rng (l.seed.getD 0 + l.epoch)) (l := l.indices)
    (fun k _ _ => hr _ k)
  refine ⟨{ l with indices := ix }, ?_, ⟨h.n_eq, h.bs_eq, h.dl_eq, h.seed_eq, h.ep_eq, h2.trans h.perm,
    h.cur_le⟩, rfl, rfl⟩
  rw [Loader.shuffleIndices, if_neg (by rw [h.seed_eq, h.ep_eq]; omega), h1, Res.ok_bind]

theorem Loader.reset_inv {rng : Nat → Nat → Nat} (hr : ∀ s k, rng s k ≤ k) {l : Loader}
    {n bs dl seed ep} (h : l.Inv n bs dl seed ep) (hov : seed.getD 0 + (ep + 1) < 2 ^ 64) :
    ∃ l', l.reset rng = .ok l' ∧ l'.Inv n bs dl seed (ep + 1) ∧ l'.cur = 0 := by
  have h1 : ({ l with cur := 0, epoch := l.epoch + 1 } : Loader).Inv n bs dl seed (ep + 1) :=
    ⟨h.n_eq, h.bs_eq, h.dl_eq, h.seed_eq, by simp [h.ep_eq], h.perm, by simp⟩
  rw [Loader.reset, if_neg (by rw [h.ep_eq]; omega)]
  simp only
  by_cases hs : l.shuffle = true
  · rw [if_pos hs]
    obtain ⟨l', h2, h3, h4, _⟩ := Loader.shuffleIndices_inv hr h1 hov
    exact ⟨l', h2, h3, h4⟩
  · rw [if_neg hs]
    exact ⟨_, rfl, h1, rfl⟩

theorem Loader.nextBatch_inv (get : Nat → Res ι) (collate : List ι → Res β) {l : Loader}
    {n bs dl seed ep} (h : l.Inv n bs dl seed ep) : (l.nextBatch get collate).2.Inv n bs dl seed ep := by
  rw [Loader.nextBatch]
  split
  · exact h
  · split
    · split
      · exact ⟨h.n_eq, h.bs_eq, h.dl_eq, h.seed_eq, h.ep_eq, h.perm, by simp [h.n_eq]⟩
      all_goals exact h
    all_goals exact h

theorem Loader.after_inv {rng : Nat → Nat → Nat} (hr : ∀ s k, rng s k ≤ k) (get : Nat → Res ι)
    (collate : List ι → Res β) {n bs dl seed} (ops : List LoaderOp) {ep : Nat} {l : Loader}
    (h : l.Inv n bs dl seed ep) (hov : seed.getD 0 + (ep + resets ops) < 2 ^ 64) :
    ∃ l', Loader.after rng get collate ops l = .ok l' ∧ l'.Inv n bs dl seed (ep + resets ops) := by
  induction ops generalizing l ep with
  | nil => exact ⟨l, rfl, h⟩
  | cons op ops ih =>
    cases op with
    | next => exact ih (Loader.nextBatch_inv get collate h) hov
    | reset =>
      obtain ⟨l', h1, h2, _⟩ := Loader.reset_inv hr h (by simp only [resets] at hov; omega)
      obtain ⟨l'', h3, h4⟩ := ih h2 (by simp only [resets] at hov; omega)
      refine ⟨l'', ?_, ?_⟩
      · rw [Loader.after, h1, Res.ok_bind, h3]
      · simp only [resets]; rw [show ep + (resets ops + 1) = ep + 1 + resets ops by omega]; exact h4

theorem mapL_ok_exists {f : α → Res β} {l : List α} (h : ∀ a ∈ l, ∃ b, f a = .ok b) :
    ∃ bs, Res.mapL f l = .ok bs := by
  induction l with
  | nil => exact ⟨[], rfl⟩
  | cons a l ih =>
    obtain ⟨b, hb⟩ := h a (by simp)
    obtain ⟨bs, hbs⟩ := ih (fun x hx => h x (by simp [hx]))
    exact ⟨b :: bs, by simp [Res.mapL, hb, hbs]⟩

/-- The rest of an epoch from position `cur`. -/
theorem Loader.run_spec (get : Nat → Res ι) (collate : List ι → Res β) {n bs : Nat} {dl : Bool}
    {seed : Option Nat} {ep : Nat} (hbs : 0 < bs) (hget : ∀ i, i < n → ∃ x, get i = .ok x)
    (hcol : ∀ xs, xs ≠ [] → ∃ b, collate xs = .ok b) :
    ∀ (fuel : Nat) (l : Loader), l.Inv n bs dl seed ep → n - l.cur < fuel →
      ∃ ixs bats l', IsBatches bs dl (l.indices.drop l.cur) ixs ∧
        Res.mapL (fun ix => (Res.mapL get ix).bind collate) ixs = .ok bats ∧
        l.run get collate fuel = .ok (bats, l') ∧ l'.hasNext = false ∧ l'.Inv n bs dl seed ep
  | 0, l, _, hf => absurd hf (by omega)
  | fuel + 1, l, h, hf => by
    have hlen : l.indices.length = n := by rw [h.perm.length_eq, List.length_range]
    by_cases hn : l.hasNext = false
    · refine ⟨[], [], l, ⟨⟨l.indices.drop l.cur, by simp, ?_, ?_⟩, by simp, by simp⟩, rfl, ?_, hn, h⟩
      · simp only [Loader.hasNext, h.n_eq, h.bs_eq, h.dl_eq] at hn
        simp only [List.length_drop, hlen]
        by_cases h1 : n ≤ l.cur
        · omega
        · rw [if_neg h1] at hn
          cases dl <;> simp at hn
          omega
      · intro hdl
        simp only [Loader.hasNext, h.n_eq, h.bs_eq, h.dl_eq, hdl] at hn
        apply List.drop_eq_nil_of_le
        rw [hlen]
        by_cases h1 : n ≤ l.cur
        · exact h1
        · simp [h1] at hn
      · rw [Loader.run, Loader.nextBatch, if_pos hn]
    · have hcur : l.cur < n := by
        by_contra hc
        exact hn (by simp [Loader.hasNext, h.n_eq]; intro; omega)
      have hfull : dl = true → l.cur + bs ≤ n := by
        intro hdl
        by_contra hc
        exact hn (by simp [Loader.hasNext, h.n_eq, h.bs_eq, h.dl_eq, hdl]; omega)
      let stop := min (l.cur + bs) n
      let ix := (l.indices.take stop).drop l.cur
      have hix : l.batchIndices = .ok ix := by
        simp only [Loader.batchIndices, h.n_eq, h.bs_eq]
        rw [if_neg (by rw [hlen]; omega)]
      have hixlen : ix.length = stop - l.cur := by
        simp only [ix, List.length_drop, List.length_take, hlen]; omega
      have hlt : ∀ i ∈ ix, i < n := by
        intro i hi
        have := List.mem_of_mem_take (List.mem_of_mem_drop hi)
        simpa using (h.perm.mem_iff.mp this)
      obtain ⟨items, hitems⟩ := mapL_ok_exists (f := get) (fun i hi => hget i (hlt i hi))
      have hne : items ≠ [] := by
        have := (Res.mapL_ok_inv hitems).1
        intro e
        subst e
        simp at this
        omega
      obtain ⟨b, hb⟩ := hcol items hne
      let l1 : Loader := { l with cur := stop }
      have hl1 : l1.Inv n bs dl seed ep :=
        ⟨h.n_eq, h.bs_eq, h.dl_eq, h.seed_eq, h.ep_eq, h.perm, by simp [l1, stop]⟩
      obtain ⟨ixs, bats, l', k1, k2, k3, k4, k5⟩ := Loader.run_spec get collate hbs hget hcol fuel l1 hl1
        (by simp only [l1, stop]; omega)
      have hsplit : l.indices.drop l.cur = ix ++ l.indices.drop stop := by
        have e : l.indices = l.indices.take stop ++ l.indices.drop stop := (List.take_append_drop _ _).symm
        conv_lhs => rw [e]
        rw [List.drop_append_of_le_length (by simp [hlen]; omega)]
      refine ⟨ix :: ixs, b :: bats, l', ⟨?_, ?_, ?_⟩, ?_, ?_, k4, k5⟩
      · obtain ⟨r, e1, e2, e3⟩ := k1.rest
        refine ⟨r, ?_, e2, e3⟩
        rw [List.flatten_cons, List.append_assoc, e1, hsplit]
      · intro c hc
        rcases List.mem_cons.mp hc with rfl | hc
        · omega
        · exact k1.nonempty c hc
      · intro i hi hcond
        cases i with
        | zero =>
          simp only [List.getElem_cons_zero, hixlen]
          rcases hcond with hd | hd
          · have := hfull hd; omega
          · -- there is a further, non-empty batch, so this one was not cut short
            have hpos : 0 < ixs.length := by simpa using hd
            have hm := (k1.nonempty ixs[0] (List.getElem_mem hpos)).1
            obtain ⟨r, e1, _, _⟩ := k1.rest
            have hl := congrArg List.length e1
            have hge : ixs[0].length ≤ ixs.flatten.length := by
              cases ixs with
              | nil => simp at hpos
              | cons c cs => simp
            simp only [l1, List.length_append, List.length_drop, hlen] at hl
            omega
        | succ i =>
          simp only [List.getElem_cons_succ]
          exact k1.full i (by simpa using hi) (hcond.imp_right (by simp))
      · simp [Res.mapL, hitems, hb, k2]
      · have hnb : l.nextBatch get collate = (.ok (some b), l1) := by
          rw [Loader.nextBatch, if_neg hn, hix]
          simp only [hitems, hb, Res.map, h.n_eq, h.bs_eq, l1, stop]
        rw [Loader.run, hnb]
        simp only [k3, Res.ok_bind]

/-- Counting batches. -/
theorem isBatches_count {size : Nat} (hs : 0 < size) {dl : Bool} {seq : List α} {bs : List (List α)}
    (h : IsBatches size dl seq bs) :
    bs.length = if dl then seq.length / size else (seq.length + size - 1) / size := by
  obtain ⟨⟨r, h1, h2, h3⟩, h4, h5⟩ := h
  have hl := congrArg List.length h1
  rw [List.length_append, List.length_flatten] at hl
  cases dl with
  | true =>
    have : (bs.map List.length).sum = size * bs.length := by
      have : bs.map List.length = List.replicate bs.length size := by
        apply List.ext_getElem (by simp)
        intro i hi _
        simp only [List.getElem_map, List.getElem_replicate]
        exact h5 i (by simpa using hi) (.inl rfl)
      rw [this, List.sum_replicate, nsmul_eq_mul, Nat.cast_id, Nat.mul_comm]
    rw [this] at hl
    rw [if_pos rfl, ← hl, Nat.mul_add_div hs, Nat.div_eq_of_lt h2]
    rfl
  | false =>
    have e := h3 rfl
    subst e
    simp only [List.length_nil, Nat.add_zero, Bool.false_eq_true, if_false] at hl ⊢
    rcases List.eq_nil_or_concat bs with rfl | ⟨init, last, rfl⟩
    · simp only [List.map_nil, List.sum_nil] at hl
      rw [← hl, Nat.zero_add, Nat.div_eq_of_lt (by omega)]
      rfl
    · have hinit : init.map List.length = List.replicate init.length size := by
        apply List.ext_getElem (by simp)
        intro i hi _
        simp only [List.getElem_map, List.getElem_replicate]
        simp only [List.length_map] at hi
        have := h5 i (by simp; omega) (.inr (by simp; omega))
        simpa [List.getElem_append_left hi] using this
      have hlast := h4 last (by simp)
      simp only [List.concat_eq_append, List.map_append, List.sum_append, hinit, List.sum_replicate, nsmul_eq_mul, Nat.cast_id,
        List.map_cons, List.map_nil, List.sum_cons, List.sum_nil, Nat.add_zero] at hl
      rw [← hl, List.concat_eq_append, List.length_append, List.length_singleton]
      symm
      rw [show init.length * size + last.length + size - 1 = size * (init.length + 1) + (last.length - 1) by
        rw [Nat.mul_add, Nat.mul_comm]; omega]
      rw [Nat.mul_add_div hs, Nat.div_eq_of_lt (by omega)]

/-- What one epoch must deliver: the collated items of batches that cut some order of all indices into
consecutive pieces; `num_batches` counts them; and then the loader reports the end. -/
def Spec.EpochOf (get : Nat → Res ι) (collate : List ι → Res β) (n bs : Nat) (dl : Bool) (l : Loader) : Prop :=
  ∃ order ixs bats l', order.Nodup ∧ (∀ i, i ∈ order ↔ i < n) ∧ IsBatches bs dl order ixs ∧
    Res.mapL (fun ix => (Res.mapL get ix).bind collate) ixs = .ok bats ∧
    (∀ fuel, n < fuel → l.run get collate fuel = .ok (bats, l')) ∧
    (l'.nextBatch get collate).1 = .ok none ∧
    l.numBatches = .ok bats.length

theorem Loader.epoch_of_inv {get : Nat → Res ι} {collate : List ι → Res β} {n bs dl seed ep} (hbs : 0 < bs)
    (hget : ∀ i, i < n → ∃ x, get i = .ok x) (hcol : ∀ xs, xs ≠ [] → ∃ b, collate xs = .ok b)
    {l : Loader} (h : l.Inv n bs dl seed ep) (hcur : l.cur = 0) : EpochOf get collate n bs dl l := by
  obtain ⟨ixs, bats, l', k1, k2, k3, k4, k5⟩ := Loader.run_spec get collate hbs hget hcol (n + 1) l h (by omega)
  rw [hcur, List.drop_zero] at k1
  refine ⟨l.indices, ixs, bats, l', h.perm.nodup_iff.mpr List.nodup_range,
    fun i => by rw [h.perm.mem_iff, List.mem_range], k1, k2, fun fuel hf => ?_, ?_, ?_⟩
  · -- more fuel makes no difference
    have mono : ∀ (f : Nat) (l : Loader) (r : List β × Loader), l.run get collate f = .ok r →
        r.2.hasNext = false → ∀ g, f ≤ g → l.run get collate g = .ok r := by
      intro f
      induction f with
      | zero =>
        intro l r h hn g _
        simp only [Loader.run, Res.ok.injEq] at h
        subst h
        cases g with
        | zero => rfl
        | succ g => rw [Loader.run, Loader.nextBatch, if_pos hn]
      | succ f ih =>
        intro l r h hn g hg
        obtain ⟨g, rfl⟩ : ∃ g', g = g' + 1 := ⟨g - 1, by omega⟩
        rw [Loader.run] at h ⊢
        generalize hb : l.nextBatch get collate = nb at h ⊢
        obtain ⟨res, l1⟩ := nb
        cases res with
        | ok ob =>
          cases ob with
          | none => exact h
          | some b =>
            simp only [Res.bind_eq_ok] at h
            obtain ⟨r', h1, h2⟩ := h
            cases h2
            have := ih l1 r' h1 hn g (by omega)
            simp only [this, Res.ok_bind]
        | err => simp at h
        | panic => simp at h
        | ub => simp at h
    exact mono (n + 1) l _ k3 k4 fuel (by omega)
  · rw [Loader.nextBatch, if_pos k4]
  · have hc := isBatches_count hbs k1
    have hb := (Res.mapL_ok_inv k2).1
    rw [h.perm.length_eq, List.length_range] at hc
    rw [Loader.numBatches, if_neg (by rw [h.bs_eq]; omega), h.dl_eq, h.n_eq, h.bs_eq, hb, hc]
    cases dl <;> simp

/-- **C41, what holds.**  For every dataset whose items can be fetched and collated, every batch size ≥ 1, shuffling or
not, with or without `drop_last`, every outcome of the generator: the first epoch of a new loader, and the
epoch after any history of `next_batch` and `reset` calls (interrupted epochs included) followed by a reset,
delivers every index exactly once — with `drop_last`, all but fewer than `batch_size` of them — in exactly
`num_batches` batches.
Missing: seeds so large that `seed + epoch` leaves `u64` (`C41_seed_overflow`). -/
theorem C41_epochs_partial {rng : Nat → Nat → Nat} (hr : ∀ s k, rng s k ≤ k) {get : Nat → Res ι}
    {collate : List ι → Res β} {n bs : Nat} {sh dl : Bool} {seed : Option Nat} (hbs : 0 < bs)
    (hget : ∀ i, i < n → ∃ x, get i = .ok x) (hcol : ∀ xs, xs ≠ [] → ∃ b, collate xs = .ok b)
    (ops : List LoaderOp) (hov : seed.getD 0 + (resets ops + 1) < 2 ^ 64) :
    ∃ l l1 l2, Loader.new rng n bs sh dl seed = .ok l ∧ EpochOf get collate n bs dl l ∧
      Loader.after rng get collate ops l = .ok l1 ∧ l1.reset rng = .ok l2 ∧ EpochOf get collate n bs dl l2 := by
  have h0 : (⟨n, bs, sh, dl, List.range n, 0, seed, 0⟩ : Loader).Inv n bs dl seed 0 :=
    ⟨rfl, rfl, rfl, rfl, rfl, .refl _, by simp⟩
  have hnew : ∃ l, Loader.new rng n bs sh dl seed = .ok l ∧ l.Inv n bs dl seed 0 ∧ l.cur = 0 := by
    rw [Loader.new]
    cases sh with
    | true =>
      obtain ⟨l', h1, h2, h3, _⟩ := Loader.shuffleIndices_inv hr h0 (by omega)
      exact ⟨l', by simpa using h1, h2, h3⟩
    | false => exact ⟨_, by simp, h0, rfl⟩
  obtain ⟨l, e1, e2, e3⟩ := hnew
  obtain ⟨l1, f1, f2⟩ := Loader.after_inv hr get collate ops e2 (by omega)
  obtain ⟨l2, g1, g2, g3⟩ := Loader.reset_inv hr f2 (by omega)
  exact ⟨l, l1, l2, e1, Loader.epoch_of_inv hbs hget hcol e2 e3, f1, g1, Loader.epoch_of_inv hbs hget hcol g2 g3⟩

/-- A loader over five items, batches of two, after an interrupted epoch and a reset. -/
example : ((Loader.new (fun s k => (s + k) / 2 % (k + 1)) 5 2 true false (some 7)).bind fun l =>
    (Loader.after (fun s k => (s + k) / 2 % (k + 1)) Res.ok Res.ok [.next, .reset] l).bind fun l1 =>
      (l1.run Res.ok Res.ok 6).map (·.1)) = .ok [[1, 2], [3, 0], [4]] := by decide +kernel

/-- **C41 fails for huge seeds**: with seed `2^64 - 1` the loader is created, but the first reset panics
(debug build; a release build wraps). -/
theorem C41_seed_overflow :
    (∃ l, Loader.new (fun _ _ => 0) 3 1 true false (some (2 ^ 64 - 1)) = .ok l ∧ l.reset (fun _ _ => 0) = .panic) := by
  exact ⟨⟨3, 1, true, false, [1, 2, 0], 0, some (2 ^ 64 - 1), 0⟩, by decide +kernel, by decide +kernel⟩

/-! ## C43 -/

theorem round24_bounds {x : Nat} (hx : 2 ^ 24 ≤ x) :
    let e := Nat.log2 x - 23
    2 ^ (e + 23) ≤ x ∧ (round24 x = x / 2 ^ e * 2 ^ e ∨ (round24 x = (x / 2 ^ e + 1) * 2 ^ e ∧ x % 2 ^ e ≠ 0)) := by
  intro e
  have hx0 : x ≠ 0 := by intro h; subst h; simp at hx
  have hl : 24 ≤ Nat.log2 x := by
    rcases Nat.lt_or_ge (Nat.log2 x) 24 with h | h
    · exact absurd ((Nat.log2_lt hx0).mp h) (by omega)
    · exact h
  constructor
  · rw [show e + 23 = Nat.log2 x by simp only [e]; omega]
    exact Nat.log2_self_le hx0
  · rw [round24, if_neg (by omega)]
    simp only
    by_cases hc : 2 * (x % 2 ^ e) < 2 ^ e ∨ 2 * (x % 2 ^ e) = 2 ^ e ∧ x / 2 ^ e % 2 = 0
    · rw [if_pos hc]; exact .inl rfl
    · rw [if_neg hc]
      refine .inr ⟨rfl, fun h0 => hc (.inl ?_)⟩
      rw [h0]
      exact Nat.lt_of_lt_of_le (by omega) Nat.one_le_two_pow

/-- Rounding does not cross a representable number from above. -/
theorem le_round24 {x a k : Nat} (ha : a ≤ 2 ^ 24) (h : a * 2 ^ k ≤ x) : a * 2 ^ k ≤ round24 x := by
  by_cases hx : x < 2 ^ 24
  · rw [round24, if_pos hx]; exact h
  · obtain ⟨h1, h2⟩ := round24_bounds (x := x) (by omega)
    generalize Nat.log2 x - 23 = e at h1 h2
    have hp : 0 < 2 ^ e := Nat.pow_pos (by omega)
    have key : a * 2 ^ k ≤ x / 2 ^ e * 2 ^ e := by
      by_cases hke : e ≤ k
      · obtain ⟨d, rfl⟩ := Nat.exists_eq_add_of_le hke
        have : a * 2 ^ (e + d) = a * 2 ^ d * 2 ^ e := by rw [Nat.pow_add]; ac_rfl
        rw [this] at h ⊢
        exact Nat.mul_le_mul_right _ ((Nat.le_div_iff_mul_le hp).mpr h)
      · have h3 : a * 2 ^ k ≤ 2 ^ (e + 23) :=
          calc a * 2 ^ k ≤ 2 ^ 24 * 2 ^ k := Nat.mul_le_mul_right _ ha
            _ = 2 ^ (24 + k) := (Nat.pow_add 2 24 k).symm
            _ ≤ 2 ^ (e + 23) := Nat.pow_le_pow_right (by omega) (by omega)
        have h4 : 2 ^ 23 ≤ x / 2 ^ e :=
          (Nat.le_div_iff_mul_le hp).mpr (by rw [← Nat.pow_add, Nat.add_comm]; exact h1)
        calc a * 2 ^ k ≤ 2 ^ (e + 23) := h3
          _ = 2 ^ 23 * 2 ^ e := by rw [Nat.add_comm, Nat.pow_add]
          _ ≤ _ := Nat.mul_le_mul_right _ h4
    rcases h2 with h2 | ⟨h2, _⟩ <;> rw [h2]
    · exact key
    · exact Nat.le_trans key (Nat.mul_le_mul_right _ (by omega))

/-- Rounding does not cross a representable number from below. -/
theorem round24_le {x a k : Nat} (ha : a < 2 ^ 24) (h : x ≤ a * 2 ^ k) : round24 x ≤ a * 2 ^ k := by
  by_cases hx : x < 2 ^ 24
  · rw [round24, if_pos hx]; exact h
  · obtain ⟨h1, h2⟩ := round24_bounds (x := x) (by omega)
    generalize Nat.log2 x - 23 = e at h1 h2
    have hp : 0 < 2 ^ e := Nat.pow_pos (by omega)
    have hke : e ≤ k := by
      by_contra hke
      have h3 : a * 2 ^ k < 2 ^ (e + 23) :=
        calc a * 2 ^ k < 2 ^ 24 * 2 ^ k := Nat.mul_lt_mul_of_pos_right ha (Nat.pow_pos (by omega))
          _ = 2 ^ (24 + k) := (Nat.pow_add 2 24 k).symm
          _ ≤ 2 ^ (e + 23) := Nat.pow_le_pow_right (by omega) (by omega)
      omega
    obtain ⟨d, rfl⟩ := Nat.exists_eq_add_of_le hke
    have e1 : a * 2 ^ (e + d) = a * 2 ^ d * 2 ^ e := by rw [Nat.pow_add]; ac_rfl
    rw [e1] at h ⊢
    have hdm := Nat.div_add_mod x (2 ^ e)
    rcases h2 with h2 | ⟨h2, hr⟩ <;> rw [h2]
    · exact Nat.le_trans (Nat.div_mul_le_self _ _) h
    · apply Nat.mul_le_mul_right
      by_contra hc
      have : a * 2 ^ d * 2 ^ e ≤ x / 2 ^ e * 2 ^ e := Nat.mul_le_mul_right _ (by omega)
      rw [Nat.mul_comm (x / 2 ^ e)] at this
      omega

/-- The two index vectors split `0 .. n-1`, the first holding `train` of them. -/
def Spec.IsIndexSplit (n train : Nat) (a b : List Nat) : Prop :=
  a.Nodup ∧ b.Nodup ∧ (∀ i ∈ a, i ∉ b) ∧ (∀ i, i ∈ a ∨ i ∈ b ↔ i < n) ∧ a.length = train

theorem randomSplitAt_spec {draw : Nat → Nat} (hd : ∀ k, draw k ≤ k) (n train : Nat) :
    (train ≤ n → ∃ a b, randomSplitAt draw n train = .ok (a, b) ∧ IsIndexSplit n train a b) ∧
    (n < train → randomSplitAt draw n train = .panic) := by
  obtain ⟨r, h1, h2⟩ := shuffle_perm (draw := draw) (l := List.range n) (fun k _ _ => hd k)
  have hl : r.length = n := by rw [h2.length_eq, List.length_range]
  have hnd : r.Nodup := h2.nodup_iff.mpr List.nodup_range
  constructor
  · intro h
    refine ⟨r.take train, r.drop train, ?_, ?_, ?_, ?_, ?_, ?_⟩
    · rw [randomSplitAt, h1, Res.ok_bind, if_neg (by omega)]
    · exact hnd.sublist (List.take_sublist _ _)
    · exact hnd.sublist (List.drop_sublist _ _)
    · have := hnd
      rw [← List.take_append_drop train r, List.nodup_append] at this
      intro i hi hi'
      exact this.2.2 i hi i hi' rfl
    · intro i
      rw [← List.mem_append, List.take_append_drop, h2.mem_iff, List.mem_range]
    · simp; omega
  · intro h
    rw [randomSplitAt, h1, Res.ok_bind, if_pos (by omega)]

/-- The full claim: for every dataset size and every `f32` fraction `m / 2^k` in `[0, 1]`, a split with the fraction
rounded down. -/
def C43_full : Prop :=
  ∀ (draw : Nat → Nat), (∀ k, draw k ≤ k) → ∀ n m k, m < 2 ^ 24 → m ≤ 2 ^ k →
    ∃ a b, randomSplit draw n m k = .ok (a, b) ∧ IsIndexSplit n (n * m / 2 ^ k) a b

/-- **C43, what holds.**  Below `2^24` items `random_split` never panics and always splits the indices into two
disjoint parts that cover everything, for every seed; the training part has `n * fraction` elements, rounded
down when the product is exact in `f32` (`n * m < 2^24`) and otherwise rounded down or up by less than one.
Missing: `n ≥ 2^24` (`C43_large_panics`, `C43_large_short`), and the direction of rounding (`C43_rounds_up`). -/
theorem C43_random_split_partial {draw : Nat → Nat} (hd : ∀ k, draw k ≤ k) {n m k : Nat} (hn : n < 2 ^ 24)
    (hm : m ≤ 2 ^ k) :
    ∃ a b train, randomSplit draw n m k = .ok (a, b) ∧ IsIndexSplit n train a b ∧
      n * m / 2 ^ k ≤ train ∧ train * 2 ^ k < n * m + 2 ^ k ∧ (n * m < 2 ^ 24 → train = n * m / 2 ^ k) := by
  have hp : 0 < 2 ^ k := Nat.pow_pos (by omega)
  have hn24 : round24 n = n := by rw [round24, if_pos hn]
  have hle : n * m ≤ n * 2 ^ k := Nat.mul_le_mul_left _ hm
  have hup : round24 (n * m) ≤ n * 2 ^ k := round24_le hn hle
  have ht : trainLen n m k ≤ n := by
    rw [trainLen, hn24]
    exact Nat.div_le_of_le_mul (by rw [Nat.mul_comm (2 ^ k)]; exact hup)
  have hfl : n * m / 2 ^ k ≤ n := Nat.div_le_of_le_mul (by rw [Nat.mul_comm (2 ^ k)]; exact hle)
  have hlo : n * m / 2 ^ k ≤ trainLen n m k := by
    rw [trainLen, hn24, Nat.le_div_iff_mul_le hp]
    exact le_round24 (by omega) (Nat.div_mul_le_self _ _)
  obtain ⟨a, b, h1, h2⟩ := (randomSplitAt_spec hd n (trainLen n m k)).1 ht
  refine ⟨a, b, trainLen n m k, h1, h2, hlo, ?_, ?_⟩
  · -- the ceiling of the exact product is representable
    by_cases hex : n * m % 2 ^ k = 0
    · have e : n * m = n * m / 2 ^ k * 2 ^ k := by have := Nat.div_add_mod (n * m) (2 ^ k); rw [Nat.mul_comm (_ / _)]; omega
      have : round24 (n * m) ≤ n * m / 2 ^ k * 2 ^ k := round24_le (by omega) (le_of_eq e)
      have h3 : trainLen n m k * 2 ^ k ≤ round24 (n * m) := by
        rw [trainLen, hn24]; exact Nat.div_mul_le_self _ _
      omega
    · have hdm := Nat.div_add_mod (n * m) (2 ^ k)
      have hlt := Nat.mod_lt (n * m) hp
      have hc : n * m / 2 ^ k + 1 ≤ n := by
        by_contra hc
        have e : n * m / 2 ^ k = n := by omega
        rw [e, Nat.mul_comm] at hdm
        omega
      have h4 : n * m ≤ (n * m / 2 ^ k + 1) * 2 ^ k := by
        rw [Nat.add_mul, Nat.mul_comm (n * m / 2 ^ k)]; omega
      have : round24 (n * m) ≤ (n * m / 2 ^ k + 1) * 2 ^ k := round24_le (by omega) h4
      have h3 : trainLen n m k * 2 ^ k ≤ round24 (n * m) := by
        rw [trainLen, hn24]; exact Nat.div_mul_le_self _ _
      have h5 : (n * m / 2 ^ k + 1) * 2 ^ k < n * m + 2 ^ k := by
        rw [Nat.add_mul, Nat.mul_comm (n * m / 2 ^ k)]; omega
      omega
  · intro hx
    rw [trainLen, hn24, round24, if_pos hx]

/-- Ten items, fraction 0.75. -/
example : randomSplit (fun k => k / 2) 10 3 2 = .ok ([8, 0, 6, 1, 5, 2, 7], [3, 9, 4]) := by decide +kernel

/-- **C43 fails for large datasets**: with `2^24 + 3` items and fraction 1 the `f32` length exceeds the
dataset and the slice panics. -/
theorem C43_large_panics {draw : Nat → Nat} (hd : ∀ k, draw k ≤ k) :
    randomSplit draw (2 ^ 24 + 3) 1 0 = .panic :=
  (randomSplitAt_spec hd _ _).2 (by decide +kernel)

/-- With `2^24 + 1` items and fraction 1 one item lands in the validation part. -/
theorem C43_large_short {draw : Nat → Nat} (hd : ∀ k, draw k ≤ k) :
    ∃ a b, randomSplit draw (2 ^ 24 + 1) 1 0 = .ok (a, b) ∧ b.length = 1 := by
  obtain ⟨r, h1, h2⟩ := shuffle_perm (draw := draw) (l := List.range (2 ^ 24 + 1)) (fun k _ _ => hd k)
  have hl : r.length = 2 ^ 24 + 1 := by rw [h2.length_eq, List.length_range]
  have ht : trainLen (2 ^ 24 + 1) 1 0 = 2 ^ 24 := by decide +kernel
  refine ⟨r.take (2 ^ 24), r.drop (2 ^ 24), ?_, ?_⟩
  · rw [randomSplit, randomSplitAt, h1, Res.ok_bind, ht, if_neg (by omega)]
  · rw [List.length_drop, hl]; omega

/-- With the `f32` nearest to 0.7, which lies below 0.7, ten items give seven: rounded up from 6.9999998. -/
theorem C43_rounds_up : trainLen 10 11744051 24 = 7 ∧ 10 * 11744051 / 2 ^ 24 = 6 := by decide +kernel

theorem C43_full_false : ¬ C43_full := by
  intro h
  obtain ⟨a, b, h1, _⟩ := h (fun _ => 0) (by simp) (2 ^ 24 + 3) 1 0 (by decide) (by decide)
  rw [C43_large_panics (by simp)] at h1
  cases h1

/-! ## C44 -/

theorem cumulativeSizes_get (total : Nat) (lens : List Nat) (i : Nat) :
    (cumulativeSizes total lens)[i]? = if i < lens.length then some (total + (lens.take (i + 1)).sum) else none := by
  induction lens generalizing total i with
  | nil => simp [cumulativeSizes]
  | cons n ns ih =>
    cases i with
    | zero => simp [cumulativeSizes]
    | succ i => simp [cumulativeSizes, ih, Nat.add_assoc]

theorem cumulativeSizes_length (total : Nat) (lens : List Nat) : (cumulativeSizes total lens).length = lens.length := by
  induction lens generalizing total with
  | nil => rfl
  | cons n ns ih => simp [cumulativeSizes, ih]

theorem cumulativeSizes_last (total : Nat) (lens : List Nat) :
    (cumulativeSizes total lens).getLast?.getD total = total + lens.sum := by
  induction lens generalizing total with
  | nil => simp [cumulativeSizes]
  | cons n ns ih =>
    have := ih (total + n)
    cases ns with
    | nil => simp [cumulativeSizes]
    | cons m ms =>
      simp only [cumulativeSizes, List.sum_cons] at this ⊢
      simp only [List.getLast?_cons_cons]
      rw [show total + (n + (m + ms.sum)) = total + n + (m + ms.sum) by omega, ← this]
      simp [List.getLast?_cons]

theorem sum_take_succ (l : List Nat) (i : Nat) (h : i < l.length) :
    (l.take (i + 1)).sum = (l.take i).sum + l[i] := by
  rw [List.take_succ_eq_append_getElem h, List.sum_append]; simp

theorem sum_take_mono (l : List Nat) {i j : Nat} (h : i ≤ j) : (l.take i).sum ≤ (l.take j).sum := by
  rw [← List.take_append_drop i (l.take j), List.take_take, Nat.min_eq_left h, List.sum_append]
  omega

/-- **C44.**  With member lengths `lens`: an index beyond the total is an error; every other index belongs to
exactly one member's range, and the result is that member's item at the index minus the total length of
the members before it. -/
theorem C44_concat_dataset (get : Nat → Nat → Res ι) (lens : List Nat) (index : Nat) :
    (lens.sum ≤ index → concatDatasetGet get lens index = .err) ∧
    (index < lens.sum → ∃ i j, i < lens.length ∧ index = (lens.take i).sum + j ∧ j < lens.getD i 0) ∧
    ∀ i j, i < lens.length → index = (lens.take i).sum + j → j < lens.getD i 0 →
      concatDatasetGet get lens index = get i j ∧
      ∀ i' j', i' < lens.length → index = (lens.take i').sum + j' → j' < lens.getD i' 0 → i' = i ∧ j' = j := by
  have hlast := cumulativeSizes_last 0 lens
  rw [Nat.zero_add] at hlast
  refine ⟨fun h => ?_, fun h => ?_, ?_⟩
  · rw [concatDatasetGet, hlast, if_pos h]
  · clear hlast
    induction lens generalizing index with
    | nil => simp at h
    | cons n ns ih =>
      by_cases hn : index < n
      · exact ⟨0, index, by simp, by simp, by simpa using hn⟩
      · obtain ⟨i, j, h1, h2, h3⟩ := ih (index - n) (by simp at h; omega)
        exact ⟨i + 1, j, by simpa using h1, by simp; omega, by simpa using h3⟩
  · intro i j hi hidx hj
    rw [List.getD_eq_getElem?_getD, List.getElem?_eq_getElem hi, Option.getD_some] at hj
    have hsucc := sum_take_succ lens i hi
    have huniq : ∀ i' j', i' < lens.length → index = (lens.take i').sum + j' → j' < lens.getD i' 0 →
        i' = i ∧ j' = j := by
      intro i' j' hi' hidx' hj'
      rw [List.getD_eq_getElem?_getD, List.getElem?_eq_getElem hi', Option.getD_some] at hj'
      have hsucc' := sum_take_succ lens i' hi'
      have : i' = i := by
        rcases Nat.lt_trichotomy i' i with h | h | h
        · have := sum_take_mono lens (show i' + 1 ≤ i by omega); omega
        · exact h
        · have := sum_take_mono lens (show i + 1 ≤ i' by omega); omega
      subst this
      exact ⟨rfl, by omega⟩
    refine ⟨?_, huniq⟩
    have htot : index < lens.sum := by
      have := sum_take_mono lens (show i + 1 ≤ lens.length by omega)
      rw [List.take_length] at this
      omega
    rw [concatDatasetGet, hlast, if_neg (by omega)]
    -- the search skips every member that ends at or before `index`
    have hfind : ∀ (d p : Nat), p + d = i →
        concatFindData get (cumulativeSizes 0 lens) index p ((cumulativeSizes 0 lens).drop p) = get i j := by
      intro d
      induction d with
      | zero =>
        intro p hp
        have hp : p = i := by omega
        subst hp
        have hlt : p < (cumulativeSizes 0 lens).length := by rw [cumulativeSizes_length]; exact hi
        rw [List.drop_eq_getElem_cons hlt, concatFindData]
        have hg := cumulativeSizes_get 0 lens p
        rw [if_pos hi, List.getElem?_eq_getElem hlt, Option.some.injEq, Nat.zero_add] at hg
        rw [if_pos (by rw [hg]; omega)]
        by_cases hp0 : p = 0
        · subst hp0
          simp only [List.take_zero, List.sum_nil, Nat.zero_add] at hidx
          rw [if_pos rfl, Res.ok_bind, hidx]
        · have hg' := cumulativeSizes_get 0 lens (p - 1)
          have hlt' : p - 1 < (cumulativeSizes 0 lens).length := by omega
          rw [if_pos (by omega), List.getElem?_eq_getElem hlt', Option.some.injEq, Nat.zero_add,
            show p - 1 + 1 = p by omega] at hg'
          rw [if_neg hp0, readR_ok hlt', Res.ok_bind, hg', if_pos (by omega), Res.ok_bind]
          congr 1
          omega
      | succ d ih =>
        intro p hp
        have hlt : p < (cumulativeSizes 0 lens).length := by rw [cumulativeSizes_length]; omega
        rw [List.drop_eq_getElem_cons hlt, concatFindData]
        have hg := cumulativeSizes_get 0 lens p
        rw [if_pos (by omega), List.getElem?_eq_getElem hlt, Option.some.injEq, Nat.zero_add] at hg
        have := sum_take_mono lens (show p + 1 ≤ i by omega)
        rw [if_neg (by rw [hg]; omega)]
        exact ih (p + 1) (by omega)
    have := hfind i 0 (by omega)
    simpa using this

/-- Three members, the middle one empty. -/
example : concatDatasetGet (fun i j => .ok (i, j)) [2, 0, 3] 3 = .ok (2, 1) ∧
    concatDatasetGet (fun i j => .ok (i, j)) [2, 0, 3] 5 = .err := by decide

/-- A subset's item `i` is the dataset's item at the `i`-th kept index; beyond its length it is an error. -/
theorem C43_subset (get : Nat → Res ι) (indices : List Nat) (i : Nat) :
    (∀ j, indices[i]? = some j → subsetGet get indices i = get j) ∧
    (indices.length ≤ i → subsetGet get indices i = .err) := by
  constructor
  · intro j h; rw [subsetGet, h]
  · intro h; rw [subsetGet, List.getElem?_eq_none h]

example : subsetGet (fun i => .ok (i * i)) [4, 2, 7] 1 = .ok 4 := rfl

end Hodu
