import Verif.Props.Datasets

/-!
# Property C42: the rows of a batch
-/

namespace Hodu
open Spec

theorem viewVia_contig (s : List α) (dims : List Nat) (o : Nat) (f : Layout → Res Layout) :
    Tensor.viewVia ⟨s, ⟨dims, Layout.computeStrides dims, o⟩⟩ f =
      (f ⟨dims, Layout.computeStrides dims, o⟩).bind fun l => .ok { storage := s, layout := l } := by
  rw [Tensor.viewVia, Tensor.contiguous, if_pos (isContiguous_computeStrides dims o), Res.ok_bind]

theorem layout_slice_row {N : Nat} {tail : List Nat} {o i : Nat} (hi : i < N) (hN : N < 2 ^ 31 - 1) :
    Layout.slice ⟨N :: tail, Layout.computeStrides (N :: tail), o⟩ 0 i (some (i + 1 : Nat)) 1 =
      .ok ⟨1 :: tail, Layout.computeStrides (1 :: tail), o + i * numel tail⟩ := by
  have hsb : Layout.sliceBounds (N : Int) i (some (i + 1 : Nat)) 1 = .ok ((i : Int), 1) := by
    have h1 : Layout.sliceStartIdx (N : Int) i = .ok (i : Int) := by
      rw [Layout.sliceStartIdx, if_neg (by omega)]
    have h2 : Layout.sliceEndIdx (N : Int) (some (i + 1 : Nat)) 1 = .ok ((i + 1 : Nat) : Int) := by
      rw [Layout.sliceEndIdx, if_neg (by omega)]
    have h3 : clampI32 (i : Int) 0 N = .ok (i : Int) := by
      rw [clampI32, if_neg (by omega), if_neg (by omega), if_neg (by omega)]
    have h4 : clampI32 ((i + 1 : Nat) : Int) 0 N = .ok ((i + 1 : Nat) : Int) := by
      rw [clampI32, if_neg (by omega), if_neg (by omega), if_neg (by omega)]
    have h5 : Layout.sliceCount (i : Int) ((i + 1 : Nat) : Int) 1 = .ok 1 := by
      rw [Layout.sliceCount, if_pos (by omega), if_pos (by omega),
        show ((i + 1 : Nat) : Int) - i = 1 by omega]
      decide
    rw [Layout.sliceBounds, h1, Res.ok_bind, h2, Res.ok_bind, h3, Res.ok_bind, if_pos (by omega), h4, Res.ok_bind,
      h5, Res.ok_bind, if_neg (by omega)]
  have h0 : castUsize 0 = 0 := by decide
  rw [Layout.slice]
  simp only [computeStrides_cons, h0]
  rw [if_neg (by omega)]
  simp only [List.getElem?_cons_zero]
  rw [if_neg (by omega), castI32_small (by omega), hsb, Res.ok_bind]
  simp

theorem layout_squeeze_row (tail : List Nat) (o : Nat) :
    Layout.squeeze ⟨1 :: tail, Layout.computeStrides (1 :: tail), o⟩ [0] =
      .ok ⟨tail, Layout.computeStrides tail, o⟩ := by
  have h0 : castUsize 0 = 0 := by decide
  rw [Layout.squeeze, isContiguous_computeStrides]
  simp [Layout.squeezeAxes, h0, Layout.removeAll]

theorem layout_unsqueeze_row (tail : List Nat) (o : Nat) :
    Layout.unsqueeze ⟨tail, Layout.computeStrides tail, o⟩ 0 =
      .ok ⟨1 :: tail, Layout.computeStrides (1 :: tail), o⟩ := by
  have h0 : castUsize 0 = 0 := by decide
  rw [Layout.unsqueeze]
  simp [h0, isContiguous_computeStrides]

/-- All items of a tensor dataset are views into one storage. -/
theorem tensorDatasetGet_eq {data : Tensor α} (hw : data.WF) {N : Nat} {tail : List Nat}
    (hd : data.dims = N :: tail) (hN : N < 2 ^ 31 - 1) :
    ∃ s o, (∀ i, i < N → tensorDatasetGet data i = .ok ⟨s, ⟨tail, Layout.computeStrides tail, o + i * numel tail⟩⟩) ∧
      (∀ idx, InRange idx (N :: tail) → s[o + rowMajor (N :: tail) idx]? = data.elem idx) ∧
      ((data.layout.isContiguous = true → s = data.storage ∧ o = data.layout.offset) ∧
       (data.layout.isContiguous = false → s.length = numel (N :: tail) ∧ o = 0)) := by
  obtain ⟨s, o, h1, h2, h3⟩ := contiguous_spec hw
  rw [hd] at h1 h2 h3
  refine ⟨s, o, fun i hi => ?_, h2, ?_, ?_⟩
  · rw [tensorDatasetGet, Tensor.slice, Tensor.viewVia, h1, Res.ok_bind]
    simp only
    rw [layout_slice_row hi hN, Res.ok_bind, Res.ok_bind, Tensor.squeeze, viewVia_contig, layout_squeeze_row, Res.ok_bind]
  · intro hc
    rcases h3 with h3 | h3
    · rw [hc] at h3; exact absurd h3.2.2 (by simp)
    · exact ⟨h3.1, h3.2.1⟩
  · intro hc
    rcases h3 with h3 | h3
    · exact ⟨h3.2.1, h3.1⟩
    · rw [hc] at h3; exact absurd h3.2.2 (by simp)

theorem flatten_replicate_get (s : List α) (m k : Nat) (h : k < m * s.length) :
    ((List.replicate m s).flatten)[k]? = s[k % s.length]? := by
  induction m generalizing k with
  | zero => simp at h
  | succ m ih =>
    rw [List.replicate_succ, List.flatten_cons]
    by_cases hk : k < s.length
    · rw [List.getElem?_append_left hk, Nat.mod_eq_of_lt hk]
    · rw [Nat.succ_mul] at h
      rw [List.getElem?_append_right (by omega), ih _ (by omega), ← Nat.mod_eq_sub_mod (by omega)]

/-- The batch for the indices `ix`: fetch every item, collate. -/
def Spec.batchOf (data : Tensor α) (ix : List Nat) : Res (Tensor α) :=
  (Res.mapL (tensorDatasetGet data) ix).bind defaultCollate

/-- What the code computes for a batch: row `b` starts `b` rows too late in the shared storage, which repeats. -/
theorem batch_exact {data : Tensor α} (hw : data.WF) {N : Nat} {tail ix : List Nat}
    (hd : data.dims = N :: tail) (hrank : data.dims.length ≤ 16) (hne : ix ≠ [])
    (hix : ∀ i ∈ ix, i < N) {s : List α} {o : Nat}
    (hget : ∀ i, i < N → tensorDatasetGet data i = .ok ⟨s, ⟨tail, Layout.computeStrides tail, o + i * numel tail⟩⟩)
    (hs : ∀ idx, InRange idx (N :: tail) → s[o + rowMajor (N :: tail) idx]? = data.elem idx) :
    ∃ r, batchOf data ix = .ok r ∧ r.WF ∧ r.dims = ix.length :: tail ∧
      ∀ b (hb : b < ix.length) rest, InRange rest tail →
        r.elem (b :: rest) = s[(b * numel tail + (o + (ix[b] * numel tail + rowMajor tail rest))) % s.length]? := by
  have hwf := fun idx hi => hw.2 idx hi
  rw [hd] at hwf
  have hlen : ∀ i rest, i < N → InRange rest tail → o + (i * numel tail + rowMajor tail rest) < s.length := by
    intro i rest hi hr
    have h1 : InRange (i :: rest) (N :: tail) := ⟨hi, hr⟩
    have h2 := hwf _ h1
    rw [← hs _ h1] at h2
    by_contra hc
    rw [List.getElem?_eq_none (by simp only [rowMajor]; omega)] at h2
    cases h2
  let items := ix.map fun i => (⟨s, ⟨tail, Layout.computeStrides tail, o + i * numel tail⟩⟩ : Tensor α)
  let ts := ix.map fun i => (⟨s, ⟨1 :: tail, Layout.computeStrides (1 :: tail), o + i * numel tail⟩⟩ : Tensor α)
  have hitems : Res.mapL (tensorDatasetGet data) ix = .ok items :=
    Res.mapL_eq_ok_of (fun i hi => hget i (hix i hi))
  have huns : Res.mapL (fun t : Tensor α => t.unsqueeze 0) items = .ok ts := by
    have := Res.mapL_eq_ok_of (f := fun t : Tensor α => t.unsqueeze 0)
      (g := fun t => ⟨t.storage, ⟨1 :: tail, Layout.computeStrides (1 :: tail), t.layout.offset⟩⟩) (l := items) (by
        intro t ht
        obtain ⟨i, _, rfl⟩ := List.mem_map.mp ht
        rw [Tensor.unsqueeze, viewVia_contig, layout_unsqueeze_row, Res.ok_bind])
    rw [this]
    simp [items, ts, List.map_map, Function.comp_def]
  have hpos : 0 < ix.length := List.length_pos_iff.mpr hne
  have hlts : ts.length = ix.length := by simp [ts]
  have htsg : ∀ j (h : j < ts.length), ts[j] =
      (⟨s, ⟨1 :: tail, Layout.computeStrides (1 :: tail), o + (ix[j]'(by omega)) * numel tail⟩⟩ : Tensor α) := by
    intro j h; simp [ts]
  have hmemd : ∀ u ∈ ts, u.dims = 1 :: tail := by
    intro u hu
    obtain ⟨i, _, rfl⟩ := List.mem_map.mp hu
    rfl
  obtain ⟨t0, ht0⟩ : ∃ t0, ts.head? = some t0 := by
    cases hts : ts with
    | nil => rw [hts] at hlts; simp at hlts; omega
    | cons a as => exact ⟨a, rfl⟩
  have ht0m : t0 ∈ ts := List.mem_of_mem_head? ht0
  have hd0 := hmemd t0 ht0m
  have hW : ∀ u ∈ ts, u.WF := by
    intro u hu
    obtain ⟨i, hi, rfl⟩ := List.mem_map.mp hu
    refine ⟨computeStrides_length _, fun idx hr => ?_⟩
    match idx, hr with
    | [], hr => exact absurd hr (by simp [InRange])
    | a :: rest, hr =>
      have ha : a = 0 := by have : a < 1 := hr.1; omega
      subst ha
      rw [elem_rowMajor]
      simp only [rowMajor, Nat.zero_mul, Nat.zero_add]
      have := hlen i rest (hix i hi) hr.2
      rw [List.getElem?_eq_getElem (by omega)]
      rfl
  have hflat : ts.flatMap (·.storage) = (List.replicate ix.length s).flatten := by
    rw [List.flatMap_def]
    congr 1
    simp only [ts, List.map_map]
    rw [List.eq_replicate_iff]
    simp
  have hsizes : ∀ j, j ≤ ix.length → (((ts.map (·.layout)).take j).map (·.size)).sum = j * numel tail := by
    intro j hj
    have : ((ts.map (·.layout)).take j).map (·.size) = List.replicate j (numel tail) := by
      rw [List.eq_replicate_iff]
      constructor
      · simp [hlts]; omega
      · intro x hx
        obtain ⟨l, hl, rfl⟩ := List.mem_map.mp hx
        obtain ⟨u, hu, rfl⟩ := List.mem_map.mp (List.mem_of_mem_take hl)
        obtain ⟨i, _, rfl⟩ := List.mem_map.mp hu
        simp [Layout.size, shapeSize_eq, numel]
    rw [this, List.sum_replicate]; simp
  have hread : ∀ j (hj : j < ts.length) a rest, InRange (a :: rest) ts[j].dims →
      concatReads ts j (a :: rest) =
        s[(j * numel tail + (o + ((ix[j]'(by omega)) * numel tail + rowMajor tail rest))) % s.length]? ∧
      0 < s.length := by
    intro j hj a rest hr
    rw [hmemd _ (List.getElem_mem hj)] at hr
    have ha : a = 0 := by have : a < 1 := hr.1; omega
    subst ha
    have hjx : j < ix.length := by omega
    have hl := hlen ix[j] rest (hix _ (List.getElem_mem hjx)) hr.2
    have hrow : numel tail ≤ s.length := by
      have hi := hix _ (List.getElem_mem hjx)
      have hnt : 0 < numel tail := Nat.lt_of_le_of_lt (Nat.zero_le _) (rowMajor_lt hr.2)
      have hmax := hlen ix[j] (unravel tail (numel tail - 1)) hi (unravel_inRange (by omega))
      rw [rowMajor_unravel (by omega)] at hmax
      omega
    refine ⟨?_, by omega⟩
    rw [concatReads, hflat, hsizes j (by omega), List.getElem?_eq_getElem hj, htsg j hj]
    simp only [Option.map_some, Option.getD_some]
    rw [dot_computeStrides]
    simp only [rowMajor, Nat.zero_mul, Nat.zero_add]
    rw [flatten_replicate_get, Nat.add_assoc o]
    have h1 : j * numel tail ≤ j * s.length := Nat.mul_le_mul_left _ hrow
    have h2 : (j + 1) * s.length ≤ ix.length * s.length := Nat.mul_le_mul_right _ hjx
    rw [Nat.add_mul, Nat.one_mul] at h2
    omega
  obtain ⟨r, k1, k2, _, _, k5, k6⟩ := concat_exact (d := 0) (k := 0) ht0 hW
    ⟨by rw [hd0]; simp, Or.inl rfl⟩ (by rw [hd0]; rw [hd] at hrank; simpa using hrank)
    (fun u hu => by rw [hmemd u hu, hd0]; exact ⟨rfl, fun _ _ => rfl⟩)
    (fun j hj idx hr => by
      match idx, hr with
      | [], hr => rw [hmemd _ (List.getElem_mem hj)] at hr; exact absurd hr (by simp [InRange])
      | a :: rest, hr =>
        obtain ⟨e, hp⟩ := hread j hj a rest hr
        rw [e, List.getElem?_eq_getElem (Nat.mod_lt _ hp)]
        rfl)
  have hstart : ∀ j, j ≤ ts.length → startOf 0 (ts.map (·.dims)) j = j := by
    intro j hj
    have : ((ts.map (·.dims)).take j).map (fun ds => ds.getD 0 0) = List.replicate j 1 := by
      rw [List.eq_replicate_iff]
      constructor
      · simp; omega
      · intro x hx
        obtain ⟨ds, hds, rfl⟩ := List.mem_map.mp hx
        obtain ⟨u, hu, rfl⟩ := List.mem_map.mp (List.mem_of_mem_take hds)
        rw [hmemd u hu]; rfl
    rw [startOf, this, List.sum_replicate]; simp
  refine ⟨r, ?_, k2, ?_, ?_⟩
  · rw [batchOf, hitems, Res.ok_bind, defaultCollate]
    have hie : items.isEmpty = false := by
      cases ix with
      | nil => exact absurd rfl hne
      | cons a as => rfl
    rw [hie, if_neg (by simp)]
    have : Tensor.stack items 0 = (Res.mapL (fun t : Tensor α => t.unsqueeze 0) items).bind fun us => Tensor.concat us 0 := by
      cases h : items with
      | nil => rw [h] at hie; simp at hie
      | cons a as => rfl
    rw [this, huns, Res.ok_bind, k1]
  · rw [k5, hd0, hstart _ (le_refl _), hlts]; rfl
  · intro b hb rest hr
    have hjl : b < ts.length := by omega
    have hin : InRange (0 :: rest) ts[b].dims := by
      rw [hmemd _ (List.getElem_mem hjl)]; exact ⟨by omega, hr⟩
    have e := k6 b hjl (0 :: rest) hin
    rw [hstart b (by omega)] at e
    rw [(hread b hjl 0 rest hin).1] at e
    rw [← e]
    congr 1
    simp [addAt]

/-- What a batch should be. -/
def Spec.IsBatchOf (data : Tensor α) (ix : List Nat) (r : Tensor α) : Prop :=
  r.dims = ix.length :: data.dims.tail ∧
  ∀ b (hb : b < ix.length) rest, InRange rest data.dims.tail → r.elem (b :: rest) = data.elem (ix[b] :: rest)

/-- The full claim. -/
def C42_full : Prop :=
  ∀ (data : Tensor Nat) (N : Nat) (tail ix : List Nat), data.WF → data.dims = N :: tail → N < 2 ^ 31 - 1 →
    data.dims.length ≤ 16 → ix ≠ [] → (∀ i ∈ ix, i < N) → ∃ r, batchOf data ix = .ok r ∧ IsBatchOf data ix r

/-- **C42, what holds.**  The first row of every batch is the right dataset row, and the shape is right; so
batches of one index are right, for every dataset layout (transposed, sliced, broadcast).
Missing: the other rows, which are wrong (`C42_rows_shifted`). -/
theorem C42_first_row_partial {data : Tensor α} (hw : data.WF) {N : Nat} {tail ix : List Nat}
    (hd : data.dims = N :: tail) (hN : N < 2 ^ 31 - 1) (hrank : data.dims.length ≤ 16) (hne : ix ≠ [])
    (hix : ∀ i ∈ ix, i < N) :
    ∃ r, batchOf data ix = .ok r ∧ r.WF ∧ r.dims = ix.length :: tail ∧
      (∀ i rest, ix.head? = some i → InRange rest tail → r.elem (0 :: rest) = data.elem (i :: rest)) ∧
      (ix.length = 1 → IsBatchOf data ix r) := by
  obtain ⟨s, o, hget, hs, _⟩ := tensorDatasetGet_eq hw hd hN
  obtain ⟨r, h1, h2, h3, h4⟩ := batch_exact hw hd hrank hne hix hget hs
  have hpos : 0 < ix.length := List.length_pos_iff.mpr hne
  have hfirst : ∀ rest, InRange rest tail → r.elem (0 :: rest) = data.elem (ix[0] :: rest) := by
    intro rest hr
    have hi : InRange (ix[0] :: rest) (N :: tail) := ⟨hix _ (List.getElem_mem hpos), hr⟩
    rw [h4 0 hpos rest hr, ← hs _ hi, Nat.zero_mul, Nat.zero_add]
    rw [Nat.mod_eq_of_lt]
    · simp [rowMajor]
    · have := hw.2 (ix[0] :: rest) (by rw [hd]; exact hi)
      rw [← hs _ hi] at this
      by_contra hc
      rw [List.getElem?_eq_none (by simp only [rowMajor]; omega)] at this
      cases this
  refine ⟨r, h1, h2, h3, ?_, ?_⟩
  · intro i rest hi hr
    rw [hfirst rest hr]
    congr 2
    cases ix with
    | nil => cases hi
    | cons a as => simpa using hi
  · intro hone
    refine ⟨by rw [h3, hd]; rfl, fun b hb rest hr => ?_⟩
    have : b = 0 := by omega
    subst this
    exact hfirst rest (by rw [hd] at hr; exact hr)

/-- **What the code delivers instead.**  For a row-major dataset that owns its storage, row `b` of the batch for
indices `i0, i1, ..` is dataset row `(ib + b) mod N`, for every batch. -/
theorem C42_rows_shifted {data : Tensor α} (hw : data.WF) {N : Nat} {tail ix : List Nat}
    (hd : data.dims = N :: tail) (hN : N < 2 ^ 31 - 1) (hrank : data.dims.length ≤ 16) (hne : ix ≠ [])
    (hix : ∀ i ∈ ix, i < N) (hlay : data.layout = Layout.fromShape data.dims)
    (hown : data.storage.length = numel data.dims) :
    ∃ r, batchOf data ix = .ok r ∧ r.dims = ix.length :: tail ∧
      ∀ b (hb : b < ix.length) rest, InRange rest tail →
        r.elem (b :: rest) = data.elem (((ix[b] + b) % N) :: rest) := by
  obtain ⟨s, o, hget, hs, hc, _⟩ := tensorDatasetGet_eq hw hd hN
  obtain ⟨r, h1, h2, h3, h4⟩ := batch_exact hw hd hrank hne hix hget hs
  obtain ⟨e1, e2⟩ := hc (by rw [hlay]; exact isContiguous_computeStrides _ _)
  have e3 : data.layout.offset = 0 := by rw [hlay]; rfl
  rw [e3] at e2
  have hsl : s.length = N * numel tail := by rw [e1, hown, hd]; simp [numel]
  refine ⟨r, h1, h3, fun b hb rest hr => ?_⟩
  have hN0 : 0 < N := Nat.lt_of_le_of_lt (Nat.zero_le _) (hix _ (List.getElem_mem hb))
  have hi : InRange (((ix[b] + b) % N) :: rest) (N :: tail) := ⟨Nat.mod_lt _ hN0, hr⟩
  rw [h4 b hb rest hr, ← hs _ hi, hsl, e2]
  have hrm := rowMajor_lt hr
  have : (b * numel tail + (0 + (ix[b] * numel tail + rowMajor tail rest))) % (N * numel tail) =
      ((ix[b] + b) % N) * numel tail + rowMajor tail rest := by
    rw [show b * numel tail + (0 + (ix[b] * numel tail + rowMajor tail rest)) =
      rowMajor tail rest + numel tail * (ix[b] + b) by rw [Nat.mul_add, Nat.mul_comm b, Nat.mul_comm ix[b]]; omega]
    rw [Nat.mul_comm N, Nat.mod_mul, Nat.add_mul_mod_self_left, Nat.mod_eq_of_lt hrm,
      Nat.add_mul_div_left _ _ (by omega), Nat.div_eq_of_lt hrm, Nat.zero_add, Nat.mul_comm (numel tail), Nat.add_comm]
  rw [this]
  simp [rowMajor]

/-- A dataset of three rows of two. -/
private def exRows : Tensor Nat := ⟨[10, 11, 20, 21, 30, 31], Layout.fromShape [3, 2]⟩

private theorem exRows_wf : exRows.WF := fresh_wf (by decide)

example : batchOf exRows [2] = .ok ⟨[30, 31], Layout.fromShape [1, 2]⟩ ∧
    batchOf exRows [0, 1, 2] = .ok ⟨[10, 11, 30, 31, 20, 21], Layout.fromShape [3, 2]⟩ := by decide +kernel

/-- **C42 is false of the code**: the batch of rows 0 and 1 contains rows 0 and 2. -/
theorem C42_full_false : ¬ C42_full := by
  intro h
  obtain ⟨r, h1, h2⟩ := h exRows 3 [2] [0, 1] exRows_wf rfl (by decide) (by decide) (by simp) (by simp)
  have e : batchOf exRows [0, 1] = .ok ⟨[10, 11, 30, 31], Layout.fromShape [2, 2]⟩ := by decide +kernel
  rw [e] at h1
  cases h1
  exact absurd (h2.2 1 (by decide) [0] (by decide)) (by decide +kernel)

end Hodu
