import Verif.Lemmas.Move

/-!
# Properties C16–C18: concat, split, chunk
-/

namespace Hodu
open Spec

/-! ## C16 -/

/-- A shape that can be joined with `first` along axis `k`: same rank, same sizes elsewhere. -/
def Spec.Joinable (k : Nat) (first dims : List Nat) : Prop :=
  dims.length = first.length ∧ ∀ i, i ≠ k → dims[i]? = first[i]?

/-- Size of the joined axis before operand `j`. -/
def Spec.startOf (k : Nat) (shapes : List (List Nat)) (j : Nat) : Nat :=
  ((shapes.take j).map fun ds => ds.getD k 0).sum

/-- What concatenation along axis `k` means. -/
def Spec.IsConcat (k : Nat) (ts : List (Tensor α)) (r : Tensor α) : Prop :=
  (∀ t, ts.head? = some t →
    r.dims = t.dims.set k (startOf k (ts.map (·.dims)) ts.length)) ∧
  ∀ j (hj : j < ts.length) idx, InRange idx ts[j].dims →
    r.elem (addAt k (startOf k (ts.map (·.dims)) j) idx) = ts[j].elem idx

theorem concatCheck_iff {k : Nat} {first : List Nat} {ls : List Layout} :
    concatCheck k first ls = true ↔ k < first.length ∧ ∀ l ∈ ls, Joinable k first l.dims := by
  unfold concatCheck Joinable
  simp only [Bool.and_eq_true, decide_eq_true_eq, List.all_eq_true, List.mem_range, Bool.or_eq_true,
    beq_iff_eq]
  constructor
  · rintro ⟨h1, h2⟩
    refine ⟨h1, fun l hl => ⟨(h2 l hl).1, fun i hi => ?_⟩⟩
    by_cases hlt : i < first.length
    · exact ((h2 l hl).2 i hlt).resolve_left hi
    · have := (h2 l hl).1
      rw [List.getElem?_eq_none (by omega), List.getElem?_eq_none (by omega)]
  · rintro ⟨h1, h2⟩
    refine ⟨h1, fun l hl => ⟨(h2 l hl).1, fun i _ => ?_⟩⟩
    by_cases hi : i = k
    · exact Or.inl hi
    · exact Or.inr ((h2 l hl).2 i hi)

theorem concatOutDims_ok {k : Nat} {out : List Nat} {ls : List Layout} (hk : k < out.length)
    (hl : ∀ l ∈ ls, l.dims.length = out.length) :
    concatOutDims k out ls =
      .ok (out.set k (out[k] + (ls.map fun l => l.dims.getD k 0).sum)) := by
  induction ls generalizing out with
  | nil => simp [concatOutDims]
  | cons l ls ih =>
    have h1 := hl l (by simp)
    simp only [concatOutDims, h1, ne_eq, not_true_eq_false, if_false]
    rw [readR_ok hk, Res.ok_bind, readR_ok (by omega), Res.ok_bind,
      ih (by simpa using hk) (fun m hm => by simpa using hl m (by simp [hm]))]
    simp [h1, hk, Nat.add_assoc]

theorem concatOutDims_err {k : Nat} {out : List Nat} {ls : List Layout} (hk : k < out.length)
    (hl : ¬ ∀ l ∈ ls, l.dims.length = out.length) : concatOutDims k out ls = .err := by
  induction ls generalizing out with
  | nil => exact absurd (by simp) hl
  | cons l ls ih =>
    simp only [concatOutDims]
    by_cases h1 : l.dims.length = out.length
    · rw [if_neg (by simpa using h1), readR_ok hk, Res.ok_bind, readR_ok (by omega), Res.ok_bind]
      apply ih (by simpa using hk)
      intro h2
      apply hl
      intro m hm
      rcases List.mem_cons.mp hm with rfl | hm
      · exact h1
      · simpa using h2 m hm
    · rw [if_pos (by simpa using h1)]

/-- The full claim. -/
def C16_full : Prop :=
  ∀ (ts : List (Tensor Nat)) (t : Tensor Nat) (d : Int) (k : Nat), ts.head? = some t →
    (∀ u ∈ ts, u.WF) → IsAxis t.dims.length d k → t.dims.length < 2 ^ 31 →
    (∀ u ∈ ts, Joinable k t.dims u.dims) →
    ∃ r, Tensor.concat ts d = .ok r ∧ IsConcat k ts r

/-- **C16 is false of the code**: joining the slice `[0,1,2,3][2:4]` with `[9]` gives `[2,3,2]`; the
packed buffer holds four elements of the first operand but the kernel skips only two. -/
theorem C16_full_false : ¬ C16_full ∧
    ∃ s : Tensor Nat, (⟨[0, 1, 2, 3], Layout.fromShape [4]⟩ : Tensor Nat).slice 0 2 (some 4) 1 = .ok s ∧
      Tensor.concat [s, ⟨[9], Layout.fromShape [1]⟩] 0 = .ok ⟨[2, 3, 2], Layout.fromShape [3]⟩ := by
  refine ⟨?_, ⟨[0, 1, 2, 3], ⟨[2], [1], 2⟩⟩, by decide +kernel⟩
  intro h
  obtain ⟨r, h1, h2⟩ := h [⟨[0, 1, 2, 3], ⟨[2], [1], 2⟩⟩, ⟨[9], Layout.fromShape [1]⟩]
    ⟨[0, 1, 2, 3], ⟨[2], [1], 2⟩⟩ 0 0 rfl
    (by
      intro u hu
      simp only [List.mem_cons, List.not_mem_nil, or_false] at hu
      rcases hu with rfl | rfl
      · refine ⟨rfl, fun idx hi => ?_⟩
        match idx, hi with
        | [0], _ => decide
        | [1], _ => decide
        | [k + 2], hi => exact absurd hi.1 (by simp)
      · exact fresh_wf (by decide))
    ⟨by decide, Or.inl rfl⟩ (by decide)
    (by
      intro u hu
      simp only [List.mem_cons, List.not_mem_nil, or_false] at hu
      rcases hu with rfl | rfl
      · exact ⟨rfl, fun i _ => rfl⟩
      · refine ⟨rfl, fun i hi => ?_⟩
        match i, hi with
        | i + 1, _ => rfl)
  have h3 : Tensor.concat [(⟨[0, 1, 2, 3], ⟨[2], [1], 2⟩⟩ : Tensor Nat), ⟨[9], Layout.fromShape [1]⟩] 0 =
      .ok ⟨[2, 3, 2], Layout.fromShape [3]⟩ := by decide +kernel
  rw [h3] at h1
  cases h1
  have := h2.2 1 (by decide) [0] (by decide)
  exact absurd this (by decide +kernel)

theorem sum_sizes_eq {ts : List (Tensor α)} {j : Nat}
    (hs : ∀ i (hi : i < ts.length), i + 1 < ts.length → ts[i].storage.length = numel ts[i].dims)
    (hj : j < ts.length) :
    (((ts.map (·.layout)).take j).map (·.size)).sum =
      ((ts.take j).map fun t => t.storage.length).sum := by
  rw [← List.map_take, List.map_map]
  congr 1
  apply List.map_congr_left
  intro t ht
  obtain ⟨i, hi, rfl⟩ := List.mem_iff_getElem.mp ht
  simp only [List.length_take] at hi
  simp only [List.getElem_take, Function.comp, Layout.size, shapeSize_eq]
  exact (hs i (by omega) (by omega)).symm

/-- Where the kernel looks for element `idx` of operand `j`: in the packed buffer, after as many elements as the
*shapes* of the operands before `j` hold. -/
def concatReads (ts : List (Tensor α)) (j : Nat) (idx : List Nat) : Option α :=
  (ts.flatMap (·.storage))[(((ts.map (·.layout)).take j).map (·.size)).sum +
    (((ts[j]?.map (·.layout.offset)).getD 0) + dot idx ((ts[j]?.map (·.layout.strides)).getD []))]?

/-- What `concat` computes for arbitrary operands, as long as the positions it reads exist. -/
theorem concat_exact {ts : List (Tensor α)} {t : Tensor α} {d : Int} {k : Nat}
    (ht : ts.head? = some t) (hw : ∀ u ∈ ts, u.WF) (hax : IsAxis t.dims.length d k)
    (hr : t.dims.length ≤ 16) (hj : ∀ u ∈ ts, Joinable k t.dims u.dims)
    (hrd : ∀ j (hj : j < ts.length) idx, InRange idx ts[j].dims → (concatReads ts j idx).isSome) :
    ∃ r, Tensor.concat ts d = .ok r ∧ r.WF ∧ r.storage.length = numel r.dims ∧
      r.layout = Layout.fromShape r.dims ∧
      r.dims = t.dims.set k (startOf k (ts.map (·.dims)) ts.length) ∧
      ∀ j (hj : j < ts.length) idx, InRange idx ts[j].dims →
        r.elem (addAt k (startOf k (ts.map (·.dims)) j) idx) = concatReads ts j idx := by
  obtain ⟨rest, rfl⟩ : ∃ rest, ts = t :: rest := by
    cases ts with
    | nil => cases ht
    | cons a as => injection ht with ht; subst ht; exact ⟨as, rfl⟩
  generalize hts : t :: rest = ts at *
  have hk : k < t.dims.length := hax.1
  have hdl : ∀ u ∈ ts, u.dims.length = t.dims.length := fun u hu => (hj u hu).1
  -- sizes of the operands along the axis
  generalize hss : (ts.map fun u => u.dims.getD k 0) = ss
  have hsl : ss.length = ts.length := by rw [← hss]; simp
  have hsg : ∀ i (hi : i < ts.length), ts[i].dims[k]? = some (ss[i]'(by omega)) := by
    intro i hi
    have h1 : k < ts[i].dims.length := by rw [hdl _ (List.getElem_mem hi)]; exact hk
    subst hss
    simp [h1]
  have hstart : ∀ j, startOf k (ts.map (·.dims)) j = (ss.take j).sum := by
    intro j
    rw [startOf, ← hss, ← List.map_take, ← List.map_take, List.map_map]
    rfl
  have hstartAll : startOf k (ts.map (·.dims)) ts.length = ss.sum := by
    rw [hstart, ← hsl, List.take_length]
  -- output shape
  generalize hout : t.dims.set k ss.sum = out
  have hol : out.length = t.dims.length := by rw [← hout]; simp
  have hod : concatOutDims k t.dims (rest.map (·.layout)) = .ok out := by
    rw [concatOutDims_ok hk]
    · rw [← hout, ← hss, ← hts]
      simp [hk, List.map_map, Function.comp_def]
    · intro l hl
      obtain ⟨u, hu, rfl⟩ := List.mem_map.mp hl
      exact hdl u (by rw [← hts]; simp [hu])
  have hob : concatBackendDims k t.dims (ts.map (·.layout)) = out := by
    rw [concatBackendDims, ← hout, ← hss, List.map_map]
    rfl
  have hchk : concatCheck k t.dims (ts.map (·.layout)) = true := by
    rw [concatCheck_iff]
    refine ⟨hk, fun l hl => ?_⟩
    obtain ⟨u, hu, rfl⟩ := List.mem_map.mp hl
    exact hj u hu
  -- decoding
  have hdec := decodeConcat_concatMetadata (ls := ts.map (·.layout)) (out := out) (dim := k)
    (by
      intro l hl
      obtain ⟨u, hu, rfl⟩ := List.mem_map.mp hl
      rw [hol]; exact hdl u hu)
    (by
      intro l hl
      obtain ⟨u, hu, rfl⟩ := List.mem_map.mp hl
      rw [hol, ← hdl u hu]; exact (hw u hu).1)
  -- the body at an index of operand j
  generalize hm : (ConcatMeta.mk (shapeSize out) out.length out k (ts.map (·.layout)).length
    ((ts.map (·.layout)).flatMap (·.dims)) ((ts.map (·.layout)).flatMap (·.strides))
    ((ts.map (·.layout)).map (·.offset)) (bufferOffsets 0 (ts.map (·.layout)))) = m at hdec
  have hbody : ∀ j (hjl : j < ts.length) idx x, InRange idx ts[j].dims → concatReads ts j idx = some x →
      InRange (addAt k ((ss.take j).sum) idx) out ∧
      concatBody m (ts.flatMap (·.storage)) (rowMajor out (addAt k ((ss.take j).sum) idx)) = .ok x := by
    intro j hjl idx x hi hx
    have hmem := List.getElem_mem hjl
    obtain ⟨c, hc, hclt⟩ := inRange_get hi (hsg j hjl)
    have hadd : addAt k ((ss.take j).sum) idx = idx.set k (c + (ss.take j).sum) := addAt_eq_set hc
    have hlt : c + (ss.take j).sum < ss.sum := by
      have h1 : (ss.take (j + 1)).sum = (ss.take j).sum + ss[j] := by
        rw [List.take_succ_eq_append_getElem (by omega), List.sum_append]; simp
      have h2 : ss.sum = (ss.take (j + 1)).sum + (ss.drop (j + 1)).sum := by
        rw [← List.sum_append, List.take_append_drop]
      omega
    have hdims : ts[j].dims.set k ss.sum = out := by
      rw [← hout]
      apply List.ext_getElem?
      intro i
      rw [List.getElem?_set, List.getElem?_set, hdl _ hmem]
      split
      · rfl
      · rename_i hne
        exact (hj _ hmem).2 i (fun e => hne e.symm)
    have hin : InRange (addAt k ((ss.take j).sum) idx) out := by
      rw [hadd, ← hdims]
      exact inRange_set hi hlt
    refine ⟨hin, ?_⟩
    have hidx : idx.length = t.dims.length := by rw [hi.length, hdl _ hmem]
    have hget : (addAt k ((ss.take j).sum) idx)[k]? = some ((ss.take j).sum + c) := by
      rw [hadd, List.getElem?_set, if_pos rfl, if_pos (by omega), Nat.add_comm]
    have hfind := concatFind_ok (shapes := (ts.map (·.layout)).flatMap (·.dims)) (ss := ss)
      (nd := out.length) (dim := k) (c := c) (j := j)
      (by
        intro i hi'
        refine flatMap_read (nd := out.length) (t := i) ?_ (by simp; omega) ?_
        · intro l hl
          obtain ⟨u, hu, rfl⟩ := List.mem_map.mp hl
          rw [hol]; exact hdl u hu
        · rw [List.getElem_map]
          exact hsg i (by omega))
      (by omega) hclt j 0 (by omega) ts.length hjl
    simp only [List.take_zero, List.sum_nil] at hfind
    have hstr : sliceC ((ts.map (·.layout)).flatMap (·.strides)) (j * out.length) out.length =
        .ok ts[j].layout.strides := by
      have := flatMap_slice (ls := ts.map (·.layout)) (f := (·.strides)) (nd := out.length) (t := j)
        (by
          intro l hl
          obtain ⟨u, hu, rfl⟩ := List.mem_map.mp hl
          rw [hol, ← hdl u hu]; exact (hw u hu).1) (by simpa using hjl)
      simpa using this
    have hoff : readC ((ts.map (·.layout)).map (·.offset)) j = .ok ts[j].layout.offset := by
      rw [readC_eq_ok]; simp [hjl]
    have hbuf : readC (bufferOffsets 0 (ts.map (·.layout))) j =
        .ok (((ts.map (·.layout)).take j).map (·.size)).sum := by
      rw [readC_eq_ok, bufferOffsets_get _ _ _ (by simpa using hjl), Nat.zero_add]
    have hset : (addAt k ((ss.take j).sum) idx).set k ((ss.take j).sum + c - (ss.take j).sum) = idx := by
      rw [hadd, List.set_set, Nat.add_sub_cancel_left]
      exact set_self hc
    subst hm
    unfold concatBody guard16
    rw [if_neg (by simp only; omega)]
    simp only
    rw [cUnravel_rowMajor hin, readC_eq_ok.mpr hget, Res.ok_bind, List.length_map, hfind, Res.ok_bind]
    simp only
    rw [hstr, Res.ok_bind, hoff, Res.ok_bind, hbuf, Res.ok_bind, hset, cFlat_eq]
    rw [readC_eq_ok]
    simpa [concatReads, List.getElem?_eq_getElem hjl] using hx
  -- every output index belongs to an operand
  have hcover : ∀ idx, InRange idx out → ∃ j, ∃ hjl : j < ts.length, ∃ i',
      InRange i' ts[j].dims ∧ addAt k ((ss.take j).sum) i' = idx := by
    intro idx hi
    obtain ⟨c, hc, hclt⟩ := inRange_get (k := k) (d := ss.sum) hi (by rw [← hout]; simp [hk])
    obtain ⟨j, hj', h1, h2⟩ := locate hclt
    have hjl : j < ts.length := by omega
    have hmem := List.getElem_mem hjl
    have hkl : k < idx.length := by rw [hi.length, hol]; exact hk
    refine ⟨j, hjl, idx.set k (c - (ss.take j).sum), ?_, ?_⟩
    · have : ts[j].dims = out.set k (ss[j]) := by
        rw [← hout, List.set_set]
        apply List.ext_getElem?
        intro i
        rw [List.getElem?_set]
        split
        · rename_i he
          subst he
          simpa [hk] using hsg j hjl
        · rename_i hne
          exact (hj _ hmem).2 i (fun e => hne e.symm)
      rw [this]
      exact inRange_set hi h2
    · rw [addAt_eq_set (c := c - (ss.take j).sum)]
      · rw [List.set_set, Nat.sub_add_cancel h1]
        exact set_self hc
      · simp [hkl]
  obtain ⟨zs, hz1, hz2, hz3⟩ := runLoop_elem (out := out)
    (val := concatBody m (ts.flatMap (·.storage)))
    (by
      intro idx hi
      obtain ⟨j, hjl, i', hi', rfl⟩ := hcover idx hi
      have := hrd j hjl i' hi'
      obtain ⟨x, hx⟩ := Option.isSome_iff_exists.mp this
      exact ⟨x, (hbody j hjl i' x hi' hx).2⟩)
  have hcall : callOpsConcat ts k = .ok zs := by
    rw [← hts]
    simp only [callOpsConcat]
    rw [hts, hchk, hob]
    simp only [Bool.not_true, Bool.false_eq_true, if_false, concatKernel]
    rw [hdec, Res.ok_bind, ← hz1]
    subst hm
    rw [shapeSize_eq]
  refine ⟨⟨zs, Layout.fromShape out⟩, ?_, fresh_wf hz2.symm, hz2, rfl, ?_, ?_⟩
  · unfold Tensor.concat
    rw [← hts]
    simp only
    rw [axisUsize_eq hax (by omega), hod, Res.ok_bind, hts, hcall, Res.ok_bind]
  · rw [hstartAll, hout]
    rfl
  · intro j hjl idx hi
    rw [hstart]
    have := hrd j hjl idx hi
    obtain ⟨x, hx⟩ := Option.isSome_iff_exists.mp this
    obtain ⟨h1, h2⟩ := hbody j hjl idx x hi hx
    rw [hx]
    exact hz3 _ h1 _ h2

/-- **C16, what holds.**  `concat` is right for all operands — transposed, broadcast, with offsets —
provided every operand except the last owns a buffer of exactly its size (and the rank is at most
16, the kernel's fixed array size).
Missing: sliced or broadcast operands before the last; ranks above 16. -/
theorem C16_concat_partial {ts : List (Tensor α)} {t : Tensor α} {d : Int} {k : Nat}
    (ht : ts.head? = some t) (hw : ∀ u ∈ ts, u.WF) (hax : IsAxis t.dims.length d k)
    (hr : t.dims.length ≤ 16) (hj : ∀ u ∈ ts, Joinable k t.dims u.dims)
    (hs : ∀ i (hi : i < ts.length), i + 1 < ts.length → ts[i].storage.length = numel ts[i].dims) :
    ∃ r, Tensor.concat ts d = .ok r ∧ r.WF ∧ r.storage.length = numel r.dims ∧
      r.layout = Layout.fromShape r.dims ∧ IsConcat k ts r := by
  have hread : ∀ j (hj : j < ts.length) idx, InRange idx ts[j].dims → concatReads ts j idx = ts[j].elem idx := by
    intro j hjl idx hi
    have hx := (hw _ (List.getElem_mem hjl)).2 idx hi
    obtain ⟨x, hx⟩ := Option.isSome_iff_exists.mp hx
    have hx' : ts[j].storage[ts[j].layout.offset + dot idx ts[j].layout.strides]? = some x := hx
    rw [hx, concatReads, List.getElem?_eq_getElem hjl, Option.map_some, Option.getD_some, Option.map_some,
      Option.getD_some, sum_sizes_eq hs hjl, flatMap_packed hjl]
    · exact hx'
    · by_contra hc'
      rw [List.getElem?_eq_none (by omega)] at hx'
      cases hx'
  obtain ⟨r, h1, h2, h3, h4, h5, h6⟩ := concat_exact ht hw hax hr hj (fun j hjl idx hi => by
    rw [hread j hjl idx hi]; exact (hw _ (List.getElem_mem hjl)).2 idx hi)
  refine ⟨r, h1, h2, h3, h4, ?_, fun j hjl idx hi => by rw [h6 j hjl idx hi, hread j hjl idx hi]⟩
  intro t' ht'
  rw [ht] at ht'
  cases ht'
  exact h5

/-- **C16, rejection.**  Operands of different rank, or with different sizes on another axis, are
rejected with an error (never a crash). -/
theorem C16_rejects {ts : List (Tensor α)} {t : Tensor α} {d : Int} {k : Nat}
    (ht : ts.head? = some t) (hax : IsAxis t.dims.length d k) (hn : t.dims.length < 2 ^ 31)
    (hj : ¬ ∀ u ∈ ts, Joinable k t.dims u.dims) : Tensor.concat ts d = .err := by
  obtain ⟨rest, rfl⟩ : ∃ rest, ts = t :: rest := by
    cases ts with
    | nil => cases ht
    | cons a as => injection ht with ht; subst ht; exact ⟨as, rfl⟩
  simp only [Tensor.concat]
  rw [axisUsize_eq hax hn]
  by_cases hl : ∀ l ∈ rest.map (·.layout), l.dims.length = t.dims.length
  · rw [concatOutDims_ok hax.1 hl, Res.ok_bind]
    have : concatCheck k t.dims ((t :: rest).map (·.layout)) = false := by
      rw [← Bool.not_eq_true, concatCheck_iff]
      rintro ⟨_, h2⟩
      exact hj fun u hu => h2 _ (List.mem_map.mpr ⟨u, hu, rfl⟩)
    simp only [callOpsConcat]
    rw [this]
    rfl
  · rw [concatOutDims_err hax.1 hl]
    rfl

/-- C16 on a transposed matrix followed by a column slice. -/
private def exC : List (Tensor Nat) :=
  [⟨[1, 2, 3, 4, 5, 6], ⟨[3, 2], [1, 3], 0⟩⟩, ⟨[7, 8, 9, 10, 11, 12, 13], ⟨[3, 1], [2, 1], 1⟩⟩]
example : Tensor.concat exC (-1) = .ok ⟨[1, 4, 8, 2, 5, 10, 3, 6, 12], Layout.fromShape [3, 3]⟩ ∧
    (∀ u ∈ exC, u.dims.length = 2) ∧ Tensor.concat exC 0 = .err := by decide +kernel

/-! ## C17 -/

theorem decodeSplit_splitMetadata {l : Layout} {dim size start n : Nat}
    (hl : l.strides.length = l.dims.length) :
    decodeSplit (splitMetadata l dim size start n) =
      .ok { numEls := n, nd := l.dims.length, inShape := l.dims, inStrides := l.strides,
            inOffset := l.offset, splitDim := dim, outSize := size, splitOffset := start } := by
  unfold decodeSplit splitMetadata
  rw [show readC ([n, l.ndim] ++ l.dims ++ l.strides ++ [l.offset, dim, size, start]) 0 = .ok n by
    simp [readC]]
  rw [Res.ok_bind, show readC ([n, l.ndim] ++ l.dims ++ l.strides ++ [l.offset, dim, size, start]) 1 =
    .ok l.dims.length by simp [readC]]
  rw [Res.ok_bind, show [n, l.ndim] ++ l.dims ++ l.strides ++ [l.offset, dim, size, start] =
    [n, l.ndim] ++ l.dims ++ (l.strides ++ [l.offset, dim, size, start]) by simp,
    sliceC_mid _ _ _ 2 _ rfl rfl]
  rw [Res.ok_bind, show [n, l.ndim] ++ l.dims ++ (l.strides ++ [l.offset, dim, size, start]) =
    ([n, l.ndim] ++ l.dims) ++ l.strides ++ [l.offset, dim, size, start] by simp,
    sliceC_mid _ _ _ (2 + l.dims.length) _ (by simp; omega) hl.symm]
  rw [Res.ok_bind, readC_mid _ _ _ (2 + 2 * l.dims.length) (by simp; omega)]
  rw [Res.ok_bind, show [n, l.ndim] ++ l.dims ++ l.strides ++ [l.offset, dim, size, start] =
    ([n, l.ndim] ++ l.dims ++ l.strides ++ [l.offset]) ++ dim :: [size, start] by simp,
    readC_mid _ _ _ (2 + 2 * l.dims.length + 1) (by simp; omega)]
  rw [Res.ok_bind, show ([n, l.ndim] ++ l.dims ++ l.strides ++ [l.offset]) ++ dim :: [size, start] =
    ([n, l.ndim] ++ l.dims ++ l.strides ++ [l.offset, dim]) ++ size :: [start] by simp,
    readC_mid _ _ _ (2 + 2 * l.dims.length + 2) (by simp; omega)]
  rw [Res.ok_bind, show ([n, l.ndim] ++ l.dims ++ l.strides ++ [l.offset, dim]) ++ size :: [start] =
    ([n, l.ndim] ++ l.dims ++ l.strides ++ [l.offset, dim, size]) ++ start :: [] by simp,
    readC_mid _ _ _ (2 + 2 * l.dims.length + 3) (by simp; omega)]
  rfl

/-- The kernel on one piece of a split. -/
theorem splitKernel_ok {t : Tensor α} {k d start size : Nat} (ht : t.WF) (hr : t.dims.length ≤ 16)
    (hd : t.dims[k]? = some d) (h2 : start + size ≤ d) :
    ∃ s, splitKernel t.storage (splitMetadata t.layout k size start (shapeSize (t.layout.dims.set k size))) = .ok s ∧
      s.length = numel (t.dims.set k size) ∧
      ∀ idx, InRange idx (t.dims.set k size) →
        Tensor.elem ⟨s, Layout.fromShape (t.dims.set k size)⟩ idx = t.elem (addAt k start idx) := by
  have hk : k < t.dims.length := by
    by_contra hc
    rw [List.getElem?_eq_none (by omega)] at hd
    cases hd
  have hcoord : ∀ idx, InRange idx (t.dims.set k size) → ∃ c, idx[k]? = some c ∧
      addAt k start idx = idx.set k (c + start) ∧ InRange (addAt k start idx) t.dims := by
    intro idx hi
    obtain ⟨c, hc, hlt⟩ := inRange_get (k := k) (d := size) hi (by simp [hk])
    refine ⟨c, hc, addAt_eq_set hc, ?_⟩
    rw [addAt_eq_set hc]
    have := inRange_set (k := k) (c := c + start) (n := d) hi (by omega)
    rwa [List.set_set, set_self hd] at this
  have hval : ∀ idx, InRange idx (t.dims.set k size) → ∀ x, t.elem (addAt k start idx) = some x →
      ((readC (cUnravel (t.dims.set k size) (rowMajor (t.dims.set k size) idx)).1 k).bind fun c =>
        readC t.storage (cFlat t.layout.offset
          ((cUnravel (t.dims.set k size) (rowMajor (t.dims.set k size) idx)).1.set k (c + start))
          t.layout.strides)) = .ok x := by
    intro idx hi x hx
    obtain ⟨c, hc, ha, _⟩ := hcoord idx hi
    rw [cUnravel_rowMajor hi, readC_eq_ok.mpr hc, Res.ok_bind, cFlat_eq, readC_eq_ok, ← ha]
    exact hx
  obtain ⟨zs, hz1, hz2, hz3⟩ := runLoop_elem (out := t.dims.set k size)
    (val := fun id => (readC (cUnravel (t.dims.set k size) id).1 k).bind fun c =>
        readC t.storage (cFlat t.layout.offset
          ((cUnravel (t.dims.set k size) id).1.set k (c + start)) t.layout.strides))
    (by
      intro idx hi
      obtain ⟨c, hc, ha, hin⟩ := hcoord idx hi
      obtain ⟨x, hx⟩ := Option.isSome_iff_exists.mp (ht.2 _ hin)
      exact ⟨x, hval idx hi x hx⟩)
  refine ⟨zs, ?_, hz2, ?_⟩
  · rw [splitKernel, decodeSplit_splitMetadata ht.1, Res.ok_bind]
    unfold guard16
    rw [if_neg (by simp only; have : t.layout.dims.length ≤ 16 := hr; omega), shapeSize_eq]
    exact hz1
  · intro idx hi
    obtain ⟨c, hc, ha, hin⟩ := hcoord idx hi
    obtain ⟨x, hx⟩ := Option.isSome_iff_exists.mp (ht.2 _ hin)
    rw [hx]
    exact hz3 idx hi x (hval idx hi x hx)

/-- One piece of a split. -/
theorem callOpsSplit_ok {t : Tensor α} {k d start size : Nat} (ht : t.WF) (hr : t.dims.length ≤ 16)
    (hd : t.dims[k]? = some d) (h1 : start < d) (h2 : start + size ≤ d) :
    ∃ s, callOpsSplit t.storage t.layout k start size = .ok s ∧
      s.length = numel (t.dims.set k size) ∧
      ∀ idx, InRange idx (t.dims.set k size) →
        Tensor.elem ⟨s, Layout.fromShape (t.dims.set k size)⟩ idx = t.elem (addAt k start idx) := by
  obtain ⟨s, h3, h4⟩ := splitKernel_ok ht hr hd h2
  have hd' : t.layout.dims[k]? = some d := hd
  refine ⟨s, ?_, h4⟩
  unfold callOpsSplit
  rw [hd']
  simp only
  rw [if_neg (by omega), if_neg (by omega)]
  exact h3

/-- The pieces: piece `j` has size `sizes[j]` on the axis and holds the range starting at the sum of
the preceding sizes. -/
def Spec.IsSplit (k : Nat) (t : Tensor α) (start : Nat) (sizes : List Nat) (ps : List (Tensor α)) :
    Prop :=
  ps.length = sizes.length ∧ ∀ j (hj : j < ps.length) (hs : j < sizes.length),
    ps[j].WF ∧ ps[j].dims = t.dims.set k sizes[j] ∧
    ∀ idx, InRange idx ps[j].dims →
      ps[j].elem idx = t.elem (addAt k (start + (sizes.take j).sum) idx)

theorem splitLoop_ok {t : Tensor α} {k d : Nat} (ht : t.WF) (hr : t.dims.length ≤ 16)
    (hd : t.dims[k]? = some d) (sizes : List Nat) (start : Nat)
    (hz : ∀ j, j < sizes.length → start + (sizes.take j).sum < d) (hsum : start + sizes.sum ≤ d) :
    ∃ ps, splitLoop t k start sizes = .ok ps ∧ IsSplit k t start sizes ps ∧
      ∀ p ∈ ps, p.layout = Layout.fromShape p.dims ∧ p.storage.length = numel p.dims := by
  induction sizes generalizing start with
  | nil => exact ⟨[], rfl, ⟨rfl, fun j hj => by simp at hj⟩, by simp⟩
  | cons size sizes ih =>
    simp only [List.sum_cons] at hsum
    obtain ⟨s, h1, h2, h3⟩ := callOpsSplit_ok (start := start) (size := size) ht hr hd
      (by simpa using hz 0 (by simp)) (by omega)
    obtain ⟨ps, h4, h5, h6⟩ := ih (start + size)
      (fun j hj => by
        have := hz (j + 1) (by simpa using hj)
        simp only [List.take_succ_cons, List.sum_cons] at this
        omega) (by omega)
    refine ⟨⟨s, Layout.fromShape (t.dims.set k size)⟩ :: ps, by simp [splitLoop, h1, h4], ?_, ?_⟩
    · refine ⟨by simp [h5.1], ?_⟩
      intro j hj hs
      cases j with
      | zero => exact ⟨fresh_wf h2.symm, rfl, fun idx hi => by simpa using h3 idx hi⟩
      | succ j =>
        obtain ⟨h7, h8, h9⟩ := h5.2 j (by simpa using hj) (by simpa using hs)
        refine ⟨h7, h8, fun idx hi => ?_⟩
        rw [List.take_succ_cons, List.sum_cons, ← Nat.add_assoc]
        exact h9 idx hi
    · intro p hp
      rcases List.mem_cons.mp hp with rfl | hp
      · exact ⟨rfl, h2⟩
      · exact h6 p hp

/-- The full claim. -/
def C17_full : Prop :=
  ∀ (t : Tensor Nat) (sizes : List Nat) (dim : Int) (k d : Nat), t.WF → IsAxis t.dims.length dim k →
    t.dims.length < 2 ^ 31 → t.dims[k]? = some d →
    (sizes.sum = d → ∃ ps, t.split sizes dim = .ok ps ∧ IsSplit k t 0 sizes ps ∧
      ∃ u, Tensor.concat ps dim = .ok u ∧ u.SameValues t) ∧
    (sizes.sum ≠ d → t.split sizes dim = .err)

/-- **C17 is false of the code**: sizes `[1,2]` are accepted for a dimension of size 4 (the rest is
silently dropped), and sizes `[4,0]`, which do add up, are rejected. -/
theorem C17_full_false : ¬ C17_full ∧
    (let t : Tensor Nat := ⟨[0, 1, 2, 3], Layout.fromShape [4]⟩
     t.split [1, 2] 0 = .ok [⟨[0], Layout.fromShape [1]⟩, ⟨[1, 2], Layout.fromShape [2]⟩] ∧
     t.split [4, 0] 0 = .err) := by
  have hc : (⟨[0, 1, 2, 3], Layout.fromShape [4]⟩ : Tensor Nat).split [1, 2] 0 =
      .ok [⟨[0], Layout.fromShape [1]⟩, ⟨[1, 2], Layout.fromShape [2]⟩] := by decide +kernel
  refine ⟨?_, hc, by decide +kernel⟩
  intro h
  have := (h ⟨[0, 1, 2, 3], Layout.fromShape [4]⟩ [1, 2] 0 0 4 (fresh_wf (by decide))
    ⟨by decide, Or.inl rfl⟩ (by decide) rfl).2 (by decide)
  rw [hc] at this
  cases this

/-- Joining the pieces of a split gives the tensor back. -/
theorem concat_split {t : Tensor α} {sizes : List Nat} {dim : Int} {k d : Nat} {ps : List (Tensor α)}
    (hax : IsAxis t.dims.length dim k) (hr : t.dims.length ≤ 16) (hd : t.dims[k]? = some d)
    (h2 : IsSplit k t 0 sizes ps) (h3 : ∀ p ∈ ps, p.storage.length = numel p.dims) :
    sizes.sum = d → sizes ≠ [] →
      ∃ u, Tensor.concat ps dim = .ok u ∧ u.WF ∧ u.storage.length = numel u.dims ∧ u.SameValues t := by
  intro hs hne
  obtain ⟨hl, h2⟩ := h2
  have hk := hax.1
  cases hps : ps with
  | nil =>
    rw [hps] at hl
    exact absurd (List.length_eq_zero_iff.mp hl.symm) hne
  | cons p rest =>
    rw [← hps]
    have hpos : 0 < sizes.length := List.length_pos_iff.mpr hne
    have hp0 : ps[0]'(by omega) = p := by subst hps; rfl
    have hpd : p.dims = t.dims.set k sizes[0] := by
      rw [← hp0]; exact (h2 0 (by omega) hpos).2.1
    have hmem : ∀ u ∈ ps, ∃ j, ∃ h : j < ps.length, ∃ h' : j < sizes.length, u = ps[j] := by
      intro u hu
      obtain ⟨j, hj, rfl⟩ := List.mem_iff_getElem.mp hu
      exact ⟨j, hj, by omega, rfl⟩
    obtain ⟨r, hr1, hr2, hr5, _, hr3, hr4⟩ := C16_concat_partial (ts := ps) (t := p) (d := dim) (k := k)
      (by rw [hps]; rfl)
      (by
        intro u hu
        obtain ⟨j, hj, hj', rfl⟩ := hmem u hu
        exact (h2 j hj hj').1)
      (by rw [hpd, List.length_set]; exact hax) (by rw [hpd, List.length_set]; exact hr)
      (by
        intro u hu
        obtain ⟨j, hj, hj', rfl⟩ := hmem u hu
        rw [(h2 j hj hj').2.1, hpd]
        refine ⟨by simp, fun i hi => ?_⟩
        rw [List.getElem?_set, List.getElem?_set, if_neg (fun e => hi e.symm),
          if_neg (fun e => hi e.symm)])
      (by
        intro i hi _
        exact h3 _ (List.getElem_mem hi))
    have hstart : ∀ j, startOf k (ps.map (·.dims)) j = (sizes.take j).sum := by
      intro j
      have : (ps.map (·.dims)).map (fun ds => ds.getD k 0) = sizes := by
        apply List.ext_getElem (by simp [hl])
        intro i h4 h5
        simp only [List.length_map] at h4
        simp only [List.getElem_map]
        rw [(h2 i h4 (by omega)).2.1]
        simp [hk]
      rw [startOf, List.map_take, this]
    refine ⟨r, hr1, hr2, hr5, ?_⟩
    have hdims : r.dims = t.dims := by
      rw [hr3 p (by rw [hps]; rfl), hstart, hpd, List.set_set, hl, List.take_length, hs, set_self hd]
    refine ⟨hdims, ?_⟩
    intro idx hi
    rw [hdims] at hi
    obtain ⟨c, hc, hlt⟩ := inRange_get hi hd
    obtain ⟨j, hj, h4, h5⟩ := locate (ss := sizes) (c := c) (by omega)
    have hkl : k < idx.length := by rw [hi.length]; exact hk
    have hadd : addAt k ((sizes.take j).sum) (idx.set k (c - (sizes.take j).sum)) = idx := by
      rw [addAt_eq_set (c := c - (sizes.take j).sum)]
      · rw [List.set_set, Nat.sub_add_cancel h4]
        exact set_self hc
      · simp [hkl]
    have hin : InRange (idx.set k (c - (sizes.take j).sum)) (ps[j]'(by omega)).dims := by
      rw [(h2 j (by omega) hj).2.1]
      exact inRange_set hi h5
    have h6 := hr4 j (by omega) _ hin
    rw [hstart, (h2 j (by omega) hj).2.2 _ hin, Nat.zero_add, hadd] at h6
    exact h6

/-- **C17, what holds.**  For every tensor (any layout, rank at most 16), every axis and every size
list whose pieces all start inside the dimension: `split` succeeds and each piece holds its range;
if the sizes add up to the dimension, concatenating the pieces restores the source; sizes that add
up to more are rejected.
Missing: rejecting sizes that add up to less; a trailing zero-size piece. -/
theorem C17_split_partial {t : Tensor α} {sizes : List Nat} {dim : Int} {k d : Nat} (ht : t.WF)
    (hax : IsAxis t.dims.length dim k) (hr : t.dims.length ≤ 16) (hd : t.dims[k]? = some d)
    (hz : ∀ j, j < sizes.length → (sizes.take j).sum < d) (hsum : sizes.sum ≤ d) :
    ∃ ps, t.split sizes dim = .ok ps ∧ IsSplit k t 0 sizes ps ∧
      (sizes.sum = d → sizes ≠ [] → ∃ u, Tensor.concat ps dim = .ok u ∧ u.WF ∧ u.SameValues t) := by
  obtain ⟨ps, h1, h2, h3⟩ := splitLoop_ok ht hr hd sizes 0 (by simpa using hz) (by simpa using hsum)
  exact ⟨ps, by rw [Tensor.split, axisUsize_eq hax (by omega)]; exact h1, h2, fun hs hne => by
    obtain ⟨u, h4, h5, _, h6⟩ := concat_split hax hr hd h2 (fun p hp => (h3 p hp).2) hs hne
    exact ⟨u, h4, h5, h6⟩⟩

/-- **C17, rejection**: sizes adding up to more than the dimension give an error. -/
theorem C17_too_large {t : Tensor α} {sizes : List Nat} {dim : Int} {k d : Nat} (ht : t.WF)
    (hax : IsAxis t.dims.length dim k) (hr : t.dims.length ≤ 16) (hd : t.dims[k]? = some d)
    (hsum : d < sizes.sum) : t.split sizes dim = .err := by
  rw [Tensor.split, axisUsize_eq hax (by omega)]
  have : ∀ start, d < start + sizes.sum → start ≤ d → splitLoop t k start sizes = .err := by
    clear hsum
    induction sizes with
    | nil => intro start h1 h2; simp at h1; omega
    | cons size sizes ih =>
      intro start h1 h2
      simp only [List.sum_cons] at h1
      simp only [splitLoop]
      by_cases h3 : d ≤ start
      · have hd' : t.layout.dims[k]? = some d := hd
        simp [callOpsSplit, hd', h3]
      · by_cases h4 : start + size ≤ d
        · obtain ⟨s, h5, _⟩ := callOpsSplit_ok (start := start) (size := size) ht hr hd (by omega) h4
          rw [h5, Res.ok_bind, ih (start + size) (by omega) h4]
          rfl
        · have hd' : t.layout.dims[k]? = some d := hd
          simp [callOpsSplit, hd', h3, show d < start + size by omega]
  exact this 0 (by omega) (by omega)

/-- C17 on a transposed 3×2 view. -/
private def exT : Tensor Nat := ⟨[1, 2, 3, 4, 5, 6], ⟨[3, 2], [1, 3], 0⟩⟩
example : exT.split [1, 2] 0 =
      .ok [⟨[1, 4], Layout.fromShape [1, 2]⟩, ⟨[2, 5, 3, 6], Layout.fromShape [2, 2]⟩] ∧
    (∀ j, j < 2 → ([1, 2].take j).sum < 3) ∧ exT.split [2, 2] 0 = .err := by decide +kernel

/-! ## C18 -/

/-- The full claim: never a panic; success means the sizes add up. -/
def C18_full : Prop :=
  ∀ (t : Tensor Nat) (chunks : Nat) (dim : Int) (k d : Nat), t.WF → IsAxis t.dims.length dim k →
    t.dims.length < 2 ^ 31 → t.dims[k]? = some d →
    t.chunk chunks dim = .err ∨
      ∃ ps, t.chunk chunks dim = .ok ps ∧ ps.length ≤ chunks ∧
        (ps.map fun p => p.dims.getD k 0).sum = d

/-- **C18 is false of the code**: splitting a dimension of size 5 into 4 chunks computes `5 - 6` and
panics, and so does a chunk count of 0. -/
theorem C18_full_false : ¬ C18_full ∧
    (let t : Tensor Nat := ⟨[0, 1, 2, 3, 4], Layout.fromShape [5]⟩
     t.chunk 4 0 = .panic ∧ t.chunk 0 0 = .panic) := by
  have hc : (⟨[0, 1, 2, 3, 4], Layout.fromShape [5]⟩ : Tensor Nat).chunk 4 0 = .panic := by
    decide +kernel
  refine ⟨?_, hc, by decide +kernel⟩
  intro h
  rcases h ⟨[0, 1, 2, 3, 4], Layout.fromShape [5]⟩ 4 0 0 5 (fresh_wf (by decide))
    ⟨by decide, Or.inl rfl⟩ (by decide) rfl with h | ⟨ps, h, _⟩ <;> rw [hc] at h <;> cases h

/-- Rounded-up quotient. -/
theorem divCeil_spec {d n : Nat} (hn : 0 < n) :
    ∃ c, divCeil d n = .ok c ∧ d ≤ n * c ∧ (∀ e, d ≤ n * e → c ≤ e) := by
  refine ⟨(d + n - 1) / n, by simp [divCeil, Nat.ne_of_gt hn], ?_, ?_⟩
  · have h1 := Nat.div_add_mod (d + n - 1) n
    have h2 := Nat.mod_lt (d + n - 1) hn
    omega
  · intro e he
    rw [Nat.div_le_iff_le_mul_add_pred hn]
    omega

theorem sum_filter_pos (l : List Nat) : (l.filter (0 < ·)).sum = l.sum := by
  induction l with
  | nil => rfl
  | cons a as ih =>
    by_cases h : 0 < a
    · rw [List.filter_cons_of_pos (by simpa using h)]; simp [ih]
    · rw [List.filter_cons_of_neg (by simpa using h)]; simp [ih]; omega

theorem sum_pieces (d c n : Nat) (h : (n - 1) * c ≤ d) :
    (((List.range n).map fun i => min ((i + 1) * c) d - i * c)).sum = min (n * c) d := by
  induction n with
  | zero => simp
  | succ n ih =>
    simp only [Nat.add_sub_cancel] at h
    have h' : (n - 1) * c ≤ d := Nat.le_trans (Nat.mul_le_mul_right _ (Nat.sub_le _ _)) h
    rw [List.range_succ, List.map_append, List.sum_append, ih h', Nat.min_eq_left h]
    simp only [List.map_cons, List.map_nil, List.sum_cons, List.sum_nil, Nat.add_zero]
    rw [Nat.add_sub_cancel']
    refine Nat.le_min.mpr ⟨Nat.mul_le_mul_right _ (Nat.le_succ _), h⟩

/-- **C18, what holds, exactly.**  With `c` the size of a chunk (the dimension divided by the chunk
count, rounded up): if the chunks before the last fit into the dimension, `chunk` returns at most
`chunks` pieces, of positive sizes that add up to the dimension, each holding its range; in every
other case (for a positive count) it panics.
Missing: the cases that panic. -/
theorem C18_chunk_partial {t : Tensor α} {chunks : Nat} {dim : Int} {k d : Nat} (ht : t.WF)
    (hax : IsAxis t.dims.length dim k) (hr : t.dims.length ≤ 16) (hd : t.dims[k]? = some d)
    (hn : 0 < chunks) :
    ∃ c, d ≤ chunks * c ∧ (∀ e, d ≤ chunks * e → c ≤ e) ∧
      ((chunks - 1) * c ≤ d → ∃ ps sizes, t.chunk chunks dim = .ok ps ∧ IsSplit k t 0 sizes ps ∧
        ps.length ≤ chunks ∧ sizes.sum = d ∧ ∀ s ∈ sizes, 0 < s) ∧
      (d < (chunks - 1) * c → t.chunk chunks dim = .panic) := by
  obtain ⟨c, hc1, hc2, hc3⟩ := divCeil_spec (d := d) hn
  have hd' : t.layout.dims[k]? = some d := hd
  have hread : readR t.dims (axisUsize t.dims.length dim) = .ok d := by
    rw [axisUsize_eq hax (by omega), readR_eq_ok]; exact hd
  refine ⟨c, hc2, hc3, ?_, ?_⟩
  · intro h
    have hm : Res.mapL (fun i => subUsize (min ((i + 1) * c) d) (i * c)) (List.range chunks) =
        .ok ((List.range chunks).map fun i => min ((i + 1) * c) d - i * c) := by
      apply Res.mapL_eq_ok_of
      intro i hi
      have hi : i < chunks := by simpa using hi
      have h1 : i * c ≤ d := Nat.le_trans (Nat.mul_le_mul_right _ (by omega)) h
      have h2 : i * c ≤ (i + 1) * c := Nat.mul_le_mul_right _ (Nat.le_succ _)
      rw [subUsize, if_neg (by omega)]
    have hsum : (((List.range chunks).map fun i => min ((i + 1) * c) d - i * c).filter (0 < ·)).sum = d := by
      rw [sum_filter_pos, sum_pieces d c chunks h, Nat.min_eq_right hc2]
    have hpos : ∀ s ∈ ((List.range chunks).map fun i => min ((i + 1) * c) d - i * c).filter (0 < ·),
        0 < s := by
      intro s hs
      simpa using (List.mem_filter.mp hs).2
    have hlen : (((List.range chunks).map fun i => min ((i + 1) * c) d - i * c).filter (0 < ·)).length
        ≤ chunks := by
      refine Nat.le_trans (List.length_filter_le _ _) (by simp)
    have hcs : chunkSizes d chunks =
        .ok (((List.range chunks).map fun i => min ((i + 1) * c) d - i * c).filter (0 < ·)) := by
      simp only [chunkSizes, hc1, Res.ok_bind, hm]
    generalize ((List.range chunks).map fun i => min ((i + 1) * c) d - i * c).filter (0 < ·) = sizes at *
    obtain ⟨ps, h1, h2, _⟩ := C17_split_partial (sizes := sizes) ht hax hr hd
      (by
        intro j hj
        have h3 : (sizes.take j).sum + (sizes.drop j).sum = d := by
          rw [← List.sum_append, List.take_append_drop, hsum]
        have h4 : sizes.drop j = sizes[j] :: sizes.drop (j + 1) := List.drop_eq_getElem_cons hj
        rw [h4, List.sum_cons] at h3
        have := hpos sizes[j] (List.getElem_mem hj)
        omega) (by omega)
    refine ⟨ps, sizes, ?_, h2, by rw [h2.1]; exact hlen, hsum, hpos⟩
    rw [Tensor.chunk, hread, Res.ok_bind, hcs, Res.ok_bind, h1]
  · intro h
    have hcs : chunkSizes d chunks = .panic := by
      simp only [chunkSizes, hc1, Res.ok_bind]
      have hp : ∀ l : List Nat, chunks - 1 ∈ l →
          Res.mapL (fun i => subUsize (min ((i + 1) * c) d) (i * c)) l = .panic := by
        intro l
        induction l with
        | nil => intro hm; simp at hm
        | cons a as ih =>
          intro hm
          simp only [Res.mapL]
          by_cases ha : min ((a + 1) * c) d < a * c
          · simp [subUsize, ha]
          · have : subUsize (min ((a + 1) * c) d) (a * c) = .ok (min ((a + 1) * c) d - a * c) := by
              rw [subUsize, if_neg ha]
            rw [this, Res.ok_bind, ih]
            · rfl
            · rcases List.mem_cons.mp hm with rfl | hm
              · exact absurd (show min ((chunks - 1 + 1) * c) d < (chunks - 1) * c by omega) ha
              · exact hm
      rw [hp _ (by simp; omega)]
      rfl
    rw [Tensor.chunk, hread, Res.ok_bind, hcs]
    rfl

/-- C18: a dimension of size 7 in 3 chunks gives sizes 3, 3, 1. -/
example : (⟨[0, 1, 2, 3, 4, 5, 6], Layout.fromShape [7]⟩ : Tensor Nat).chunk 3 (-1) =
    .ok [⟨[0, 1, 2], Layout.fromShape [3]⟩, ⟨[3, 4, 5], Layout.fromShape [3]⟩,
      ⟨[6], Layout.fromShape [1]⟩] := by decide +kernel

end Hodu
