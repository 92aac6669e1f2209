import Verif.Model.ScanSort
import Verif.Props.Indexing

/-! # C25 cumsum -/

namespace Hodu
open Spec

/-- Writes that agree on each position leave the written value, in whatever order they are made. -/
theorem applyWrites_agree {g : Nat → Option β} {buf out : List β} {ws : List (Nat × β)}
    (hg : ∀ w ∈ ws, g w.1 = some w.2) (h : applyWrites buf ws = .ok out) :
    ∀ w ∈ ws, out[w.1]? = some w.2 := by
  have key : ∀ (ws : List (Nat × β)) (buf out : List β), (∀ w ∈ ws, g w.1 = some w.2) →
      applyWrites buf ws = .ok out →
      ∀ i x, g i = some x → (buf[i]? = some x ∨ ∃ w ∈ ws, w.1 = i) → out[i]? = some x := by
    intro ws
    induction ws with
    | nil =>
      intro buf out _ h i x _ hx
      rcases hx with hx | ⟨w, hw, _⟩
      · injection h with h; rw [← h]; exact hx
      · simp at hw
    | cons w ws ih =>
      intro buf out hg h i x hgi hx
      obtain ⟨j, v⟩ := w
      rw [applyWrites] at h
      split at h
      · rename_i hj
        refine ih (buf.set j v) out (fun w hw => hg w (by simp [hw])) h i x hgi ?_
        have h0 := hg (j, v) (by simp)
        by_cases e : j = i
        · subst e
          left
          rw [List.getElem?_set_self hj]
          simp only at h0
          rw [← hgi, h0]
        · rcases hx with hx | ⟨w, hw, hwi⟩
          · left; rw [List.getElem?_set_ne e]; exact hx
          · right
            rcases List.mem_cons.mp hw with rfl | hw
            · exact absurd hwi e
            · exact ⟨w, hw, hwi⟩
      · cases h
  intro w hw
  exact key ws buf out hg h w.1 w.2 (hg w hw) (Or.inr ⟨w, hw, rfl⟩)

theorem cUnravelUp_inRange {dims : List Nat} {o : Nat} (h : o < numel dims) :
    InRange (cUnravelUp dims o) dims := by
  induction dims generalizing o with
  | nil => simp [cUnravelUp, InRange]
  | cons d ds ih =>
    have hd : 0 < d := by
      rcases Nat.eq_zero_or_pos d with rfl | h'
      · simp [numel] at h
      · exact h'
    refine ⟨Nat.mod_lt _ hd, ih ?_⟩
    rw [Nat.div_lt_iff_lt_mul hd, Nat.mul_comm]
    exact h

theorem cUnravelUp_surj {dims a : List Nat} (h : InRange a dims) :
    ∃ o, o < numel dims ∧ cUnravelUp dims o = a := by
  induction dims generalizing a with
  | nil =>
    have : a = [] := List.eq_nil_of_length_eq_zero h.length
    exact ⟨0, by simp [numel], by simp [cUnravelUp, this]⟩
  | cons d ds ih =>
    cases a with
    | nil => simp [InRange] at h
    | cons i is =>
      obtain ⟨hi, his⟩ := h
      obtain ⟨o, ho, he⟩ := ih his
      refine ⟨i + d * o, ?_, ?_⟩
      · simp only [numel]
        calc i + d * o < d + d * o := by omega
          _ = d * (o + 1) := by ring
          _ ≤ d * numel ds := Nat.mul_le_mul_left d ho
      · simp only [cUnravelUp]
        rw [Nat.add_mul_mod_self_left, Nat.mod_eq_of_lt hi, Nat.add_mul_div_left _ _ (by omega),
          Nat.div_eq_of_lt hi, Nat.zero_add, he]

/-- The writes of one line: one per coordinate, each the fold of the elements up to it. -/
theorem scanLine_ok {add : α → α → α} {inp : List α} {ib is ob os : Nat} {x : Nat → α} :
    ∀ (fuel s : Nat) (acc : α), (∀ j, s ≤ j → j < s + fuel → inp[ib + j * is]? = some (x j)) →
      scanLine add inp ib is ob os fuel s acc =
        .ok ((List.range fuel).map fun j =>
          (ob + (s + j) * os, ((List.range' s (j + 1)).map x).foldl add acc)) := by
  intro fuel
  induction fuel with
  | zero => intro s acc _; rfl
  | succ fuel ih =>
    intro s acc h
    have h0 := h s (by omega) (by omega)
    simp only [scanLine]
    rw [readC_eq_ok.mpr h0, Res.ok_bind, ih (s + 1) _ (fun j h1 h2 => h j (by omega) (by omega))]
    rw [List.range_succ_eq_map]
    simp only [Res.map, List.map_cons, List.map_map]
    congr 2
    simp only [List.map_inj_left, List.mem_range, Function.comp, Nat.succ_eq_add_one]
    intro j _
    rw [show s + 1 + j = s + (j + 1) by omega]
    congr 1

theorem split_at {l : List Nat} {k n : Nat} (h : l[k]? = some n) :
    l = l.take k ++ n :: l.drop (k + 1) := by
  have hk : k < l.length := by
    by_contra hc
    rw [List.getElem?_eq_none (by omega)] at h
    cases h
  rw [List.getElem?_eq_getElem hk] at h
  injection h with h
  rw [← h, List.getElem_cons_drop, List.take_append_drop]

theorem dot_split {strides a b : List Nat} {k s st : Nat} (hs : strides[k]? = some st)
    (ha : a.length = k) :
    dot (a ++ s :: b) strides = dot a (strides.take k) + s * st + dot b (strides.drop (k + 1)) := by
  have hk : k < strides.length := by
    by_contra hc
    rw [List.getElem?_eq_none (by omega)] at hs
    cases hs
  conv_lhs => rw [split_at hs]
  rw [dot_append (by simp [ha]; omega)]
  simp only [dot]
  omega

theorem tailProds_length (dims : List Nat) : (tailProds dims).length = dims.length := by
  induction dims with
  | nil => rfl
  | cons d ds ih => simp [tailProds, ih]

theorem inRange_split {idx dims : List Nat} {k n : Nat} (hn : dims[k]? = some n)
    (h : InRange idx dims) : ∃ a s b, idx = a ++ s :: b ∧ a.length = k ∧ s < n ∧
      InRange a (dims.take k) ∧ InRange b (dims.drop (k + 1)) := by
  obtain ⟨s, hs, hlt⟩ := inRange_get h hn
  have hk : k < dims.length := by
    by_contra hc
    rw [List.getElem?_eq_none (by omega)] at hn
    cases hn
  have hl := h.length
  rw [split_at hn, split_at hs] at h
  rw [inRange_append (by simp; omega)] at h
  exact ⟨idx.take k, s, idx.drop (k + 1), split_at hs, by simp; omega, hlt, h.1, h.2.2⟩

theorem inRange_join {dims a b : List Nat} {k n s : Nat} (hn : dims[k]? = some n)
    (ha : InRange a (dims.take k)) (hb : InRange b (dims.drop (k + 1))) (hs : s < n) :
    InRange (a ++ s :: b) dims := by
  rw [split_at hn]
  exact (inRange_append (by rw [ha.length])).mpr ⟨ha, hs, hb⟩

/-- C25 (rank at most 16, the size of an array in the kernel): for every layout, the element of the
cumulative sum at an index is the fold, from zero, of the source elements with the same other
coordinates and a coordinate on the axis from 0 up to the index's own. -/
theorem C25_cumsum_partial {t : Tensor α} {dim : Int} {k n : Nat} (fill zero : α) (add : α → α → α)
    (ht : t.WF) (hr : t.dims.length ≤ 16) (hk : IsAxis t.dims.length dim k) (hn : t.dims[k]? = some n) :
    ∃ r, t.cumsum fill zero add dim = .ok r ∧ r.dims = t.dims ∧ r.WF ∧
      ∀ idx, InRange idx t.dims → ∀ c, idx[k]? = some c → ∃ xs : List α,
        (List.range (c + 1)).map (fun s => t.elem (idx.set k s)) = xs.map some ∧
        r.elem idx = some (xs.foldl add zero) := by
  have hax : axisUsize t.dims.length dim = k := axisUsize_eq hk (by omega)
  have hkl : k < t.dims.length := hk.1
  have hsl : t.layout.strides.length = t.dims.length := ht.1
  obtain ⟨st, hst⟩ : ∃ st, t.layout.strides[k]? = some st :=
    ⟨_, List.getElem?_eq_getElem (by omega)⟩
  have hot : (tailProds t.dims)[k]? = some ((tailProds t.dims)[k]'(by rw [tailProds_length]; exact hkl)) :=
    List.getElem?_eq_getElem _
  generalize (tailProds t.dims)[k]'_ = os at hot
  -- the metadata
  generalize hmd : (t.layout.size :: t.dims.length :: (t.dims ++ (t.layout.strides ++
    [t.layout.offset, k]))) = md
  have hmeta : scanMetadata t.layout k = md := by
    rw [← hmd]; simp [scanMetadata, Layout.ndim]
  have a0 : At md 0 (t.layout.size :: t.dims.length :: (t.dims ++ (t.layout.strides ++
    [t.layout.offset, k]))) := by rw [hmd]; exact At.start md
  have a1 := a0.next 1 rfl
  have a2 := a1.next 2 rfl
  have a3 := a2.skip rfl (2 + t.dims.length) rfl
  have a4 := a3.skip hsl (2 + 2 * t.dims.length) (by omega)
  have a5 := a4.next (3 + 2 * t.dims.length) (by omega)
  have b2 : At md 2 (t.dims.take k ++ (n :: (t.dims.drop (k + 1) ++ (t.layout.strides ++
      [t.layout.offset, k])))) := by
    rw [show t.dims.take k ++ (n :: (t.dims.drop (k + 1) ++ (t.layout.strides ++ [t.layout.offset, k]))) =
      (t.dims.take k ++ n :: t.dims.drop (k + 1)) ++ (t.layout.strides ++ [t.layout.offset, k]) by simp,
      ← split_at hn]
    exact a2
  have hpl : (t.dims.take k).length = k := by simp; omega
  have b3 := b2.skip hpl (2 + k) rfl
  have c3 : At md (2 + t.dims.length) (t.layout.strides.take k ++ (st :: (t.layout.strides.drop (k + 1) ++
      [t.layout.offset, k]))) := by
    rw [show t.layout.strides.take k ++ (st :: (t.layout.strides.drop (k + 1) ++ [t.layout.offset, k])) =
      (t.layout.strides.take k ++ st :: t.layout.strides.drop (k + 1)) ++ [t.layout.offset, k] by simp,
      ← split_at hst]
    exact a3
  have hsp : (t.layout.strides.take k).length = k := by simp; omega
  have c4 := c3.skip hsp (2 + t.dims.length + k) rfl
  -- one line
  have hcell : ∀ o, o < numel (t.dims.take k) → ∀ i, i < numel (t.dims.drop (k + 1)) →
      scanCell zero add t.storage md t.dims.length t.layout.offset k n st t.dims t.layout.strides
        (t.dims.take k) o i = .ok ((List.range n).map fun s =>
          (rowMajor t.dims (cUnravelUp (t.dims.take k) o ++ s :: unravel (t.dims.drop (k + 1)) i),
           ((List.range (s + 1)).map fun s' => (t.elem (cUnravelUp (t.dims.take k) o ++
              s' :: unravel (t.dims.drop (k + 1)) i)).getD zero).foldl add zero)) := by
    intro o ho i hi
    have ha := cUnravelUp_inRange ho
    have hb := unravel_inRange hi
    have hal : (cUnravelUp (t.dims.take k) o).length = k := by rw [ha.length]; exact hpl
    unfold scanCell
    by_cases hz : n = 0
    · subst hz; simp
    · rw [if_neg hz, c3.slice hsp, Res.ok_bind]
      have e1 : sliceC (tailProds t.dims) 0 k = .ok ((tailProds t.dims).take k) := by
        unfold sliceC
        rw [if_pos (by rw [tailProds_length]; omega)]
        simp
      have e2 : (cUnravel (t.dims.drop (k + 1)) i).1 = unravel (t.dims.drop (k + 1)) i := by
        rw [cUnravel_eq, Nat.mod_eq_of_lt hi]
      simp only [e1, Res.ok_bind, readC_eq_ok.mpr hot, e2]
      rw [scanLine_ok (x := fun s => (t.elem (cUnravelUp (t.dims.take k) o ++
              s :: unravel (t.dims.drop (k + 1)) i)).getD zero)]
      · congr 1
        apply List.map_congr_left
        intro s hs
        rw [List.range_eq_range', Nat.zero_add]
        congr 1
        rw [cFlat_eq, cFlat_eq, ← dot_tailProds, dot_split hot hal]
        omega
      · intro s _ hs
        obtain ⟨y, hy⟩ := ht.get (inRange_join hn ha hb (s := s) (by omega))
        rw [hy, Option.getD_some, ← hy]
        unfold Tensor.elem
        rw [dot_split hst hal, cFlat_eq, cFlat_eq]
        congr 1
        omega
  let rows : List (List (List (Nat × α))) := (List.range (numel (t.dims.take k))).map fun o =>
    (List.range (numel (t.dims.drop (k + 1)))).map fun i => (List.range n).map fun s =>
          (rowMajor t.dims (cUnravelUp (t.dims.take k) o ++ s :: unravel (t.dims.drop (k + 1)) i),
           ((List.range (s + 1)).map fun s' => (t.elem (cUnravelUp (t.dims.take k) o ++
              s' :: unravel (t.dims.drop (k + 1)) i)).getD zero).foldl add zero)
  have hrows : Res.mapL (fun o => Res.mapL (scanCell zero add t.storage md t.dims.length t.layout.offset k n
      st t.dims t.layout.strides (t.dims.take k) o) (List.range (shapeSize (t.dims.drop (k + 1)))))
      (List.range (shapeSize (t.dims.take k))) = .ok rows := by
    rw [shapeSize_eq, shapeSize_eq]
    apply Res.mapL_eq_ok_of
    intro o ho
    apply Res.mapL_eq_ok_of
    intro i hi
    exact hcell o (List.mem_range.mp ho) i (List.mem_range.mp hi)
  -- every write is the right value at the right place
  let g : Nat → Option α := fun p =>
    some (((List.range ((unravel t.dims p).getD k 0 + 1)).map fun s =>
      (t.elem ((unravel t.dims p).set k s)).getD zero).foldl add zero)
  have hset : ∀ (a b : List Nat) (s s' : Nat), a.length = k → (a ++ s :: b).set k s' = a ++ s' :: b := by
    intro a b s s' ha
    rw [← ha, List.set_append_right _ _ (Nat.le_refl _)]
    simp
  have hgetk : ∀ (a b : List Nat) (s : Nat), a.length = k → (a ++ s :: b).getD k 0 = s := by
    intro a b s ha
    rw [← ha]; simp
  have hmem : ∀ w, w ∈ rows.flatten.flatten ↔ ∃ o, o < numel (t.dims.take k) ∧
      ∃ i, i < numel (t.dims.drop (k + 1)) ∧ ∃ s, s < n ∧ w =
        (rowMajor t.dims (cUnravelUp (t.dims.take k) o ++ s :: unravel (t.dims.drop (k + 1)) i),
           ((List.range (s + 1)).map fun s' => (t.elem (cUnravelUp (t.dims.take k) o ++
              s' :: unravel (t.dims.drop (k + 1)) i)).getD zero).foldl add zero) := by
    intro w
    simp only [rows, List.mem_flatten, List.mem_map, List.mem_range]
    constructor
    · rintro ⟨l, ⟨l', ⟨o, ho, rfl⟩, hl⟩, hw⟩
      simp only [List.mem_map, List.mem_range] at hl
      obtain ⟨i, hi, rfl⟩ := hl
      simp only [List.mem_map, List.mem_range] at hw
      obtain ⟨s, hs, rfl⟩ := hw
      exact ⟨o, ho, i, hi, s, hs, rfl⟩
    · rintro ⟨o, ho, i, hi, s, hs, rfl⟩
      refine ⟨_, ⟨_, ⟨o, ho, rfl⟩, List.mem_map.mpr ⟨i, List.mem_range.mpr hi, rfl⟩⟩,
        List.mem_map.mpr ⟨s, List.mem_range.mpr hs, rfl⟩⟩
  have hgood : ∀ w ∈ rows.flatten.flatten, g w.1 = some w.2 ∧ w.1 < numel t.dims := by
    intro w hw
    obtain ⟨o, ho, i, hi, s, hs, rfl⟩ := (hmem w).mp hw
    have ha := cUnravelUp_inRange ho
    have hb := unravel_inRange hi
    have hal : (cUnravelUp (t.dims.take k) o).length = k := by rw [ha.length]; exact hpl
    have hj := inRange_join hn ha hb hs
    refine ⟨?_, rowMajor_lt hj⟩
    simp only [g, unravel_rowMajor hj, hgetk _ _ _ hal, hset _ _ _ _ hal]
  have hsz : t.layout.size = numel t.dims := shapeSize_eq _
  obtain ⟨out, hout, hol⟩ := applyWrites_ok (buf := List.replicate t.layout.size fill)
    (ws := rows.flatten.flatten) (fun w hw => by
      rw [List.length_replicate, hsz]; exact (hgood w hw).2)
  have hres := applyWrites_agree (fun w hw => (hgood w hw).1) hout
  rw [List.length_replicate, hsz] at hol
  refine ⟨⟨out, Layout.fromShape t.dims⟩, ?_, rfl, fresh_wf hol.symm, ?_⟩
  · unfold Tensor.cumsum
    rw [hax, hmeta]
    unfold cumsumKernel
    rw [a1.read, Res.ok_bind, a2.slice rfl, Res.ok_bind, a3.slice hsl, Res.ok_bind, a4.read, Res.ok_bind,
      a5.read, Res.ok_bind, if_neg (by omega), if_neg (by omega), b2.slice hpl, Res.ok_bind, b3.read,
      Res.ok_bind, c4.read, Res.ok_bind, hrows, Res.ok_bind, hout, Res.ok_bind]
  · intro idx hi c hc
    obtain ⟨a, s, b, rfl, hal, hs, ha, hb⟩ := inRange_split hn hi
    have hcs : c = s := by
      rw [← hal] at hc; simp at hc; exact hc.symm
    subst hcs
    obtain ⟨o, ho, hoa⟩ := cUnravelUp_surj ha
    have hib := rowMajor_lt hb
    have hw : _ ∈ rows.flatten.flatten := (hmem (_, _)).mpr ⟨o, ho, _, hib, c, hs, rfl⟩
    have := hres _ hw
    simp only [hoa, unravel_rowMajor hb] at this
    refine ⟨(List.range (c + 1)).map fun s' => (t.elem (a ++ s' :: b)).getD zero, ?_, ?_⟩
    · rw [List.map_map]
      apply List.map_congr_left
      intro s' hs'
      rw [List.mem_range] at hs'
      rw [hset _ _ _ _ hal]
      obtain ⟨y, hy⟩ := ht.get (inRange_join hn ha hb (s := s') (by omega))
      simp [hy]
    · rw [Layout.fromShape, elem_rowMajor, Nat.zero_add]
      exact this

/-- A transposed 2×3 matrix. -/
example : exSel.cumsum 0 0 (· + ·) 0 = .ok ⟨[1, 4, 3, 9, 6, 15], Layout.fromShape [3, 2]⟩ := by
  decide +kernel

theorem exSel_wf : exSel.WF := by
  refine ⟨rfl, fun idx hi => ?_⟩
  match idx, hi with
  | [a, b], ⟨ha, hb, _⟩ =>
    have : a < 3 := ha
    have : b < 2 := hb
    interval_cases a <;> interval_cases b <;> decide

example : ∃ r, exSel.cumsum 0 0 (· + ·) (-1) = .ok r ∧ r.elem [2, 1] = some (0 + 3 + 6) := by
  obtain ⟨r, h1, _, _, h4⟩ := C25_cumsum_partial (t := exSel) (dim := -1) (k := 1) (n := 2) 0 0 (· + ·)
    exSel_wf (by decide) (by unfold IsAxis; decide) rfl
  obtain ⟨xs, h5, h6⟩ := h4 [2, 1] (by decide) 1 rfl
  refine ⟨r, h1, ?_⟩
  have : xs = [3, 6] := by
    have h7 : [some (3 : Int), some 6] = xs.map some := h5
    match xs, h7 with
    | [x, y], h7 => simp at h7; simp [h7]
  rw [h6, this]
  rfl

/-- The axis is not checked: for a vector and `dim = 2` the call succeeds with zeros (the kernel takes
the layout's offset for the size of the scanned dimension). -/
theorem C25_bad_dim_zeros :
    Tensor.cumsum 0 0 (· + ·) (⟨[1, 2, 3], Layout.fromShape [3]⟩ : Tensor Int) 2 =
      .ok ⟨[0, 0, 0], Layout.fromShape [3]⟩ := by decide +kernel

/-- With `dim` equal to the rank the kernel uses an uninitialised stride. -/
theorem C25_bad_dim_ub :
    Tensor.cumsum 0 0 (· + ·) (⟨[1, 2, 3], Layout.fromShape [3]⟩ : Tensor Int) 1 = .ub := by
  decide +kernel

/-- Ranks above 16 overflow an array on the kernel's stack. -/
theorem C25_rank_ub (fill zero : α) (add : α → α → α) {t : Tensor α} (dim : Int)
    (hs : t.layout.strides.length = t.dims.length) (hr : 16 < t.dims.length) :
    t.cumsum fill zero add dim = .ub := by
  unfold Tensor.cumsum
  generalize axisUsize t.dims.length dim = k
  generalize hmd : (t.layout.size :: t.dims.length :: (t.dims ++ (t.layout.strides ++
    [t.layout.offset, k]))) = md
  have hmeta : scanMetadata t.layout k = md := by
    rw [← hmd]; simp [scanMetadata, Layout.ndim]
  have a0 : At md 0 (t.layout.size :: t.dims.length :: (t.dims ++ (t.layout.strides ++
    [t.layout.offset, k]))) := by rw [hmd]; exact At.start md
  have a1 := a0.next 1 rfl
  have a2 := a1.next 2 rfl
  have a3 := a2.skip rfl (2 + t.dims.length) rfl
  have a4 := a3.skip hs (2 + 2 * t.dims.length) (by omega)
  have a5 := a4.next (3 + 2 * t.dims.length) (by omega)
  rw [hmeta]
  unfold cumsumKernel
  rw [a1.read, Res.ok_bind, a2.slice rfl, Res.ok_bind, a3.slice hs, Res.ok_bind, a4.read, Res.ok_bind,
    a5.read, Res.ok_bind, if_neg (by omega), if_pos hr]
  rfl

example : Tensor.cumsum 0 0 (· + ·) (⟨[7], Layout.fromShape (List.replicate 17 1)⟩ : Tensor Int) 0 = .ub :=
  C25_rank_ub _ _ _ _ (by decide) (by decide)

/-- C25 for a scalar, which has no axis: whatever `dim` is, the result is the scalar itself, also for a view with an
offset. -/
theorem C25_scalar {t : Tensor α} (dim : Int) (fill zero : α) (add : α → α → α) (ht : t.WF) (hd : t.dims = []) :
    ∃ r, t.cumsum fill zero add dim = .ok r ∧ r.dims = [] ∧ r.WF ∧ r.elem [] = t.elem [] := by
  obtain ⟨y, hy⟩ := ht.get (idx := []) (by rw [hd]; trivial)
  have hsl : t.layout.strides = [] := List.eq_nil_of_length_eq_zero (by rw [ht.1, hd]; rfl)
  have hld : t.layout.dims = [] := hd
  have hs : t.layout.size = 1 := by simp [Layout.size, hld, shapeSize]
  have hrd : readC t.storage t.layout.offset = .ok y := by
    have := readC_elem hy
    rwa [hsl, cFlat_eq] at this
  refine ⟨⟨[y], Layout.fromShape []⟩, ?_, rfl, fresh_wf rfl, by rw [hy]; rfl⟩
  unfold Tensor.cumsum cumsumKernel
  simp only [hs, hd, scanMetadata, hsl, hld, Layout.ndim, List.length_nil, List.append_nil, List.cons_append,
    List.nil_append]
  simp [readC, sliceC, applyWrites] at hrd ⊢
  simp [hrd, Res.foldL]

example : (⟨[7, 8], ⟨[], [], 1⟩⟩ : Tensor Int).cumsum 0 0 (· + ·) 0 = .ok ⟨[8], Layout.fromShape []⟩ := by decide

end Hodu
