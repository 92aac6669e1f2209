import Verif.Model.ScanSort
import Verif.Props.Cumsum

/-! # C24 topk -/

namespace Hodu
open Spec

/-! ## The selection algorithm -/

/-- The order `better` is a strict weak order. -/
structure Spec.StrictWeakB (better : β → β → Bool) : Prop where
  irrefl : ∀ a, better a a = false
  trans : ∀ a b c, better a b = true → better b c = true → better a c = true
  negTrans : ∀ a b c, better a b = false → better b c = false → better a c = false

theorem swapC_ok {arr : List β} {i j : Nat} (hi : i < arr.length) (hj : j < arr.length) :
    ∃ arr', swapC arr i j = .ok arr' ∧ arr'.Perm arr ∧
      arr'[i]? = arr[j]? ∧ arr'[j]? = arr[i]? ∧ ∀ p, p ≠ i → p ≠ j → arr'[p]? = arr[p]? := by
  refine ⟨(arr.set i arr[j]).set j arr[i], ?_, ?_, ?_, ?_, ?_⟩
  · simp [swapC, readC_eq_ok.mpr (List.getElem?_eq_getElem hi), readC_eq_ok.mpr (List.getElem?_eq_getElem hj)]
  · exact List.set_set_perm hi hj
  · by_cases h : j = i
    · subst h; simp [hj]
    · rw [List.getElem?_set_ne h, List.getElem?_set_self hi, List.getElem?_eq_getElem hj]
  · rw [List.getElem?_set_self (by simpa using hj), List.getElem?_eq_getElem hi]
  · intro p h1 h2
    rw [List.getElem?_set_ne (fun e => h2 e.symm), List.getElem?_set_ne (fun e => h1 e.symm)]

/-- `arr'` is `arr` with the cells from `left` to `right` rearranged among themselves. -/
structure Rearranged (left right : Nat) (arr' arr : List β) : Prop where
  perm : arr'.Perm arr
  frame : ∀ p, p < left ∨ right < p → arr'[p]? = arr[p]?
  inside : ∀ p, left ≤ p → p ≤ right → ∃ q, left ≤ q ∧ q ≤ right ∧ arr'[p]? = arr[q]?

theorem Rearranged.refl (left right : Nat) (arr : List β) : Rearranged left right arr arr :=
  ⟨List.Perm.refl _, fun _ _ => rfl, fun p h1 h2 => ⟨p, h1, h2, rfl⟩⟩

theorem Rearranged.trans {left right : Nat} {a b c : List β} (h1 : Rearranged left right a b)
    (h2 : Rearranged left right b c) : Rearranged left right a c := by
  refine ⟨h1.perm.trans h2.perm, fun p hp => (h1.frame p hp).trans (h2.frame p hp), fun p ha hb => ?_⟩
  obtain ⟨q, h3, h4, h5⟩ := h1.inside p ha hb
  obtain ⟨q', h6, h7, h8⟩ := h2.inside q h3 h4
  exact ⟨q', h6, h7, h5.trans h8⟩

theorem swapC_rearranged {arr : List β} {i j left right : Nat} (hi : left ≤ i) (hi' : i ≤ right)
    (hj : left ≤ j) (hj' : j ≤ right) (hr : right < arr.length) :
    ∃ arr', swapC arr i j = .ok arr' ∧ Rearranged left right arr' arr ∧
      arr'[i]? = arr[j]? ∧ arr'[j]? = arr[i]? ∧ ∀ p, p ≠ i → p ≠ j → arr'[p]? = arr[p]? := by
  obtain ⟨arr', h1, h2, h3, h4, h5⟩ := swapC_ok (arr := arr) (i := i) (j := j) (by omega) (by omega)
  refine ⟨arr', h1, ⟨h2, fun p hp => h5 p (by omega) (by omega), fun p hp hp' => ?_⟩, h3, h4, h5⟩
  by_cases e1 : p = i
  · subst e1; exact ⟨j, hj, hj', h3⟩
  · by_cases e2 : p = j
    · subst e2; exact ⟨i, hi, hi', h4⟩
    · exact ⟨p, hp, hp', h5 p e1 e2⟩

/-- State of the partition loop: cells `left .. i` hold elements better than the pivot, cells `i .. j` hold
elements that are not. -/
structure PartInv (better : β → β → Bool) (pv : β) (left right j : Nat) (arr0 : List β)
    (st : List β × Nat) : Prop where
  lo : left ≤ st.2
  hi : st.2 ≤ j
  re : Rearranged left right st.1 arr0
  pivot : st.1[right]? = some pv
  good : ∀ p x, left ≤ p → p < st.2 → st.1[p]? = some x → better x pv = true
  bad : ∀ p x, st.2 ≤ p → p < j → st.1[p]? = some x → better x pv = false

theorem partition_loop {better : β → β → Bool} {pv : β} {left right : Nat} {arr0 : List β}
    (hr : right < arr0.length) :
    ∀ (m j : Nat) (st : List β × Nat), j + m = right → PartInv better pv left right j arr0 st →
      ∃ st', Res.foldL (partitionStep better pv) st (List.range' j m) = .ok st' ∧
        PartInv better pv left right right arr0 st' := by
  intro m
  induction m with
  | zero =>
    intro j st hj h
    have : j = right := by omega
    subst this
    exact ⟨st, rfl, h⟩
  | succ m ih =>
    intro j st hj h
    have hlen : st.1.length = arr0.length := h.re.perm.length_eq
    have hlt : j < st.1.length := by omega
    have hx : st.1[j]? = some st.1[j] := List.getElem?_eq_getElem hlt
    have hlo := h.lo
    have hhi := h.hi
    rw [List.range'_succ, Res.foldL]
    unfold partitionStep
    rw [readC_eq_ok.mpr hx, Res.ok_bind]
    cases hb : better st.1[j] pv with
    | false =>
      rw [if_neg (by simp), Res.ok_bind]
      apply ih (j + 1) st (by omega)
      refine ⟨h.lo, by omega, h.re, h.pivot, h.good, fun p x h1 h2 hp => ?_⟩
      by_cases e : p = j
      · subst e; rw [hx] at hp; injection hp with hp; rw [← hp]; exact hb
      · exact h.bad p x h1 (by omega) hp
    | true =>
      rw [if_pos (by simp)]
      obtain ⟨arr', h1, h2, h3, h4, h5⟩ := swapC_rearranged (arr := st.1) (i := st.2) (j := j) h.lo
        (by omega) (by omega) (by omega) (right := right) (by omega)
      rw [h1]
      simp only [Res.map, Res.ok_bind]
      apply ih (j + 1) (arr', st.2 + 1) (by omega)
      refine ⟨by simp only; omega, by simp only; omega, h2.trans h.re, ?_, ?_, ?_⟩
      · simp only; rw [h5 right (by omega) (by omega)]; exact h.pivot
      · intro p x hp1 hp2 hp
        simp only at hp2 hp
        by_cases e : p = st.2
        · subst e
          rw [h3, hx] at hp; injection hp with hp; rw [← hp]; exact hb
        · rw [h5 p e (by omega)] at hp
          exact h.good p x hp1 (by omega) hp
      · intro p x hp1 hp2 hp
        simp only at hp1 hp
        by_cases e : p = j
        · subst e
          rw [h4] at hp
          exact h.bad st.2 x (Nat.le_refl _) (by omega) hp
        · rw [h5 p (by omega) e] at hp
          exact h.bad p x (by omega) (by omega) hp

theorem partitionC_ok {better : β → β → Bool} {left right : Nat} {arr : List β} (hl : left ≤ right)
    (hr : right < arr.length) :
    ∃ arr' i pv, partitionC better arr left right = .ok (arr', i) ∧ left ≤ i ∧ i ≤ right ∧
      Rearranged left right arr' arr ∧ arr'[i]? = some pv ∧
      (∀ p x, left ≤ p → p < i → arr'[p]? = some x → better x pv = true) ∧
      (∀ p x, i < p → p ≤ right → arr'[p]? = some x → better x pv = false) := by
  have hpv : arr[right]? = some arr[right] := List.getElem?_eq_getElem hr
  obtain ⟨st, h1, h2⟩ := partition_loop (better := better) (pv := arr[right]) (left := left) hr
    (right - left) left (arr, left) (by omega)
    ⟨Nat.le_refl _, Nat.le_refl _, Rearranged.refl _ _ _, hpv, fun p x a b => by simp at b; omega,
      fun p x a b => by simp at a; omega⟩
  have hlen : st.1.length = arr.length := h2.re.perm.length_eq
  obtain ⟨arr', h3, h4, h5, h6, h7⟩ := swapC_rearranged (arr := st.1) (i := st.2) (j := right) h2.lo h2.hi
    hl (Nat.le_refl _) (by omega)
  refine ⟨arr', st.2, arr[right], ?_, h2.lo, h2.hi, h4.trans h2.re, ?_, ?_, ?_⟩
  · unfold partitionC
    rw [readC_eq_ok.mpr hpv, Res.ok_bind, h1, Res.ok_bind, h3]
    rfl
  · rw [h5]; exact h2.pivot
  · intro p x hp1 hp2 hp
    have := h2.hi
    rw [h7 p (by omega) (by omega)] at hp
    exact h2.good p x hp1 hp2 hp
  · intro p x hp1 hp2 hp
    by_cases e : p = right
    · subst e
      rw [h6] at hp
      exact h2.bad st.2 x (Nat.le_refl _) hp1 hp
    · rw [h7 p (by omega) e] at hp
      exact h2.bad p x (by omega) (by omega) hp

/-- Everything before position `m` is at least as good as everything from `m` on. -/
def CutAt (better : β → β → Bool) (m : Nat) (arr : List β) : Prop :=
  ∀ (p q : Nat) x y, p < m → m ≤ q → arr[p]? = some x → arr[q]? = some y → better y x = false

theorem CutAt.rearranged {better : β → β → Bool} {left right m : Nat} {a b : List β}
    (h : CutAt better m b) (hr : Rearranged left right a b) (hm : m ≤ left ∨ right < m) :
    CutAt better m a := by
  intro p q x y hp hq hx hy
  have find : ∀ p z, a[p]? = some z → ∃ p', b[p']? = some z ∧ (p < m → p' < m) ∧ (m ≤ p → m ≤ p') := by
    intro p z hz
    by_cases hin : left ≤ p ∧ p ≤ right
    · obtain ⟨p', h1, h2, h3⟩ := hr.inside p hin.1 hin.2
      exact ⟨p', by rw [← h3]; exact hz, by omega, by omega⟩
    · exact ⟨p, by rw [← hr.frame p (by omega)]; exact hz, id, id⟩
  obtain ⟨p', h1, h2, _⟩ := find p x hx
  obtain ⟨q', h3, _, h4⟩ := find q y hy
  exact h p' q' x y (h2 hp) (h4 hq) h1 h3

theorem StrictWeakB.asymm {better : β → β → Bool} (sw : StrictWeakB better) {a b : β}
    (h : better a b = true) : better b a = false := by
  cases hb : better b a with
  | false => rfl
  | true => rw [← sw.irrefl a]; exact (sw.trans a b a h hb).symm

theorem quickLoop_ok {better : β → β → Bool} (sw : StrictWeakB better) {k n : Nat} :
    ∀ (fuel : Nat) (arr : List β) (left right : Nat), right < left + fuel → right < n → arr.length = n →
      left ≤ k - 1 → k - 1 ≤ right → 0 < k →
      CutAt better left arr → CutAt better (right + 1) arr →
      ∃ arr', quickLoop better k fuel arr left right = .ok arr' ∧ arr'.Perm arr ∧ CutAt better k arr' := by
  intro fuel
  induction fuel with
  | zero => intro arr left right h1 _ _ h4 h5; omega
  | succ fuel ih =>
    intro arr left right h1 h2 h3 h4 h5 hk hc1 hc2
    rw [quickLoop]
    by_cases hlt : left < right
    · rw [if_pos hlt]
      obtain ⟨arr', i, pv, p1, p2, p3, p4, p5, p6, p7⟩ := partitionC_ok (better := better) (arr := arr)
        (left := left) (right := right) (by omega) (by omega)
      rw [p1, Res.ok_bind]
      simp only
      have hl' : arr'.length = n := by rw [p4.perm.length_eq]; exact h3
      have hc1' := hc1.rearranged p4 (Or.inl (Nat.le_refl _))
      have hc2' := hc2.rearranged p4 (Or.inr (by omega))
      -- the cut right after the pivot, and right before it
      have good' : ∀ p x, p < i → arr'[p]? = some x → better pv x = false := by
        intro p x hp hx
        by_cases h : left ≤ p
        · exact StrictWeakB.asymm sw (p6 p x h hp hx)
        · exact hc1' p i x pv (by omega) p2 hx p5
      have bad' : ∀ q y, i ≤ q → arr'[q]? = some y → better y pv = false := by
        intro q y hq hy
        by_cases e : q = i
        · subst e; rw [p5] at hy; injection hy with hy; rw [← hy]; exact sw.irrefl _
        · by_cases h : q ≤ right
          · exact p7 q y (by omega) h hy
          · exact hc2' i q pv y (by omega) (by omega) p5 hy
      have cutA : CutAt better i arr' := fun p q x y hp hq hx hy =>
        sw.negTrans y pv x (bad' q y hq hy) (good' p x hp hx)
      have cutB : CutAt better (i + 1) arr' := by
        intro p q x y hp hq hx hy
        refine sw.negTrans y pv x (bad' q y (by omega) hy) ?_
        by_cases e : p = i
        · subst e; rw [p5] at hx; injection hx with hx; rw [← hx]; exact sw.irrefl _
        · exact good' p x (by omega) hx
      by_cases e1 : i = k - 1
      · rw [if_pos e1]
        refine ⟨arr', rfl, p4.perm, ?_⟩
        rw [show k = i + 1 by omega]
        exact cutB
      · rw [if_neg e1]
        by_cases e2 : i < k - 1
        · rw [if_pos e2]
          obtain ⟨a, q1, q2, q3⟩ := ih arr' (i + 1) right (by omega) h2 hl' (by omega) h5 hk cutB hc2'
          exact ⟨a, q1, q2.trans p4.perm, q3⟩
        · rw [if_neg e2]
          obtain ⟨a, q1, q2, q3⟩ := ih arr' left (i - 1) (by omega) (by omega) hl' h4 (by omega) hk hc1'
            (by rw [show i - 1 + 1 = i by omega]; exact cutA)
          exact ⟨a, q1, q2.trans p4.perm, q3⟩
    · rw [if_neg hlt]
      refine ⟨arr, rfl, List.Perm.refl _, ?_⟩
      rw [show k = right + 1 by omega]
      exact hc2

/-- What the C library's `qsort` promises for a comparison that is a strict weak order. -/
structure Spec.IsSort (better : β → β → Bool) (qsort : List β → List β) : Prop where
  perm : ∀ l, (qsort l).Perm l
  sorted : ∀ l, (qsort l).Pairwise fun a b => better b a = false

/-- Selection: the array is rearranged so that its first `k` elements are at least as good as all the
others, and they are in order when asked for.  In particular quick-select terminates. -/
theorem topkSelect_ok {better : β → β → Bool} (sw : StrictWeakB better) {qsort : List β → List β}
    (hq : IsSort better qsort) {arr : List β} {k : Nat} (hk : 0 < k) (hkn : k ≤ arr.length) (sorted : Bool) :
    ∃ arr', topkSelect qsort better arr k sorted = .ok arr' ∧ arr'.Perm arr ∧ CutAt better k arr' ∧
      ((sorted = true ∨ k = arr.length) → (arr'.take k).Pairwise fun a b => better b a = false) := by
  unfold topkSelect
  by_cases h : arr.length ≤ k
  · rw [if_pos h]
    have hke : k = arr.length := by omega
    refine ⟨_, rfl, hq.perm _, ?_, fun _ => ?_⟩
    · intro p q x y hp hqq hx hy
      rw [List.getElem?_eq_none (by rw [(hq.perm arr).length_eq]; omega)] at hy
      cases hy
    · rw [List.take_of_length_le (by rw [(hq.perm arr).length_eq]; omega)]
      exact hq.sorted _
  · rw [if_neg h]
    have hsel : ∃ arr', quickselect better arr k = .ok arr' ∧ arr'.Perm arr ∧ CutAt better k arr' := by
      unfold quickselect
      by_cases h1 : arr.length ≤ 1 ∨ k = 0
      · omega
      · rw [if_neg h1]
        refine quickLoop_ok sw (n := arr.length) arr.length arr 0 (arr.length - 1) (by omega) (by omega) rfl
          (by omega) (by omega) hk ?_ ?_
        · intro p q x y hp; omega
        · intro p q x y hp hqq hx hy
          rw [List.getElem?_eq_none (by omega)] at hy
          cases hy
    obtain ⟨arr', h1, h2, h3⟩ := hsel
    rw [h1, Res.ok_bind]
    have hl : arr'.length = arr.length := h2.length_eq
    cases sorted with
    | false =>
      refine ⟨arr', by simp, h2, h3, fun hs => ?_⟩
      rcases hs with hs | hs
      · cases hs
      · omega
    | true =>
      have hsl : (qsort (arr'.take k)).length = k := by
        rw [(hq.perm _).length_eq, List.length_take]; omega
      refine ⟨qsort (arr'.take k) ++ arr'.drop k, by simp, ?_, ?_, fun _ => ?_⟩
      · have := (hq.perm (arr'.take k)).append_right (arr'.drop k)
        rw [List.take_append_drop] at this
        exact this.trans h2
      · intro p q x y hp hqq hx hy
        rw [List.getElem?_append_left (by omega)] at hx
        rw [List.getElem?_append_right (by omega), hsl, List.getElem?_drop] at hy
        have hmem : x ∈ arr'.take k := (hq.perm _).mem_iff.mp (List.mem_of_getElem? hx)
        obtain ⟨p', hp'⟩ := List.mem_iff_getElem?.mp hmem
        rw [List.getElem?_take] at hp'
        split at hp'
        · rename_i hlt
          exact h3 p' _ x y hlt (by omega) hp' hy
        · cases hp'
      · rw [List.take_append_of_le_length (by omega), List.take_of_length_le (by omega)]
        exact hq.sorted _

/-! ## Rows -/

/-- `better` on values: strictly larger, or strictly smaller. -/
def Spec.Better [LT K] (largest : Bool) (a b : K) : Prop := if largest then b < a else a < b

theorem topkBetter_eq_true [LT K] [DecidableRel (α := K) (· < ·)] {largest : Bool} {a b : K × Nat} :
    topkBetter largest a b = true ↔ Better largest a.1 b.1 := by
  unfold topkBetter Better
  cases largest <;> simp

theorem topkBetter_sw [LinearOrder K] (largest : Bool) :
    StrictWeakB (topkBetter (K := K) largest) := by
  cases largest
  · refine ⟨fun a => ?_, fun a b c => ?_, fun a b c => ?_⟩
    · simp [topkBetter]
    · simp only [topkBetter]; simp; exact lt_trans
    · simp only [topkBetter]; simp; exact fun h1 h2 => le_trans h2 h1
  · refine ⟨fun a => ?_, fun a b c => ?_, fun a b c => ?_⟩
    · simp [topkBetter]
    · simp only [topkBetter]; simp; exact fun h1 h2 => lt_trans h2 h1
    · simp only [topkBetter]; simp; exact fun h1 h2 => le_trans h1 h2

/-- The row `xs` has been searched correctly: `vals` are the elements at the distinct positions `is`, and no
element at another position is strictly better (after conversion by `key`) than one of them. -/
structure Spec.IsTopK [LT K] (key : α → K) (largest : Bool) (xs : List α) (k : Nat) (vals : List α)
    (is : List Nat) : Prop where
  length : is.length = k
  distinct : is.Nodup
  inside : ∀ i ∈ is, i < xs.length
  values : is.map (fun i => xs[i]?) = vals.map some
  best : ∀ (i j : Nat) x y, i ∈ is → j ∉ is → xs[i]? = some x → xs[j]? = some y →
    ¬ Better largest (key y) (key x)

/-- The values come in order, best first. -/
def Spec.InOrder [LT K] (key : α → K) (largest : Bool) (vals : List α) : Prop :=
  vals.Pairwise fun x y => ¬ Better largest (key y) (key x)

theorem topkRow_ok [LinearOrder K] {qsort : List (K × Nat) → List (K × Nat)} {key : α → K}
    {inp xs : List α} {base k : Nat} {largest : Bool} (hq : IsSort (topkBetter largest) qsort)
    (hx : ∀ i, i < xs.length → inp[base + i]? = xs[i]?) (hk : 0 < k) (hkn : k ≤ xs.length)
    (sorted : Bool) :
    ∃ vals is, topkRow qsort key inp base xs.length k largest sorted = .ok (vals, is) ∧
      IsTopK key largest xs k vals is ∧
      ((sorted = true ∨ k = xs.length) → InOrder key largest vals) := by
  let f : Nat → K × Nat := fun i => (key (xs.getD i (xs[0]'(by omega))), i)
  have hget : ∀ i (hi : i < xs.length), xs.getD i (xs[0]'(by omega)) = xs[i] := by
    intro i hi
    simp [List.getD_eq_getElem?_getD, List.getElem?_eq_getElem hi]
  have hread : ∀ i (hi : i < xs.length), readC inp (base + i) = .ok xs[i] := fun i hi =>
    readC_eq_ok.mpr (by rw [hx i hi, List.getElem?_eq_getElem hi])
  have htemp : Res.mapL (fun i => (readC inp (base + i)).map fun x => (key x, i)) (List.range xs.length) =
      .ok ((List.range xs.length).map f) := by
    apply Res.mapL_eq_ok_of
    intro i hi
    rw [List.mem_range] at hi
    rw [hread i hi]
    simp only [Res.map, f, hget i hi]
  obtain ⟨sel, h1, h2, h3, h4⟩ := topkSelect_ok (topkBetter_sw largest) hq
    (arr := (List.range xs.length).map f) hk (by simpa using hkn) sorted
  have hlen : sel.length = xs.length := by rw [h2.length_eq]; simp
  have hpair : ∀ (p : Nat) z, sel[p]? = some z → z.2 < xs.length ∧ z = f z.2 := by
    intro p z hz
    have hm := h2.mem_iff.mp (List.mem_of_getElem? hz)
    simp only [List.mem_map, List.mem_range] at hm
    obtain ⟨i, hi, rfl⟩ := hm
    exact ⟨hi, rfl⟩
  have hnd : (sel.map Prod.snd).Nodup := by
    have : (sel.map Prod.snd).Perm (((List.range xs.length).map f).map Prod.snd) := h2.map _
    rw [this.nodup_iff, List.map_map]
    have : (Prod.snd ∘ f) = id := rfl
    rw [this, List.map_id]
    exact List.nodup_range
  let g : Nat → α × Nat := fun i =>
    (xs.getD (sel.getD i (f 0)).2 (xs[0]'(by omega)), (sel.getD i (f 0)).2)
  have hsel : ∀ i (hi : i < sel.length), sel.getD i (f 0) = sel[i] := by
    intro i hi
    simp [List.getD_eq_getElem?_getD, List.getElem?_eq_getElem hi]
  have hps : Res.mapL (fun i => (readC sel i).bind fun p => (readC inp (base + p.2)).map fun x => (x, p.2))
      (List.range k) = .ok ((List.range k).map g) := by
    apply Res.mapL_eq_ok_of
    intro i hi
    rw [List.mem_range] at hi
    have hil : i < sel.length := by omega
    have hz := hpair i _ (List.getElem?_eq_getElem hil)
    rw [readC_eq_ok.mpr (List.getElem?_eq_getElem hil), Res.ok_bind, hread _ hz.1]
    simp only [Res.map, g, hsel i hil]
    rw [hget _ hz.1]
  have hsnd : ((List.range k).map g).map Prod.snd = (sel.map Prod.snd).take k := by
    apply List.ext_getElem?
    intro i
    by_cases hi : i < k
    · have hil : i < sel.length := by omega
      simp [List.getElem?_take, hi, g, hil]
    · rw [List.getElem?_eq_none (by simp; omega), List.getElem?_eq_none (by simp; omega)]
  have hmemk : ∀ i, i ∈ (sel.map Prod.snd).take k ↔ ∃ p z, p < k ∧ sel[p]? = some z ∧ z.2 = i := by
    intro i
    rw [List.mem_iff_getElem?]
    constructor
    · rintro ⟨p, hp⟩
      rw [List.getElem?_take] at hp
      split at hp
      · rename_i hlt
        rw [List.getElem?_map] at hp
        cases hz : sel[p]? with
        | none => rw [hz] at hp; cases hp
        | some z => rw [hz] at hp; injection hp with hp; exact ⟨p, z, hlt, hz, hp⟩
      · cases hp
    · rintro ⟨p, z, hp, hz, rfl⟩
      exact ⟨p, by rw [List.getElem?_take, if_pos hp, List.getElem?_map, hz]; rfl⟩
  refine ⟨((List.range k).map g).map Prod.fst, ((List.range k).map g).map Prod.snd, ?_,
    ⟨?_, ?_, ?_, ?_, ?_⟩, ?_⟩
  · unfold topkRow
    rw [htemp, Res.ok_bind, h1, Res.ok_bind, hps, Res.ok_bind]
  · simp
  · rw [hsnd]; exact hnd.sublist (List.take_sublist _ _)
  · intro i hi
    rw [hsnd] at hi
    obtain ⟨p, z, _, hz, rfl⟩ := (hmemk i).mp hi
    exact (hpair p z hz).1
  · simp only [List.map_map]
    apply List.map_congr_left
    intro i hi
    rw [List.mem_range] at hi
    have hil : i < sel.length := by omega
    have hz := hpair i _ (List.getElem?_eq_getElem hil)
    simp only [Function.comp, g, hsel i hil]
    rw [hget _ hz.1, List.getElem?_eq_getElem hz.1]
  · intro i j x y hi hj hxi hyj
    rw [hsnd] at hi hj
    obtain ⟨p, z, hp, hz, rfl⟩ := (hmemk i).mp hi
    have hjl : j < xs.length := by
      by_contra hc
      rw [List.getElem?_eq_none (by omega)] at hyj
      cases hyj
    have hjm : f j ∈ sel := h2.mem_iff.mpr (List.mem_map.mpr ⟨j, List.mem_range.mpr hjl, rfl⟩)
    obtain ⟨q, hq'⟩ := List.mem_iff_getElem?.mp hjm
    have hqk : k ≤ q := by
      by_contra hc
      exact hj ((hmemk j).mpr ⟨q, f j, by omega, hq', rfl⟩)
    have hcut := h3 p q z (f j) hp hqk hz hq'
    intro hb
    have hzf := hpair p z hz
    have hkx : z.1 = key x := by
      rw [hzf.2]
      simp only [f]
      rw [hget _ hzf.1]
      rw [List.getElem?_eq_getElem hzf.1] at hxi
      injection hxi with hxi
      rw [hxi]
    have hky : (f j).1 = key y := by
      simp only [f]
      rw [hget _ hjl]
      rw [List.getElem?_eq_getElem hjl] at hyj
      injection hyj with hyj
      rw [hyj]
    have : topkBetter largest (f j) z = true := topkBetter_eq_true.mpr (by rw [hkx, hky]; exact hb)
    rw [this] at hcut
    cases hcut
  · intro hs
    have hpw := h4 (by simpa using hs)
    unfold InOrder
    rw [List.map_map]
    have hkey : ∀ i, i < k → key ((Prod.fst ∘ g) i) = (sel.getD i (f 0)).1 := by
      intro i hi
      have hil : i < sel.length := by omega
      have hz := hpair i _ (List.getElem?_eq_getElem hil)
      simp only [Function.comp, g]
      rw [hsel i hil]
      conv_rhs => rw [hz.2]
    rw [List.pairwise_map, List.pairwise_iff_getElem]
    intro i j hi hj hij
    have hi' : i < k := by simpa using hi
    have hj' : j < k := by simpa using hj
    simp only [List.getElem_range]
    rw [hkey i (by omega), hkey j (by omega), hsel i (by omega), hsel j (by omega)]
    rw [List.pairwise_iff_getElem] at hpw
    have := hpw i j (by simp; omega) (by simp; omega) hij
    simp only [List.getElem_take] at this
    intro hb
    rw [topkBetter_eq_true.mpr hb] at this
    cases this

/-! ## Tensors -/

theorem flatten_rows {rows : List (List β)} {k : Nat} (h : ∀ r ∈ rows, r.length = k) {o c : Nat}
    (ho : o < rows.length) (hc : c < k) : rows.flatten[o * k + c]? = rows[o][c]? := by
  induction rows generalizing o with
  | nil => simp at ho
  | cons r rows ih =>
    have hr := h r (by simp)
    cases o with
    | zero =>
      rw [List.flatten_cons, Nat.zero_mul, Nat.zero_add, List.getElem?_append_left (by omega)]
      rfl
    | succ o =>
      rw [List.flatten_cons, List.getElem?_append_right (by rw [hr, Nat.succ_mul]; omega), hr,
        show (o + 1) * k + c - k = o * k + c by rw [Nat.succ_mul]; omega]
      rw [ih (fun r hm => h r (by simp [hm])) (by simpa using ho)]
      rfl

theorem flatten_rows_length {rows : List (List β)} {k : Nat} (h : ∀ r ∈ rows, r.length = k) :
    rows.flatten.length = rows.length * k := by
  induction rows with
  | nil => simp
  | cons r rows ih =>
    rw [List.flatten_cons, List.length_append, h r (by simp), ih (fun r hm => h r (by simp [hm]))]
    simp [Nat.succ_mul]; omega

/-- C24 on the last dimension of a tensor whose strides are row-major (any offset): for every row
the values and positions returned are a correct top-k of the row with respect to the order of the
converted values; they come best first when sorting is asked for.  `qsort` is any sorting function.
Missing: other dimensions and layouts, for which the code is wrong (see below). -/
theorem C24_topk_partial [LinearOrder K] {qsort : List (K × Nat) → List (K × Nat)} {key : α → K}
    {t : Tensor α} {ds : List Nat} {n k : Nat} {dim : Int} {largest : Bool}
    (hq : IsSort (topkBetter largest) qsort) (ht : t.WF) (hd : t.dims = ds ++ [n])
    (hr : t.dims.length < 2 ^ 31) (hk : IsAxis t.dims.length dim ds.length)
    (hc : t.layout.strides = Layout.computeStrides t.dims) (hkn : k ≤ n) (sorted : Bool) :
    ∃ v i, t.topk qsort key k dim largest sorted = .ok (v, i) ∧ v.WF ∧ i.WF ∧ v.dims = ds ++ [k] ∧
      i.dims = ds ++ [k] ∧ ∀ p, InRange p ds → ∃ xs vals is,
        xs.length = n ∧ (∀ c, c < n → xs[c]? = t.elem (p ++ [c])) ∧
        (∀ c, c < k → vals[c]? = v.elem (p ++ [c]) ∧ is[c]? = i.elem (p ++ [c])) ∧
        IsTopK key largest xs k vals is ∧ (sorted = true → InOrder key largest vals) := by
  have hax : axisUsize t.dims.length dim = ds.length := axisUsize_eq hk hr
  have hnd : t.dims.length = ds.length + 1 := by rw [hd]; simp
  have hlast : t.dims.getD ds.length 0 = n := by rw [hd]; simp
  have hsetd : ∀ m, t.dims.set ds.length m = ds ++ [m] := by
    intro m; rw [hd, List.set_append_right _ _ (Nat.le_refl _)]; simp
  -- the rows of the source
  have hrow : ∀ p, InRange p ds → ∃ xs : List α, xs.length = n ∧ ∀ c, c < n → xs[c]? = t.elem (p ++ [c]) := by
    intro p hp
    obtain ⟨xs, hxs⟩ := exists_vals (L := List.range n) (f := fun c => t.elem (p ++ [c])) (fun c hc => by
      apply Option.isSome_iff_exists.mp
      apply ht.2
      rw [hd]
      exact (inRange_append hp.length).mpr ⟨hp, List.mem_range.mp hc, trivial⟩)
    have hl : xs.length = n := by
      have := congrArg List.length hxs
      simpa using this.symm
    refine ⟨xs, hl, fun c hc => ?_⟩
    have := congrArg (fun l => l[c]?) hxs
    simp only [List.getElem?_map] at this
    rw [List.getElem?_range hc, List.getElem?_eq_getElem (by omega)] at this
    simp only [Option.map_some, Option.some.injEq] at this
    rw [this, List.getElem?_eq_getElem (by omega)]
  by_cases hk0 : k = 0
  · subst hk0
    have hz : numel (ds ++ [0]) = ([] : List α).length := by
      rw [numel_append]; simp [numel]
    have hz' : numel (ds ++ [0]) = ([] : List Nat).length := by
      rw [numel_append]; simp [numel]
    refine ⟨⟨[], Layout.fromShape (ds ++ [0])⟩, ⟨[], Layout.fromShape (ds ++ [0])⟩, ?_, fresh_wf hz,
      fresh_wf hz', rfl, rfl, fun p hp => ?_⟩
    · unfold Tensor.topk
      simp only [hax, hsetd, hlast]
      rw [if_neg (by omega), if_neg (by omega), if_neg (by omega), if_pos trivial]
    · obtain ⟨xs, h1, h2⟩ := hrow p hp
      refine ⟨xs, [], [], h1, h2, fun c hc => by omega, ⟨rfl, List.nodup_nil, by simp, rfl, by simp⟩,
        fun _ => List.Pairwise.nil⟩
  · have hk' : 0 < k := by omega
    have hcont : t.contiguous = .ok t := by
      obtain ⟨s, o, h1, h2, h3⟩ := contiguous_spec ht
      have hcc : t.layout.isContiguous = true := (isContiguous_iff ht.1).mpr hc
      rcases h3 with ⟨_, _, h3⟩ | ⟨h3, h4, _⟩
      · rw [hcc] at h3; cases h3
      · rw [h1, h3, h4]
        obtain ⟨s, ⟨d, st, o⟩⟩ := t
        have hc : st = Layout.computeStrides d := hc
        rw [hc]
    -- position of an element in the storage
    have helem : ∀ p, InRange p ds → ∀ c, t.elem (p ++ [c]) =
        t.storage[t.layout.offset + rowMajor ds p * n + c]? := by
      intro p hp c
      unfold Tensor.elem
      rw [hc, dot_computeStrides, hd, rowMajor_append hp.length]
      simp [numel, rowMajor, Nat.add_assoc]
    have hrows : ∀ o, o < numel ds → ∃ xs vals is, xs.length = n ∧
        (∀ c, c < n → xs[c]? = t.elem (unravel ds o ++ [c])) ∧
        topkRow qsort key t.storage (t.layout.offset + o * n) n k largest sorted = .ok (vals, is) ∧
        IsTopK key largest xs k vals is ∧ (sorted = true → InOrder key largest vals) := by
      intro o ho
      have hp := unravel_inRange ho
      obtain ⟨xs, h1, h2⟩ := hrow _ hp
      obtain ⟨vals, is, h3, h4, h5⟩ := topkRow_ok (key := key) (inp := t.storage) (xs := xs)
        (base := t.layout.offset + o * n) hq (fun i hi => by
          rw [h2 i (by omega), helem _ hp, rowMajor_unravel ho]) hk' (by omega) sorted
      rw [h1] at h3
      exact ⟨xs, vals, is, h1, h2, h3, h4, fun hs => h5 (Or.inl hs)⟩
    let row : Nat → List α × List Nat := fun o =>
      match topkRow qsort key t.storage (t.layout.offset + o * n) n k largest sorted with
      | .ok r => r
      | _ => ([], [])
    have hrowe : ∀ o, o < numel ds → topkRow qsort key t.storage (t.layout.offset + o * n) n k largest sorted =
        .ok (row o) := by
      intro o ho
      obtain ⟨_, vals, is, _, _, h, _⟩ := hrows o ho
      simp only [row, h]
    have hmap : Res.mapL (fun o => topkRow qsort key t.storage (t.layout.offset + o * n) n k largest sorted)
        (List.range (numel ds)) = .ok ((List.range (numel ds)).map row) :=
      Res.mapL_eq_ok_of fun o ho => hrowe o (List.mem_range.mp ho)
    have hlens : ∀ o, o < numel ds → (row o).1.length = k ∧ (row o).2.length = k := by
      intro o ho
      obtain ⟨_, vals, is, _, _, h, ht', _⟩ := hrows o ho
      rw [hrowe o ho] at h
      injection h with h
      rw [h]
      have := congrArg List.length ht'.values
      simp only [List.length_map] at this
      exact ⟨by rw [← this]; exact ht'.length, ht'.length⟩
    have hv1 : ∀ r ∈ ((List.range (numel ds)).map row).map Prod.fst, r.length = k := by
      intro r hr
      simp only [List.mem_map, List.mem_range] at hr
      obtain ⟨_, ⟨o, ho, rfl⟩, rfl⟩ := hr
      exact (hlens o ho).1
    have hv2 : ∀ r ∈ ((List.range (numel ds)).map row).map Prod.snd, r.length = k := by
      intro r hr
      simp only [List.mem_map, List.mem_range] at hr
      obtain ⟨_, ⟨o, ho, rfl⟩, rfl⟩ := hr
      exact (hlens o ho).2
    have hnum : numel (ds ++ [k]) = numel ds * k := by rw [numel_append]; simp [numel]
    have hl1 := flatten_rows_length hv1
    have hl2 := flatten_rows_length hv2
    simp only [List.length_map, List.length_range] at hl1 hl2
    refine ⟨⟨(((List.range (numel ds)).map row).map Prod.fst).flatten, Layout.fromShape (ds ++ [k])⟩,
      ⟨(((List.range (numel ds)).map row).map Prod.snd).flatten, Layout.fromShape (ds ++ [k])⟩, ?_,
      fresh_wf (by rw [hl1, hnum]), fresh_wf (by rw [hl2, hnum]), rfl, rfl, fun p hp => ?_⟩
    · unfold Tensor.topk
      simp only [hax, hsetd, hlast]
      have e1 : t.dims.length - 1 = ds.length := by omega
      rw [if_neg (by omega), if_neg (by omega), if_neg (by omega), if_neg hk0]
      simp only [e1]
      rw [if_neg (by simp), Res.ok_bind, hcont, Res.ok_bind]
      have e2 : shapeSize (t.dims.take ds.length) = numel ds := by
        rw [shapeSize_eq, hd]; simp
      simp only [hlast, e2, topkKernel, hmap, Res.ok_bind, hsetd]
      rw [if_neg (by simp)]
    · have ho := rowMajor_lt hp
      obtain ⟨xs, vals, is, h1, h2, h3, h4, h5⟩ := hrows _ ho
      rw [unravel_rowMajor hp] at h2
      rw [hrowe _ ho] at h3
      injection h3 with h3
      refine ⟨xs, vals, is, h1, h2, fun c hc => ?_, h4, h5⟩
      have e1 : rowMajor (ds ++ [k]) (p ++ [c]) = rowMajor ds p * k + c := by
        rw [rowMajor_append hp.length]; simp [numel, rowMajor]
      rw [Layout.fromShape, elem_rowMajor, elem_rowMajor, Nat.zero_add, e1,
        flatten_rows hv1 (by simpa using ho) hc, flatten_rows hv2 (by simpa using ho) hc]
      simp [h3]

/-- Insertion, for the examples. -/
def exInsert (largest : Bool) (x : Int × Nat) : List (Int × Nat) → List (Int × Nat)
  | [] => [x]
  | y :: ys => if topkBetter largest y x then y :: exInsert largest x ys else x :: y :: ys

/-- A sorting function for the examples. -/
def exSort (largest : Bool) : List (Int × Nat) → List (Int × Nat)
  | [] => []
  | x :: xs => exInsert largest x (exSort largest xs)

theorem exInsert_perm (largest : Bool) (x : Int × Nat) (l : List (Int × Nat)) :
    (exInsert largest x l).Perm (x :: l) := by
  induction l with
  | nil => exact List.Perm.refl _
  | cons y ys ih =>
    unfold exInsert
    split
    · exact (ih.cons y).trans (List.Perm.swap x y ys)
    · exact List.Perm.refl _

theorem exSort_ok (largest : Bool) : IsSort (topkBetter largest) (exSort largest) := by
  have sw := topkBetter_sw (K := Int) largest
  constructor
  · intro l
    induction l with
    | nil => exact List.Perm.refl _
    | cons x xs ih => exact (exInsert_perm largest x _).trans (ih.cons x)
  · intro l
    induction l with
    | nil => exact List.Pairwise.nil
    | cons x xs ih =>
      unfold exSort
      revert ih
      generalize exSort largest xs = l
      intro h
      induction l with
      | nil => exact List.pairwise_singleton _ _
      | cons y ys ih =>
        unfold exInsert
        rw [List.pairwise_cons] at h
        by_cases hb : topkBetter largest y x = true
        · rw [if_pos hb, List.pairwise_cons]
          refine ⟨fun z hz => ?_, ih h.2⟩
          rcases List.mem_cons.mp ((exInsert_perm largest x ys).mem_iff.mp hz) with rfl | hz
          · exact StrictWeakB.asymm sw hb
          · exact h.1 z hz
        · rw [if_neg hb, List.pairwise_cons, List.pairwise_cons]
          refine ⟨fun z hz => ?_, h⟩
          rw [Bool.not_eq_true] at hb
          rcases List.mem_cons.mp hz with rfl | hz
          · exact hb
          · exact sw.negTrans _ _ _ (h.1 z hz) hb

example : Tensor.topk (exSort true) id (⟨[0, 3, 1, 4, 1, 5, 9], ⟨[2, 3], [3, 1], 1⟩⟩ : Tensor Int) 2 (-1)
    true true = .ok (⟨[4, 3, 9, 5], Layout.fromShape [2, 2]⟩, ⟨[2, 0, 2, 1], Layout.fromShape [2, 2]⟩) := by
  decide +kernel

example : ∃ v i, Tensor.topk (exSort true) id (⟨[3, 1, 4, 1, 5, 9], Layout.fromShape [2, 3]⟩ : Tensor Int) 2
    (-1) true false = .ok (v, i) ∧ v.dims = [2, 2] := by
  obtain ⟨v, i, h1, _, _, h2, _⟩ := C24_topk_partial (t := (⟨[3, 1, 4, 1, 5, 9], Layout.fromShape [2, 3]⟩ :
    Tensor Int)) (ds := [2]) (n := 3) (k := 2) (dim := -1) (key := id) (exSort_ok true) (fresh_wf (by decide)) rfl
    (by decide) (by unfold IsAxis; decide) rfl (by decide) false
  exact ⟨v, i, h1, h2⟩

/-- Errors: rank 0, a dimension out of range, or more elements than the dimension has. -/
theorem C24_errors [LinearOrder K] (qsort : List (K × Nat) → List (K × Nat)) (key : α → K) {t : Tensor α}
    {k : Nat} {dim : Int} (largest sorted : Bool) (hr : t.dims.length < 2 ^ 31) (hi : I32 dim)
    (h : ∀ d n, IsAxis t.dims.length dim d → t.dims[d]? = some n → n < k) :
    t.topk qsort key k dim largest sorted = .err := by
  unfold Tensor.topk
  simp only
  by_cases h0 : t.dims.length = 0
  · rw [if_pos h0]
  · rw [if_neg h0]
    by_cases hex : ∃ d, IsAxis t.dims.length dim d
    · obtain ⟨d, hd⟩ := hex
      rw [axisUsize_eq hd hr]
      obtain ⟨n, hn⟩ := getElem?_axis hd
      have := h d n hd hn
      have hd1 := hd.1
      rw [if_neg (by omega), if_pos]
      rw [List.getD_eq_getElem?_getD, hn]
      exact this
    · have : t.dims.length ≤ axisUsize t.dims.length dim :=
        castUsize_not_axis hr hi (fun d hd => hex ⟨d, hd⟩)
      rw [if_pos this]

example : Tensor.topk (exSort true) id (⟨[1, 2], Layout.fromShape [2]⟩ : Tensor Int) 3 0 true true = .err :=
  C24_errors _ _ _ _ (by decide) (by unfold I32; decide) (fun d n hd hn => by
    have : d < 1 := hd.1
    have e : d = 0 := by omega
    subst e
    injection hn with hn
    omega)

/-- C24 is false on any other dimension: the kernel searches the storage of `self` as if it were the
permuted copy.  The largest element of the first column of `[[1, 9], [2, 8]]` is 2; the code says 9. -/
theorem C24_other_dim_wrong :
    ∃ (t v : Tensor Int) (i : Tensor Nat), t.topk (exSort true) id 1 0 true true = .ok (v, i) ∧ t.WF ∧
      t.dims = [2, 2] ∧ t.elem [0, 0] = some 1 ∧ t.elem [1, 0] = some 2 ∧ v.elem [0, 0] = some 9 := by
  refine ⟨⟨[1, 9, 2, 8], Layout.fromShape [2, 2]⟩, ⟨[9, 8], ⟨[1, 2], [1, 1], 0⟩⟩,
    ⟨[1, 1], ⟨[1, 2], [1, 1], 0⟩⟩, ?_, fresh_wf (by decide), by decide +kernel⟩
  decide +kernel

/-- C24 is false for views: on the last dimension of a transposed matrix the untransposed rows are
searched. -/
theorem C24_view_wrong :
    ∃ (t v : Tensor Int) (i : Tensor Nat), t.topk (exSort true) id 1 1 true true = .ok (v, i) ∧
      t.dims = [2, 2] ∧ t.elem [0, 0] = some 1 ∧ t.elem [0, 1] = some 2 ∧ v.elem [0, 0] = some 9 :=
  ⟨⟨[1, 9, 2, 8], ⟨[2, 2], [1, 2], 0⟩⟩, ⟨[9, 8], Layout.fromShape [2, 1]⟩,
    ⟨[1, 1], Layout.fromShape [2, 1]⟩, by decide +kernel⟩

/-- Conversion of an integer `0 ≤ x < 2^25` to `float` (24 bits of precision, ties to even), which the
kernel makes for every integer type. -/
def floatOfInt (x : Int) : Int :=
  if x < 2 ^ 24 then x else if x % 4 = 3 then x + 1 else if x % 4 = 1 then x - 1 else x

/-- C24 is false for integer tensors with values from 2^24 on: they are compared after conversion to
`float`, so 16777216 is returned as the largest of 16777217 and 16777216. -/
theorem C24_large_int_wrong :
    ∃ (t v : Tensor Int) (i : Tensor Nat),
      t.topk (exSort true) floatOfInt 1 0 true true = .ok (v, i) ∧ t.elem [0] = some 16777217 ∧
      v.elem [0] = some 16777216 :=
  ⟨⟨[16777217, 16777216], Layout.fromShape [2]⟩, ⟨[16777216], Layout.fromShape [1]⟩,
    ⟨[1], Layout.fromShape [1]⟩, by decide +kernel⟩

end Hodu
