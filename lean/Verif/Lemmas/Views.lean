import Verif.Lemmas.Tensor
import Mathlib.Data.List.Perm.Subperm
import Mathlib.Algebra.BigOperators.Group.List.Basic
import Mathlib.Tactic.Ring

/-! Helper lemmas about the individual view operations. -/

namespace Hodu
open Spec

/-! ### Reshape-like operations -/

theorem reshape_like {t : Tensor α} (ht : t.WF) {s : List α} {o : Nat} {nd : List Nat}
    (hs : ∀ idx, InRange idx t.dims → s[o + rowMajor t.dims idx]? = t.elem idx)
    (hn : numel nd = numel t.dims) :
    Tensor.WF ⟨s, ⟨nd, Layout.computeStrides nd, o⟩⟩ ∧
    ∀ i j, InRange i t.dims → InRange j nd → rowMajor t.dims i = rowMajor nd j →
      Tensor.elem ⟨s, ⟨nd, Layout.computeStrides nd, o⟩⟩ j = t.elem i := by
  have key : ∀ i j, InRange i t.dims → InRange j nd → rowMajor t.dims i = rowMajor nd j →
      Tensor.elem ⟨s, ⟨nd, Layout.computeStrides nd, o⟩⟩ j = t.elem i := by
    intro i j hi hj hij
    rw [elem_rowMajor, ← hij, hs i hi]
  refine ⟨WF_of_map ht (computeStrides_length nd) (fun j => unravel t.dims (rowMajor nd j)) ?_, key⟩
  intro j hj
  have hlt : rowMajor nd j < numel t.dims := hn ▸ rowMajor_lt hj
  exact ⟨unravel_inRange hlt, key _ _ (unravel_inRange hlt) hj (rowMajor_unravel hlt)⟩

/-! ### Permutations -/

theorem perm_range {σ : List Nat} {n : Nat} (hn : σ.length = n) (hlt : ∀ a ∈ σ, a < n)
    (hnd : σ.Nodup) : σ.Perm (List.range n) := by
  have h : σ.Subperm (List.range n) :=
    List.subperm_of_subset hnd (fun a ha => by simpa using hlt a ha)
  exact h.perm_of_length_le (by simp [hn])

theorem dot_eq_sum (i s : List Nat) (h : i.length = s.length) :
    dot i s = ((List.range i.length).map fun a => i.getD a 0 * s.getD a 0).sum := by
  induction i generalizing s with
  | nil => simp [dot]
  | cons x xs ih =>
    cases s with
    | nil => simp at h
    | cons y ys =>
      simp only [List.length_cons, Nat.add_right_cancel_iff] at h
      rw [dot, ih ys h, List.length_cons, List.range_succ_eq_map]
      simp [List.map_map, Function.comp_def]

theorem dot_map (σ : List Nat) (f g : Nat → Nat) :
    dot (σ.map f) (σ.map g) = (σ.map fun a => f a * g a).sum := by
  induction σ with
  | nil => rfl
  | cons a as ih => simp [dot, ih]

theorem dot_perm {σ i s : List Nat} (hp : σ.Perm (List.range i.length))
    (h : i.length = s.length) :
    dot (σ.map fun a => i.getD a 0) (σ.map fun a => s.getD a 0) = dot i s := by
  rw [dot_map, dot_eq_sum i s h]
  exact (hp.map _).sum_eq

theorem inRange_map {σ i d : List Nat} {n : Nat} (hp : σ.Perm (List.range n))
    (hi : i.length = n) (hd : d.length = n) :
    InRange (σ.map fun a => i.getD a 0) (σ.map fun a => d.getD a 0) ↔ InRange i d := by
  rw [inRange_iff, inRange_iff]
  simp only [List.length_map, true_and, List.getElem_map, hi, hd]
  constructor
  · intro h k hk _
    have : k ∈ σ := hp.mem_iff.mpr (by simpa using hk)
    obtain ⟨m, hm, hmk⟩ := List.getElem_of_mem this
    have := h m hm hm
    rw [hmk] at this
    simpa [List.getD_eq_getElem?_getD, hi, hd, hk] using this
  · intro h k hk _
    have hlt : σ[k] < n := by simpa using hp.mem_iff.mp (List.getElem_mem hk)
    have := h σ[k] hlt hlt
    simpa [List.getD_eq_getElem?_getD, hi, hd, hlt] using this

/-- Every index of a permuted shape comes from an index of the original shape. -/
theorem exists_unpermuted {σ j : List Nat} {n : Nat} (hp : σ.Perm (List.range n))
    (hj : j.length = n) :
    ∃ i : List Nat, i.length = n ∧ j = σ.map fun a => i.getD a 0 := by
  refine ⟨(List.range n).map fun a => j.getD (σ.idxOf a) 0, by simp, ?_⟩
  have hlen : σ.length = n := by simpa using hp.length_eq
  have hnd : σ.Nodup := hp.nodup_iff.mpr List.nodup_range
  apply List.ext_getElem (by simp [hj, hlen])
  intro k h1 h2
  have hk : k < σ.length := by omega
  have hlt : σ[k] < n := by simpa using hp.mem_iff.mp (List.getElem_mem hk)
  simp [List.getD_eq_getElem?_getD, hlt, hnd.idxOf_getElem, h1]

theorem permuteAxes_ok {dims : List Nat} {axes : List Int} {σ seen : List Nat}
    (hl : axes.length = σ.length)
    (hax : ∀ k (h1 : k < axes.length) (h2 : k < σ.length), IsAxis dims.length axes[k] σ[k])
    (hnd : σ.Nodup) (hdis : ∀ a ∈ σ, a ∉ seen) :
    Layout.permuteAxes dims seen axes = .ok σ := by
  induction axes generalizing σ seen with
  | nil =>
    cases σ with
    | nil => rfl
    | cons => simp at hl
  | cons a as ih =>
    cases σ with
    | nil => simp at hl
    | cons b bs =>
      have h0 := hax 0 (by simp) (by simp)
      simp only [List.getElem_cons_zero] at h0
      have hb : b ∉ seen := hdis b (by simp)
      rw [List.nodup_cons] at hnd
      have := @ih bs (b :: seen) (by simpa using hl)
        (fun k h1 h2 => hax (k + 1) (Nat.succ_lt_succ h1) (Nat.succ_lt_succ h2)) hnd.2
        (fun x hx => by
          simp only [List.mem_cons, not_or]
          exact ⟨fun he => hnd.1 (he ▸ hx), hdis x (by simp [hx])⟩)
      simp [Layout.permuteAxes, normalizeAxis_iff.mpr h0, hb, this]

theorem permuteAxes_ok_inv {dims : List Nat} {axes : List Int} {σ seen : List Nat}
    (h : Layout.permuteAxes dims seen axes = .ok σ) :
    axes.length = σ.length ∧
    (∀ k (h1 : k < axes.length) (h2 : k < σ.length), IsAxis dims.length axes[k] σ[k]) ∧
    σ.Nodup ∧ ∀ a ∈ σ, a ∉ seen := by
  induction axes generalizing σ seen with
  | nil => simp [Layout.permuteAxes] at h; subst h; simp
  | cons a as ih =>
    simp only [Layout.permuteAxes] at h
    split at h
    · simp at h
    · rename_i k hk
      split at h
      · simp at h
      · rename_i hs
        obtain ⟨bs, hbs, he⟩ := Res.bind_eq_ok.mp h
        cases he
        obtain ⟨h1, h2, h3, h4⟩ := ih hbs
        refine ⟨by simp [h1], ?_, ?_, ?_⟩
        · intro m hm1 hm2
          cases m with
          | zero => simpa using normalizeAxis_iff.mp hk
          | succ m => simpa using h2 m (by simpa using hm1) (by simpa using hm2)
        · rw [List.nodup_cons]
          exact ⟨fun hc => h4 k hc (by simp), h3⟩
        · intro b hb
          rcases List.mem_cons.mp hb with rfl | hb
          · exact hs
          · exact fun hc => h4 b hb (by simp [hc])

theorem permuteAxes_cases (dims : List Nat) (seen : List Nat) (axes : List Int) :
    (∃ σ, Layout.permuteAxes dims seen axes = .ok σ) ∨ Layout.permuteAxes dims seen axes = .err := by
  induction axes generalizing seen with
  | nil => exact Or.inl ⟨[], rfl⟩
  | cons a as ih =>
    simp only [Layout.permuteAxes]
    split
    · exact Or.inr rfl
    · split
      · exact Or.inr rfl
      · rename_i k _ _
        rcases ih (k :: seen) with ⟨σ, h⟩ | h <;> simp [h]

theorem mapL_readR {l σ : List Nat} (h : ∀ a ∈ σ, a < l.length) :
    Res.mapL (readR l) σ = .ok (σ.map fun a => l.getD a 0) := by
  apply Res.mapL_eq_ok_of
  intro a ha
  rw [readR_ok (h a ha)]
  simp [List.getD_eq_getElem?_getD, h a ha]

/-- The permuted view has the source's elements at relocated indices. -/
theorem permuted_view {t : Tensor α} {s : List α} {o : Nat} {σ : List Nat} (ht : t.WF)
    (hs : ∀ idx, InRange idx t.dims → s[o + rowMajor t.dims idx]? = t.elem idx)
    (hp : σ.Perm (List.range t.dims.length)) :
    let r : Tensor α := ⟨s, ⟨σ.map fun a => t.dims.getD a 0,
      σ.map fun a => (Layout.computeStrides t.dims).getD a 0, o⟩⟩
    r.WF ∧ (∀ i, InRange i t.dims → InRange (σ.map fun a => i.getD a 0) r.dims ∧
      r.elem (σ.map fun a => i.getD a 0) = t.elem i) ∧
    (∀ j, InRange j r.dims → ∃ i, InRange i t.dims ∧ j = σ.map fun a => i.getD a 0) := by
  intro r
  have hB : ∀ i, InRange i t.dims → InRange (σ.map fun a => i.getD a 0) r.dims ∧
      r.elem (σ.map fun a => i.getD a 0) = t.elem i := by
    intro i hi
    refine ⟨(inRange_map hp hi.length rfl).mpr hi, ?_⟩
    have hd := @dot_perm σ i (Layout.computeStrides t.dims) (by rw [hi.length]; exact hp)
      (by rw [hi.length, computeStrides_length])
    rw [← hs i hi]
    simp only [r, Tensor.elem]
    rw [hd, dot_computeStrides]
  have hC : ∀ j, InRange j r.dims → ∃ i, InRange i t.dims ∧ j = σ.map fun a => i.getD a 0 := by
    intro j hj
    have hlen : j.length = t.dims.length := by
      rw [hj.length]; simpa [r, Tensor.dims] using hp.length_eq
    obtain ⟨i, hil, hij⟩ := exists_unpermuted hp hlen
    refine ⟨i, ?_, hij⟩
    rw [hij] at hj
    exact (inRange_map hp hil rfl).mp hj
  refine ⟨⟨by simp [r, Tensor.dims], ?_⟩, hB, hC⟩
  intro j hj
  obtain ⟨i, hi, hij⟩ := hC j hj
  rw [hij, (hB i hi).2]
  exact ht.2 i hi

/-! ### Transpose -/

/-- The permutation that swaps `a` and `b`. -/
def swapPerm (n a b : Nat) : List Nat :=
  (List.range n).map fun k => if k = a then b else if k = b then a else k

theorem swapAt_eq {l : List Nat} {a b : Nat} (ha : a < l.length) (hb : b < l.length) :
    Layout.swapAt l a b = (swapPerm l.length a b).map fun k => l.getD k 0 := by
  apply List.ext_getElem
  · simp [Layout.swapAt, ha, hb, swapPerm]
  · intro k h1 h2
    have hk : k < l.length := by simpa [swapPerm] using h2
    have hs : Layout.swapAt l a b = (l.set a l[b]).set b l[a] := by simp [Layout.swapAt, ha, hb]
    simp only [hs, swapPerm, List.getElem_set, List.getElem_map, List.getElem_range,
      List.getD_eq_getElem?_getD]
    by_cases hkb : b = k
    · subst hkb
      by_cases hba : b = a
      · subst hba; simp [hk]
      · simp [hba, ha]
    · by_cases hka : a = k
      · subst hka; simp [hkb, hb]
      · simp [hkb, hka, Ne.symm hkb, Ne.symm hka, hk]

theorem swapPerm_perm {n a b : Nat} (ha : a < n) (hb : b < n) :
    (swapPerm n a b).Perm (List.range n) := by
  apply perm_range (by simp [swapPerm])
  · intro k hk
    simp only [swapPerm, List.mem_map, List.mem_range] at hk
    obtain ⟨m, hm, rfl⟩ := hk
    split
    · exact hb
    · split <;> omega
  · unfold swapPerm
    rw [List.nodup_iff_pairwise_ne, List.pairwise_map]
    refine List.Pairwise.imp ?_ (List.nodup_iff_pairwise_ne.mp List.nodup_range)
    intro x y hxy h
    split at h <;> split at h <;> (try split at h) <;> (try split at h) <;> omega

/-! ### Squeeze -/

theorem dropAxes_none {S : List Nat} {k : Nat} {dims : List Nat} (h : ∀ a ∈ S, a < k) :
    dropAxes S k dims = dims := by
  induction dims generalizing k with
  | nil => rfl
  | cons d ds ih =>
    have : k ∉ S := fun hc => by have := h k hc; omega
    simp [dropAxes, this, ih (fun a ha => Nat.lt_succ_of_lt (h a ha))]

theorem dropAxes_erase {S : List Nat} {k m : Nat} {dims : List Nat} (hm : m < dims.length)
    (h : ∀ a ∈ S, a < k + m) :
    dropAxes ((k + m) :: S) k dims = dropAxes S k (dims.eraseIdx m) := by
  induction dims generalizing k m with
  | nil => simp at hm
  | cons d ds ih =>
    cases m with
    | zero =>
      simp only [Nat.add_zero, dropAxes, List.mem_cons, true_or, if_true, List.eraseIdx_zero,
        List.tail_cons]
      rw [dropAxes_none (k := k) (S := S) (by simpa using h), dropAxes_none]
      intro a ha
      rcases List.mem_cons.mp ha with rfl | ha
      · omega
      · have := h a ha; omega
    | succ m =>
      have hm' : m < ds.length := by simpa using hm
      have := @ih (k + 1) m hm' (fun a ha => by have := h a ha; omega)
      rw [show k + 1 + m = k + (m + 1) by omega] at this
      simp only [List.eraseIdx_cons_succ, dropAxes, this, List.mem_cons]
      simp

theorem removeAll_desc {L dims : List Nat} (hL : L.Pairwise (· > ·))
    (hlt : ∀ a ∈ L, a < dims.length) : Layout.removeAll dims L = .ok (dropAxes L 0 dims) := by
  induction L generalizing dims with
  | nil => simp [Layout.removeAll, dropAxes_none]
  | cons a as ih =>
    rw [List.pairwise_cons] at hL
    have ha := hlt a (by simp)
    have h := dropAxes_erase (S := as) (k := 0) ha (by simpa using fun b hb => hL.1 b hb)
    rw [Nat.zero_add] at h
    simp only [Layout.removeAll, ha, if_true, h]
    apply ih hL.2
    intro b hb
    have := hL.1 b hb
    rw [List.length_eraseIdx_of_lt ha]
    omega

theorem dropAxes_congr {S T : List Nat} (h : ∀ a, a ∈ S ↔ a ∈ T) (k : Nat) (dims : List Nat) :
    dropAxes S k dims = dropAxes T k dims := by
  induction dims generalizing k with
  | nil => rfl
  | cons d ds ih => simp [dropAxes, h, ih]

theorem numel_dropAxes {S : List Nat} {k : Nat} {dims : List Nat}
    (h : ∀ a d, a + k ∈ S → dims[a]? = some d → d = 1) : numel (dropAxes S k dims) = numel dims := by
  induction dims generalizing k with
  | nil => rfl
  | cons d ds ih =>
    have ih' := @ih (k + 1) (fun a e ha he => h (a + 1) e (by rwa [show a + 1 + k = a + (k + 1) by omega]) (by simpa using he))
    simp only [dropAxes]
    split
    · rename_i hk
      have := h 0 d (by simpa using hk) (by simp)
      simp [numel, this, ih']
    · simp [numel, ih']

theorem numel_filter (dims : List Nat) : numel (dims.filter (· != 1)) = numel dims := by
  induction dims with
  | nil => rfl
  | cons d ds ih =>
    by_cases h : d = 1 <;> simp [h, numel, ih]

theorem numel_insertIdx {dims : List Nat} {k : Nat} : numel (dims.insertIdx k 1) = numel dims := by
  induction dims generalizing k with
  | nil => cases k <;> simp [numel]
  | cons d ds ih =>
    cases k with
    | zero => simp [numel]
    | succ k => simp [numel, ih]

theorem squeezeAxes_ok {dims : List Nat} {ds : List Int} {as : List Nat} (hn : dims.length < 2 ^ 31)
    (hl : ds.length = as.length)
    (hax : ∀ k (h1 : k < ds.length) (h2 : k < as.length), IsAxis dims.length ds[k] as[k])
    (h1 : ∀ a ∈ as, dims[a]? = some 1) : Layout.squeezeAxes dims ds = .ok as := by
  induction ds generalizing as with
  | nil =>
    cases as with
    | nil => rfl
    | cons => simp at hl
  | cons d ds ih =>
    cases as with
    | nil => simp at hl
    | cons a as =>
      have h0 := hax 0 (by simp) (by simp)
      simp only [List.getElem_cons_zero] at h0
      have := @ih as (by simpa using hl)
        (fun k h1 h2 => hax (k + 1) (Nat.succ_lt_succ h1) (Nat.succ_lt_succ h2))
        (fun b hb => h1 b (by simp [hb]))
      simp [Layout.squeezeAxes, castUsize_axis hn h0, h1 a (by simp), this]

theorem squeezeAxes_ok_inv {dims : List Nat} {ds : List Int} {as : List Nat}
    (h : Layout.squeezeAxes dims ds = .ok as) : ∀ a ∈ as, dims[a]? = some 1 := by
  induction ds generalizing as with
  | nil => simp [Layout.squeezeAxes] at h; subst h; simp
  | cons d ds ih =>
    simp only [Layout.squeezeAxes] at h
    split at h
    · simp at h
    · rename_i x hx
      split at h
      · simp at h
      · rename_i h1
        obtain ⟨bs, hbs, he⟩ := Res.bind_eq_ok.mp h
        cases he
        intro a ha
        rcases List.mem_cons.mp ha with rfl | ha
        · rw [hx]; simp at h1; rw [h1]
        · exact ih hbs a ha

theorem squeezeAxes_err {dims : List Nat} {ds : List Int} (hn : dims.length < 2 ^ 31)
    (hi : ∀ d ∈ ds, I32 d)
    (hbad : ∃ d ∈ ds, ∀ k, IsAxis dims.length d k → dims[k]? ≠ some 1) :
    Layout.squeezeAxes dims ds = .err := by
  induction ds with
  | nil => simp at hbad
  | cons d ds ih =>
    simp only [Layout.squeezeAxes]
    obtain ⟨b, hb, hbad⟩ := hbad
    rcases List.mem_cons.mp hb with rfl | hb
    · by_cases hex : ∃ k, IsAxis dims.length b k
      · obtain ⟨k, hk⟩ := hex
        rw [castUsize_axis hn hk]
        have hk1 := hbad k hk
        have hlt := hk.1
        simp only [hlt, List.getElem?_eq_getElem]
        rw [List.getElem?_eq_getElem hlt] at hk1
        have : dims[k] ≠ 1 := fun h => hk1 (by rw [h])
        simp [this]
      · have := castUsize_not_axis hn (hi b (by simp)) (fun k hk => hex ⟨k, hk⟩)
        rw [List.getElem?_eq_none this]
    · have hr := ih (fun x hx => hi x (by simp [hx])) ⟨b, hb, hbad⟩
      split
      · rfl
      · split
        · rfl
        · simp [hr]

/-! ### Broadcasting -/

theorem broadcastStrides_ok {dims strides tgt : List Nat} (hl : strides.length = dims.length)
    (ht : dims.length = tgt.length)
    (h : ∀ (k d : Nat), dims[k]? = some d → d = 1 ∨ tgt[k]? = some d) :
    ∃ s, Layout.broadcastStrides dims (strides.map some) tgt = .ok s ∧ s.length = tgt.length ∧
      ∀ idx, InRange idx tgt →
        dot idx s = dot (List.zipWith (fun d i => if d = 1 then 0 else i) dims idx) strides := by
  induction dims generalizing strides tgt with
  | nil =>
    have h1 : tgt = [] := by cases tgt <;> simp_all
    have h2 : strides = [] := by cases strides <;> simp_all
    subst h1 h2
    exact ⟨[], rfl, rfl, fun idx hi => by cases idx <;> simp_all [InRange, dot]⟩
  | cons d ds ih =>
    cases strides with
    | nil => simp at hl
    | cons st sts =>
      cases tgt with
      | nil => simp at ht
      | cons t ts =>
        obtain ⟨s, h1, h2, h3⟩ := @ih sts ts (by simpa using hl) (by simpa using ht)
          (fun k e he => by simpa using h (k + 1) e (by simpa using he))
        have h0 := h 0 d (by simp)
        simp only [List.getElem?_cons_zero, Option.some.injEq] at h0
        by_cases hdt : d = t
        · refine ⟨st :: s, by simp [Layout.broadcastStrides, hdt, h1], by simp [h2], ?_⟩
          intro idx hi
          cases idx with
          | nil => simp [InRange] at hi
          | cons i is =>
            simp only [InRange] at hi
            by_cases hd1 : d = 1
            · have : i = 0 := by omega
              simp [dot, hd1, this, h3 is hi.2]
            · simp [dot, hd1, h3 is hi.2]
        · have hd1 : d = 1 := by rcases h0 with h0 | h0 <;> [exact h0; exact absurd h0.symm hdt]
          subst hd1
          refine ⟨0 :: s, by simp [Layout.broadcastStrides, hdt, h1], by simp [h2], ?_⟩
          intro idx hi
          cases idx with
          | nil => simp [InRange] at hi
          | cons i is =>
            simp only [InRange] at hi
            simp [dot, h3 is hi.2]

theorem broadcastStrides_err {dims tgt : List Nat} {sts : List (Option Nat)}
    (hl : sts.length = dims.length) (ht : dims.length = tgt.length)
    (h : ∃ k d : Nat, dims[k]? = some d ∧ d ≠ 1 ∧ tgt[k]? ≠ some d) :
    Layout.broadcastStrides dims sts tgt = .err := by
  induction dims generalizing sts tgt with
  | nil => obtain ⟨k, d, hk, _⟩ := h; simp at hk
  | cons d ds ih =>
    cases sts with
    | nil => simp at hl
    | cons st sts =>
      cases tgt with
      | nil => simp at ht
      | cons t ts =>
        obtain ⟨k, e, hk, he1, he⟩ := h
        simp only [Layout.broadcastStrides]
        cases k with
        | zero =>
          simp only [List.getElem?_cons_zero, Option.some.injEq] at hk
          subst hk
          have : d ≠ t := fun hc => he (by simp [hc])
          simp [this, he1]
        | succ k =>
          have := @ih ts sts (by simpa using hl) (by simpa using ht)
            ⟨k, e, by simpa using hk, he1, by simpa using he⟩
          simp [this]

theorem broadcastStrides_pad (r : Nat) {dims tgt : List Nat} {sts : List (Option Nat)} {extra : List Nat}
    (he : extra.length = r) :
    Layout.broadcastStrides (List.replicate r 1 ++ dims) (List.replicate r none ++ sts)
        (extra ++ tgt) =
      (Layout.broadcastStrides dims sts tgt).bind fun s => .ok (List.replicate r 0 ++ s) := by
  induction r generalizing extra with
  | zero =>
    have : extra = [] := List.length_eq_zero_iff.mp he
    subst this
    cases h : Layout.broadcastStrides dims sts tgt <;> simp [h]
  | succ r ih =>
    cases extra with
    | nil => simp at he
    | cons e es =>
      have := ih (extra := es) (by simpa using he)
      simp only [List.replicate_succ, List.cons_append, Layout.broadcastStrides, this]
      cases h : Layout.broadcastStrides dims sts tgt <;> simp

theorem dot_zeros (r : Nat) {a b s : List Nat} (h : a.length = r) :
    dot (a ++ b) (List.replicate r 0 ++ s) = dot b s := by
  rw [dot_append (by simp [h])]
  have : ∀ (a : List Nat) n, dot a (List.replicate n 0) = 0 := by
    intro a
    induction a with
    | nil => simp [dot]
    | cons x xs ih => intro n; cases n <;> simp [dot, List.replicate_succ, ih]
  simp [this]

theorem inRange_append {a b c d : List Nat} (h : a.length = c.length) :
    InRange (a ++ b) (c ++ d) ↔ InRange a c ∧ InRange b d := by
  induction a generalizing c with
  | nil =>
    have : c = [] := by cases c <;> simp_all
    subst this; simp [InRange]
  | cons x xs ih =>
    cases c with
    | nil => simp at h
    | cons y ys => simp [InRange, ih (by simpa using h), and_assoc]

theorem inRange_zipWith {dims tgt idx : List Nat} (ht : dims.length = tgt.length)
    (h : ∀ (k d : Nat), dims[k]? = some d → d = 1 ∨ tgt[k]? = some d) (hi : InRange idx tgt) :
    InRange (List.zipWith (fun d i => if d = 1 then 0 else i) dims idx) dims := by
  induction dims generalizing tgt idx with
  | nil => simp [InRange]
  | cons d ds ih =>
    cases tgt with
    | nil => simp at ht
    | cons t ts =>
      cases idx with
      | nil => simp [InRange] at hi
      | cons i is =>
        simp only [InRange] at hi
        have h0 := h 0 d (by simp)
        simp only [List.getElem?_cons_zero, Option.some.injEq] at h0
        simp only [List.zipWith_cons_cons, InRange]
        refine ⟨?_, ih (by simpa using ht)
          (fun k e he => by simpa using h (k + 1) e (by simpa using he)) hi.2⟩
        split <;> omega

/-- Broadcasting a row-major layout: success, and where each index points. -/
theorem broadcastTo_spec {l : Layout} {target : List Nat} (hl : l.strides.length = l.dims.length) :
    (BroadcastsTo l.dims target →
      ∃ s, l.broadcastTo target = .ok ⟨target, s, l.offset⟩ ∧ s.length = target.length ∧
        ∀ idx, InRange idx target → InRange (broadcastIndex l.dims idx) l.dims ∧
          dot idx s = dot (broadcastIndex l.dims idx) l.strides) ∧
    (¬ BroadcastsTo l.dims target → l.broadcastTo target = .err) := by
  constructor
  · rintro ⟨hle, h⟩
    generalize hr : target.length - l.dims.length = r at h
    have htake : (target.take r).length = r := by simp; omega
    have hdrop : l.dims.length = (target.drop r).length := by simp; omega
    have h' : ∀ (k d : Nat), l.dims[k]? = some d → d = 1 ∨ (target.drop r)[k]? = some d := by
      intro k d hk
      rw [List.getElem?_drop, Nat.add_comm]
      exact h k d hk
    obtain ⟨s, h1, h2, h3⟩ := broadcastStrides_ok hl hdrop h'
    refine ⟨List.replicate r 0 ++ s, ?_, by simp [h2]; omega, ?_⟩
    · unfold Layout.broadcastTo
      rw [if_neg (by simp [Layout.ndim]; omega)]
      simp only [Layout.ndim, hr]
      have := broadcastStrides_pad r (dims := l.dims) (tgt := target.drop r)
        (sts := l.strides.map some) htake
      rw [List.take_append_drop] at this
      rw [this, h1]
      rfl
    · intro idx hi
      have hil := hi.length
      have hidx : idx.length - l.dims.length = r := by omega
      have hsplit : InRange (idx.take r) (target.take r) ∧ InRange (idx.drop r) (target.drop r) := by
        rw [← inRange_append (by simp; omega), List.take_append_drop, List.take_append_drop]
        exact hi
      refine ⟨?_, ?_⟩
      · unfold broadcastIndex
        rw [hidx]
        exact inRange_zipWith hdrop h' hsplit.2
      · have : dot idx (List.replicate r 0 ++ s) = dot (idx.drop r) s := by
          conv_lhs => rw [← List.take_append_drop r idx]
          exact dot_zeros r (by simp; omega)
        rw [this, h3 _ hsplit.2, broadcastIndex, hidx]
  · intro hb
    unfold Layout.broadcastTo
    by_cases hlt : target.length < l.dims.length
    · rw [if_pos (by simpa [Layout.ndim] using hlt)]
    · rw [if_neg (by simpa [Layout.ndim] using hlt)]
      simp only [Layout.ndim]
      generalize hr : target.length - l.dims.length = r
      have htake : (target.take r).length = r := by simp; omega
      have hbad : ∃ k d : Nat, l.dims[k]? = some d ∧ d ≠ 1 ∧ (target.drop r)[k]? ≠ some d := by
        by_contra hc
        apply hb
        refine ⟨by omega, fun k d hk => ?_⟩
        rw [hr]
        by_cases hd : d = 1
        · exact Or.inl hd
        · right
          by_contra hne
          apply hc
          refine ⟨k, d, hk, hd, ?_⟩
          rw [List.getElem?_drop, Nat.add_comm]
          exact hne
      have := broadcastStrides_pad r (dims := l.dims) (tgt := target.drop r)
        (sts := l.strides.map some) htake
      rw [List.take_append_drop] at this
      rw [this, broadcastStrides_err (by simp [hl]) (by simp; omega) hbad]
      rfl

end Hodu
