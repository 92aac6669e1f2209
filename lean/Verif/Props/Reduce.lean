import Verif.Lemmas.Reduce
import Verif.Lemmas.Elementwise
import Verif.Props.FlipPad
import Mathlib.Algebra.BigOperators.Group.List.Basic
import Mathlib.Algebra.BigOperators.Group.Finset.Basic

/-!
# Reductions: C21, C22, C23
-/

namespace Hodu
open Spec

/-- The axis list `ds` given by the caller names the dimensions `K`; the empty list names all. -/
def Spec.NamesAxes (n : Nat) (ds : List Int) (K : List Nat) : Prop :=
  (ds = [] ∧ K = List.range n) ∨ (ds ≠ [] ∧ List.Forall₂ (IsAxis n) ds K)

theorem reduceAxes_eq {n : Nat} (hn : n < 2 ^ 31) {ds : List Int} {K : List Nat}
    (h : NamesAxes n ds K) : reduceAxes n ds = K := by
  rcases h with ⟨rfl, rfl⟩ | ⟨h1, h2⟩
  · rfl
  · rw [reduceAxes, if_neg (by simpa using h1)]
    exact forall_axis hn h2

theorem Spec.NamesAxes.lt {n : Nat} {ds : List Int} {K : List Nat} (h : NamesAxes n ds K) :
    ∀ k ∈ K, k < n := by
  rcases h with ⟨-, rfl⟩ | ⟨-, h2⟩
  · intro k hk; simpa using hk
  · induction h2 with
    | nil => simp
    | cons h _ ih =>
      intro k hk
      rcases List.mem_cons.mp hk with rfl | hk
      · exact h.1
      · exact ih k hk

theorem dropAxes_length_le (K : List Nat) (i : Nat) (dims : List Nat) :
    (dropAxes K i dims).length ≤ dims.length := by
  induction dims generalizing i with
  | nil => simp [dropAxes]
  | cons d ds ih =>
    rw [dropAxes]
    have := ih (i + 1)
    split <;> simp <;> omega

theorem reduceBackendDims_rank {dims K : List Nat} {keep : Bool} (h : dims.length ≤ 16) :
    (reduceBackendDims dims K keep).length ≤ 16 := by
  rw [reduceBackendDims_eq]
  split
  · simp
  · cases keep
    · exact Nat.le_trans (dropAxes_length_le K 0 dims) h
    · simpa [reduceShape, unitAxes] using h

theorem numel_reduceBackendDims (dims K : List Nat) (keep : Bool) :
    numel (reduceBackendDims dims K keep) = numel (reduceShape K keep dims) := by
  rw [reduceBackendDims_eq]
  split
  · rename_i h; rw [h]; rfl
  · rfl

/-- The loop of a reduction kernel whose cells succeed. -/
theorem reduceKernel_ok {t : Tensor α} {K : List Nat} {keep : Bool} (ht : t.WF)
    (hr : t.dims.length ≤ 16) (comb : List (List Nat × α) → β)
    (P : List Nat → List (List Nat × α) → Prop)
    (hv : ∀ idx, InRange idx (reduceShape K keep t.dims) → ∃ vs, P idx vs ∧
      reduceVisits
        { nd := t.dims.length, dims := t.dims, strides := t.layout.strides, offset := t.layout.offset,
          outShape := reduceBackendDims t.dims K keep, axes := K, keep := keep,
          reduceSize := reduceSize t.dims K } t.storage
        (rowMajor (reduceShape K keep t.dims) idx) = .ok vs) :
    ∃ zs, reduceKernel comb t.storage (reduceMetadata t.layout K keep) = .ok zs ∧
      zs.length = numel (reduceShape K keep t.dims) ∧
      ∀ idx, InRange idx (reduceShape K keep t.dims) → ∃ vs, P idx vs ∧
        Tensor.elem ⟨zs, Layout.fromShape (reduceShape K keep t.dims)⟩ idx = some (comb vs) := by
  obtain ⟨zs, h1, h2, h3⟩ := runLoop_elem (out := reduceShape K keep t.dims)
    (val := fun o => (reduceVisits
        { nd := t.dims.length, dims := t.dims, strides := t.layout.strides, offset := t.layout.offset,
          outShape := reduceBackendDims t.dims K keep, axes := K, keep := keep,
          reduceSize := reduceSize t.dims K } t.storage o).map comb)
    (fun idx hi => by
      obtain ⟨vs, _, e⟩ := hv idx hi
      exact ⟨comb vs, by rw [e]; rfl⟩)
  refine ⟨zs, ?_, h2, ?_⟩
  · unfold reduceKernel
    rw [decodeReduce_reduceMetadata ht.1, Res.ok_bind]
    unfold guardReduce guard16
    rw [if_neg (by show ¬ 16 < t.dims.length; omega),
      if_neg (by have := reduceBackendDims_rank (K := K) (keep := keep) hr; exact Nat.not_lt.mpr this)]
    rw [shapeSize_eq]
    simp only
    rw [show numel (reduceBackendDims t.layout.dims K keep) = numel (reduceShape K keep t.dims) from
      numel_reduceBackendDims _ _ _]
    exact h1
  · intro idx hi
    obtain ⟨vs, hp, e⟩ := hv idx hi
    exact ⟨vs, hp, h3 idx hi (comb vs) (by rw [e]; rfl)⟩

theorem reduceWith_eq {t : Tensor α} {ds : List Int} {K : List Nat} {keep : Bool}
    (kernel : List α → List Nat → Res (List β)) (hn : t.dims.length ≤ 16)
    (hax : NamesAxes t.dims.length ds K)
    (hz : keep = false → ∀ p, p ∉ K → t.dims[p]? ≠ some 0) :
    t.reduceWith kernel ds keep = (kernel t.storage (reduceMetadata t.layout K keep)).bind fun s =>
      .ok ⟨s, Layout.fromShape (reduceShape K keep t.dims)⟩ := by
  unfold Tensor.reduceWith
  simp only
  rw [reduceAxes_eq (by omega) hax, reduceHostDims_eq hax.lt hz, Res.ok_bind]
  unfold callOpsReduce
  rw [if_neg (by
    simp only [List.any_eq_true, decide_eq_true_eq, not_exists, not_and]
    intro k hk
    have := hax.lt k hk
    exact Nat.not_le.mpr this)]

theorem reduceWith_ok {t : Tensor α} {ds : List Int} {K : List Nat} {keep : Bool} (ht : t.WF)
    (hr : t.dims.length ≤ 16) (hax : NamesAxes t.dims.length ds K) (hn : K.Nodup)
    (hz : keep = false → ∀ p, p ∉ K → t.dims[p]? ≠ some 0) (comb : List (List Nat × α) → β) :
    ∃ r, t.reduceWith (reduceKernel comb) ds keep = .ok r ∧ r.WF ∧
      r.layout = Layout.fromShape (reduceShape K keep t.dims) ∧
      ∀ idx, InRange idx (reduceShape K keep t.dims) →
        ∃ js vals, Fibre K keep t.dims idx js ∧ js.map t.elem = vals.map some ∧
          r.elem idx = some (comb (js.zip vals)) := by
  obtain ⟨zs, h1, h2, h3⟩ := reduceKernel_ok (K := K) (keep := keep) ht hr comb
    (fun idx vs => ∃ js vals, Fibre K keep t.dims idx js ∧ js.map t.elem = vals.map some ∧
      vs = js.zip vals)
    (fun idx hi => by
      obtain ⟨js, vals, a, b, c⟩ := reduceVisits_ok ht hn hax.lt hi
      exact ⟨_, ⟨js, vals, a, b, rfl⟩, c⟩)
  refine ⟨⟨zs, Layout.fromShape (reduceShape K keep t.dims)⟩, ?_, fresh_wf h2.symm, rfl, ?_⟩
  · rw [reduceWith_eq _ hr hax hz, h1, Res.ok_bind]
  · intro idx hi
    obtain ⟨_, ⟨js, vals, a, b, rfl⟩, c⟩ := h3 idx hi
    exact ⟨js, vals, a, b, c⟩

/-! ## C21 -/

/-- `vals` are the elements contributing to the output position `idx`, each input position once. -/
def Spec.Contributions (t : Tensor α) (K : List Nat) (keep : Bool) (idx : List Nat) (vals : List α) :
    Prop :=
  ∃ js : List (List Nat), js.Nodup ∧
    (∀ j, j ∈ js ↔ InRange j t.dims ∧ reduceIndex K keep j = idx) ∧ js.map t.elem = vals.map some

/-- **C21, full property**, for the sum of natural numbers. -/
def C21_full : Prop :=
  ∀ (t : Tensor Nat) (ds : List Int) (K : List Nat) (keep : Bool), t.WF → t.dims.length ≤ 16 →
    NamesAxes t.dims.length ds K →
    ∃ r, t.sum (· + ·) 0 ds keep = .ok r ∧ ∀ idx, InRange idx (reduceShape K keep t.dims) →
      ∃ vals, Contributions t K keep idx vals ∧ r.elem idx = some vals.sum

theorem fresh_wf_list (s : List α) (dims : List Nat) (h : s.length = numel dims) :
    (⟨s, Layout.fromShape dims⟩ : Tensor α).WF := fresh_wf h.symm

/-- **C21 is false as stated**: an axis listed twice is summed twice.  Summing the column `[3, 4]`
over axis 0 gives 7, over the axes 0, 0 it gives 14. -/
theorem C21_full_false : ¬ C21_full ∧
    (⟨[3, 4], Layout.fromShape [2]⟩ : Tensor Nat).sum (· + ·) 0 [0] true =
      .ok ⟨[7], Layout.fromShape [1]⟩ ∧
    (⟨[3, 4], Layout.fromShape [2]⟩ : Tensor Nat).sum (· + ·) 0 [0, 0] true =
      .ok ⟨[14], Layout.fromShape [1]⟩ := by
  refine ⟨?_, by decide +kernel, by decide +kernel⟩
  intro h
  obtain ⟨r, h1, h2⟩ := h ⟨[3, 4], Layout.fromShape [2]⟩ [0, 0] [0, 0] true
    (fresh_wf_list _ _ rfl) (by decide)
    (.inr ⟨by simp, .cons ⟨by decide, .inl rfl⟩ (.cons ⟨by decide, .inl rfl⟩ .nil)⟩)
  rw [show (⟨[3, 4], Layout.fromShape [2]⟩ : Tensor Nat).sum (· + ·) 0 [0, 0] true =
      .ok ⟨[14], Layout.fromShape [1]⟩ by decide +kernel] at h1
  injection h1 with h1
  subst h1
  obtain ⟨vals, ⟨js, hnd, hm, hv⟩, he⟩ := h2 [0] (by decide)
  have hp : js.Perm [[0], [1]] := by
    rw [List.perm_ext_iff_of_nodup hnd (by decide)]
    intro j
    rw [hm]
    constructor
    · rintro ⟨hj, _⟩
      match j, hj with
      | [0], _ => simp
      | [1], _ => simp
    · intro hj
      simp only [List.mem_cons, List.not_mem_nil, or_false] at hj
      rcases hj with rfl | rfl <;> decide
  have hvp : (vals.map some).Perm [some 3, some 4] := by
    rw [← hv]; exact (hp.map _).trans (by decide)
  have : (vals.map some).map (fun o : Option Nat => o.getD 0) = vals := by
    rw [List.map_map]; simp
  have hs : vals.sum = 7 := by
    rw [← this, ((hvp.map _).sum_eq)]; rfl
  rw [hs] at he
  revert he; decide +kernel

/-- **C21, what holds**: for every layout and any combination of the visited values (`comb`), a
reduction over distinct axes hands `comb`, for every output position, exactly the elements of the
positions that differ from it in the reduced axes only, each once, in row-major order of the reduced
coordinates.  Missing: repeated axes (false); rank above 16 (undefined behaviour,
`C21_rank17_ub`); zero-size dimensions outside of the reduced ones without `keep_dim` (false,
`C22_full_false`). -/
theorem C21_reduce_partial {t : Tensor α} {ds : List Int} {K : List Nat} {keep : Bool} (ht : t.WF)
    (hr : t.dims.length ≤ 16) (hax : NamesAxes t.dims.length ds K) (hn : K.Nodup)
    (hz : keep = false → ∀ p, p ∉ K → t.dims[p]? ≠ some 0) (comb : List α → β) :
    ∃ r, t.reduce comb ds keep = .ok r ∧ r.WF ∧ r.dims = reduceShape K keep t.dims ∧
      ∀ idx, InRange idx (reduceShape K keep t.dims) →
        ∃ js vals, Fibre K keep t.dims idx js ∧ js.Nodup ∧ js.map t.elem = vals.map some ∧
          r.elem idx = some (comb vals) := by
  obtain ⟨r, h1, h2, h3, h4⟩ := reduceWith_ok ht hr hax hn hz
    (fun vs : List (List Nat × α) => comb (vs.map Prod.snd))
  refine ⟨r, h1, h2, by rw [show r.dims = r.layout.dims from rfl, h3]; rfl, ?_⟩
  intro idx hi
  obtain ⟨js, vals, a, b, c⟩ := h4 idx hi
  refine ⟨js, vals, a, a.nodup, b, ?_⟩
  rw [c, List.map_snd_zip]
  have := congrArg List.length b
  simp at this
  omega

/-- C21 on the transpose of a 2×3 matrix, reduced over its first axis. -/
example :
    let t : Tensor Nat := ⟨[1, 2, 3, 4, 5, 6], ⟨[3, 2], [1, 3], 0⟩⟩
    t.layout.isContiguous = false ∧ t.dims.length ≤ 16 ∧ [0].Nodup ∧ IsAxis 2 (-2) 0 ∧
    t.sum (· + ·) 0 [-2] false = .ok ⟨[6, 15], Layout.fromShape [2]⟩ ∧
    t.sum (· + ·) 0 [-2] true = .ok ⟨[6, 15], Layout.fromShape [1, 2]⟩ ∧
    t.reduce (fun vs => vs.foldl max 0) [] false = .ok ⟨[6], Layout.fromShape []⟩ := by
  refine ⟨by decide +kernel, by decide, by decide, ⟨by decide, .inr (by decide)⟩, by decide +kernel,
    by decide +kernel, by decide +kernel⟩

/-- Above rank 16 the kernels write outside of their index arrays. -/
theorem C21_rank17_ub (comb : List α → β) (t : Tensor α) (ht : t.WF) (hr : 16 < t.dims.length)
    (hr' : t.dims.length < 2 ^ 31) {ds : List Int} {K : List Nat}
    (hax : NamesAxes t.dims.length ds K) : t.reduce comb ds true = .ub := by
  unfold Tensor.reduce Tensor.reduceWith
  simp only
  rw [reduceAxes_eq hr' hax, reduceHostDims_eq hax.lt (fun h => by cases h), Res.ok_bind]
  unfold callOpsReduce
  rw [if_neg (by
    simp only [List.any_eq_true, decide_eq_true_eq, not_exists, not_and]
    intro k hk
    exact Nat.not_le.mpr (hax.lt k hk))]
  unfold reduceKernel
  rw [decodeReduce_reduceMetadata ht.1, Res.ok_bind]
  unfold guardReduce guard16
  rw [if_pos hr]
  rfl

/-- Two listings of the same elements are permutations of each other. -/
theorem contributions_perm {t : Tensor α} {K K' : List Nat} {keep : Bool} {idx : List Nat}
    {vals vals' : List α} (hK : ∀ k, k ∈ K ↔ k ∈ K') (h : Contributions t K keep idx vals)
    (h' : Contributions t K' keep idx vals') : vals.Perm vals' := by
  obtain ⟨js, h1, h2, h3⟩ := h
  obtain ⟨js', h1', h2', h3'⟩ := h'
  have hri : ∀ j, reduceIndex K keep j = reduceIndex K' keep j := by
    intro j
    cases keep
    · exact dropAxes_congr hK 0 j
    · simp only [reduceIndex, if_true, zeroAxes]
      congr 1
      funext k i
      simp only [hK]
  have hp : js.Perm js' := by
    rw [List.perm_ext_iff_of_nodup h1 h1']
    intro j
    rw [h2, h2', hri]
  have := hp.map t.elem
  rw [h3, h3'] at this
  have := this.filterMap id
  simpa [List.filterMap_map] using this

/-- **C21, order of the axes**: for an operation that does not depend on the order of its arguments
(any fold of a commutative and associative operation) two listings of the same set of distinct axes
give the same result. -/
theorem C21_axis_order {t : Tensor α} {ds ds' : List Int} {K K' : List Nat} {keep : Bool}
    (ht : t.WF) (hr : t.dims.length ≤ 16) (hax : NamesAxes t.dims.length ds K)
    (hax' : NamesAxes t.dims.length ds' K') (hn : K.Nodup) (hn' : K'.Nodup)
    (hK : ∀ k, k ∈ K ↔ k ∈ K')
    (hz : keep = false → ∀ p, p ∉ K → t.dims[p]? ≠ some 0) (comb : List α → β)
    (hcomb : ∀ a b : List α, a.Perm b → comb a = comb b) :
    ∃ r r', t.reduce comb ds keep = .ok r ∧ t.reduce comb ds' keep = .ok r' ∧ r.SameValues r' := by
  obtain ⟨r, h1, _, h2, h3⟩ := C21_reduce_partial ht hr hax hn hz comb
  obtain ⟨r', h1', _, h2', h3'⟩ := C21_reduce_partial ht hr hax' hn'
    (fun e p hp => hz e p (by rwa [hK])) comb
  have hs : reduceShape K keep t.dims = reduceShape K' keep t.dims := by
    cases keep
    · exact dropAxes_congr hK 0 t.dims
    · simp only [reduceShape, if_true, unitAxes]
      congr 1
      funext k i
      simp only [hK]
  refine ⟨r, r', h1, h1', by rw [h2, h2', hs], ?_⟩
  intro idx hi
  rw [h2] at hi
  obtain ⟨js, vals, a, b, c, d⟩ := h3 idx hi
  obtain ⟨js', vals', a', b', c', d'⟩ := h3' idx (hs ▸ hi)
  rw [d, d', hcomb vals vals' (contributions_perm (t := t) hK ⟨js, b, a.mem, c⟩ ⟨js', b', a'.mem, c'⟩)]

example :
    let t : Tensor Nat := ⟨[1, 2, 3, 4, 5, 6, 7, 8], Layout.fromShape [2, 2, 2]⟩
    (∀ k, k ∈ [0, 2] ↔ k ∈ [2, 0]) ∧
    t.sum (· + ·) 0 [0, 2] false = .ok ⟨[14, 22], Layout.fromShape [2]⟩ ∧
    t.sum (· + ·) 0 [2, 0] false = .ok ⟨[14, 22], Layout.fromShape [2]⟩ := by
  refine ⟨by simp [or_comm], by decide +kernel, by decide +kernel⟩

/-! ## C22 -/

/-- **C22, full property.** -/
def C22_full : Prop :=
  ∀ (t : Tensor Nat) (ds : List Int) (K : List Nat) (keep : Bool), t.WF → t.dims.length ≤ 16 →
    NamesAxes t.dims.length ds K →
    ∃ r, t.sum (· + ·) 0 ds keep = .ok r ∧ r.dims = reduceShape K keep t.dims ∧
      r.storage.length = numel r.dims

/-- **C22 is false as stated**: the result shape is formed by marking reduced sizes with 0 and
dropping zeros, so a genuine zero-size dimension disappears.  Summing a tensor of shape `[2, 0, 3]`
over axis 0 gives shape `[3]` over an empty buffer: the result is not well formed. -/
theorem C22_full_false : ¬ C22_full ∧
    (⟨[], Layout.fromShape [2, 0, 3]⟩ : Tensor Nat).sum (· + ·) 0 [0] false =
      .ok ⟨[], Layout.fromShape [3]⟩ ∧ ¬ (⟨[], Layout.fromShape [3]⟩ : Tensor Nat).WF := by
  have hc : (⟨[], Layout.fromShape [2, 0, 3]⟩ : Tensor Nat).sum (· + ·) 0 [0] false =
      .ok ⟨[], Layout.fromShape [3]⟩ := by decide +kernel
  refine ⟨?_, hc, fun h => ?_⟩
  · intro h
    obtain ⟨r, h1, h2, _⟩ := h ⟨[], Layout.fromShape [2, 0, 3]⟩ [0] [0] false
      (fresh_wf_list _ _ rfl) (by decide) (.inr ⟨by simp, .cons ⟨by decide, .inl rfl⟩ .nil⟩)
    rw [hc] at h1
    injection h1 with h1
    subst h1
    revert h2; decide
  · have := h.2 [0] (by decide)
    revert this; decide

theorem putAt_get_lt {K dims vs b : List Nat} (hv : InRange vs (K.map fun k => dims.getD k 0))
    (i : Nat) (hi : i ∈ K) (hb : i < b.length) :
    ∃ c, (putAt K vs b)[i]? = some c ∧ c < dims.getD i 0 := by
  induction K generalizing vs with
  | nil => cases hi
  | cons k ks ih =>
    cases vs with
    | nil => exact hv.elim
    | cons v vs =>
      rw [putAt]
      by_cases e : k = i
      · subst e
        exact ⟨v, List.getElem?_set_self (by rw [putAt_length]; exact hb), hv.1⟩
      · rw [List.getElem?_set_ne e]
        refine ih hv.2 ?_
        rcases List.mem_cons.mp hi with h | h
        · exact absurd h.symm e
        · exact h

/-- With repeated axes the kernel still reads inside of the tensor only. -/
theorem reduceVisits_safe {t : Tensor α} {idx K : List Nat} {keep : Bool} (ht : t.WF)
    (hk : ∀ k ∈ K, k < t.dims.length) (hi : InRange idx (reduceShape K keep t.dims)) :
    ∃ vs, reduceVisits
        { nd := t.dims.length, dims := t.dims, strides := t.layout.strides, offset := t.layout.offset,
          outShape := reduceBackendDims t.dims K keep, axes := K, keep := keep,
          reduceSize := reduceSize t.dims K } t.storage
        (rowMajor (reduceShape K keep t.dims) idx) = .ok vs := by
  have hb := reduceBase_eq (strides := t.layout.strides) (off := t.layout.offset)
    (sz := reduceSize t.dims K) hi
  generalize hbe : reduceBase
    { nd := t.dims.length, dims := t.dims, strides := t.layout.strides, offset := t.layout.offset,
      outShape := reduceBackendDims t.dims K keep, axes := K, keep := keep,
      reduceSize := reduceSize t.dims K } (rowMajor (reduceShape K keep t.dims) idx) = b at hb
  generalize hdk : K.map (fun k => t.dims.getD k 0) = dK
  have hin : ∀ r, r < numel dK → InRange (putAt K (unravel dK r) b) t.dims := by
    intro r hr
    rw [inRange_iff]
    refine ⟨by rw [putAt_length, hb.len], ?_⟩
    intro i h1 h2
    by_cases hi : i ∈ K
    · obtain ⟨c, h3, h4⟩ := putAt_get_lt (b := b) (vs := unravel dK r) (dims := t.dims)
        (by rw [hdk]; exact unravel_inRange hr) i hi (by rw [hb.len]; exact h2)
      rw [List.getElem?_eq_getElem h1] at h3
      rw [Option.some.inj h3]
      simpa [List.getD_eq_getElem?_getD, h2] using h4
    · obtain ⟨c, h3, h4⟩ := hb.lt i hi _ (List.getElem?_eq_getElem h2)
      have := putAt_off (b := b) hi (unravel dK r)
      rw [h3, List.getElem?_eq_getElem h1] at this
      rw [Option.some.inj this]; exact h4
  obtain ⟨vals, hv⟩ := exists_vals (L := List.range (numel dK))
    (f := fun r => t.elem (putAt K (unravel dK r) b))
    (fun r hr => Option.isSome_iff_exists.mp (ht.2 _ (hin r (by simpa using hr))))
  refine ⟨((List.range (numel dK)).map fun r => putAt K (unravel dK r) b).zip vals, ?_⟩
  unfold reduceVisits
  simp only
  rw [hbe, reduceSize_eq, hdk]
  apply mapL_zip hv
  intro r hr v hv
  have hr : r < numel dK := by simpa using hr
  rw [setReduced_eq hk, hdk, cUnravel_eq, Nat.mod_eq_of_lt hr, Res.ok_bind]
  simp only [cFlat_eq]
  have : readC t.storage (t.layout.offset + dot (putAt K (unravel dK r) b) t.layout.strides) =
      .ok v := readC_eq_ok.mpr hv
  rw [this, Res.ok_bind]

/-- **C22, what holds**: every reduction over existing axes, repeated or not, gives a well-formed
tensor of the expected shape whose buffer has exactly that many elements, and no access leaves the
source buffer.  Missing: without `keep_dim`, zero-size dimensions outside of the reduced ones
(false); rank above 16 (`C21_rank17_ub`). -/
theorem C22_shape_partial {t : Tensor α} {ds : List Int} {K : List Nat} {keep : Bool} (ht : t.WF)
    (hr : t.dims.length ≤ 16) (hax : NamesAxes t.dims.length ds K)
    (hz : keep = false → ∀ p, p ∉ K → t.dims[p]? ≠ some 0) (comb : List α → β) :
    ∃ r, t.reduce comb ds keep = .ok r ∧ r.WF ∧ r.dims = reduceShape K keep t.dims ∧
      r.storage.length = numel r.dims := by
  obtain ⟨zs, h1, h2, -⟩ := reduceKernel_ok (K := K) (keep := keep) ht hr
    (fun vs : List (List Nat × α) => comb (vs.map Prod.snd)) (fun _ _ => True)
    (fun idx hi => by
      obtain ⟨vs, h⟩ := reduceVisits_safe ht hax.lt hi
      exact ⟨vs, trivial, h⟩)
  refine ⟨⟨zs, Layout.fromShape (reduceShape K keep t.dims)⟩, ?_, fresh_wf h2.symm, rfl, h2⟩
  unfold Tensor.reduce
  rw [reduceWith_eq _ hr hax hz, h1, Res.ok_bind]

example :
    let t : Tensor Nat := ⟨[1, 2, 3, 4, 5, 6], ⟨[3, 2], [1, 3], 0⟩⟩
    NamesAxes 2 [1, -1] [1, 1] ∧
    t.sum (· + ·) 0 [1, -1] false = .ok ⟨[10, 14, 18], Layout.fromShape [3]⟩ := by
  refine ⟨.inr ⟨by simp, .cons ⟨by decide, .inl rfl⟩ (.cons ⟨by decide, .inr rfl⟩ .nil)⟩,
    by decide +kernel⟩

/-- An axis that does not exist is not reported as an error: the call panics. -/
theorem C22_bad_axis_panics {t : Tensor α} {d : Int} (hn : t.dims.length < 2 ^ 31) (hd : I32 d)
    (h : ∀ k, ¬ IsAxis t.dims.length d k) (keep : Bool) (comb : List α → β) :
    t.reduce comb [d] keep = .panic := by
  have h2 := castUsize_not_axis hn hd h
  have h3 : axisUsize t.dims.length d =
      if d < 0 then castUsize ((t.dims.length : Int) + d) else castUsize d := rfl
  unfold Tensor.reduce Tensor.reduceWith reduceHostDims reduceAxes
  rw [if_neg (by simp)]
  simp only [List.map_cons, List.map_nil, setAll]
  rw [if_neg (by rw [h3]; exact Nat.not_lt.mpr h2)]
  rfl

example : (⟨[1, 2], Layout.fromShape [2]⟩ : Tensor Nat).sum (· + ·) 0 [1] false = .panic := by
  decide +kernel

/-! ## C21: the SIMD path -/

theorem foldl_lanes [AddCommMonoid M] (f : Nat → M) (W q : Nat) :
    ((List.range W).map fun j => ((List.range q).map fun b => f (b * W + j)).sum).sum =
      ((List.range (q * W)).map f).sum := by
  induction q with
  | zero => simp
  | succ q ih =>
    rw [Nat.succ_mul, List.range_add (n := q * W), List.map_append (f := f), List.sum_append, ← ih,
      List.map_map]
    have : ((List.range W).map fun j => ((List.range (q + 1)).map fun b => f (b * W + j)).sum) =
        (List.range W).map fun j => ((List.range q).map fun b => f (b * W + j)).sum + f (q * W + j) := by
      apply List.map_congr_left
      intro j _
      rw [List.range_succ, List.map_append, List.sum_append]
      simp
    rw [this, List.sum_map_add]
    rfl

theorem simdFold_eq {op : α → α → α} {e : α} (hc : ∀ a b, op a b = op b a)
    (ha : ∀ a b c, op (op a b) c = op a (op b c)) (he : ∀ a, op e a = a) {W : Nat}
    (vals : List α) : simdFold W op e vals = vals.foldl op e := by
  let _ : Add α := ⟨op⟩
  let _ : Zero α := ⟨e⟩
  let _ : AddCommMonoid α :=
    { add_assoc := ha, add_comm := hc, zero_add := he
      add_zero := fun a => (hc a e).trans (he a), nsmul := nsmulRec }
  have hop2 : ∀ (l : List α) (a : α), l.foldl op a = a + l.sum := by
    intro l
    induction l with
    | nil => intro a; simp
    | cons x xs ih =>
      intro a
      rw [List.foldl_cons, ih, List.sum_cons]
      exact add_assoc a x xs.sum
  have hop : ∀ (l : List α), l.foldl op e = l.sum := fun l => (hop2 l e).trans (zero_add _)
  unfold simdFold
  simp only
  have hlane : ∀ j < W, ((List.range (vals.length / W)).filterMap fun b => vals[b * W + j]?).foldl op e =
      ((List.range (vals.length / W)).map fun b => vals.getD (b * W + j) e).sum := by
    intro j hj
    rw [hop]
    congr 1
    rw [← List.filterMap_eq_map]
    apply List.filterMap_congr
    intro b hb
    have hb : b < vals.length / W := by simpa using hb
    have h1 : (b + 1) * W ≤ vals.length :=
      Nat.le_trans (Nat.mul_le_mul_right W hb) (Nat.div_mul_le_self _ _)
    have h2 : b * W + j < vals.length := by
      rw [Nat.succ_mul] at h1; omega
    simp [List.getD_eq_getElem?_getD, h2]
  rw [List.map_congr_left (fun j hj => hlane j (by simpa using hj)), hop, foldl_lanes
    (fun i => vals.getD i e), hop2, hop]
  have hle := Nat.div_mul_le_self vals.length W
  have htake : (List.range (vals.length / W * W)).map (fun i => vals.getD i e) =
      vals.take (vals.length / W * W) := by
    apply List.ext_getElem
    · simp; omega
    · intro i h1 h2
      simp only [List.length_take] at h2
      simp [List.getD_eq_getElem?_getD, show i < vals.length by omega]
  rw [htake, ← List.sum_append, List.take_append_drop]

theorem dot_set_last {b strides : List Nat} {k r : Nat} (hb : b.length = k + 1)
    (hs : strides.length = k + 1) (h1 : strides[k]? = some 1) :
    dot (b.set k r) strides = dot (b.take k) strides + r := by
  induction b generalizing k strides with
  | nil => simp at hb
  | cons x xs ih =>
    cases strides with
    | nil => simp at hs
    | cons s ss =>
      cases k with
      | zero =>
        have : s = 1 := by simpa using h1
        subst this
        have : xs = [] := by simpa using hb
        subst this
        simp [dot]
      | succ k =>
        simp only [List.set_cons_succ, List.take_succ_cons, dot]
        rw [ih (by simpa using hb) (by simpa using hs) (by simpa using h1)]
        omega

theorem mapL_congr {f g : α → Res β} {l : List α} (h : ∀ x ∈ l, f x = g x) :
    Res.mapL f l = Res.mapL g l := by
  induction l with
  | nil => rfl
  | cons x xs ih => rw [Res.mapL, Res.mapL, h x (by simp), ih fun y hy => h y (by simp [hy])]

theorem mapL_map {f : α → Res β} {g : β → γ} {l : List α} :
    (Res.mapL f l).map (List.map g) = Res.mapL (fun x => (f x).map g) l := by
  induction l with
  | nil => rfl
  | cons x xs ih =>
    rw [Res.mapL, Res.mapL, ← ih]
    cases f x <;> try rfl
    cases Res.mapL f xs <;> rfl

theorem simd_cell {op : α → α → α} {e : α} (hc : ∀ a b, op a b = op b a)
    (ha : ∀ a b c, op (op a b) c = op a (op b c)) (he : ∀ a, op e a = a) {W : Nat}
    {inp : List α} {m : ReduceMeta} {o : Nat} {idx : List Nat} (hnd : m.nd = m.dims.length)
    (hst : m.strides.length = m.dims.length) (hsz : m.reduceSize = reduceSize m.dims m.axes)
    (hk : ∀ k ∈ m.axes, k < m.dims.length) (hs : useSimd W m = true)
    (hb : IsBase m.axes m.keep m.dims idx (reduceBase m o)) :
    (Res.mapL (fun i => readC inp
        (cFlat m.offset ((reduceBase m o).take (m.nd - 1)) m.strides + i))
      (List.range m.reduceSize)).map (simdFold W op e) =
    (reduceVisits m inp o).map fun vs => (vs.map Prod.snd).foldl op e := by
  simp only [useSimd, Bool.and_eq_true, beq_iff_eq, decide_eq_true_eq] at hs
  obtain ⟨⟨⟨h1, h2⟩, h3⟩, -⟩ := hs
  have hK : m.axes = [m.nd - 1] := by
    match hm : m.axes, h1 with
    | [k], _ => rw [hm] at h2; simpa using h2
  have hn : 0 < m.nd := by
    have := hk (m.nd - 1) (by rw [hK]; simp)
    omega
  have hred : m.reduceSize = m.dims.getD (m.nd - 1) 0 := by
    rw [hsz, reduceSize_eq, hK]; simp [numel]
  unfold reduceVisits
  generalize reduceBase m o = b at hb
  have hcomp : ∀ (x : Res (List (List Nat × α))),
      (x.map fun vs => (vs.map Prod.snd).foldl op e) =
        (x.map (List.map Prod.snd)).map (fun l : List α => l.foldl op e) := by
    intro x; cases x <;> rfl
  have hfold : simdFold W op e = fun l : List α => l.foldl op e :=
    funext fun l => simdFold_eq hc ha he l
  rw [hcomp, mapL_map, hfold]
  congr 1
  apply mapL_congr
  intro r hr
  have hr : r < m.dims.getD (m.nd - 1) 0 := by rw [← hred]; simpa using hr
  rw [setReduced_eq hk, Res.ok_bind]
  have hput : putAt m.axes (cUnravel (m.axes.map fun k => m.dims.getD k 0) r).1 b =
      b.set (m.nd - 1) r := by
    rw [hK, cUnravel_eq]
    simp only [List.map_cons, List.map_nil, numel, unravel, putAt, Nat.mul_one]
    rw [Nat.mod_eq_of_lt hr, Nat.div_one]
  simp only [hput, cFlat_eq]
  have hbl := hb.len
  rw [dot_set_last (k := m.nd - 1) (by omega) (by omega) h3, Nat.add_assoc]
  cases readC inp (m.offset + (dot (b.take (m.nd - 1)) m.strides + r)) <;> rfl

/-- **C21, SIMD path**: for a commutative and associative operation with neutral element `e` the
vectorised f32/f64 kernels (any lane count) compute exactly what the plain loop computes, for every
layout and axis list.  (Floating-point addition is not associative: there the two differ in the
order of the additions.) -/
theorem C21_simd {op : α → α → α} {e : α} (hc : ∀ a b, op a b = op b a)
    (ha : ∀ a b c, op (op a b) c = op a (op b c)) (he : ∀ a, op e a = a) {W : Nat}
    {t : Tensor α} (ht : t.WF) (K : List Nat) (hk : ∀ k ∈ K, k < t.dims.length) (keep : Bool) :
    reduceKernelSimd W op e t.storage (reduceMetadata t.layout K keep) =
      reduceKernel (fun vs => (vs.map Prod.snd).foldl op e) t.storage
        (reduceMetadata t.layout K keep) := by
  unfold reduceKernelSimd reduceKernel
  rw [decodeReduce_reduceMetadata ht.1, Res.ok_bind, Res.ok_bind]
  congr 1
  unfold runLoop
  apply mapL_congr
  intro o ho
  split
  · rename_i hs
    have ho : o < numel (reduceShape K keep t.dims) := by
      rw [← numel_reduceBackendDims, ← shapeSize_eq]; simpa using ho
    have hb := reduceBase_eq (strides := t.layout.strides) (off := t.layout.offset)
      (sz := reduceSize t.dims K) (unravel_inRange ho)
    rw [rowMajor_unravel ho] at hb
    exact simd_cell hc ha he rfl ht.1 rfl hk hs hb
  · rfl

/-- The SIMD condition is met by a contiguous row sum; 4 lanes, 6 columns. -/
example :
    let t : Tensor Nat := ⟨[1, 2, 3, 4, 5, 6, 7, 8, 9, 10, 11, 12], Layout.fromShape [2, 6]⟩
    ((decodeReduce (reduceMetadata t.layout [1] false)).map (useSimd 4)) = .ok true ∧
    reduceKernelSimd 4 (· + ·) 0 t.storage (reduceMetadata t.layout [1] false) = .ok [21, 57] := by
  decide +kernel

/-! ## C23 -/

/-- `better` compares values as a strict weak order (as `>` and `<` do on integers and on floats
without NaN). -/
structure Spec.StrictWeak (better : α → α → Bool) : Prop where
  irrefl : ∀ a, better a a = false
  trans : ∀ a b c, better a b = true → better b c = true → better a c = true
  negTrans : ∀ a b c, better a b = false → better b c = false → better a c = false

theorem argFold_spec {better : α → α → Bool} (hb : StrictWeak better) (P l : List (Nat × α))
    (i : Nat) (v : α) (hm : (i, v) ∈ P)
    (hP : ∀ p ∈ P, better p.2 v = false ∧ (p.1 < i → better v p.2 = true))
    (hlt : ∀ p ∈ P, ∀ q ∈ l, p.1 < q.1) (hs : l.Pairwise (fun p q => p.1 < q.1)) :
    ∃ i' v', argFold better l (some (i, v)) = some (i', v') ∧ (i', v') ∈ P ++ l ∧
      ∀ p ∈ P ++ l, better p.2 v' = false ∧ (p.1 < i' → better v' p.2 = true) := by
  induction l generalizing P i v with
  | nil => exact ⟨i, v, rfl, by simpa using hm, by simpa using hP⟩
  | cons q l ih =>
    obtain ⟨j, w⟩ := q
    obtain ⟨hs1, hs2⟩ := List.pairwise_cons.mp hs
    have hlt' : ∀ p ∈ P ++ [(j, w)], ∀ q ∈ l, p.1 < q.1 := by
      intro p hp q hq
      rcases List.mem_append.mp hp with hp | hp
      · exact hlt p hp q (by simp [hq])
      · rw [List.mem_singleton.mp hp]; exact hs1 q hq
    have happ : P ++ (j, w) :: l = (P ++ [(j, w)]) ++ l := by simp
    rw [argFold, happ]
    by_cases hbw : better w v = true
    · rw [if_pos hbw]
      refine ih (P ++ [(j, w)]) j w (by simp) ?_ hlt' hs2
      intro p hp
      rcases List.mem_append.mp hp with hp | hp
      · obtain ⟨h1, _⟩ := hP p hp
        refine ⟨?_, fun _ => ?_⟩
        · by_contra hc
          have := hb.trans p.2 w v (by simpa using hc) hbw
          rw [h1] at this; cases this
        · by_contra hc
          have := hb.negTrans w p.2 v (by simpa using hc) h1
          rw [hbw] at this; cases this
      · rw [List.mem_singleton.mp hp]
        exact ⟨hb.irrefl w, fun h => absurd h (Nat.lt_irrefl _)⟩
    · rw [if_neg hbw]
      refine ih (P ++ [(j, w)]) i v (by simp [hm]) ?_ hlt' hs2
      intro p hp
      rcases List.mem_append.mp hp with hp | hp
      · exact hP p hp
      · rw [List.mem_singleton.mp hp]
        refine ⟨by simpa using hbw, fun h => ?_⟩
        have := hlt _ hm (j, w) (by simp)
        exact absurd h (by simp at this ⊢; omega)

theorem sum_leByte (x : Nat) : ∀ w, ((List.range w).map fun k => leByte x k * 256 ^ k).sum = x % 256 ^ w := by
  intro w
  induction w with
  | zero => simp [Nat.mod_one]
  | succ w ih =>
    rw [List.range_succ, List.map_append, List.sum_append, ih, List.map_singleton, List.sum_singleton, Nat.pow_succ,
      Nat.mod_mul, leByte, Nat.mul_comm]

/-- Values of the size of the elements are stored as they are. -/
theorem storeAs_same {w : Nat} (hw : 0 < w) (xs : List Nat) (hx : ∀ x ∈ xs, x < 256 ^ w) {junk : Nat → Nat} :
    storeAs w w junk xs = .ok xs := by
  unfold storeAs
  by_cases h0 : xs = []
  · rw [if_pos h0, h0]
  · rw [if_neg h0, if_neg (Nat.lt_irrefl _)]
    congr 1
    apply List.ext_getElem (by simp)
    intro i h1 h2
    rw [List.getElem_map, List.getElem_range]
    have : ((List.range w).map fun k => (xs[(i * w + k) / w]?.elim (leByte (junk i) k)
        fun x => leByte x ((i * w + k) % w)) * 256 ^ k) = (List.range w).map fun k => leByte xs[i] k * 256 ^ k := by
      refine List.map_congr_left fun k hk => ?_
      rw [List.mem_range] at hk
      have e1 : (i * w + k) / w = i := by
        rw [Nat.mul_comm, Nat.mul_add_div hw, Nat.div_eq_of_lt hk, Nat.add_zero]
      have e2 : (i * w + k) % w = k := by
        rw [Nat.mul_comm, Nat.mul_add_mod, Nat.mod_eq_of_lt hk]
      rw [e1, e2, List.getElem?_eq_getElem h2, Option.elim_some]
    rw [this, sum_leByte, Nat.mod_eq_of_lt (hx _ (List.getElem_mem h2))]

/-- **C23, full property**, reduced to "the call succeeds" on a non-empty axis. -/
def C23_full : Prop :=
  ∀ (dt : DType) (junk : Nat → Nat) (t : Tensor Nat) (d : Int) (k : Nat), t.WF → t.dims.length ≤ 16 →
    IsAxis t.dims.length d k → t.dims[k]? ≠ some 0 →
    ∃ r, t.argReduce dt junk (fun a b => decide (b < a)) [d] true = .ok r

/-- **C23 is false as stated.**  The kernels store `int32_t` indices in a buffer of the input's
element type.  For 1- and 2-byte types the store runs past the buffer.  For `f32` the index 1 is
read back as the float with bit pattern 1 (about 1.4e-45; 1.0 is `0x3F800000`).  For 8-byte types the
indices of two rows land in one element, and other elements keep what the allocator left there. -/
theorem C23_full_false : ¬ C23_full ∧
    (⟨[1, 9], Layout.fromShape [2]⟩ : Tensor Nat).argReduce .u8 (fun _ => 77) (fun a b => decide (b < a)) [0] true =
      .ub ∧
    (⟨[0x3F800000, 0x40000000], Layout.fromShape [2]⟩ : Tensor Nat).argReduce .f32 (fun _ => 77)
      (fun a b => decide (b < a)) [0] true = .ok ⟨[1], Layout.fromShape [1]⟩ ∧
    (⟨[1, 9, 2, 8], Layout.fromShape [2, 2]⟩ : Tensor Nat).argReduce .i64 (fun _ => 77)
      (fun a b => decide (b < a)) [1] false = .ok ⟨[2 ^ 32 + 1, 77], Layout.fromShape [2]⟩ := by
  have hc : (⟨[1, 9], Layout.fromShape [2]⟩ : Tensor Nat).argReduce .u8 (fun _ => 77)
    (fun a b => decide (b < a)) [0] true = .ub := by decide +kernel
  refine ⟨?_, hc, by decide +kernel, by decide +kernel⟩
  intro h
  obtain ⟨r, h⟩ := h .u8 (fun _ => 77) ⟨[1, 9], Layout.fromShape [2]⟩ 0 0 (fresh_wf_list _ _ rfl) (by decide)
    ⟨by decide, .inl rfl⟩ (by decide)
  rw [hc] at h
  cases h

/-- **C23, what holds**: for the 4-byte integer types, argmax/argmin along one existing non-empty
axis returns at every remaining index the first coordinate at which the best value is attained.
Missing: all other element types (false), rank above 16, several axes at once. -/
theorem C23_argmax_partial (junk : Nat → Nat) {t : Tensor Nat} {dt : DType} {d : Int} {k : Nat} {keep : Bool}
    {better : Nat → Nat → Bool} (hdt : dt = .i32 ∨ dt = .u32) (hbt : StrictWeak better) (ht : t.WF)
    (hr : t.dims.length ≤ 16) (hax : IsAxis t.dims.length d k) (hpos : 0 < t.dims.getD k 0)
    (hsz : t.dims.getD k 0 ≤ 2 ^ 31)
    (hz : keep = false → ∀ p, p ≠ k → t.dims[p]? ≠ some 0) :
    ∃ r, t.argReduce dt junk better [d] keep = .ok r ∧ r.WF ∧ r.dims = reduceShape [k] keep t.dims ∧
      ∀ idx, InRange idx (reduceShape [k] keep t.dims) →
        ∃ c j v, r.elem idx = some c ∧
          InRange j t.dims ∧ reduceIndex [k] keep j = idx ∧ t.elem j = some v ∧ j[k]? = some c ∧
          ∀ j' v', InRange j' t.dims → reduceIndex [k] keep j' = idx → t.elem j' = some v' →
            better v' v = false ∧ ∀ c', j'[k]? = some c' → c' < c → better v v' = true := by
  have hax' : NamesAxes t.dims.length [d] [k] := .inr ⟨by simp, .cons hax .nil⟩
  have hz' : keep = false → ∀ p, p ∉ [k] → t.dims[p]? ≠ some 0 :=
    fun e p hp => hz e p (by simpa using hp)
  have hhead : (reduceAxes t.dims.length [d]).headD 0 = k := by
    rw [reduceAxes_eq (by omega) hax']; rfl
  obtain ⟨zs, h1, h2, h3⟩ := reduceKernel_ok (K := [k]) (keep := keep) ht hr (argComb better k)
    (fun idx vs => ∃ js vals, Fibre [k] keep t.dims idx js ∧ js.map t.elem = vals.map some ∧
      vs = js.zip vals)
    (fun idx hi => by
      obtain ⟨js, vals, a, b, c⟩ := reduceVisits_ok ht (by simp) hax'.lt hi
      exact ⟨_, ⟨js, vals, a, b, rfl⟩, c⟩)
  have h4 : dt.sizeInBytes = 4 := by rcases hdt with rfl | rfl <;> rfl
  have key : ∀ idx, InRange idx (reduceShape [k] keep t.dims) →
      ∃ c j v, Tensor.elem ⟨zs, Layout.fromShape (reduceShape [k] keep t.dims)⟩ idx = some c ∧
          InRange j t.dims ∧ reduceIndex [k] keep j = idx ∧ t.elem j = some v ∧ j[k]? = some c ∧
          ∀ j' v', InRange j' t.dims → reduceIndex [k] keep j' = idx → t.elem j' = some v' →
            better v' v = false ∧ ∀ c', j'[k]? = some c' → c' < c → better v v' = true := by
    intro idx hi
    obtain ⟨_, ⟨js, vals, hf, hv, rfl⟩, he⟩ := h3 idx hi
    have hlen : js.length = vals.length := by
      have := congrArg List.length hv
      simpa using this
    have hkl : k < t.dims.length := hax.1
    -- coordinates along `k` are the positions in the list
    have hcoord : js.map (fun j => j.getD k 0) = List.range js.length := by
      rw [← hf.order]
      apply List.map_congr_left
      intro j _
      simp [rowMajor, numel]
    have hl : ((js.zip vals).map fun p => (p.1.getD k 0, p.2)).map Prod.fst = List.range js.length := by
      rw [List.map_map, ← hcoord]
      conv => rhs; rw [← List.map_fst_zip (l₁ := js) (l₂ := vals) (by omega), List.map_map]
      rfl
    have hpw : ((js.zip vals).map fun p => (p.1.getD k 0, p.2)).Pairwise (fun p q => p.1 < q.1) := by
      rw [← List.pairwise_map (f := Prod.fst) (R := fun a b => a < b), hl]
      exact List.pairwise_lt_range
    -- pairs of the list are positions with their values
    have hzip : ∀ j v, (j, v) ∈ js.zip vals ↔ j ∈ js ∧ t.elem j = some v := by
      intro j v
      have hnd := hf.nodup
      constructor
      · intro h
        obtain ⟨p, hp, e⟩ := List.mem_iff_getElem.mp h
        simp only [List.length_zip] at hp
        simp only [List.getElem_zip, Prod.mk.injEq] at e
        have hv' := congrArg (fun l => l[p]?) hv
        simp only [List.getElem?_map, List.getElem?_eq_getElem (show p < js.length by omega),
          List.getElem?_eq_getElem (show p < vals.length by omega), Option.map_some] at hv'
        rw [← e.1, ← e.2]
        exact ⟨List.getElem_mem _, Option.some.inj hv'⟩
      · rintro ⟨h1, h2⟩
        obtain ⟨p, hp, e⟩ := List.mem_iff_getElem.mp h1
        have hv' := congrArg (fun l => l[p]?) hv
        simp only [List.getElem?_map, List.getElem?_eq_getElem hp,
          List.getElem?_eq_getElem (show p < vals.length by omega), Option.map_some] at hv'
        have hv' := Option.some.inj hv'
        rw [e, h2] at hv'
        rw [List.mem_iff_getElem]
        refine ⟨p, by simp; omega, ?_⟩
        simp only [List.getElem_zip, e]
        rw [← Option.some.inj hv']
    have hne : js ≠ [] := by
      intro h0
      obtain ⟨b, hb⟩ : ∃ b, IsBase [k] keep t.dims idx b := ⟨_, reduceBase_eq (strides := [])
        (off := 0) (sz := 0) hi⟩
      have hf2 := fibre_of_base hb (by simp) hax'.lt
      have hmem := (hf2.mem (putAt [k] (unravel ([k].map fun k => t.dims.getD k 0) 0) b)).mp
        (List.mem_map.mpr ⟨0, by simpa [numel] using hpos, rfl⟩)
      have := (hf.mem _).mpr hmem
      rw [h0] at this; cases this
    obtain ⟨j0, js', rfl⟩ := List.exists_cons_of_ne_nil hne
    obtain ⟨v0, vals', rfl⟩ := List.exists_cons_of_ne_nil (l := vals) (by
      intro h; rw [h] at hlen; simp at hlen)
    simp only [List.zip_cons_cons, List.map_cons] at hpw
    obtain ⟨hpw1, hpw2⟩ := List.pairwise_cons.mp hpw
    obtain ⟨c, v, ha, hm, hall⟩ := argFold_spec hbt [(j0.getD k 0, v0)]
      ((js'.zip vals').map fun p => (p.1.getD k 0, p.2)) (j0.getD k 0) v0 (by simp)
      (by
        intro p hp
        rw [List.mem_singleton.mp hp]
        exact ⟨hbt.irrefl v0, fun h => absurd h (Nat.lt_irrefl _)⟩)
      (by
        intro p hp q hq
        rw [List.mem_singleton.mp hp]
        exact hpw1 q hq) hpw2
    have hlist : [(j0.getD k 0, v0)] ++ (js'.zip vals').map (fun p => (p.1.getD k 0, p.2)) =
        ((j0 :: js').zip (v0 :: vals')).map fun p => (p.1.getD k 0, p.2) := by simp
    rw [hlist] at hm hall
    obtain ⟨⟨j, v'⟩, hjm, hje⟩ := List.mem_map.mp hm
    simp only [Prod.mk.injEq] at hje
    obtain ⟨hjc, rfl⟩ := hje
    obtain ⟨hj1, hj2⟩ := (hzip j v').mp hjm
    obtain ⟨hj3, hj4⟩ := (hf.mem j).mp hj1
    have hjk : ∀ j : List Nat, InRange j t.dims → j[k]? = some (j.getD k 0) := by
      intro j hj
      rw [List.getD_eq_getElem?_getD, List.getElem?_eq_getElem (by rw [hj.length]; exact hkl)]
      rfl
    refine ⟨c, j, v', ?_, hj3, hj4, hj2, by rw [hjk j hj3, hjc], ?_⟩
    · rw [he]
      unfold argComb
      simp only [List.zip_cons_cons, List.map_cons, argFold]
      rw [ha]
    · intro j' w hj' hji hw
      obtain ⟨g1, g2⟩ := hall (j'.getD k 0, w)
        (List.mem_map.mpr ⟨(j', w), (hzip j' w).mpr ⟨(hf.mem j').mpr ⟨hj', hji⟩, hw⟩, rfl⟩)
      refine ⟨g1, fun c' hc' hlt => ?_⟩
      rw [hjk j' hj'] at hc'
      exact g2 (by rw [Option.some.inj hc']; exact hlt)
  have hsmall : ∀ x ∈ zs, x < 256 ^ 4 := by
    intro x hx
    obtain ⟨p, hp, e⟩ := List.mem_iff_getElem.mp hx
    have hi := unravel_inRange (dims := reduceShape [k] keep t.dims) (n := p) (by omega)
    obtain ⟨c, j, v, k1, k2, _, _, k3, _⟩ := key _ hi
    rw [Layout.fromShape, elem_rowMajor, rowMajor_unravel (by omega), Nat.zero_add,
      List.getElem?_eq_getElem hp, e] at k1
    obtain ⟨c2, k4, k5⟩ := inRange_get k2 (k := k) (d := t.dims.getD k 0) (by
      rw [List.getD_eq_getElem?_getD, List.getElem?_eq_getElem hax.1]; rfl)
    rw [k3] at k4
    have := Option.some.inj k1
    have := Option.some.inj k4
    omega
  refine ⟨⟨zs, Layout.fromShape (reduceShape [k] keep t.dims)⟩, ?_, fresh_wf h2.symm, rfl, key⟩
  unfold Tensor.argReduce
  rw [reduceWith_eq _ hr hax' hz', hhead, h1, Res.ok_bind, h4]
  rw [storeAs_same (by decide) zs hsmall]
  rfl

/-- C23 on a transposed 2×3 matrix of unsigned values with ties: along axis 0 the columns `[5, 7, 7]`
and `[9, 1, 9]`. -/
example :
    let t : Tensor Nat := ⟨[5, 7, 7, 9, 1, 9], ⟨[3, 2], [1, 3], 0⟩⟩
    t.argReduce .u32 (fun _ => 77) (fun a b => decide (b < a)) [0] false = .ok ⟨[1, 0], Layout.fromShape [2]⟩ := by
  decide +kernel

example : StrictWeak (fun a b : Nat => decide (b < a)) :=
  ⟨by simp, by simp; omega, by simp; omega⟩

end Hodu
