import Verif.Model.IndexRules
import Verif.Props.MoveGrad
import Verif.Props.MatmulGrad
import Verif.Props.Indexing
import Verif.Props.TopK
import Verif.Lemmas.Compose

/-!
# C82: the backward rules of slice, gather, index_select, topk and scatter

All of them move gradients with `scatter_add`, which runs the overwriting scatter (C31): they are right
exactly as long as no element is read twice.
-/

namespace Hodu
open Spec

variable {α M K : Type}

theorem isAxis_unique {n j j' : Nat} {v : Int} (h : IsAxis n v j) (h' : IsAxis n v j') : j = j' := by
  obtain ⟨h1, h2⟩ := h
  obtain ⟨h3, h4⟩ := h'
  omega

/-- Adding into zeros at positions that are all different. -/
theorem scatterBack_sums [AddCommMonoid M] (add max min : M → M → M) {g : Tensor M} {inDims : List Nat}
    {ix : Tensor Int} {k n : Nat} {F : List Nat → Nat} (hg : g.WF) (hr : inDims.length ≤ 32)
    (hn : inDims[k]? = some n) (hns : n < 2 ^ 31) (hix : ix.WF) (hsi : Spec.Fits g.dims ix.dims)
    (hst : FitsOff k g.dims inDims) (hv : ∀ v ∈ ix.storage, I32 v)
    (hF : ∀ p, InRange p g.dims → ∃ v, ix.elem p = some v ∧ IsAxis n v (F p))
    (hinj : ∀ p q, InRange p g.dims → InRange q g.dims → p.set k (F p) = q.set k (F q) → p = q) :
    ∃ r, scatterBack add max min 0 g inDims k ix = .ok r ∧ r.dims = inDims ∧
      SumsAlong g r fun p => p.set k (F p) := by
  have hk : k < inDims.length := by
    by_contra h
    rw [List.getElem?_eq_none (by omega)] at hn; cases hn
  obtain ⟨r, h1, h2, h3, h4⟩ := C31_scatter_partial (dim := (k : Int)) add max min (zeros_wf (0 : M) inDims)
    hr (isAxis_self hk) hn hns rfl rfl hix hg hsi hst hv
  refine ⟨r, by rw [scatterBack, C31_variants_overwrite]; exact h1, h2, h3, fun p hp => ?_, fun c hc => ?_⟩
  · obtain ⟨v, _, hj⟩ := hF p hp
    rw [h2]
    exact inRange_fits hp hst hn hj.1
  · rw [h2] at hc
    obtain ⟨hits, hh, hnil, hlast⟩ := h4 c hc
    have hmem : ∀ p, p ∈ hits ↔ InRange p g.dims ∧ p.set k (F p) = c := by
      intro p
      rw [hh.mem]
      constructor
      · rintro ⟨hp, v, j, hv1, hj, e⟩
        obtain ⟨v', hv2, hj'⟩ := hF p hp
        rw [hv1] at hv2; cases hv2
        rw [isAxis_unique hj hj'] at e
        exact ⟨hp, e⟩
      · rintro ⟨hp, e⟩
        obtain ⟨v', hv2, hj'⟩ := hF p hp
        exact ⟨hp, v', F p, hv2, hj', e⟩
    rcases List.eq_nil_or_concat hits with rfl | ⟨l, p, rfl⟩
    · refine ⟨[], [], List.nodup_nil, hmem, rfl, ?_⟩
      rw [hnil rfl]
      exact zeros_elem _ hc
    · have hp := (hmem p).mp (by simp)
      obtain ⟨x, hx⟩ := Option.isSome_iff_exists.mp (hg.2 p hp.1)
      refine ⟨[p], [x], by simp, fun q => ?_, by simp [hx], ?_⟩
      · rw [List.mem_singleton]
        constructor
        · rintro rfl; exact hp
        · rintro ⟨hq, e⟩; exact hinj q p hq hp.1 (by rw [e, hp.2])
      · rw [hlast p (by simp), hx]; simp

/-! ## gather -/

theorem scalarToUsize_eq {r k : Nat} {dim : Int} (h : IsAxis r dim k) (hd : 0 ≤ dim ∨ k = 0) :
    scalarToUsize dim = k := by
  obtain ⟨h1, h2⟩ := h
  unfold scalarToUsize
  omega

theorem fits_refl (a : List Nat) : Spec.Fits a a :=
  ⟨rfl, fun i x y hx hy => by rw [hx] at hy; cases hy; exact le_rfl⟩

/-- **C82, gather**: for a non-negative axis (or the first), a row-major index tensor with values in range
that reads no element twice, and an upstream gradient of any layout.
Missing: repeated indices (`C82_full_false`), negative axes (`C82_gather_negative_wrong`). -/
theorem C82_gather_partial [AddCommMonoid M] (add max min : M → M → M) {x y : Tensor α} {g : Tensor M}
    {ix : Tensor Int} {dim : Int} {k n : Nat} {F : List Nat → Nat} (zero : α) (hx : x.WF)
    (hr : x.dims.length ≤ 32) (hk : IsAxis x.dims.length dim k) (hd : 0 ≤ dim ∨ k = 0)
    (hn : x.dims[k]? = some n) (hns : n < 2 ^ 31) (hix : ix.WF) (hfit : FitsOff k ix.dims x.dims)
    (hc : ix.layout.strides = Layout.computeStrides ix.dims) (ho : ix.layout.offset = 0)
    (hv : ∀ v ∈ ix.storage, I32 v) (hy : x.gather zero dim ix = .ok y) (hg : g.WF) (hgd : g.dims = y.dims)
    (hF : ∀ p, InRange p ix.dims → ∃ v, ix.elem p = some v ∧ IsAxis n v (F p))
    (hinj : ∀ p q, InRange p ix.dims → InRange q ix.dims → p.set k (F p) = q.set k (F q) → p = q) :
    ∃ r, gatherVjp add max min 0 g x.dims dim ix = .ok r ∧ ViewGrad x y g r fun p => p.set k (F p) := by
  obtain ⟨y', h1, h2, h3, h4⟩ := C30_gather_partial zero hx (by omega) hk hn hns hix hfit hc ho hv
  rw [hy] at h1; cases h1
  rw [h2] at hgd
  obtain ⟨r, r1, r2, r3⟩ := scatterBack_sums add max min (F := F) hg hr hn hns hix (by rw [hgd]; exact fits_refl _)
    (by rw [hgd]; exact hfit) hv (by rw [hgd]; exact hF) (by rw [hgd]; exact hinj)
  refine ⟨r, by rw [gatherVjp, scalarToUsize_eq hk hd, r1], fun p hp => ?_, r2, r3⟩
  rw [h2] at hp
  obtain ⟨v, hv1, hj⟩ := hF p hp
  exact ⟨inRange_fits hp hfit hn hj.1, (h4 p v hp hv1).1 _ hj⟩

/-! ## index_select and slice: one-dimensional index tensors on axis 0 -/

/-- The index tensor the scatter kernel sees when it is handed a vector of indices for a source of rank
`r`: the missing strides are 0. -/
def rowIndex (is : List Int) (dims : List Nat) : Tensor Int :=
  ⟨is, ⟨dims, 1 :: List.replicate (dims.length - 1) 0, 0⟩⟩

theorem rowIndex_elem {is : List Int} {dims p : List Nat} (hp : InRange p dims) (hne : dims ≠ []) :
    (rowIndex is dims).elem p = is[p.getD 0 0]? := by
  match dims, p, hp with
  | d :: ds, i :: is', _ =>
    have : ∀ (l : List Nat) m, dot l (List.replicate m 0) = 0 := by
      intro l m
      induction l generalizing m with
      | nil => cases m <;> rfl
      | cons a l ih => cases m with
        | zero => rfl
        | succ m => rw [List.replicate_succ, dot, ih]; simp
    simp [rowIndex, Tensor.elem, dot, this]

theorem scatter_rowIndex {t src : Tensor α} {ix : Tensor Int} (add max min : α → α → α) (op : ScatterOp)
    (dim : Int) (hs : ix.layout.strides = [1]) (ho : ix.layout.offset = 0) :
    t.scatterWith add max min op dim ix src =
      t.scatterWith add max min op dim (rowIndex ix.storage src.dims) src := by
  have e : padTo 0 [1] t.layout.ndim = padTo 0 (1 :: List.replicate (src.dims.length - 1) 0) t.layout.ndim := by
    unfold padTo
    apply List.map_congr_left
    intro i hi
    match i with
    | 0 => rfl
    | i + 1 => simp [List.getElem?_replicate]; split <;> rfl
  unfold Tensor.scatterWith scatterMetadata
  simp only [rowIndex, hs, ho, e]

/-- The scatter of rows. -/
theorem scatterRows_sums [AddCommMonoid M] (add max min : M → M → M) {g : Tensor M} {inDims : List Nat}
    {ix : Tensor Int} {n m : Nat} {F : Nat → Nat} (hg : g.WF) (hr : inDims.length ≤ 32)
    (hn : inDims[0]? = some n) (hns : n < 2 ^ 31) (hm : m ≤ ix.storage.length)
    (hs : ix.layout.strides = [1]) (ho : ix.layout.offset = 0)
    (hgd : g.dims = inDims.set 0 m) (hv : ∀ v ∈ ix.storage, I32 v)
    (hF : ∀ j, j < m → ∃ v, ix.storage[j]? = some v ∧ IsAxis n v (F j))
    (hinj : ∀ i j, i < m → j < m → F i = F j → i = j) :
    ∃ r, scatterBack add max min 0 g inDims 0 ix = .ok r ∧ r.dims = inDims ∧
      SumsAlong g r fun p => p.set 0 (F (p.getD 0 0)) := by
  match inDims, hn with
  | d :: ds, hn =>
    simp only [List.set_cons_zero] at hgd
    have hsplit : ∀ p, InRange p g.dims → ∃ i l, p = i :: l ∧ i < m ∧ InRange l ds := by
      intro p hp
      rw [hgd] at hp
      match p, hp with
      | i :: l, hp => exact ⟨i, l, rfl, hp.1, hp.2⟩
    have hel : ∀ p, InRange p g.dims → (rowIndex ix.storage g.dims).elem p = ix.storage[p.getD 0 0]? :=
      fun p hp => rowIndex_elem hp (by rw [hgd]; simp)
    rw [scatterBack, scatter_rowIndex add max min .add _ hs ho]
    refine scatterBack_sums add max min (k := 0) (F := fun p => F (p.getD 0 0)) hg hr hn hns
      ⟨by rw [hgd]; simp [rowIndex, Tensor.dims], fun p hp => ?_⟩ (fits_refl _) ⟨by rw [hgd]; rfl, ?_⟩ hv ?_ ?_
    · rw [hel p hp]
      obtain ⟨i, l, rfl, hi, _⟩ := hsplit p hp
      simp only [List.getD_cons_zero]
      rw [List.getElem?_eq_getElem (by omega)]; rfl
    · intro i x y hi hx hy
      rw [hgd] at hx
      match i, hi with
      | i + 1, _ =>
        simp only [List.getElem?_cons_succ] at hx hy
        rw [hx] at hy; cases hy; exact le_rfl
    · intro p hp
      rw [hel p hp]
      obtain ⟨i, l, rfl, hi, _⟩ := hsplit p hp
      exact hF i hi
    · intro p q hp hq e
      obtain ⟨i, l, rfl, hi, _⟩ := hsplit p hp
      obtain ⟨i', l', rfl, hi', _⟩ := hsplit q hq
      simp only [List.getD_cons_zero, List.set_cons_zero, List.cons.injEq] at e
      rw [hinj i i' hi hi' e.1, e.2]

/-- **C82, index_select** on the first axis (written `0` or negative), with a row-major vector of indices
in range that are all different; upstream gradient of any layout.
Missing: other axes (`C82_index_select_axis_wrong`), repeated indices. -/
theorem C82_index_select_partial [AddCommMonoid M] (add max min : M → M → M) {x y : Tensor α} {g : Tensor M}
    {ix : Tensor Int} {dim : Int} {n m : Nat} {F : Nat → Nat} (zero : α) (hx : x.WF)
    (hr : x.dims.length ≤ 32) (hk : IsAxis x.dims.length dim 0)
    (hn : x.dims[0]? = some n) (hns : n < 2 ^ 31) (hix : ix.WF) (hm : ix.dims = [m])
    (hc : ix.layout.strides = [1]) (ho : ix.layout.offset = 0)
    (hv : ∀ v ∈ ix.storage, I32 v) (hy : x.indexSelect zero dim ix = .ok y) (hg : g.WF) (hgd : g.dims = y.dims)
    (hF : ∀ j, j < m → ∃ v, ix.elem [j] = some v ∧ IsAxis n v (F j))
    (hinj : ∀ i j, i < m → j < m → F i = F j → i = j) :
    ∃ r, indexSelectVjp add max min 0 g x.dims dim ix = .ok r ∧
      ViewGrad x y g r fun p => p.set 0 (F (p.getD 0 0)) := by
  have hel : ∀ j, ix.elem [j] = ix.storage[j]? := by
    intro j; simp [Tensor.elem, hc, ho, dot]
  have hml : m ≤ ix.storage.length := by
    by_contra h
    have := hix.2 [ix.storage.length] (by rw [hm]; exact ⟨by omega, trivial⟩)
    rw [hel] at this; simp at this
  obtain ⟨y', h1, h2, h3, h4⟩ := C28_index_select_partial zero hx (by omega) hk hn hns hix
    (by rw [hc, hm]; rfl) ho hv
  rw [hy] at h1; cases h1
  have hnm : numel ix.dims = m := by rw [hm]; simp [numel]
  rw [hnm] at h2
  obtain ⟨r, r1, r2, r3⟩ := scatterRows_sums add max min (F := F) hg hr hn hns hml hc ho
    (by rw [hgd, h2]) hv (by intro j hj; rw [← hel]; exact hF j hj) hinj
  refine ⟨r, by rw [indexSelectVjp, scalarToUsize_eq hk (.inr rfl), r1], fun p hp => ?_, r2, r3⟩
  have hp' := hp
  rw [h2] at hp'
  match hxd : x.dims, hn, p, hp' with
  | d :: ds, hn, i :: l, hp' =>
    simp only [List.getElem?_cons_zero, Option.some.injEq] at hn
    obtain ⟨v, hv1, hj⟩ := hF i hp'.1
    refine ⟨⟨by rw [hn]; exact hj.1, hp'.2⟩, ?_⟩
    exact (h4 (i :: l) hp [i] v (by rw [hm]; exact ⟨hp'.1, trivial⟩) (by rw [hm]; simp [rowMajor, numel]) hv1).1
      _ hj

theorem sliceIndices_get {n stop step : Int} (hs : 0 < step) (fuel : Nat) (i : Int)
    (hf : min stop n - i ≤ fuel) (j : Nat) :
    (sliceIndices n stop step fuel i)[j]? =
      if i + j * step < stop ∧ i + j * step < n then some (i + j * step) else none := by
  induction fuel generalizing i j with
  | zero =>
    have : 0 ≤ (j : Int) * step := by positivity
    rw [sliceIndices, if_neg (by omega)]; rfl
  | succ fuel ih =>
    rw [sliceIndices, if_pos hs]
    by_cases hc : i < stop ∧ i < n
    · rw [if_pos hc]
      cases j with
      | zero => simp [hc]
      | succ j =>
        rw [List.getElem?_cons_succ, ih _ (by omega)]
        have : i + step + j * step = i + (j + 1 : Nat) * step := by push_cast; ring
        rw [this]
    · rw [if_neg hc]
      have : 0 ≤ (j : Int) * step := by positivity
      rw [if_neg (by omega)]; rfl

/-- **C82, slice** along axis 0 with a positive step and a start that is not before the beginning, for
every end and every layout of the upstream gradient.
Missing: negative axes (`C82_slice_negative_panics`), other axes (`C82_slice_axis_wrong`), negative steps
(wrong in the forward direction, C04), starts before the beginning (`C82_slice_start_wrong`). -/
theorem C82_slice_partial [AddCommMonoid M] (add max min : M → M → M) {x y : Tensor α} {g : Tensor M}
    {start step : Int} {stop : Option Int} {n : Nat} (hx : x.WF) (hr : x.dims.length ≤ 32)
    (hn : x.dims[0]? = some n) (hns : n < 2 ^ 31) (hstart : I32 start) (hstop : ∀ e, stop = some e → I32 e)
    (hstep : 0 < step) (hov : (n : Int) + step < 2 ^ 31) (hlow : -(n : Int) ≤ start)
    (hy : x.slice 0 start stop step = .ok y) (hg : g.WF) (hgd : g.dims = y.dims) :
    ∃ r, sliceVjp add max min 0 g x.dims 0 start stop step = .ok r ∧
      ViewGrad x y g r fun p => p.set 0 (sliceFrom n start step + p.getD 0 0 * step).toNat := by
  have hk : 0 < x.dims.length := by
    by_contra h
    rw [List.getElem?_eq_none (by omega)] at hn; cases hn
  have hgn : x.dims.getD 0 0 = n := by rw [List.getD_eq_getElem?_getD, hn]; rfl
  obtain ⟨c1, c2⟩ := C04_slice_partial hx (dim := 0) (k := 0) (stop := stop) (by omega) ⟨hk, .inl rfl⟩
    (by rw [hgn]; exact hns) hstart hstop hstep (by rw [hgn]; exact hov)
  rw [hgn] at c1 c2
  by_cases hsel : sliceSelects n start stop step 0
  swap
  · rw [c1 hsel] at hy; cases hy
  obtain ⟨y', m, e1, e2, e3, e4, e5⟩ := c2 hsel
  rw [hy] at e1; cases e1
  -- the index list of the rule
  set startIdx : Int := if start < 0 then (n : Int) + start else start with hsi
  set endIdx : Int := sliceEndIdx n stop step with hei
  have h0 : 0 ≤ startIdx := by rw [hsi]; split <;> omega
  have hfrom : ∀ j : Nat, sliceSelects n start stop step j ↔
      startIdx + j * step < endIdx ∧ startIdx + j * step < n := by
    intro j
    have : 0 ≤ (j : Int) * step := by positivity
    have hto : sliceTo n stop step = Max.max 0 (Min.min endIdx n) := by
      cases stop with
      | none => simp [hei, sliceEndIdx, sliceTo, hstep]
      | some e => simp only [hei, sliceEndIdx, sliceTo, hstep, if_true]
    simp only [sliceSelects, sliceFrom, hstep, if_true, hto, ← hsi]
    omega
  have h00 := (hfrom 0).mp hsel
  have hfr : sliceFrom n start step = startIdx := by
    simp only [sliceFrom, hstep, if_true, ← hsi]; simp at h00; omega
  set is := sliceIndices n endIdx step (startIdx.natAbs + n + 1) startIdx with his
  have hget : ∀ j : Nat, is[j]? = if startIdx + j * step < endIdx ∧ startIdx + j * step < n then
      some (startIdx + j * step) else none :=
    fun j => sliceIndices_get hstep _ _ (by omega) j
  have hlen : is.length = m := by
    apply Nat.le_antisymm
    · by_contra h
      have h1 := hget m
      rw [List.getElem?_eq_getElem (by omega)] at h1
      by_cases hc : startIdx + m * step < endIdx ∧ startIdx + m * step < n
      · have := (e4 m).mpr ((hfrom m).mpr hc); omega
      · rw [if_neg hc] at h1; cases h1
    · by_contra h
      have h1 := hget is.length
      rw [List.getElem?_eq_none (le_refl _), if_pos ((hfrom _).mp ((e4 is.length).mp (by omega)))] at h1
      cases h1
  have hlt : ∀ j, j < m → startIdx + j * step < n := fun j hj => ((hfrom j).mp ((e4 j).mp hj)).2
  have hgm : g.dims = x.dims.set 0 m := by rw [hgd, e3]
  obtain ⟨r, r1, r2, r3⟩ := scatterRows_sums add max min (ix := ⟨is, Layout.fromShape [is.length]⟩)
    (F := fun j => (startIdx + j * step).toNat) (m := m) hg hr hn hns
    (by simp [hlen]) rfl rfl hgm (by
      intro v hv
      obtain ⟨j, hj, rfl⟩ := List.mem_iff_getElem.mp hv
      have h1 := hget j
      rw [List.getElem?_eq_getElem hj] at h1
      have hj : j < is.length := hj
      have := hlt j (by omega)
      have : 0 ≤ (j : Int) * step := by positivity
      split at h1
      · simp only [Option.some.injEq] at h1
        rw [h1]; unfold I32; omega
      · cases h1) (by
      intro j hj
      refine ⟨startIdx + j * step, ?_, ?_⟩
      · rw [hget, if_pos ((hfrom j).mp ((e4 j).mp hj))]
      · have := hlt j hj
        have : 0 ≤ (j : Int) * step := by positivity
        exact ⟨by omega, .inl (by omega)⟩) (by
      intro i j hi hj e
      have h1 : 0 ≤ (i : Int) * step := by positivity
      have h2 : 0 ≤ (j : Int) * step := by positivity
      have h3 := hlt i hi
      have h4 := hlt j hj
      have : (i : Int) * step = j * step := by omega
      have := Int.eq_of_mul_eq_mul_right (by omega) this
      omega)
  refine ⟨r, ?_, fun p hp => ?_, r2, ?_⟩
  · unfold sliceVjp
    rw [if_neg (by omega)]
    simp only [Int.toNat_zero]
    rw [readR, hn]
    simp only [Res.ok_bind, ← hsi, ← hei, ← his]
    rw [if_neg (by rw [hgm]; simp), readR, hgm, List.getElem?_set_self hk]
    simp only [Res.ok_bind]
    rw [if_neg (by omega)]
    exact r1
  · refine ⟨?_, by rw [e5 p hp]⟩
    rw [e3] at hp
    match hxd : x.dims, hn, p, hp with
    | d :: ds, hn, i :: l, hp =>
      simp only [List.getElem?_cons_zero, Option.some.injEq] at hn
      have := hlt i hp.1
      rw [hfr]
      simp only [List.getD_cons_zero, List.set_cons_zero]
      exact ⟨by omega, hp.2⟩
  · rw [hfr]; exact r3

/-! ## topk -/

/-- **C82, topk** on the last axis of a tensor with row-major strides (where the forward direction is
right, C24): each upstream entry goes to the element it was taken from. -/
theorem C82_topk_partial [AddCommMonoid M] [LinearOrder K] (add max min : M → M → M)
    {qsort : List (K × Nat) → List (K × Nat)} {key : α → K} {x : Tensor α} {ds : List Nat} {n k : Nat}
    {dim : Int} {largest : Bool} {g : Tensor M} (hq : IsSort (topkBetter largest) qsort) (hx : x.WF)
    (hd : x.dims = ds ++ [n]) (hr : x.dims.length ≤ 32) (hk : IsAxis x.dims.length dim ds.length)
    (hc : x.layout.strides = Layout.computeStrides x.dims) (hkn : k ≤ n) (hns : n < 2 ^ 31) (sorted : Bool)
    (hg : g.WF) (hgd : g.dims = ds ++ [k]) :
    ∃ v i r, x.topk qsort key k dim largest sorted = .ok (v, i) ∧
      topkVjp add max min 0 g x.dims dim i = .ok r ∧
      ViewGrad x v g r fun p => p.set ds.length ((i.elem p).getD 0) := by
  obtain ⟨v, i, h1, h2, h3, h4, h5, h6⟩ := C24_topk_partial (key := key) hq hx hd (by omega) hk hc hkn sorted
  have hsplit : ∀ {m : Nat} p, InRange p (ds ++ [m]) → ∃ q c, p = q ++ [c] ∧ InRange q ds ∧ c < m := by
    intro m p hp
    have hl := hp.length
    simp only [List.length_append, List.length_cons, List.length_nil] at hl
    have e : p = p.take ds.length ++ [p.getD ds.length 0] := by
      conv_lhs => rw [← List.take_append_drop ds.length p]
      congr 1
      apply List.ext_getElem (by simp; omega)
      intro a ha hb
      simp only [List.length_cons, List.length_nil] at hb
      obtain rfl : a = 0 := by omega
      have : ds.length < p.length := by omega
      simp [List.getD_eq_getElem?_getD, this]
    rw [e, inRange_append (by simp; omega)] at hp
    exact ⟨_, _, e, hp.1, hp.2.1⟩
  have hset : ∀ q (c a : Nat), InRange q ds → (q ++ [c]).set ds.length a = q ++ [a] := by
    intro q c a hq
    rw [List.set_append_right _ _ (by rw [hq.length]), hq.length]; simp
  have hrow : ∀ q, InRange q ds → ∃ is : List Nat, is.length = k ∧ is.Nodup ∧ ∀ c, c < k → ∃ a,
      is[c]? = some a ∧ i.elem (q ++ [c]) = some a ∧ a < n ∧ v.elem (q ++ [c]) = x.elem (q ++ [a]) := by
    intro q hq
    obtain ⟨xs, vals, is, x1, x2, x3, x4, _⟩ := h6 q hq
    refine ⟨is, x4.length, x4.distinct, fun c hc => ?_⟩
    have hcl : c < is.length := by rw [x4.length]; exact hc
    refine ⟨is[c], List.getElem?_eq_getElem hcl, ?_, ?_, ?_⟩
    · rw [← (x3 c hc).2, List.getElem?_eq_getElem hcl]
    · rw [← x1]; exact x4.inside _ (List.getElem_mem hcl)
    · have ha : is[c] < n := by rw [← x1]; exact x4.inside _ (List.getElem_mem hcl)
      have e := congrArg (fun l => l[c]?) x4.values
      simp only [List.getElem?_map, List.getElem?_eq_getElem hcl, Option.map_some] at e
      rw [← (x3 c hc).1, ← x2 _ ha]
      cases hvc : vals[c]? with
      | none => rw [hvc] at e; cases e
      | some w => rw [hvc] at e; simpa using e.symm
  have hlast : x.dims[ds.length]? = some n := by rw [hd]; simp
  have hie : ∀ p, (⟨i.storage.map castI32, i.layout⟩ : Tensor Int).elem p = (i.elem p).map castI32 := by
    intro p; simp [Tensor.elem]
  have hstI : ∀ u ∈ i.storage.map castI32, I32 u := by
    intro u hu
    obtain ⟨w, _, rfl⟩ := List.mem_map.mp hu
    unfold I32 castI32; omega
  obtain ⟨r, r1, r2, r3⟩ := scatterBack_sums add max min (ix := ⟨i.storage.map castI32, i.layout⟩)
    (F := fun p => (i.elem p).getD 0) hg hr hlast hns ⟨h3.1, fun p hp => by
      rw [hie]; simpa using h3.2 p hp⟩ (by
      rw [hgd]
      show Spec.Fits _ i.dims
      rw [h5]; exact fits_refl _) (by
      rw [hgd, hd]
      refine ⟨by simp, fun a u w ha hu hw => ?_⟩
      by_cases hal : a < ds.length
      · rw [List.getElem?_append_left hal] at hu hw
        rw [hu] at hw; cases hw; exact le_rfl
      · rw [List.getElem?_eq_none (by simp; omega)] at hu; cases hu) hstI (by
      intro p hp
      rw [hgd] at hp
      obtain ⟨q, c, rfl, hq, hc⟩ := hsplit p hp
      obtain ⟨is, _, _, hi⟩ := hrow q hq
      obtain ⟨a, _, a2, a3, _⟩ := hi c hc
      exact ⟨(a : Int), by rw [hie, a2, Option.map_some, castI32_small (by omega)], by rw [a2]; exact ⟨a3, .inl rfl⟩⟩) (by
      intro p p' hp hp' e
      rw [hgd] at hp hp'
      obtain ⟨q, c, rfl, hq, hc⟩ := hsplit p hp
      obtain ⟨q', c', rfl, hq', hc'⟩ := hsplit p' hp'
      rw [hset _ _ _ hq, hset _ _ _ hq'] at e
      have hql : q.length = q'.length := by rw [hq.length, hq'.length]
      obtain ⟨rfl, e⟩ := List.append_inj e hql
      obtain ⟨is, il, ind, hi⟩ := hrow q hq
      obtain ⟨a, a1, a2, _⟩ := hi c hc
      obtain ⟨b, b1, b2, _⟩ := hi c' hc'
      rw [a2, b2] at e
      simp only [Option.getD_some, List.cons.injEq, and_true] at e
      subst e
      have : c = c' := by
        rw [List.getElem?_eq_some_iff] at a1 b1
        obtain ⟨ha, ha'⟩ := a1
        obtain ⟨hb, hb'⟩ := b1
        exact (List.Nodup.getElem_inj_iff ind).mp (by rw [ha', hb'])
      rw [this])
  refine ⟨v, i, r, h1, ?_, fun p hp => ?_, r2, r3⟩
  · rw [topkVjp, axisUsize_eq hk (by omega)]; exact r1
  · rw [h4] at hp
    obtain ⟨q, c, rfl, hq, hc⟩ := hsplit p hp
    obtain ⟨is, _, _, hi⟩ := hrow q hq
    obtain ⟨a, _, a2, a3, a4⟩ := hi c hc
    rw [a2, hset _ _ _ hq, Option.getD_some, hd]
    exact ⟨(inRange_append hq.length).mpr ⟨hq, a3, trivial⟩, a4⟩

/-! ## scatter -/

theorem ones_wf (one : α) (d : List Nat) : (Tensor.ones one d).WF :=
  fresh_wf (by simp [shapeSize_eq])

theorem ones_elem (one : α) {d idx : List Nat} (h : InRange idx d) :
    (Tensor.ones one d).elem idx = some one := zeros_elem one h

theorem scatterWith_layout {t r src : Tensor α} {ix : Tensor Int} {add max min : α → α → α} {op : ScatterOp}
    {dim : Int} (h : t.scatterWith add max min op dim ix src = .ok r) : r.layout = t.layout := by
  unfold Tensor.scatterWith at h
  simp only at h
  split at h
  · cases h
  · cases hk : scatterKernel ((scatterDispatch op).upd add max min) t.storage ix.storage src.storage
      (scatterMetadata t.layout ix.layout src.layout (axisUsize t.dims.length dim)) t.storage with
    | ok s => rw [hk, Res.ok_bind] at h; cases h; rfl
    | _ => rw [hk] at h; cases h

theorem sum_filter [AddCommMonoid M] (l : List β) (H : β → Bool) (f : β → M) :
    (l.map fun c => if H c then f c else 0).sum = ((l.filter H).map f).sum := by
  induction l with
  | nil => rfl
  | cons a l ih =>
    rw [List.map_cons, List.sum_cons, ih, List.filter_cons]
    cases H a <;> simp

theorem sum_add [AddCommMonoid M] (l : List β) (f h : β → M) :
    (l.map fun c => f c + h c).sum = (l.map f).sum + (l.map h).sum := by
  induction l with
  | nil => simp
  | cons a l ih => rw [List.map_cons, List.sum_cons, ih, List.map_cons, List.sum_cons, List.map_cons,
      List.sum_cons]; exact add_add_add_comm _ _ _ _

/-- The overwriting scatter at positions that are all different. -/
theorem scatter_vals {x src : Tensor α} {ix : Tensor Int} {dim : Int} {k n : Nat} {F : List Nat → Nat}
    (add max min : α → α → α) (hx : x.WF) (hr : x.dims.length ≤ 32) (hk : IsAxis x.dims.length dim k)
    (hn : x.dims[k]? = some n) (hns : n < 2 ^ 31)
    (hc : x.layout.strides = Layout.computeStrides x.dims) (ho : x.layout.offset = 0) (hix : ix.WF)
    (hs : src.WF) (hsd : src.dims = ix.dims) (hfit : FitsOff k ix.dims x.dims)
    (hv : ∀ v ∈ ix.storage, I32 v)
    (hF : ∀ p, InRange p ix.dims → ∃ v, ix.elem p = some v ∧ IsAxis n v (F p))
    (hinj : ∀ p q, InRange p ix.dims → InRange q ix.dims → p.set k (F p) = q.set k (F q) → p = q) :
    ∃ y, x.scatterWith add max min .scatter dim ix src = .ok y ∧ y.WF ∧ y.dims = x.dims ∧
      (∀ p, InRange p ix.dims → InRange (p.set k (F p)) x.dims ∧ y.elem (p.set k (F p)) = src.elem p) ∧
      ∀ c, InRange c x.dims → (∀ p, InRange p ix.dims → p.set k (F p) ≠ c) → y.elem c = x.elem c := by
  obtain ⟨y, h1, h2, h3, h4⟩ := C31_scatter_partial add max min hx hr hk hn hns hc ho hix hs
    (by rw [hsd]; exact fits_refl _) (by rw [hsd]; exact hfit) hv
  have hmem : ∀ {c hits}, Hits n k src.dims ix c hits → ∀ p, p ∈ hits ↔ InRange p ix.dims ∧ p.set k (F p) = c := by
    intro c hits hh p
    rw [hh.mem, hsd]
    constructor
    · rintro ⟨hp, v, j, hv1, hj, e⟩
      obtain ⟨v', hv2, hj'⟩ := hF p hp
      rw [hv1] at hv2; cases hv2
      rw [isAxis_unique hj hj'] at e
      exact ⟨hp, e⟩
    · rintro ⟨hp, e⟩
      obtain ⟨v', hv2, hj'⟩ := hF p hp
      exact ⟨hp, v', F p, hv2, hj', e⟩
  refine ⟨y, h1, h3, h2, fun p hp => ?_, fun c hcr hno => ?_⟩
  · obtain ⟨v, _, hj⟩ := hF p hp
    have hin := inRange_fits hp hfit hn hj.1
    refine ⟨hin, ?_⟩
    obtain ⟨hits, hh, _, hlast⟩ := h4 _ hin
    have hpm := (hmem hh p).mpr ⟨hp, rfl⟩
    rcases List.eq_nil_or_concat hits with rfl | ⟨l, q, rfl⟩
    · cases hpm
    · have hq := (hmem hh q).mp (by simp)
      rw [hlast q (by simp), hinj q p hq.1 hp hq.2]
  · obtain ⟨hits, hh, hnil, _⟩ := h4 c hcr
    apply hnil
    rw [List.eq_nil_iff_forall_not_mem]
    intro p hp
    obtain ⟨h5, h6⟩ := (hmem hh p).mp hp
    exact hno p h5 h6

/-- **C82, scatter**: for a non-negative axis (or the first) and a row-major index tensor with values in
range that writes no cell twice, the two gradients together are adjoint to the operation.
Missing: repeated indices (`C82_scatter_repeated_wrong`), dimensions of size 0, negative axes, upstream
gradients that are shifted contiguous views (wrong in the product, C10). -/
theorem C82_scatter_partial [CommSemiring M] (cores : Nat) (add max min : M → M → M) (fill : M)
    {g : Tensor M} {inDims : List Nat} {ix : Tensor Int} {dim : Int} {k n : Nat} {F : List Nat → Nat}
    (hr : inDims.length ≤ 32) (hk : IsAxis inDims.length dim k) (hd : 0 ≤ dim ∨ k = 0)
    (hn : inDims[k]? = some n) (hns : n < 2 ^ 31) (hpos : ∀ d ∈ inDims, 0 < d) (hix : ix.WF)
    (hfit : FitsOff k ix.dims inDims) (hc : ix.layout.strides = Layout.computeStrides ix.dims)
    (ho : ix.layout.offset = 0) (hv : ∀ v ∈ ix.storage, I32 v)
    (hF : ∀ p, InRange p ix.dims → ∃ v, ix.elem p = some v ∧ IsAxis n v (F p))
    (hinj : ∀ p q, InRange p ix.dims → InRange q ix.dims → p.set k (F p) = q.set k (F q) → p = q)
    (hg : g.WF) (hgd : g.dims = inDims) (hgo : g.layout.isContiguous = false ∨ g.layout.offset = 0) :
    ∃ gx gs, scatterVjp cores add max min (· * ·) 0 1 fill g inDims dim ix = .ok (gx, gs) ∧
      gx.dims = inDims ∧ gs.dims = ix.dims ∧
      ∀ x src : Tensor M, x.WF → x.dims = inDims → x.layout.strides = Layout.computeStrides x.dims →
        x.layout.offset = 0 → src.WF → src.dims = ix.dims →
        ∃ y, x.scatterWith add max min .scatter dim ix src = .ok y ∧ y.dims = g.dims ∧
          inner g y = inner gx x + inner gs src := by
  have hkl := hk.1
  have hsu := scalarToUsize_eq hk hd
  obtain ⟨mask, m1, m2, m3, m4, m5⟩ := scatter_vals (x := Tensor.ones (1 : M) inDims) (F := F)
    (src := Tensor.zeros (0 : M) ix.dims) (dim := (k : Int)) add max min (ones_wf _ _) hr (isAxis_self hkl) hn hns
    rfl rfl hix (zeros_wf _ _) rfl hfit hv hF hinj
  have m3 : mask.dims = inDims := m3
  let H : List Nat → Bool := fun c => (indices ix.dims).any fun p => decide (p.set k (F p) = c)
  have hH : ∀ c, H c = true ↔ ∃ p, InRange p ix.dims ∧ p.set k (F p) = c := by
    intro c
    simp only [H, List.any_eq_true, decide_eq_true_eq, mem_indices]
  have hmask : Val mask inDims fun c => if H c then 0 else 1 := by
    refine ⟨m2, m3, .inr ?_, fun c hcr => ?_⟩
    · rw [scatterWith_layout m1]; rfl
    · by_cases hh : H c = true
      · obtain ⟨p, hp, rfl⟩ := (hH c).mp hh
        rw [(m4 p hp).2, zeros_elem _ hp, if_pos hh]
      · rw [m5 c hcr, ones_elem _ hcr, if_neg hh]
        intro p hp e
        exact hh ((hH c).mpr ⟨p, hp, e⟩)
  have hgv : Val g inDims (at0 g) := ⟨hg, hgd, hgo, fun c hcr => elem_at0 hg (by rw [hgd]; exact hcr)⟩
  obtain ⟨gx, g1, g2⟩ := hgv.binary_same hmask hpos cores (· * ·) fill
  obtain ⟨gs, s1, s2, s3, s4⟩ := C30_gather_partial (t := g) (dim := (k : Int)) (0 : M) hg (by rw [hgd]; omega)
    (by rw [hgd]; exact isAxis_self hkl) (by rw [hgd]; exact hn) hns hix (by rw [hgd]; exact hfit) hc ho hv
  refine ⟨gx, gs, ?_, g2.dims, s2, fun x src hx hxd hxs hxo hs hsd => ?_⟩
  · rw [scatterVjp, hsu, m1, Res.ok_bind, g1, Res.ok_bind, s1, Res.ok_bind]
  · obtain ⟨y, y1, y2, y3, y4, y5⟩ := scatter_vals (x := x) (src := src) (dim := dim) (F := F) add max min hx
      (by rw [hxd]; exact hr) (by rw [hxd]; exact hk) (by rw [hxd]; exact hn) hns hxs hxo hix hs hsd
      (by rw [hxd]; exact hfit) hv hF hinj
    refine ⟨y, y1, by rw [y3, hxd, hgd], ?_⟩
    have e1 : inner g y = ((indices inDims).map fun c => at0 gx c * at0 x c +
        if H c then at0 g c * at0 y c else 0).sum := by
      unfold inner sumOver
      rw [hgd]
      congr 1
      apply List.map_congr_left
      intro c hcm
      have hcr := mem_indices.mp hcm
      have : at0 gx c = at0 g c * if H c then 0 else 1 := by rw [at0, g2.vals c hcr]; rfl
      rw [this]
      by_cases hh : H c = true
      · simp [hh]
      · rw [if_neg hh, if_neg hh, mul_one, add_zero, at0, at0, ← y5 c (by rw [hxd]; exact hcr)]
        intro p hp e
        exact hh ((hH c).mpr ⟨p, hp, e⟩)
    rw [e1, sum_add]
    congr 1
    · unfold inner sumOver
      rw [g2.dims]
    · rw [sum_filter]
      have hperm : ((indices inDims).filter H).Perm ((indices ix.dims).map fun p => p.set k (F p)) := by
        rw [List.perm_ext_iff_of_nodup ((indices_nodup _).filter _)
          ((indices_nodup _).map_on fun p hp q hq e => hinj p q (mem_indices.mp hp) (mem_indices.mp hq) e)]
        intro c
        rw [List.mem_filter, hH, mem_indices, List.mem_map]
        constructor
        · rintro ⟨_, p, hp, e⟩; exact ⟨p, mem_indices.mpr hp, e⟩
        · rintro ⟨p, hp, e⟩
          refine ⟨?_, p, mem_indices.mp hp, e⟩
          rw [← e]
          have := (y4 p (mem_indices.mp hp)).1
          rw [hxd] at this
          exact this
      rw [(hperm.map _).sum_eq, List.map_map]
      unfold inner sumOver
      rw [s2]
      congr 1
      apply List.map_congr_left
      intro p hpm
      have hp := mem_indices.mp hpm
      obtain ⟨v, hv1, hj⟩ := hF p hp
      simp only [Function.comp_apply]
      rw [at0, at0, (y4 p hp).2, ← (s4 p v hp hv1).1 _ hj]

/-! ## Cases and refutations -/

/-- Numbers in a row-major tensor. -/
def tens (l : List Int) (d : List Nat) : Tensor Int := ⟨l, Layout.fromShape d⟩

/-- Cases covered by the theorems: the gradients they talk about. -/
example : gatherVjp (· + ·) max min 0 (tens [10, 20, 30, 40] [2, 2]) [2, 3] 1 (tens [2, -3, 1, 2] [2, 2]) =
      .ok (tens [20, 0, 10, 0, 30, 40] [2, 3]) ∧
    indexSelectVjp (· + ·) max min 0 (tens [10, 20, 30, 40] [2, 2]) [3, 2] 0 (tens [2, 0] [2]) =
      .ok (tens [30, 40, 0, 0, 10, 20] [3, 2]) ∧
    sliceVjp (· + ·) max min 0 (tens [10, 20, 30, 40] [2, 2]) [4, 2] 0 (-3) (some 4) 2 =
      .ok (tens [0, 0, 10, 20, 0, 0, 30, 40] [4, 2]) ∧
    topkVjp (· + ·) max min 0 (tens [10, 20, 30, 40] [2, 2]) [2, 3] (-1) ⟨[2, 0, 1, 2], Layout.fromShape [2, 2]⟩ =
      .ok (tens [20, 0, 10, 0, 30, 40] [2, 3]) ∧
    scatterVjp 1 (· + ·) max min (· * ·) 0 1 0 (tens [7, 8, 9] [3]) [3] 0 (tens [2, 0] [2]) =
      .ok (tens [0, 8, 0] [3], tens [9, 7] [2]) := by decide +kernel

/-- The hypotheses of `C82_slice_partial` for such a case: rows 1 and 3 of a `[4, 2]` matrix. -/
example (y g : Tensor Int) (hy : (cnt [4, 2]).slice 0 (-3) none 2 = .ok y) (hg : g.WF) (hgd : g.dims = y.dims) :
    ∃ r, sliceVjp (· + ·) max min 0 g [4, 2] 0 (-3) none 2 = .ok r ∧
      ViewGrad (cnt [4, 2]) y g r fun p => p.set 0 (sliceFrom 4 (-3) 2 + p.getD 0 0 * 2).toNat :=
  C82_slice_partial (n := 4) _ _ _ (cnt_wf _) (by decide) rfl (by decide) ⟨by decide, by decide⟩ (by simp)
    (by decide) (by decide) (by decide) hy hg hgd

/-- Two indices, 2 and 0, into three cells. -/
theorem tens20_spec : (∀ p, InRange p (tens [2, 0] [2]).dims →
      ∃ v, (tens [2, 0] [2]).elem p = some v ∧ IsAxis 3 v (if p = [0] then 2 else 0)) ∧
    (∀ p q, InRange p (tens [2, 0] [2]).dims → InRange q (tens [2, 0] [2]).dims →
      p.set 0 (if p = [0] then 2 else 0) = q.set 0 (if q = [0] then 2 else 0) → p = q) := by
  have key : ∀ p, InRange p (tens [2, 0] [2]).dims → p = [0] ∨ p = [1] := by
    intro p hp
    match p, hp with
    | [0], _ => simp
    | [1], _ => simp
    | [i + 2], hp => exact absurd hp.1 (by simp)
  constructor
  · intro p hp
    rcases key p hp with rfl | rfl
    · exact ⟨2, rfl, by decide, .inl rfl⟩
    · exact ⟨0, rfl, by decide, .inl rfl⟩
  · intro p q hp hq
    rcases key p hp with rfl | rfl <;> rcases key q hq with rfl | rfl <;> decide

/-- The hypotheses of `C82_scatter_partial`. -/
example (g : Tensor Int) (hg : g.WF) (hgd : g.dims = [3])
    (hgo : g.layout.isContiguous = false ∨ g.layout.offset = 0) :
    ∃ gx gs, scatterVjp 4 (· + ·) max min (· * ·) 0 1 0 g [3] 0 (tens [2, 0] [2]) = .ok (gx, gs) ∧
      gx.dims = [3] ∧ gs.dims = [2] :=
  let ⟨gx, gs, h1, h2, h3, _⟩ := C82_scatter_partial (n := 3) 4 (· + ·) max min (0 : Int) (g := g)
    (inDims := [3]) (ix := tens [2, 0] [2]) (k := 0) (by decide)
    ⟨by decide, .inl rfl⟩ (.inl (by decide)) rfl (by decide) (by decide) (fresh_wf (by decide))
    ⟨rfl, fun i x y hi hx hy => by
      match i, hi with
      | i + 1, _ => cases hx⟩ rfl rfl (by simp [tens, I32]) tens20_spec.1 tens20_spec.2 hg hgd hgo
  ⟨gx, gs, h1, h2, h3⟩

/-- The hypotheses of `C82_gather_partial`. -/
example (y g : Tensor Int) (hy : (cnt [3]).gather 0 (-1) (tens [2, 0] [2]) = .ok y) (hg : g.WF)
    (hgd : g.dims = y.dims) :
    ∃ r, gatherVjp (· + ·) max min 0 g [3] (-1) (tens [2, 0] [2]) = .ok r ∧
      ViewGrad (cnt [3]) y g r fun p => p.set 0 (if p = [0] then 2 else 0) :=
  C82_gather_partial (n := 3) _ _ _ 0 (cnt_wf _) (by decide) ⟨by decide, .inr rfl⟩ (.inr rfl) rfl (by decide)
    (fresh_wf (by decide)) ⟨rfl, fun i x y hi hx hy => by
      match i, hi with
      | i + 1, _ => cases hx⟩ rfl rfl (by simp [tens, I32]) hy hg hgd tens20_spec.1 tens20_spec.2

/-- The hypotheses of `C82_index_select_partial`. -/
example (y g : Tensor Int) (hy : (cnt [3, 4]).indexSelect 0 0 (tens [2, 0] [2]) = .ok y) (hg : g.WF)
    (hgd : g.dims = y.dims) :
    ∃ r, indexSelectVjp (· + ·) max min 0 g [3, 4] 0 (tens [2, 0] [2]) = .ok r ∧
      ViewGrad (cnt [3, 4]) y g r fun p => p.set 0 (if p.getD 0 0 = 0 then 2 else 0) :=
  C82_index_select_partial (n := 3) (m := 2) (F := fun j => if j = 0 then 2 else 0) _ _ _ 0 (cnt_wf _) (by decide)
    ⟨by decide, .inl rfl⟩ rfl (by decide) (fresh_wf (by decide)) rfl rfl rfl (by simp [tens, I32]) hy hg hgd
    (fun j hj => match j, hj with
      | 0, _ => ⟨2, rfl, by decide, .inl rfl⟩
      | 1, _ => ⟨0, rfl, by decide, .inl rfl⟩)
    (by intro i j hi hj; split <;> split <;> omega)

/-- **C82, full claim** (false): the gradient of `gather` adds up all upstream entries read from an
element. -/
def C82_full : Prop :=
  ∀ (x y g : Tensor Int) (ix : Tensor Int) (dim : Int) (k n : Nat) (F : List Nat → Nat),
    x.WF → IsAxis x.dims.length dim k → x.dims[k]? = some n → ix.WF → FitsOff k ix.dims x.dims →
    ix.layout = Layout.fromShape ix.dims → x.gather 0 dim ix = .ok y → g.WF → g.dims = y.dims →
    (∀ p, InRange p ix.dims → ∃ v, ix.elem p = some v ∧ IsAxis n v (F p)) →
    ∃ r, gatherVjp (· + ·) max min 0 g x.dims dim ix = .ok r ∧ ViewGrad x y g r fun p => p.set k (F p)

/-- **C82 is false.** Element 0 is gathered twice with upstream entries 10 and 20; its gradient is 20. -/
theorem C82_full_false : ¬ C82_full ∧
    gatherVjp (· + ·) max min 0 (tens [10, 20] [2]) [2] 0 (tens [0, 0] [2]) = .ok (tens [20, 0] [2]) := by
  have hc : gatherVjp (· + ·) max min 0 (tens [10, 20] [2]) [2] 0 (tens [0, 0] [2]) = .ok (tens [20, 0] [2]) := by
    decide +kernel
  refine ⟨fun h => ?_, hc⟩
  obtain ⟨r, h1, h2⟩ := h (tens [1, 2] [2]) (tens [1, 1] [2]) (tens [10, 20] [2]) (tens [0, 0] [2]) 0 0 2
    (fun _ => 0) (fresh_wf (by decide)) ⟨by decide, .inl rfl⟩ rfl (fresh_wf (by decide))
    ⟨rfl, fun i x y hi hx hy => by
      match i, hi with
      | i + 1, _ => cases hx⟩ rfl (by decide +kernel) (fresh_wf (by decide)) rfl
    (fun p hp => ⟨0, by
      match p, hp with
      | [0], _ => rfl
      | [1], _ => rfl
      | [i + 2], hp => exact absurd hp.1 (by simp), ⟨by decide, .inl rfl⟩⟩)
  have : gatherVjp (· + ·) max min 0 (tens [10, 20] [2]) (tens [1, 2] [2]).dims 0 (tens [0, 0] [2]) =
    .ok (tens [20, 0] [2]) := hc
  rw [this] at h1
  cases h1
  obtain ⟨js, vals, a, b, c, e⟩ := h2.sums.sums [0] ⟨by decide, trivial⟩
  have hp : js.Perm [[0], [1]] := by
    rw [List.perm_ext_iff_of_nodup a (by decide)]
    intro j
    rw [b]
    constructor
    · rintro ⟨hj, _⟩
      match j, hj with
      | [0], _ => simp
      | [1], _ => simp
      | [i + 2], hj => exact absurd hj.1 (by simp)
    · intro hj
      simp only [List.mem_cons, List.not_mem_nil, or_false] at hj
      rcases hj with rfl | rfl <;> exact ⟨⟨by decide, trivial⟩, rfl⟩
  have hs : vals.Perm [10, 20] := by
    have := hp.map (tens [10, 20] [2]).elem
    rw [c] at this
    exact (List.map_perm_map_iff (Option.some_injective _)).mp this
  have : (tens [20, 0] [2]).elem [0] = some 30 := by rw [e, hs.sum_eq]; rfl
  revert this; decide

/-- `gather` along axis `-1` is right forward (here the identity), but its gradient is computed along
axis 0. -/
theorem C82_gather_negative_wrong :
    (tens [1, 2, 3, 4] [2, 2]).gather 0 (-1) (tens [0, 1, 0, 1] [2, 2]) = .ok (tens [1, 2, 3, 4] [2, 2]) ∧
    gatherVjp (· + ·) max min 0 (tens [10, 20, 30, 40] [2, 2]) [2, 2] (-1) (tens [0, 1, 0, 1] [2, 2]) =
      .ok (tens [30, 0, 0, 40] [2, 2]) := by decide +kernel

/-- `index_select` along axis 1: the index of row 0 is used for all of row 0. The gradient should be
`[[8, 0, 7], [10, 0, 9]]`. -/
theorem C82_index_select_axis_wrong :
    (tens [1, 2, 3, 4, 5, 6] [2, 3]).indexSelect 0 1 (tens [2, 0] [2]) = .ok (tens [3, 1, 6, 4] [2, 2]) ∧
    indexSelectVjp (· + ·) max min 0 (tens [7, 8, 9, 10] [2, 2]) [2, 3] 1 (tens [2, 0] [2]) =
      .ok (tens [0, 0, 8, 10, 0, 0] [2, 3]) := by decide +kernel

/-- `slice` along axis 1 (columns 1 and 2): the gradient should be `[[0, 7, 8], [0, 9, 10]]`. -/
theorem C82_slice_axis_wrong :
    sliceVjp (· + ·) max min 0 (tens [7, 8, 9, 10] [2, 2]) [2, 3] 1 1 none 1 =
      .ok (tens [0, 8, 0, 0, 0, 10] [2, 3]) := by decide +kernel

/-- The last column of a `[3, 2]` matrix: the kernel reads three indices from a vector of one. -/
theorem C82_slice_axis_ub :
    sliceVjp (· + ·) max min 0 (tens [7, 8, 9] [3, 1]) [3, 2] 1 1 none 1 = .ub := by decide +kernel

/-- A negative axis is fine forward; backward it panics, for every tensor. -/
theorem C82_slice_negative_panics (add max min : α → α → α) (zero : α) (g : Tensor α) (inDims : List Nat)
    {dim : Int} (start : Int) (stop : Option Int) (step : Int) (h : dim < 0) :
    sliceVjp add max min zero g inDims dim start stop step = .panic := by
  rw [sliceVjp, if_pos h]

/-- A start before the beginning is clamped forward but not backward: the slice reads element 0, the
gradient goes to element 3. -/
theorem C82_slice_start_wrong :
    (tens [1, 2, 3, 4] [4]).slice 0 (-5) none 5 = .ok ⟨[1, 2, 3, 4], ⟨[1], [5], 0⟩⟩ ∧
    sliceVjp (· + ·) max min 0 (tens [7] [1]) [4] 0 (-5) none 5 = .ok (tens [0, 0, 0, 7] [4]) := by
  decide +kernel

/-- Two source elements written to one cell: the second wins, but both get its gradient. -/
theorem C82_scatter_repeated_wrong :
    (tens [4, 5, 6] [3]).scatterWith (· + ·) max min .scatter 0 (tens [2, 2] [2]) (tens [1, 2] [2]) =
      .ok (tens [4, 5, 2] [3]) ∧
    scatterVjp 1 (· + ·) max min (· * ·) 0 1 0 (tens [7, 8, 9] [3]) [3] 0 (tens [2, 2] [2]) =
      .ok (tens [7, 8, 0] [3], tens [9, 9] [2]) := by decide +kernel

/-- `scatter_add` overwrites (C31), so that the result does not depend on the old element; the rule passes
the gradient on to it. -/
theorem C82_scatter_add_wrong (v : Int) :
    (tens [v, 5] [2]).scatterWith (· + ·) max min .add 0 (tens [0] [1]) (tens [1] [1]) = .ok (tens [1, 5] [2]) ∧
    scatterAddVjp 0 (tens [7, 8] [2]) 0 (tens [0] [1]) = .ok (tens [7, 8] [2], tens [7] [1]) :=
  ⟨rfl, by decide +kernel⟩

/-- `scatter_max`: the source element 5 replaces the element 1, and both get the gradient. -/
theorem C82_scatter_max_wrong :
    scatterExtVjp 1 (· + ·) max min (· * ·) (· - ·) (fun a b => if a ≥ b then 1 else 0) 0 1 0 (tens [1, 2] [2])
      (tens [5] [1]) (tens [10, 20] [2]) 0 (tens [0] [1]) = .ok (tens [10, 20] [2], tens [10] [1]) := by
  decide +kernel

/-- The rule of `index_put` on a vector runs `index_put` itself, which is undefined behaviour there (C29). -/
theorem C82_index_put_ub (cores : Nat) (mul : α → α → α) (zero one fill : α) (g : Tensor α) (ix : Tensor Int)
    {dim : Int} {n m : Nat} (hd : IsAxis 1 dim 0) (hn : 0 < n) (hm : 0 < m) (hix : ix.dims = [m]) :
    indexPutVjp cores mul zero one fill g [n] dim ix = .ub := by
  have e1 : Tensor.ones one [n] = ⟨List.replicate n one, Layout.fromShape [(List.replicate n one).length]⟩ := by
    simp [Tensor.ones, shapeSize]
  have e2 : Tensor.zeros zero ix.dims = ⟨List.replicate m zero, Layout.fromShape [(List.replicate m zero).length]⟩ := by
    simp [Tensor.zeros, hix, shapeSize]
  have := C29_one_dim_always_ub (t := List.replicate n one) (vals := List.replicate m zero) (ix := ix) (dim := 0)
    (by simp; omega) (by simp; omega) ⟨by decide, .inl rfl⟩
  rw [indexPutVjp, scalarToUsize_eq hd (.inr rfl)]
  simp only [Nat.cast_zero]
  rw [e1, e2, this]
  rfl

end Hodu
