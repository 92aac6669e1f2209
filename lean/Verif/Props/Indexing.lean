import Verif.Model.Indexing
import Verif.Lemmas.Meta
import Verif.Props.Matmul
import Verif.Props.SumToShape

/-! # C28 index_select, C29 index_put, C30 gather, C31 scatter -/

namespace Hodu
open Spec

/-! ## Index normalisation -/

/-- The kernels' normalisation finds exactly the coordinate the index names (negative values count
from the end), and rejects the others. -/
theorem wrapIndex_eq {v : Int} {n : Nat} (hv : I32 v) (hn : n < 2 ^ 31) :
    ∃ w, wrapIndex v n = .ok w ∧ ∀ c, IsAxis n v c ↔ w = some c := by
  obtain ⟨h1, h2⟩ := hv
  have hc : castI32 n = n := by unfold castI32; omega
  unfold wrapIndex
  simp only [hc]
  by_cases hneg : v < 0
  · rw [if_pos hneg, if_pos (by omega), Res.ok_bind]
    refine ⟨_, rfl, fun c => ?_⟩
    unfold IsAxis
    by_cases hz : v + (n : Int) < 0 ∨ n ≤ (v + (n : Int)).toNat
    · rw [if_pos hz]
      constructor
      · rintro ⟨h3, h4⟩; omega
      · intro h; cases h
    · rw [if_neg hz]
      constructor
      · rintro ⟨h3, h4⟩; exact congrArg some (by omega)
      · intro h; injection h with h; omega
  · rw [if_neg hneg, Res.ok_bind]
    refine ⟨_, rfl, fun c => ?_⟩
    unfold IsAxis
    by_cases hz : v < 0 ∨ n ≤ v.toNat
    · rw [if_pos hz]
      constructor
      · rintro ⟨h3, h4⟩; omega
      · intro h; cases h
    · rw [if_neg hz]
      constructor
      · rintro ⟨h3, h4⟩; exact congrArg some (by omega)
      · intro h; injection h with h; omega

/-- Off the axis `k`, every size of `a` is at most the size of `b`. -/
def Spec.FitsOff (k : Nat) (a b : List Nat) : Prop :=
  a.length = b.length ∧ ∀ i x y, i ≠ k → a[i]? = some x → b[i]? = some y → x ≤ y

theorem inRange_fits {k n c : Nat} {p a b : List Nat} (hp : InRange p a) (h : FitsOff k a b)
    (hn : b[k]? = some n) (hc : c < n) : InRange (p.set k c) b := by
  rw [inRange_iff] at hp ⊢
  obtain ⟨h1, h2⟩ := hp
  refine ⟨by simp [h1, h.1], fun i hi hi' => ?_⟩
  simp only [List.length_set] at hi
  rw [List.getElem_set]
  split
  · subst_vars
    rw [List.getElem?_eq_getElem hi'] at hn
    injection hn with hn
    omega
  · rename_i hne
    have ha : i < a.length := by rw [h.1]; exact hi'
    have := h.2 i _ _ (fun e => hne e.symm) (List.getElem?_eq_getElem ha) (List.getElem?_eq_getElem hi')
    exact Nat.lt_of_lt_of_le (h2 i hi ha) this

theorem getElem?_axis {l : List Nat} {k : Nat} {d : Int} (h : IsAxis l.length d k) :
    ∃ n, l[k]? = some n := ⟨l[k]'h.1, List.getElem?_eq_getElem h.1⟩

theorem IsAxis.lt {n k : Nat} {d : Int} (h : IsAxis n d k) : k < n := h.1

theorem readC_elem {t : Tensor α} {idx : List Nat} {x : α} (h : t.elem idx = some x) :
    readC t.storage (cFlat t.layout.offset idx t.layout.strides) = .ok x := by
  rw [cFlat_eq]
  exact readC_eq_ok.mpr h

theorem Tensor.WF.get {t : Tensor α} (h : t.WF) {idx : List Nat} (hi : InRange idx t.dims) :
    ∃ x, t.elem idx = some x := Option.isSome_iff_exists.mp (h.2 idx hi)

/-! ## C28 -/

theorem decodeIndexSelect_eq {l : Layout} {dim k n : Nat} (hl : l.strides.length = l.dims.length) :
    decodeIndexSelect (indexSelectMetadata l dim k n) = .ok ⟨n, l.dims, l.strides, l.offset, dim, k⟩ := by
  unfold indexSelectMetadata
  rw [show [n, l.ndim] ++ l.dims ++ l.strides ++ [l.offset, dim, k] =
    n :: l.dims.length :: (l.dims ++ (l.strides ++ [l.offset, dim, k])) by simp [Layout.ndim]]
  generalize hmd : (n :: l.dims.length :: (l.dims ++ (l.strides ++ [l.offset, dim, k]))) = md
  have a0 : At md 0 (n :: l.dims.length :: (l.dims ++ (l.strides ++ [l.offset, dim, k]))) := by
    rw [hmd]; exact At.start md
  have a1 := a0.next 1 rfl
  have a2 := a1.next 2 rfl
  have a3 := a2.skip rfl (2 + l.dims.length) rfl
  have a4 := a3.skip hl (2 + 2 * l.dims.length) (by omega)
  have a5 := a4.next (2 + 2 * l.dims.length + 1) rfl
  have a6 := a5.next (2 + 2 * l.dims.length + 2) rfl
  unfold decodeIndexSelect
  rw [a0.read, Res.ok_bind, a1.read, Res.ok_bind, a2.slice rfl, Res.ok_bind, a3.slice hl, Res.ok_bind,
    a4.read, Res.ok_bind, a5.read, Res.ok_bind, a6.read, Res.ok_bind]

/-- index_select as it is: the j-th index used is the j-th cell of the index tensor's *buffer*.  For
every layout of the source; no access leaves the source. -/
theorem C28_raw {t : Tensor α} {ix : Tensor Int} {dim : Int} {k n : Nat} (zero : α) (ht : t.WF)
    (hr : t.dims.length < 2 ^ 31) (hk : IsAxis t.dims.length dim k) (hn : t.dims[k]? = some n)
    (hns : n < 2 ^ 31) (hlen : numel ix.dims ≤ ix.storage.length) (hv : ∀ v ∈ ix.storage, I32 v) :
    ∃ r, t.indexSelect zero dim ix = .ok r ∧ r.dims = t.dims.set k (numel ix.dims) ∧ r.WF ∧
      ∀ idx, InRange idx r.dims → ∀ j v, idx[k]? = some j → ix.storage[j]? = some v →
        (∀ c, IsAxis n v c → r.elem idx = t.elem (idx.set k c)) ∧
        ((¬ ∃ c, IsAxis n v c) → r.elem idx = some zero) := by
  have hax : axisUsize t.dims.length dim = k := axisUsize_eq hk hr
  have hkl : k < t.dims.length := hk.1
  have hsz : ix.layout.size = numel ix.dims := shapeSize_eq _
  have hout : (t.dims.set k (numel ix.dims))[k]? = some (numel ix.dims) := by simp [hkl]
  let m : IndexSelectMeta :=
    ⟨shapeSize (t.dims.set k (numel ix.dims)), t.dims, t.layout.strides, t.layout.offset, k, numel ix.dims⟩
  have hdims : (t.dims.set k (numel ix.dims)).set k n = t.dims := by
    rw [List.set_set]; exact set_self hn
  have hcell : ∀ idx, InRange idx (t.dims.set k (numel ix.dims)) → ∀ j v, idx[k]? = some j →
      ix.storage[j]? = some v → ∃ y, indexSelectCell zero t.storage ix.storage m
        (rowMajor (t.dims.set k (numel ix.dims)) idx) = .ok y ∧
        (∀ c, IsAxis n v c → t.elem (idx.set k c) = some y) ∧ ((¬ ∃ c, IsAxis n v c) → y = zero) := by
    intro idx hi j v hj hs
    obtain ⟨w, hw, hwc⟩ := wrapIndex_eq (hv v (List.mem_of_getElem? hs)) hns
    have e1 : (cUnravel (m.shape.set m.dim m.numIndices)
        (rowMajor (t.dims.set k (numel ix.dims)) idx)).1 = idx := cUnravel_rowMajor hi
    have e2 : readC m.shape m.dim = .ok n := readC_eq_ok.mpr hn
    have e3 : idx.getD m.dim 0 = j := by simp [m, hj]
    unfold indexSelectCell
    simp only [e1, e2, e3, readC_eq_ok.mpr hs, Res.ok_bind, hw]
    cases w with
    | none =>
      exact ⟨zero, rfl, fun c hc => absurd ((hwc c).mp hc) (by simp), fun _ => rfl⟩
    | some c =>
      have hc := (hwc c).mpr rfl
      obtain ⟨y, hy⟩ := ht.get (idx := idx.set k c) (by rw [← hdims]; exact inRange_set hi hc.1)
      refine ⟨y, readC_elem hy, fun c' hc' => ?_, fun h => absurd ⟨c, hc⟩ h⟩
      have := (hwc c').mp hc'
      injection this with this
      rw [← this]; exact hy
  have hpos : ∀ idx, InRange idx (t.dims.set k (numel ix.dims)) → ∃ j v, idx[k]? = some j ∧
      ix.storage[j]? = some v := by
    intro idx hi
    obtain ⟨j, hj, hlt⟩ := inRange_get hi hout
    exact ⟨j, ix.storage[j], hj, List.getElem?_eq_getElem (by omega)⟩
  obtain ⟨zs, hz, hzl, hze⟩ := runLoop_elem (out := t.dims.set k (numel ix.dims))
    (val := indexSelectCell zero t.storage ix.storage m) (fun idx hi => by
      obtain ⟨j, v, hj, hs⟩ := hpos idx hi
      obtain ⟨y, hy, _⟩ := hcell idx hi j v hj hs
      exact ⟨y, hy⟩)
  refine ⟨⟨zs, Layout.fromShape (t.dims.set k (numel ix.dims))⟩, ?_, rfl, fresh_wf hzl.symm, ?_⟩
  · unfold Tensor.indexSelect
    simp only [hax, hsz]
    rw [if_neg (by omega)]
    unfold callOpsIndexSelect
    rw [if_neg (by omega)]
    simp only [hsz]
    unfold indexSelectKernel
    rw [decodeIndexSelect_eq ht.1, Res.ok_bind]
    have : m.numEls = numel (t.dims.set k (numel ix.dims)) := shapeSize_eq _
    change (runLoop m.numEls (indexSelectCell zero t.storage ix.storage m)).bind _ = _
    rw [this, hz, Res.ok_bind]
  · intro idx hi j v hj hs
    obtain ⟨y, hy, h1, h2⟩ := hcell idx hi j v hj hs
    have he := hze idx hi y hy
    exact ⟨fun c hc => by rw [h1 c hc]; exact he, fun h => by rw [← h2 h]; exact he⟩

/-- C28 when the index tensor is laid out in row-major order from offset 0: for every layout of the
source, the result has the index's length on `dim`, and the slice `j` is the source slice named by the
`j`-th index (negative counting from the end); an index naming no slice gives zeros, and nothing is
read outside the source. -/
theorem C28_index_select_partial {t : Tensor α} {ix : Tensor Int} {dim : Int} {k n : Nat} (zero : α)
    (ht : t.WF) (hr : t.dims.length < 2 ^ 31) (hk : IsAxis t.dims.length dim k)
    (hn : t.dims[k]? = some n) (hns : n < 2 ^ 31) (hix : ix.WF)
    (hc : ix.layout.strides = Layout.computeStrides ix.dims) (ho : ix.layout.offset = 0)
    (hv : ∀ v ∈ ix.storage, I32 v) :
    ∃ r, t.indexSelect zero dim ix = .ok r ∧ r.dims = t.dims.set k (numel ix.dims) ∧ r.WF ∧
      ∀ idx, InRange idx r.dims → ∀ p v, InRange p ix.dims → idx[k]? = some (rowMajor ix.dims p) →
        ix.elem p = some v →
        (∀ c, IsAxis n v c → r.elem idx = t.elem (idx.set k c)) ∧
        ((¬ ∃ c, IsAxis n v c) → r.elem idx = some zero) := by
  have hlen : numel ix.dims ≤ ix.storage.length := by
    by_contra hcon
    have hi := unravel_inRange (dims := ix.dims) (n := ix.storage.length) (by omega)
    obtain ⟨x, hx⟩ := hix.get hi
    rw [elem_contig hc ho _ hi, rowMajor_unravel (by omega)] at hx
    simp at hx
  obtain ⟨r, h1, h2, h3, h4⟩ := C28_raw zero ht hr hk hn hns hlen hv
  refine ⟨r, h1, h2, h3, fun idx hi p v hp hj hpv => h4 idx hi _ v hj ?_⟩
  rw [← elem_contig hc ho p hp]; exact hpv

/-- 2×3 matrix, transposed (a view of shape 3×2). -/
def exSel : Tensor Int := ⟨[1, 2, 3, 4, 5, 6], ⟨[3, 2], [1, 3], 0⟩⟩

/-- Indices 2, -3, 7. -/
def exSelIx : Tensor Int := ⟨[2, -3, 7], Layout.fromShape [3]⟩

example : exSel.indexSelect 0 (-2) exSelIx = .ok ⟨[3, 6, 1, 4, 0, 0], Layout.fromShape [3, 2]⟩ := by
  decide +kernel

example : ∃ r, exSel.indexSelect 0 (-2) exSelIx = .ok r ∧ r.elem [1, 1] = exSel.elem [0, 1] := by
  have hwf : exSel.WF := by
    refine ⟨rfl, fun idx hi => ?_⟩
    match idx, hi with
    | [a, b], ⟨ha, hb, _⟩ =>
      have : a < 3 := ha
      have : b < 2 := hb
      interval_cases a <;> interval_cases b <;> decide
  obtain ⟨r, h1, h2, _, h4⟩ := C28_index_select_partial (t := exSel) (ix := exSelIx) (dim := -2) (k := 0)
    (n := 3) 0 hwf (by decide) (by unfold IsAxis; decide) rfl (by decide)
    (fresh_wf (by decide)) rfl rfl (by unfold I32; decide)
  refine ⟨r, h1, (h4 [1, 1] ?_ [1] (-3) (by decide) rfl rfl).1 0 (by unfold IsAxis; decide)⟩
  rw [h2]; decide

/-- A dimension that does not exist makes index_select panic (`output_dims[dim]`), it does not
return an error. -/
theorem C28_bad_dim_panics {t : Tensor α} {ix : Tensor Int} {dim : Int} (zero : α)
    (hr : t.dims.length < 2 ^ 31) (hd : I32 dim) (h : ∀ k, ¬ IsAxis t.dims.length dim k) :
    t.indexSelect zero dim ix = .panic := by
  have : t.dims.length ≤ axisUsize t.dims.length dim := castUsize_not_axis hr hd h
  unfold Tensor.indexSelect
  simp only []
  rw [if_pos this]

example : exSel.indexSelect 0 2 exSelIx = .panic :=
  C28_bad_dim_panics 0 (by decide) (by unfold I32; decide) (fun k => by
    show ¬ (k < 2 ∧ ((2 : Int) = k ∨ (2 : Int) = (k : Int) - (2 : Nat)))
    omega)

/-- Indices given as a view: the slice `[1..]` of `[0, 1, 2]`, i.e. the indices 1 and 2. -/
def exSelView : Tensor Int := ⟨[0, 1, 2], ⟨[2], [1], 1⟩⟩

/-- C28 is false for index views: with the indices `[1, 2]` given as a slice of `[0, 1, 2]`, the code
selects the slices 0 and 1, because the kernel gets the index buffer without layout. -/
theorem C28_index_view_wrong :
    ∃ t : Tensor Int, ∃ r, t.indexSelect 0 0 exSelView = .ok r ∧ exSelView.elem [0] = some 1 ∧
      t.elem [1] = some 20 ∧ r.elem [0] = some 10 :=
  ⟨⟨[10, 20, 30], Layout.fromShape [3]⟩, ⟨[10, 20], Layout.fromShape [2]⟩, by decide +kernel⟩

/-- A broadcast index tensor (one stored value, shape 3) makes the kernel read past the end of the index
buffer. -/
theorem C28_index_broadcast_ub :
    ∃ t : Tensor Int, ∃ ix : Tensor Int, ix.WF ∧ (∀ v ∈ ix.storage, IsAxis 3 v 1) ∧ t.dims = [3] ∧
      t.indexSelect 0 0 ix = .ub := by
  refine ⟨⟨[10, 20, 30], Layout.fromShape [3]⟩, ⟨[1], ⟨[3], [0], 0⟩⟩, ⟨rfl, fun idx hi => ?_⟩,
    by unfold IsAxis; decide, rfl, by decide +kernel⟩
  match idx, hi with
  | [a], _ => simp [Tensor.elem, dot]

/-! ## C30 -/

theorem padTo_self {xs : List Nat} {n fill : Nat} (h : xs.length = n) : padTo fill xs n = xs := by
  subst h
  apply List.ext_getElem?
  intro i
  unfold padTo
  by_cases hi : i < xs.length
  · simp [hi]
  · simp [hi]

theorem decodeGather_eq {l ix : Layout} {dim n : Nat} (hl : l.strides.length = l.dims.length)
    (hi : ix.strides.length = l.dims.length) (hd : ix.dims.length = l.dims.length) :
    decodeGather (gatherMetadata l ix dim n) =
      .ok ⟨n, ix.dims, l.dims, l.strides, ix.strides, l.offset, ix.offset, dim⟩ := by
  unfold gatherMetadata
  rw [padTo_self hi]
  rw [show [n, l.ndim] ++ ix.dims ++ l.dims ++ l.strides ++ ix.strides ++ [l.offset, ix.offset, dim] =
    n :: l.dims.length :: (ix.dims ++ (l.dims ++ (l.strides ++ (ix.strides ++
      [l.offset, ix.offset, dim])))) by simp [Layout.ndim]]
  generalize hmd : (n :: l.dims.length :: (ix.dims ++ (l.dims ++ (l.strides ++ (ix.strides ++
      [l.offset, ix.offset, dim]))))) = md
  have a0 : At md 0 (n :: l.dims.length :: (ix.dims ++ (l.dims ++ (l.strides ++ (ix.strides ++
      [l.offset, ix.offset, dim]))))) := by
    rw [hmd]; exact At.start md
  have a1 := a0.next 1 rfl
  have a2 := a1.next 2 rfl
  have a3 := a2.skip hd (2 + l.dims.length) rfl
  have a4 := a3.skip rfl (2 + 2 * l.dims.length) (by omega)
  have a5 := a4.skip hl (2 + 3 * l.dims.length) (by omega)
  have a6 := a5.skip hi (2 + 4 * l.dims.length) (by omega)
  have a7 := a6.next (2 + 4 * l.dims.length + 1) rfl
  have a8 := a7.next (2 + 4 * l.dims.length + 2) rfl
  unfold decodeGather
  rw [a0.read, Res.ok_bind, a1.read, Res.ok_bind, a2.slice hd, Res.ok_bind, a3.slice rfl, Res.ok_bind,
    a4.slice hl, Res.ok_bind, a5.slice hi, Res.ok_bind, a6.read, Res.ok_bind, a7.read, Res.ok_bind,
    a8.read, Res.ok_bind]

/-- The buffer gather computes, for every layout of the source and of the index tensor (same rank, sizes
of the index tensor not above the source's off the axis): read in row-major order over the index shape
it is the gathered tensor.  No access leaves a buffer; an index naming no coordinate gives zero. -/
theorem C30_buffer {t : Tensor α} {ix : Tensor Int} {dim : Int} {k n : Nat} (zero : α) (ht : t.WF)
    (hr : t.dims.length < 2 ^ 31) (hk : IsAxis t.dims.length dim k) (hn : t.dims[k]? = some n)
    (hns : n < 2 ^ 31) (hix : ix.WF) (hfit : FitsOff k ix.dims t.dims) (hv : ∀ v ∈ ix.storage, I32 v) :
    ∃ zs, t.gather zero dim ix = .ok ⟨zs, ix.layout⟩ ∧ zs.length = numel ix.dims ∧
      ∀ p v, InRange p ix.dims → ix.elem p = some v →
        (∀ c, IsAxis n v c → zs[rowMajor ix.dims p]? = t.elem (p.set k c)) ∧
        ((¬ ∃ c, IsAxis n v c) → zs[rowMajor ix.dims p]? = some zero) := by
  have hax : axisUsize t.dims.length dim = k := axisUsize_eq hk hr
  have hkl : k < t.dims.length := hk.1
  let m : GatherMeta := ⟨ix.layout.size, ix.dims, t.dims, t.layout.strides, ix.layout.strides,
    t.layout.offset, ix.layout.offset, k⟩
  have hcell : ∀ p, InRange p ix.dims → ∀ v, ix.elem p = some v → ∃ y,
      gatherCell zero t.storage ix.storage m (rowMajor ix.dims p) = .ok y ∧
        (∀ c, IsAxis n v c → t.elem (p.set k c) = some y) ∧ ((¬ ∃ c, IsAxis n v c) → y = zero) := by
    intro p hp v hs
    obtain ⟨w, hw, hwc⟩ := wrapIndex_eq (hv v (List.mem_of_getElem? hs)) hns
    have e1 : (cUnravel m.outShape (rowMajor ix.dims p)).1 = p := cUnravel_rowMajor hp
    have e2 : readC m.shape m.dim = .ok n := readC_eq_ok.mpr hn
    have e3 : readC ix.storage (cFlat m.ioffset p m.istrides) = .ok v := readC_elem hs
    unfold gatherCell
    simp only [e1, e2, e3, Res.ok_bind, hw]
    cases w with
    | none =>
      exact ⟨zero, rfl, fun c hc => absurd ((hwc c).mp hc) (by simp), fun _ => rfl⟩
    | some c =>
      have hc := (hwc c).mpr rfl
      obtain ⟨y, hy⟩ := ht.get (inRange_fits hp hfit hn hc.1)
      refine ⟨y, readC_elem hy, fun c' hc' => ?_, fun h => absurd ⟨c, hc⟩ h⟩
      have := (hwc c').mp hc'
      injection this with this
      rw [← this]; exact hy
  obtain ⟨zs, hz, hzl, hze⟩ := runLoop_elem (out := ix.dims)
    (val := gatherCell zero t.storage ix.storage m) (fun p hp => by
      obtain ⟨v, hs⟩ := hix.get hp
      obtain ⟨y, hy, _⟩ := hcell p hp v hs
      exact ⟨y, hy⟩)
  refine ⟨zs, ?_, hzl, ?_⟩
  · unfold Tensor.gather callOpsGather
    rw [hax, if_neg (by omega)]
    unfold gatherKernel
    rw [decodeGather_eq ht.1 (by rw [hix.1]; exact hfit.1) hfit.1, Res.ok_bind]
    have : m.numEls = numel ix.dims := shapeSize_eq _
    change (runLoop m.numEls (gatherCell zero t.storage ix.storage m)).bind _ = _
    rw [this, hz, Res.ok_bind]
  · intro p v hp hs
    obtain ⟨y, hy, h1, h2⟩ := hcell p hp v hs
    have he := hze p hp y hy
    rw [Layout.fromShape, elem_rowMajor, Nat.zero_add] at he
    exact ⟨fun c hc => by rw [h1 c hc]; exact he, fun h => by rw [← h2 h]; exact he⟩

/-- C30 when the index tensor is laid out in row-major order from offset 0: for every layout of the
source. -/
theorem C30_gather_partial {t : Tensor α} {ix : Tensor Int} {dim : Int} {k n : Nat} (zero : α)
    (ht : t.WF) (hr : t.dims.length < 2 ^ 31) (hk : IsAxis t.dims.length dim k)
    (hn : t.dims[k]? = some n) (hns : n < 2 ^ 31) (hix : ix.WF) (hfit : FitsOff k ix.dims t.dims)
    (hc : ix.layout.strides = Layout.computeStrides ix.dims) (ho : ix.layout.offset = 0)
    (hv : ∀ v ∈ ix.storage, I32 v) :
    ∃ r, t.gather zero dim ix = .ok r ∧ r.dims = ix.dims ∧ r.WF ∧
      ∀ p v, InRange p ix.dims → ix.elem p = some v →
        (∀ c, IsAxis n v c → r.elem p = t.elem (p.set k c)) ∧
        ((¬ ∃ c, IsAxis n v c) → r.elem p = some zero) := by
  obtain ⟨zs, h1, h2, h3⟩ := C30_buffer zero ht hr hk hn hns hix hfit hv
  have he : ∀ p, InRange p ix.dims → (⟨zs, ix.layout⟩ : Tensor α).elem p = zs[rowMajor ix.dims p]? :=
    fun p hp => elem_contig (t := ⟨zs, ix.layout⟩) hc ho p hp
  refine ⟨_, h1, rfl, ⟨hix.1, fun p hp => ?_⟩, fun p v hp hs => ?_⟩
  · rw [he p hp, List.getElem?_eq_getElem (by rw [h2]; exact rowMajor_lt hp)]
    rfl
  · rw [he p hp]; exact h3 p v hp hs

/-- Indices of shape 2×2. -/
def exGatherIx : Tensor Int := ⟨[2, -3, 7, 1], Layout.fromShape [2, 2]⟩

example : exSel.gather 0 0 exGatherIx = .ok ⟨[3, 4, 0, 5], Layout.fromShape [2, 2]⟩ := by decide +kernel

example : ∃ r, exSel.gather 0 0 exGatherIx = .ok r ∧ r.elem [0, 1] = exSel.elem [0, 1] := by
  have hwf : exSel.WF := by
    refine ⟨rfl, fun idx hi => ?_⟩
    match idx, hi with
    | [a, b], ⟨ha, hb, _⟩ =>
      have : a < 3 := ha
      have : b < 2 := hb
      interval_cases a <;> interval_cases b <;> decide
  obtain ⟨r, h1, _, _, h4⟩ := C30_gather_partial (t := exSel) (ix := exGatherIx) (dim := 0) (k := 0)
    (n := 3) 0 hwf (by decide) (by unfold IsAxis; decide) rfl (by decide)
    (fresh_wf (by decide)) ⟨rfl, fun i x y hne hx hy => by
      match i, hne with
      | 1, _ => cases hx; cases hy; decide
      | _ + 2, _ => cases hx⟩ rfl rfl (by unfold I32; decide)
  exact ⟨r, h1, (h4 [0, 1] (-3) (by decide) rfl).1 0 (by unfold IsAxis; decide)⟩

/-- C30 is false for index views: the result takes over the index tensor's strides although its buffer
is in row-major order.  Gathering with a transposed index matrix puts the values in the wrong cells. -/
theorem C30_index_view_wrong :
    ∃ (t : Tensor Int) (ix : Tensor Int) (r : Tensor Int), t.gather 0 0 ix = .ok r ∧
      t.dims = [2, 2] ∧ ix.dims = [2, 2] ∧ ix.elem [0, 1] = some 1 ∧ t.elem [1, 1] = some 40 ∧
      r.elem [0, 1] = some 10 :=
  ⟨⟨[10, 20, 30, 40], Layout.fromShape [2, 2]⟩, ⟨[0, 0, 1, 1], ⟨[2, 2], [1, 2], 0⟩⟩,
    ⟨[10, 40, 10, 40], ⟨[2, 2], [1, 2], 0⟩⟩, by decide +kernel⟩

/-- The index shape is never compared with the source shape: an index tensor longer than the source on
another axis makes the kernel read outside the source. -/
theorem C30_large_index_ub :
    ∃ (t : Tensor Int) (ix : Tensor Int), t.WF ∧ ix.WF ∧ t.dims = [1, 2] ∧ ix.dims = [1, 3] ∧
      (∀ v ∈ ix.storage, v = 0) ∧ t.gather 0 0 ix = .ub :=
  ⟨⟨[10, 20], Layout.fromShape [1, 2]⟩, ⟨[0, 0, 0], Layout.fromShape [1, 3]⟩, fresh_wf (by decide),
    fresh_wf (by decide), rfl, rfl, by decide, by decide +kernel⟩

/-- Nor are the ranks compared: with a 1-dimensional index over a 2-dimensional source the metadata is
read shifted, and the kernel accesses memory outside the buffers. -/
theorem C30_rank_ub :
    ∃ (t : Tensor Int) (ix : Tensor Int), t.WF ∧ ix.WF ∧ t.dims = [2, 2] ∧ ix.dims = [2] ∧
      (∀ v ∈ ix.storage, v = 0) ∧ t.gather 0 0 ix = .ub :=
  ⟨⟨[10, 20, 30, 40], Layout.fromShape [2, 2]⟩, ⟨[0, 0], Layout.fromShape [2]⟩, fresh_wf (by decide),
    fresh_wf (by decide), rfl, rfl, by decide, by decide +kernel⟩

/-! ## C31 -/

theorem decodeScatter_eq {l ix src : Layout} {dim : Nat} (hl : l.strides.length = l.dims.length)
    (hi : ix.strides.length = l.dims.length) (hd : src.dims.length = l.dims.length)
    (hs : src.strides.length = l.dims.length) :
    decodeScatter (scatterMetadata l ix src dim) =
      .ok ⟨src.size, l.dims, l.strides, src.dims, src.strides, ix.strides, l.offset, src.offset,
        ix.offset, dim⟩ := by
  unfold scatterMetadata
  have e1 : padTo 0 ix.strides l.ndim = ix.strides := padTo_self hi
  have e2 : padTo 1 src.dims l.ndim = src.dims := padTo_self hd
  have e3 : padTo 0 src.strides l.ndim = src.strides := padTo_self hs
  rw [e1, e2, e3]
  rw [show [src.size, l.ndim] ++ l.dims ++ l.strides ++ src.dims ++ src.strides ++ ix.strides ++
      [l.offset, src.offset, ix.offset, dim] =
    src.size :: l.dims.length :: (l.dims ++ (l.strides ++ (src.dims ++ (src.strides ++ (ix.strides ++
      [l.offset, src.offset, ix.offset, dim]))))) by simp [Layout.ndim]]
  generalize hmd : (src.size :: l.dims.length :: (l.dims ++ (l.strides ++ (src.dims ++ (src.strides ++
    (ix.strides ++ [l.offset, src.offset, ix.offset, dim])))))) = md
  have a0 : At md 0 (src.size :: l.dims.length :: (l.dims ++ (l.strides ++ (src.dims ++ (src.strides ++
    (ix.strides ++ [l.offset, src.offset, ix.offset, dim])))))) := by
    rw [hmd]; exact At.start md
  have a1 := a0.next 1 rfl
  have a2 := a1.next 2 rfl
  have a3 := a2.skip rfl (2 + l.dims.length) rfl
  have a4 := a3.skip hl (2 + 2 * l.dims.length) (by omega)
  have a5 := a4.skip hd (2 + 3 * l.dims.length) (by omega)
  have a6 := a5.skip hs (2 + 4 * l.dims.length) (by omega)
  have a7 := a6.skip hi (2 + 5 * l.dims.length) (by omega)
  have a8 := a7.next (2 + 5 * l.dims.length + 1) rfl
  have a9 := a8.next (2 + 5 * l.dims.length + 2) rfl
  have b0 := a9.next (2 + 5 * l.dims.length + 3) rfl
  unfold decodeScatter
  rw [a0.read, Res.ok_bind, a1.read, Res.ok_bind, a2.slice rfl, Res.ok_bind, a3.slice hl, Res.ok_bind,
    a4.slice hd, Res.ok_bind, a5.slice hs, Res.ok_bind, a6.slice hi, Res.ok_bind, a7.read, Res.ok_bind,
    a8.read, Res.ok_bind, a9.read, Res.ok_bind, b0.read, Res.ok_bind]

theorem dot_tailProds (dims idx : List Nat) : dot idx (tailProds dims) = rowMajor dims idx := by
  induction dims generalizing idx with
  | nil => cases idx <;> simp [tailProds, dot, rowMajor]
  | cons d ds ih =>
    cases idx with
    | nil => simp [dot, rowMajor]
    | cons i is => simp [tailProds, dot, rowMajor, ih, shapeSize_eq]

/-- Writing a whole list over the front of a buffer. -/
theorem applyWrites_front {buf vs : List α} {n : Nat} (hn : vs.length = n) (hb : n ≤ buf.length) :
    ∃ out, applyWrites buf ((List.range n).zip vs) = .ok out ∧ out.length = buf.length ∧
      ∀ i : Nat, i < n → out[i]? = vs[i]? := by
  have hfst : ((List.range n).zip vs).map Prod.fst = List.range n := by
    rw [List.map_fst_zip]; simp [hn]
  obtain ⟨out, h1, h2⟩ := applyWrites_ok (buf := buf) (ws := (List.range n).zip vs) (fun w hw => by
    have : w.1 ∈ List.range n := by rw [← hfst]; exact List.mem_map_of_mem hw
    rw [List.mem_range] at this
    omega)
  obtain ⟨_, h3, _⟩ := applyWrites_get (by rw [hfst]; exact List.nodup_range) h1
  refine ⟨out, h1, h2, fun i hi => ?_⟩
  have hv : vs[i]? = some (vs[i]'(by omega)) := List.getElem?_eq_getElem (by omega)
  rw [hv]
  apply h3
  rw [List.mem_iff_getElem?]
  exact ⟨i, by rw [List.getElem?_zip_eq_some]; exact ⟨by simp [hi], hv⟩⟩

/-- A fold of cell updates: the final content of a cell is the fold, in order, of the updates
addressed to it. -/
theorem putFold {upd : α → α → α} {f : List α → Nat → Res (List α)} {tgt : Nat → Option (Nat × α)}
    {L : Nat} (ids : List Nat)
    (h : ∀ id ∈ ids, ∀ out : List α, out.length = L → f out id = match tgt id with
      | none => .ok out
      | some (o, x) => (readC out o).bind fun old => .ok (out.set o (upd old x)))
    (hb : ∀ id ∈ ids, ∀ o x, tgt id = some (o, x) → o < L) (out : List α) (hl : out.length = L) :
    ∃ out', Res.foldL f out ids = .ok out' ∧ out'.length = L ∧
      ∀ (c : Nat) x0, out[c]? = some x0 → out'[c]? = some ((ids.filterMap fun id => match tgt id with
        | some (o, x) => if o = c then some x else none
        | none => none).foldl upd x0) := by
  induction ids generalizing out with
  | nil => exact ⟨out, rfl, hl, fun c x0 hx => by simpa using hx⟩
  | cons id ids ih =>
    have ih' := ih (fun i hi => h i (by simp [hi])) (fun i hi => hb i (by simp [hi]))
    have h0 := h id (by simp) out hl
    cases ht : tgt id with
    | none =>
      rw [ht] at h0
      obtain ⟨out', h1, h2, h3⟩ := ih' out hl
      refine ⟨out', by rw [Res.foldL, h0, Res.ok_bind]; exact h1, h2, fun c x0 hx => ?_⟩
      rw [h3 c x0 hx, List.filterMap_cons]
      simp only [ht]
    | some ox =>
      obtain ⟨o, x⟩ := ox
      rw [ht] at h0
      have ho := hb id (by simp) o x ht
      have hro : readC out o = .ok (out[o]'(by omega)) :=
        readC_eq_ok.mpr (List.getElem?_eq_getElem (by omega))
      simp only [hro, Res.ok_bind] at h0
      obtain ⟨out', h1, h2, h3⟩ := ih' (out.set o (upd (out[o]'(by omega)) x)) (by simpa using hl)
      refine ⟨out', by rw [Res.foldL, h0, Res.ok_bind]; exact h1, h2, fun c x0 hx => ?_⟩
      rw [List.filterMap_cons]
      simp only [ht]
      by_cases hoc : o = c
      · subst hoc
        rw [if_pos rfl]
        rw [List.getElem?_eq_getElem (by omega)] at hx
        injection hx with hx
        rw [h3 o (upd (out[o]'(by omega)) x) (by rw [List.getElem?_set_self (by omega)]), hx]
        rfl
      · rw [if_neg hoc]
        exact h3 c x0 (by rw [List.getElem?_set_ne hoc]; exact hx)

/-- `hits` lists, in row-major order, the positions of the source tensor (shape `sdims`) whose index
value addresses the cell `c` of a tensor of size `n` along axis `k`. -/
structure Spec.Hits (n k : Nat) (sdims : List Nat) (ix : Tensor Int) (c : List Nat)
    (hits : List (List Nat)) : Prop where
  order : hits.Sublist (allIndices sdims)
  mem : ∀ p, p ∈ hits ↔ InRange p sdims ∧ ∃ v j, ix.elem p = some v ∧ IsAxis n v j ∧ p.set k j = c

/-- Every size of `a` is at most the size of `b`. -/
def Spec.Fits (a b : List Nat) : Prop :=
  a.length = b.length ∧ ∀ (i x y : Nat), a[i]? = some x → b[i]? = some y → x ≤ y

theorem Spec.InRange.fits {p a b : List Nat} (hp : InRange p a) (h : Fits a b) : InRange p b := by
  rw [inRange_iff] at hp ⊢
  obtain ⟨h1, h2⟩ := hp
  refine ⟨by rw [h1, h.1], fun i hi hi' => ?_⟩
  have ha : i < a.length := by rw [h.1]; exact hi'
  have := h.2 i _ _ (List.getElem?_eq_getElem ha) (List.getElem?_eq_getElem hi')
  exact Nat.lt_of_lt_of_le (h2 i hi ha) this

/-- The update a position of the source makes: which cell, which value. -/
def scatterTarget (t : Tensor α) (ix : Tensor Int) (src : Tensor α) (k n id : Nat) : Option (Nat × α) :=
  match ix.elem (unravel src.dims id) with
  | none => none
  | some v => match wrapIndex v n with
    | .ok (some j) => (src.elem (unravel src.dims id)).map fun x =>
        (rowMajor t.dims ((unravel src.dims id).set k j), x)
    | _ => none

theorem filterMap_filter_map {ids : List Nat} {g : Nat → Option β} {q : Nat → Bool} {φ : Nat → γ}
    {e : γ → Option β} (h1 : ∀ i ∈ ids, q i = true → g i = e (φ i) ∧ (g i).isSome)
    (h2 : ∀ i ∈ ids, q i = false → g i = none) :
    ((ids.filter q).map φ).map e = (ids.filterMap g).map some := by
  induction ids with
  | nil => rfl
  | cons i ids ih =>
    have ih' := ih (fun j hj => h1 j (by simp [hj])) (fun j hj => h2 j (by simp [hj]))
    cases hq : q i with
    | true =>
      obtain ⟨ha, hb⟩ := h1 i (by simp) hq
      obtain ⟨y, hy⟩ := Option.isSome_iff_exists.mp hb
      rw [List.filter_cons_of_pos hq, List.filterMap_cons_some hy]
      simp only [List.map_cons]
      rw [ih', ← ha, hy]
    | false =>
      rw [List.filter_cons_of_neg (by simp [hq]), List.filterMap_cons_none (h2 i (by simp) hq)]
      exact ih'

/-- The buffer the scatter kernel with cell update `upd` leaves, for every layout of the three
tensors: in row-major order over the shape of `t`, each cell holds the element of `t` folded with the
source elements addressed to it, in row-major order of the source.  Indices naming no cell are
skipped; no access leaves a buffer. -/
theorem C31_kernel {t src : Tensor α} {ix : Tensor Int} {k n : Nat} {buf : List α} (upd : α → α → α)
    (ht : t.WF) (hr : t.dims.length ≤ 32) (hn : t.dims[k]? = some n) (hns : n < 2 ^ 31) (hix : ix.WF)
    (hs : src.WF) (hsi : Fits src.dims ix.dims) (hst : FitsOff k src.dims t.dims)
    (hv : ∀ v ∈ ix.storage, I32 v) (hb : numel t.dims ≤ buf.length) :
    ∃ out, scatterKernel upd t.storage ix.storage src.storage
        (scatterMetadata t.layout ix.layout src.layout k) buf = .ok out ∧ out.length = buf.length ∧
      ∀ c, InRange c t.dims → ∃ hits x0, ∃ xs : List α, Hits n k src.dims ix c hits ∧ t.elem c = some x0 ∧
        hits.map src.elem = xs.map some ∧ out[rowMajor t.dims c]? = some (xs.foldl upd x0) := by
  let m : ScatterMeta := ⟨src.layout.size, t.dims, t.layout.strides, src.dims, src.layout.strides,
    ix.layout.strides, t.layout.offset, src.layout.offset, ix.layout.offset, k⟩
  have hdec : decodeScatter (scatterMetadata t.layout ix.layout src.layout k) = .ok m :=
    decodeScatter_eq ht.1 (by rw [hix.1]; exact (hsi.1).symm.trans hst.1) hst.1
      (by rw [hs.1]; exact hst.1)
  have hsz : shapeSize m.shape = numel t.dims := shapeSize_eq _
  have hnum : m.numEls = numel src.dims := shapeSize_eq _
  -- the copy
  obtain ⟨zs, hz, hzl, hze⟩ := runLoop_elem (out := t.dims)
    (val := fun i => readC t.storage (cFlat m.offset (cUnravel m.shape i).1 m.strides)) (fun p hp => by
      obtain ⟨y, hy⟩ := ht.get hp
      refine ⟨y, ?_⟩
      show readC t.storage (cFlat m.offset (cUnravel t.dims (rowMajor t.dims p)).1 m.strides) = _
      rw [cUnravel_rowMajor hp]
      exact readC_elem hy)
  obtain ⟨out0, ha, hal, hae⟩ := applyWrites_front (buf := buf) hzl hb
  have hcopy : ∀ c, InRange c t.dims → out0[rowMajor t.dims c]? = t.elem c := by
    intro c hc
    obtain ⟨y, hy⟩ := ht.get hc
    rw [hae _ (rowMajor_lt hc), hy]
    have := hze c hc y (by
      show readC t.storage (cFlat m.offset (cUnravel t.dims (rowMajor t.dims c)).1 m.strides) = _
      rw [cUnravel_rowMajor hc]
      exact readC_elem hy)
    rw [Layout.fromShape, elem_rowMajor, Nat.zero_add] at this
    exact this
  -- one step
  have hpos : ∀ id ∈ List.range (numel src.dims), InRange (unravel src.dims id) src.dims :=
    fun id hid => unravel_inRange (List.mem_range.mp hid)
  have htgt : ∀ id ∈ List.range (numel src.dims), ∃ v x w, ix.elem (unravel src.dims id) = some v ∧
      src.elem (unravel src.dims id) = some x ∧ wrapIndex v n = .ok w ∧
      (∀ j, IsAxis n v j ↔ w = some j) ∧
      scatterTarget t ix src k n id =
        w.map fun j => (rowMajor t.dims ((unravel src.dims id).set k j), x) := by
    intro id hid
    have hp := hpos id hid
    obtain ⟨v, hvx⟩ := hix.get (hp.fits hsi)
    obtain ⟨x, hx⟩ := hs.get hp
    obtain ⟨w, hw, hwc⟩ := wrapIndex_eq (hv v (List.mem_of_getElem? hvx)) hns
    refine ⟨v, x, w, hvx, hx, hw, hwc, ?_⟩
    unfold scatterTarget
    simp only [hvx, hw]
    cases w with
    | none => rfl
    | some j => simp [hx]
  have hlt : ∀ id ∈ List.range (numel src.dims), ∀ o x, scatterTarget t ix src k n id = some (o, x) →
      o < numel t.dims := by
    intro id hid o x ho
    obtain ⟨v, x', w, hvx, hx, hw, hwc, htg⟩ := htgt id hid
    rw [htg] at ho
    cases w with
    | none => cases ho
    | some j =>
      have hj := (hwc j).mpr rfl
      simp only [Option.map_some, Option.some.injEq, Prod.mk.injEq] at ho
      rw [← ho.1]
      exact rowMajor_lt (inRange_fits (hpos id hid) hst hn hj.1)
  have hstep : ∀ id ∈ List.range (numel src.dims), ∀ out : List α, out.length = buf.length →
      scatterStep upd m ix.storage src.storage out id = match scatterTarget t ix src k n id with
      | none => .ok out
      | some (o, x) => (readC out o).bind fun old => .ok (out.set o (upd old x)) := by
    intro id hid out hout
    obtain ⟨v, x, w, hvx, hx, hw, hwc, htg⟩ := htgt id hid
    have e1 : (cUnravel m.srcShape id).1 = unravel src.dims id := by
      show (cUnravel src.dims id).1 = _
      rw [cUnravel_eq, Nat.mod_eq_of_lt (List.mem_range.mp hid)]
    have e2 : readC m.shape m.dim = .ok n := readC_eq_ok.mpr hn
    have e3 : readC ix.storage (cFlat m.ioffset (unravel src.dims id) m.istrides) = .ok v := readC_elem hvx
    have e4 : readC src.storage (cFlat m.soffset (unravel src.dims id) m.srcStrides) = .ok x :=
      readC_elem hx
    rw [htg]
    unfold scatterStep
    simp only [e1, e2, e3, e4, Res.ok_bind, hw]
    cases w with
    | none => rfl
    | some j =>
      have hj := (hwc j).mpr rfl
      have hlt := rowMajor_lt (inRange_fits (hpos id hid) hst hn hj.1)
      have e5 : cFlat 0 ((unravel src.dims id).set m.dim j) (tailProds m.shape) =
          rowMajor t.dims ((unravel src.dims id).set k j) := by
        rw [cFlat_eq, dot_tailProds, Nat.zero_add]
      simp only [e5, hsz, Option.map_some]
      have hr' : m.shape.length ≤ 32 := hr
      rw [if_neg (by omega), if_neg (by omega)]
  obtain ⟨out, hf, hfl, hfe⟩ := putFold (upd := upd) (L := buf.length) (List.range (numel src.dims)) hstep
    (fun id hid o x ho => Nat.lt_of_lt_of_le (hlt id hid o x ho) hb) out0 hal
  refine ⟨out, ?_, hfl, fun c hc => ?_⟩
  · unfold scatterKernel
    rw [hdec, Res.ok_bind, hsz, hz, Res.ok_bind, ha, Res.ok_bind, hnum, hf]
  · obtain ⟨x0, hx0⟩ := ht.get hc
    have hfc := hfe (rowMajor t.dims c) x0 (by rw [hcopy c hc]; exact hx0)
    let q : Nat → Bool := fun id => match scatterTarget t ix src k n id with
      | some (o, _) => decide (o = rowMajor t.dims c)
      | none => false
    refine ⟨((List.range (numel src.dims)).filter q).map (unravel src.dims), x0, _,
      ⟨?_, ?_⟩, hx0, ?_, hfc⟩
    · exact List.Sublist.map _ List.filter_sublist
    · intro p
      simp only [List.mem_map, List.mem_filter]
      constructor
      · rintro ⟨id, ⟨hid, hq⟩, rfl⟩
        refine ⟨hpos id hid, ?_⟩
        obtain ⟨v, x, w, hvx, hx, hw, hwc, htg⟩ := htgt id hid
        simp only [q, htg] at hq
        cases w with
        | none => simp at hq
        | some j =>
          simp only [Option.map_some, decide_eq_true_eq] at hq
          have hj := (hwc j).mpr rfl
          have hir := inRange_fits (hpos id hid) hst hn hj.1
          refine ⟨v, j, hvx, hj, ?_⟩
          rw [← unravel_rowMajor hir, ← unravel_rowMajor hc, hq]
      · rintro ⟨hp, v, j, hvx, hj, hpc⟩
        have hid : rowMajor src.dims p ∈ List.range (numel src.dims) :=
          List.mem_range.mpr (rowMajor_lt hp)
        refine ⟨rowMajor src.dims p, ⟨hid, ?_⟩, unravel_rowMajor hp⟩
        obtain ⟨v', x, w, hvx', hx, hw, hwc, htg⟩ := htgt _ hid
        rw [unravel_rowMajor hp] at hvx' htg
        rw [hvx] at hvx'
        injection hvx' with hvx'
        subst hvx'
        simp only [q, htg, (hwc j).mp hj, Option.map_some, hpc, decide_true]
    · apply filterMap_filter_map
      · intro id hid hq
        obtain ⟨v, x, w, hvx, hx, hw, hwc, htg⟩ := htgt id hid
        simp only [q, htg] at hq ⊢
        cases w with
        | none => simp at hq
        | some j =>
          simp only [Option.map_some, decide_eq_true_eq] at hq
          simp only [Option.map_some, hq, if_true, hx, Option.isSome_some, and_self]
      · intro id hid hq
        obtain ⟨v, x, w, hvx, hx, hw, hwc, htg⟩ := htgt id hid
        simp only [q, htg] at hq ⊢
        cases w with
        | none => rfl
        | some j =>
          simp only [Option.map_some, decide_eq_false_iff_not] at hq
          simp only [Option.map_some, if_neg hq]

theorem foldl_last (xs : List α) (x0 : α) : xs.foldl (fun _ x => x) x0 = xs.getLast?.getD x0 := by
  induction xs generalizing x0 with
  | nil => rfl
  | cons x xs ih =>
    rw [List.foldl_cons, ih, List.getLast?_cons]
    simp

/-- C31 for `scatter` when `self` is laid out in row-major order from offset 0: for every layout of the
index and source tensors, cells not addressed keep their element, an addressed cell holds the source
element addressed to it last (in row-major order of the source).  Missing: other layouts of `self`
(false, see below), and the accumulating variants. -/
theorem C31_scatter_partial {t src : Tensor α} {ix : Tensor Int} {dim : Int} {k n : Nat}
    (add max min : α → α → α) (ht : t.WF) (hr : t.dims.length ≤ 32) (hk : IsAxis t.dims.length dim k)
    (hn : t.dims[k]? = some n) (hns : n < 2 ^ 31)
    (hc : t.layout.strides = Layout.computeStrides t.dims) (ho : t.layout.offset = 0) (hix : ix.WF)
    (hs : src.WF) (hsi : Fits src.dims ix.dims) (hst : FitsOff k src.dims t.dims)
    (hv : ∀ v ∈ ix.storage, I32 v) :
    ∃ r, t.scatterWith add max min .scatter dim ix src = .ok r ∧ r.dims = t.dims ∧ r.WF ∧
      ∀ c, InRange c t.dims → ∃ hits, Hits n k src.dims ix c hits ∧
        (hits = [] → r.elem c = t.elem c) ∧ (∀ p, hits.getLast? = some p → r.elem c = src.elem p) := by
  have hax : axisUsize t.dims.length dim = k := axisUsize_eq hk (by omega)
  have hlen : numel t.dims ≤ t.storage.length := by
    by_contra hcon
    have hi := unravel_inRange (dims := t.dims) (n := t.storage.length) (by omega)
    obtain ⟨x, hx⟩ := ht.get hi
    rw [elem_contig hc ho _ hi, rowMajor_unravel (by omega)] at hx
    simp at hx
  obtain ⟨out, h1, h2, h3⟩ := C31_kernel (fun _ x => x) ht hr hn hns hix hs hsi hst hv hlen
  have he : ∀ c, InRange c t.dims → (⟨out, t.layout⟩ : Tensor α).elem c = out[rowMajor t.dims c]? :=
    fun c hcr => elem_contig (t := ⟨out, t.layout⟩) hc ho c hcr
  refine ⟨⟨out, t.layout⟩, ?_, rfl, ⟨ht.1, fun c hcr => ?_⟩, fun c hcr => ?_⟩
  · have hk' : ¬ t.dims.length ≤ k := by have := hk.1; omega
    unfold Tensor.scatterWith
    simp only [hax]
    rw [if_neg hk']
    simp only [scatterDispatch, ScatterOp.upd, h1, Res.ok_bind]
  · obtain ⟨hits, x0, xs, _, _, _, h⟩ := h3 c hcr
    rw [he c hcr, h]; rfl
  · obtain ⟨hits, x0, xs, hh, hx0, hxs, h⟩ := h3 c hcr
    rw [he c hcr, h, foldl_last]
    refine ⟨hits, hh, fun hnil => ?_, fun p hp => ?_⟩
    · subst hnil
      have : xs = [] := by cases xs <;> simp_all
      rw [this, hx0]; rfl
    · have h5 : (hits.map src.elem).getLast? = some (src.elem p) := by
        rw [List.getLast?_map, hp]; rfl
      rw [hxs, List.getLast?_map] at h5
      cases hl : xs.getLast? with
      | none => rw [hl] at h5; cases h5
      | some y =>
        rw [hl] at h5
        injection h5

/-- A 2×3 tensor, a transposed 2×2 index view and a 2×2 source. -/
def exScT : Tensor Int := ⟨[1, 2, 3, 4, 5, 6], Layout.fromShape [2, 3]⟩
/-- See `exScT`. -/
def exScIx : Tensor Int := ⟨[0, 2, -3, 2], ⟨[2, 2], [1, 2], 0⟩⟩
/-- See `exScT`. -/
def exScSrc : Tensor Int := ⟨[10, 20, 30, 40], Layout.fromShape [2, 2]⟩

example : exScT.scatterWith (· + ·) max min .scatter 1 exScIx exScSrc =
    .ok ⟨[20, 2, 3, 4, 5, 40], Layout.fromShape [2, 3]⟩ := by decide +kernel

/-- The hypotheses are met by this case. -/
example : exScT.WF ∧ exScIx.WF ∧ exScSrc.WF ∧ IsAxis exScT.dims.length 1 1 ∧
    Fits exScSrc.dims exScIx.dims ∧ FitsOff 1 exScSrc.dims exScT.dims ∧ ∀ v ∈ exScIx.storage, I32 v := by
  refine ⟨fresh_wf (by decide), ⟨rfl, fun idx hi => ?_⟩, fresh_wf (by decide), by unfold IsAxis; decide,
    ⟨rfl, fun i x y hx hy => ?_⟩, ⟨rfl, fun i x y hne hx hy => ?_⟩, by unfold I32; decide⟩
  · match idx, hi with
    | [a, b], ⟨ha, hb, _⟩ =>
      have : a < 2 := ha
      have : b < 2 := hb
      interval_cases a <;> interval_cases b <;> decide
  · match i with
    | 0 => cases hx; cases hy; decide
    | 1 => cases hx; cases hy; decide
    | _ + 2 => cases hx
  · match i, hne with
    | 0, _ => cases hx; cases hy; decide
    | _ + 2, _ => cases hx

/-- C31 is false for the accumulating variants: `scatter_add` of `[10, 20]` into cell 0 of `[1, 2]`
gives 20 instead of 31, because the host always names the plain scatter kernel. -/
theorem C31_scatter_add_wrong :
    ∃ (t src ix r : Tensor Int), t.scatterWith (· + ·) max min .add 0 ix src = .ok r ∧
      t.elem [0] = some 1 ∧ ix.elem [0] = some 0 ∧ ix.elem [1] = some 0 ∧ src.elem [0] = some 10 ∧
      src.elem [1] = some 20 ∧ r.elem [0] = some 20 :=
  ⟨⟨[1, 2], Layout.fromShape [2]⟩, ⟨[10, 20], Layout.fromShape [2]⟩, ⟨[0, 0], Layout.fromShape [2]⟩,
    ⟨[20, 2], Layout.fromShape [2]⟩, by decide +kernel⟩

/-- Whatever the reduction asked for, the host runs the overwriting scatter. -/
theorem C31_variants_overwrite (add max min : α → α → α) (op : ScatterOp) (t src : Tensor α)
    (ix : Tensor Int) (dim : Int) :
    t.scatterWith add max min op dim ix src = t.scatterWith add max min .scatter dim ix src := rfl

/-- The accumulating kernel itself is right: run with addition it gives 31. -/
example : scatterKernel (α := Int) (· + ·) [1, 2] [0, 0] [10, 20]
    (scatterMetadata (Layout.fromShape [2]) (Layout.fromShape [2]) (Layout.fromShape [2]) 0) [1, 2] =
    .ok [31, 2] := by decide +kernel

/-- C31 is false for views: scattering into a transposed matrix (no index hits the cell `[0, 1]`)
changes the cell, because the kernel writes in row-major order and the result keeps the strides. -/
theorem C31_view_wrong :
    ∃ (t src ix r : Tensor Int), t.scatterWith (· + ·) max min .scatter 0 ix src = .ok r ∧
      t.dims = [2, 2] ∧ ix.dims = [1, 1] ∧ ix.elem [0, 0] = some 0 ∧ t.elem [0, 1] = some 3 ∧
      r.elem [0, 1] = some 2 :=
  ⟨⟨[1, 2, 3, 4], ⟨[2, 2], [1, 2], 0⟩⟩, ⟨[9], Layout.fromShape [1, 1]⟩, ⟨[0], Layout.fromShape [1, 1]⟩,
    ⟨[9, 3, 2, 4], ⟨[2, 2], [1, 2], 0⟩⟩, by decide +kernel⟩

/-- A broadcast `self` (fewer stored elements than the shape has) makes the kernel write past the end
of the output buffer. -/
theorem C31_broadcast_ub :
    ∃ (t src ix : Tensor Int), t.dims = [3] ∧ t.elem [2] = some 1 ∧ ix.dims = [1] ∧ src.dims = [1] ∧
      ix.elem [0] = some 0 ∧ t.scatterWith (· + ·) max min .scatter 0 ix src = .ub :=
  ⟨⟨[1], ⟨[3], [0], 0⟩⟩, ⟨[9], Layout.fromShape [1]⟩, ⟨[0], Layout.fromShape [1]⟩, by decide +kernel⟩

/-- Whatever the shape of the source (of the same rank), the scatter loop writes inside of the buffer only: positions past
the end of `self` are skipped.  (Where they are not skipped they may hit a cell that no index names, see below.) -/
theorem C31_no_overrun {t src : Tensor α} {ix : Tensor Int} {k n : Nat} {buf : List α} (upd : α → α → α)
    (ht : t.WF) (hr : t.dims.length ≤ 32) (hn : t.dims[k]? = some n) (hns : n < 2 ^ 31) (hix : ix.WF)
    (hs : src.WF) (hsi : Fits src.dims ix.dims) (hst : src.dims.length = t.dims.length)
    (hv : ∀ v ∈ ix.storage, I32 v) (hb : numel t.dims ≤ buf.length) :
    ∃ out, scatterKernel upd t.storage ix.storage src.storage
        (scatterMetadata t.layout ix.layout src.layout k) buf = .ok out ∧ out.length = buf.length := by
  let m : ScatterMeta := ⟨src.layout.size, t.dims, t.layout.strides, src.dims, src.layout.strides,
    ix.layout.strides, t.layout.offset, src.layout.offset, ix.layout.offset, k⟩
  have hdec : decodeScatter (scatterMetadata t.layout ix.layout src.layout k) = .ok m :=
    decodeScatter_eq ht.1 (by rw [hix.1]; exact (hsi.1).symm.trans hst) hst (by rw [hs.1]; exact hst)
  have hsz : shapeSize m.shape = numel t.dims := shapeSize_eq _
  have hnum : m.numEls = numel src.dims := shapeSize_eq _
  obtain ⟨zs, hz, hzl, hze⟩ := runLoop_elem (out := t.dims)
    (val := fun i => readC t.storage (cFlat m.offset (cUnravel m.shape i).1 m.strides)) (fun p hp => by
      obtain ⟨y, hy⟩ := ht.get hp
      refine ⟨y, ?_⟩
      show readC t.storage (cFlat m.offset (cUnravel t.dims (rowMajor t.dims p)).1 m.strides) = _
      rw [cUnravel_rowMajor hp]
      exact readC_elem hy)
  obtain ⟨out0, ha, hal, hae⟩ := applyWrites_front (buf := buf) hzl hb
  have hstep : ∀ id, id < numel src.dims → ∀ out : List α, out.length = buf.length →
      ∃ out', scatterStep upd m ix.storage src.storage out id = .ok out' ∧ out'.length = buf.length := by
    intro id hid out hout
    have hp := unravel_inRange hid
    obtain ⟨v, hvx⟩ := hix.get (hp.fits hsi)
    obtain ⟨x, hx⟩ := hs.get hp
    obtain ⟨w, hw, hwc⟩ := wrapIndex_eq (hv v (List.mem_of_getElem? hvx)) hns
    have e1 : (cUnravel m.srcShape id).1 = unravel src.dims id := by
      show (cUnravel src.dims id).1 = _
      rw [cUnravel_eq, Nat.mod_eq_of_lt hid]
    have e2 : readC m.shape m.dim = .ok n := readC_eq_ok.mpr hn
    have e3 : readC ix.storage (cFlat m.ioffset (unravel src.dims id) m.istrides) = .ok v := readC_elem hvx
    have e4 : readC src.storage (cFlat m.soffset (unravel src.dims id) m.srcStrides) = .ok x := readC_elem hx
    unfold scatterStep
    simp only [e1, e2, e3, e4, Res.ok_bind, hw]
    cases w with
    | none => exact ⟨out, rfl, hout⟩
    | some j =>
      have hr' : m.shape.length ≤ 32 := hr
      simp only [hsz]
      rw [if_neg (by omega)]
      split_ifs with hc
      · exact ⟨out, rfl, hout⟩
      · rw [readC_eq_ok.mpr (List.getElem?_eq_getElem (by omega)), Res.ok_bind]
        exact ⟨_, rfl, by simpa using hout⟩
  have hloop : ∀ L : List Nat, (∀ id ∈ L, id < numel src.dims) → ∀ out : List α, out.length = buf.length →
      ∃ out', Res.foldL (scatterStep upd m ix.storage src.storage) out L = .ok out' ∧ out'.length = buf.length := by
    intro L
    induction L with
    | nil => intro _ out ho; exact ⟨out, rfl, ho⟩
    | cons id L ih =>
      intro hL out ho
      obtain ⟨o1, h1, h2⟩ := hstep id (hL id (by simp)) out ho
      obtain ⟨o2, h3, h4⟩ := ih (fun i hi => hL i (by simp [hi])) o1 h2
      exact ⟨o2, by rw [Res.foldL, h1, Res.ok_bind, h3], h4⟩
  obtain ⟨out, hf, hfl⟩ := hloop (List.range (numel src.dims)) (fun id hid => List.mem_range.mp hid) out0 hal
  refine ⟨out, ?_, hfl⟩
  unfold scatterKernel
  rw [hdec, Res.ok_bind, hsz, hz, Res.ok_bind, ha, Res.ok_bind, hnum, hf]

/-- A source of shape [1, 5] scattered into a tensor of shape [2, 2]: the last column would land past the end. -/
example : scatterKernel (α := Int) (fun _ x => x) [1, 2, 3, 4] [0, 0, 0, 0, 0] [10, 20, 30, 40, 50]
    (scatterMetadata (Layout.fromShape [2, 2]) (Layout.fromShape [1, 5]) (Layout.fromShape [1, 5]) 0) [1, 2, 3, 4] =
    .ok [10, 20, 30, 40] := by decide +kernel

/-- Shapes are not compared: a source larger than `self` off the axis writes into a cell no index
addresses (here row 0 column 2 of the source lands in row 1 of `self`). -/
theorem C31_large_source_wrong :
    ∃ (t src ix r : Tensor Int), t.scatterWith (· + ·) max min .scatter 0 ix src = .ok r ∧
      t.dims = [2, 2] ∧ src.dims = [1, 3] ∧ (∀ v ∈ ix.storage, v = 0) ∧ t.elem [1, 0] = some 3 ∧
      r.elem [1, 0] = some 30 :=
  ⟨⟨[1, 2, 3, 4], Layout.fromShape [2, 2]⟩, ⟨[10, 20, 30], Layout.fromShape [1, 3]⟩,
    ⟨[0, 0, 0], Layout.fromShape [1, 3]⟩, ⟨[10, 20, 30, 4], Layout.fromShape [2, 2]⟩, by decide +kernel⟩

/-- The loop runs over the source's shape: an index tensor smaller than the source is read past its
end. -/
theorem C31_small_index_ub :
    ∃ (t src ix : Tensor Int), t.WF ∧ src.WF ∧ ix.WF ∧ t.dims = [2] ∧ src.dims = [2] ∧ ix.dims = [1] ∧
      (∀ v ∈ ix.storage, v = 0) ∧ t.scatterWith (· + ·) max min .scatter 0 ix src = .ub :=
  ⟨⟨[1, 2], Layout.fromShape [2]⟩, ⟨[10, 20], Layout.fromShape [2]⟩, ⟨[0], Layout.fromShape [1]⟩,
    fresh_wf (by decide), fresh_wf (by decide), fresh_wf (by decide), by decide +kernel⟩

/-! ## C29 -/

/-- The metadata in the order the kernel documents and decodes (ops_indexing.c:113-123). -/
def indexPutMetadataDoc (l v : Layout) (dim numIndices outEls : Nat) : List Nat :=
  [outEls, l.ndim] ++ l.dims ++ l.strides ++ v.strides ++ [l.offset, v.offset, dim, numIndices]

theorem decodeIndexPut_doc {l v : Layout} {dim k n : Nat} (hl : l.strides.length = l.dims.length)
    (hv : v.strides.length = l.dims.length) :
    decodeIndexPut (indexPutMetadataDoc l v dim k n) =
      .ok ⟨n, l.dims, l.strides, v.strides, l.offset, v.offset, dim, k⟩ := by
  unfold indexPutMetadataDoc
  rw [show [n, l.ndim] ++ l.dims ++ l.strides ++ v.strides ++ [l.offset, v.offset, dim, k] =
    n :: l.dims.length :: (l.dims ++ (l.strides ++ (v.strides ++ [l.offset, v.offset, dim, k]))) by
      simp [Layout.ndim]]
  generalize hmd : (n :: l.dims.length :: (l.dims ++ (l.strides ++ (v.strides ++
    [l.offset, v.offset, dim, k])))) = md
  have a0 : At md 0 (n :: l.dims.length :: (l.dims ++ (l.strides ++ (v.strides ++
    [l.offset, v.offset, dim, k])))) := by
    rw [hmd]; exact At.start md
  have a1 := a0.next 1 rfl
  have a2 := a1.next 2 rfl
  have a3 := a2.skip rfl (2 + l.dims.length) rfl
  have a4 := a3.skip hl (2 + 2 * l.dims.length) (by omega)
  have a5 := a4.skip hv (2 + 3 * l.dims.length) (by omega)
  have a6 := a5.next (2 + 3 * l.dims.length + 1) rfl
  have a7 := a6.next (2 + 3 * l.dims.length + 2) rfl
  have a8 := a7.next (2 + 3 * l.dims.length + 3) rfl
  unfold decodeIndexPut
  rw [a0.read, Res.ok_bind, a1.read, Res.ok_bind, a2.slice rfl, Res.ok_bind, a3.slice hl, Res.ok_bind,
    a4.slice hv, Res.ok_bind, a5.read, Res.ok_bind, a6.read, Res.ok_bind, a7.read, Res.ok_bind,
    a8.read, Res.ok_bind]

/-- The search loop returns the first position whose index names `c`. -/
theorem findIndex_eq {indices : List Int} {n c : Nat} (hn : n < 2 ^ 31) (hv : ∀ v ∈ indices, I32 v)
    (fuel i : Nat) (hl : i + fuel ≤ indices.length) :
    (∃ j v, i ≤ j ∧ j < i + fuel ∧ indices[j]? = some v ∧ IsAxis n v c ∧
      (∀ j' v', i ≤ j' → j' < j → indices[j']? = some v' → ¬ IsAxis n v' c) ∧
      findIndex indices n c i fuel = .ok (some j)) ∨
    ((∀ j v, i ≤ j → j < i + fuel → indices[j]? = some v → ¬ IsAxis n v c) ∧
      findIndex indices n c i fuel = .ok none) := by
  induction fuel generalizing i with
  | zero => exact Or.inr ⟨fun j v h1 h2 => by omega, rfl⟩
  | succ fuel ih =>
    have hg : indices[i]? = some (indices[i]'(by omega)) := List.getElem?_eq_getElem (by omega)
    generalize indices[i]'(by omega) = v at hg
    obtain ⟨w, hw, hwc⟩ := wrapIndex_eq (hv v (List.mem_of_getElem? hg)) hn
    simp only [findIndex, readC_eq_ok.mpr hg, Res.ok_bind, hw]
    by_cases h : w = some c
    · rw [if_pos h]
      exact Or.inl ⟨i, v, by omega, by omega, hg, (hwc c).mpr h, fun j' v' h1 h2 => by omega, rfl⟩
    · rw [if_neg h]
      have hni : ¬ IsAxis n v c := fun hc => h ((hwc c).mp hc)
      rcases ih (i + 1) (by omega) with ⟨j, v', h1, h2, h3, h4, h5, h6⟩ | ⟨h1, h2⟩
      · refine Or.inl ⟨j, v', by omega, by omega, h3, h4, fun j' u hj1 hj2 hu => ?_, h6⟩
        by_cases e : j' = i
        · subst e; rw [hg] at hu; injection hu with hu; rw [← hu]; exact hni
        · exact h5 j' u (by omega) hj2 hu
      · refine Or.inr ⟨fun j u hj1 hj2 hu => ?_, h2⟩
        by_cases e : j = i
        · subst e; rw [hg] at hu; injection hu with hu; rw [← hu]; exact hni
        · exact h1 j u (by omega) (by omega) hu

/-- The index_put kernel, given metadata in the order it documents, for every layout of the input and
of the values: a cell whose coordinate on the axis is named by an index holds the element of `values`
at the first such index, every other cell keeps its element.  The host does not pass this metadata
(see below); missing for C29 is that the call succeeds at all. -/
theorem C29_kernel_partial {t vals : Tensor α} {indices : List Int} {k n K : Nat} {buf : List α}
    (ht : t.WF) (hn : t.dims[k]? = some n) (hns : n < 2 ^ 31) (hvl : vals.WF)
    (hd : vals.dims = t.dims.set k K) (hK : K ≤ indices.length) (hv : ∀ v ∈ indices, I32 v)
    (hb : numel t.dims ≤ buf.length) :
    ∃ out, indexPutKernel t.storage indices vals.storage
        (indexPutMetadataDoc t.layout vals.layout k K t.layout.size) buf = .ok out ∧
      out.length = buf.length ∧
      ∀ p c, InRange p t.dims → p[k]? = some c →
        (∀ j v, j < K → indices[j]? = some v → IsAxis n v c →
          (∀ j' v', j' < j → indices[j']? = some v' → ¬ IsAxis n v' c) →
          out[rowMajor t.dims p]? = vals.elem (p.set k j)) ∧
        ((∀ j v, j < K → indices[j]? = some v → ¬ IsAxis n v c) →
          out[rowMajor t.dims p]? = t.elem p) := by
  let m : IndexPutMeta := ⟨t.layout.size, t.dims, t.layout.strides, vals.layout.strides,
    t.layout.offset, vals.layout.offset, k, K⟩
  have hdec : decodeIndexPut (indexPutMetadataDoc t.layout vals.layout k K t.layout.size) = .ok m :=
    decodeIndexPut_doc ht.1 (by rw [hvl.1, hd, List.length_set])
  have hnum : m.numEls = numel t.dims := shapeSize_eq _
  have hcell : ∀ p, InRange p t.dims → ∀ c, p[k]? = some c → ∃ y,
      indexPutCell t.storage indices vals.storage m (rowMajor t.dims p) = .ok y ∧
      (∀ j v, j < K → indices[j]? = some v → IsAxis n v c →
        (∀ j' v', j' < j → indices[j']? = some v' → ¬ IsAxis n v' c) → vals.elem (p.set k j) = some y) ∧
      ((∀ j v, j < K → indices[j]? = some v → ¬ IsAxis n v c) → t.elem p = some y) := by
    intro p hp c hc
    have e1 : (cUnravel m.shape (rowMajor t.dims p)).1 = p := cUnravel_rowMajor hp
    have e2 : readC m.shape m.dim = .ok n := readC_eq_ok.mpr hn
    have e3 : p.getD m.dim 0 = c := by simp [m, hc]
    unfold indexPutCell
    simp only [e1, e2, e3, Res.ok_bind]
    rcases findIndex_eq hns hv K 0 (c := c) (by omega) with
      ⟨j, v, h1, h2, h3, h4, h5, h6⟩ | ⟨h1, h2⟩
    · have e4 : findIndex indices n c 0 m.numIndices = .ok (some j) := h6
      simp only [e4, Res.ok_bind]
      obtain ⟨y, hy⟩ := hvl.get (idx := p.set k j) (by rw [hd]; exact inRange_set hp (by omega))
      refine ⟨y, readC_elem hy, fun j' v' hj' hv' hax' hfirst => ?_, fun hno => ?_⟩
      · have : j' = j := by
          rcases Nat.lt_trichotomy j' j with h | h | h
          · exact absurd hax' (h5 j' v' (by omega) h hv')
          · exact h
          · exact absurd h4 (hfirst j v h h3)
        rw [this]; exact hy
      · exact absurd h4 (hno j v (by omega) h3)
    · have e4 : findIndex indices n c 0 m.numIndices = .ok none := h2
      simp only [e4, Res.ok_bind]
      obtain ⟨y, hy⟩ := ht.get hp
      exact ⟨y, readC_elem hy, fun j v hj hv hax => absurd hax (h1 j v (by omega) (by omega) hv), fun _ => hy⟩
  obtain ⟨zs, hz, hzl, hze⟩ := runLoop_elem (out := t.dims)
    (val := indexPutCell t.storage indices vals.storage m) (fun p hp => by
      obtain ⟨c, hc, _⟩ := inRange_get hp hn
      obtain ⟨y, hy, _⟩ := hcell p hp c hc
      exact ⟨y, hy⟩)
  obtain ⟨out, ha, hal, hae⟩ := applyWrites_front (buf := buf) hzl hb
  refine ⟨out, ?_, hal, fun p c hp hc => ?_⟩
  · unfold indexPutKernel
    rw [hdec, Res.ok_bind, hnum, hz, Res.ok_bind, ha]
  · obtain ⟨y, hy, h1, h2⟩ := hcell p hp c hc
    have he := hze p hp y hy
    rw [Layout.fromShape, elem_rowMajor, Nat.zero_add, ← hae _ (rowMajor_lt hp)] at he
    exact ⟨fun j v hj hv hax hf => by rw [h1 j v hj hv hax hf]; exact he,
      fun hno => by rw [h2 hno]; exact he⟩

example : indexPutKernel (α := Int) [1, 2, 3, 4, 5, 6] [2, -3, 2] [10, 20, 30, 40, 50, 60]
    (indexPutMetadataDoc ⟨[3, 2], [1, 3], 0⟩ (Layout.fromShape [3, 2]) 0 3 6) [0, 0, 0, 0, 0, 0] =
    .ok [30, 40, 2, 5, 10, 20] := by decide +kernel

/-- C29 is false: on every non-empty 1-dimensional tensor in row-major order with non-empty values, the
call reads outside the input, because the host passes the metadata in another order than the kernel
decodes. -/
theorem C29_one_dim_always_ub {t vals : List α} {ix : Tensor Int} {dim : Int}
    (ht : t ≠ []) (hv : vals ≠ []) (hd : IsAxis 1 dim 0) :
    Tensor.indexPut ⟨t, Layout.fromShape [t.length]⟩ dim ix ⟨vals, Layout.fromShape [vals.length]⟩ = .ub := by
  have hax : axisUsize 1 dim = 0 := axisUsize_eq hd (by decide)
  have htl : 0 < t.length := List.length_pos_iff.mpr ht
  have hvl : 0 < vals.length := List.length_pos_iff.mpr hv
  unfold Tensor.indexPut
  have e0 : ((⟨t, Layout.fromShape [t.length]⟩ : Tensor α).dims.length) = 1 := rfl
  simp only [e0, hax]
  rw [if_neg (by omega)]
  have hmd : indexPutMetadata (Layout.fromShape [t.length]) (Layout.fromShape [vals.length]) 0
      ix.layout.size (Layout.fromShape [t.length]).size =
      [t.length, 1, t.length, 1, 0, vals.length, 1, 0, 0, ix.layout.size] := by
    simp [indexPutMetadata, Layout.fromShape, Layout.ndim, Layout.computeStrides, Layout.size, shapeSize]
  rw [hmd]
  have hdec : decodeIndexPut [t.length, 1, t.length, 1, 0, vals.length, 1, 0, 0, ix.layout.size] =
      .ok ⟨t.length, [t.length], [1], [0], vals.length, 1, 0, 0⟩ := rfl
  unfold indexPutKernel
  rw [hdec, Res.ok_bind]
  have hbad : ∀ l : List Nat, (∃ i ∈ l, i < t.length ∧ t.length ≤ vals.length + i) →
      (∀ i ∈ l, i < t.length) →
      Res.mapL (indexPutCell t ix.storage vals ⟨t.length, [t.length], [1], [0], vals.length, 1, 0, 0⟩) l =
        .ub := by
    have hcell : ∀ i, i < t.length →
        indexPutCell t ix.storage vals ⟨t.length, [t.length], [1], [0], vals.length, 1, 0, 0⟩ i =
          readC t (vals.length + i) := by
      intro i hi
      simp [indexPutCell, findIndex, readC, cUnravel, cFlat, Nat.mod_eq_of_lt hi]
    intro l
    induction l with
    | nil => rintro ⟨i, hi, _⟩; simp at hi
    | cons a as ih =>
      rintro ⟨i, hi, h1, h2⟩ hall
      have hc := hcell a (hall a (by simp))
      by_cases ha : t.length ≤ vals.length + a
      · have : readC t (vals.length + a) = .ub := by
          simp [readC, List.getElem?_eq_none ha]
        rw [Res.mapL, hc, this]; rfl
      · have hr : readC t (vals.length + a) = .ok (t[vals.length + a]'(by omega)) :=
          readC_eq_ok.mpr (List.getElem?_eq_getElem (by omega))
        have hi' : i ∈ as := by
          rcases List.mem_cons.mp hi with rfl | h
          · omega
          · exact h
        have := ih ⟨i, hi', h1, h2⟩ (fun j hj => hall j (by simp [hj]))
        rw [Res.mapL, hc, hr, Res.ok_bind, this]; rfl
  have := hbad (List.range t.length) ⟨t.length - 1, by simp; omega, by omega, by omega⟩ (by simp)
  simp only [runLoop, this]
  rfl

example : Tensor.indexPut ⟨[1, 2, 3], Layout.fromShape [3]⟩ 0 ⟨[0], Layout.fromShape [1]⟩
    ⟨[(9 : Int)], Layout.fromShape [1]⟩ = .ub :=
  C29_one_dim_always_ub (by decide) (by decide) (by unfold IsAxis; decide)

/-- The same on matrices. -/
theorem C29_two_dim_ub :
    Tensor.indexPut ⟨[1, 2, 3, 4], Layout.fromShape [2, 2]⟩ 0 ⟨[0], Layout.fromShape [1]⟩
      ⟨[(9 : Int), 8], Layout.fromShape [1, 2]⟩ = .ub := by decide +kernel

end Hodu
