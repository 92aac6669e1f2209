import Verif.Props.SumToShape

/-!
# Composition of tensor operations

`Val t d F` says that the tensor `t` has shape `d` and element `F idx` at every index, and that its
layout is one for which the element-wise operators of the code attach a correct layout to their
result (see C10: a contiguous view with a non-zero offset is not).  The closure lemmas below compose
the single-operation theorems (C05, C10, C11, C12, C21) into statements about programs made of
several tensor operations.
-/

namespace Hodu
open Spec

variable {α β : Type}

/-- `t` has shape `d` and values `F`; its layout is not a shifted contiguous view. -/
structure Val (t : Tensor α) (d : List Nat) (F : List Nat → α) : Prop where
  wf : t.WF
  dims : t.dims = d
  off : t.layout.isContiguous = false ∨ t.layout.offset = 0
  vals : ∀ idx, InRange idx d → t.elem idx = some (F idx)

theorem Val.congr {t : Tensor α} {d : List Nat} {F G : List Nat → α} (h : Val t d F)
    (he : ∀ idx, InRange idx d → F idx = G idx) : Val t d G :=
  ⟨h.wf, h.dims, h.off, fun idx hi => by rw [h.vals idx hi, he idx hi]⟩

/-- A fresh tensor. -/
theorem Val.fresh {s : List α} {d : List Nat} {F : List Nat → α} (h : s.length = numel d)
    (hv : ∀ idx, InRange idx d → s[rowMajor d idx]? = some (F idx)) :
    Val ⟨s, Layout.fromShape d⟩ d F := by
  refine ⟨fresh_wf h.symm, rfl, Or.inr rfl, ?_⟩
  intro idx hi
  simp only [Layout.fromShape, elem_rowMajor]
  simpa using hv idx hi

theorem Val.unary_h0 {t : Tensor α} {d : List Nat} {F : List Nat → α} (h : Val t d F) :
    t.dims ≠ [] ∨ t.layout.offset = 0 := by
  by_cases hd : t.dims = []
  · right
    rcases h.off with h1 | h1
    · rw [isContiguous_rank0 hd] at h1; simp at h1
    · exact h1
  · exact Or.inl hd

theorem Val.unary {t : Tensor α} {d : List Nat} {F : List Nat → α} (h : Val t d F) (cores : Nat)
    (f : α → β) (fill : β) :
    ∃ r, t.unary cores f fill = .ok r ∧ Val r d (fun i => f (F i)) := by
  obtain ⟨xs, hx⟩ := h.wf.hasValues
  have hk := unaryKernel_ok (f := f) h.wf hx h.unary_h0 cores (List.replicate t.layout.size fill)
    (by simp [Layout.size, shapeSize_eq])
  refine ⟨⟨xs.map f, Layout.fromShape t.dims⟩, by simp [Tensor.unary, hk], ?_⟩
  rw [h.dims]
  apply Val.fresh
  · simpa [h.dims] using hx.1
  · intro idx hi
    have := hx.2 idx (h.dims ▸ hi)
    rw [h.vals idx hi, h.dims] at this
    simp [this]

theorem Val.broadcast {t : Tensor α} {d : List Nat} {F : List Nat → α} (h : Val t d F)
    {target : List Nat} (hb : BroadcastsTo d target) :
    ∃ r, t.broadcast target = .ok r ∧ Val r target (fun i => F (broadcastIndex d i)) ∧
      r.layout.offset = 0 := by
  obtain ⟨s, o, c1, c2, c3⟩ := contiguous_spec h.wf
  have ho : o = 0 := by
    rcases c3 with ⟨c3, _⟩ | ⟨_, c3, c4⟩
    · exact c3
    · rcases h.off with hoff | hoff
      · rw [hoff] at c4; simp at c4
      · omega
  subst ho
  obtain ⟨st, b1, b2, b3⟩ := (broadcastTo_spec (l := ⟨t.dims, Layout.computeStrides t.dims, 0⟩)
    (target := target) (computeStrides_length _)).1 (by simpa [h.dims] using hb)
  have hv : ∀ idx, InRange idx target →
      Tensor.elem ⟨s, ⟨target, st, 0⟩⟩ idx = some (F (broadcastIndex d idx)) := by
    intro idx hi
    obtain ⟨b4, b5⟩ := b3 idx hi
    simp only at b4 b5
    simp only [Tensor.elem, b5, dot_computeStrides]
    rw [c2 _ b4, h.dims, h.vals _ (by rw [← h.dims]; exact b4)]
  refine ⟨⟨s, ⟨target, st, 0⟩⟩, by simp [Tensor.broadcast, Tensor.viewVia, c1, b1], ?_, rfl⟩
  exact ⟨⟨b2, fun idx hi => by rw [hv idx hi]; rfl⟩, rfl, Or.inr rfl, hv⟩

/-- A shape that broadcasts to `a` is compatible with it and their common shape is `a`. -/
theorem commonShape_of_broadcastsTo {a b : List Nat} (h : BroadcastsTo b a) :
    Compatible a b ∧ CommonShape a b a := by
  obtain ⟨h1, h2⟩ := h
  have key : ∀ k, dimFromRight b k = 1 ∨ dimFromRight b k = dimFromRight a k := by
    intro k
    by_cases hk : k < b.length
    · have hg := get_of_dimFromRight (dims := b) (k := b.length - 1 - k) (by omega)
      rw [show b.length - 1 - (b.length - 1 - k) = k by omega] at hg
      rcases h2 _ _ hg with h3 | h3
      · exact Or.inl h3
      · right
        have := (dimFromRight_get h3).1
        rw [show a.length - 1 - (b.length - 1 - k + (a.length - b.length)) = k by omega] at this
        exact this.symm
    · left
      unfold dimFromRight
      rw [List.getD_eq_getElem?_getD, List.getElem?_eq_none (by simp; omega)]
      rfl
  constructor
  · intro k
    rcases key k with h3 | h3
    · exact Or.inr (Or.inr h3)
    · exact Or.inl h3.symm
  · refine ⟨by omega, fun k => ?_⟩
    split
    · rename_i h4
      rcases key k with h3 | h3
      · rw [h3, h4]
      · exact h3.symm
    · rfl

/-- An index in range of the target, mapped to the source of a broadcast, is in range there. -/
theorem inRange_broadcastIndex {d target idx : List Nat} (hb : BroadcastsTo d target)
    (hi : InRange idx target) : InRange (broadcastIndex d idx) d := by
  obtain ⟨st, _, _, b3⟩ := (broadcastTo_spec (l := ⟨d, Layout.computeStrides d, 0⟩)
    (target := target) (computeStrides_length _)).1 hb
  exact (b3 idx hi).1

theorem broadcastsTo_self (d : List Nat) : BroadcastsTo d d :=
  ⟨le_rfl, fun k x h => Or.inr (by simpa using h)⟩

/-- The broadcast left operand when its shape does not change. -/
theorem Val.broadcast_self {t : Tensor α} {d : List Nat} {F : List Nat → α} (h : Val t d F) :
    ∃ r, t.broadcast d = .ok r ∧ Val r d F ∧ r.layout.offset = 0 ∧
      ∀ idx, InRange idx d → dot idx r.layout.strides = rowMajor d idx := by
  obtain ⟨s, o, c1, c2, c3⟩ := contiguous_spec h.wf
  have ho : o = 0 := by
    rcases c3 with ⟨c3, _⟩ | ⟨_, c3, c4⟩
    · exact c3
    · rcases h.off with hoff | hoff
      · rw [hoff] at c4; simp at c4
      · omega
  subst ho
  obtain ⟨st, b1, b2, b3⟩ := (broadcastTo_spec (l := ⟨t.dims, Layout.computeStrides t.dims, 0⟩)
    (target := d) (computeStrides_length _)).1 (by simpa [h.dims] using broadcastsTo_self d)
  have hst : ∀ idx, InRange idx d → dot idx st = rowMajor d idx := by
    intro idx hi
    have := (b3 idx hi).2
    simp only [h.dims] at this
    rw [this, broadcastIndex_self hi, dot_computeStrides]
  have hv : ∀ idx, InRange idx d → Tensor.elem ⟨s, ⟨d, st, 0⟩⟩ idx = some (F idx) := by
    intro idx hi
    simp only [Tensor.elem, hst idx hi]
    have := c2 idx (by rw [h.dims]; exact hi)
    rw [h.dims, h.vals idx hi] at this
    exact this
  refine ⟨⟨s, ⟨d, st, 0⟩⟩, by simp [Tensor.broadcast, Tensor.viewVia, c1, b1], ?_, rfl, hst⟩
  exact ⟨⟨b2, fun idx hi => by rw [hv idx hi]; rfl⟩, rfl, Or.inr rfl, hv⟩

/-- A binary operation whose right operand broadcasts to the left operand's shape. -/
theorem Val.binary {a b : Tensor α} {d e : List Nat} {F G : List Nat → α} (ha : Val a d F)
    (hb : Val b e G) (hbr : BroadcastsTo e d) (hpd : ∀ x ∈ d, 0 < x) (hpe : ∀ x ∈ e, 0 < x)
    (cores : Nat) (f : α → α → β) (fill : β) :
    ∃ r, Tensor.binary cores f fill a b = .ok r ∧
      Val r d (fun i => f (F i) (G (broadcastIndex e i))) := by
  obtain ⟨hc, hs⟩ := commonShape_of_broadcastsTo hbr
  obtain ⟨h1, _⟩ := C06_broadcast_dims_partial d e hpd hpe
  obtain ⟨out, e1, e2⟩ := h1 hc
  obtain rfl : out = d := e2.unique hs
  obtain ⟨l, l1, l2, l3, l4⟩ := ha.broadcast_self
  obtain ⟨r, r1, r2, _⟩ := hb.broadcast hbr
  obtain ⟨vals, v1, v2, v3, _⟩ := C09_kernel_value l2.wf r2.wf (by rw [l2.dims, r2.dims]) f
  have hk := v3 cores (List.replicate l.layout.size fill) (by simp [Layout.size, shapeSize_eq])
  have hv : ∀ idx, InRange idx out → Tensor.elem ⟨vals, l.layout⟩ idx =
      some (f (F idx) (G (broadcastIndex e idx))) := by
    intro idx hi
    obtain ⟨x, y, hx, hy, hxy⟩ := v2 idx (by rw [l2.dims]; exact hi)
    rw [l2.vals idx hi] at hx
    rw [r2.vals idx hi] at hy
    cases hx
    cases hy
    simp only [Tensor.elem, l3, l4 idx hi]
    rw [l2.dims] at hxy
    simpa using hxy
  refine ⟨⟨vals, l.layout⟩, ?_, ⟨l2.wf.1, fun idx hi => ?_⟩, l2.dims, Or.inr l3, hv⟩
  · simp [Tensor.binary, Tensor.broadcast2, ha.dims, hb.dims, e1, l1, r1, hk]
  · have hi : InRange idx l.layout.dims := hi
    rw [hv idx (by rw [← l2.dims]; exact hi)]
    rfl

/-- The same for operands of equal shape. -/
theorem Val.binary_same {a b : Tensor α} {d : List Nat} {F G : List Nat → α} (ha : Val a d F)
    (hb : Val b d G) (hpd : ∀ x ∈ d, 0 < x) (cores : Nat) (f : α → α → β) (fill : β) :
    ∃ r, Tensor.binary cores f fill a b = .ok r ∧ Val r d (fun i => f (F i) (G i)) := by
  obtain ⟨r, h1, h2⟩ := ha.binary hb (broadcastsTo_self d) hpd hpd cores f fill
  exact ⟨r, h1, h2.congr fun idx hi => by rw [broadcastIndex_self hi]⟩

/-- A comparison of operands of equal shape. -/
theorem Val.compare {a b : Tensor α} {d : List Nat} {F G : List Nat → α} (ha : Val a d F)
    (hb : Val b d G) (hpd : ∀ x ∈ d, 0 < x) (f : α → α → Bool) :
    ∃ r, Tensor.binaryBool f a b = .ok r ∧ Val r d (fun i => f (F i) (G i)) := by
  obtain ⟨hc, hs⟩ := commonShape_of_broadcastsTo (broadcastsTo_self d)
  obtain ⟨h1, _⟩ := C06_broadcast_dims_partial d d hpd hpd
  obtain ⟨out, e1, e2⟩ := h1 hc
  obtain rfl : out = d := e2.unique hs
  obtain ⟨l, l1, l2, l3, l4⟩ := ha.broadcast_self
  obtain ⟨r, r1, r2, _, _⟩ := hb.broadcast_self
  obtain ⟨xs, hx⟩ := l2.wf.hasValues
  obtain ⟨ys, hy⟩ := r2.wf.hasValues
  have hk := binaryBoolKernel_ok (f := f) l2.wf r2.wf (by rw [l2.dims, r2.dims]) hx hy
  have hv : ∀ idx, InRange idx out → Tensor.elem ⟨List.zipWith f xs ys, l.layout⟩ idx =
      some (f (F idx) (G idx)) := by
    intro idx hi
    have h3 := hx.2 idx (by rw [l2.dims]; exact hi)
    have h4 := hy.2 idx (by rw [r2.dims]; exact hi)
    rw [l2.vals idx hi, l2.dims] at h3
    rw [r2.vals idx hi, r2.dims] at h4
    simp only [Tensor.elem, l3, l4 idx hi]
    simp [List.getElem?_zipWith, h3, h4]
  refine ⟨⟨List.zipWith f xs ys, l.layout⟩, ?_, ⟨l2.wf.1, fun idx hi => ?_⟩, l2.dims, Or.inr l3, hv⟩
  · simp [Tensor.binaryBool, Tensor.broadcast2, ha.dims, hb.dims, e1, l1, r1, hk]
  · have hi : InRange idx l.layout.dims := hi
    rw [hv idx (by rw [← l2.dims]; exact hi)]
    rfl

/-- A reduction: the value at `idx` is `comb` of the values at the positions reduced to `idx`, each
listed once. -/
theorem Val.reduce {t : Tensor α} {d : List Nat} {F : List Nat → α} (h : Val t d F) {ds : List Int}
    {K : List Nat} {keep : Bool} (hr : d.length ≤ 16) (hax : NamesAxes d.length ds K)
    (hn : K.Nodup) (hpd : ∀ x ∈ d, 0 < x) (comb : List α → β) :
    ∃ (r : Tensor β) (L : List Nat → List (List Nat)), t.reduce comb ds keep = .ok r ∧
      (∀ idx, InRange idx (reduceShape K keep d) → (L idx).Nodup ∧
        ∀ j, j ∈ L idx ↔ InRange j d ∧ reduceIndex K keep j = idx) ∧
      Val r (reduceShape K keep d) (fun idx => comb ((L idx).map F)) := by
  obtain ⟨r, h1, h2, h3, h4⟩ := reduceWith_ok (K := K) (keep := keep) h.wf (by rw [h.dims]; exact hr)
    (by rw [h.dims]; exact hax) hn (by
      intro _ p _ h0
      rw [h.dims] at h0
      have := hpd 0 (List.mem_of_getElem? h0)
      omega) (fun vs : List (List Nat × α) => comb (vs.map Prod.snd))
  rw [h.dims] at h3 h4
  classical
  let L : List Nat → List (List Nat) := fun idx =>
    if hi : InRange idx (reduceShape K keep d) then (h4 idx hi).choose else []
  refine ⟨r, L, h1, ?_, ?_⟩
  · intro idx hi
    obtain ⟨vals, a, b, c⟩ := (h4 idx hi).choose_spec
    have hL : L idx = (h4 idx hi).choose := by simp only [L]; rw [dif_pos hi]
    rw [hL]
    exact ⟨a.nodup, a.mem⟩
  · refine ⟨h2, by show r.layout.dims = _; rw [h3]; rfl, Or.inr (by rw [h3]; rfl), ?_⟩
    intro idx hi
    obtain ⟨vals, a, b, c⟩ := (h4 idx hi).choose_spec
    have hL : L idx = (h4 idx hi).choose := by simp only [L]; rw [dif_pos hi]
    rw [← hL] at a b c
    rw [c]
    have hb : (L idx).map F = vals := by
      have hb' : ((L idx).map F).map some = vals.map some := by
        rw [← b, List.map_map]
        apply List.map_congr_left
        intro j hj
        exact (h.vals j ((a.mem j).mp hj).1).symm
      exact List.map_injective_iff.mpr (Option.some_injective _) hb'
    rw [hb, List.map_snd_zip]
    have := congrArg List.length hb
    simp at this
    omega

end Hodu
