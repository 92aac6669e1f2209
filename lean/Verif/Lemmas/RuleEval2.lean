import Verif.Lemmas.RuleEval
import Verif.Props.SumToShape

/-!
# Evaluation of the binary backward rules when one operand is broadcast

The tensors have one of two shapes: the shape `d` of the output, or the shape `e` of an operand that
broadcasts to `d`.  A rule whose left operands are never smaller than its right operands computes its
scalar expression.
-/

namespace Hodu
open Spec

variable {α : Type}

/-- A comparison whose right operand broadcasts to the left operand's shape. -/
theorem Val.compare_broadcast {a b : Tensor α} {d e : List Nat} {F G : List Nat → α} (ha : Val a d F)
    (hb : Val b e G) (hbr : BroadcastsTo e d) (hpd : ∀ x ∈ d, 0 < x) (hpe : ∀ x ∈ e, 0 < x)
    (f : α → α → Bool) :
    ∃ r, Tensor.binaryBool f a b = .ok r ∧
      Val r d (fun i => f (F i) (G (broadcastIndex e i))) := by
  obtain ⟨hc, hs⟩ := commonShape_of_broadcastsTo hbr
  obtain ⟨h1, _⟩ := C06_broadcast_dims_partial d e hpd hpe
  obtain ⟨out, e1, e2⟩ := h1 hc
  obtain rfl : out = d := e2.unique hs
  obtain ⟨l, l1, l2, l3, l4⟩ := ha.broadcast_self
  obtain ⟨r, r1, r2, _⟩ := hb.broadcast hbr
  obtain ⟨xs, hx⟩ := l2.wf.hasValues
  obtain ⟨ys, hy⟩ := r2.wf.hasValues
  have hk := binaryBoolKernel_ok (f := f) l2.wf r2.wf (by rw [l2.dims, r2.dims]) hx hy
  have hv : ∀ idx, InRange idx out → Tensor.elem ⟨List.zipWith f xs ys, l.layout⟩ idx =
      some (f (F idx) (G (broadcastIndex e idx))) := by
    intro idx hi
    have h3 := hx.2 idx (by rw [l2.dims]; exact hi)
    have h4 := hy.2 idx (by rw [r2.dims]; exact hi)
    rw [l2.vals idx hi, l2.dims] at h3
    rw [r2.vals idx hi, r2.dims] at h4
    simp only [Tensor.elem, l3, l4 idx hi]
    simp [List.getElem?_zipWith, h3, h4]
  refine ⟨⟨List.zipWith f xs ys, l.layout⟩, ?_, ⟨l2.wf.1, fun idx hi => ?_⟩, l2.dims, Or.inr l3, hv⟩
  · simp [Tensor.binaryBool, Tensor.broadcast2, ha.dims, hb.dims, e1, l1, r1, hk]
  · have hi : InRange idx l.layout.dims := hi
    rw [hv idx (by rw [← l2.dims]; exact hi)]
    rfl

/-- The size of a rule's result: `true` for the output's shape, `false` for the smaller operand's;
`none` if a smaller tensor meets a larger one from the left. -/
def Ex.big (env : List Bool) : Ex → Option Bool
  | .leaf i => env[i]?
  | .like _ e | .un _ e | .scal _ e _ | .mask _ e _ => e.big env
  | .bin _ a b | .cmp _ a b => match a.big env, b.big env with
    | some true, some _ => some true
    | some false, some false => some false
    | _, _ => none
  | .mulBool _ _ => none

/-- A tensor of one of the two shapes. -/
structure Leaf (α : Type) where
  t : Tensor α
  big : Bool
  F : List Nat → α

/-- The value of a tensor of either shape at a position of the output. -/
def Leaf.at (l : Leaf α) (e : List Nat) (j : List Nat) : α :=
  if l.big then l.F j else l.F (broadcastIndex e j)

/-- A rule on tensors of two shapes. -/
theorem Ex.run_val2 (A : FOps α) (cores : Nat) (fill : α) {d e : List Nat} (hbr : BroadcastsTo e d)
    (hpd : ∀ y ∈ d, 0 < y) (hpe : ∀ y ∈ e, 0 < y) {ls : List (Leaf α)}
    (hls : ∀ l ∈ ls, Val l.t (if l.big then d else e) l.F) (ex : Ex) (b : Bool)
    (hb : ex.big (ls.map (·.big)) = some b) :
    ∃ (r : Tensor α) (F : List Nat → α), ex.run A cores fill (ls.map (·.t)) = .ok r ∧
      Val r (if b then d else e) F ∧
      ∀ j, ex.scalar A (ls.map fun l => l.at e j) =
        some (if b then F j else F (broadcastIndex e j)) := by
  have hshape : ∀ y ∈ (if b then d else e), 0 < y := by cases b <;> simpa
  induction ex generalizing b with
  | leaf i =>
    simp only [big, List.getElem?_map, Option.map_eq_some_iff] at hb
    obtain ⟨l, h1, rfl⟩ := hb
    refine ⟨l.t, l.F, by simp [run, h1], hls l (List.mem_of_getElem? h1), fun j => ?_⟩
    simp [scalar, h1, Leaf.at]
  | like c ex ih =>
    obtain ⟨r, F, h1, h2, h3⟩ := ih b hb hshape
    refine ⟨⟨List.replicate (shapeSize r.dims) (A.cst c), Layout.fromShape r.dims⟩,
      fun _ => A.cst c, by simp only [run, h1, Res.ok_bind], ?_, fun j => by simp [scalar, h3 j]⟩
    rw [h2.dims, shapeSize_eq]
    exact Val.fresh (by simp) fun idx hi => getElem?_rowMajor_replicate _ hi
  | un o ex ih =>
    obtain ⟨r, F, h1, h2, h3⟩ := ih b hb hshape
    obtain ⟨s, h4, h5⟩ := h2.unary cores (A.un o) fill
    refine ⟨s, _, by simp only [run, h1, Res.ok_bind, h4], h5, fun j => ?_⟩
    cases b <;> simp [scalar, h3 j]
  | scal o ex c ih =>
    obtain ⟨r, F, h1, h2, h3⟩ := ih b hb hshape
    obtain ⟨s, h4, h5⟩ := h2.unary cores (fun x => A.bin o x (A.cst c)) fill
    refine ⟨s, _, by simp only [run, h1, Res.ok_bind, h4], h5, fun j => ?_⟩
    cases b <;> simp [scalar, h3 j]
  | mask o ex c ih =>
    obtain ⟨r, F, h1, h2, h3⟩ := ih b hb hshape
    obtain ⟨m, h6, h7⟩ := h2.unary cores (fun x => A.cmp o x (A.cst c)) false
    obtain ⟨s, h8, h9⟩ := h7.unary cores A.ofBool fill
    refine ⟨s, _, by simp only [run, h1, Res.ok_bind, h6, h8], h9, fun j => ?_⟩
    cases b <;> simp [scalar, h3 j]
  | bin o x y ihx ihy =>
    simp only [big] at hb
    split at hb
    · rename_i b' hx hy
      cases hb
      obtain ⟨r, F, h1, h2, h3⟩ := ihx true hx (by simpa using hpd)
      obtain ⟨s, G, h4, h5, h6⟩ := ihy b' hy (by cases b' <;> simpa)
      cases b' with
      | true =>
        obtain ⟨u, h7, h8⟩ := Val.binary_same h2 h5 (by simpa using hpd) cores (A.bin o) fill
        exact ⟨u, _, by simp only [run, h1, h4, Res.ok_bind, h7], h8,
          fun j => by simp [scalar, h3 j, h6 j]⟩
      | false =>
        obtain ⟨u, h7, h8⟩ := Val.binary h2 h5 (by simpa using hbr) (by simpa using hpd)
          (by simpa using hpe) cores (A.bin o) fill
        exact ⟨u, _, by simp only [run, h1, h4, Res.ok_bind, h7], h8,
          fun j => by simp [scalar, h3 j, h6 j]⟩
    · rename_i hx hy
      cases hb
      obtain ⟨r, F, h1, h2, h3⟩ := ihx false hx (by simpa using hpe)
      obtain ⟨s, G, h4, h5, h6⟩ := ihy false hy (by simpa using hpe)
      obtain ⟨u, h7, h8⟩ := Val.binary_same h2 h5 (by simpa using hpe) cores (A.bin o) fill
      exact ⟨u, _, by simp only [run, h1, h4, Res.ok_bind, h7], h8,
        fun j => by simp [scalar, h3 j, h6 j]⟩
    · cases hb
  | cmp o x y ihx ihy =>
    simp only [big] at hb
    split at hb
    · rename_i b' hx hy
      cases hb
      obtain ⟨r, F, h1, h2, h3⟩ := ihx true hx (by simpa using hpd)
      obtain ⟨s, G, h4, h5, h6⟩ := ihy b' hy (by cases b' <;> simpa)
      cases b' with
      | true =>
        obtain ⟨m, h7, h8⟩ := Val.compare h2 h5 (by simpa using hpd) (A.cmp o)
        obtain ⟨u, h9, h10⟩ := h8.unary cores A.ofBool fill
        exact ⟨u, _, by simp only [run, h1, h4, Res.ok_bind, h7, h9], h10,
          fun j => by simp [scalar, h3 j, h6 j]⟩
      | false =>
        obtain ⟨m, h7, h8⟩ := Val.compare_broadcast h2 h5 (by simpa using hbr) (by simpa using hpd)
          (by simpa using hpe) (A.cmp o)
        obtain ⟨u, h9, h10⟩ := h8.unary cores A.ofBool fill
        exact ⟨u, _, by simp only [run, h1, h4, Res.ok_bind, h7, h9], h10,
          fun j => by simp [scalar, h3 j, h6 j]⟩
    · rename_i hx hy
      cases hb
      obtain ⟨r, F, h1, h2, h3⟩ := ihx false hx (by simpa using hpe)
      obtain ⟨s, G, h4, h5, h6⟩ := ihy false hy (by simpa using hpe)
      obtain ⟨m, h7, h8⟩ := Val.compare h2 h5 (by simpa using hpe) (A.cmp o)
      obtain ⟨u, h9, h10⟩ := h8.unary cores A.ofBool fill
      exact ⟨u, _, by simp only [run, h1, h4, Res.ok_bind, h7, h9], h10,
        fun j => by simp [scalar, h3 j, h6 j]⟩
    · cases hb
  | mulBool _ _ _ _ => simp [big] at hb

/-- `sum_to_shape` of a tensor with known values. -/
theorem Val.sumToShape {M : Type} [AddCommMonoid M] {t : Tensor M} {d e : List Nat}
    {F : List Nat → M} (h : Val t d F) (hbr : BroadcastsTo e d) (hr : d.length ≤ 16)
    (hpd : ∀ y ∈ d, 0 < y) :
    ∃ r, t.sumToShape (· + ·) 0 e = .ok r ∧ r.WF ∧ r.dims = e ∧
      ∀ i, InRange i e → r.elem i =
        some (((allIndices d).filter fun j => broadcastIndex e j = i).map F).sum := by
  obtain ⟨r, h1, h2, h3⟩ := C33_sum_to_shape_partial (target := e) h.wf (by rw [h.dims]; exact hr)
    (by rw [h.dims]; exact hbr) (by rw [h.dims]; exact hpd)
  refine ⟨r, h1, h3.wf, h2, fun i hi => ?_⟩
  obtain ⟨js, vals, a, b, c, e1⟩ := h3.sums i (by rw [h2]; exact hi)
  rw [e1]
  congr 1
  have hp : js.Perm ((allIndices d).filter fun j => broadcastIndex e j = i) := by
    apply (List.perm_ext_iff_of_nodup a ((nodup_allIndices d).filter _)).mpr
    intro j
    rw [b, List.mem_filter, mem_allIndices, h.dims]
    simp
  have hv : vals = js.map F := by
    have : vals.map some = (js.map F).map some := by
      rw [← c, List.map_map]
      apply List.map_congr_left
      intro j hj
      have := ((b j).mp hj).1
      rw [h.dims] at this
      exact h.vals j this
    exact List.map_injective_iff.mpr (Option.some_injective M) this
  rw [hv]
  exact (hp.map F).sum_eq

end Hodu
