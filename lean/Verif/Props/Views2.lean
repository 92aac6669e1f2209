import Verif.Props.Views
import Mathlib.Tactic.NormNum

/-!
# Properties C04–C08, C13: slicing, broadcasting, unit dimensions, memory safety of views
-/

namespace Hodu
open Spec

/-! ## C04 -/

/-- Python-style resolution of the start of a slice, for either direction. -/
def Spec.sliceFrom (d : Nat) (start step : Int) : Int :=
  let x := if start < 0 then (d : Int) + start else start
  if 0 < step then max 0 (min x d) else max (-1) (min x ((d : Int) - 1))

/-- Python-style resolution of the end of a slice, for either direction. -/
def Spec.sliceTo (d : Nat) (stop : Option Int) (step : Int) : Int :=
  match stop with
  | none => if 0 < step then d else -1
  | some e =>
    let x := if e < 0 then (d : Int) + e else e
    if 0 < step then max 0 (min x d) else max (-1) (min x ((d : Int) - 1))

/-- Position `start + j * step` lies before the end, in the direction of the step. -/
def Spec.sliceSelects (d : Nat) (start : Int) (stop : Option Int) (step : Int) (j : Nat) : Prop :=
  if 0 < step then sliceFrom d start step + j * step < sliceTo d stop step
  else sliceTo d stop step < sliceFrom d start step + j * step

/-- What a correct slice does for given arguments: an empty selection is an error; otherwise the
sliced dimension holds exactly the selected positions, in order. -/
def Spec.SliceCorrect (t : Tensor α) (dim start : Int) (stop : Option Int) (step : Int) (k : Nat) : Prop :=
  let d := t.dims.getD k 0
  (¬ sliceSelects d start stop step 0 → t.slice dim start stop step = .err) ∧
  (sliceSelects d start stop step 0 → ∃ r n, t.slice dim start stop step = .ok r ∧ r.WF ∧
    r.dims = t.dims.set k n ∧ (∀ j, j < n ↔ sliceSelects d start stop step j) ∧
    ∀ idx, InRange idx r.dims →
      r.elem idx = t.elem (idx.set k (sliceFrom d start step + idx.getD k 0 * step).toNat))

/-- The full property C04: every valid axis, every non-zero step, every bound. -/
def C04_full : Prop :=
  ∀ (t : Tensor Nat) (dim start : Int) (stop : Option Int) (step : Int) (k : Nat),
    t.WF → t.dims.length < 2 ^ 31 → IsAxis t.dims.length dim k → t.dims.getD k 0 < 2 ^ 31 →
    I32 start → (∀ e, stop = some e → I32 e) → I32 step → step ≠ 0 →
    SliceCorrect t dim start stop step k

/-- The tensor `[10, 20, 30]`. -/
private def exV3 : Tensor Nat := ⟨[10, 20, 30], ⟨[3], [1], 0⟩⟩

private theorem exV3_wf : exV3.WF := by
  refine ⟨rfl, fun idx hi => ?_⟩
  have hn := rowMajor_lt hi
  rw [← unravel_rowMajor hi]
  have : ∀ n, n < 3 → (exV3.elem (unravel [3] n)).isSome := by decide +kernel
  exact this _ hn

/-- **C04 fails on the code for negative steps**: `[10,20,30]` sliced with start 2, no end and step
-1 is not `[30,20,10]` (its second element does not even exist). -/
theorem C04_full_false : ¬ C04_full := by
  intro h
  have h1 := h exV3 0 2 none (-1) 0 exV3_wf (by decide +kernel) ⟨by decide +kernel, Or.inl rfl⟩ (by decide +kernel)
    ⟨by decide +kernel, by decide +kernel⟩ (by simp) ⟨by decide +kernel, by decide +kernel⟩ (by decide +kernel)
  obtain ⟨_, h2⟩ := h1
  obtain ⟨r, n, hr, hw, hd, _, _⟩ := h2 (by unfold sliceSelects; decide +kernel)
  have : exV3.slice 0 2 none (-1) = .ok ⟨[10, 20, 30], ⟨[3], [1], 2⟩⟩ := by decide +kernel
  rw [this] at hr
  cases hr
  have := hw.2 [1] (by decide +kernel)
  exact absurd this (by decide +kernel)

/-- The step argument overflows `i32` arithmetic: a one-element selection with a huge step panics
(debug build) instead of selecting one element. -/
theorem C04_overflow_panics : exV3.slice 0 0 none 2147483647 = .panic := by decide +kernel

/-- **C04 for positive steps**, as long as `end - start + step` stays inside `i32`.
Missing from the full property: negative steps (false, `C04_full_false`) and steps so large that the
`i32` arithmetic overflows (`C04_overflow_panics`). -/
theorem C04_slice_partial {t : Tensor α} (ht : t.WF) {dim start step : Int} {stop : Option Int}
    {k : Nat} (hrank : t.dims.length < 2 ^ 31) (hax : IsAxis t.dims.length dim k)
    (hd : t.dims.getD k 0 < 2 ^ 31) (hstart : I32 start) (hstop : ∀ e, stop = some e → I32 e)
    (hstep : 0 < step) (hov : (t.dims.getD k 0 : Int) + step < 2 ^ 31) :
    SliceCorrect t dim start stop step k := by
  have hk : k < t.dims.length := hax.1
  have hgd : t.dims.getD k 0 = t.dims[k] := by simp [List.getD_eq_getElem?_getD, hk]
  rw [hgd] at hd hov
  have hfrom : sliceFrom t.dims[k] start step = (sliceBound t.dims[k] start : Int) := by
    simp only [sliceFrom, hstep, if_true]; exact sliceBound_eq
  have hto : sliceTo t.dims[k] stop step = (sliceStop t.dims[k] stop : Int) := by
    cases stop with
    | none => simp [sliceTo, hstep, sliceStop]
    | some e => simp only [sliceTo, hstep, if_true]; exact sliceBound_eq
  have hsel : ∀ j, sliceSelects t.dims[k] start stop step j ↔
      (sliceBound t.dims[k] start : Int) + j * step < sliceStop t.dims[k] stop := by
    intro j; simp only [sliceSelects, hstep, if_true, hfrom, hto]
  have hle := sliceStop_le t.dims[k] stop
  obtain ⟨hsome, hnone⟩ := sliceBounds_pos hd hstart hstop hstep (by omega)
  obtain ⟨s, o, h1, h2⟩ := viewVia_spec ht (·.slice dim start stop step)
  have hslice : t.slice dim start stop step =
      ((Layout.sliceBounds t.dims[k] start stop step).bind fun p =>
        .ok ⟨s, ⟨t.dims.set k p.2.toNat, (Layout.computeStrides t.dims).set k
          ((Layout.computeStrides t.dims).getD k 0 * step.natAbs),
          o + p.1.toNat * (Layout.computeStrides t.dims).getD k 0⟩⟩) := by
    rw [Tensor.slice, h1]
    have hks : k < (Layout.computeStrides t.dims).length := by rw [computeStrides_length]; exact hk
    simp only [Layout.slice, Layout.ndim, castUsize_axis hrank hax, List.getElem?_eq_getElem hk,
      List.getElem?_eq_getElem hks, castI32_small hd, List.getD_eq_getElem?_getD, Option.getD_some]
    rw [if_neg (by omega)]
    cases Layout.sliceBounds (↑t.dims[k]) start stop step <;> rfl
  unfold SliceCorrect
  simp only [hgd]
  constructor
  · intro hno
    rw [hsel] at hno
    rw [hslice, hnone (by omega)]
    rfl
  · intro hyes
    rw [hsel] at hyes
    obtain ⟨n, hb, hj⟩ := hsome (by omega)
    obtain ⟨hw, hel⟩ := sliced_view (s := s) (o := o) (k := k) (cs := sliceBound t.dims[k] start)
      (step := step.natAbs) (n := n) ht h2 hk rfl (fun j hjn => by
        have h3 := (hj j).mp hjn
        have h4 : ((j * step.natAbs : Nat) : Int) = j * step := by
          rw [Int.natCast_mul]; congr 1; omega
        omega)
    refine ⟨_, n, ?_, hw, ?_, ?_, ?_⟩
    · rw [hslice, hb, Res.ok_bind]
      simp only [Int.toNat_natCast]
    · rfl
    · intro j; rw [hj, hsel]
    · intro idx hi
      rw [(hel idx hi).2, hfrom]
      congr 2
      have h4 : ((idx.getD k 0 * step.natAbs : Nat) : Int) = (idx.getD k 0 : Int) * step := by
        rw [Int.natCast_mul]; congr 1; omega
      omega

/-- C04: the hypotheses hold for `[10,20,30][0:3:2]`, and the call gives `[10,30]`. -/
example : exV3.WF ∧ IsAxis 1 (-1) 0 ∧ I32 0 ∧ sliceSelects 3 0 (some 3) 2 1 ∧
    exV3.slice (-1) 0 (some 3) 2 = .ok ⟨[10, 20, 30], ⟨[2], [2], 0⟩⟩ :=
  ⟨exV3_wf, by simp [IsAxis], ⟨by norm_num, by norm_num⟩, by unfold sliceSelects; decide +kernel, by decide +kernel⟩

/-- **C04, bad arguments.** A zero step or an axis that does not exist is an error. -/
theorem C04_slice_rejects {t : Tensor α} (ht : t.WF) {dim start step : Int} {stop : Option Int}
    (hrank : t.dims.length < 2 ^ 31) (hdim : I32 dim)
    (h : step = 0 ∨ ∀ k, ¬ IsAxis t.dims.length dim k) : t.slice dim start stop step = .err := by
  obtain ⟨s, o, h1, _⟩ := viewVia_spec ht (·.slice dim start stop step)
  rw [Tensor.slice, h1]
  by_cases hax : ∃ k, IsAxis t.dims.length dim k
  · have h0 : step = 0 := h.resolve_right (fun hc => hax.elim fun k hk => hc k hk)
    obtain ⟨k, hk⟩ := hax
    simp only [Layout.slice, Layout.ndim, castUsize_axis hrank hk]
    have hks : k < (Layout.computeStrides t.dims).length := by rw [computeStrides_length]; exact hk.1
    simp [List.getElem?_eq_getElem hk.1, List.getElem?_eq_getElem hks, h0]
  · have := castUsize_not_axis hrank hdim (fun k hk => hax ⟨k, hk⟩)
    simp only [Layout.slice, Layout.ndim]
    rw [List.getElem?_eq_none this]
    rfl

example : exV3.slice 1 0 none 1 = .err ∧ exV3.slice 0 0 none 0 = .err := by decide +kernel

/-! ## C05 -/

/-- **C05.** `broadcast` succeeds exactly for shapes that broadcast; every element of the result is
the source element at the right-aligned index with unit dimensions pinned to 0. -/
theorem C05_broadcast {t : Tensor α} (ht : t.WF) (target : List Nat) :
    (¬ BroadcastsTo t.dims target → t.broadcast target = .err) ∧
    (BroadcastsTo t.dims target → ∃ r, t.broadcast target = .ok r ∧ r.dims = target ∧ r.WF ∧
      ∀ idx, InRange idx target → InRange (broadcastIndex t.dims idx) t.dims ∧
        r.elem idx = t.elem (broadcastIndex t.dims idx)) := by
  obtain ⟨s, o, h1, h2⟩ := viewVia_spec ht (·.broadcastTo target)
  obtain ⟨hok, herr⟩ := broadcastTo_spec (l := ⟨t.dims, Layout.computeStrides t.dims, o⟩)
    (target := target) (computeStrides_length _)
  constructor
  · intro hb
    rw [Tensor.broadcast, h1, herr hb]; rfl
  · intro hb
    obtain ⟨st, hbt, hlen, hidx⟩ := hok hb
    have key : ∀ idx, InRange idx target → InRange (broadcastIndex t.dims idx) t.dims ∧
        Tensor.elem ⟨s, ⟨target, st, o⟩⟩ idx = t.elem (broadcastIndex t.dims idx) := by
      intro idx hi
      obtain ⟨hr, hd⟩ := hidx idx hi
      refine ⟨hr, ?_⟩
      rw [← h2 _ hr]
      simp only [Tensor.elem, hd, dot_computeStrides]
    refine ⟨⟨s, ⟨target, st, o⟩⟩, by rw [Tensor.broadcast, h1, hbt]; rfl, rfl,
      WF_of_map ht hlen _ key, key⟩

example : BroadcastsTo [3] [2, 3] ∧ ¬ BroadcastsTo [2] [2, 3] ∧
    exV3.broadcast [2, 3] = .ok ⟨[10, 20, 30], ⟨[2, 3], [0, 1], 0⟩⟩ := by
  refine ⟨⟨by decide +kernel, ?_⟩, ?_, by decide +kernel⟩
  · intro k d hk
    right
    have : k = 0 := by
      by_contra hc
      rw [List.getElem?_eq_none (by simp; omega)] at hk
      simp at hk
    subst this; exact hk
  · rintro ⟨_, h⟩
    have := h 0 2 rfl
    simp at this

/-! ## C06 -/

/-- Size of dimension `k` counted from the right; missing dimensions count as 1. -/
def Spec.dimFromRight (dims : List Nat) (k : Nat) : Nat := dims.reverse.getD k 1

/-- The NumPy compatibility rule. -/
def Spec.Compatible (a b : List Nat) : Prop :=
  ∀ k, dimFromRight a k = dimFromRight b k ∨ dimFromRight a k = 1 ∨ dimFromRight b k = 1

/-- `out` is the NumPy common shape of `a` and `b`. -/
def Spec.CommonShape (a b out : List Nat) : Prop :=
  out.length = max a.length b.length ∧
    ∀ k, dimFromRight out k =
      if dimFromRight a k = 1 then dimFromRight b k else dimFromRight a k

theorem broadcastDimsRev_spec (a b : List Nat) (ha : ∀ d ∈ a, 0 < d) (hb : ∀ d ∈ b, 0 < d) :
    ((∀ k, a.getD k 1 = b.getD k 1 ∨ a.getD k 1 = 1 ∨ b.getD k 1 = 1) →
      ∃ out, Tensor.broadcastDimsRev a b = .ok out ∧ out.length = max a.length b.length ∧
        ∀ k, out.getD k 1 = if a.getD k 1 = 1 then b.getD k 1 else a.getD k 1) ∧
    ((¬ ∀ k, a.getD k 1 = b.getD k 1 ∨ a.getD k 1 = 1 ∨ b.getD k 1 = 1) →
      Tensor.broadcastDimsRev a b = .err) := by
  induction a generalizing b with
  | nil =>
    refine ⟨fun _ => ⟨b.map fun b => max 1 b, rfl, by simp, ?_⟩, fun h => absurd (fun k => by simp) h⟩
    intro k
    simp only [List.getD_eq_getElem?_getD, List.getElem?_map]
    by_cases hk : k < b.length
    · have := hb b[k] (List.getElem_mem hk)
      simp [hk]; omega
    · simp [List.getElem?_eq_none (Nat.le_of_not_lt hk)]
  | cons x xs ih =>
    cases b with
    | nil =>
      obtain ⟨ih1, _⟩ := ih [] (fun d hd => ha d (by simp [hd])) (by simp)
      obtain ⟨out, h1, h2, h3⟩ := ih1 (fun k => by simp)
      have hx := ha x (by simp)
      refine ⟨fun _ => ⟨max x 1 :: out, by simp [Tensor.broadcastDimsRev, h1], by simp [h2], ?_⟩,
        fun h => absurd (fun k => by simp) h⟩
      intro k
      cases k with
      | zero => simp only [List.getD_cons_zero, List.getD_nil]; split <;> omega
      | succ k => simpa using h3 k
    | cons y ys =>
      have ih := ih ys (fun d hd => ha d (by simp [hd])) (fun d hd => hb d (by simp [hd]))
      have hx := ha x (by simp)
      have hy := hb y (by simp)
      by_cases hc : x = 1 ∨ y = 1 ∨ x = y
      · constructor
        · intro h
          obtain ⟨out, h1, h2, h3⟩ := ih.1 (fun k => by simpa using h (k + 1))
          refine ⟨max x y :: out, by simp [Tensor.broadcastDimsRev, hc, h1], by simp [h2], ?_⟩
          intro k
          cases k with
          | zero => simp only [List.getD_cons_zero]; split <;> omega
          | succ k => simpa using h3 k
        · intro h
          have : ¬ ∀ k, xs.getD k 1 = ys.getD k 1 ∨ xs.getD k 1 = 1 ∨ ys.getD k 1 = 1 := by
            intro hall
            apply h
            intro k
            cases k with
            | zero => simp only [List.getD_cons_zero]; omega
            | succ k => simpa using hall k
          simp [Tensor.broadcastDimsRev, hc, ih.2 this]
      · refine ⟨fun h => ?_, fun _ => by simp [Tensor.broadcastDimsRev, hc]⟩
        have := h 0
        simp only [List.getD_cons_zero] at this
        exact absurd (by omega) hc

/-- **C06 (operand shapes without zero-size dimensions)**: the shape computed for two operands is the
NumPy common shape, and the pair is rejected exactly when it is incompatible.
Missing: zero-size dimensions (false, `C06_zero_dim_wrong`) and the public `Shape::broadcast_shape`
function (false, `C06_broadcast_shape_wrong`). -/
theorem C06_broadcast_dims_partial (a b : List Nat) (ha : ∀ d ∈ a, 0 < d) (hb : ∀ d ∈ b, 0 < d) :
    (Compatible a b → ∃ out, Tensor.broadcastDims a b = .ok out ∧ CommonShape a b out) ∧
    (¬ Compatible a b → Tensor.broadcastDims a b = .err) := by
  obtain ⟨h1, h2⟩ := broadcastDimsRev_spec a.reverse b.reverse
    (fun d hd => ha d (by simpa using hd)) (fun d hd => hb d (by simpa using hd))
  constructor
  · intro h
    obtain ⟨out, e1, e2, e3⟩ := h1 h
    refine ⟨out.reverse, by simp [Tensor.broadcastDims, e1], by simpa using e2, ?_⟩
    intro k
    simp only [dimFromRight, List.reverse_reverse]
    exact e3 k
  · intro h
    simp [Tensor.broadcastDims, h2 h]

example : (∀ d ∈ [2, 1, 3], 0 < d) ∧ (∀ d ∈ [4, 1], 0 < d) ∧
    Tensor.broadcastDims [2, 1, 3] [4, 1] = .ok [2, 4, 3] ∧
    Tensor.broadcastDims [2, 3] [4, 3] = .err := by decide +kernel

theorem broadcastDimsRev_nil (a : List Nat) :
    Tensor.broadcastDimsRev a [] = .ok (a.map fun x => max 1 x) := by
  induction a with
  | nil => rfl
  | cons x xs ih => simp [Tensor.broadcastDimsRev, ih, Nat.max_comm]

theorem broadcastDimsRev_comm (a b : List Nat) :
    Tensor.broadcastDimsRev a b = Tensor.broadcastDimsRev b a := by
  induction a generalizing b with
  | nil => rw [broadcastDimsRev_nil]; rfl
  | cons x xs ih =>
    cases b with
    | nil => rw [broadcastDimsRev_nil]; rfl
    | cons y ys =>
      by_cases hc : x = 1 ∨ y = 1 ∨ x = y
      · have hc' : y = 1 ∨ x = 1 ∨ y = x := by omega
        simp [Tensor.broadcastDimsRev, ih, hc, hc', Nat.max_comm]
      · have hc' : ¬ (y = 1 ∨ x = 1 ∨ y = x) := by omega
        simp [Tensor.broadcastDimsRev, hc, hc']

/-- **C06, symmetry**: the common shape does not depend on the order of the operands. -/
theorem C06_symmetric (a b : List Nat) : Tensor.broadcastDims a b = Tensor.broadcastDims b a := by
  simp [Tensor.broadcastDims, broadcastDimsRev_comm a.reverse b.reverse]

/-- The public `Shape::broadcast_shape` does not implement the rule: it rejects `[3]` with `[4,3]`,
which are compatible, and is used by `Layout::broadcast_layouts`. -/
theorem C06_broadcast_shape_wrong :
    Compatible [3] [4, 3] ∧ CommonShape [3] [4, 3] [4, 3] ∧ broadcastShape [3] [4, 3] = none ∧
      Layout.broadcastLayouts (Layout.fromShape [3]) (Layout.fromShape [4, 3]) = .err := by
  refine ⟨?_, ⟨rfl, ?_⟩, by decide +kernel, by decide +kernel⟩
  · intro k
    match k with
    | 0 => decide
    | 1 => decide
    | k + 2 => simp [dimFromRight]
  · intro k
    match k with
    | 0 => decide
    | 1 => decide
    | k + 2 => simp [dimFromRight]

/-- With a zero-size dimension the operands' common shape is wrong: `[0]` and `[1]` give `[1]`
instead of `[0]`, and the operator then fails. -/
theorem C06_zero_dim_wrong :
    CommonShape [0] [1] [0] ∧ Tensor.broadcastDims [0] [1] = .ok [1] ∧
      Tensor.broadcast2 (⟨[], Layout.fromShape [0]⟩ : Tensor Nat) ⟨[7], Layout.fromShape [1]⟩ = .err := by
  refine ⟨⟨rfl, ?_⟩, by decide +kernel, by decide +kernel⟩
  intro k
  match k with
  | 0 => decide
  | k + 1 => simp [dimFromRight]

theorem mapM_some_of {f : α → Option β} {g : α → β} {l : List α} (h : ∀ x ∈ l, f x = some (g x)) :
    l.mapM f = some (l.map g) := by
  induction l with
  | nil => rfl
  | cons x xs ih =>
    simp [List.mapM_cons, h x (by simp), ih fun y hy => h y (by simp [hy])]

theorem mapM_none_of {f : α → Option β} {l : List α} {x : α} (hx : x ∈ l) (h : f x = none) :
    l.mapM f = none := by
  induction l with
  | nil => cases hx
  | cons y ys ih =>
    rcases List.mem_cons.mp hx with rfl | hx
    · simp [List.mapM_cons, h]
    · cases hy : f y <;> simp [List.mapM_cons, hy, ih hx]

theorem dimFromRight_eq {a : List Nat} {k n : Nat} (hn : a.length = n) (hk : k < n) :
    dimFromRight a k = a.getD (n - 1 - k) 1 := by
  unfold dimFromRight
  rw [List.getD_eq_getElem?_getD, List.getElem?_reverse (by omega), hn,
    List.getD_eq_getElem?_getD]

theorem dimFromRight_out {a : List Nat} {k : Nat} (hk : a.length ≤ k) : dimFromRight a k = 1 := by
  unfold dimFromRight
  rw [List.getD_eq_getElem?_getD, List.getElem?_eq_none (by simpa using hk)]; rfl

/-- **C06, `Shape::broadcast_shape`, what holds**: on shapes of equal rank without zero sizes it
returns the NumPy common shape, and `None` exactly when the shapes are incompatible.  Missing: shapes
of different rank (false, `C06_broadcast_shape_wrong`) and zero sizes. -/
theorem C06_broadcast_shape_partial (a b : List Nat) (hl : a.length = b.length)
    (ha : ∀ d ∈ a, 0 < d) (hb : ∀ d ∈ b, 0 < d) :
    (Compatible a b → ∃ out, broadcastShape a b = some out ∧ CommonShape a b out) ∧
    (¬ Compatible a b → broadcastShape a b = none) := by
  have hat : ∀ i < a.length, broadcastShapeAt a b (max a.length b.length) i =
      if a.getD i 1 ≠ b.getD i 1 ∧ a.getD i 1 ≠ 1 ∧ b.getD i 1 ≠ 1 then none
      else some (max (a.getD i 1) (b.getD i 1)) := by
    intro i h
    unfold broadcastShapeAt
    rw [show a.length - (max a.length b.length - i) = i by omega,
      show b.length - (max a.length b.length - i) = i by omega]
    simp only [List.getD_eq_getElem?_getD]
  have pos : ∀ (c : List Nat), (∀ d ∈ c, 0 < d) → ∀ i, 0 < c.getD i 1 := by
    intro c hc i
    rw [List.getD_eq_getElem?_getD]
    by_cases hi : i < c.length
    · rw [List.getElem?_eq_getElem hi]; exact hc _ (List.getElem_mem hi)
    · rw [List.getElem?_eq_none (by omega)]; decide
  constructor
  · intro hc
    refine ⟨(List.range a.length).map fun i => max (a.getD i 1) (b.getD i 1), ?_, ?_, ?_⟩
    · show (List.range (max a.length b.length)).mapM _ = _
      rw [show List.range (max a.length b.length) = List.range a.length by rw [← hl]; simp]
      apply mapM_some_of
      intro i hi
      have hi : i < a.length := by simpa using hi
      rw [hat i hi]
      have hc := hc (a.length - 1 - i)
      rw [dimFromRight_eq rfl (by omega), dimFromRight_eq hl.symm (by omega),
        show a.length - 1 - (a.length - 1 - i) = i by omega] at hc
      rw [if_neg (by omega)]
    · simp [← hl]
    · intro k
      by_cases hk : k < a.length
      · have hc := hc k
        rw [dimFromRight_eq rfl hk, dimFromRight_eq hl.symm hk] at hc
        rw [dimFromRight_eq rfl hk, dimFromRight_eq hl.symm hk,
          dimFromRight_eq (n := a.length) (by simp) hk]
        have p1 := pos a ha (a.length - 1 - k)
        have p2 := pos b hb (a.length - 1 - k)
        rw [List.getD_eq_getElem?_getD, List.getElem?_map, List.getElem?_range (by omega)]
        simp only [Option.map_some, Option.getD_some]
        split <;> omega
      · rw [dimFromRight_out (a := a) (by omega), dimFromRight_out (a := b) (by omega),
          dimFromRight_out (by simp; omega)]
        rfl
  · intro hc
    unfold Compatible at hc
    push Not at hc
    obtain ⟨k, h1, h2, h3⟩ := hc
    have hk : k < a.length := by
      by_contra hk
      exact h2 (dimFromRight_out (by omega))
    rw [dimFromRight_eq rfl hk] at h1 h2
    rw [dimFromRight_eq hl.symm hk] at h1 h3
    unfold broadcastShape
    refine mapM_none_of (x := a.length - 1 - k) (by simp; omega) ?_
    rw [hat _ (by omega), if_pos ⟨h1, h2, h3⟩]

example : [2, 1, 3].length = [1, 4, 3].length ∧ (∀ d ∈ [2, 1, 3], 0 < d) ∧ (∀ d ∈ [1, 4, 3], 0 < d) ∧
    broadcastShape [2, 1, 3] [1, 4, 3] = some [2, 4, 3] ∧ broadcastShape [2, 3] [4, 3] = none := by
  decide +kernel

/-- **C06, `Shape::can_broadcast_to`**: it answers exactly the broadcasting rule. -/
theorem C06_can_broadcast_to (dims target : List Nat) :
    canBroadcastTo dims target = true ↔ BroadcastsTo dims target := by
  unfold canBroadcastTo BroadcastsTo
  by_cases hl : target.length < dims.length
  · rw [if_pos hl]
    constructor
    · intro h; cases h
    · intro h; omega
  · rw [if_neg hl]
    simp only [List.all_eq_true]
    constructor
    · intro h
      refine ⟨by omega, fun k d hk => ?_⟩
      have hk' : k < dims.length := by
        by_contra hc
        rw [List.getElem?_eq_none (by omega)] at hk; cases hk
      rw [List.getElem?_eq_getElem hk'] at hk
      have hk := Option.some.inj hk
      have ht : k + (target.length - dims.length) < target.length := by omega
      have := h (dims[k], target[k + (target.length - dims.length)]) (by
        rw [List.mem_iff_getElem]
        refine ⟨k, by simp; omega, ?_⟩
        simp [Nat.add_comm])
      simp only [Bool.not_eq_true', Bool.and_eq_false_iff, bne_eq_false_iff_eq, hk] at this
      rw [List.getElem?_eq_getElem ht]
      rcases this with h | h
      · exact .inl h
      · exact .inr (by rw [← h])
    · rintro ⟨_, h⟩ ⟨d, t⟩ hmem
      obtain ⟨k, hk, he⟩ := List.mem_iff_getElem.mp hmem
      simp only [List.length_zip, List.length_drop] at hk
      simp only [List.getElem_zip, List.getElem_drop, Prod.mk.injEq] at he
      have := h k d (by rw [List.getElem?_eq_getElem (by omega), he.1])
      rw [List.getElem?_eq_getElem (by omega)] at this
      simp only [Bool.not_eq_true', Bool.and_eq_false_iff, bne_eq_false_iff_eq]
      rcases this with h | h
      · exact .inl h
      · right
        have h := Option.some.inj h
        rw [← h, ← he.2]
        congr 1; omega

example : canBroadcastTo [3, 1] [2, 3, 4] = true ∧ canBroadcastTo [2, 3] [3, 3] = false := by
  decide +kernel

/-! ## C07 -/

/-- **C07, squeeze of named axes** (named at most once): an error if some named axis does not exist
or is not of size 1; otherwise exactly the named dimensions disappear and the element sequence is
kept.  Missing from the full property: an axis named twice (false, `C07_duplicate_wrong`). -/
theorem C07_squeeze_partial {t : Tensor α} (ht : t.WF) (ds : List Int) (hne : ds ≠ [])
    (hrank : t.dims.length < 2 ^ 31) (hi32 : ∀ d ∈ ds, I32 d) :
    ((∃ d ∈ ds, ∀ k, IsAxis t.dims.length d k → t.dims[k]? ≠ some 1) → t.squeeze ds = .err) ∧
    ∀ as : List Nat, ds.length = as.length → as.Nodup →
      (∀ k (h1 : k < ds.length) (h2 : k < as.length), IsAxis t.dims.length ds[k] as[k]) →
      (∀ a ∈ as, t.dims[a]? = some 1) →
      ∃ r, t.squeeze ds = .ok r ∧ r.WF ∧ r.dims = dropAxes as 0 t.dims ∧
        ∀ i j, InRange i t.dims → InRange j r.dims → rowMajor t.dims i = rowMajor r.dims j →
          r.elem j = t.elem i := by
  obtain ⟨s, o, h1, h2⟩ := viewVia_spec ht (·.squeeze ds)
  have hemp : ds.isEmpty = false := by cases ds <;> simp_all
  constructor
  · intro hbad
    rw [Tensor.squeeze, h1]
    simp [Layout.squeeze, isContiguous_computeStrides, hemp, squeezeAxes_err hrank hi32 hbad]
  · intro as hl hnd hax hone
    have hperm := List.perm_insertionSort (· ≤ ·) as
    have hsorted : (as.insertionSort (· ≤ ·)).Pairwise (· ≤ ·) := by
      exact List.pairwise_insertionSort (· ≤ ·) as
    have hndm : (as.insertionSort (· ≤ ·)).Nodup := hperm.nodup_iff.mpr hnd
    have hdesc : (as.insertionSort (· ≤ ·)).reverse.Pairwise (· > ·) := by
      rw [List.pairwise_reverse]
      exact (hsorted.and hndm).imp (fun ⟨h1, h2⟩ => by omega)
    have hlt : ∀ a ∈ (as.insertionSort (· ≤ ·)).reverse, a < t.dims.length := by
      intro a ha
      have := hone a (by simpa using ha)
      by_contra hc
      rw [List.getElem?_eq_none (by omega)] at this
      simp at this
    have hrem := removeAll_desc hdesc hlt
    rw [dropAxes_congr (S := (as.insertionSort (· ≤ ·)).reverse) (T := as) (by simp)] at hrem
    have hn : numel (dropAxes as 0 t.dims) = numel t.dims := by
      apply numel_dropAxes
      intro a d ha hd
      have := hone a (by simpa using ha)
      rw [this] at hd; cases hd; rfl
    obtain ⟨hw, hel⟩ := reshape_like (s := s) (o := o) ht h2 hn
    refine ⟨_, ?_, hw, rfl, hel⟩
    rw [Tensor.squeeze, h1]
    simp only [Layout.squeeze, isContiguous_computeStrides, hemp, squeezeAxes_ok hrank hl hax hone,
      hrem, Res.ok_bind, Bool.not_true, Bool.false_eq_true, if_false]

/-- **C07, squeeze without arguments** removes every unit dimension and keeps the element
sequence. -/
theorem C07_squeeze_all {t : Tensor α} (ht : t.WF) :
    ∃ r, t.squeeze [] = .ok r ∧ r.WF ∧ r.dims = t.dims.filter (· ≠ 1) ∧
      ∀ i j, InRange i t.dims → InRange j r.dims → rowMajor t.dims i = rowMajor r.dims j →
        r.elem j = t.elem i := by
  obtain ⟨s, o, h1, h2⟩ := viewVia_spec ht (·.squeeze [])
  obtain ⟨hw, hel⟩ := reshape_like (s := s) (o := o) ht h2 (numel_filter t.dims)
  refine ⟨_, ?_, hw, ?_, hel⟩
  · rw [Tensor.squeeze, h1]
    simp only [Layout.squeeze, isContiguous_computeStrides, Res.ok_bind, Bool.not_true,
      Bool.false_eq_true, if_false, List.isEmpty_nil, if_true]
  · simp only [Tensor.dims]
    congr 1
    funext d
    by_cases h : d = 1 <;> simp [h]

/-- The unsqueeze axis: `d` may be any position of the result's rank. -/
theorem castUsize_unsqueeze {n k : Nat} {d : Int} (hn : n < 2 ^ 31 - 1) (h : IsAxis (n + 1) d k) :
    (if d < 0 then castUsize ((n : Int) + d + 1) else castUsize d) = k := by
  have := castUsize_axis (n := n + 1) (by omega) h
  rw [← this]
  congr 2
  omega

/-- **C07, unsqueeze**: an error for a position outside the result's rank; otherwise a unit dimension
appears at that position and the element sequence is kept. -/
theorem C07_unsqueeze {t : Tensor α} (ht : t.WF) (d : Int) (hrank : t.dims.length < 2 ^ 31 - 1)
    (hd : I32 d) :
    ((∀ k, ¬ IsAxis (t.dims.length + 1) d k) → t.unsqueeze d = .err) ∧
    ∀ k, IsAxis (t.dims.length + 1) d k →
      ∃ r, t.unsqueeze d = .ok r ∧ r.WF ∧ r.dims = t.dims.insertIdx k 1 ∧
        ∀ i j, InRange i t.dims → InRange j r.dims → rowMajor t.dims i = rowMajor r.dims j →
          r.elem j = t.elem i := by
  obtain ⟨s, o, h1, h2⟩ := viewVia_spec ht (·.unsqueeze d)
  constructor
  · intro h
    have hc := castUsize_not_axis (n := t.dims.length + 1) (by omega) hd h
    have hc' : t.dims.length < (if d < 0 then castUsize ((t.dims.length : Int) + d + 1) else castUsize d) := by
      have e : ((t.dims.length + 1 : Nat) : Int) + d = (t.dims.length : Int) + d + 1 := by omega
      rw [e] at hc; omega
    rw [Tensor.unsqueeze, h1]
    simp only [Layout.unsqueeze, Layout.ndim]
    rw [if_pos hc']; rfl
  · intro k hk
    obtain ⟨hw, hel⟩ := reshape_like (s := s) (o := o) ht h2 (nd := t.dims.insertIdx k 1) numel_insertIdx
    refine ⟨_, ?_, hw, rfl, hel⟩
    rw [Tensor.unsqueeze, h1]
    simp only [Layout.unsqueeze, Layout.ndim, castUsize_unsqueeze hrank hk]
    have hk' := hk.1
    rw [if_neg (by omega)]
    simp [isContiguous_computeStrides]

/-- **C07, inverse**: unsqueezing at `d` and squeezing `d` gives back the same tensor. -/
theorem C07_unsqueeze_squeeze {t : Tensor α} (ht : t.WF) (d : Int) (k : Nat)
    (hrank : t.dims.length < 2 ^ 31 - 1) (hd : I32 d) (hk : IsAxis (t.dims.length + 1) d k) :
    ∃ r t', t.unsqueeze d = .ok r ∧ r.squeeze [d] = .ok t' ∧ t'.SameValues t := by
  obtain ⟨r, hr, hw, hdims, hel⟩ := (C07_unsqueeze ht d hrank hd).2 k hk
  have hkl : k ≤ t.dims.length := by have := hk.1; omega
  have hrl : r.dims.length = t.dims.length + 1 := by
    rw [hdims, List.length_insertIdx_of_le_length hkl]
  obtain ⟨t', ht', hw', hd', hel'⟩ := (C07_squeeze_partial hw [d] (by simp) (by omega)
    (by simpa using hd)).2 [k] rfl (by simp)
    (fun m h1 h2 => by
      have : m = 0 := by simpa using h1
      subst this; rw [hrl]; simpa using hk)
    (fun a ha => by
      simp only [List.mem_singleton] at ha
      subst ha; rw [hdims, List.getElem?_insertIdx_self]; simp [hkl])
  have hdd : t'.dims = t.dims := by
    rw [hd', hdims]
    have := dropAxes_erase (S := []) (k := 0) (m := k) (dims := t.dims.insertIdx k 1)
      (by rw [List.length_insertIdx_of_le_length hkl]; omega) (by simp)
    rw [Nat.zero_add] at this
    rw [this, dropAxes_none (by simp), List.eraseIdx_insertIdx_self]
  refine ⟨r, t', hr, ht', hdd, fun idx hi => ?_⟩
  have hit : InRange idx t.dims := hdd ▸ hi
  have hlt : rowMajor t.dims idx < numel r.dims := by
    rw [hdims, numel_insertIdx]; exact rowMajor_lt hit
  have e1 := hel idx (unravel r.dims (rowMajor t.dims idx)) hit (unravel_inRange hlt)
    (rowMajor_unravel hlt).symm
  have e2 := hel' (unravel r.dims (rowMajor t.dims idx)) idx (unravel_inRange hlt) hi
    (by rw [rowMajor_unravel hlt, hdd])
  rw [e2, e1]

private def exU : Tensor Nat := ⟨[5, 6], ⟨[1, 2, 1], [2, 1, 1], 0⟩⟩

private theorem exU_wf : exU.WF := by
  refine ⟨rfl, fun idx hi => ?_⟩
  have hn := rowMajor_lt hi
  rw [← unravel_rowMajor hi]
  have : ∀ n, n < 2 → (exU.elem (unravel [1, 2, 1] n)).isSome := by decide +kernel
  exact this _ hn

example : exU.WF ∧ exU.squeeze [0, -1] = .ok ⟨[5, 6], ⟨[2], [1], 0⟩⟩ ∧
    exU.squeeze [1] = .err ∧ exU.squeeze [] = .ok ⟨[5, 6], ⟨[2], [1], 0⟩⟩ ∧
    exU.unsqueeze (-1) = .ok ⟨[5, 6], ⟨[1, 2, 1, 1], [2, 1, 1, 1], 0⟩⟩ :=
  ⟨exU_wf, by decide +kernel, by decide +kernel, by decide +kernel, by decide +kernel⟩

/-- **C07 fails for an axis named twice**: instead of an error, `squeeze([0,0])` of shape `[1,2,1]`
removes the dimension of size 2 (two elements become one), and `squeeze([2,-1])` panics. -/
theorem C07_duplicate_wrong :
    exU.squeeze [0, 0] = .ok ⟨[5, 6], ⟨[1], [1], 0⟩⟩ ∧ exU.squeeze [2, -1] = .panic := by decide +kernel

/-! ## C13 -/

/-- **C13.** `contiguous()` always succeeds, keeps shape and elements, has the row-major strides, and
a second call returns the same tensor. -/
theorem C13_contiguous {t : Tensor α} (ht : t.WF) :
    ∃ c, t.contiguous = .ok c ∧ c.WF ∧ c.SameValues t ∧
      (∀ idx, InRange idx t.dims → dot idx c.layout.strides = rowMajor t.dims idx) ∧
      c.contiguous = .ok c := by
  obtain ⟨s, o, h1, h2, _⟩ := contiguous_spec ht
  have he : ∀ idx, InRange idx t.dims →
      Tensor.elem ⟨s, ⟨t.dims, Layout.computeStrides t.dims, o⟩⟩ idx = t.elem idx := by
    intro idx hi
    rw [elem_rowMajor, h2 idx hi]
  refine ⟨_, h1, ⟨computeStrides_length _, fun idx hi => ?_⟩, ⟨rfl, he⟩,
    fun idx _ => dot_computeStrides _ _, ?_⟩
  · rw [he idx hi]; exact ht.2 idx hi
  · simp [Tensor.contiguous, isContiguous_computeStrides]


/-- C13 applies to the column-sliced matrix `[[0,1,2],[3,4,5]][:, 1:3]`. -/
private def exS : Tensor Nat := ⟨[0, 1, 2, 3, 4, 5], ⟨[2, 2], [3, 1], 1⟩⟩

private theorem exS_wf : exS.WF := by
  refine ⟨rfl, fun idx hi => ?_⟩
  have hn := rowMajor_lt hi
  rw [← unravel_rowMajor hi]
  have : ∀ n, n < 4 → (exS.elem (unravel [2, 2] n)).isSome := by decide
  exact this _ hn

example : exS.WF ∧ exS.contiguous = .ok ⟨[1, 2, 4, 5], ⟨[2, 2], [2, 1], 0⟩⟩ :=
  ⟨exS_wf, by decide +kernel⟩

/-! ## C08 -/

/-- The view operations of the API (tensor/ops/shape.rs). -/
inductive ViewOp where
  | reshape (dims : List Nat)
  | flatten
  | squeeze (ds : List Int)
  | unsqueeze (d : Int)
  | broadcast (target : List Nat)
  | transpose (a b : Int)
  | permute (axes : List Int)
  | slice (dim start : Int) (stop : Option Int) (step : Int)
  | contiguous

/-- Dispatch of a view operation to the modelled method (tensor/ops/shape.rs:13-519,
tensor/ops/cast_memory.rs:56-83). -/
def ViewOp.apply (t : Tensor α) : ViewOp → Res (Tensor α)
  | .reshape d => t.reshape d
  | .flatten => t.flatten
  | .squeeze ds => t.squeeze ds
  | .unsqueeze d => t.unsqueeze d
  | .broadcast s => t.broadcast s
  | .transpose a b => t.transpose a b
  | .permute axes => t.permute axes
  | .slice d a b s => t.slice d a b s
  | .contiguous => t.contiguous

/-- Tensors reachable from a freshly created one by successful view operations accepted by `P`. -/
inductive ReachableBy (P : Tensor α → ViewOp → Prop) : Tensor α → Prop where
  | fresh {data : List α} {dims : List Nat} {t : Tensor α} :
      Tensor.fromSlice data dims = .ok t → ReachableBy P t
  | step {t r : Tensor α} (op : ViewOp) : ReachableBy P t → P t op → op.apply t = .ok r →
      ReachableBy P r

/-- The full property C08: no restriction on the operations. -/
def C08_full : Prop :=
  ∀ (t : Tensor Nat), ReachableBy (fun _ _ => True) t →
    ∀ idx, InRange idx t.dims → (t.elem idx).isSome

/-- Operations covered by the partial result: slices have a positive step and a squeeze does not name
an axis twice. -/
def Spec.Regular (t : Tensor α) : ViewOp → Prop
  | .slice _ _ _ step => 0 < step
  | .squeeze ds => ds.Pairwise fun d e => ∀ k, IsAxis t.dims.length d k → ¬ IsAxis t.dims.length e k
  | _ => True

theorem slice_wf {t r : Tensor α} (ht : t.WF) {dim start step : Int} {stop : Option Int}
    (hstep : 0 < step) (h : t.slice dim start stop step = .ok r) : r.WF := by
  obtain ⟨s, o, h1, h2⟩ := viewVia_spec ht (·.slice dim start stop step)
  rw [Tensor.slice, h1] at h
  simp only [Layout.slice] at h
  generalize hk : (if dim < 0 then castUsize ((Layout.ndim ⟨t.dims, Layout.computeStrides t.dims, o⟩ : Int) + dim)
    else castUsize dim) = k at h
  split at h
  · rename_i d st hd hst
    rw [if_neg (by omega)] at h
    obtain ⟨l, hl, he⟩ := Res.bind_eq_ok.mp h
    obtain ⟨⟨cs, n⟩, hb, hl⟩ := Res.bind_eq_ok.mp hl
    cases hl; cases he
    obtain ⟨h3, h4, h5⟩ := sliceBounds_inv hstep hb
    have hkl : k < t.dims.length := by
      by_contra hc
      rw [List.getElem?_eq_none (by omega)] at hd; simp at hd
    have hdk : t.dims[k] = d := by
      rw [List.getElem?_eq_getElem hkl] at hd; exact Option.some.inj hd
    have hstk : (Layout.computeStrides t.dims).getD k 0 = st := by
      rw [List.getD_eq_getElem?_getD, hst]; rfl
    have hle := castI32_le d
    generalize castI32 d = D at *
    have := (sliced_view (s := s) (o := o) (k := k) (cs := cs.toNat) (step := step.natAbs)
      (n := n.toNat) ht h2 hkl hdk (fun j hj => by
        have := h5 j (by omega) (by omega)
        have h6 : ((j * step.natAbs : Nat) : Int) = j * step := by
          rw [Int.natCast_mul]; congr 1; omega
        omega)).1
    rw [hstk] at this
    exact this
  · simp at h

theorem squeezeAxes_cons_inv {dims : List Nat} {ds : List Int} {as : List Nat} {d : Int} {k : Nat}
    (hn : dims.length < 2 ^ 31) (hk : IsAxis dims.length d k)
    (h : Layout.squeezeAxes dims (d :: ds) = .ok as) :
    ∃ bs, as = k :: bs ∧ Layout.squeezeAxes dims ds = .ok bs := by
  have e : Layout.squeezeAxes dims (d :: ds) =
      (match dims[if d < 0 then castUsize ((dims.length : Int) + d) else castUsize d]? with
      | none => .err
      | some x => if x ≠ 1 then .err else (Layout.squeezeAxes dims ds).bind fun as =>
          .ok ((if d < 0 then castUsize ((dims.length : Int) + d) else castUsize d) :: as)) := by
    first | (rw [Layout.squeezeAxes]; done) | (rw [Layout.squeezeAxes]; rfl)
  rw [e, castUsize_axis hn hk, List.getElem?_eq_getElem hk.1] at h
  dsimp only at h
  split at h
  · cases h
  · obtain ⟨bs, hbs, he⟩ := Res.bind_eq_ok.mp h
    cases he
    exact ⟨bs, rfl, hbs⟩

theorem squeezeAxes_pairwise {dims : List Nat} {ds : List Int} {as : List Nat}
    (hn : dims.length < 2 ^ 31) (hi : ∀ d ∈ ds, I32 d)
    (h : Layout.squeezeAxes dims ds = .ok as) :
    ds.length = as.length ∧
      ∀ k (h1 : k < ds.length) (h2 : k < as.length), IsAxis dims.length ds[k] as[k] := by
  induction ds generalizing as with
  | nil => cases h; exact ⟨rfl, fun k h1 => absurd h1 (Nat.not_lt_zero k)⟩
  | cons d ds ih =>
    have hax : ∃ k, IsAxis dims.length d k := by
      by_contra hc
      have h2 : ∃ e ∈ d :: ds, ∀ k, IsAxis dims.length e k → dims[k]? ≠ some 1 :=
        ⟨d, by simp, fun k hk => absurd ⟨k, hk⟩ hc⟩
      rw [squeezeAxes_err hn hi h2] at h
      cases h
    obtain ⟨k, hk⟩ := hax
    obtain ⟨bs, rfl, hbs⟩ := squeezeAxes_cons_inv hn hk h
    obtain ⟨g1, g2⟩ := ih (fun x hx => hi x (by simp [hx])) hbs
    refine ⟨by simp [g1], fun m m1 m2 => ?_⟩
    cases m with
    | zero => exact hk
    | succ m => exact g2 m (by simpa using m1) (by simpa using m2)

/-- **C08 for regular operations**: every in-range index of a reachable view addresses an element
of the storage.  `hdims`/`hargs`: ranks and `i32` arguments are in the range of their machine
types.  Missing: negative-step slices and squeezes naming an axis twice (false, `C08_full_false`). -/
theorem C08_views_in_bounds_partial {t : Tensor α}
    (h : ReachableBy (fun t op => Regular t op ∧ t.dims.length < 2 ^ 31 - 1 ∧
      (∀ ds, op = .squeeze ds → ∀ d ∈ ds, I32 d) ∧ (∀ d, op = .unsqueeze d → I32 d)) t) :
    ∀ idx, InRange idx t.dims → (t.elem idx).isSome := by
  suffices hw : t.WF from hw.2
  induction h with
  | @fresh data dims t h =>
    have hc := C01_from_slice data dims
    by_cases hl : data.length = numel dims
    · obtain ⟨t', h1, _, hw, _⟩ := hc.2 hl
      rw [h] at h1; cases h1; exact hw
    · rw [hc.1 hl] at h; simp at h
  | @step t r op _ hp hr ih =>
    obtain ⟨hreg, hrank, hsq, hun⟩ := hp
    cases op with
    | reshape nd =>
      obtain ⟨he, hok⟩ := C02_reshape ih nd
      by_cases hn : numel nd = numel t.dims
      · obtain ⟨r', h1, _, hw, _⟩ := hok hn
        rw [ViewOp.apply, h1] at hr; cases hr; exact hw
      · rw [ViewOp.apply, he hn] at hr; simp at hr
    | flatten =>
      obtain ⟨r', h1, _, hw, _⟩ := C02_flatten ih
      rw [ViewOp.apply, h1] at hr; cases hr; exact hw
    | squeeze ds =>
      by_cases hne : ds = []
      · subst hne
        obtain ⟨r', h1, hw, _⟩ := C07_squeeze_all ih
        rw [ViewOp.apply, h1] at hr; cases hr; exact hw
      · have hi := hsq ds rfl
        obtain ⟨herr, hok⟩ := C07_squeeze_partial ih ds hne (by omega) hi
        by_cases hbad : ∃ d ∈ ds, ∀ k, IsAxis t.dims.length d k → t.dims[k]? ≠ some 1
        · rw [ViewOp.apply, herr hbad] at hr; simp at hr
        · -- the accepted axes
          have hex : ∃ as, Layout.squeezeAxes t.dims ds = .ok as := by
            obtain ⟨s, o, h1, _⟩ := viewVia_spec ih (·.squeeze ds)
            have hemp : ds.isEmpty = false := by cases ds <;> simp_all
            rw [ViewOp.apply, Tensor.squeeze, h1] at hr
            simp only [Layout.squeeze, isContiguous_computeStrides, hemp, Bool.not_true,
              Bool.false_eq_true, if_false] at hr
            obtain ⟨l, hl, _⟩ := Res.bind_eq_ok.mp hr
            obtain ⟨nd, hnd, _⟩ := Res.bind_eq_ok.mp hl
            obtain ⟨as, has, _⟩ := Res.bind_eq_ok.mp hnd
            exact ⟨as, has⟩
          obtain ⟨as, has⟩ := hex
          obtain ⟨g1, g2⟩ := squeezeAxes_pairwise (by omega) hi has
          have hnd : as.Nodup := by
            rw [List.nodup_iff_pairwise_ne, List.pairwise_iff_getElem]
            intro i j hi hj hij heq
            have hp := List.pairwise_iff_getElem.mp hreg i j (by omega) (by omega) hij
            have a1 := g2 i (by omega) hi
            have a2 := g2 j (by omega) hj
            rw [← heq] at a2
            exact hp _ a1 a2
          obtain ⟨r', h1, hw, _⟩ := hok as g1 hnd g2 (squeezeAxes_ok_inv has)
          rw [ViewOp.apply, h1] at hr; cases hr; exact hw
    | unsqueeze d =>
      obtain ⟨he, hok⟩ := C07_unsqueeze ih d hrank (hun d rfl)
      by_cases hax : ∃ k, IsAxis (t.dims.length + 1) d k
      · obtain ⟨k, hk⟩ := hax
        obtain ⟨r', h1, hw, _⟩ := hok k hk
        rw [ViewOp.apply, h1] at hr; cases hr; exact hw
      · rw [ViewOp.apply, he (fun k hk => hax ⟨k, hk⟩)] at hr; simp at hr
    | broadcast target =>
      obtain ⟨he, hok⟩ := C05_broadcast ih target
      by_cases hb : BroadcastsTo t.dims target
      · obtain ⟨r', h1, _, hw, _⟩ := hok hb
        rw [ViewOp.apply, h1] at hr; cases hr; exact hw
      · rw [ViewOp.apply, he hb] at hr; simp at hr
    | transpose a b =>
      obtain ⟨he, hok⟩ := C03_transpose ih a b
      by_cases hc : t.dims.length < 2 ∨ (∀ k, ¬ IsAxis t.dims.length a k) ∨
          ∀ k, ¬ IsAxis t.dims.length b k
      · rw [ViewOp.apply, he hc] at hr; simp at hr
      · simp only [not_or, not_forall, Classical.not_not] at hc
        obtain ⟨hn, ⟨x, hx⟩, ⟨y, hy⟩⟩ := hc
        obtain ⟨r', h1, hw, _⟩ := hok x y (by omega) hx hy
        rw [ViewOp.apply, h1] at hr; cases hr; exact hw
    | permute axes =>
      obtain ⟨he, hok⟩ := C03_permute ih axes
      by_cases hc : ∃ σ, NamesPermutation t.dims.length axes σ
      · obtain ⟨σ, hσ⟩ := hc
        obtain ⟨r', h1, hw, _⟩ := hok σ hσ
        rw [ViewOp.apply, h1] at hr; cases hr; exact hw
      · rw [ViewOp.apply, he hc] at hr; simp at hr
    | slice d a b s => exact slice_wf ih hreg hr
    | contiguous =>
      obtain ⟨c, h1, hw, _⟩ := C13_contiguous ih
      rw [ViewOp.apply, h1] at hr; cases hr; exact hw

/-- **C08 fails on the code**: `[10,20,30]` sliced with start 2 and step -1 yields a view of three
elements of which two lie outside the storage. -/
theorem C08_full_false : ¬ C08_full := by
  intro h
  have hr : ReachableBy (fun _ _ => True) (⟨[10, 20, 30], ⟨[3], [1], 2⟩⟩ : Tensor Nat) :=
    .step (t := exV3) (.slice 0 2 none (-1)) (.fresh (data := [10, 20, 30]) (dims := [3]) (by decide +kernel))
      trivial (by decide +kernel)
  exact absurd (h _ hr [1] (by decide +kernel)) (by decide +kernel)

/-- Also an empty tensor of shape `[1,0]` squeezed with `[0,0]` claims to hold one element. -/
theorem C08_squeeze_duplicate_out_of_bounds :
    ∃ t r : Tensor Nat, Tensor.fromSlice [] [1, 0] = .ok t ∧ t.squeeze [0, 0] = .ok r ∧
      InRange [] r.dims ∧ r.elem [] = none :=
  ⟨⟨[], ⟨[1, 0], [0, 1], 0⟩⟩, ⟨[], ⟨[], [], 0⟩⟩, by decide +kernel, by decide +kernel,
    by decide +kernel, by decide +kernel⟩

/-- C08: a chain of regular operations (slice, transpose, reshape) that succeeds. -/
example : ∃ t1 t2 t3 : Tensor Nat,
    Tensor.fromSlice [0, 1, 2, 3, 4, 5] [2, 3] = .ok t1 ∧
    ViewOp.apply t1 (.slice 1 1 none 1) = .ok t2 ∧ Regular t1 (.slice 1 1 none 1) ∧
    ViewOp.apply t2 (.transpose 0 1) = .ok t3 ∧
    ViewOp.apply t3 (.reshape [4]) = .ok ⟨[1, 4, 2, 5], ⟨[4], [1], 0⟩⟩ :=
  ⟨⟨[0, 1, 2, 3, 4, 5], ⟨[2, 3], [3, 1], 0⟩⟩, ⟨[0, 1, 2, 3, 4, 5], ⟨[2, 2], [3, 1], 1⟩⟩,
    ⟨[1, 2, 4, 5], ⟨[2, 2], [1, 2], 0⟩⟩, by decide +kernel, by decide +kernel, by simp [Regular],
    by decide +kernel, by decide +kernel⟩

end Hodu
