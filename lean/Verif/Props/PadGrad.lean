import Verif.Model.PadRules
import Verif.Props.Pooling
import Verif.Props.FlipPad
import Verif.Props.Concat
import Verif.Props.Resize
import Verif.Props.ConvTranspose

/-!
# C94: the backward rules of padding and resizing

The gradient of an input element is the sum of the upstream gradients at all output positions that are copies of it, and the
rule of resize is the adjoint of the interpolation.
-/

namespace Hodu
open Spec

variable {α M : Type}

/-! ## Specification -/

/-- `r` is the gradient of padding an input of shape `dims`: every entry is the sum of the upstream entries at the output
positions whose source it is. -/
def Spec.PadGrad [AddCommMonoid M] (mode : PadMode) (dims : List Nat) (padding : List (Nat × Nat)) (g r : Tensor M) : Prop :=
  r.WF ∧ r.dims = dims ∧ ∀ i, InRange i dims → ∃ (js : List (List Nat)) (vals : List M), js.Nodup ∧
    (∀ j, j ∈ js ↔ InRange j g.dims ∧ PadSource mode dims padding j i) ∧ js.map g.elem = vals.map some ∧
    r.elem i = some vals.sum

/-- The shape of the padded tensor. -/
def Spec.padDims (dims : List Nat) (padding : List (Nat × Nat)) : List Nat :=
  List.zipWith (fun d p => d + p.1 + p.2) dims padding

/-! ## Sources -/

theorem padSource_nil (mode : PadMode) : PadSource mode [] [] [] [] := ⟨rfl, fun k d p c j h => by simp at h⟩

theorem padSource_cons {mode : PadMode} {d c j : Nat} {p : Nat × Nat} {ds cs js : List Nat} {ps : List (Nat × Nat)} :
    PadSource mode (d :: ds) (p :: ps) (c :: cs) (j :: js) ↔ PadRule mode d p.1 c j ∧ PadSource mode ds ps cs js := by
  constructor
  · rintro ⟨h1, h2⟩
    refine ⟨h2 0 d p c j rfl rfl rfl rfl, by simpa using h1, fun k d' p' c' j' e1 e2 e3 e4 => ?_⟩
    exact h2 (k + 1) d' p' c' j' (by simpa using e1) (by simpa using e2) (by simpa using e3) (by simpa using e4)
  · rintro ⟨h1, h2, h3⟩
    refine ⟨by simp [h2], fun k d' p' c' j' e1 e2 e3 e4 => ?_⟩
    cases k with
    | zero =>
      simp only [List.getElem?_cons_zero, Option.some.injEq] at e1 e2 e3 e4
      subst e1 e2 e3 e4; exact h1
    | succ k => exact h3 k d' p' c' j' (by simpa using e1) (by simpa using e2) (by simpa using e3) (by simpa using e4)

/-- Without padding every position is its own source. -/
theorem padSource_unpadded {mode : PadMode} {ds j i : List Nat} (hj : InRange j ds) (hi : InRange i ds) :
    PadSource mode ds (List.replicate ds.length (0, 0)) j i ↔ j = i := by
  induction ds generalizing j i with
  | nil =>
    rw [List.eq_nil_of_length_eq_zero hj.length, List.eq_nil_of_length_eq_zero hi.length]
    exact ⟨fun _ => rfl, fun _ => padSource_nil mode⟩
  | cons d ds ih =>
    match j, i, hj, hi with
    | c :: j, x :: i, hj, hi =>
      rw [List.length_cons, List.replicate_succ, padSource_cons, ih hj.2 hi.2, List.cons.injEq]
      have hc : PadRule mode d 0 c c := by simpa using padRule_interior (mode := mode) (d := d) (b := 0) hj.1
      constructor
      · rintro ⟨h1, h2⟩; exact ⟨padRule_unique hc h1, h2⟩
      · rintro ⟨h1, h2⟩; subst h1; exact ⟨hc, h2⟩

/-- Padding of a single dimension. -/
def onePad (pre post : List Nat) (p : Nat × Nat) : List (Nat × Nat) :=
  List.replicate pre.length (0, 0) ++ p :: List.replicate post.length (0, 0)

theorem padSource_one {mode : PadMode} {pre post a b : List Nat} {n x o : Nat} {p : Nat × Nat} {j : List Nat}
    (hj : InRange j (pre ++ o :: post)) (ha : InRange a pre) (hb : InRange b post) :
    PadSource mode (pre ++ n :: post) (onePad pre post p) j (a ++ x :: b) ↔
      ∃ c, j = a ++ c :: b ∧ PadRule mode n p.1 c x := by
  induction pre generalizing j a with
  | nil =>
    obtain rfl : a = [] := List.eq_nil_of_length_eq_zero ha.length
    match j, hj with
    | c :: j, hj =>
      simp only [onePad, List.length_nil, List.replicate_zero, List.nil_append]
      rw [padSource_cons, padSource_unpadded hj.2 hb]
      constructor
      · rintro ⟨h1, rfl⟩; exact ⟨c, rfl, h1⟩
      · rintro ⟨c', h1, h2⟩
        injection h1 with h1 h3
        subst h1 h3; exact ⟨h2, rfl⟩
  | cons d pre ih =>
    match j, a, hj, ha with
    | c :: j, y :: a, hj, ha =>
      have := ih (j := j) (a := a) hj.2 ha.2
      simp only [onePad, List.length_cons, List.replicate_succ, List.cons_append] at this ⊢
      rw [padSource_cons, this]
      have hc : PadRule mode d 0 c c := by simpa using padRule_interior (mode := mode) (d := d) (b := 0) hj.1
      constructor
      · rintro ⟨h1, c', h2, h3⟩
        exact ⟨c', by rw [h2, padRule_unique hc h1], h3⟩
      · rintro ⟨c', h1, h2⟩
        injection h1 with h1 h3
        subst h1; exact ⟨hc, c', h3, h2⟩

/-! ## The centre -/

theorem centerBounds_ok {dims : List Nat} {padding : List (Nat × Nat)} (hl : padding.length = dims.length)
    (hp : ∀ d ∈ dims, 0 < d) (hs : ∀ d ∈ padDims dims padding, d < 2 ^ 31 - 1) :
    List.Forall₂ (fun d b => b.1 < b.2 ∧ b.2 ≤ d ∧ d < 2 ^ 31 - 1) (padDims dims padding) (centerBounds padding dims) ∧
      (centerBounds padding dims).map (fun b => b.2 - b.1) = dims ∧
      (centerBounds padding dims).map Prod.fst = padding.map Prod.fst := by
  induction dims generalizing padding with
  | nil =>
    obtain rfl : padding = [] := List.eq_nil_of_length_eq_zero hl
    exact ⟨.nil, rfl, rfl⟩
  | cons d dims ih =>
    match padding, hl with
    | p :: padding, hl =>
      have hd := hp d (by simp)
      have := hs (d + p.1 + p.2) (by simp [padDims])
      obtain ⟨h1, h2, h3⟩ := ih (padding := padding) (by simpa using hl) (fun d h => hp d (by simp [h]))
        (fun e h => hs e (by rw [padDims, List.zipWith_cons_cons]; exact List.mem_cons_of_mem _ h))
      refine ⟨.cons ⟨by simp only; omega, by simp only; omega, this⟩ h1, ?_, ?_⟩
      · simp only [centerBounds, List.zipWith_cons_cons, List.map_cons]
        rw [show List.zipWith (fun p d => (p.1, p.1 + d)) padding dims = centerBounds padding dims from rfl, h2]
        congr 1; omega
      · simp only [centerBounds, List.zipWith_cons_cons, List.map_cons]
        rw [show List.zipWith (fun p d => (p.1, p.1 + d)) padding dims = centerBounds padding dims from rfl, h3]

theorem sliceCenter_ok {g : Tensor α} {dims : List Nat} {padding : List (Nat × Nat)} (hl : padding.length = dims.length)
    (hp : ∀ d ∈ dims, 0 < d) (hs : ∀ d ∈ padDims dims padding, d < 2 ^ 31 - 1) (hr : dims.length < 2 ^ 31)
    (hg : g.WF) (hgd : g.dims = padDims dims padding) :
    ∃ r, sliceCenter g dims padding = .ok r ∧ r.WF ∧ r.dims = dims ∧
      ∀ i, InRange i dims → r.elem i = g.elem (List.zipWith (· + ·) (padding.map Prod.fst) i) ∧
        InRange (List.zipWith (· + ·) (padding.map Prod.fst) i) g.dims := by
  obtain ⟨h1, h2, h3⟩ := centerBounds_ok hl hp hs
  obtain ⟨r, r1, r2, r3, r4⟩ := sliceAll_ok (pre := []) hg hgd (by simp [padDims, hl]; exact hr) h1
  rw [h2] at r3
  refine ⟨r, r1, r2, r3, fun i hi => ⟨?_, ?_⟩⟩
  · have := r4 [] i trivial (by rw [h2]; exact hi)
    rw [h3] at this
    exact this
  · rw [hgd, ← h3]
    exact inRange_block h1 (by rw [h2]; exact hi)

theorem padSource_constant {dims : List Nat} {padding : List (Nat × Nat)} {i j : List Nat}
    (hl : padding.length = dims.length) (hi : InRange i dims) (hj : j.length = dims.length) :
    PadSource .constant dims padding j i ↔ j = List.zipWith (· + ·) (padding.map Prod.fst) i := by
  induction dims generalizing padding i j with
  | nil =>
    rw [List.eq_nil_of_length_eq_zero hl, List.eq_nil_of_length_eq_zero hi.length, List.eq_nil_of_length_eq_zero hj]
    exact ⟨fun _ => rfl, fun _ => padSource_nil _⟩
  | cons d dims ih =>
    match padding, i, j, hl, hi, hj with
    | p :: padding, x :: i, c :: j, hl, hi, hj =>
      rw [padSource_cons, ih (by simpa using hl) hi.2 (by simpa using hj)]
      simp only [List.map_cons, List.zipWith_cons_cons, List.cons.injEq]
      refine and_congr_left fun _ => ?_
      have : x < d := hi.1
      simp only [PadRule]
      omega

/-- **C94, constant padding**, for every layout of the upstream gradient. -/
theorem C94_constant [AddCommMonoid M] {g : Tensor M} {dims : List Nat} {padding : List (Nat × Nat)} (add : M → M → M)
    (zero : M) (cores : Nat) (fill : M) (hl : padding.length = dims.length) (hp : ∀ d ∈ dims, 0 < d)
    (hs : ∀ d ∈ padDims dims padding, d < 2 ^ 31 - 1) (hr : dims.length < 2 ^ 31) (hg : g.WF)
    (hgd : g.dims = padDims dims padding) :
    ∃ r, padVjp add zero cores fill .constant g dims padding = .ok r ∧ PadGrad .constant dims padding g r := by
  obtain ⟨r, r1, r2, r3, r4⟩ := sliceCenter_ok hl hp hs hr hg hgd
  refine ⟨r, by simp only [padVjp, r1, Res.ok_bind], r2, r3, fun i hi => ?_⟩
  obtain ⟨e1, e2⟩ := r4 i hi
  obtain ⟨v, hv⟩ := Option.isSome_iff_exists.mp (hg.2 _ e2)
  refine ⟨[List.zipWith (· + ·) (padding.map Prod.fst) i], [v], by simp, fun j => ?_, by simp [hv], by rw [e1, hv]; simp⟩
  rw [List.mem_singleton]
  constructor
  · rintro rfl
    exact ⟨e2, (padSource_constant hl hi (by rw [e2.length, hgd]; simp [padDims, hl])).mpr rfl⟩
  · rintro ⟨h1, h2⟩
    exact (padSource_constant hl hi (by rw [h1.length, hgd]; simp [padDims, hl])).mp h2

/-! ## Slices and their layouts -/

/-- The layout is not a contiguous one that starts inside of its buffer (see C10). -/
def OffOk (t : Tensor α) : Prop := t.layout.isContiguous = false ∨ t.layout.offset = 0

theorem strides_at (pre post : List Nat) (n : Nat) :
    (Layout.computeStrides (pre ++ n :: post)).getD pre.length 0 = numel post := by
  induction pre with
  | nil => simp [computeStrides_cons]
  | cons d pre ih => simpa [computeStrides_cons] using ih

theorem numel_append_pos {a : List Nat} (h : ∀ d ∈ a, 0 < d) : 0 < numel a := by
  induction a with
  | nil => simp [numel]
  | cons d a ih => simp only [numel]; exact Nat.mul_pos (h d (by simp)) (ih fun e he => h e (by simp [he]))

theorem slice_range {t : Tensor α} {pre post : List Nat} {n a e : Nat} (ht : t.WF) (hd : t.dims = pre ++ n :: post)
    (hr : (pre ++ n :: post).length < 2 ^ 31) (hae : a < e) (he : e ≤ n) (hn : n < 2 ^ 31 - 1) :
    ∃ r, sliceSingle t pre.length a e = .ok r ∧ r.WF ∧ r.dims = pre ++ (e - a) :: post ∧
      (∀ p x q, InRange p pre → x < e - a → InRange q post → r.elem (p ++ x :: q) = t.elem (p ++ (a + x) :: q)) ∧
      (OffOk t → a = 0 → r.layout.offset = 0) ∧
      (pre ≠ [] → e - a < n → (∀ d ∈ post, 0 < d) → r.layout.isContiguous = false) := by
  have hk : pre.length < t.dims.length := by rw [hd]; simp
  have hlen : t.dims.length < 2 ^ 31 := by rw [hd]; exact hr
  have hgd : t.dims[pre.length] = n := by simp [hd]
  obtain ⟨s, o, c1, c2, c3⟩ := contiguous_spec ht
  have hks : pre.length < (Layout.computeStrides t.dims).length := by rw [computeStrides_length]; exact hk
  have hax : IsAxis t.dims.length (pre.length : Int) pre.length := ⟨hk, Or.inl rfl⟩
  have hle := sliceStop_le n (some (e : Int))
  have hle' := sliceBound_le n (a : Int)
  obtain ⟨hsome, -⟩ := sliceBounds_pos (d := n) (start := (a : Int)) (step := 1) (stop := some (e : Int)) (by omega)
    (by unfold I32; omega) (by intro x hx; cases hx; unfold I32; omega) (by norm_num) (by omega)
  have hb1 : sliceBound n (a : Int) = a := by
    have := sliceBound_eq (d := n) (x := (a : Int)); omega
  have hb2 : sliceStop n (some (e : Int)) = e := by
    have := sliceBound_eq (d := n) (x := (e : Int))
    simp only [sliceStop]; omega
  rw [hb1, hb2] at hsome
  obtain ⟨m, hb, hj⟩ := hsome (by omega)
  have hm : m = e - a := by
    have h1 := hj m
    have h2 := hj (e - a)
    have h3 := hj (e - a - 1)
    omega
  subst hm
  have hsl : t.slice pre.length a (some (e : Int)) 1 = .ok ⟨s, ⟨t.dims.set pre.length (e - a),
      (Layout.computeStrides t.dims).set pre.length ((Layout.computeStrides t.dims).getD pre.length 0 * 1),
      o + a * (Layout.computeStrides t.dims).getD pre.length 0⟩⟩ := by
    rw [Tensor.slice, Tensor.viewVia, c1, Res.ok_bind]
    simp only [Layout.slice, Layout.ndim, castUsize_axis hlen hax, List.getElem?_eq_getElem hk,
      List.getElem?_eq_getElem hks, hgd, castI32_small (show n < 2 ^ 31 by omega), List.getD_eq_getElem?_getD,
      Option.getD_some]
    rw [if_neg (by norm_num), hb]
    simp
  obtain ⟨w1, w2⟩ := sliced_view (s := s) (o := o) (k := pre.length) (cs := a) (step := 1) (n := e - a) ht c2 hk hgd
    (fun j hj => by omega)
  have hdims : t.dims.set pre.length (e - a) = pre ++ (e - a) :: post := by
    rw [hd, List.set_append_right _ _ (le_refl _)]; simp
  refine ⟨_, hsl, w1, hdims, fun p x q hp hx hq => ?_, fun ho ha => ?_, fun hpre hlt hpos => ?_⟩
  · have hpl := hp.length
    rw [(w2 (p ++ x :: q) (by show InRange _ (t.dims.set _ _); rw [hdims]; exact (inRange_append hpl).mpr ⟨hp, hx, hq⟩)).2,
      ← hpl, List.set_append_right _ _ (le_refl _)]
    simp [List.getD_eq_getElem?_getD]
  · subst ha
    show o + 0 * _ = 0
    rcases c3 with ⟨c3, _⟩ | ⟨_, c3, c4⟩
    · omega
    · rcases ho with ho | ho
      · rw [ho] at c4; cases c4
      · omega
  · by_contra hc
    rw [Bool.not_eq_false, isContiguous_iff (by simp [computeStrides_length])] at hc
    have hc : (Layout.computeStrides t.dims).set pre.length ((Layout.computeStrides t.dims).getD pre.length 0 * 1) =
      Layout.computeStrides (t.dims.set pre.length (e - a)) := hc
    rw [hdims, hd] at hc
    obtain ⟨pre', d, rfl⟩ : ∃ pre' d, pre = pre' ++ [d] := ⟨pre.dropLast, pre.getLast hpre, (List.dropLast_append_getLast hpre).symm⟩
    have h1 := congrArg (fun l => l.getD pre'.length 0) hc
    simp only [List.append_assoc, List.singleton_append] at h1
    rw [strides_at pre' ((e - a) :: post) d, List.getD_eq_getElem?_getD, List.getElem?_set_ne (by simp), ← List.getD_eq_getElem?_getD, strides_at] at h1
    simp only [numel] at h1
    have := numel_append_pos hpos
    have := Nat.eq_of_mul_eq_mul_right this h1
    omega

theorem sliceAll_off {t r : Tensor α} {pre ds : List Nat} {bs : List (Nat × Nat)} (ht : t.WF) (hd : t.dims = pre ++ ds)
    (hr : (pre ++ ds).length < 2 ^ 31) (hb : List.Forall₂ (fun d b => b.1 < b.2 ∧ b.2 ≤ d ∧ d < 2 ^ 31 - 1) ds bs)
    (hpos : ∀ d ∈ ds, 0 < d) (ho : OffOk t) (h0 : pre = [] → ∀ b ∈ bs.head?, b.1 = 0)
    (h : sliceAll pre.length bs t = .ok r) : OffOk r := by
  induction hb generalizing t pre with
  | nil => simp only [sliceAll] at h; cases h; exact ho
  | @cons d b ds bs hb hrest ih =>
    obtain ⟨a, e⟩ := b
    simp only at hb
    obtain ⟨u, u1, u2, u3, -, u5, u6⟩ := slice_range ht hd hr hb.1 hb.2.1 hb.2.2
    simp only [sliceAll] at h
    rw [show t.slice pre.length a (some (e : Int)) 1 = .ok u from u1, Res.ok_bind] at h
    have hu : OffOk u := by
      by_cases ha : a = 0
      · exact Or.inr (u5 ho ha)
      · have hp : pre ≠ [] := fun hp => ha (h0 hp (a, e) (by simp))
        exact Or.inl (u6 hp (by omega) fun d h => hpos d (by simp [h]))
    exact ih (t := u) (pre := pre ++ [e - a]) u2 (by rw [u3]; simp) (by simpa using hr) (fun d h => hpos d (by simp [h])) hu
      (by simp) (by simpa using h)

/-! ## Adding to the front of a dimension -/

theorem rowMajor_origin (ds : List Nat) : rowMajor ds (ds.map fun _ => 0) = 0 := by
  induction ds with
  | nil => rfl
  | cons d ds ih => rw [List.map_cons, rowMajor, ih]; omega

theorem addAt_append (p q : List Nat) (x s : Nat) : addAt p.length s (p ++ x :: q) = p ++ (x + s) :: q := by
  induction p with
  | nil => simp [addAt]
  | cons y p ih => simpa [addAt] using ih

theorem binary_left {a b : Tensor α} (ha : a.WF) (hb : b.WF) (hd : b.dims = a.dims) (hp : ∀ d ∈ a.dims, 0 < d)
    (ho : OffOk a) (f : α → α → α) (cores : Nat) (fill : α) :
    ∃ r, Tensor.binary cores f fill a b = .ok r ∧ r.WF ∧ r.dims = a.dims ∧ r.storage.length = numel r.dims ∧ OffOk r ∧
      ∀ idx, InRange idx a.dims → ∃ x y, a.elem idx = some x ∧ b.elem idx = some y ∧ r.elem idx = some (f x y) := by
  obtain ⟨hc, hs⟩ := commonShape_of_broadcastsTo (broadcastsTo_self a.dims)
  obtain ⟨-, h2⟩ := broadcast2_spec ha hb hp (by rw [hd]; exact hp)
  rw [hd] at h2
  obtain ⟨l, r, e1, e2, e3, e4, e5, e6, e7⟩ := h2 hc
  have hld : l.dims = a.dims := e2.unique hs
  obtain ⟨vals, v1, v2, v3, _⟩ := C09_kernel_value e4 e5 e3.symm f
  have hk := v3 cores (List.replicate l.layout.size fill) (by simp [Layout.size, shapeSize_eq])
  have hel : ∀ idx, InRange idx a.dims → ∃ x y, a.elem idx = some x ∧ b.elem idx = some y ∧
      Tensor.elem ⟨vals, l.layout⟩ idx = some (f x y) := by
    intro idx hi
    have hi' : InRange idx l.dims := by rw [hld]; exact hi
    obtain ⟨x, y, hx, hy, hv⟩ := v2 idx hi'
    obtain ⟨f1, f2⟩ := e6 idx hi'
    rw [hx, broadcastIndex_self hi] at f1
    rw [hy, broadcastIndex_self hi] at f2
    refine ⟨x, y, f1.symm, f2.symm, ?_⟩
    have := e7 hld ho idx hi'
    simp only [Tensor.elem, this, hv]
  refine ⟨⟨vals, l.layout⟩, by simp [Tensor.binary, e1, hk], ⟨e4.1, fun idx hi => ?_⟩, hld, v1, ?_, hel⟩
  · obtain ⟨x, y, -, -, h⟩ := hel idx (by rw [← hld]; exact hi)
    rw [h]; rfl
  · have h0 : InRange (a.dims.map fun _ => 0) a.dims := by
      generalize a.dims = ds at hp
      induction ds with
      | nil => trivial
      | cons d ds ih => exact ⟨hp d (by simp), ih fun d h => hp d (by simp [h])⟩
    have := e7 hld ho _ (by rw [hld]; exact h0)
    rw [hld] at this
    right
    show l.layout.offset = 0
    have hz := rowMajor_origin a.dims
    omega

/-- Adding `part` to the first `e` positions of dimension `pre.length`. -/
theorem addAtRange_front {acc part : Tensor α} {pre post : List Nat} {n e : Nat} (add : α → α → α) (cores : Nat) (fill : α)
    (hacc : acc.WF) (hd : acc.dims = pre ++ n :: post) (hr : (pre ++ n :: post).length ≤ 16)
    (hpos : ∀ d ∈ pre ++ n :: post, 0 < d) (he : 0 < e) (hen : e ≤ n) (hn : n < 2 ^ 31 - 1) (ho : OffOk acc)
    (hpart : part.WF) (hpd : part.dims = pre ++ e :: post) :
    ∃ r, addAtRange add cores fill acc pre.length 0 e part = .ok r ∧ r.WF ∧ r.dims = acc.dims ∧
      ∀ p x q, InRange p pre → x < n → InRange q post →
        (x < e → ∃ u v, acc.elem (p ++ x :: q) = some u ∧ part.elem (p ++ x :: q) = some v ∧
          r.elem (p ++ x :: q) = some (add u v)) ∧
        (e ≤ x → r.elem (p ++ x :: q) = acc.elem (p ++ x :: q)) := by
  obtain ⟨tg, t1, t2, t3, t4, t5, -⟩ := slice_range hacc hd (by omega) he hen hn
  rw [Nat.sub_zero] at t3 t4
  have hpos' : ∀ d ∈ tg.dims, 0 < d := by
    rw [t3]
    intro d hd'
    simp only [List.mem_append, List.mem_cons] at hd'
    rcases hd' with h | rfl | h
    · exact hpos d (by simp [h])
    · exact he
    · exact hpos d (by simp [h])
  obtain ⟨ad, a1, a2, a3, a4, a5, a6⟩ := binary_left t2 hpart (by rw [hpd, t3]) hpos' (Or.inr (t5 ho rfl)) add cores fill
  have hkn : acc.dims[pre.length]? = some n := by rw [hd]; simp
  have hval : ∀ p x q, InRange p pre → x < e → InRange q post → ∃ u v, acc.elem (p ++ x :: q) = some u ∧
      part.elem (p ++ x :: q) = some v ∧ ad.elem (p ++ x :: q) = some (add u v) := by
    intro p x q hp hx hq
    obtain ⟨u, v, h1, h2, h3⟩ := a6 (p ++ x :: q) (by rw [t3]; exact (inRange_append hp.length).mpr ⟨hp, hx, hq⟩)
    rw [t4 p x q hp hx hq, Nat.zero_add] at h1
    exact ⟨u, v, h1, h2, h3⟩
  by_cases hen' : e = n
  · subst hen'
    refine ⟨ad, ?_, a2, by rw [a3, t3, hd], fun p x q hp hx hq => ⟨hval p x q hp |> fun h hx => h hx hq, fun h => by omega⟩⟩
    simp only [addAtRange, t1, a1, Res.ok_bind, replaceSingle, readR, hkn]
    rw [if_pos ⟨trivial, trivial⟩]
  · obtain ⟨af, f1, f2, f3, f4, -, -⟩ := slice_range hacc hd (by omega) (show e < n by omega) (le_refl n) hn
    have hadd : ad.dims = pre ++ e :: post := by rw [a3, t3]
    obtain ⟨r, r1, r2, -, -, r5, r6⟩ := C16_concat_partial (ts := [ad, af]) (t := ad) (d := (pre.length : Int))
      (k := pre.length) rfl (by
        intro u hu
        simp only [List.mem_cons, List.not_mem_nil, or_false] at hu
        rcases hu with rfl | rfl
        · exact a2
        · exact f2) ⟨by rw [hadd]; simp, Or.inl rfl⟩ (by rw [hadd]; simpa using hr) (by
        intro u hu
        simp only [List.mem_cons, List.not_mem_nil, or_false] at hu
        rcases hu with rfl | rfl
        · exact ⟨rfl, fun _ _ => rfl⟩
        · refine ⟨by rw [f3, hadd]; simp, fun i hi => ?_⟩
          rw [f3, hadd]
          rcases Nat.lt_or_ge i pre.length with h | h
          · rw [List.getElem?_append_left h, List.getElem?_append_left h]
          · rw [List.getElem?_append_right h, List.getElem?_append_right h]
            obtain ⟨m, hm⟩ : ∃ m, i - pre.length = m + 1 := ⟨i - pre.length - 1, by omega⟩
            rw [hm]; rfl) (by
        intro i hi hi'
        have : i = 0 := by simp at hi'; omega
        subst this
        exact a4)
    have hs0 : startOf pre.length ([ad, af].map (·.dims)) 0 = 0 := rfl
    have hs1 : startOf pre.length ([ad, af].map (·.dims)) 1 = e := by
      simp [startOf, hadd, List.getD_eq_getElem?_getD]
    have hs2 : startOf pre.length ([ad, af].map (·.dims)) 2 = n := by
      simp [startOf, hadd, f3, List.getD_eq_getElem?_getD]; omega
    refine ⟨r, ?_, r2, ?_, fun p x q hp hx hq => ⟨fun hxe => ?_, fun hxe => ?_⟩⟩
    · simp only [addAtRange, t1, a1, Res.ok_bind, replaceSingle, readR, hkn]
      rw [if_neg (by omega), if_neg (by omega), if_pos (by omega), f1]
      exact r1
    · rw [r5 ad rfl, show [ad, af].length = 2 from rfl, hs2, hadd, hd, List.set_append_right _ _ (le_refl _)]
      simp
    · obtain ⟨u, v, h1, h2, h3⟩ := hval p x q hp hxe hq
      refine ⟨u, v, h1, h2, ?_⟩
      have := r6 0 (by simp) (p ++ x :: q) (by
        show InRange _ ad.dims
        rw [hadd]; exact (inRange_append hp.length).mpr ⟨hp, hxe, hq⟩)
      rw [hs0, ← hp.length, addAt_append] at this
      rw [← h3]
      exact this
    · have := r6 1 (by simp) (p ++ (x - e) :: q) (by
        show InRange _ af.dims
        rw [f3]; exact (inRange_append hp.length).mpr ⟨hp, by omega, hq⟩)
      rw [hs1] at this
      have e1 : addAt pre.length e (p ++ (x - e) :: q) = p ++ x :: q := by
        rw [← hp.length, addAt_append]
        congr 2; omega
      rw [e1] at this
      rw [this]
      show af.elem _ = _
      rw [f4 p (x - e) q hp (by omega) hq]
      congr 3; omega

/-! ## One padded dimension -/

/-- The ranges of a block that covers all dimensions but one. -/
def oneBlock (pre post : List Nat) (a e : Nat) : List (Nat × Nat) :=
  pre.map (fun d => (0, d)) ++ (a, e) :: post.map (fun d => (0, d))

theorem centerBounds_append (p1 p2 : List (Nat × Nat)) (d1 d2 : List Nat) (h : p1.length = d1.length) :
    centerBounds (p1 ++ p2) (d1 ++ d2) = centerBounds p1 d1 ++ centerBounds p2 d2 := by
  simp only [centerBounds]; exact List.zipWith_append h

theorem centerBounds_zero (ds : List Nat) : centerBounds (List.replicate ds.length (0, 0)) ds = ds.map (fun d => (0, d)) := by
  induction ds with
  | nil => rfl
  | cons d ds ih =>
    simp only [List.length_cons, List.replicate_succ, List.map_cons]
    rw [← ih]; simp [centerBounds]

theorem centerBounds_one (pre post : List Nat) (n : Nat) (p : Nat × Nat) :
    centerBounds (onePad pre post p) (pre ++ n :: post) = oneBlock pre post p.1 (p.1 + n) := by
  rw [onePad, centerBounds_append _ _ _ _ (by simp), centerBounds_zero, oneBlock, ← centerBounds_zero post]
  rfl

theorem oneBlock_set (pre post : List Nat) (a e a' e' : Nat) :
    (oneBlock pre post a e).set pre.length (a', e') = oneBlock pre post a' e' := by
  rw [oneBlock, List.set_append_right _ _ (by simp)]; simp [oneBlock]

theorem map_full (ds : List Nat) : (ds.map fun d => ((0, d) : Nat × Nat)).map (fun b => b.2 - b.1) = ds ∧
    ∀ q, InRange q ds → List.zipWith (· + ·) ((ds.map fun d => ((0, d) : Nat × Nat)).map Prod.fst) q = q := by
  induction ds with
  | nil => exact ⟨rfl, fun q hq => by rw [List.eq_nil_of_length_eq_zero hq.length]; rfl⟩
  | cons d ds ih =>
    refine ⟨by simp only [List.map_cons, ih.1]; rfl, fun q hq => ?_⟩
    match q, hq with
    | x :: q, hq =>
      simp only [List.map_cons, List.zipWith_cons_cons, Nat.zero_add]
      rw [ih.2 q hq.2]

theorem sliceOne_ok {g : Tensor α} {pre post : List Nat} {o a e : Nat} (hg : g.WF) (hd : g.dims = pre ++ o :: post)
    (hr : (pre ++ o :: post).length < 2 ^ 31) (hpos : ∀ d ∈ pre ++ o :: post, 0 < d ∧ d < 2 ^ 31 - 1) (hae : a < e)
    (he : e ≤ o) :
    ∃ r, sliceAll 0 (oneBlock pre post a e) g = .ok r ∧ r.WF ∧ r.dims = pre ++ (e - a) :: post ∧
      (∀ p x q, InRange p pre → x < e - a → InRange q post → r.elem (p ++ x :: q) = g.elem (p ++ (a + x) :: q)) ∧
      (OffOk g → a = 0 ∨ pre ≠ [] → OffOk r) := by
  have full : ∀ ds : List Nat, (∀ d ∈ ds, 0 < d ∧ d < 2 ^ 31 - 1) →
      List.Forall₂ (fun d b => b.1 < b.2 ∧ b.2 ≤ d ∧ d < 2 ^ 31 - 1) ds (ds.map fun d => ((0, d) : Nat × Nat)) := by
    intro ds h
    rw [List.forall₂_map_right_iff, List.forall₂_same]
    exact fun d hd => ⟨(h d hd).1, le_refl _, (h d hd).2⟩
  have hb : List.Forall₂ (fun d b => b.1 < b.2 ∧ b.2 ≤ d ∧ d < 2 ^ 31 - 1) (pre ++ o :: post) (oneBlock pre post a e) :=
    List.rel_append (full pre fun d h => hpos d (by simp [h]))
      (.cons ⟨hae, he, (hpos o (by simp)).2⟩ (full post fun d h => hpos d (by simp [h])))
  obtain ⟨r, r1, r2, r3, r4⟩ := sliceAll_ok (pre := []) hg hd (by simpa using hr) hb
  have hbd : (oneBlock pre post a e).map (fun b => b.2 - b.1) = pre ++ (e - a) :: post := by
    rw [oneBlock, List.map_append, (map_full pre).1, List.map_cons, (map_full post).1]
  rw [List.nil_append, hbd] at r3
  refine ⟨r, r1, r2, r3, fun p x q hp hx hq => ?_, fun ho h => ?_⟩
  · have := r4 [] (p ++ x :: q) trivial (by rw [hbd]; exact (inRange_append hp.length).mpr ⟨hp, hx, hq⟩)
    rw [List.nil_append, List.nil_append, oneBlock, List.map_append, List.map_cons,
      List.zipWith_append (by simp [hp.length]), (map_full pre).2 p hp, List.zipWith_cons_cons, (map_full post).2 q hq] at this
    exact this
  · refine sliceAll_off (pre := []) hg hd (by simpa using hr) hb (fun d h => (hpos d h).1) ho (fun _ b hb' => ?_) r1
    rcases h with h | h
    · subst h
      cases pre with
      | nil => simp [oneBlock] at hb'; rw [← hb']
      | cons d pre => simp [oneBlock] at hb'; rw [← hb']
    · cases pre with
      | nil => exact absurd rfl h
      | cons d pre => simp [oneBlock] at hb'; rw [← hb']

/-- A loop that does something in one dimension only. -/
theorem dimLoop_one {step : Nat → Tensor α → Res (Tensor α)} {N m : Nat} {c r : Tensor α} (hm : m < N)
    (h1 : ∀ k acc, k < N → k ≠ m → step k acc = .ok acc) (h2 : step m c = .ok r) :
    dimLoop step (List.range N) c = .ok r := by
  have skip : ∀ (ks : List Nat) (acc : Tensor α), (∀ k ∈ ks, k < N ∧ k ≠ m) → dimLoop step ks acc = .ok acc := by
    intro ks
    induction ks with
    | nil => intro acc _; rfl
    | cons k ks ih =>
      intro acc h
      rw [dimLoop, h1 k acc (h k (by simp)).1 (h k (by simp)).2, Res.ok_bind]
      exact ih acc fun k hk => h k (by simp [hk])
  have app : ∀ (ks ls : List Nat) (acc : Tensor α), (∀ k ∈ ks, k < N ∧ k ≠ m) →
      dimLoop step (ks ++ ls) acc = dimLoop step ls acc := by
    intro ks
    induction ks with
    | nil => intro ls acc _; rfl
    | cons k ks ih =>
      intro ls acc h
      rw [List.cons_append, dimLoop, h1 k acc (h k (by simp)).1 (h k (by simp)).2, Res.ok_bind]
      exact ih ls acc fun k hk => h k (by simp [hk])
  have hsplit : List.range N = List.range m ++ m :: List.range' (m + 1) (N - m - 1) := by
    rw [List.range_eq_range', List.range_eq_range', ← List.range'_succ, show N - m - 1 + 1 = N - m by omega]
    have := List.range'_append_1 (s := 0) (m := m) (n := N - m)
    rw [Nat.zero_add] at this
    rw [this]; congr 1; omega
  rw [hsplit, app _ _ _ (by intro k hk; rw [List.mem_range] at hk; omega), dimLoop, h2, Res.ok_bind]
  exact skip _ _ (by intro k hk; rw [List.mem_range'_1] at hk; omega)

theorem padAt_one (pre post : List Nat) (n : Nat) (p : Nat × Nat) :
    padAt (onePad pre post p) (pre ++ n :: post) pre.length = .ok (n, p.1, p.2) ∧
      ∀ k, k < (pre ++ n :: post).length → k ≠ pre.length →
        ∃ d, padAt (onePad pre post p) (pre ++ n :: post) k = .ok (d, 0, 0) := by
  constructor
  · simp [padAt, onePad, readR]
  · intro k hk hne
    have h1 : (onePad pre post p)[k]? = some (0, 0) := by
      rw [onePad]
      rcases Nat.lt_or_ge k pre.length with h | h
      · rw [List.getElem?_append_left (by simpa using h)]; simp [h]
      · rw [List.getElem?_append_right (by simpa using h)]
        obtain ⟨m, hm⟩ : ∃ m, k - pre.length = m + 1 := ⟨k - pre.length - 1, by omega⟩
        have : m < post.length := by simp at hk; omega
        simp [hm, this]
    refine ⟨(pre ++ n :: post)[k], ?_⟩
    simp only [padAt, readR, h1, List.getElem?_eq_getElem hk, Res.ok_bind]

theorem padGrad_intro [AddCommMonoid M] {mode : PadMode} {pre post : List Nat} {n o : Nat} {p : Nat × Nat} {g r : Tensor M}
    (hgd : g.dims = pre ++ o :: post) (hr : r.WF) (hrd : r.dims = pre ++ n :: post)
    (h : ∀ a x b, InRange a pre → x < n → InRange b post → ∃ (cs : List Nat) (vals : List M), cs.Nodup ∧
      (∀ c, c ∈ cs ↔ c < o ∧ PadRule mode n p.1 c x) ∧ cs.map (fun c => g.elem (a ++ c :: b)) = vals.map some ∧
      r.elem (a ++ x :: b) = some vals.sum) :
    PadGrad mode (pre ++ n :: post) (onePad pre post p) g r := by
  refine ⟨hr, hrd, fun i hi => ?_⟩
  obtain ⟨a, x, b, rfl, ha, hx, hb⟩ : ∃ a x b, i = a ++ x :: b ∧ InRange a pre ∧ x < n ∧ InRange b post := by
    obtain ⟨h1, h2⟩ := inRange_append_split hi
    match hdr : i.drop pre.length, h2 with
    | x :: b, h2 => exact ⟨i.take pre.length, x, b, by rw [← hdr, List.take_append_drop], h1, h2.1, h2.2⟩
  obtain ⟨cs, vals, h1, h2, h3, h4⟩ := h a x b ha hx hb
  refine ⟨cs.map fun c => a ++ c :: b, vals, h1.map fun c c' hc => by simpa using hc, fun j => ?_, by
    rw [List.map_map]; exact h3, h4⟩
  rw [List.mem_map]
  constructor
  · rintro ⟨c, hc, rfl⟩
    obtain ⟨hc1, hc2⟩ := (h2 c).mp hc
    have hj : InRange (a ++ c :: b) (pre ++ o :: post) := (inRange_append ha.length).mpr ⟨ha, hc1, hb⟩
    exact ⟨by rw [hgd]; exact hj, (padSource_one hj ha hb).mpr ⟨c, rfl, hc2⟩⟩
  · rintro ⟨hj, hs⟩
    rw [hgd] at hj
    obtain ⟨c, rfl, hc⟩ := (padSource_one hj ha hb).mp hs
    exact ⟨c, (h2 c).mpr ⟨((inRange_append ha.length).mp hj).2.1, hc⟩, rfl⟩

/-- **C94, circular padding after one dimension**, by at most its size.  Missing: padding before a dimension, more than one
padded dimension, wider padding (all refuted below). -/
theorem C94_circular_partial [AddCommMonoid M] {g : Tensor M} {pre post : List Nat} {n w : Nat} (zero : M) (cores : Nat)
    (fill : M) (hr : (pre ++ n :: post).length ≤ 16) (hpos : ∀ d ∈ pre ++ (n + w) :: post, 0 < d ∧ d < 2 ^ 31 - 1)
    (hw : 0 < w) (hwn : w ≤ n) (hg : g.WF) (hgd : g.dims = pre ++ (n + w) :: post) (ho : OffOk g) :
    ∃ r, padVjp (· + ·) zero cores fill .circular g (pre ++ n :: post) (onePad pre post (0, w)) = .ok r ∧
      PadGrad .circular (pre ++ n :: post) (onePad pre post (0, w)) g r := by
  have hr' : (pre ++ (n + w) :: post).length < 2 ^ 31 := by simp at hr ⊢; omega
  have hnw := (hpos (n + w) (by simp)).2
  obtain ⟨c, c1, c2, c3, c4, c5⟩ := sliceOne_ok (a := 0) (e := n) hg hgd hr' hpos (by omega) (by omega)
  obtain ⟨pt, p1, p2, p3, p4, -⟩ := sliceOne_ok (a := n) (e := n + w) hg hgd hr' hpos (by omega) (by omega)
  rw [Nat.sub_zero] at c3 c4
  rw [Nat.add_sub_cancel_left] at p3 p4
  obtain ⟨r, r1, r2, r3, r4⟩ := addAtRange_front (acc := c) (part := pt) (n := n) (e := w) (· + ·) cores fill c2 c3 hr
    (by
      intro d hd
      simp only [List.mem_append, List.mem_cons] at hd
      rcases hd with h | rfl | h
      · exact (hpos d (by simp [h])).1
      · omega
      · exact (hpos d (by simp [h])).1) hw hwn (by omega) (c5 ho (Or.inl rfl)) p2 p3
  obtain ⟨q1, q2⟩ := padAt_one pre post n (0, w)
  refine ⟨r, ?_, padGrad_intro hgd r2 (by rw [r3, c3]) fun a x b ha hx hb => ?_⟩
  · have hc : sliceCenter g (pre ++ n :: post) (onePad pre post (0, w)) = .ok c := by
      rw [sliceCenter, centerBounds_one]; simpa using c1
    simp only [padVjp, hc, Res.ok_bind]
    refine dimLoop_one (m := pre.length) (by simp) (fun k acc hk hne => ?_) ?_
    · obtain ⟨d, hd⟩ := q2 k hk hne
      simp [circularStep, hd]
    · have hk : g.dims[pre.length]? = some (n + w) := by rw [hgd]; simp
      simp only [circularStep, q1, Res.ok_bind, if_neg (Nat.lt_irrefl 0), if_pos hw, readR, hk, sliceDim, centerBounds_one,
        oneBlock_set, Nat.add_sub_cancel]
      rw [p1, Res.ok_bind]
      exact r1
  · obtain ⟨k1, k2⟩ := r4 a x b ha hx hb
    have hcx := c4 a x b ha hx hb
    rw [Nat.zero_add] at hcx
    have hrule : ∀ c, c < n + w → (PadRule .circular n 0 c x ↔ c = x ∨ c = n + x) := by
      intro c hc
      simp only [PadRule]
      constructor
      · rintro ⟨-, k, hk⟩
        have hn : (0 : Int) < n := by omega
        have e1 : (c : Int) < 2 * n := by omega
        have e2 : (x : Int) < n := by omega
        have e3 : (n : Int) * k < n * 2 := by omega
        have e4 : (n : Int) * (-1) < n * k := by omega
        have k1 : k < 2 := lt_of_mul_lt_mul_left e3 hn.le
        have k2 : -1 < k := lt_of_mul_lt_mul_left e4 hn.le
        obtain rfl | rfl : k = 0 ∨ k = 1 := by omega
        · left; omega
        · right; omega
      · rintro (rfl | rfl)
        · exact ⟨hx, 0, by simp⟩
        · exact ⟨hx, 1, by push_cast; ring⟩
    by_cases hxw : x < w
    · obtain ⟨u, v, h1, h2, h3⟩ := k1 hxw
      rw [p4 a x b ha hxw hb] at h2
      rw [hcx] at h1
      refine ⟨[x, n + x], [u, v], by simp; omega, fun c => ?_, by simp [h1, h2], by simpa using h3⟩
      simp only [List.mem_cons, List.not_mem_nil, or_false]
      constructor
      · intro h
        have hc : c < n + w := by omega
        exact ⟨hc, (hrule c hc).mpr h⟩
      · rintro ⟨h, h'⟩; exact (hrule c h).mp h'
    · have h3 := k2 (by omega)
      rw [hcx] at h3
      have hin : InRange (a ++ x :: b) g.dims := by
        rw [hgd]; exact (inRange_append ha.length).mpr ⟨ha, show x < n + w by omega, hb⟩
      obtain ⟨v, hv⟩ := Option.isSome_iff_exists.mp (hg.2 _ hin)
      refine ⟨[x], [v], by simp, fun c => ?_, by simp [hv], by rw [h3, hv]; simp⟩
      simp only [List.mem_cons, List.not_mem_nil, or_false]
      constructor
      · rintro rfl
        exact ⟨by omega, (hrule c (by omega)).mpr (Or.inl rfl)⟩
      · rintro ⟨h, h'⟩
        rcases (hrule c h).mp h' with h | h
        · exact h
        · omega

theorem zeroAxes_middle (a b : List Nat) (c : Nat) : zeroAxes [a.length] (a ++ c :: b) = a ++ 0 :: b := by
  apply List.ext_getElem?
  intro k
  simp only [zeroAxes, List.getElem?_mapIdx, List.mem_singleton]
  rcases Nat.lt_trichotomy k a.length with h | h | h
  · rw [List.getElem?_append_left h, List.getElem?_append_left h, List.getElem?_eq_getElem h]
    simp; omega
  · subst h; simp
  · obtain ⟨m, rfl⟩ : ∃ m, k = a.length + (m + 1) := ⟨k - a.length - 1, by omega⟩
    rw [List.getElem?_append_right (by omega), List.getElem?_append_right (by omega), Nat.add_sub_cancel_left,
      List.getElem?_cons_succ, List.getElem?_cons_succ]
    cases b[m]? <;> simp

theorem unitAxes_middle (a b : List Nat) (c : Nat) : unitAxes [a.length] (a ++ c :: b) = a ++ 1 :: b := by
  apply List.ext_getElem?
  intro k
  simp only [unitAxes, List.getElem?_mapIdx, List.mem_singleton]
  rcases Nat.lt_trichotomy k a.length with h | h | h
  · rw [List.getElem?_append_left h, List.getElem?_append_left h, List.getElem?_eq_getElem h]
    simp; omega
  · subst h; simp
  · obtain ⟨m, rfl⟩ : ∃ m, k = a.length + (m + 1) := ⟨k - a.length - 1, by omega⟩
    rw [List.getElem?_append_right (by omega), List.getElem?_append_right (by omega), Nat.add_sub_cancel_left,
      List.getElem?_cons_succ, List.getElem?_cons_succ]
    cases b[m]? <;> simp

/-- The sum over one dimension, kept with size 1. -/
theorem sum_one [AddCommMonoid M] {t : Tensor M} {pre post : List Nat} {w : Nat} (ht : t.WF) (hd : t.dims = pre ++ w :: post)
    (hr : (pre ++ w :: post).length ≤ 16) :
    ∃ s, t.sum (· + ·) 0 [(pre.length : Int)] true = .ok s ∧ s.WF ∧ s.dims = pre ++ 1 :: post ∧
      ∀ a b, InRange a pre → InRange b post → ∃ (cs : List Nat) (vals : List M), cs.Nodup ∧ (∀ c, c ∈ cs ↔ c < w) ∧
        cs.map (fun c => t.elem (a ++ c :: b)) = vals.map some ∧ s.elem (a ++ 0 :: b) = some vals.sum := by
  obtain ⟨s, s1, s2, s3, s4⟩ := C21_reduce_partial (ds := [(pre.length : Int)]) (K := [pre.length]) (keep := true) ht
    (by rw [hd]; exact hr) (Or.inr ⟨by simp, .cons ⟨by rw [hd]; simp, Or.inl rfl⟩ .nil⟩) (by simp) (by simp)
    (fun vs : List M => vs.foldl (· + ·) 0)
  have hsd : reduceShape [pre.length] true t.dims = pre ++ 1 :: post := by
    rw [hd]; exact unitAxes_middle pre post w
  rw [hsd] at s3 s4
  refine ⟨s, s1, s2, s3, fun a b ha hb => ?_⟩
  obtain ⟨js, vals, h1, h2, h3, h4⟩ := s4 (a ++ 0 :: b) ((inRange_append ha.length).mpr ⟨ha, Nat.one_pos, hb⟩)
  have hmem : ∀ j, j ∈ js ↔ ∃ c, c < w ∧ j = a ++ c :: b := by
    intro j
    rw [h1.mem, hd]
    constructor
    · rintro ⟨hj, hz⟩
      obtain ⟨k1, k2⟩ := inRange_append_split hj
      match hdr : j.drop pre.length, k2 with
      | c :: b', k2 =>
        have hcw : c < w := k2.1
        have hj' : j = j.take pre.length ++ c :: b' := by rw [← hdr, List.take_append_drop]
        generalize j.take pre.length = a' at hj' k1
        subst hj'
        have hl := k1.length
        have hz : zeroAxes [pre.length] (a' ++ c :: b') = a ++ 0 :: b := hz
        rw [← hl, zeroAxes_middle] at hz
        obtain ⟨e1, e2⟩ := List.append_inj hz (by rw [hl, ha.length])
        simp only [List.cons.injEq, true_and] at e2
        exact ⟨c, hcw, by rw [e1, e2]⟩
    · rintro ⟨c, hc, rfl⟩
      refine ⟨(inRange_append ha.length).mpr ⟨ha, hc, hb⟩, ?_⟩
      show zeroAxes [pre.length] (a ++ c :: b) = _
      rw [← ha.length, zeroAxes_middle]
  refine ⟨js.map fun j => j.getD pre.length 0, vals, ?_, fun c => ?_, ?_, by rw [h4, foldl_add_eq_sum]⟩
  · refine h2.map_on fun j hj j' hj' he => ?_
    obtain ⟨c, -, rfl⟩ := (hmem j).mp hj
    obtain ⟨c', -, rfl⟩ := (hmem j').mp hj'
    rw [← ha.length] at he
    simp at he
    rw [he]
  · rw [List.mem_map]
    constructor
    · rintro ⟨j, hj, rfl⟩
      obtain ⟨c, hc, rfl⟩ := (hmem j).mp hj
      rw [← ha.length]; simpa using hc
    · intro hc
      refine ⟨a ++ c :: b, (hmem _).mpr ⟨c, hc, rfl⟩, ?_⟩
      rw [← ha.length]; simp
  · rw [List.map_map, ← h3]
    refine List.map_congr_left fun j hj => ?_
    obtain ⟨c, -, rfl⟩ := (hmem j).mp hj
    simp only [Function.comp_apply]
    congr 2
    rw [← ha.length]; simp

/-- **C94, replicating before one dimension**, other than the first.  Missing: padding after a dimension, the first dimension,
more than one padded dimension (all refuted below). -/
theorem C94_replicate_partial [AddCommMonoid M] {g : Tensor M} {pre post : List Nat} {n w : Nat} (cores : Nat)
    (fill : M) (hr : (pre ++ n :: post).length ≤ 16) (hpos : ∀ d ∈ pre ++ (n + w) :: post, 0 < d ∧ d < 2 ^ 31 - 1)
    (hw : 0 < w) (hn : 0 < n) (hpre : pre ≠ []) (hg : g.WF) (hgd : g.dims = pre ++ (n + w) :: post) (ho : OffOk g) :
    ∃ r, padVjp (· + ·) 0 cores fill .replicate g (pre ++ n :: post) (onePad pre post (w, 0)) = .ok r ∧
      PadGrad .replicate (pre ++ n :: post) (onePad pre post (w, 0)) g r := by
  have hr' : (pre ++ (n + w) :: post).length < 2 ^ 31 := by simp at hr ⊢; omega
  have hnw := (hpos (n + w) (by simp)).2
  obtain ⟨c, c1, c2, c3, c4, c5⟩ := sliceOne_ok (a := w) (e := w + n) hg hgd hr' hpos (by omega) (by omega)
  obtain ⟨pt, p1, p2, p3, p4, -⟩ := sliceOne_ok (a := 0) (e := w) hg hgd hr' hpos (by omega) (by omega)
  rw [Nat.add_sub_cancel_left] at c3 c4
  rw [Nat.sub_zero] at p3 p4
  obtain ⟨s, s1, s2, s3, s4⟩ := sum_one p2 p3 (by simpa using hr)
  obtain ⟨r, r1, r2, r3, r4⟩ := addAtRange_front (acc := c) (part := s) (n := n) (e := 1) (· + ·) cores fill c2 c3 hr
    (by
      intro d hd
      simp only [List.mem_append, List.mem_cons] at hd
      rcases hd with h | rfl | h
      · exact (hpos d (by simp [h])).1
      · omega
      · exact (hpos d (by simp [h])).1) Nat.one_pos (by omega) (by omega) (c5 ho (Or.inr hpre)) s2 s3
  obtain ⟨q1, q2⟩ := padAt_one pre post n (w, 0)
  refine ⟨r, ?_, padGrad_intro hgd r2 (by rw [r3, c3]) fun a x b ha hx hb => ?_⟩
  · have hc : sliceCenter g (pre ++ n :: post) (onePad pre post (w, 0)) = .ok c := by
      rw [sliceCenter, centerBounds_one]; exact c1
    simp only [padVjp, hc, Res.ok_bind]
    refine dimLoop_one (m := pre.length) (by simp) (fun k acc hk hne => ?_) ?_
    · obtain ⟨d, hd⟩ := q2 k hk hne
      simp [replicateStep, hd]
    · simp only [replicateStep, q1, Res.ok_bind, if_neg (Nat.lt_irrefl 0), if_pos hw, sliceDim, centerBounds_one,
        oneBlock_set]
      rw [p1, Res.ok_bind, s1, Res.ok_bind, r1, Res.ok_bind]
  · obtain ⟨k1, k2⟩ := r4 a x b ha hx hb
    have hcx := c4 a x b ha hx hb
    by_cases hx0 : x < 1
    · obtain rfl : x = 0 := by omega
      obtain ⟨u, v, h1, h2, h3⟩ := k1 hx0
      obtain ⟨cs, vals, e1, e2, e3, e4⟩ := s4 a b ha hb
      rw [h2] at e4
      rw [hcx, Nat.add_zero] at h1
      refine ⟨w :: cs, u :: vals, List.nodup_cons.mpr ⟨fun h => absurd ((e2 w).mp h) (lt_irrefl w), e1⟩, fun c => ?_, ?_, ?_⟩
      · rw [List.mem_cons, e2]
        simp only [PadRule, and_true, Nat.add_zero]
        omega
      · rw [List.map_cons, List.map_cons, h1, ← e3]
        congr 1
        refine List.map_congr_left fun c hc => ?_
        have := p4 a c b ha ((e2 c).mp hc) hb
        rw [Nat.zero_add] at this
        exact this.symm
      · rw [h3, List.sum_cons, Option.some.inj e4]
    · have h3 := k2 (by omega)
      rw [hcx] at h3
      have hin : InRange (a ++ (w + x) :: b) g.dims := by
        rw [hgd]; exact (inRange_append ha.length).mpr ⟨ha, show w + x < n + w by omega, hb⟩
      obtain ⟨v, hv⟩ := Option.isSome_iff_exists.mp (hg.2 _ hin)
      refine ⟨[w + x], [v], by simp, fun c => ?_, by simp [hv], by rw [h3, hv]; simp⟩
      rw [List.mem_singleton]
      simp only [PadRule]
      omega

/-- **C94, no padding**: every mode returns the upstream gradient. -/
theorem C94_none [AddCommMonoid M] {g : Tensor M} {dims : List Nat} (mode : PadMode) (zero : M) (cores : Nat) (fill : M)
    (hp : ∀ d ∈ dims, 0 < d ∧ d < 2 ^ 31 - 1) (hr : dims.length < 2 ^ 31) (hg : g.WF) (hgd : g.dims = dims) :
    ∃ r, padVjp (· + ·) zero cores fill mode g dims (List.replicate dims.length (0, 0)) = .ok r ∧
      PadGrad mode dims (List.replicate dims.length (0, 0)) g r ∧ ∀ i, InRange i dims → r.elem i = g.elem i := by
  have hpd : ∀ ds : List Nat, padDims ds (List.replicate ds.length (0, 0)) = ds := by
    intro ds
    induction ds with
    | nil => rfl
    | cons d ds ih => simp only [List.length_cons, List.replicate_succ, padDims, List.zipWith_cons_cons]; rw [← padDims, ih]; rfl
  have hz : ∀ (ds i : List Nat), i.length = ds.length →
      List.zipWith (· + ·) ((List.replicate ds.length ((0, 0) : Nat × Nat)).map Prod.fst) i = i := by
    intro ds
    induction ds with
    | nil => intro i hi; rw [List.eq_nil_of_length_eq_zero hi]; rfl
    | cons d ds ih =>
      intro i hi
      match i, hi with
      | x :: i, hi =>
        simp only [List.length_cons, List.replicate_succ, List.map_cons, List.zipWith_cons_cons, Nat.zero_add]
        rw [ih i (by simpa using hi)]
  obtain ⟨r, r1, r2, r3, r4⟩ := sliceCenter_ok (dims := dims) (padding := List.replicate dims.length (0, 0)) (by simp)
    (fun d h => (hp d h).1) (by rw [hpd]; exact fun d h => (hp d h).2) hr hg (by rw [hpd]; exact hgd)
  have hval : ∀ i, InRange i dims → r.elem i = g.elem i := by
    intro i hi
    have := (r4 i hi).1
    rwa [hz dims i hi.length] at this
  have hskip : ∀ (step : Nat → Tensor M → Res (Tensor M)), (∀ k acc, k < dims.length → step k acc = .ok acc) →
      dimLoop step (List.range dims.length) r = .ok r := by
    intro step h
    have : ∀ ks : List Nat, (∀ k ∈ ks, k < dims.length) → dimLoop step ks r = .ok r := by
      intro ks
      induction ks with
      | nil => intro _; rfl
      | cons k ks ih =>
        intro hk
        rw [dimLoop, h k r (hk k (by simp)), Res.ok_bind]
        exact ih fun k h => hk k (by simp [h])
    exact this _ fun k hk => List.mem_range.mp hk
  have hpa : ∀ k, k < dims.length → padAt (List.replicate dims.length (0, 0)) dims k = .ok (dims.getD k 0, 0, 0) := by
    intro k hk
    simp [padAt, readR, hk]
  refine ⟨r, ?_, ⟨r2, r3, fun i hi => ?_⟩, hval⟩
  · simp only [padVjp, r1, Res.ok_bind]
    cases mode with
    | constant => rfl
    | reflect => exact hskip _ fun k acc hk => by simp [reflectStep, hpa k hk]
    | replicate => exact hskip _ fun k acc hk => by simp [replicateStep, hpa k hk]
    | circular => exact hskip _ fun k acc hk => by simp [circularStep, hpa k hk]
  · obtain ⟨v, hv⟩ := Option.isSome_iff_exists.mp (hg.2 i (by rw [hgd]; exact hi))
    refine ⟨[i], [v], by simp, fun j => ?_, by simp [hv], by rw [hval i hi, hv]; simp⟩
    rw [List.mem_singleton, hgd]
    exact ⟨by rintro rfl; exact ⟨hi, (padSource_unpadded hi hi).mpr rfl⟩, fun h => (padSource_unpadded h.1 hi).mp h.2⟩

/-! ## Resize -/

theorem interp_const {P : (Int → ℝ) → ℚ → ℝ → Prop} (hP : ∀ g c v k, P g c v → (∀ a, g a = k) → v = k) {cs : List ℚ}
    {X : List Int → ℝ} {v k : ℝ} (hv : Interp P cs X v) (hX : ∀ ks, X ks = k) : v = k := by
  induction cs generalizing X v with
  | nil => rw [show v = X [] from hv]; exact hX []
  | cons c cs ih =>
    obtain ⟨g, hg, h⟩ := hv
    exact hP g c v k h fun a => ih (hg a) fun ks => hX (a :: ks)

/-- Resizing a constant gives the same constant, in every mode. -/
theorem resize_const {t : Tensor ℝ} {B C : Nat} {ns ms : List Nat} {k : ℝ} (mode : ResizeMode) (co : ResizeCoord)
    (ne : ResizeNearest) (ht : t.WF) (hd : t.dims = B :: C :: ns) (hr : ns.length = 2 ∨ ns.length = 3)
    (hm : ms.length = ns.length) (hn : ∀ n ∈ ns, 0 < n) (hk : ∀ i, InRange i t.dims → t.elem i = some k) :
    ∃ r, t.resize realArith id id id ms mode co ne = .ok r ∧ r.WF ∧ r.dims = B :: C :: ms ∧
      ∀ i, InRange i (B :: C :: ms) → r.elem i = some k := by
  have near : ∃ r, t.resize realArith id id id ms .nearest co ne = .ok r ∧ r.WF ∧ r.dims = B :: C :: ms ∧
      ∀ i, InRange i (B :: C :: ms) → r.elem i = some k := by
    obtain ⟨r, r1, r2, r3, r4⟩ := C93_nearest_partial realArith id id co ne ht hd hr hm hn
    refine ⟨r, r1, r2, r3, fun i hi => ?_⟩
    match i, hi with
    | b :: c :: os, hi =>
      obtain ⟨ks, h1, h2⟩ := r4 b c os hi.1 hi.2.1 hi.2.2
      rw [h2, hk]
      rw [hd]; exact ⟨hi.1, hi.2.1, h1.inRange hn⟩
  cases mode with
  | nearest => exact near
  | linear =>
    obtain ⟨r, r1, r2, r3, r4⟩ := C93_linear_partial id id co ne ht hd hr hm hn (fun _ => k) hk
    refine ⟨r, r1, r2, r3, fun i hi => ?_⟩
    match i, hi with
    | b :: c :: os, hi =>
      obtain ⟨v, h1, h2⟩ := r4 b c os hi.1 hi.2.1 hi.2.2
      rw [h1]
      have := C93_linear_range (lo := k) (hi := k) h2 fun ks _ => ⟨le_refl k, le_refl k⟩
      exact congrArg some (le_antisymm this.2 this.1)
  | cubic =>
    rcases hr with hr | hr
    · obtain ⟨H, W, rfl⟩ : ∃ H W, ns = [H, W] := by
        match ns, hr with
        | [H, W], _ => exact ⟨H, W, rfl⟩
      obtain ⟨r, r1, r2, r3, r4⟩ := C93_cubic_partial id id co ne ht hd hm (hn H (by simp)) (hn W (by simp)) (fun _ => k) hk
      refine ⟨r, r1, r2, r3, fun i hi => ?_⟩
      match i, hi with
      | b :: c :: os, hi =>
        obtain ⟨v, h1, h2⟩ := r4 b c os hi.1 hi.2.1 hi.2.2
        rw [h1]
        refine congrArg some (interp_const (P := OnSpline) (fun g c v k h hg => ?_) h2 fun _ => rfl)
        have := C93_cubic_linear (a := k) (s := 0) h fun a _ _ => by rw [hg a]; ring
        rw [this]; ring
    · rw [C93_cubic_volume realArith id id id co ne ht hd hr (hm.trans hr)]
      exact near

/-- `Σ a·b` over all positions. -/
def Spec.Pairing (dims : List Nat) (a b : Tensor ℝ) (s : ℝ) : Prop :=
  ∃ A B : List Nat → ℝ, (∀ i, InRange i dims → a.elem i = some (A i) ∧ b.elem i = some (B i)) ∧
    s = ((List.range (numel dims)).map fun k => A (unravel dims k) * B (unravel dims k)).sum

/-- The rule of resize is the adjoint of resize: `⟨g, resize x⟩ = ⟨rule g, x⟩`. -/
def Spec.ResizeAdjoint (mode : ResizeMode) (co : ResizeCoord) (ne : ResizeNearest) (inDims outDims : List Nat) : Prop :=
  ∀ (x g y d : Tensor ℝ) (s s' : ℝ), x.WF → g.WF → x.dims = inDims → g.dims = outDims →
    x.resize realArith id id id (outDims.drop 2) mode co ne = .ok y → resizeVjp realArith id id id g inDims mode co ne = .ok d →
    Pairing outDims g y s → Pairing inDims d x s' → s = s'

theorem ones_exist (dims : List Nat) :
    ∃ x : Tensor ℝ, x.WF ∧ x.dims = dims ∧ ∀ i, InRange i dims → x.elem i = some 1 := by
  have h : (List.replicate (numel dims) (1 : ℝ)).length = numel dims := List.length_replicate
  refine ⟨⟨List.replicate (numel dims) 1, Layout.fromShape dims⟩, fresh_wf h.symm, rfl, fun i hi => ?_⟩
  simp only [Layout.fromShape, elem_rowMajor]
  rw [Nat.zero_add, List.getElem?_replicate, if_pos (rowMajor_lt hi)]

/-- **C94, resize, refuted**: the rule resizes the gradient instead of distributing it, so whenever the sizes differ it is not the
gradient (the gradient of the sum of all outputs is too large or too small by the ratio of the sizes). -/
theorem C94_resize_false (mode : ResizeMode) (co : ResizeCoord) (ne : ResizeNearest) {B C : Nat} {ns ms : List Nat}
    (hr : ns.length = 2 ∨ ns.length = 3) (hm : ms.length = ns.length) (hn : ∀ n ∈ ns, 0 < n) (hm0 : ∀ m ∈ ms, 0 < m)
    (hne : numel (B :: C :: ms) ≠ numel (B :: C :: ns)) :
    ¬ ResizeAdjoint mode co ne (B :: C :: ns) (B :: C :: ms) := by
  intro h
  obtain ⟨x, hx, hxd, hxv⟩ : ∃ x : Tensor ℝ, x.WF ∧ x.dims = B :: C :: ns ∧ ∀ i, InRange i (B :: C :: ns) → x.elem i = some 1 :=
    ones_exist (B :: C :: ns)
  obtain ⟨g, hg, hgd, hgv⟩ : ∃ x : Tensor ℝ, x.WF ∧ x.dims = B :: C :: ms ∧ ∀ i, InRange i (B :: C :: ms) → x.elem i = some 1 :=
    ones_exist (B :: C :: ms)
  obtain ⟨y, y1, -, -, y4⟩ := resize_const (ms := ms) (k := 1) mode co ne hx hxd hr hm hn (by rw [hxd]; exact hxv)
  obtain ⟨d, d1, -, -, d4⟩ := resize_const (ms := ns) (k := 1) mode.backward co ne hg hgd (by rw [hm]; exact hr) hm.symm hm0
    (by rw [hgd]; exact hgv)
  have one : ∀ dims : List Nat, ((List.range (numel dims)).map fun _ => (1 : ℝ) * 1).sum = numel dims := by
    intro dims; simp
  have := h x g y d _ _ hx hg hxd hgd y1 d1 ⟨fun _ => 1, fun _ => 1, fun i hi => ⟨hgv i hi, y4 i hi⟩, (one _).symm⟩
    ⟨fun _ => 1, fun _ => 1, fun i hi => ⟨d4 i hi, hxv i hi⟩, (one _).symm⟩
  exact hne (by exact_mod_cast this)

/-- **C94, resize to the same size**: nearest and linear resizing return the upstream gradient. -/
theorem C94_resize_same {fl : ℚ → ℚ} (hfl : ∀ k : Nat, k < 2 ^ 24 → fl k = k) (ld : α → ℝ) (st : ℝ → α)
    (hst : ∀ v, st (ld v) = v) {g : Tensor α} {B C : Nat} {ns : List Nat} {mode : ResizeMode} (hmode : mode ≠ .cubic)
    (co : ResizeCoord) (ne : ResizeNearest) (hg : g.WF) (hd : g.dims = B :: C :: ns) (hr : ns.length = 2 ∨ ns.length = 3)
    (hn : ∀ n ∈ ns, 0 < n ∧ n ≤ 2 ^ 24) :
    ∃ r, resizeVjp realArith fl ld st g (B :: C :: ns) mode co ne = .ok r ∧ r.WF ∧ r.dims = g.dims ∧
      ∀ i, InRange i g.dims → r.elem i = g.elem i := by
  obtain ⟨r, r1, r2, r3, r4⟩ := C93_same_linear hfl ld st co ne hg hd hr hn
  refine ⟨r, ?_, r2, r3, fun i hi => ?_⟩
  · cases mode with
    | nearest => exact r1
    | linear => exact r1
    | cubic => exact absurd rfl hmode
  · obtain ⟨v, hv⟩ := Option.isSome_iff_exists.mp (hg.2 i hi)
    rw [r4 i v hi hv, hst, hv]

/-! ## Where the padding rules are wrong -/

/-- The gradient of padding one dimension is determined. -/
theorem padGrad_line [AddCommMonoid M] {mode : PadMode} {n o x : Nat} {p : Nat × Nat} {g r : Tensor M}
    (h : PadGrad mode [n] [p] g r) (hg : g.dims = [o]) (hx : x < n) {cs : List Nat} {vs : List M} (hcs : cs.Nodup)
    (hmem : ∀ c, c ∈ cs ↔ c < o ∧ PadRule mode n p.1 c x) (hv : cs.map (fun c => g.elem [c]) = vs.map some) :
    r.elem [x] = some vs.sum := by
  obtain ⟨js, vals, h1, h2, h3, h4⟩ := h.2.2 [x] ⟨hx, trivial⟩
  have hp : js.Perm (cs.map fun c => [c]) := by
    refine (List.perm_ext_iff_of_nodup h1 (hcs.map fun a b hab => by simpa using hab)).mpr fun j => ?_
    rw [h2, hg, List.mem_map]
    constructor
    · rintro ⟨hj, hs⟩
      obtain ⟨c, rfl, hc⟩ := (padSource_one (pre := []) (post := []) (a := []) (b := []) hj trivial trivial).mp hs
      exact ⟨c, (hmem c).mpr ⟨hj.1, hc⟩, rfl⟩
    · rintro ⟨c, hc, rfl⟩
      obtain ⟨e1, e2⟩ := (hmem c).mp hc
      have hj : InRange [c] [o] := ⟨e1, trivial⟩
      exact ⟨hj, (padSource_one (pre := []) (post := []) (a := []) (b := []) hj trivial trivial).mpr ⟨c, rfl, e2⟩⟩
  have hp2 := hp.map g.elem
  rw [h3, List.map_map, show (g.elem ∘ fun c => [c]) = fun c => g.elem [c] from rfl, hv] at hp2
  rw [h4, ((List.map_perm_map_iff (Option.some_injective M)).mp hp2).sum_eq]

/-- Upstream gradients `1, 10, 100, …`, so that a sum shows its terms. -/
def digits (n : Nat) : Tensor Nat := ⟨(List.range n).map fun k => 10 ^ k, Layout.fromShape [n]⟩

theorem digits_wf (n : Nat) : (digits n).WF := fresh_wf (by simp [numel])

theorem digits_elem {n c : Nat} (h : c < n) : (digits n).elem [c] = some (10 ^ c) := by
  simp [digits, Tensor.elem, Layout.fromShape, Layout.computeStrides, dot, h]

theorem digits_map {n : Nat} {cs : List Nat} (h : ∀ c ∈ cs, c < n) :
    cs.map (fun c => (digits n).elem [c]) = (cs.map (10 ^ ·)).map some := by
  rw [List.map_map]
  exact List.map_congr_left fun c hc => digits_elem (h c hc)

/-- The values of a result with one dimension. -/
def lineOf (n : Nat) : Res (Tensor Nat) → Option (List (Option Nat))
  | .ok r => some ((List.range n).map fun k => r.elem [k])
  | _ => none

/-- Values of a padding gradient with one dimension. -/
def padLine (mode : PadMode) (n : Nat) (p : Nat × Nat) : Option (List (Option Nat)) :=
  lineOf n (padVjp (· + ·) 0 1 0 mode (digits (n + p.1 + p.2)) [n] [p])

theorem lineOf_false {mode : PadMode} {n x m : Nat} {p : Nat × Nat} {l : List (Option Nat)} {X : Res (Tensor Nat)}
    (hl : lineOf n X = some l) (hx : x < n) {cs : List Nat} (hcs : cs.Nodup)
    (hmem : ∀ c, c ∈ cs ↔ c < m ∧ PadRule mode n p.1 c x) (hne : l[x]? ≠ some (some (cs.map (10 ^ ·)).sum)) :
    ∃ r, X = .ok r ∧ ¬ PadGrad mode [n] [p] (digits m) r := by
  cases X with
  | ok r =>
    refine ⟨r, rfl, fun h => hne ?_⟩
    rw [← Option.some.inj hl, List.getElem?_map, List.getElem?_range hx, Option.map_some,
      padGrad_line h rfl hx hcs hmem (digits_map fun c hc => ((hmem c).mp hc).1)]
  | _ => exact absurd hl (by simp [lineOf])

/-- **C94 refuted for replicating**: in the first dimension the contribution of the padding is dropped, because the sum with the
slice keeps the offset of the slice (C10); after a dimension likewise. -/
theorem C94_replicate_false :
    (padLine .replicate 2 (1, 0) = some [some 1, some 100] ∧ ∃ r,
      padVjp (· + ·) 0 1 0 .replicate (digits 3) [2] [(1, 0)] = .ok r ∧ ¬ PadGrad .replicate [2] [(1, 0)] (digits 3) r) ∧
    (padLine .replicate 2 (0, 1) = some [some 1, some 100] ∧ ∃ r,
      padVjp (· + ·) 0 1 0 .replicate (digits 3) [2] [(0, 1)] = .ok r ∧ ¬ PadGrad .replicate [2] [(0, 1)] (digits 3) r) := by
  have e1 : padLine .replicate 2 (1, 0) = some [some 1, some 100] := by decide +kernel
  have e2 : padLine .replicate 2 (0, 1) = some [some 1, some 100] := by decide +kernel
  refine ⟨⟨e1, lineOf_false (x := 0) (cs := [0, 1]) e1 (by decide) (by decide) (fun c => ?_) (by decide +kernel)⟩,
    ⟨e2, lineOf_false (x := 1) (cs := [1, 2]) e2 (by decide) (by decide) (fun c => ?_) (by decide +kernel)⟩⟩
  · simp only [PadRule, List.mem_cons, List.not_mem_nil, or_false, and_true]; omega
  · simp only [PadRule, List.mem_cons, List.not_mem_nil, or_false, and_true]; omega

/-- **C94 refuted for reflecting**, before and after the dimension. -/
theorem C94_reflect_false :
    (padLine .reflect 3 (1, 0) = some [some 10, some 1000, some 1] ∧ ∃ r,
      padVjp (· + ·) 0 1 0 .reflect (digits 4) [3] [(1, 0)] = .ok r ∧ ¬ PadGrad .reflect [3] [(1, 0)] (digits 4) r) ∧
    (padLine .reflect 3 (0, 1) = some [some 1, some 100, some 11] ∧ ∃ r,
      padVjp (· + ·) 0 1 0 .reflect (digits 4) [3] [(0, 1)] = .ok r ∧ ¬ PadGrad .reflect [3] [(0, 1)] (digits 4) r) := by
  have e1 : padLine .reflect 3 (1, 0) = some [some 10, some 1000, some 1] := by decide +kernel
  have e2 : padLine .reflect 3 (0, 1) = some [some 1, some 100, some 11] := by decide +kernel
  refine ⟨⟨e1, lineOf_false (x := 1) (cs := [0, 2]) e1 (by decide) (by decide) (fun c => ?_) (by decide +kernel)⟩,
    ⟨e2, lineOf_false (x := 1) (cs := [1, 3]) e2 (by decide) (by decide) (fun c => ?_) (by decide +kernel)⟩⟩
  · simp only [PadRule, List.mem_cons, List.not_mem_nil, or_false, Int.dvd_iff_emod_eq_zero]; omega
  · simp only [PadRule, List.mem_cons, List.not_mem_nil, or_false, Int.dvd_iff_emod_eq_zero]; omega

/-- How a padding gradient with one dimension ends. -/
def padEnd (mode : PadMode) (n : Nat) (p : Nat × Nat) : String :=
  match padVjp (· + ·) 0 1 0 mode (digits (n + p.1 + p.2)) [n] [p] with
  | .ok _ => "ok" | .err => "error" | .panic => "panic" | .ub => "read outside of the buffer"

/-- **C94 refuted for circular padding before a dimension** (the kernel reads outside of the buffer) **and by more than the size
of the dimension** (a panic before, an error after it). -/
theorem C94_circular_false : padEnd .circular 3 (1, 0) = "read outside of the buffer" ∧ padEnd .circular 3 (4, 0) = "panic" ∧
    padEnd .circular 3 (0, 4) = "error" := by decide +kernel

/-- Replicating one element before itself returns a layout outside of its buffer. -/
theorem C94_replicate_single : padLine .replicate 1 (1, 0) = some [none] := by decide +kernel

/-- **C94 refuted for replicating two dimensions**: the corners are not counted.  The gradient of one element padded by one row and
one column before it is 1111, the sum of all four outputs; the rule adds only three of them. -/
theorem C94_corner_false :
    (match padVjp (· + ·) 0 1 0 .replicate (⟨[1, 10, 100, 1000], Layout.fromShape [2, 2]⟩ : Tensor Nat) [1, 1]
        [(1, 0), (1, 0)] with
      | .ok r => r.elem [0, 0] | _ => none) = some 1110 ∧
    ∀ r, PadGrad .replicate [1, 1] [(1, 0), (1, 0)] (⟨[1, 10, 100, 1000], Layout.fromShape [2, 2]⟩ : Tensor Nat) r →
      r.elem [0, 0] = some 1111 := by
  refine ⟨by decide +kernel, fun r h => ?_⟩
  obtain ⟨js, vals, h1, h2, h3, h4⟩ := h.2.2 [0, 0] (by decide)
  have hp : js.Perm [[0, 0], [0, 1], [1, 0], [1, 1]] := by
    refine (List.perm_ext_iff_of_nodup h1 (by decide)).mpr fun j => ?_
    rw [h2]
    have one : ∀ c, c < 2 → PadRule .replicate 1 1 c 0 := fun c hc => ⟨Nat.one_pos, by omega⟩
    constructor
    · rintro ⟨hj, -⟩
      match j, hj with
      | [a, b], hj =>
        have ha : a < 2 := hj.1
        have hb : b < 2 := hj.2.1
        simp only [List.mem_cons, List.cons.injEq, and_true, List.not_mem_nil, or_false]
        omega
    · intro hj
      simp only [List.mem_cons, List.not_mem_nil, or_false] at hj
      rcases hj with rfl | rfl | rfl | rfl <;>
        exact ⟨by decide, padSource_cons.mpr ⟨one _ (by decide), padSource_cons.mpr ⟨one _ (by decide), padSource_nil _⟩⟩⟩
  have hp2 := hp.map (⟨[1, 10, 100, 1000], Layout.fromShape [2, 2]⟩ : Tensor Nat).elem
  rw [h3, show [[0, 0], [0, 1], [1, 0], [1, 1]].map (⟨[1, 10, 100, 1000], Layout.fromShape [2, 2]⟩ : Tensor Nat).elem =
    [1, 10, 100, 1000].map some by decide +kernel] at hp2
  rw [h4, ((List.map_perm_map_iff (Option.some_injective Nat)).mp hp2).sum_eq]
  rfl

/-- The property in full: for every mode, every shape and every padding that the forward operation accepts. -/
def C94_full : Prop := ∀ (mode : PadMode) (dims : List Nat) (padding : List (Nat × Nat)) (g : Tensor Nat),
  padding.length = dims.length → (∀ d ∈ padDims dims padding, d < 2 ^ 31 - 1) → (∀ d ∈ dims, 0 < d) → dims.length ≤ 16 → g.WF →
  g.dims = padDims dims padding →
  ∃ r, padVjp (· + ·) 0 1 0 mode g dims padding = .ok r ∧ PadGrad mode dims padding g r

theorem C94_full_false : ¬ C94_full := by
  intro h
  obtain ⟨r, h1, h2⟩ := h .replicate [2] [(1, 0)] (digits 3) rfl (by decide) (by decide) (by decide) (digits_wf 3) rfl
  obtain ⟨⟨-, r', h3, h4⟩, -⟩ := C94_replicate_false
  rw [h1] at h3
  injection h3 with h3
  exact h4 (h3 ▸ h2)

/-! ## Concrete cases -/

/-- The hypotheses of `C94_constant` hold for a transposed gradient, padded in both dimensions. -/
example : ∃ g : Tensor Nat, g.WF ∧ g.dims = padDims [2, 3] [(1, 0), (2, 1)] ∧ g.layout.isContiguous = false ∧
    (∃ r, padVjp (· + ·) 0 1 0 .constant g [2, 3] [(1, 0), (2, 1)] = .ok r ∧ PadGrad .constant [2, 3] [(1, 0), (2, 1)] g r) := by
  have hw : (⟨List.range 18, ⟨[3, 6], [1, 3], 0⟩⟩ : Tensor Nat).WF :=
    ⟨rfl, fun i hi => by
      match i, hi with
      | [a, b], hi =>
        have h1 : a < 3 := hi.1
        have h2 : b < 6 := hi.2.1
        simp [Tensor.elem, dot]; omega⟩
  exact ⟨_, hw, rfl, by decide, C94_constant (· + ·) 0 1 0 rfl (by decide) (by decide) (by decide) hw rfl⟩

/-- The hypotheses of `C94_circular_partial` hold. -/
example : ∃ r, padVjp (· + ·) 0 1 0 .circular (digits 5) [3] [(0, 2)] = .ok r ∧ PadGrad .circular [3] [(0, 2)] (digits 5) r :=
  C94_circular_partial (pre := []) (post := []) (n := 3) (w := 2) 0 1 0 (by decide) (by decide) (by decide) (by decide)
    (digits_wf 5) rfl (Or.inr rfl)

/-- The hypotheses of `C94_replicate_partial` hold. -/
example : ∃ r, padVjp (· + ·) 0 1 0 .replicate (⟨List.range 10, Layout.fromShape [2, 5]⟩ : Tensor Nat) [2, 3]
    [(0, 0), (2, 0)] = .ok r ∧ PadGrad .replicate [2, 3] [(0, 0), (2, 0)] ⟨List.range 10, Layout.fromShape [2, 5]⟩ r :=
  C94_replicate_partial (pre := [2]) (post := []) (n := 3) (w := 2) 1 0 (by decide) (by decide) (by decide) (by decide)
    (by decide) (fresh_wf rfl) rfl (Or.inr rfl)

/-- The hypotheses of `C94_none` hold. -/
example : ∃ r, padVjp (· + ·) 0 1 0 .reflect (digits 4) [4] [(0, 0)] = .ok r ∧ PadGrad .reflect [4] [(0, 0)] (digits 4) r ∧
    ∀ i, InRange i [4] → r.elem i = (digits 4).elem i :=
  C94_none .reflect 0 1 0 (by decide) (by decide) (digits_wf 4) rfl

/-- Doubling an image: the rule is not the gradient. -/
example : ¬ ResizeAdjoint .linear .halfPixel .floor [1, 1, 2, 2] [1, 1, 4, 4] :=
  C94_resize_false .linear .halfPixel .floor (ns := [2, 2]) (ms := [4, 4]) (Or.inl rfl) rfl (by decide) (by decide) (by decide)

/-- The hypotheses of `C94_resize_same` hold. -/
example : ∃ r, resizeVjp realArith id id id (⟨[1, 2, 3, 4, 5, 6], Layout.fromShape [1, 1, 2, 3]⟩ : Tensor ℝ) [1, 1, 2, 3]
    .nearest .halfPixel .floor = .ok r ∧ r.WF ∧ r.dims = [1, 1, 2, 3] ∧
    ∀ i, InRange i [1, 1, 2, 3] → r.elem i = (⟨[1, 2, 3, 4, 5, 6], Layout.fromShape [1, 1, 2, 3]⟩ : Tensor ℝ).elem i :=
  C94_resize_same (fun _ _ => rfl) id id (fun _ => rfl) (ns := [2, 3]) (by decide) .halfPixel .floor (fresh_wf rfl) rfl
    (Or.inl rfl) (by decide)

end Hodu
