import Verif.Model.ShapeRules
import Verif.Model.GradRules
import Verif.Props.ShapeGrad
import Verif.Props.Concat
import Verif.Props.FlipPad
import Verif.Props.Cumsum
import Verif.Lemmas.RatOps

/-!
# C79 and C81: the backward rules of concat, split, flip and cumsum
-/

namespace Hodu
open Spec

variable {α M : Type}

/-! ## C81 -/

theorem isAxis_self {n k : Nat} (h : k < n) : IsAxis n (k : Int) k := ⟨h, .inl rfl⟩

theorem forall₂_isAxis {n : Nat} {K : List Nat} (h : ∀ k ∈ K, k < n) :
    List.Forall₂ (IsAxis n) (K.map Int.ofNat) K := by
  induction K with
  | nil => exact .nil
  | cons k K ih =>
    exact .cons (isAxis_self (h k (by simp))) (ih fun j hj => h j (by simp [hj]))

/-- **C81, flip**: for a row-major upstream gradient at the front of its buffer the rule returns the
gradient of the flip.  Missing: other layouts of the upstream gradient, where the flip kernel itself
reads the wrong entries (`C81_full_false`, `C81_flip_sum_ub`). -/
theorem C81_flip_partial [AddCommMonoid M] {x y : Tensor α} {g : Tensor M} {ds : List Int}
    {K : List Nat} (hx : x.WF) (hn : x.dims.length < 2 ^ 31)
    (hax : List.Forall₂ (IsAxis x.dims.length) ds K)
    (hc : x.layout.strides = Layout.computeStrides x.dims) (ho : x.layout.offset = 0)
    (hy : x.flip ds = .ok y) (hg : g.WF) (hgd : g.dims = y.dims)
    (hgc : g.layout.strides = Layout.computeStrides g.dims) (hgo : g.layout.offset = 0) :
    ∃ r, flipVjp g K = .ok r ∧ ViewGrad x y g r (flipAxes K x.dims) := by
  obtain ⟨y', h1, h2, h3, h4⟩ := C19_flip_partial hx hn hax hc ho
  rw [hy] at h1; cases h1
  have hyd : y.dims = x.dims := by rw [Tensor.dims, h3]; rfl
  have hgx : g.dims = x.dims := by rw [hgd, hyd]
  have hK : ∀ k ∈ K, k < x.dims.length := by
    clear h4 hy
    induction hax with
    | nil => simp
    | cons h _ ih =>
      intro k hk
      rcases List.mem_cons.mp hk with rfl | hk
      · exact h.1
      · exact ih k hk
  obtain ⟨r, m1, m2, m3, m4⟩ := C19_flip_partial (t := g) (ds := K.map Int.ofNat) (K := K) hg
    (by rw [hgx]; exact hn) (by rw [hgx]; exact forall₂_isAxis hK) hgc hgo
  have hrd : r.dims = x.dims := by rw [Tensor.dims, m3, ← hgx]; rfl
  refine ⟨r, m1, fun j hj => ?_, hrd, sumsAlong_of_bij (ρ := flipAxes K x.dims) hg m2 ?_ ?_⟩
  · rw [hyd] at hj
    exact ⟨flipAxes_inRange hj, h4 j hj⟩
  · intro j hj
    rw [hgx] at hj
    rw [hrd]
    exact ⟨flipAxes_inRange hj, flipAxes_invol hj⟩
  · intro i hi
    rw [hrd] at hi
    rw [hgx]
    refine ⟨flipAxes_inRange hi, flipAxes_invol hi, ?_⟩
    rw [m4 i (by rw [hgx]; exact hi), hgx]

/-- Output `j` of a running sum along axis `k` has input `i` among its summands. -/
def Spec.SumsUp (k : Nat) (j i : List Nat) : Prop := ∃ c s, j[k]? = some c ∧ s ≤ c ∧ j.set k s = i

theorem cumsum_layout {fill zero : α} {add : α → α → α} {t r : Tensor α} {d : Int}
    (h : t.cumsum fill zero add d = .ok r) : r.layout = Layout.fromShape t.dims := by
  unfold Tensor.cumsum at h
  generalize cumsumKernel zero add t.storage _ _ = q at h
  cases q <;> simp only [Res.bind] at h <;> cases h
  rfl

theorem flipAxes_single {k n : Nat} {dims idx : List Nat} (hd : dims[k]? = some n) {c : Nat}
    (hc : idx[k]? = some c) : flipAxes [k] dims idx = idx.set k (n - 1 - c) := by
  apply List.ext_getElem?
  intro m
  rw [flipAxes, List.getElem?_mapIdx, List.getElem?_set]
  by_cases hm : m = k
  · subst hm
    have : m < idx.length := by
      by_contra h; rw [List.getElem?_eq_none (by omega)] at hc; cases hc
    rw [hc]
    simp [List.getD_eq_getElem?_getD, hd, this]
  · simp [hm, Ne.symm hm]

/-- **C81, cumsum**: for a row-major upstream gradient at the front of its buffer, each input receives
the sum of the upstream entries at the outputs whose running sum includes it, each once.  Missing: other
layouts of the upstream gradient (`C81_cumsum_sum_ub`), rank above 16. -/
theorem C81_cumsum_partial [AddCommMonoid M] {g : Tensor M} {k : Nat} (fill : M) (hg : g.WF)
    (hr : g.dims.length ≤ 16) (hk : k < g.dims.length)
    (hgc : g.layout.strides = Layout.computeStrides g.dims) (hgo : g.layout.offset = 0) :
    ∃ r, cumsumVjp fill 0 (· + ·) g k = .ok r ∧ r.WF ∧ r.dims = g.dims ∧
      ∀ i, InRange i g.dims → ∃ (js : List (List Nat)) (vals : List M), js.Nodup ∧
        (∀ j, j ∈ js ↔ InRange j g.dims ∧ SumsUp k j i) ∧ js.map g.elem = vals.map some ∧
        r.elem i = some vals.sum := by
  obtain ⟨n, hn⟩ : ∃ n, g.dims[k]? = some n := ⟨_, List.getElem?_eq_getElem hk⟩
  have hax1 : List.Forall₂ (IsAxis g.dims.length) [(k : Int)] [k] := .cons (isAxis_self hk) .nil
  obtain ⟨f, f1, f2, f3, f4⟩ := C19_flip_partial hg (by omega) hax1 hgc hgo
  have hfd : f.dims = g.dims := by rw [Tensor.dims, f3]; rfl
  obtain ⟨c, c1, c2, c3, c4⟩ := C25_cumsum_partial (t := f) (dim := (k : Int)) (k := k) (n := n) fill 0
    (· + ·) f2 (by rw [hfd]; exact hr) (by rw [hfd]; exact isAxis_self hk) (by rw [hfd]; exact hn)
  have hcl := cumsum_layout c1
  rw [hfd] at c2 c4 hcl
  obtain ⟨r, r1, r2, r3, r4⟩ := C19_flip_partial (t := c) (ds := [(k : Int)]) (K := [k]) c3
    (by rw [c2]; omega) (by rw [c2]; exact hax1) (by rw [c2, hcl]; rfl) (by rw [hcl]; rfl)
  have hrd : r.dims = g.dims := by rw [Tensor.dims, r3, ← c2]; rfl
  refine ⟨r, by rw [cumsumVjp, f1, Res.ok_bind, c1, Res.ok_bind, r1], r2, hrd, fun i hi => ?_⟩
  obtain ⟨ci, hci, hlt⟩ := inRange_get hi hn
  have hil : k < i.length := by rw [hi.length]; exact hk
  have hfi : flipAxes [k] g.dims i = i.set k (n - 1 - ci) := flipAxes_single hn hci
  have hfin : InRange (i.set k (n - 1 - ci)) g.dims := hfi ▸ flipAxes_inRange hi
  obtain ⟨xs, x1, x2⟩ := c4 _ hfin (n - 1 - ci) (by simp [hil])
  have hset : ∀ s, s < n → InRange (i.set k s) g.dims := fun s hs => by
    have := inRange_set (k := k) hi hs; rwa [set_self hn] at this
  refine ⟨(List.range (n - 1 - ci + 1)).map fun s => i.set k (n - 1 - s), xs, ?_, ?_, ?_, ?_⟩
  · refine List.Nodup.map_on ?_ List.nodup_range
    intro a ha b hb hab
    have := congrArg (fun l => l[k]?) hab
    simp only [List.getElem?_set_self hil, Option.some.injEq] at this
    simp only [List.mem_range] at ha hb
    omega
  · intro j
    simp only [List.mem_map, List.mem_range]
    constructor
    · rintro ⟨s, hs, rfl⟩
      refine ⟨hset _ (by omega), n - 1 - s, ci, by simp [hil], by omega, ?_⟩
      rw [List.set_set, set_self hci]
    · rintro ⟨hj, c', s, h1, h2, rfl⟩
      obtain ⟨c'', h3, h4⟩ := inRange_get hj hn
      rw [h1] at h3; cases h3
      have hjl : k < j.length := by rw [hj.length]; exact hk
      have : s = ci := by rw [List.getElem?_set_self hjl] at hci; exact Option.some.inj hci
      subst this
      refine ⟨n - 1 - c', by omega, ?_⟩
      rw [List.set_set, show n - 1 - (n - 1 - c') = c' by omega, set_self h1]
  · rw [List.map_map, ← x1]
    apply List.map_congr_left
    intro s hs
    simp only [List.mem_range] at hs
    rw [Function.comp, List.set_set, f4 _ (hset s (by omega)),
      flipAxes_single hn (c := s) (by simp [hil]), List.set_set]
  · rw [r4 i (by rw [c2]; exact hi), c2, hfi, x2, foldl_add_eq_sum]

/-- C81 on a fresh `[2, 3]` gradient: reversed columns, and suffix sums. -/
example :
    let g : Tensor Int := ⟨[1, 2, 3, 4, 5, 6], Layout.fromShape [2, 3]⟩
    g.layout.strides = Layout.computeStrides g.dims ∧ g.layout.offset = 0 ∧
    flipVjp g [1] = .ok ⟨[3, 2, 1, 6, 5, 4], Layout.fromShape [2, 3]⟩ ∧
    cumsumVjp 0 0 (· + ·) g 1 = .ok ⟨[6, 5, 3, 15, 11, 6], Layout.fromShape [2, 3]⟩ := by decide +kernel

/-- The full statement: the rule gives the gradient for upstream gradients of any layout. -/
def C81_full : Prop :=
  ∀ (x y g : Tensor Int) (K : List Nat), x.WF → (∀ k ∈ K, k < x.dims.length) →
    x.layout = Layout.fromShape x.dims → x.flip (K.map Int.ofNat) = .ok y → g.WF → g.dims = y.dims →
    ∃ r, flipVjp g K = .ok r ∧ ViewGrad x y g r (flipAxes K x.dims)

/-- **C81 is false.** If the flipped tensor is used transposed, the upstream gradient is a strided view,
and the rule reads it in storage order. -/
theorem C81_full_false : ¬ C81_full ∧
    (let g : Tensor Int := ⟨[1, 2, 3, 4], ⟨[2, 2], [1, 2], 0⟩⟩
     flipVjp g [0] = .ok ⟨[3, 4, 1, 2], Layout.fromShape [2, 2]⟩ ∧ g.elem [1, 0] = some 2) := by
  have hc : flipVjp (⟨[1, 2, 3, 4], ⟨[2, 2], [1, 2], 0⟩⟩ : Tensor Int) [0] =
    .ok ⟨[3, 4, 1, 2], Layout.fromShape [2, 2]⟩ := by decide +kernel
  refine ⟨fun h => ?_, hc, by decide⟩
  obtain ⟨r, h1, h2⟩ := h ⟨[1, 2, 3, 4], Layout.fromShape [2, 2]⟩ ⟨[3, 4, 1, 2], Layout.fromShape [2, 2]⟩
    ⟨[1, 2, 3, 4], ⟨[2, 2], [1, 2], 0⟩⟩ [0] (fresh_wf (by decide)) (by decide) rfl (by decide +kernel)
    ⟨rfl, fun idx hi => by
      match idx, hi with
      | [i, j], ⟨h1, h2, _⟩ =>
        simp only [Tensor.elem, dot]
        have : i * 1 + (j * 2 + 0) < 4 := by omega
        simp; omega⟩ rfl
  rw [hc] at h1
  cases h1
  obtain ⟨js, vals, _, b, c, d⟩ := h2.sums.sums [0, 0] (by decide)
  have hm : ∀ j, j ∈ js ↔ j = [1, 0] := by
    intro j
    rw [b]
    constructor
    · rintro ⟨hj, he⟩
      match j, hj with
      | [i, j], ⟨h1, h2, _⟩ =>
        have h1 : i < 2 := h1
        simp [flipAxes, Tensor.dims, Layout.fromShape] at he
        obtain ⟨e1, e2⟩ := he
        simp [e2]; omega
    · rintro rfl; decide
  have hjs : js = [[1, 0]] := by
    rename_i hnd
    cases js with
    | nil => exact absurd ((hm [1, 0]).mpr rfl) (by simp)
    | cons p ps =>
      have hp := (hm p).mp (by simp)
      cases ps with
      | nil => rw [hp]
      | cons q qs =>
        have hq := (hm q).mp (by simp)
        rw [hp, hq] at hnd
        simp at hnd
  subst hjs
  match vals, c with
  | [v], c =>
    simp at c
    rw [← List.map_singleton] at d
    have : v = 2 := by
      have : some 2 = some v := by rw [← c]; decide
      exact (Option.some.inj this).symm
    subst this
    revert d
    decide

/-- `x.flip(0).sum().backward()`: the gradient of `sum` is one number broadcast with stride 0, and the
rule of `flip` reads it as if it were stored in full, past the end of the buffer. -/
theorem C81_flip_sum_ub :
    ∃ g, reduceVjp ratOps 1 (some 0) .sum ⟨[some 1, some 2, some 3], Layout.fromShape [3]⟩
        ⟨[some 6], Layout.fromShape [1]⟩ ⟨[some 1], Layout.fromShape [1]⟩ [0] = .ok g ∧
      flipVjp g [0] = .ub :=
  ⟨⟨[some 1], ⟨[3], [0], 0⟩⟩, by decide +kernel⟩

/-- The same for `x.cumsum(0).sum().backward()`. -/
theorem C81_cumsum_sum_ub :
    ∃ g, reduceVjp ratOps 1 (some 0) .sum ⟨[some 1, some 3, some 6], Layout.fromShape [3]⟩
        ⟨[some 10], Layout.fromShape [1]⟩ ⟨[some 1], Layout.fromShape [1]⟩ [0] = .ok g ∧
      cumsumVjp (some 0) (some 0) (fun a b => ratOps.bin .add a b) g 0 = .ub :=
  ⟨⟨[some 1], ⟨[3], [0], 0⟩⟩, by decide +kernel⟩

/-! ## C79 -/

theorem axis_of_nonneg {n k : Nat} {d : Int} (h : IsAxis n d k) (hd : 0 ≤ d) : scalarToUsize d = k := by
  obtain ⟨h1, h2 | h2⟩ := h
  · simp [scalarToUsize, h2]
  · omega

/-- **C79, concat**: for a non-negative axis, operands whose ranges all start inside the result, and an
upstream gradient of any layout, each operand receives a gradient of its own shape whose entries are the
upstream entries at the places where the result holds that operand's elements.
Missing: negative axes (`C79_full_false`), trailing operands of size 0 along the axis, rank above 16. -/
theorem C79_concat_partial {ts : List (Tensor α)} {t y : Tensor α} {g : Tensor M} {d : Int} {k : Nat}
    (ht : ts.head? = some t) (hax : IsAxis t.dims.length d k) (hd : 0 ≤ d) (hr : t.dims.length ≤ 16)
    (hj : ∀ u ∈ ts, Joinable k t.dims u.dims) (hy : IsConcat k ts y)
    (hz : ∀ j, j < ts.length → startOf k (ts.map (·.dims)) j < startOf k (ts.map (·.dims)) ts.length)
    (hg : g.WF) (hgd : g.dims = y.dims) :
    ∃ ps, concatVjp g (ts.map (·.dims)) d = .ok ps ∧ ps.length = ts.length ∧
      ∀ j (h1 : j < ts.length) (h2 : j < ps.length), ps[j].WF ∧ ps[j].dims = ts[j].dims ∧
        ∀ idx, InRange idx ts[j].dims →
          y.elem (addAt k (startOf k (ts.map (·.dims)) j) idx) = ts[j].elem idx ∧
          ps[j].elem idx = g.elem (addAt k (startOf k (ts.map (·.dims)) j) idx) := by
  have hk := hax.1
  have hgt : g.dims = t.dims.set k (startOf k (ts.map (·.dims)) ts.length) := by rw [hgd]; exact hy.1 t ht
  have hmap : Res.mapL (fun ds => readR ds (scalarToUsize d)) (ts.map (·.dims)) =
      .ok ((ts.map (·.dims)).map fun ds => ds.getD k 0) := by
    apply Res.mapL_eq_ok_of
    intro ds hds
    obtain ⟨u, hu, rfl⟩ := List.mem_map.mp hds
    have hl : k < u.dims.length := by rw [(hj u hu).1]; exact hk
    rw [axis_of_nonneg hax hd, readR_ok hl]
    simp [List.getD_eq_getElem?_getD, hl]
  have htake : ∀ j, (((ts.map (·.dims)).map fun ds => ds.getD k 0).take j).sum =
      startOf k (ts.map (·.dims)) j := by
    intro j; rw [startOf, List.map_take]
  have hsum : ((ts.map (·.dims)).map fun ds => ds.getD k 0).sum = startOf k (ts.map (·.dims)) ts.length := by
    rw [← htake, List.take_of_length_le (by simp)]
  obtain ⟨ps, p1, p2, _⟩ := C17_split_partial (t := g)
    (sizes := (ts.map (·.dims)).map fun ds => ds.getD k 0) (dim := d) (k := k)
    (d := startOf k (ts.map (·.dims)) ts.length) hg
    (by rw [hgt, List.length_set]; exact hax) (by rw [hgt, List.length_set]; exact hr)
    (by rw [hgt]; simp [hk])
    (by
      intro j hj
      rw [htake]
      exact hz j (by simpa using hj))
    (by rw [hsum])
  obtain ⟨q1, q2⟩ := p2
  simp only [List.length_map] at q1
  refine ⟨ps, by rw [concatVjp, hmap, Res.ok_bind, p1], q1, fun j h1 h2 => ?_⟩
  obtain ⟨r1, r2, r3⟩ := q2 j h2 (by simpa using h1)
  have hdj : ps[j].dims = ts[j].dims := by
    rw [r2, hgt, List.set_set]
    apply List.ext_getElem?
    intro i
    have hju := hj ts[j] (List.getElem_mem h1)
    rw [List.getElem?_set]
    by_cases hi : k = i
    · subst hi
      have hl : k < ts[j].dims.length := by rw [hju.1]; exact hk
      simp [hk, hl]
    · rw [if_neg hi, hju.2 i (fun e => hi e.symm)]
  refine ⟨r1, hdj, fun idx hi => ⟨hy.2 j h1 idx hi, ?_⟩⟩
  have := r3 idx (by rw [hdj]; exact hi)
  rw [this, Nat.zero_add, htake]

/-- C79 on two matrices joined along axis 1. -/
example :
    let ts : List (Tensor Int) := [⟨[1, 2], Layout.fromShape [2, 1]⟩, ⟨[3, 4, 5, 6], Layout.fromShape [2, 2]⟩]
    Tensor.concat ts 1 = .ok ⟨[1, 3, 4, 2, 5, 6], Layout.fromShape [2, 3]⟩ ∧
    (∀ j, j < 2 → startOf 1 (ts.map (·.dims)) j < startOf 1 (ts.map (·.dims)) 2) ∧
    concatVjp (⟨[1, 2, 3, 4, 5, 6], Layout.fromShape [2, 3]⟩ : Tensor Int) (ts.map (·.dims)) 1 =
      .ok [⟨[1, 4], Layout.fromShape [2, 1]⟩, ⟨[2, 3, 5, 6], Layout.fromShape [2, 2]⟩] := by decide +kernel

theorem zeros_wf (zero : α) (d : List Nat) : (Tensor.zeros zero d).WF :=
  fresh_wf (by simp [shapeSize_eq])

theorem zeros_elem (zero : α) {d idx : List Nat} (h : InRange idx d) :
    (Tensor.zeros zero d).elem idx = some zero := by
  have hlt := rowMajor_lt h
  simp only [Tensor.zeros, Layout.fromShape, elem_rowMajor]
  rw [List.getElem?_replicate, if_pos (by rw [shapeSize_eq]; omega)]

theorem splitPieces_ok (zero : α) (g : Tensor α) {inDims : List Nat} {k out : Nat} (hk : k < inDims.length)
    (i : Nat) (sizes : List Nat) :
    splitPieces zero g inDims k out i sizes = .ok (sizes.mapIdx fun m size =>
      if i + m = out then g else Tensor.zeros zero (inDims.set k size)) := by
  induction sizes generalizing i with
  | nil => rfl
  | cons size sizes ih =>
    rw [splitPieces, ih]
    have : (if i = out then Res.ok g else if k < inDims.length then
        Res.ok (Tensor.zeros zero (inDims.set k size)) else Res.panic) =
        Res.ok (if i = out then g else Tensor.zeros zero (inDims.set k size)) := by
      split <;> simp
    show Res.bind (if i = out then Res.ok g else if k < inDims.length then
        Res.ok (Tensor.zeros zero (inDims.set k size)) else Res.panic) _ = _
    rw [this, Res.ok_bind, Res.ok_bind, List.mapIdx_cons]
    simp only [Nat.add_zero]
    congr 3
    funext m s
    rw [show i + 1 + m = i + (m + 1) by omega]

/-- **C79, split**: for a non-negative axis and sizes that cover the dimension, the gradient
contributed by output number `o` has the input's shape, holds the upstream entries in the range of that
output and zero in all other ranges.  The upstream gradient may have any layout if `o` is the last
output; otherwise its buffer must hold exactly its elements.
Missing: negative axes, sizes that do not cover the dimension (`C79_split_partial_sizes`), views and
broadcasts as upstream gradient of an earlier output (`C79_split_sum_ub`), rank above 16. -/
theorem C79_split_partial {g : Tensor α} {inDims sizes : List Nat} {d : Int} {k n o : Nat} (zero : α)
    (hax : IsAxis inDims.length d k) (hd : 0 ≤ d) (hr : inDims.length ≤ 16) (hn : inDims[k]? = some n)
    (hs : sizes.sum = n) (ho : o < sizes.length) (hg : g.WF)
    (hgd : g.dims = inDims.set k sizes[o])
    (hst : o + 1 < sizes.length → g.storage.length = numel g.dims) :
    ∃ r, splitVjp zero g inDims sizes d o = .ok r ∧ r.WF ∧ r.dims = inDims ∧
      ∀ j (h : j < sizes.length) idx, InRange idx (inDims.set k sizes[j]) →
        r.elem (addAt k (sizes.take j).sum idx) = if j = o then g.elem idx else some zero := by
  have hk := hax.1
  have hpc := splitPieces_ok zero g (out := o) hk 0 sizes
  generalize hts : (sizes.mapIdx fun m size =>
      if 0 + m = o then g else Tensor.zeros zero (inDims.set k size)) = ts at hpc
  have hlen : ts.length = sizes.length := by rw [← hts]; simp
  have hget : ∀ j (h : j < ts.length) (h' : j < sizes.length), ts[j] =
      if j = o then g else Tensor.zeros zero (inDims.set k sizes[j]) := by
    intro j h h'
    subst hts
    simp
  have hdj : ∀ j (h : j < ts.length) (h' : j < sizes.length), ts[j].dims = inDims.set k sizes[j] := by
    intro j h h'
    rw [hget j h h']
    split
    · rename_i e; subst e; exact hgd
    · rfl
  have hpos : 0 < ts.length := by omega
  have hhead : ts.head? = some ts[0] := by rw [List.head?_eq_getElem?, List.getElem?_eq_getElem hpos]
  have hd0 : ts[0].dims.length = inDims.length := by rw [hdj 0 hpos (by omega)]; simp
  obtain ⟨r, r1, r2, _, _, r3, r4⟩ := C16_concat_partial (ts := ts) (t := ts[0]) (d := (k : Int)) (k := k)
    hhead
    (by
      intro u hu
      obtain ⟨j, h, rfl⟩ := List.mem_iff_getElem.mp hu
      rw [hget j h (by omega)]
      split
      · exact hg
      · exact zeros_wf _ _)
    (by rw [hd0]; exact isAxis_self hk) (by omega)
    (by
      intro u hu
      obtain ⟨j, h, rfl⟩ := List.mem_iff_getElem.mp hu
      rw [hdj j h (by omega), hdj 0 hpos (by omega)]
      refine ⟨by simp, fun i hi => ?_⟩
      rw [List.getElem?_set, List.getElem?_set, if_neg (fun e => hi e.symm),
        if_neg (fun e => hi e.symm)])
    (by
      intro i hi hi'
      rw [hget i hi (by omega)]
      split
      · rename_i e; exact hst (by omega)
      · simp [Tensor.zeros, shapeSize_eq, Tensor.dims, Layout.fromShape])
  have hstart : ∀ j, startOf k (ts.map (·.dims)) j = (sizes.take j).sum := by
    intro j
    have : (ts.map (·.dims)).map (fun ds => ds.getD k 0) = sizes := by
      apply List.ext_getElem (by simp [hlen])
      intro i h4 h5
      simp only [List.length_map] at h4
      simp only [List.getElem_map]
      rw [hdj i h4 h5]
      simp [hk]
    rw [startOf, List.map_take, this]
  refine ⟨r, ?_, r2, ?_, fun j h idx hi => ?_⟩
  · rw [splitVjp, axis_of_nonneg hax hd, hpc, Res.ok_bind, r1]
  · rw [r3 _ hhead, hstart, hdj 0 hpos (by omega), List.set_set, hlen, List.take_length, hs, set_self hn]
  · have := r4 j (by omega) idx (by rw [hdj j (by omega) h]; exact hi)
    rw [hstart] at this
    rw [this, hget j (by omega) h]
    split
    · rfl
    · exact zeros_elem _ hi

/-- C79: the second of three pieces of a `[2, 4]` matrix. -/
example :
    splitVjp 0 (⟨[7, 8, 9, 10], Layout.fromShape [2, 2]⟩ : Tensor Int) [2, 4] [1, 2, 1] 1 1 =
      .ok ⟨[0, 7, 8, 0, 0, 9, 10, 0], Layout.fromShape [2, 4]⟩ ∧ IsAxis 2 1 1 ∧ [1, 2, 1].sum = 4 :=
  ⟨by decide +kernel, ⟨by decide, .inl rfl⟩, rfl⟩

/-- The full statement for concat: any axis the forward operation accepts. -/
def C79_full : Prop :=
  ∀ (ts : List (Tensor Int)) (t y g : Tensor Int) (d : Int) (k : Nat), ts.head? = some t →
    IsAxis t.dims.length d k → Tensor.concat ts d = .ok y → IsConcat k ts y → g.WF → g.dims = y.dims →
    ∃ ps, concatVjp g (ts.map (·.dims)) d = .ok ps ∧ ps.map (·.dims) = ts.map (·.dims)

/-- **C79 is false.** Joining two `[2, 3]` matrices along axis `-1` gives a `[2, 6]` result; the rule looks
up the sizes along axis 0 instead, and hands out two gradients of shape `[2, 2]`. -/
theorem C79_full_false : ¬ C79_full ∧
    Tensor.concat [cnt [2, 3], cnt [2, 3]] (-1) = .ok ⟨[0, 1, 2, 0, 1, 2, 3, 4, 5, 3, 4, 5], Layout.fromShape [2, 6]⟩ ∧
    concatVjp (cnt [2, 6]) [[2, 3], [2, 3]] (-1) =
      .ok [⟨[0, 1, 6, 7], Layout.fromShape [2, 2]⟩, ⟨[2, 3, 8, 9], Layout.fromShape [2, 2]⟩] := by
  have h1 : Tensor.concat [cnt [2, 3], cnt [2, 3]] (-1) =
    .ok ⟨[0, 1, 2, 0, 1, 2, 3, 4, 5, 3, 4, 5], Layout.fromShape [2, 6]⟩ := by decide +kernel
  have h2 : concatVjp (cnt [2, 6]) [[2, 3], [2, 3]] (-1) =
      .ok [⟨[0, 1, 6, 7], Layout.fromShape [2, 2]⟩, ⟨[2, 3, 8, 9], Layout.fromShape [2, 2]⟩] := by
    decide +kernel
  refine ⟨fun h => ?_, h1, h2⟩
  have hax : IsAxis (cnt [2, 3]).dims.length (-1) 1 := ⟨by decide, .inr rfl⟩
  obtain ⟨r, r1, _, _, _, r5⟩ := C16_concat_partial (ts := [cnt [2, 3], cnt [2, 3]]) (t := cnt [2, 3])
    (d := -1) (k := 1) rfl (by intro u hu; simp at hu; rw [hu]; exact cnt_wf _) hax (by decide)
    (by intro u hu; simp at hu; rw [hu]; exact ⟨rfl, fun _ _ => rfl⟩)
    (by
      intro i hi hi'
      have : i = 0 := by simp at hi'; omega
      subst this
      show (cnt [2, 3]).storage.length = numel (cnt [2, 3]).dims
      decide)
  rw [h1] at r1
  cases r1
  obtain ⟨ps, p1, p2⟩ := h [cnt [2, 3], cnt [2, 3]] (cnt [2, 3]) _ (cnt [2, 6]) (-1) 1 rfl hax h1 r5
    (cnt_wf _) rfl
  have e : ([cnt [2, 3], cnt [2, 3]].map fun t => t.dims) = [[2, 3], [2, 3]] := rfl
  rw [e, h2] at p1
  cases p1
  revert p2
  decide

/-- Splitting along axis `-1`: the rule joins along axis 0 and fails, so no gradient can be computed. -/
theorem C79_split_negative_fails :
    (∃ ps, (cnt [2, 4]).split [2, 2] (-1) = .ok ps ∧ ps.map (·.dims) = [[2, 2], [2, 2]]) ∧
    splitVjp 0 (cnt [2, 2]) [2, 4] [2, 2] (-1) 0 = .err :=
  ⟨⟨[⟨[0, 1, 4, 5], Layout.fromShape [2, 2]⟩, ⟨[2, 3, 6, 7], Layout.fromShape [2, 2]⟩], by decide +kernel⟩,
    by decide +kernel⟩

/-- Sizes that do not cover the dimension are accepted forward; the gradient is then too short. -/
theorem C79_split_partial_sizes :
    (cnt [4]).split [1, 2] 0 = .ok [⟨[0], Layout.fromShape [1]⟩, ⟨[1, 2], Layout.fromShape [2]⟩] ∧
    splitVjp 0 (cnt [2]) [4] [1, 2] 0 1 = .ok ⟨[0, 0, 1], Layout.fromShape [3]⟩ := by decide +kernel

/-- `x.split(&[2, 2], 0)[0].sum().backward()`: the broadcast gradient of `sum` is joined with the zeros
as if its buffer held two numbers, and the kernel reads past the end of the packed buffer. -/
theorem C79_split_sum_ub :
    ∃ g, reduceVjp ratOps 1 (some 0) .sum ⟨[some 1, some 2], Layout.fromShape [2]⟩
        ⟨[some 3], Layout.fromShape [1]⟩ ⟨[some 1], Layout.fromShape [1]⟩ [0] = .ok g ∧
      splitVjp (some 0) g [4] [2, 2] 0 0 = .ub :=
  ⟨⟨[some 1], ⟨[2], [0], 0⟩⟩, by decide +kernel⟩

end Hodu
