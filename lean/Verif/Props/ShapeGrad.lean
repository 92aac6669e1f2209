import Verif.Model.ShapeRules
import Verif.Props.Views2
import Verif.Props.SumToShape

/-!
# C78: the backward rules of the view operators
-/

namespace Hodu
open Spec

variable {α M : Type}

/-- The gradient of a view: `y` reads element `π j` of `x` at every position `j`; `r`, computed from
the upstream gradient `g`, has the shape of `x`, and holds at each position the sum of the upstream
entries at the positions that read it, each once. -/
structure Spec.ViewGrad [AddCommMonoid M] (x : Tensor α) (y : Tensor α) (g r : Tensor M)
    (π : List Nat → List Nat) : Prop where
  reads : ∀ j, InRange j y.dims → InRange (π j) x.dims ∧ y.elem j = x.elem (π j)
  dims : r.dims = x.dims
  sums : SumsAlong g r π

/-- A gradient that moves every upstream entry to a place of its own. -/
theorem sumsAlong_of_bij [AddCommMonoid M] {g r : Tensor M} {π ρ : List Nat → List Nat} (hg : g.WF)
    (hr : r.WF) (hπ : ∀ j, InRange j g.dims → InRange (π j) r.dims ∧ ρ (π j) = j)
    (hρ : ∀ i, InRange i r.dims → InRange (ρ i) g.dims ∧ π (ρ i) = i ∧ r.elem i = g.elem (ρ i)) :
    SumsAlong g r π := by
  refine ⟨hr, fun j hj => (hπ j hj).1, fun i hi => ?_⟩
  obtain ⟨h1, h2, h3⟩ := hρ i hi
  obtain ⟨v, hv⟩ := Option.isSome_iff_exists.mp (hg.2 _ h1)
  refine ⟨[ρ i], [v], by simp, fun j => ?_, by simp [hv], by simp [h3, hv]⟩
  rw [List.mem_singleton]
  constructor
  · rintro rfl; exact ⟨h1, h2⟩
  · rintro ⟨h4, rfl⟩; exact (hπ j h4).2.symm

/-- Position `j` of shape `e`, renumbered for a shape `d` of the same size. -/
def Spec.renumber (d e j : List Nat) : List Nat := unravel d (rowMajor e j)

theorem renumber_inRange {d e j : List Nat} (hn : numel d = numel e) (hj : InRange j e) :
    InRange (renumber d e j) d := unravel_inRange (by rw [hn]; exact rowMajor_lt hj)

theorem rowMajor_renumber {d e j : List Nat} (hn : numel d = numel e) (hj : InRange j e) :
    rowMajor d (renumber d e j) = rowMajor e j :=
  rowMajor_unravel (by rw [hn]; exact rowMajor_lt hj)

theorem renumber_renumber {d e j : List Nat} (hn : numel d = numel e) (hj : InRange j e) :
    renumber e d (renumber d e j) = j := by
  rw [renumber, rowMajor_renumber hn hj, unravel_rowMajor hj]

/-- The common part of the four reshaping operators. -/
theorem reshapeVjp_ok [AddCommMonoid M] {x y : Tensor α} {g : Tensor M} (hg : g.WF)
    (hgd : g.dims = y.dims) (hn : numel x.dims = numel y.dims)
    (hy : ∀ i j, InRange i x.dims → InRange j y.dims → rowMajor x.dims i = rowMajor y.dims j →
      y.elem j = x.elem i) :
    ∃ r, reshapeVjp g x.dims = .ok r ∧ ViewGrad x y g r (renumber x.dims y.dims) := by
  obtain ⟨r, h1, h2, h3, h4⟩ := (C02_reshape hg x.dims).2 (by rw [hgd]; exact hn)
  refine ⟨r, h1, fun j hj => ?_, h2, sumsAlong_of_bij (ρ := renumber y.dims x.dims) hg h3 ?_ ?_⟩
  · have := renumber_inRange hn hj
    exact ⟨this, hy _ _ this hj (rowMajor_renumber hn hj)⟩
  · intro j hj
    rw [hgd] at hj
    rw [h2]
    exact ⟨renumber_inRange hn hj, renumber_renumber hn hj⟩
  · intro i hi
    rw [h2] at hi
    rw [hgd]
    refine ⟨renumber_inRange hn.symm hi, renumber_renumber hn.symm hi, ?_⟩
    apply h4 _ _ (by rw [hgd]; exact renumber_inRange hn.symm hi) hi
    rw [hgd, rowMajor_renumber hn.symm hi]

/-- **C78, reshape.** -/
theorem C78_reshape [AddCommMonoid M] {x y : Tensor α} {g : Tensor M} {nd : List Nat} (hx : x.WF)
    (hy : x.reshape nd = .ok y) (hg : g.WF) (hgd : g.dims = y.dims) :
    ∃ r, reshapeVjp g x.dims = .ok r ∧ ViewGrad x y g r (renumber x.dims y.dims) := by
  obtain ⟨herr, hok⟩ := C02_reshape hx nd
  by_cases hn : numel nd = numel x.dims
  · obtain ⟨y', h1, h2, _, h4⟩ := hok hn
    rw [hy] at h1; cases h1
    exact reshapeVjp_ok hg hgd (by rw [h2, hn]) (by rw [h2]; exact h4)
  · rw [herr hn] at hy; cases hy

/-- **C78, flatten.** -/
theorem C78_flatten [AddCommMonoid M] {x y : Tensor α} {g : Tensor M} (hx : x.WF)
    (hy : x.flatten = .ok y) (hg : g.WF) (hgd : g.dims = y.dims) :
    ∃ r, reshapeVjp g x.dims = .ok r ∧ ViewGrad x y g r (renumber x.dims y.dims) := by
  obtain ⟨y', h1, h2, _, h4⟩ := C02_flatten hx
  rw [hy] at h1; cases h1
  refine reshapeVjp_ok hg hgd (by rw [h2]; simp [numel]) ?_
  rw [h2]
  intro i j hi hj hij
  match j, hj with
  | [c], _ =>
    have : c = rowMajor x.dims i := by rw [hij]; simp [rowMajor, numel]
    rw [this]
    exact h4 i hi

/-- **C78, squeeze of named axes**, under the conditions of `C07_squeeze_partial` (each axis named once
and of size 1). -/
theorem C78_squeeze_partial [AddCommMonoid M] {x y : Tensor α} {g : Tensor M} {ds : List Int}
    {as : List Nat} (hx : x.WF) (hne : ds ≠ []) (hrank : x.dims.length < 2 ^ 31)
    (hi32 : ∀ d ∈ ds, I32 d) (hl : ds.length = as.length) (hnd : as.Nodup)
    (hax : ∀ k (h1 : k < ds.length) (h2 : k < as.length), IsAxis x.dims.length ds[k] as[k])
    (h1s : ∀ a ∈ as, x.dims[a]? = some 1) (hy : x.squeeze ds = .ok y) (hg : g.WF)
    (hgd : g.dims = y.dims) :
    ∃ r, reshapeVjp g x.dims = .ok r ∧ ViewGrad x y g r (renumber x.dims y.dims) := by
  obtain ⟨y', h1, _, h3, h4⟩ := (C07_squeeze_partial hx ds hne hrank hi32).2 as hl hnd hax h1s
  rw [hy] at h1; cases h1
  exact reshapeVjp_ok hg hgd (by
    rw [h3, numel_dropAxes]
    intro a d ha hd
    rw [h1s a (by simpa using ha)] at hd
    exact (Option.some.inj hd).symm) h4

/-- **C78, squeeze of all unit axes.** -/
theorem C78_squeeze_all [AddCommMonoid M] {x y : Tensor α} {g : Tensor M} (hx : x.WF)
    (hy : x.squeeze [] = .ok y) (hg : g.WF) (hgd : g.dims = y.dims) :
    ∃ r, reshapeVjp g x.dims = .ok r ∧ ViewGrad x y g r (renumber x.dims y.dims) := by
  obtain ⟨y', h1, _, h3, h4⟩ := C07_squeeze_all hx
  rw [hy] at h1; cases h1
  refine reshapeVjp_ok hg hgd ?_ h4
  rw [h3]
  have : ∀ l : List Nat, numel (l.filter (· ≠ 1)) = numel l := by
    intro l
    induction l with
    | nil => rfl
    | cons d l ih =>
      by_cases hd : d = 1
      · simp only [hd, ne_eq, not_true_eq_false, decide_false, Bool.false_eq_true, not_false_eq_true,
          List.filter_cons_of_neg, numel, Nat.one_mul]
        exact ih
      · rw [List.filter_cons_of_pos (by simpa using hd), numel, numel, ih]
  exact (this _).symm

/-- **C78, unsqueeze.** -/
theorem C78_unsqueeze [AddCommMonoid M] {x y : Tensor α} {g : Tensor M} {d : Int} (hx : x.WF)
    (hrank : x.dims.length < 2 ^ 31 - 1) (hd : I32 d) (hy : x.unsqueeze d = .ok y) (hg : g.WF)
    (hgd : g.dims = y.dims) :
    ∃ r, reshapeVjp g x.dims = .ok r ∧ ViewGrad x y g r (renumber x.dims y.dims) := by
  obtain ⟨herr, hok⟩ := C07_unsqueeze hx d hrank hd
  by_cases hk : ∃ k, IsAxis (x.dims.length + 1) d k
  · obtain ⟨k, hk⟩ := hk
    obtain ⟨y', h1, _, h3, h4⟩ := hok k hk
    rw [hy] at h1; cases h1
    refine reshapeVjp_ok hg hgd ?_ h4
    rw [h3]
    have : ∀ (l : List Nat) (k : Nat), numel (l.insertIdx k 1) = numel l := by
      intro l
      induction l with
      | nil => intro k; cases k <;> simp [numel]
      | cons a l ih =>
        intro k
        cases k with
        | zero => simp [numel]
        | succ k => simp only [List.insertIdx_succ_cons, numel, ih]
    exact (this _ _).symm
  · rw [herr fun k h => hk ⟨k, h⟩] at hy; cases hy

/-- C78 on a strided `[2, 3]` view reshaped to `[3, 2]`, flattened, unsqueezed, and on a `[1, 2]`
tensor squeezed. -/
example :
    let x : Tensor Int := ⟨[0, 1, 2, 3, 4, 5], ⟨[2, 3], [1, 2], 0⟩⟩
    let g : Tensor Int := ⟨[7], ⟨[3, 2], [0, 0], 0⟩⟩
    x.reshape [3, 2] = .ok ⟨[0, 2, 4, 1, 3, 5], Layout.fromShape [3, 2]⟩ ∧
    reshapeVjp g x.dims = .ok ⟨[7, 7, 7, 7, 7, 7], Layout.fromShape [2, 3]⟩ ∧
    x.flatten = .ok ⟨[0, 2, 4, 1, 3, 5], Layout.fromShape [6]⟩ ∧
    x.unsqueeze (-1) = .ok ⟨[0, 2, 4, 1, 3, 5], ⟨[2, 3, 1], [3, 1, 1], 0⟩⟩ ∧
    (⟨[8, 9], Layout.fromShape [1, 2]⟩ : Tensor Int).squeeze [0] = .ok ⟨[8, 9], Layout.fromShape [2]⟩ ∧
    (⟨[8, 9], Layout.fromShape [1, 2]⟩ : Tensor Int).squeeze [] = .ok ⟨[8, 9], Layout.fromShape [2]⟩ ∧
    reshapeVjp (⟨[5, 6], Layout.fromShape [2]⟩ : Tensor Int) [1, 2] =
      .ok ⟨[5, 6], Layout.fromShape [1, 2]⟩ := by decide +kernel

/-! ## Broadcast -/

/-- The broadcast rule is `sum_to_shape` followed by a reshape. -/
theorem broadcastVjp_eq [AddCommMonoid M] {g : Tensor M} {d : List Nat} :
    broadcastVjp (· + ·) 0 g d = (g.sumToShape (· + ·) 0 d).bind fun s => s.reshape d := by
  unfold broadcastVjp Tensor.sumToShape
  by_cases he : g.dims = d
  · rw [if_pos he, he, Nat.sub_self]
    simp only [sumLeading, Res.ok_bind]
    have : ∀ (l : List Nat) (i : Nat) (t : Tensor M), sumUnit (· + ·) 0 i (l.zip l) t = .ok t := by
      intro l
      induction l with
      | nil => intro i t; rfl
      | cons a l ih =>
        intro i t
        rw [List.zip_cons_cons, sumUnit, if_neg (by omega), ih]
    rw [he, this, Res.ok_bind]
  · rw [if_neg he]
    cases sumLeading (· + ·) 0 (g.dims.length - d.length) g <;> rfl

/-- **C78, broadcast.** For shapes without zero-size dimensions and rank at most 16. -/
theorem C78_broadcast_partial [AddCommMonoid M] {x y : Tensor α} {g : Tensor M} {target : List Nat}
    (hx : x.WF) (hy : x.broadcast target = .ok y) (hg : g.WF) (hgd : g.dims = y.dims)
    (hr : g.dims.length ≤ 16) (hz : ∀ d ∈ g.dims, 0 < d) :
    ∃ r, broadcastVjp (· + ·) 0 g x.dims = .ok r ∧ ViewGrad x y g r (broadcastIndex x.dims) := by
  obtain ⟨herr, hok⟩ := C05_broadcast hx target
  by_cases hb : BroadcastsTo x.dims target
  · obtain ⟨y', h1, h2, h3, h4⟩ := hok hb
    rw [hy] at h1; cases h1
    have hgt : g.dims = target := by rw [hgd, h2]
    obtain ⟨s, g1, g2, g3⟩ := C33_sum_to_shape_partial (target := x.dims) hg hr (by rw [hgt]; exact hb) hz
    obtain ⟨r, k1, k2, k3, k4⟩ := (C02_reshape g3.wf x.dims).2 (by rw [g2])
    refine ⟨r, ?_, ?_, k2, k3, ?_, ?_⟩
    · rw [broadcastVjp_eq, g1, Res.ok_bind, k1]
    · intro j hj
      exact h4 j (by rw [← h2]; exact hj)
    · intro j hj; rw [k2]; exact g2 ▸ g3.maps j hj
    · intro i hi
      rw [k2] at hi
      obtain ⟨js, vals, a, b, c, e⟩ := g3.sums i (by rw [g2]; exact hi)
      refine ⟨js, vals, a, b, c, ?_⟩
      rw [k4 i i (by rw [g2]; exact hi) hi (by rw [g2]), e]
  · rw [herr hb] at hy; cases hy

/-- C78, a column broadcast to `[2, 3]`. -/
example :
    (⟨[1, 2], Layout.fromShape [2, 1]⟩ : Tensor Int).broadcast [2, 3] =
      .ok ⟨[1, 2], ⟨[2, 3], [1, 0], 0⟩⟩ ∧
    broadcastVjp (· + ·) 0 (⟨[1, 2, 3, 4, 5, 6], Layout.fromShape [2, 3]⟩ : Tensor Int) [2, 1] =
      .ok ⟨[6, 15], Layout.fromShape [2, 1]⟩ := by decide +kernel

/-! ## Transpose -/

/-- `j` with coordinates `a` and `b` exchanged. -/
def Spec.swapCoords (a b : Nat) (j : List Nat) : List Nat :=
  (List.range j.length).map fun k => j.getD (if k = a then b else if k = b then a else k) 0

theorem getD_swapCoords {a b k : Nat} {j : List Nat} (hk : k < j.length) :
    (swapCoords a b j).getD k 0 = j.getD (if k = a then b else if k = b then a else k) 0 := by
  simp [swapCoords, List.getD_eq_getElem?_getD, hk]

theorem inRange_iff_getD {j d : List Nat} :
    InRange j d ↔ j.length = d.length ∧ ∀ k, k < d.length → j.getD k 0 < d.getD k 0 := by
  rw [inRange_iff]
  refine and_congr_right fun hl => ⟨fun h k hk => ?_, fun h k h1 h2 => ?_⟩
  · have := h k (by omega) hk
    simpa [List.getD_eq_getElem?_getD, hk, show k < j.length by omega] using this
  · have := h k h2
    simpa [List.getD_eq_getElem?_getD, h1, h2] using this

theorem ext_getD {j d : List Nat} (hl : j.length = d.length)
    (h : ∀ k, k < d.length → j.getD k 0 = d.getD k 0) : j = d := by
  apply List.ext_getElem hl
  intro k h1 h2
  have := h k h2
  simpa [List.getD_eq_getElem?_getD, h1, h2] using this

theorem swapCoords_inRange {a b : Nat} {d e j : List Nat} (ha : a < d.length) (hb : b < d.length)
    (hl : e.length = d.length)
    (he : ∀ k, k < d.length → e.getD k 0 = d.getD (if k = a then b else if k = b then a else k) 0)
    (hj : InRange j e) : InRange (swapCoords a b j) d := by
  rw [inRange_iff_getD] at hj ⊢
  refine ⟨by simp [swapCoords, hj.1, hl], fun k hk => ?_⟩
  rw [getD_swapCoords (by omega)]
  have hs : (if k = a then b else if k = b then a else k) < d.length := by split_ifs <;> omega
  have := hj.2 _ (by rw [hl]; exact hs)
  rw [he _ hs] at this
  convert this using 2
  split_ifs <;> omega

theorem swapCoords_swapCoords {a b : Nat} {j : List Nat} (ha : a < j.length) (hb : b < j.length) :
    swapCoords a b (swapCoords a b j) = j := by
  have hl : (swapCoords a b j).length = j.length := by simp [swapCoords]
  apply ext_getD (by simp [swapCoords])
  intro k hk
  rw [getD_swapCoords (by omega), getD_swapCoords (by split_ifs <;> omega)]
  congr 1
  split_ifs <;> omega

/-- The rule always works on the last two axes. -/
theorem transposeVjp_axes {g : Tensor α} {d : List Nat} (hl : d.length = g.dims.length)
    (h2 : 2 ≤ d.length) : ∃ u v, transposeVjp g d = g.transpose u v ∧
      IsAxis g.dims.length u (d.length - 2) ∧ IsAxis g.dims.length v (d.length - 1) := by
  refine ⟨(transposeGuess d g.dims).1, (transposeGuess d g.dims).2, ?_, ?_, ?_⟩
  · rw [transposeVjp, if_neg (by omega), if_neg (by omega)]
  all_goals
    unfold transposeGuess
    simp only
    split
    · exact ⟨by omega, .inl rfl⟩
    · exact ⟨by omega, .inr (by omega)⟩

/-- **C78, transpose of the last two axes** (in either order, written with either sign).  Missing: every
other pair of axes, where the rule is wrong (`C78_transpose_shape_iff`, `C78_transpose_batch_wrong`). -/
theorem C78_transpose_partial [AddCommMonoid M] {x y : Tensor α} {g : Tensor M} {u v : Int}
    {a b : Nat} (hx : x.WF) (h2 : 2 ≤ x.dims.length) (hu : IsAxis x.dims.length u a)
    (hv : IsAxis x.dims.length v b)
    (hab : (a = x.dims.length - 2 ∧ b = x.dims.length - 1) ∨
      (a = x.dims.length - 1 ∧ b = x.dims.length - 2))
    (hy : x.transpose u v = .ok y) (hg : g.WF) (hgd : g.dims = y.dims) :
    ∃ r, transposeVjp g x.dims = .ok r ∧ ViewGrad x y g r (swapCoords a b) := by
  obtain ⟨y', h1, _, h3, h4, h5⟩ := (C03_transpose hx u v).2 a b h2 hu hv
  rw [hy] at h1; cases h1
  have hgl : g.dims.length = x.dims.length := by rw [hgd, h3]
  obtain ⟨u', v', k1, k2, k3⟩ := transposeVjp_axes (g := g) hgl.symm h2
  obtain ⟨r, m1, m2, m3, m4, m5⟩ := (C03_transpose hg u' v').2 _ _ (by omega) k2 k3
  have hsw : ∀ k, (if k = x.dims.length - 2 then x.dims.length - 1 else
      if k = x.dims.length - 1 then x.dims.length - 2 else k) =
      (if k = a then b else if k = b then a else k) := by
    intro k; rcases hab with ⟨rfl, rfl⟩ | ⟨rfl, rfl⟩
    · rfl
    · split_ifs <;> omega
  simp only [hsw] at m4 m5
  have ha := hu.1
  have hb := hv.1
  have hrd : r.dims = x.dims := by
    apply ext_getD (by omega)
    intro k hk
    rw [m5 k (by omega), hgd, h5 _ (by split_ifs <;> omega)]
    congr 1
    split_ifs <;> omega
  have h5' : ∀ k, k < y.dims.length →
      x.dims.getD k 0 = y.dims.getD (if k = a then b else if k = b then a else k) 0 := by
    intro k hk
    rw [h5 _ (by split_ifs <;> omega)]
    congr 1
    split_ifs <;> omega
  refine ⟨r, by rw [k1, m1], fun j hj => ?_, hrd,
    sumsAlong_of_bij (ρ := swapCoords a b) hg m2 ?_ ?_⟩
  · have hj' := swapCoords_inRange ha hb h3 h5 hj
    refine ⟨hj', h4 _ _ hj' hj fun k hk => ?_⟩
    have hjl := hj.length
    rw [getD_swapCoords (by split_ifs <;> omega)]
    congr 1
    split_ifs <;> omega
  · intro j hj
    rw [hgd] at hj
    have hjl := hj.length
    rw [hrd]
    exact ⟨swapCoords_inRange ha hb h3 h5 hj, swapCoords_swapCoords (by omega) (by omega)⟩
  · intro i hi
    have hi' := hi
    rw [hrd] at hi
    have hil := hi.length
    have hin : InRange (swapCoords a b i) g.dims := by
      rw [hgd]
      exact swapCoords_inRange (by omega) (by omega) h3.symm h5' hi
    refine ⟨hin, swapCoords_swapCoords (by omega) (by omega), m4 _ _ hin hi' fun k hk => ?_⟩
    rw [getD_swapCoords (by split_ifs <;> omega)]
    congr 1
    split_ifs <;> omega

/-- **C78, transpose, exactly when the shape comes back**: for an input whose dimensions all differ, the
rule returns a tensor of the input's shape if and only if the last two axes were exchanged. -/
theorem C78_transpose_shape_iff {x y : Tensor α} {g : Tensor M} {u v : Int} {a b : Nat} (hx : x.WF)
    (h2 : 2 ≤ x.dims.length) (hu : IsAxis x.dims.length u a) (hv : IsAxis x.dims.length v b)
    (hy : x.transpose u v = .ok y) (hg : g.WF) (hgd : g.dims = y.dims) (hnd : x.dims.Nodup) :
    ∃ r, transposeVjp g x.dims = .ok r ∧ (r.dims = x.dims ↔
      (a = x.dims.length - 2 ∧ b = x.dims.length - 1) ∨
      (a = x.dims.length - 1 ∧ b = x.dims.length - 2)) := by
  obtain ⟨y', h1, _, h3, h4, h5⟩ := (C03_transpose hx u v).2 a b h2 hu hv
  rw [hy] at h1; cases h1
  have hgl : g.dims.length = x.dims.length := by rw [hgd, h3]
  obtain ⟨u', v', k1, k2, k3⟩ := transposeVjp_axes (g := g) hgl.symm h2
  obtain ⟨r, m1, m2, m3, m4, m5⟩ := (C03_transpose hg u' v').2 _ _ (by omega) k2 k3
  have ha := hu.1
  have hb := hv.1
  refine ⟨r, by rw [k1, m1], ⟨fun he => ?_, fun hab => ?_⟩⟩
  · have key := m5 (x.dims.length - 1) (by omega)
    rw [if_neg (by omega), if_pos rfl, he, hgd, h5 _ (by omega)] at key
    have hlt : (if x.dims.length - 2 = a then b else if x.dims.length - 2 = b then a else
        x.dims.length - 2) < x.dims.length := by split_ifs <;> omega
    simp only [List.getD_eq_getElem?_getD, List.getElem?_eq_getElem hlt, Option.getD_some,
      List.getElem?_eq_getElem (show x.dims.length - 1 < x.dims.length by omega)] at key
    have := (List.Nodup.getElem_inj_iff hnd).mp key
    split_ifs at this <;> omega
  · apply ext_getD (by omega)
    intro k hk
    rw [m5 k (by omega), hgd, h5 _ (by split_ifs <;> omega)]
    congr 1
    rcases hab with ⟨rfl, rfl⟩ | ⟨rfl, rfl⟩ <;> split_ifs <;> omega

/-- C78, the transpose of a `[2, 3]` matrix, and of the last two axes of a `[2, 2, 3]` tensor. -/
example :
    let g : Tensor Int := ⟨[1, 2, 3, 4, 5, 6], Layout.fromShape [3, 2]⟩
    (∃ y : Tensor Int, (⟨[0, 1, 2, 3, 4, 5], Layout.fromShape [2, 3]⟩ : Tensor Int).transpose 0 1 =
      .ok y ∧ y.dims = g.dims) ∧
    transposeVjp g [2, 3] = .ok ⟨[1, 2, 3, 4, 5, 6], ⟨[2, 3], [1, 2], 0⟩⟩ ∧ [2, 3].Nodup ∧
    IsAxis 2 0 0 ∧ IsAxis 2 (-1) 1 :=
  ⟨⟨⟨[0, 1, 2, 3, 4, 5], ⟨[3, 2], [1, 3], 0⟩⟩, by decide +kernel⟩, by decide +kernel, by decide,
    ⟨by decide, .inl rfl⟩, ⟨by decide, .inr rfl⟩⟩

/-! ## Permute -/

theorem foldl_set_getElem? (ps : List (Nat × Nat)) (init : List Nat) {p : Nat}
    (hp : p ∉ ps.map Prod.fst) :
    (ps.foldl (fun inv q => inv.set q.1 q.2) init)[p]? = init[p]? := by
  induction ps generalizing init with
  | nil => rfl
  | cons q ps ih =>
    simp only [List.map_cons, List.mem_cons, not_or] at hp
    rw [List.foldl_cons, ih _ hp.2, List.getElem?_set_ne (Ne.symm hp.1)]

theorem foldl_set_getElem?_mem (ps : List (Nat × Nat)) (init : List Nat) {p q : Nat}
    (hnd : (ps.map Prod.fst).Nodup) (hm : (p, q) ∈ ps) (hp : p < init.length) :
    (ps.foldl (fun inv q => inv.set q.1 q.2) init)[p]? = some q := by
  induction ps generalizing init with
  | nil => simp at hm
  | cons r ps ih =>
    simp only [List.map_cons, List.nodup_cons] at hnd
    rw [List.foldl_cons]
    rcases List.mem_cons.mp hm with rfl | hm
    · rw [foldl_set_getElem? _ _ hnd.1]; simp [hp]
    · exact ih _ hnd.2 hm (by simpa using hp)

theorem foldl_set_length (ps : List (Nat × Nat)) (init : List Nat) :
    (ps.foldl (fun inv q => inv.set q.1 q.2) init).length = init.length := by
  induction ps generalizing init with
  | nil => rfl
  | cons q ps ih => rw [List.foldl_cons, ih]; simp

/-- Inverting the list of positions of a permutation gives the permutation back. -/
theorem permInverse_idxOf {σ : List Nat} (hp : σ.Perm (List.range σ.length)) :
    permInverse ((List.range σ.length).map fun i => σ.idxOf i) = σ := by
  have hnd : σ.Nodup := hp.nodup_iff.mpr List.nodup_range
  have hmem : ∀ i, i < σ.length → i ∈ σ := fun i hi => hp.mem_iff.mpr (by simpa using hi)
  apply List.ext_getElem
  · rw [permInverse, foldl_set_length]; simp
  · intro p h1 h2
    have hlt : σ[p] < σ.length := by simpa using hp.mem_iff.mp (List.getElem_mem h2)
    have := foldl_set_getElem?_mem
      (((List.range σ.length).map fun i => σ.idxOf i).zipIdx)
      (List.replicate ((List.range σ.length).map fun i => σ.idxOf i).length 0) (p := p) (q := σ[p])
      (by
        rw [List.zipIdx_map_fst]
        refine List.Nodup.map_on ?_ List.nodup_range
        intro i hi j hj hij
        exact (List.idxOf_inj (hmem i (by simpa using hi))).mp hij)
      (by
        rw [List.mem_zipIdx_iff_getElem?]
        simp [hlt, List.Nodup.idxOf_getElem hnd])
      (by simpa using h2)
    rw [← permInverse, List.getElem?_eq_getElem h1] at this
    exact Option.some.inj this

/-- When all dimensions differ, the shape comparison finds the inverse of the permutation. -/
theorem permForward_eq {d σ : List Nat} (hl : σ.length = d.length) (hnd : d.Nodup)
    (hp : σ.Perm (List.range σ.length)) :
    permForward d (σ.map fun a => d.getD a 0) = (List.range σ.length).map fun i => σ.idxOf i := by
  have hmem : ∀ i, i < σ.length → i ∈ σ := fun i hi => hp.mem_iff.mpr (by simpa using hi)
  have hσlt : ∀ j (h : j < σ.length), σ[j] < d.length := fun j h => by
    have := hp.mem_iff.mp (List.getElem_mem h); rw [← hl]; simpa using this
  have hinj : ∀ i j, i < d.length → j < d.length → d.getD i 0 = d.getD j 0 → i = j := by
    intro i j hi hj h
    simp only [List.getD_eq_getElem?_getD, List.getElem?_eq_getElem hi, List.getElem?_eq_getElem hj,
      Option.getD_some] at h
    exact (List.Nodup.getElem_inj_iff hnd).mp h
  have hσnd : σ.Nodup := hp.nodup_iff.mpr List.nodup_range
  unfold permForward
  rw [← hl]
  have step : ∀ m, m ≤ σ.length → (List.range m).foldl (fun acc i =>
      acc ++ [((List.range σ.length).find? fun j =>
        d.getD i 0 == (σ.map fun a => d.getD a 0).getD j 0 && !acc.contains j).getD 0]) [] =
      (List.range m).map fun i => σ.idxOf i := by
    intro m
    induction m with
    | zero => intro _; rfl
    | succ m ih =>
      intro hm
      rw [List.range_succ, List.foldl_append, ih (by omega), List.map_append]
      simp only [List.foldl_cons, List.foldl_nil, List.map_cons, List.map_nil]
      congr 2
      have hml := List.idxOf_lt_length_of_mem (hmem m (by omega))
      have : (List.range σ.length).find? (fun j =>
          d.getD m 0 == (σ.map fun a => d.getD a 0).getD j 0 &&
            !((List.range m).map fun i => σ.idxOf i).contains j) = some (σ.idxOf m) := by
        rw [List.find?_range_eq_some]
        refine ⟨?_, by simpa using hml, ?_⟩
        · simp only [List.getD_eq_getElem?_getD, List.getElem?_map, List.getElem?_eq_getElem hml,
            Option.map_some, Option.getD_some, List.getElem_idxOf, beq_self_eq_true, Bool.true_and,
            Bool.not_eq_eq_eq_not, Bool.not_true, List.contains_eq_mem, decide_eq_false_iff_not,
            List.mem_map, List.mem_range, not_exists, not_and]
          intro i hi he
          have := (List.idxOf_inj (hmem i (by omega))).mp he
          omega
        · intro j hj
          have hjl : j < σ.length := by omega
          rw [Bool.not_eq_eq_eq_not, Bool.not_true, Bool.and_eq_false_iff]
          left
          rw [beq_eq_false_iff_ne]
          intro he
          have e1 : (σ.map fun a => d.getD a 0).getD j 0 = d.getD σ[j] 0 := by
            simp [List.getD_eq_getElem?_getD, hjl]
          rw [e1] at he
          have := hinj m σ[j] (by omega) (hσlt j hjl) he
          rw [this, List.Nodup.idxOf_getElem hσnd] at hj
          omega
      rw [this]; rfl
  exact step σ.length (Nat.le_refl _)

/-- For an input whose dimensions all differ, the rule permutes the gradient by the *forward*
permutation once more. -/
theorem permuteVjp_eq {g : Tensor α} {d σ : List Nat} (hl : σ.length = d.length) (hnd : d.Nodup)
    (hp : σ.Perm (List.range σ.length)) (hgd : g.dims = σ.map fun a => d.getD a 0) :
    permuteVjp g d = g.permute (σ.map Int.ofNat) := by
  rw [permuteVjp, if_neg (by rw [hgd]; simp [hl]), hgd, permForward_eq hl hnd hp, permInverse_idxOf hp]

theorem names_self {n : Nat} {σ : List Nat} (hl : σ.length = n) (hp : σ.Perm (List.range n)) :
    NamesPermutation n (σ.map Int.ofNat) σ := by
  refine ⟨by simp [hl], hl, hp.nodup_iff.mpr List.nodup_range, fun k h1 h2 => ?_⟩
  have : σ[k] < n := by simpa using hp.mem_iff.mp (List.getElem_mem h2)
  exact ⟨this, .inl (by simp)⟩

theorem NamesPermutation_perm {n : Nat} {axes : List Int} {σ : List Nat}
    (h : NamesPermutation n axes σ) : σ.Perm (List.range n) :=
  perm_range h.2.1 (fun a ha => by
    obtain ⟨k, hk, rfl⟩ := List.getElem_of_mem ha
    exact (h.2.2.2 k (by rw [h.1, ← h.2.1]; exact hk) hk).1) h.2.2.1

/-- Applying an involution twice. -/
theorem map_getD_invol {σ i : List Nat} (hl : i.length = σ.length)
    (hlt : ∀ a ∈ σ, a < σ.length)
    (hinv : ∀ k, k < σ.length → σ.getD (σ.getD k 0) 0 = k) :
    (σ.map fun a => (σ.map fun b => i.getD b 0).getD a 0) = i := by
  apply ext_getD (by simp [hl])
  intro k hk
  have hk' : k < σ.length := by omega
  have h1 := hinv k hk'
  have h2 : σ.getD k 0 < σ.length := by
    rw [List.getD_eq_getElem?_getD, List.getElem?_eq_getElem hk']; exact hlt _ (List.getElem_mem _)
  have e1 : ∀ (f : Nat → Nat) m, m < σ.length → (σ.map f).getD m 0 = f (σ.getD m 0) := by
    intro f m hm
    simp [List.getD_eq_getElem?_getD, hm]
  rw [e1 _ k hk', e1 _ _ h2, h1]

/-- **C78, permute by an involution**, for inputs whose dimensions all differ.  Missing: everything else
— other permutations return the wrong shape (`C78_permute_shape_iff`), and with equal dimensions the
data can be wrong (`C78_permute_square_wrong`). -/
theorem C78_permute_partial [AddCommMonoid M] {x y : Tensor α} {g : Tensor M} {axes : List Int}
    {σ : List Nat} (hx : x.WF) (hσ : NamesPermutation x.dims.length axes σ)
    (hnd : x.dims.Nodup) (hinv : ∀ k, k < σ.length → σ.getD (σ.getD k 0) 0 = k)
    (hy : x.permute axes = .ok y) (hg : g.WF) (hgd : g.dims = y.dims) :
    ∃ r, permuteVjp g x.dims = .ok r ∧ ViewGrad x y g r (fun j => σ.map fun a => j.getD a 0) := by
  obtain ⟨y', h1, _, h3, h4, h5⟩ := (C03_permute hx axes).2 σ hσ
  rw [hy] at h1; cases h1
  have hp := NamesPermutation_perm hσ
  have hl : σ.length = x.dims.length := hσ.2.1
  have hlt : ∀ a ∈ σ, a < σ.length := fun a ha => by
    rw [hl]; simpa using hp.mem_iff.mp ha
  have hgl : g.dims.length = x.dims.length := by rw [hgd, h3]; simp [hl]
  obtain ⟨r, m1, m2, m3, m4, m5⟩ := (C03_permute hg (σ.map Int.ofNat)).2 σ
    (by rw [hgl]; exact names_self hl hp)
  have hrd : r.dims = x.dims := by
    rw [m3, hgd, h3]; exact map_getD_invol hl.symm hlt hinv
  have hin : ∀ {i d e : List Nat}, InRange i d → d.length = σ.length →
      e = (σ.map fun a => d.getD a 0) → InRange (σ.map fun a => i.getD a 0) e := by
    intro i d e hi hd he
    have hil := hi.length
    rw [he]
    rw [inRange_iff_getD] at hi ⊢
    refine ⟨by simp, fun k hk => ?_⟩
    have hk' : k < σ.length := by simpa using hk
    have := hi.2 σ[k] (by rw [hd]; exact hlt _ (List.getElem_mem hk'))
    simpa [List.getD_eq_getElem?_getD, hk'] using this
  have hyx : x.dims = σ.map fun a => y.dims.getD a 0 := by rw [h3]; exact (map_getD_invol hl.symm hlt hinv).symm
  have hyl : y.dims.length = σ.length := by rw [h3]; simp
  refine ⟨r, by rw [permuteVjp_eq hl hnd (by rw [hl]; exact hp) (by rw [hgd, h3]), m1], fun j hj => ?_, hrd,
    sumsAlong_of_bij (ρ := fun j => σ.map fun a => j.getD a 0) hg m2 ?_ ?_⟩
  · have hj' := hin hj hyl hyx
    refine ⟨hj', ?_⟩
    rw [← h4 _ hj', map_getD_invol (by rw [hj.length, hyl]) hlt hinv]
  · intro j hj
    rw [hgd] at hj
    rw [hrd]
    exact ⟨hin hj hyl hyx, map_getD_invol (by rw [hj.length, hyl]) hlt hinv⟩
  · intro i hi
    rw [hrd] at hi
    have hi' : InRange (σ.map fun a => i.getD a 0) g.dims := by rw [hgd]; exact hin hi hl.symm h3
    refine ⟨hi', map_getD_invol (by rw [hi.length, hl]) hlt hinv, ?_⟩
    rw [← m4 _ hi', map_getD_invol (by rw [hi.length, hl]) hlt hinv]

/-- **C78, permute, exactly when the shape comes back**: for an input whose dimensions all differ, the
rule returns a tensor of the input's shape if and only if the permutation is its own inverse. -/
theorem C78_permute_shape_iff {x y : Tensor α} {g : Tensor M} {axes : List Int}
    {σ : List Nat} (hx : x.WF) (hσ : NamesPermutation x.dims.length axes σ)
    (hnd : x.dims.Nodup) (hy : x.permute axes = .ok y) (hg : g.WF) (hgd : g.dims = y.dims) :
    ∃ r, permuteVjp g x.dims = .ok r ∧
      (r.dims = x.dims ↔ ∀ k, k < σ.length → σ.getD (σ.getD k 0) 0 = k) := by
  obtain ⟨y', h1, _, h3, h4, h5⟩ := (C03_permute hx axes).2 σ hσ
  rw [hy] at h1; cases h1
  have hp := NamesPermutation_perm hσ
  have hl : σ.length = x.dims.length := hσ.2.1
  have hlt : ∀ a ∈ σ, a < σ.length := fun a ha => by
    rw [hl]; simpa using hp.mem_iff.mp ha
  have hgl : g.dims.length = x.dims.length := by rw [hgd, h3]; simp [hl]
  obtain ⟨r, m1, m2, m3, m4, m5⟩ := (C03_permute hg (σ.map Int.ofNat)).2 σ
    (by rw [hgl]; exact names_self hl hp)
  refine ⟨r, by rw [permuteVjp_eq hl hnd (by rw [hl]; exact hp) (by rw [hgd, h3]), m1], fun he k hk => ?_,
    fun hinv => by rw [m3, hgd, h3]; exact map_getD_invol hl.symm hlt hinv⟩
  have e1 : ∀ (f : Nat → Nat) m, m < σ.length → (σ.map f).getD m 0 = f (σ.getD m 0) := by
    intro f m hm
    simp [List.getD_eq_getElem?_getD, hm]
  have hlt' : ∀ k, k < σ.length → σ.getD k 0 < σ.length := by
    intro k hk
    rw [List.getD_eq_getElem?_getD, List.getElem?_eq_getElem hk]; exact hlt _ (List.getElem_mem _)
  have key : r.dims.getD k 0 = x.dims.getD k 0 := by rw [he]
  rw [m3, hgd, h3, e1 _ k hk, e1 _ _ (hlt' k hk)] at key
  have h6 := hlt' _ (hlt' k hk)
  simp only [List.getD_eq_getElem?_getD (l := x.dims), List.getElem?_eq_getElem (l := x.dims) (i := k) (by omega),
    List.getElem?_eq_getElem (l := x.dims) (i := σ.getD (σ.getD k 0) 0) (by omega), Option.getD_some] at key
  exact (List.Nodup.getElem_inj_iff hnd).mp key

/-- C78, exchanging the outer axes of a `[2, 3, 4]` tensor: `[2, 1, 0]` is its own inverse. -/
example :
    NamesPermutation 3 [2, 1, 0] [2, 1, 0] ∧ [2, 3, 4].Nodup ∧
    (∀ k, k < 3 → [2, 1, 0].getD ([2, 1, 0].getD k 0) 0 = k) ∧
    permuteVjp (⟨List.range 24, Layout.fromShape [4, 3, 2]⟩ : Tensor Nat) [2, 3, 4] =
      .ok ⟨List.range 24, ⟨[2, 3, 4], [1, 2, 6], 0⟩⟩ :=
  ⟨names_self (n := 3) (σ := [2, 1, 0]) rfl (by decide), by decide, by decide, by decide +kernel⟩

/-! ## What fails -/

/-- The full statement for transpose and permute: whatever the axes, the rule returns the gradient of the
view. -/
def C78_full : Prop :=
  (∀ (x y g : Tensor Int) (u v : Int) (a b : Nat), x.WF → IsAxis x.dims.length u a →
    IsAxis x.dims.length v b → x.transpose u v = .ok y → g.WF → g.dims = y.dims →
    ∃ r, transposeVjp g x.dims = .ok r ∧ ViewGrad x y g r (swapCoords a b)) ∧
  (∀ (x y g : Tensor Int) (axes : List Int) (σ : List Nat), x.WF →
    NamesPermutation x.dims.length axes σ → x.permute axes = .ok y → g.WF → g.dims = y.dims →
    ∃ r π, permuteVjp g x.dims = .ok r ∧ ViewGrad x y g r π)

/-- Counting, of a given shape. -/
def cnt (d : List Nat) : Tensor Int := ⟨(List.range (shapeSize d)).map Int.ofNat, Layout.fromShape d⟩

theorem cnt_wf (d : List Nat) : (cnt d).WF := fresh_wf (by simp [shapeSize_eq])

/-- **C78 is false.** `x.transpose(0, 1)` of a `[2, 3, 4]` tensor gets a gradient of shape `[3, 4, 2]`. -/
theorem C78_full_false : ¬ C78_full ∧
    (∃ y, (cnt [2, 3, 4]).transpose 0 1 = .ok y ∧ y.dims = [3, 2, 4]) ∧
    ∃ r, transposeVjp (cnt [3, 2, 4]) [2, 3, 4] = .ok r ∧ r.dims = [3, 4, 2] := by
  refine ⟨fun h => ?_, ⟨⟨(cnt [2, 3, 4]).storage, ⟨[3, 2, 4], [4, 12, 1], 0⟩⟩, by decide +kernel⟩,
    ⟨⟨(cnt [3, 2, 4]).storage, ⟨[3, 4, 2], [8, 1, 4], 0⟩⟩, by decide +kernel⟩⟩
  obtain ⟨r, h1, h2⟩ := h.1 (cnt [2, 3, 4]) ⟨(cnt [2, 3, 4]).storage, ⟨[3, 2, 4], [4, 12, 1], 0⟩⟩
    (cnt [3, 2, 4]) 0 1 0 1 (cnt_wf _) ⟨by decide, .inl rfl⟩ ⟨by decide, .inl rfl⟩ (by decide +kernel)
    (cnt_wf _) (by decide +kernel)
  have : transposeVjp (cnt [3, 2, 4]) [2, 3, 4] =
    .ok ⟨(cnt [3, 2, 4]).storage, ⟨[3, 4, 2], [8, 1, 4], 0⟩⟩ := by decide +kernel
  rw [show (cnt [2, 3, 4]).dims = [2, 3, 4] from rfl, this] at h1
  cases h1
  exact absurd h2.dims (by decide)

/-- With equal dimensions the shape cannot show it: `transpose(0, 1)` of a `[2, 2, 2]` tensor gets back a
gradient of the right shape with the entries in the wrong places: output `[1][0][0]` reads
`x[0][1][0]`, its upstream entry is 4, but the gradient of `x[0][1][0]` is 1. -/
theorem C78_transpose_batch_wrong :
    ∃ y r, (cnt [2, 2, 2]).transpose 0 1 = .ok y ∧ transposeVjp (cnt [2, 2, 2]) [2, 2, 2] = .ok r ∧
      y.elem [1, 0, 0] = (cnt [2, 2, 2]).elem [0, 1, 0] ∧
      (cnt [2, 2, 2]).elem [1, 0, 0] = some 4 ∧ r.elem [0, 1, 0] = some 1 :=
  ⟨⟨(cnt [2, 2, 2]).storage, ⟨[2, 2, 2], [2, 4, 1], 0⟩⟩,
    ⟨(cnt [2, 2, 2]).storage, ⟨[2, 2, 2], [4, 1, 2], 0⟩⟩, by decide +kernel⟩

/-- A cyclic permutation gets a gradient of the wrong shape. -/
theorem C78_permute_cycle_wrong :
    ∃ y r, (cnt [2, 3, 4]).permute [1, 2, 0] = .ok y ∧ y.dims = [3, 4, 2] ∧
      permuteVjp (cnt [3, 4, 2]) [2, 3, 4] = .ok r ∧ r.dims = [4, 2, 3] :=
  ⟨⟨(cnt [2, 3, 4]).storage, ⟨[3, 4, 2], [4, 1, 12], 0⟩⟩,
    ⟨(cnt [3, 4, 2]).storage, ⟨[4, 2, 3], [2, 1, 8], 0⟩⟩, by decide +kernel⟩

/-- Permuting the two axes of a square matrix: the recovered permutation is the identity, and the
gradient comes back untransposed. -/
theorem C78_permute_square_wrong :
    ∃ y r, (cnt [2, 2]).permute [1, 0] = .ok y ∧ y.elem [0, 1] = (cnt [2, 2]).elem [1, 0] ∧
      permuteVjp (cnt [2, 2]) [2, 2] = .ok r ∧ (cnt [2, 2]).elem [0, 1] = some 1 ∧
      r.elem [1, 0] = some 2 :=
  ⟨⟨(cnt [2, 2]).storage, ⟨[2, 2], [1, 2], 0⟩⟩, cnt [2, 2], by decide +kernel⟩

end Hodu
