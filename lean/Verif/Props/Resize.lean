import Verif.Model.Resize
import Verif.Lemmas.Meta
import Verif.Lemmas.ExtOps
import Verif.Lemmas.Float
import Verif.Props.Indexing
import Mathlib.Data.Real.Basic
import Mathlib.Algebra.Order.Floor.Ring
import Mathlib.Data.Int.Log
import Mathlib.Tactic.Linarith
import Mathlib.Tactic.Ring

/-!
# C93: resize interpolates at the documented coordinates

Every output element is the interpolation of the input at the coordinate that the transformation assigns to it; coordinates
outside of the input are clamped.
-/

namespace Hodu
open Spec

/-! ## Specification -/

/-- The coordinate in an axis of size `n` of position `o` in a resized axis of size `m`. -/
def Spec.srcCoord : ResizeCoord → Nat → Nat → Nat → ℚ
  | .halfPixel, n, m, o => (o + 1 / 2) * (n / m) - 1 / 2
  | .asymmetric, n, m, o => o * (n / m)
  | .alignCorners, n, m, o => if m = 1 then 0 else o * (n - 1) / (m - 1)
  | .pytorchHalfPixel, n, m, o => if m = 1 then 0 else (o + 1 / 2) * (n / m) - 1 / 2

/-- `k` is the integer that the rounding mode picks for `c`. -/
def Spec.IsNearest : ResizeNearest → ℚ → Int → Prop
  | .floor, c, k => (k : ℚ) ≤ c ∧ c < k + 1
  | .ceil, c, k => (k : ℚ) - 1 < c ∧ c ≤ k
  | .preferFloor, c, k => c - 1 / 2 ≤ k ∧ (k : ℚ) < c + 1 / 2
  | .preferCeil, c, k => c - 1 / 2 < k ∧ (k : ℚ) ≤ c + 1 / 2

/-- The nearest position of an axis of size `n`. -/
def Spec.clampTo (n : Nat) (k : Int) : Nat := (min (max k 0) (n - 1)).toNat

/-- The source position of every axis under nearest-neighbour resizing. -/
def Spec.NearestSrc (co : ResizeCoord) (ne : ResizeNearest) : List Nat → List Nat → List Nat → List Nat → Prop
  | n :: ns, m :: ms, o :: os, k :: ks =>
    (∃ z, IsNearest ne (srcCoord co n m o) z ∧ k = clampTo n z) ∧ NearestSrc co ne ns ms os ks
  | [], [], [], [] => True
  | _, _, _, _ => False

/-- The coordinates of every axis. -/
def Spec.srcCoords (co : ResizeCoord) : List Nat → List Nat → List Nat → List ℚ
  | n :: ns, m :: ms, o :: os => srcCoord co n m o :: srcCoords co ns ms os
  | _, _, _ => []

/-- The nearest position in every axis. -/
def Spec.clampAll (ns : List Nat) (ks : List Int) : List Nat := List.zipWith clampTo ns ks

/-- `v` lies at `c` on the line through the neighbouring values. -/
def Spec.OnLine (g : Int → ℝ) (c : ℚ) (v : ℝ) : Prop :=
  ∃ k : Int, (k : ℚ) ≤ c ∧ c ≤ k + 1 ∧ v = g k + (c - k) * (g (k + 1) - g k)

/-- `v` lies at `c` on the cubic that passes through the neighbouring values with the slopes of the central
differences (Catmull-Rom). -/
def Spec.OnSpline (g : Int → ℝ) (c : ℚ) (v : ℝ) : Prop :=
  ∃ k : Int, (k : ℚ) ≤ c ∧ c ≤ k + 1 ∧ ∃ c0 c1 c2 c3 : ℝ,
    c0 = g k ∧ c0 + c1 + c2 + c3 = g (k + 1) ∧ c1 = (g (k + 1) - g (k - 1)) / 2 ∧
    c1 + 2 * c2 + 3 * c3 = (g (k + 2) - g k) / 2 ∧
    v = c0 + c1 * (c - k) + c2 * (c - k) ^ 2 + c3 * (c - k) ^ 3

/-- Interpolation axis by axis. -/
def Spec.Interp (P : (Int → ℝ) → ℚ → ℝ → Prop) : List ℚ → (List Int → ℝ) → ℝ → Prop
  | [], X, v => v = X []
  | c :: cs, X, v => ∃ g : Int → ℝ, (∀ a, Interp P cs (fun ks => X (a :: ks)) (g a)) ∧ P g c v

/-- Arithmetic on real numbers. -/
def realArith : ResizeArith ℝ := ⟨(· + ·), (· - ·), (· * ·), fun q => (q : ℝ)⟩

/-! ## One axis -/

theorem transformCoord_exact (co : ResizeCoord) (n m o : Nat) (hn : 0 < n) (ho : o < m) :
    transformCoord id co.code n m o = srcCoord co n m o := by
  have hm : (m : ℚ) ≠ 0 := by
    have : m ≠ 0 := by omega
    exact_mod_cast this
  unfold transformCoord
  by_cases h : n = m
  · subst h
    rw [if_pos rfl]
    have h1 : (n : ℚ) / n = 1 := div_self hm
    cases co with
    | halfPixel => simp only [srcCoord, h1, id]; ring
    | asymmetric => simp only [srcCoord, h1, id]; ring
    | alignCorners =>
      simp only [srcCoord, id]
      by_cases h2 : n = 1
      · rw [if_pos h2]; subst h2
        have : o = 0 := by omega
        subst this; rfl
      · rw [if_neg h2]
        have : (n : ℚ) - 1 ≠ 0 := by
          intro h3
          apply h2
          have : (n : ℚ) = 1 := by linarith
          exact_mod_cast this
        rw [mul_div_assoc, div_self this, mul_one]
    | pytorchHalfPixel =>
      simp only [srcCoord, h1, id]
      by_cases h2 : n = 1
      · rw [if_pos h2]; subst h2
        have : o = 0 := by omega
        subst this; rfl
      · rw [if_neg h2]; ring
  · rw [if_neg h]
    cases co with
    | halfPixel => simp [ResizeCoord.code, srcCoord]
    | asymmetric => simp [ResizeCoord.code, srcCoord]
    | alignCorners =>
      simp only [ResizeCoord.code, srcCoord, id]
      have h1 : ((n - 1 : Nat) : ℚ) = (n : ℚ) - 1 := by push_cast [Nat.cast_sub (by omega : 1 ≤ n)]; ring
      have h2 : ((m - 1 : Nat) : ℚ) = (m : ℚ) - 1 := by push_cast [Nat.cast_sub (by omega : 1 ≤ m)]; ring
      rw [h1, h2]; simp
    | pytorchHalfPixel => simp [ResizeCoord.code, srcCoord]

theorem clampIdx_eq {n : Nat} (hn : 0 < n) (k : Int) : clampIdx k n = clampTo n k := by
  unfold clampIdx clampTo
  by_cases h : k < 0
  · rw [if_pos h, max_eq_right (by omega), min_eq_left (by omega)]; rfl
  · rw [if_neg h, max_eq_left (by omega)]
    by_cases h2 : n - 1 < k.toNat
    · rw [if_pos ⟨hn, h2⟩, min_eq_right (by omega)]; omega
    · rw [if_neg (by omega), min_eq_left (by omega)]

theorem clampTo_lt {n : Nat} (hn : 0 < n) (k : Int) : clampTo n k < n := by
  unfold clampTo; omega

/-- A position of the axis is not moved. -/
theorem clampTo_self {n k : Nat} (h : k < n) : clampTo n k = k := by
  unfold clampTo; omega

theorem roundHalfAway_spec (c : ℚ) :
    (0 ≤ c → IsNearest .preferCeil c (roundHalfAway c)) ∧ (c < 0 → c - 1 / 2 ≤ roundHalfAway c ∧
      (roundHalfAway c : ℚ) < c + 1 / 2 ∧ roundHalfAway c ≤ 0) := by
  unfold roundHalfAway IsNearest
  constructor
  · intro h
    rw [if_pos h]
    have h1 := Int.floor_le (c + 1 / 2)
    have h2 := Int.lt_floor_add_one (c + 1 / 2)
    constructor <;> linarith
  · intro h
    rw [if_neg (by linarith)]
    have h1 := Int.le_ceil (c - 1 / 2)
    have h2 := Int.ceil_lt_add_one (c - 1 / 2)
    refine ⟨by linarith, by linarith, ?_⟩
    rw [Int.ceil_le]
    push_cast; linarith

/-- The rounding picks the documented neighbour. -/
theorem roundNearest_spec (ne : ResizeNearest) {n : Nat} (hn : 0 < n) (c : ℚ) :
    ∃ z, IsNearest ne c z ∧ roundNearest id ne.code n c = clampTo n z := by
  have key : ∀ z : Int, roundBy id ne.code c = z → roundNearest id ne.code n c = clampTo n z := by
    intro z hz
    unfold roundNearest
    rw [hz]
    have e : (id ((n - 1 : Nat) : ℚ) < (z : ℚ)) ↔ ((n - 1 : Nat) : Int) < z := by
      simp only [id]
      rw [show ((n - 1 : Nat) : ℚ) = (((n - 1 : Nat) : Int) : ℚ) by push_cast; rfl]
      exact Int.cast_lt
    rw [← clampIdx_eq hn]
    unfold clampIdx
    by_cases h : z < 0
    · rw [if_pos h, if_pos h]
    · rw [if_neg h, if_neg h]
      by_cases h2 : ((n - 1 : Nat) : Int) < z
      · rw [if_pos ⟨hn, e.mpr h2⟩, if_pos ⟨hn, by omega⟩]
      · rw [if_neg (fun q => h2 (e.mp q.2)), if_neg (by omega)]
  cases ne with
  | floor => exact ⟨⌊c⌋, ⟨Int.floor_le c, Int.lt_floor_add_one c⟩, key _ rfl⟩
  | ceil =>
    refine ⟨⌈c⌉, ⟨?_, Int.le_ceil c⟩, key _ rfl⟩
    have := Int.ceil_lt_add_one c
    linarith
  | preferFloor =>
    have hb : roundBy id ResizeNearest.preferFloor.code c =
      if c = ⌊c⌋ + 1 / 2 then ⌊c⌋ else roundHalfAway c := rfl
    by_cases h : c = ⌊c⌋ + 1 / 2
    · refine ⟨⌊c⌋, ⟨by linarith, by linarith⟩, key _ ?_⟩
      exact hb.trans (if_pos h)
    · refine ⟨roundHalfAway c, ?_, key _ (hb.trans (if_neg h))⟩
      by_cases h0 : 0 ≤ c
      · obtain ⟨h1, h2⟩ := (roundHalfAway_spec c).1 h0
        refine ⟨by linarith, lt_of_le_of_ne h2 fun he => h ?_⟩
        have hf : ⌊c⌋ = roundHalfAway c - 1 := by
          rw [Int.floor_eq_iff]; push_cast; constructor <;> linarith
        rw [hf]; push_cast; linarith
      · obtain ⟨h1, h2, _⟩ := (roundHalfAway_spec c).2 (by linarith)
        exact ⟨h1, h2⟩
  | preferCeil =>
    by_cases h0 : 0 ≤ c
    · exact ⟨roundHalfAway c, (roundHalfAway_spec c).1 h0, key _ rfl⟩
    · obtain ⟨h1, h2, h3⟩ := (roundHalfAway_spec c).2 (by linarith)
      rcases lt_or_eq_of_le h1 with h4 | h4
      · exact ⟨roundHalfAway c, ⟨h4, by linarith⟩, key _ rfl⟩
      · refine ⟨roundHalfAway c + 1, ⟨by push_cast; linarith, by push_cast; linarith⟩, ?_⟩
        rw [key (roundHalfAway c) rfl]
        have : roundHalfAway c < 0 := by
          have h5 : (roundHalfAway c : ℚ) < 0 := by linarith
          exact_mod_cast h5
        unfold clampTo; omega

/-! ## The loops over the axes -/

variable {α A : Type}

/-- The value that the interpolation computes. -/
def interpV (fl : ℚ → ℚ) (comb : ℚ → List A → A) (offs : List Int) : List ResizeAxis → (List Nat → A) → A
  | [], X => X []
  | ax :: rest, X =>
    comb (fl (ax.coord - ⌊ax.coord⌋))
      (offs.map fun j => interpV fl comb offs rest fun ks => X (clampTo ax.size (⌊ax.coord⌋ + j) :: ks))

theorem interpAt_ok (fl : ℚ → ℚ) (ld : α → A) (comb : ℚ → List A → A) (offs : List Int) (inp : List α)
    (axes : List ResizeAxis) (base : Nat) (G : List Nat → α) (hp : ∀ a ∈ axes, 0 < a.size)
    (h : ∀ ks, InRange ks (axes.map (·.size)) → readC inp (base + dot ks (axes.map (·.stride))) = .ok (G ks)) :
    interpAt fl ld comb offs inp axes base = .ok (interpV fl comb offs axes fun ks => ld (G ks)) := by
  induction axes generalizing base G with
  | nil =>
    have := h [] (by trivial)
    simp only [dot, Nat.add_zero] at this
    simp only [interpAt, interpV, this, Res.map]
  | cons ax rest ih =>
    have hax := hp ax (by simp)
    simp only [interpAt, interpV]
    rw [Res.mapL_eq_ok_of (g := fun j => interpV fl comb offs rest fun ks =>
      ld (G (clampTo ax.size (⌊ax.coord⌋ + j) :: ks)))]
    · rfl
    · intro j _
      rw [clampIdx_eq hax]
      refine ih _ (fun ks => G (clampTo ax.size (⌊ax.coord⌋ + j) :: ks)) (fun a ha => hp a (by simp [ha])) ?_
      intro ks hks
      have := h (clampTo ax.size (⌊ax.coord⌋ + j) :: ks) ⟨clampTo_lt hax _, hks⟩
      simp only [List.map_cons, dot] at this
      rw [Nat.add_assoc]
      exact this

/-- Memory safety of the nearest neighbour, for every rounding that is exact on small numbers. -/
theorem nearestAt_dot (fl : ℚ → ℚ) (code : Nat) (axes : List ResizeAxis) (base : Nat) :
    nearestAt fl code axes base = base + dot (axes.map fun a => roundNearest fl code a.size a.coord)
      (axes.map (·.stride)) := by
  induction axes generalizing base with
  | nil => rfl
  | cons ax rest ih => simp only [nearestAt, ih, List.map_cons, dot]; omega

theorem roundNearest_lt (fl : ℚ → ℚ) (hfl : ∀ k : Nat, k < 2 ^ 24 → fl k = k) (code : Nat) {n : Nat} (hn : 0 < n)
    (hs : n ≤ 2 ^ 24) (c : ℚ) : roundNearest fl code n c < n := by
  unfold roundNearest
  split
  · exact hn
  · rw [hfl (n - 1) (by omega)]
    split
    · omega
    · rename_i h1 h2
      have h3 : ¬ (((n - 1 : Nat) : Int) < roundBy fl code c) := by
        intro h
        apply h2
        refine ⟨hn, ?_⟩
        rw [show ((n - 1 : Nat) : ℚ) = (((n - 1 : Nat) : Int) : ℚ) by push_cast; rfl]
        exact Int.cast_lt.mpr h
      omega

theorem resizeAxes_size (fl : ℚ → ℚ) (code : Nat) {ns ss ms os : List Nat} (h1 : ss.length = ns.length)
    (h2 : ms.length = ns.length) (h3 : os.length = ns.length) :
    (resizeAxes fl code ns ss ms os).map (·.size) = ns ∧ (resizeAxes fl code ns ss ms os).map (·.stride) = ss := by
  induction ns generalizing ss ms os with
  | nil =>
    have : ss = [] := List.eq_nil_of_length_eq_zero h1
    subst this; simp [resizeAxes]
  | cons n ns ih =>
    match ss, ms, os, h1, h2, h3 with
    | s :: ss, m :: ms, o :: os, h1, h2, h3 =>
      have := ih (ss := ss) (ms := ms) (os := os) (by simpa using h1) (by simpa using h2) (by simpa using h3)
      simp [resizeAxes, this.1, this.2]

/-- C55 for resize: the kernel takes the metadata apart as the host put it together. -/
theorem C55_resize (R : ResizeArith A) (fl : ℚ → ℚ) (ld : α → A) (st : A → α) (inp : List α) {l : Layout}
    (hl : l.strides.length = l.dims.length) {out : List Nat} (ho : out.length = l.dims.length) (mode coord nearest : Nat) :
    resizeKernel R fl ld st inp (resizeMetadata l out mode coord nearest) =
      runLoop (numel out) (resizeCell R fl ld st inp l.dims l.strides out l.offset mode coord nearest) := by
  have e : resizeMetadata l out mode coord nearest = numel out :: l.dims.length :: (l.dims ++ (l.strides ++ (l.offset ::
      (out ++ [mode, coord, nearest])))) := by
    simp [resizeMetadata, Layout.ndim, shapeSize_eq]
  rw [e]
  have a0 := At.start (numel out :: l.dims.length :: (l.dims ++ (l.strides ++ (l.offset :: (out ++ [mode, coord, nearest])))))
  generalize hmd : (numel out :: l.dims.length :: (l.dims ++ (l.strides ++ (l.offset :: (out ++
    [mode, coord, nearest]))))) = md at a0
  rw [← hmd] at a0
  rw [hmd] at a0
  have a0' : At md 0 (numel out :: l.dims.length :: (l.dims ++ (l.strides ++ (l.offset :: (out ++
    [mode, coord, nearest]))))) := by rw [hmd]; exact At.start md
  have a1 := a0'.next 1 rfl
  have a2 := a1.next 2 rfl
  have a3 := a2.skip rfl (2 + l.dims.length) rfl
  have a4 := a3.skip hl (2 + 2 * l.dims.length) (by omega)
  have a5 := a4.next (3 + 2 * l.dims.length) (by omega)
  have a6 := a5.skip ho (3 + 3 * l.dims.length) (by omega)
  have a7 := a6.next (4 + 3 * l.dims.length) (by omega)
  have a8 := a7.next (5 + 3 * l.dims.length) (by omega)
  unfold resizeKernel
  rw [a0'.read, Res.ok_bind, a1.read, Res.ok_bind, a2.slice rfl, Res.ok_bind, a3.slice hl, Res.ok_bind, a4.read,
    Res.ok_bind, a5.slice ho, Res.ok_bind, a6.read, Res.ok_bind, a7.read, Res.ok_bind, a8.read, Res.ok_bind]

/-- From the elements to the tensor. -/
theorem resize_cells (R : ResizeArith A) (fl : ℚ → ℚ) (ld : α → A) (st : A → α) {t : Tensor α} {B C : Nat}
    {ns ms : List Nat} {mo : ResizeMode} {co : ResizeCoord} {ne : ResizeNearest} (ht : t.WF) (hd : t.dims = B :: C :: ns)
    (hr : ns.length = 2 ∨ ns.length = 3) (hm : ms.length = ns.length) (P : Nat → Nat → List Nat → α → Prop)
    (hc : ∀ b c os, b < B → c < C → InRange os ms → ∃ v,
      resizeCell R fl ld st t.storage t.dims t.layout.strides (B :: C :: ms) t.layout.offset mo.code co.code ne.code
        (rowMajor (B :: C :: ms) (b :: c :: os)) = .ok v ∧ P b c os v) :
    ∃ r, t.resize R fl ld st ms mo co ne = .ok r ∧ r.WF ∧ r.dims = B :: C :: ms ∧
      ∀ b c os, b < B → c < C → InRange os ms → ∃ v, r.elem (b :: c :: os) = some v ∧ P b c os v := by
  have hlen : (B :: C :: ms).length = t.layout.dims.length := by
    show _ = t.dims.length
    rw [hd]; simp [hm]
  obtain ⟨zs, hz, hzl, hzv⟩ := runLoop_elem (out := B :: C :: ms)
    (val := resizeCell R fl ld st t.storage t.dims t.layout.strides (B :: C :: ms) t.layout.offset mo.code co.code ne.code)
    (by
      intro idx hi
      match idx, hi with
      | b :: c :: os, hi =>
        obtain ⟨v, hv, _⟩ := hc b c os hi.1 hi.2.1 hi.2.2
        exact ⟨v, hv⟩)
  refine ⟨⟨zs, Layout.fromShape (B :: C :: ms)⟩, ?_, fresh_wf hzl.symm, rfl, ?_⟩
  · unfold Tensor.resize
    rw [hd, if_neg (by simp; omega), if_neg (by simp; omega)]
    simp only [List.getD_cons_zero, List.getD_cons_succ]
    rw [C55_resize R fl ld st t.storage ht.1 hlen]
    have : runLoop (numel (B :: C :: ms)) (resizeCell R fl ld st t.storage t.layout.dims t.layout.strides (B :: C :: ms)
      t.layout.offset mo.code co.code ne.code) = .ok zs := hz
    rw [this, Res.ok_bind]
  · intro b c os hb hcc hos
    obtain ⟨v, hv, hp⟩ := hc b c os hb hcc hos
    exact ⟨v, hzv (b :: c :: os) ⟨hb, hcc, hos⟩ _ hv, hp⟩

/-- The parts of one output element. -/
theorem resizeCell_parts (R : ResizeArith A) (fl : ℚ → ℚ) (ld : α → A) (st : A → α) {t : Tensor α} {B C sB sC : Nat}
    {ns ss ms : List Nat} (mo co ne : Nat) (hd : t.dims = B :: C :: ns)
    (hs : t.layout.strides = sB :: sC :: ss) {b c : Nat} {os : List Nat} (hb : b < B) (hc : c < C) (ho : InRange os ms) :
    resizeCell R fl ld st t.storage t.dims t.layout.strides (B :: C :: ms) t.layout.offset mo co ne
        (rowMajor (B :: C :: ms) (b :: c :: os)) =
      let base := t.layout.offset + b * sB + c * sC
      let axes := resizeAxes fl co ns ss ms os
      if mo = 1 ∧ (ns.length = 2 ∨ ns.length = 3) then
        (interpAt fl ld (R.lerp fl) [0, 1] t.storage axes base).map st
      else if mo = 2 ∧ ns.length = 2 then
        (interpAt fl ld R.cubic [-1, 0, 1, 2] t.storage axes base).map st
      else readC t.storage (nearestAt fl ne axes base) := by
  unfold resizeCell
  have : (cUnravel (B :: C :: ms) (rowMajor (B :: C :: ms) (b :: c :: os))).1 = b :: c :: os :=
    cUnravel_rowMajor ⟨hb, hc, ho⟩
  rw [this, hd, hs]
  simp

theorem read_source {t : Tensor α} {B C sB sC : Nat} {ns ss : List Nat} (ht : t.WF) (hd : t.dims = B :: C :: ns)
    (hs : t.layout.strides = sB :: sC :: ss) {b c : Nat} (hb : b < B) (hc : c < C) {ks : List Nat} (hk : InRange ks ns) :
    ∃ v, t.elem (b :: c :: ks) = some v ∧
      readC t.storage (t.layout.offset + b * sB + c * sC + dot ks ss) = .ok v := by
  obtain ⟨v, hv⟩ := ht.get (idx := b :: c :: ks) (by rw [hd]; exact ⟨hb, hc, hk⟩)
  refine ⟨v, hv, ?_⟩
  have := readC_elem hv
  rw [cFlat_eq, hs] at this
  simp only [dot] at this
  rw [← this]
  congr 1; omega

/-- The strides of a tensor with at least two dimensions. -/
theorem strides_split {t : Tensor α} {B C : Nat} {ns : List Nat} (ht : t.WF) (hd : t.dims = B :: C :: ns) :
    ∃ sB sC ss, t.layout.strides = sB :: sC :: ss ∧ ss.length = ns.length := by
  have h : t.layout.strides.length = t.dims.length := ht.1
  rw [hd] at h
  match hs : t.layout.strides, h with
  | sB :: sC :: ss, h => exact ⟨sB, sC, ss, rfl, by simpa using h⟩

theorem inRange_length' {os ms : List Nat} (h : InRange os ms) : os.length = ms.length := by
  induction os generalizing ms with
  | nil => cases ms with
    | nil => rfl
    | cons m ms => exact absurd h (by simp [InRange])
  | cons o os ih =>
    cases ms with
    | nil => exact absurd h (by simp [InRange])
    | cons m ms => simp [ih h.2]

theorem nearest_source (fl : ℚ → ℚ) (co ne : Nat) {ns ss ms os : List Nat} (P : Nat → Nat → Nat → Nat → Prop)
    (hP : ∀ n m o, 0 < n → n ∈ ns → o < m → P n m o (roundNearest fl ne n (transformCoord fl co n m o)))
    (hlt : ∀ n m o k, n ∈ ns → P n m o k → k < n)
    (hn : ∀ n ∈ ns, 0 < n) (h1 : ss.length = ns.length) (ho : InRange os ms) (h2 : ms.length = ns.length) :
    InRange ((resizeAxes fl co ns ss ms os).map fun a => roundNearest fl ne a.size a.coord) ns := by
  induction ns generalizing ss ms os with
  | nil =>
    have : ss = [] := List.eq_nil_of_length_eq_zero h1
    subst this; simp [resizeAxes, InRange]
  | cons n ns ih =>
    match ss, ms, os, h1, h2, ho with
    | s :: ss, m :: ms, o :: os, h1, h2, ho =>
      simp only [resizeAxes, List.map_cons]
      refine ⟨hlt n m o _ (by simp) (hP n m o (hn n (by simp)) (by simp) ho.1), ?_⟩
      exact ih (fun n m o h h' => hP n m o h (by simp [h'])) (fun n m o k h => hlt n m o k (by simp [h]))
        (fun n h => hn n (by simp [h])) (by simpa using h1) ho.2 (by simpa using h2)

theorem nearestSrc_axes (co : ResizeCoord) (ne : ResizeNearest) {ns ss ms os : List Nat} (hn : ∀ n ∈ ns, 0 < n)
    (h1 : ss.length = ns.length) (ho : InRange os ms) (h2 : ms.length = ns.length) :
    NearestSrc co ne ns ms os
      ((resizeAxes id co.code ns ss ms os).map fun a => roundNearest id ne.code a.size a.coord) := by
  induction ns generalizing ss ms os with
  | nil =>
    have : ms = [] := List.eq_nil_of_length_eq_zero h2
    subst this
    have : os = [] := List.eq_nil_of_length_eq_zero (inRange_length' ho)
    subst this
    simp [resizeAxes, NearestSrc]
  | cons n ns ih =>
    match ss, ms, os, h1, h2, ho with
    | s :: ss, m :: ms, o :: os, h1, h2, ho =>
      simp only [resizeAxes, List.map_cons, NearestSrc]
      refine ⟨?_, ih (fun n h => hn n (by simp [h])) (by simpa using h1) ho.2 (by simpa using h2)⟩
      rw [transformCoord_exact co n m o (hn n (by simp)) ho.1]
      exact roundNearest_spec ne (hn n (by simp)) _

theorem Spec.NearestSrc.inRange {co : ResizeCoord} {ne : ResizeNearest} {ns ms os ks : List Nat} (hn : ∀ n ∈ ns, 0 < n)
    (h : NearestSrc co ne ns ms os ks) : InRange ks ns := by
  induction ns generalizing ms os ks with
  | nil =>
    match ms, os, ks, h with
    | [], [], [], _ => simp [InRange]
  | cons n ns ih =>
    match ms, os, ks, h with
    | m :: ms, o :: os, k :: ks, h =>
      obtain ⟨⟨z, _, hz⟩, h⟩ := h
      exact ⟨by rw [hz]; exact clampTo_lt (hn n (by simp)) z, ih (fun n h => hn n (by simp [h])) h⟩

/-! ## Nearest neighbour -/

/-- Nearest-neighbour resizing copies the element at the documented position, for every layout.  Coordinates are computed
without rounding; `C93_rounding_false` shows that with rounding it can fail. -/
theorem C93_nearest_partial (R : ResizeArith A) (ld : α → A) (st : A → α) {t : Tensor α} {B C : Nat} {ns ms : List Nat}
    (co : ResizeCoord) (ne : ResizeNearest) (ht : t.WF) (hd : t.dims = B :: C :: ns)
    (hr : ns.length = 2 ∨ ns.length = 3) (hm : ms.length = ns.length) (hn : ∀ n ∈ ns, 0 < n) :
    ∃ r, t.resize R id ld st ms .nearest co ne = .ok r ∧ r.WF ∧ r.dims = B :: C :: ms ∧
      ∀ b c os, b < B → c < C → InRange os ms →
        ∃ ks, NearestSrc co ne ns ms os ks ∧ r.elem (b :: c :: os) = t.elem (b :: c :: ks) := by
  obtain ⟨sB, sC, ss, hs, hsl⟩ := strides_split ht hd
  let K : List Nat → List Nat := fun os =>
    (resizeAxes id co.code ns ss ms os).map fun a => roundNearest id ne.code a.size a.coord
  have hK : ∀ os, InRange os ms → NearestSrc co ne ns ms os (K os) := fun os ho => nearestSrc_axes co ne hn hsl ho hm
  have hKr : ∀ os, InRange os ms → InRange (K os) ns := fun os ho => (hK os ho).inRange hn
  obtain ⟨r, h1, h2, h3, h4⟩ := resize_cells R id ld st (mo := .nearest) (co := co) (ne := ne) ht hd hr hm
    (fun b c os v => t.elem (b :: c :: K os) = some v) (by
      intro b c os hb hc ho
      obtain ⟨v, hv, hv'⟩ := read_source ht hd hs hb hc (hKr os ho)
      refine ⟨v, ?_, hv⟩
      rw [resizeCell_parts R id ld st _ _ _ hd hs hb hc ho]
      have e1 : ResizeMode.nearest.code = 0 := rfl
      simp only [e1]
      rw [if_neg (by omega), if_neg (by omega), nearestAt_dot,
        (resizeAxes_size id co.code hsl hm ((inRange_length' ho).trans hm)).2]
      exact hv')
  refine ⟨r, h1, h2, h3, fun b c os hb hc ho => ⟨K os, hK os ho, ?_⟩⟩
  obtain ⟨v, hv, hv'⟩ := h4 b c os hb hc ho
  rw [hv, hv']

/-! ## Interpolation -/

theorem resizeAxes_mem {fl : ℚ → ℚ} {co : Nat} {ns ss ms os : List Nat} (hn : ∀ n ∈ ns, 0 < n) :
    ∀ a ∈ resizeAxes fl co ns ss ms os, 0 < a.size := by
  induction ns generalizing ss ms os with
  | nil => intro a ha; simp [resizeAxes] at ha
  | cons n ns ih =>
    match ss, ms, os with
    | s :: ss, m :: ms, o :: os =>
      intro a ha
      simp only [resizeAxes, List.mem_cons] at ha
      rcases ha with rfl | ha
      · exact hn n (by simp)
      · exact ih (fun n h => hn n (by simp [h])) a ha
    | [], _, _ => intro a ha; simp [resizeAxes] at ha
    | _ :: _, [], _ => intro a ha; simp [resizeAxes] at ha
    | _ :: _, _ :: _, [] => intro a ha; simp [resizeAxes] at ha

/-- The computed value is an interpolation axis by axis. -/
theorem interpV_spec (P : (Int → ℝ) → ℚ → ℝ → Prop) (comb : ℚ → List ℝ → ℝ) (offs : List Int)
    (hc : ∀ (g : Int → ℝ) (c : ℚ), P g c (comb (c - ⌊c⌋) (offs.map fun j => g (⌊c⌋ + j))))
    (co : ResizeCoord) {ns ss ms os : List Nat} (hn : ∀ n ∈ ns, 0 < n) (h1 : ss.length = ns.length) (ho : InRange os ms)
    (h2 : ms.length = ns.length) (X : List Nat → ℝ) :
    Interp P (srcCoords co ns ms os) (fun ks => X (clampAll ns ks))
      (interpV id comb offs (resizeAxes id co.code ns ss ms os) X) := by
  induction ns generalizing ss ms os X with
  | nil =>
    have : ms = [] := List.eq_nil_of_length_eq_zero h2
    subst this
    have : os = [] := List.eq_nil_of_length_eq_zero (inRange_length' ho)
    subst this
    simp [resizeAxes, interpV, srcCoords, Interp, clampAll]
  | cons n ns ih =>
    match ss, ms, os, h1, h2, ho with
    | s :: ss, m :: ms, o :: os, h1, h2, ho =>
      simp only [resizeAxes, interpV, srcCoords, Interp]
      rw [transformCoord_exact co n m o (hn n (by simp)) ho.1]
      refine ⟨fun a => interpV id comb offs (resizeAxes id co.code ns ss ms os) fun ks => X (clampTo n a :: ks),
        fun a => ?_, hc _ _⟩
      have := ih (fun n h => hn n (by simp [h])) (ss := ss) (by simpa using h1) ho.2 (by simpa using h2)
        (fun ks => X (clampTo n a :: ks))
      simpa [clampAll] using this

theorem lerp_spec (g : Int → ℝ) (c : ℚ) :
    OnLine g c (realArith.lerp id (c - ⌊c⌋) ([0, 1].map fun j => g (⌊c⌋ + j))) := by
  refine ⟨⌊c⌋, Int.floor_le c, (Int.lt_floor_add_one c).le, ?_⟩
  simp only [List.map_cons, List.map_nil, ResizeArith.lerp, realArith, id, add_zero]
  push_cast
  ring

theorem cubic_spec (g : Int → ℝ) (c : ℚ) :
    OnSpline g c (realArith.cubic (c - ⌊c⌋) ([-1, 0, 1, 2].map fun j => g (⌊c⌋ + j))) := by
  refine ⟨⌊c⌋, Int.floor_le c, (Int.lt_floor_add_one c).le, g ⌊c⌋, (g (⌊c⌋ + 1) - g (⌊c⌋ - 1)) / 2,
    g (⌊c⌋ - 1) - 5 / 2 * g ⌊c⌋ + 2 * g (⌊c⌋ + 1) - 1 / 2 * g (⌊c⌋ + 2),
    -1 / 2 * g (⌊c⌋ - 1) + 3 / 2 * g ⌊c⌋ - 3 / 2 * g (⌊c⌋ + 1) + 1 / 2 * g (⌊c⌋ + 2), rfl, by ring, rfl, by ring, ?_⟩
  simp only [List.map_cons, List.map_nil, ResizeArith.cubic, realArith, add_zero, ← sub_eq_add_neg]
  push_cast
  ring

/-- Both interpolations, for values computed over the reals (elements are converted by `ld` and back by `st`). -/
theorem resize_interp (ld : α → ℝ) (st : ℝ → α) {t : Tensor α} {B C : Nat} {ns ms : List Nat} {mo : ResizeMode}
    (co : ResizeCoord) (ne : ResizeNearest) (ht : t.WF) (hd : t.dims = B :: C :: ns)
    (hr : ns.length = 2 ∨ ns.length = 3) (hm : ms.length = ns.length) (hn : ∀ n ∈ ns, 0 < n)
    (P : (Int → ℝ) → ℚ → ℝ → Prop) (comb : ℚ → List ℝ → ℝ) (offs : List Int)
    (hc : ∀ (g : Int → ℝ) (c : ℚ), P g c (comb (c - ⌊c⌋) (offs.map fun j => g (⌊c⌋ + j))))
    (hmo : ∀ axes base, (if mo.code = 1 ∧ (ns.length = 2 ∨ ns.length = 3) then
        (interpAt id ld (realArith.lerp id) [0, 1] t.storage axes base).map st
      else if mo.code = 2 ∧ ns.length = 2 then
        (interpAt id ld realArith.cubic [-1, 0, 1, 2] t.storage axes base).map st
      else readC t.storage (nearestAt id ne.code axes base)) = (interpAt id ld comb offs t.storage axes base).map st)
    (G : List Nat → α) (hG : ∀ idx, InRange idx t.dims → t.elem idx = some (G idx)) :
    ∃ r, t.resize realArith id ld st ms mo co ne = .ok r ∧ r.WF ∧ r.dims = B :: C :: ms ∧
      ∀ b c os, b < B → c < C → InRange os ms → ∃ v, r.elem (b :: c :: os) = some (st v) ∧
        Interp P (srcCoords co ns ms os) (fun ks => ld (G (b :: c :: clampAll ns ks))) v := by
  obtain ⟨sB, sC, ss, hs, hsl⟩ := strides_split ht hd
  obtain ⟨r, h1, h2, h3, h4⟩ := resize_cells realArith id ld st (mo := mo) (co := co) (ne := ne) ht hd hr hm
    (fun b c os w => ∃ v, w = st v ∧ Interp P (srcCoords co ns ms os) (fun ks => ld (G (b :: c :: clampAll ns ks))) v) (by
      intro b c os hb hc' ho
      have hsz := resizeAxes_size id co.code hsl hm ((inRange_length' ho).trans hm)
      have hat := interpAt_ok id ld comb offs t.storage (resizeAxes id co.code ns ss ms os)
        (t.layout.offset + b * sB + c * sC) (fun ks => G (b :: c :: ks)) (resizeAxes_mem hn) (by
          intro ks hk
          rw [hsz.1] at hk
          rw [hsz.2]
          obtain ⟨v, hv, hv'⟩ := read_source ht hd hs hb hc' hk
          rw [hG _ (by rw [hd]; exact ⟨hb, hc', hk⟩)] at hv
          injection hv with hv
          rw [hv']; simp only [hv])
      refine ⟨_, ?_, _, rfl, interpV_spec P comb offs hc co hn hsl ho hm (fun ks => ld (G (b :: c :: ks)))⟩
      rw [resizeCell_parts realArith id ld st _ _ _ hd hs hb hc' ho]
      simp only
      rw [hmo, hat]
      rfl)
  refine ⟨r, h1, h2, h3, fun b c os hb hc' ho => ?_⟩
  obtain ⟨w, hw, v, rfl, hv⟩ := h4 b c os hb hc' ho
  exact ⟨v, hw, hv⟩

/-- Linear resizing in two and in three dimensions is the interpolation on lines, axis by axis, for every layout. -/
theorem C93_linear_partial (ld : α → ℝ) (st : ℝ → α) {t : Tensor α} {B C : Nat} {ns ms : List Nat}
    (co : ResizeCoord) (ne : ResizeNearest) (ht : t.WF) (hd : t.dims = B :: C :: ns)
    (hr : ns.length = 2 ∨ ns.length = 3) (hm : ms.length = ns.length) (hn : ∀ n ∈ ns, 0 < n)
    (G : List Nat → α) (hG : ∀ idx, InRange idx t.dims → t.elem idx = some (G idx)) :
    ∃ r, t.resize realArith id ld st ms .linear co ne = .ok r ∧ r.WF ∧ r.dims = B :: C :: ms ∧
      ∀ b c os, b < B → c < C → InRange os ms → ∃ v, r.elem (b :: c :: os) = some (st v) ∧
        Interp OnLine (srcCoords co ns ms os) (fun ks => ld (G (b :: c :: clampAll ns ks))) v :=
  resize_interp ld st co ne ht hd hr hm hn OnLine (realArith.lerp id) [0, 1] lerp_spec
    (fun _ _ => if_pos ⟨rfl, hr⟩) G hG

/-- Cubic resizing of images (two spatial dimensions) is the interpolation on splines, axis by axis, for every layout. -/
theorem C93_cubic_partial (ld : α → ℝ) (st : ℝ → α) {t : Tensor α} {B C H W : Nat} {ms : List Nat}
    (co : ResizeCoord) (ne : ResizeNearest) (ht : t.WF) (hd : t.dims = [B, C, H, W]) (hm : ms.length = 2)
    (hH : 0 < H) (hW : 0 < W) (G : List Nat → α) (hG : ∀ idx, InRange idx t.dims → t.elem idx = some (G idx)) :
    ∃ r, t.resize realArith id ld st ms .cubic co ne = .ok r ∧ r.WF ∧ r.dims = B :: C :: ms ∧
      ∀ b c os, b < B → c < C → InRange os ms → ∃ v, r.elem (b :: c :: os) = some (st v) ∧
        Interp OnSpline (srcCoords co [H, W] ms os) (fun ks => ld (G (b :: c :: clampAll [H, W] ks))) v := by
  refine resize_interp ld st co ne ht hd (Or.inl rfl) hm (by simp [hH, hW]) OnSpline realArith.cubic [-1, 0, 1, 2]
    cubic_spec (fun _ _ => ?_) G hG
  rw [if_neg (by simp [ResizeMode.code]), if_pos ⟨rfl, rfl⟩]

/-! ## The interpolations -/

/-- The specification determines the value. -/
theorem C93_unique {P : (Int → ℝ) → ℚ → ℝ → Prop} (hP : P = OnLine ∨ P = OnSpline) {cs : List ℚ} {X : List Int → ℝ}
    {v w : ℝ} (hv : Interp P cs X v) (hw : Interp P cs X w) : v = w := by
  have one : ∀ (g : Int → ℝ) (c : ℚ) (v w : ℝ), P g c v → P g c w → v = w := by
    intro g c v w hv hw
    rcases hP with rfl | rfl
    · obtain ⟨k, h1, h2, rfl⟩ := hv
      obtain ⟨l, h3, h4, rfl⟩ := hw
      have hkl : (k : ℚ) ≤ l + 1 := h1.trans h4
      have hlk : (l : ℚ) ≤ k + 1 := h3.trans h2
      have hkl' : k ≤ l + 1 := by exact_mod_cast hkl
      have hlk' : l ≤ k + 1 := by exact_mod_cast hlk
      rcases (by omega : l = k ∨ l = k + 1 ∨ k = l + 1) with rfl | rfl | rfl
      · rfl
      · have hc : c = ((k + 1 : Int) : ℚ) := by push_cast at h3 ⊢; linarith
        rw [hc]; push_cast; ring
      · have hc : c = ((l + 1 : Int) : ℚ) := by push_cast at h1 ⊢; linarith
        rw [hc]; push_cast; ring
    · obtain ⟨k, h1, h2, a0, a1, a2, a3, e1, e2, e3, e4, rfl⟩ := hv
      obtain ⟨l, h3, h4, b0, b1, b2, b3, f1, f2, f3, f4, rfl⟩ := hw
      have hkl : (k : ℚ) ≤ l + 1 := h1.trans h4
      have hlk : (l : ℚ) ≤ k + 1 := h3.trans h2
      have hkl' : k ≤ l + 1 := by exact_mod_cast hkl
      have hlk' : l ≤ k + 1 := by exact_mod_cast hlk
      rcases (by omega : l = k ∨ l = k + 1 ∨ k = l + 1) with rfl | rfl | rfl
      · have i0 : a0 = b0 := by rw [e1, f1]
        have i1 : a1 = b1 := by rw [e3, f3]
        have i3 : a3 = b3 := by linarith
        have i2 : a2 = b2 := by linarith
        rw [i0, i1, i2, i3]
      · have hc : c = ((k + 1 : Int) : ℚ) := by push_cast at h3 ⊢; linarith
        rw [hc, f1]
        push_cast
        rw [show (k : ℝ) + 1 - k = 1 by ring, show (k : ℝ) + 1 - (k + 1) = 0 by ring]
        linarith
      · have hc : c = ((l + 1 : Int) : ℚ) := by push_cast at h1 ⊢; linarith
        rw [hc, e1]
        push_cast
        rw [show (l : ℝ) + 1 - l = 1 by ring, show (l : ℝ) + 1 - (l + 1) = 0 by ring]
        linarith
  induction cs generalizing X v w with
  | nil => rw [show v = X [] from hv, show w = X [] from hw]
  | cons c cs ih =>
    obtain ⟨g, hg, hv⟩ := hv
    obtain ⟨h, hh, hw⟩ := hw
    have : g = h := funext fun a => ih (hg a) (hh a)
    subst this
    exact one g c v w hv hw

/-- Linear interpolation stays within the range of the input. -/
theorem C93_linear_range {cs : List ℚ} {X : List Int → ℝ} {v lo hi : ℝ} (hv : Interp OnLine cs X v)
    (hX : ∀ ks, ks.length = cs.length → lo ≤ X ks ∧ X ks ≤ hi) : lo ≤ v ∧ v ≤ hi := by
  induction cs generalizing X v with
  | nil => rw [show v = X [] from hv]; exact hX [] rfl
  | cons c cs ih =>
    obtain ⟨g, hg, k, h1, h2, rfl⟩ := hv
    have hb : ∀ a, lo ≤ g a ∧ g a ≤ hi := fun a => ih (hg a) fun ks hk => hX (a :: ks) (by simp [hk])
    have h1' : (0 : ℝ) ≤ (c : ℝ) - k := by
      have : ((k : ℚ) : ℝ) ≤ (c : ℝ) := by exact_mod_cast h1
      push_cast at this; linarith
    have h2' : (c : ℝ) - k ≤ 1 := by
      have : (c : ℝ) ≤ ((k + 1 : ℚ) : ℝ) := by exact_mod_cast h2
      push_cast at this; linarith
    obtain ⟨p1, p2⟩ := hb k
    obtain ⟨q1, q2⟩ := hb (k + 1)
    have e : g k + ((c : ℝ) - k) * (g (k + 1) - g k) = (1 - ((c : ℝ) - k)) * g k + ((c : ℝ) - k) * g (k + 1) := by ring
    rw [e]
    constructor <;> nlinarith

/-- Cubic interpolation reproduces linear functions on every stretch of four neighbours; in particular constants. -/
theorem C93_cubic_linear {g : Int → ℝ} {c : ℚ} {v a s : ℝ} (hv : OnSpline g c v)
    (hg : ∀ k : Int, (k : ℚ) - 2 ≤ c → c ≤ (k : ℚ) + 2 → g k = a + s * k) : v = a + s * c := by
  obtain ⟨k, h1, h2, c0, c1, c2, c3, e1, e2, e3, e4, rfl⟩ := hv
  have g0 := hg k (by linarith) (by linarith)
  have g1 := hg (k + 1) (by push_cast; linarith) (by push_cast; linarith)
  have gm := hg (k - 1) (by push_cast; linarith) (by push_cast; linarith)
  have g2 := hg (k + 2) (by push_cast; linarith) (by push_cast; linarith)
  rw [g0] at e1 e4
  rw [g1] at e2 e3
  rw [gm] at e3
  rw [g2] at e4
  push_cast at e1 e2 e3 e4
  have i1 : c1 = s := by linarith
  have i3 : c3 = 0 := by linarith
  have i2 : c2 = 0 := by linarith
  rw [i1, i2, i3, e1]; ring

/-! ## Any rounding -/

theorem Res.map_ok_exists {x : Res A} {f : A → α} (h : ∃ a, x = .ok a) : ∃ b, x.map f = .ok b := by
  obtain ⟨a, rfl⟩ := h; exact ⟨f a, rfl⟩

/-- Whatever the arithmetic does, no access leaves the input and the shape is the documented one, if the input is not empty
in a spatial dimension and these are small enough for a `float`. -/
theorem C93_safe (R : ResizeArith A) {fl : ℚ → ℚ} (hfl : ∀ k : Nat, k < 2 ^ 24 → fl k = k) (ld : α → A) (st : A → α)
    {t : Tensor α} {B C : Nat} {ns ms : List Nat} (mo : ResizeMode) (co : ResizeCoord) (ne : ResizeNearest) (ht : t.WF)
    (hd : t.dims = B :: C :: ns) (hr : ns.length = 2 ∨ ns.length = 3) (hm : ms.length = ns.length)
    (hn : ∀ n ∈ ns, 0 < n ∧ n ≤ 2 ^ 24) :
    ∃ r, t.resize R fl ld st ms mo co ne = .ok r ∧ r.WF ∧ r.dims = B :: C :: ms := by
  obtain ⟨sB, sC, ss, hs, hsl⟩ := strides_split ht hd
  have hn0 : ∀ n ∈ ns, 0 < n := fun n h => (hn n h).1
  obtain ⟨r, h1, h2, h3, _⟩ := resize_cells R fl ld st (mo := mo) (co := co) (ne := ne) ht hd hr hm
    (fun _ _ _ _ => True) (by
      intro b c os hb hc ho
      have hsz := resizeAxes_size fl co.code hsl hm ((inRange_length' ho).trans hm)
      have hint : ∀ (comb : ℚ → List A → A) (offs : List Int), ∃ a, interpAt fl ld comb offs t.storage
          (resizeAxes fl co.code ns ss ms os) (t.layout.offset + b * sB + c * sC) = .ok a := by
        intro comb offs
        obtain ⟨v0, _, _⟩ := read_source (ks := ns.map fun _ => 0) ht hd hs hb hc (by
          clear hd hr hm hsl hn hsz
          induction ns with
          | nil => simp [InRange]
          | cons n ns ih => exact ⟨hn0 n (by simp), ih fun n h => hn0 n (by simp [h])⟩)
        refine ⟨_, interpAt_ok fl ld comb offs t.storage _ _ (fun ks => (t.elem (b :: c :: ks)).getD v0)
          (resizeAxes_mem hn0) ?_⟩
        intro ks hk
        rw [hsz.1] at hk
        rw [hsz.2]
        obtain ⟨v, hv, hv'⟩ := read_source ht hd hs hb hc hk
        rw [hv', hv]; rfl
      have hex : ∃ v, resizeCell R fl ld st t.storage t.dims t.layout.strides (B :: C :: ms) t.layout.offset mo.code co.code
          ne.code (rowMajor (B :: C :: ms) (b :: c :: os)) = .ok v := by
        rw [resizeCell_parts R fl ld st _ _ _ hd hs hb hc ho]
        simp only
        split
        · exact Res.map_ok_exists (hint _ _)
        · split
          · exact Res.map_ok_exists (hint _ _)
          · have hk : InRange ((resizeAxes fl co.code ns ss ms os).map fun a => roundNearest fl ne.code a.size a.coord) ns :=
              nearest_source fl co.code ne.code (fun n _ _ k => k < n)
                (fun n m o h h' _ => roundNearest_lt fl hfl ne.code h (hn n h').2 _) (fun _ _ _ _ _ h => h) hn0 hsl ho hm
            obtain ⟨v, _, hv⟩ := read_source ht hd hs hb hc hk
            refine ⟨v, ?_⟩
            rw [nearestAt_dot, hsz.2]
            exact hv
      obtain ⟨v, hv⟩ := hex
      exact ⟨v, hv, trivial⟩)
  exact ⟨r, h1, h2, h3⟩

theorem roundBy_nat (fl : ℚ → ℚ) (code o : Nat) : roundBy fl code o = o := by
  have h1 : ⌊(o : ℚ)⌋ = o := by simp
  have h2 : ⌈(o : ℚ)⌉ = o := by simp
  have h3 : roundHalfAway o = o := by
    unfold roundHalfAway
    rw [if_pos (by positivity), Int.floor_eq_iff]
    push_cast
    constructor <;> linarith
  unfold roundBy
  rw [h1, h2, h3]
  simp

theorem roundNearest_nat (fl : ℚ → ℚ) (hfl : ∀ k : Nat, k < 2 ^ 24 → fl k = k) (code : Nat) {n o : Nat} (ho : o < n)
    (hs : n ≤ 2 ^ 24) : roundNearest fl code n o = o := by
  unfold roundNearest
  rw [roundBy_nat, if_neg (by omega), hfl (n - 1) (by omega), if_neg]
  · simp
  · rintro ⟨_, h⟩
    have : ((n - 1 : Nat) : ℚ) < (o : ℚ) := by simpa using h
    have : n - 1 < o := by exact_mod_cast this
    omega

theorem resizeAxes_same (fl : ℚ → ℚ) (hfl : ∀ k : Nat, k < 2 ^ 24 → fl k = k) (co : Nat) {ns ss os : List Nat}
    (hn : ∀ n ∈ ns, 0 < n ∧ n ≤ 2 ^ 24) (h1 : ss.length = ns.length) (ho : InRange os ns) :
    (resizeAxes fl co ns ss ns os).map (·.coord) = os.map fun (o : Nat) => (o : ℚ) := by
  induction ns generalizing ss os with
  | nil =>
    have : os = [] := List.eq_nil_of_length_eq_zero (inRange_length' ho)
    subst this
    have : ss = [] := List.eq_nil_of_length_eq_zero h1
    subst this; rfl
  | cons n ns ih =>
    match ss, os, h1, ho with
    | s :: ss, o :: os, h1, ho =>
      simp only [resizeAxes, List.map_cons]
      rw [ih (fun n h => hn n (by simp [h])) (by simpa using h1) ho.2]
      have hon : o < 2 ^ 24 := lt_of_lt_of_le ho.1 (hn n (by simp)).2
      simp [transformCoord, hfl o hon]

/-- Resizing to the same size, with any rounding that is exact on small numbers: nearest-neighbour resizing is the identity. -/
theorem C93_same_nearest (R : ResizeArith A) {fl : ℚ → ℚ} (hfl : ∀ k : Nat, k < 2 ^ 24 → fl k = k) (ld : α → A) (st : A → α)
    {t : Tensor α} {B C : Nat} {ns : List Nat} (co : ResizeCoord) (ne : ResizeNearest) (ht : t.WF)
    (hd : t.dims = B :: C :: ns) (hr : ns.length = 2 ∨ ns.length = 3) (hn : ∀ n ∈ ns, 0 < n ∧ n ≤ 2 ^ 24) :
    ∃ r, t.resize R fl ld st ns .nearest co ne = .ok r ∧ r.WF ∧ r.dims = t.dims ∧
      ∀ idx, InRange idx t.dims → r.elem idx = t.elem idx := by
  obtain ⟨sB, sC, ss, hs, hsl⟩ := strides_split ht hd
  obtain ⟨r, h1, h2, h3, h4⟩ := resize_cells R fl ld st (mo := .nearest) (co := co) (ne := ne) ht hd hr rfl
    (fun b c os v => t.elem (b :: c :: os) = some v) (by
      intro b c os hb hc ho
      obtain ⟨v, hv, hv'⟩ := read_source ht hd hs hb hc ho
      refine ⟨v, ?_, hv⟩
      rw [resizeCell_parts R fl ld st _ _ _ hd hs hb hc ho]
      have e1 : ResizeMode.nearest.code = 0 := rfl
      simp only [e1]
      have hsz := resizeAxes_size fl co.code hsl (ms := ns) rfl (inRange_length' ho)
      rw [if_neg (by omega), if_neg (by omega), nearestAt_dot, hsz.2]
      have : (resizeAxes fl co.code ns ss ns os).map (fun a => roundNearest fl ne.code a.size a.coord) = os := by
        clear hv hv' hs hd hr hb hc hsz
        induction ns generalizing ss os with
        | nil =>
          have : os = [] := List.eq_nil_of_length_eq_zero (inRange_length' ho)
          subst this
          simp [resizeAxes]
        | cons n ns ih =>
          match ss, os, hsl, ho with
          | s :: ss, o :: os, hsl, ho =>
            simp only [resizeAxes, List.map_cons]
            have hon : o < 2 ^ 24 := lt_of_lt_of_le ho.1 (hn n (by simp)).2
            rw [ih (fun n h => hn n (by simp [h])) _ (by simpa using hsl) _ ho.2]
            simp only [transformCoord, if_true, hfl o hon]
            rw [roundNearest_nat fl hfl ne.code ho.1 (hn n (by simp)).2]
      rw [this]
      exact hv')
  refine ⟨r, h1, h2, by rw [h3, hd], ?_⟩
  intro idx hi
  rw [hd] at hi
  match idx, hi with
  | b :: c :: os, hi =>
    obtain ⟨v, hv, hv'⟩ := h4 b c os hi.1 hi.2.1 hi.2.2
    rw [hv, hv']

/-- Resizing to the same size with linear interpolation only converts the elements to `float` and back. -/
theorem C93_same_linear {fl : ℚ → ℚ} (hfl : ∀ k : Nat, k < 2 ^ 24 → fl k = k) (ld : α → ℝ) (st : ℝ → α)
    {t : Tensor α} {B C : Nat} {ns : List Nat} (co : ResizeCoord) (ne : ResizeNearest) (ht : t.WF)
    (hd : t.dims = B :: C :: ns) (hr : ns.length = 2 ∨ ns.length = 3) (hn : ∀ n ∈ ns, 0 < n ∧ n ≤ 2 ^ 24) :
    ∃ r, t.resize realArith fl ld st ns .linear co ne = .ok r ∧ r.WF ∧ r.dims = t.dims ∧
      ∀ idx v, InRange idx t.dims → t.elem idx = some v → r.elem idx = some (st (ld v)) := by
  obtain ⟨sB, sC, ss, hs, hsl⟩ := strides_split ht hd
  have hn0 : ∀ n ∈ ns, 0 < n := fun n h => (hn n h).1
  have key : ∀ (ns ss os : List Nat) (X : List Nat → ℝ), (∀ n ∈ ns, 0 < n ∧ n ≤ 2 ^ 24) → ss.length = ns.length →
      InRange os ns → interpV fl (realArith.lerp fl) [0, 1] (resizeAxes fl co.code ns ss ns os) X = X os := by
    intro ns
    induction ns with
    | nil =>
      intro ss os X _ _ ho
      have : os = [] := List.eq_nil_of_length_eq_zero (inRange_length' ho)
      subst this
      simp [resizeAxes, interpV]
    | cons n ns ih =>
      intro ss os X hn hsl ho
      match ss, os, hsl, ho with
      | s :: ss, o :: os, hsl, ho =>
        have hon : o < 2 ^ 24 := lt_of_lt_of_le ho.1 (hn n (by simp)).2
        simp only [resizeAxes, interpV, transformCoord, if_true, hfl o hon, List.map_cons, List.map_nil]
        rw [ih _ _ _ (fun n h => hn n (by simp [h])) (by simpa using hsl) ho.2,
          ih _ _ _ (fun n h => hn n (by simp [h])) (by simpa using hsl) ho.2]
        have h0 : fl 0 = 0 := by simpa using hfl 0 (by norm_num)
        have h1 : fl 1 = 1 := by simpa using hfl 1 (by norm_num)
        have hf : ⌊(o : ℚ)⌋ = o := by simp
        rw [hf]
        have e : (o : ℚ) - ((o : Int) : ℚ) = 0 := by push_cast; ring
        rw [e, h0]
        simp only [ResizeArith.lerp, realArith, sub_zero, h1, add_zero]
        rw [clampTo_self ho.1]
        push_cast
        ring
  obtain ⟨r, h1, h2, h3, h4⟩ := resize_cells realArith fl ld st (mo := .linear) (co := co) (ne := ne) ht hd hr rfl
    (fun b c os w => ∀ v, t.elem (b :: c :: os) = some v → w = st (ld v)) (by
      intro b c os hb hc ho
      have hsz := resizeAxes_size fl co.code hsl (ms := ns) rfl (inRange_length' ho)
      obtain ⟨v0, hv0, _⟩ := read_source ht hd hs hb hc ho
      have hat := interpAt_ok fl ld (realArith.lerp fl) [0, 1] t.storage (resizeAxes fl co.code ns ss ns os)
        (t.layout.offset + b * sB + c * sC) (fun ks => (t.elem (b :: c :: ks)).getD v0) (resizeAxes_mem hn0) (by
          intro ks hk
          rw [hsz.1] at hk
          rw [hsz.2]
          obtain ⟨v, hv, hv'⟩ := read_source ht hd hs hb hc hk
          rw [hv', hv]; rfl)
      refine ⟨st (ld v0), ?_, fun v hv => ?_⟩
      · rw [resizeCell_parts realArith fl ld st _ _ _ hd hs hb hc ho]
        simp only
        rw [if_pos ⟨rfl, hr⟩, hat, key ns ss os _ hn hsl ho]
        simp only [hv0]
        rfl
      · rw [hv0] at hv
        injection hv with hv
        rw [hv])
  refine ⟨r, h1, h2, by rw [h3, hd], ?_⟩
  intro idx v hi hv
  rw [hd] at hi
  match idx, hi with
  | b :: c :: os, hi =>
    obtain ⟨w, hw, hw'⟩ := h4 b c os hi.1 hi.2.1 hi.2.2
    rw [hw, hw' v hv]

/-! ## Errors and refutations -/

/-- Other ranks and other numbers of sizes are errors. -/
theorem C93_errors (R : ResizeArith A) (fl : ℚ → ℚ) (ld : α → A) (st : A → α) (t : Tensor α) (ms : List Nat)
    (mo : ResizeMode) (co : ResizeCoord) (ne : ResizeNearest)
    (h : t.dims.length < 4 ∨ 5 < t.dims.length ∨ ms.length + 2 ≠ t.dims.length) :
    t.resize R fl ld st ms mo co ne = .err := by
  unfold Tensor.resize
  by_cases h4 : t.dims.length ≠ 4 ∧ t.dims.length ≠ 5
  · rw [if_pos h4]
  · rw [if_neg h4, if_pos (by omega)]

/-- Cubic resizing of volumes (three spatial dimensions) is nearest-neighbour resizing instead. -/
theorem C93_cubic_volume (R : ResizeArith A) (fl : ℚ → ℚ) (ld : α → A) (st : A → α) {t : Tensor α} {B C : Nat}
    {ns ms : List Nat} (co : ResizeCoord) (ne : ResizeNearest) (ht : t.WF) (hd : t.dims = B :: C :: ns)
    (hr : ns.length = 3) (hm : ms.length = 3) :
    t.resize R fl ld st ms .cubic co ne = t.resize R fl ld st ms .nearest co ne := by
  unfold Tensor.resize
  have hlen : (B :: C :: ms).length = t.layout.dims.length := by
    show _ = t.dims.length
    rw [hd]; simp [hm, hr]
  rw [hd, if_neg (by simp; omega), if_neg (by simp; omega), if_neg (by simp; omega), if_neg (by simp; omega)]
  simp only [List.getD_cons_zero, List.getD_cons_succ]
  rw [C55_resize R fl ld st t.storage ht.1 hlen, C55_resize R fl ld st t.storage ht.1 hlen]
  have : (resizeCell R fl ld st t.storage t.layout.dims t.layout.strides (B :: C :: ms) t.layout.offset ResizeMode.cubic.code
      co.code ne.code) = (resizeCell R fl ld st t.storage t.layout.dims t.layout.strides (B :: C :: ms) t.layout.offset
      ResizeMode.nearest.code co.code ne.code) := by
    funext k
    have hl : t.layout.dims.length = 5 := by rw [← hlen]; simp [hm]
    unfold resizeCell
    simp only [hl, ResizeMode.code]
    rw [if_neg (by omega), if_neg (by omega), if_neg (by omega), if_neg (by omega)]
  rw [this]

/-- Rounding to `float`, by the definition of the format (`Flt.f32`). -/
def fl32 (x : ℚ) : ℚ :=
  let m : ℚ := Flt.mag Flt.f32 (Flt.enc Flt.f32 (x.num.natAbs * 2 ^ 1074) x.den) / 2 ^ 1074
  if x < 0 then -m else m

/-- `float` represents the natural numbers below `2 ^ 24`. -/
theorem fl32_nat (k : Nat) (h : k < 2 ^ 24) : fl32 k = k := by
  unfold fl32
  have e1 : (k : ℚ).num.natAbs = k := by simp
  have e2 : (k : ℚ).den = 1 := by simp
  simp only [e1, e2]
  have := Flt.mag_enc_exact Flt.f32 (s := k) (j := 149) h
  rw [show Flt.f32.unit + 149 = 1074 from rfl] at this
  rw [this, if_neg (by simp)]
  rw [Nat.cast_mul, Nat.cast_pow, Nat.cast_ofNat]
  exact mul_div_cancel_right₀ _ (by positivity)

/-- With the rounding of `float`, nearest-neighbour resizing from 2 to 82 pixels copies the wrong pixel: position 41 is
exactly at coordinate 1, but pixel 0 is copied. -/
theorem C93_rounding_false :
    srcCoord .asymmetric 2 82 41 = 1 ∧ IsNearest .floor (srcCoord .asymmetric 2 82 41) 1 ∧
      roundNearest fl32 ResizeNearest.floor.code 2 (transformCoord fl32 ResizeCoord.asymmetric.code 2 82 41) = 0 := by
  have h : srcCoord .asymmetric 2 82 41 = 1 := by norm_num [srcCoord]
  refine ⟨h, ?_, ?_⟩
  · rw [h]; norm_num [IsNearest]
  · decide +kernel

/-- The same on tensors. -/
theorem C93_rounding_tensor :
    ∃ t : Tensor ℚ, t.WF ∧ t.dims = [1, 1, 1, 2] ∧
      (match t.resize ⟨(· + ·), (· - ·), (· * ·), id⟩ fl32 id id [1, 82] .nearest .asymmetric .floor with
        | .ok r => r.elem [0, 0, 0, 41]
        | _ => none) = t.elem [0, 0, 0, 0] ∧
      (match t.resize ⟨(· + ·), (· - ·), (· * ·), id⟩ id id id [1, 82] .nearest .asymmetric .floor with
        | .ok r => r.elem [0, 0, 0, 41]
        | _ => none) = t.elem [0, 0, 0, 1] ∧ t.elem [0, 0, 0, 0] ≠ t.elem [0, 0, 0, 1] :=
  ⟨⟨[5, 7], Layout.fromShape [1, 1, 1, 2]⟩, fresh_wf (by decide), rfl, by decide +kernel⟩

/-- An input without pixels is read anyway. -/
theorem C93_empty :
    ∃ t : Tensor ℚ, t.WF ∧ t.dims = [1, 1, 0, 2] ∧
      t.resize ⟨(· + ·), (· - ·), (· * ·), id⟩ id id id [2, 2] .nearest .asymmetric .floor = .ub :=
  ⟨⟨[], Layout.fromShape [1, 1, 0, 2]⟩, fresh_wf (by decide), rfl, by decide +kernel⟩

/-- Elements of type `f64` are rounded to `float` by linear resizing, even if the size does not change. -/
theorem C93_f64 :
    ∃ t : Tensor ℚ, t.WF ∧ t.dims = [1, 1, 1, 1] ∧ t.elem [0, 0, 0, 0] = some 16777217 ∧
      (match t.resize ⟨(· + ·), (· - ·), (· * ·), id⟩ fl32 fl32 id [1, 1] .linear .halfPixel .floor with
        | .ok r => r.elem [0, 0, 0, 0]
        | _ => none) = some 16777216 :=
  ⟨⟨[16777217], Layout.fromShape [1, 1, 1, 1]⟩, fresh_wf (by decide), rfl, by decide +kernel⟩

/-- `float` arithmetic with infinities. -/
def extArith : ResizeArith XQ := ⟨XQ.add, fun a b => XQ.add a (XQ.neg b), XQ.mul, XQ.fin⟩

/-- Linear resizing to the same size turns the neighbour of an infinity into NaN. -/
theorem C93_infinity :
    ∃ t : Tensor XQ, t.WF ∧ t.dims = [1, 1, 1, 2] ∧ t.elem [0, 0, 0, 0] = some (.fin 3) ∧
      (match t.resize extArith id id id [1, 2] .linear .halfPixel .floor with
        | .ok r => r.elem [0, 0, 0, 0]
        | _ => none) = some .nan :=
  ⟨⟨[.fin 3, .inf false], Layout.fromShape [1, 1, 1, 2]⟩, fresh_wf (by decide), rfl, by decide +kernel⟩

/-- The property for cubic resizing of every accepted rank. -/
def CubicResizes : Prop :=
  ∀ (t : Tensor ℝ) (B C : Nat) (ns ms : List Nat) (co : ResizeCoord) (ne : ResizeNearest) (G : List Nat → ℝ),
    t.WF → t.dims = B :: C :: ns → (ns.length = 2 ∨ ns.length = 3) → ms.length = ns.length → (∀ n ∈ ns, 0 < n) →
    (∀ idx, InRange idx t.dims → t.elem idx = some (G idx)) →
    ∃ r, t.resize realArith id id id ms .cubic co ne = .ok r ∧
      ∀ b c os, b < B → c < C → InRange os ms → ∃ v, r.elem (b :: c :: os) = some v ∧
        Interp OnSpline (srcCoords co ns ms os) (fun ks => G (b :: c :: clampAll ns ks)) v

theorem onSpline_const (w : ℝ) (c : ℚ) : OnSpline (fun _ => w) c w :=
  ⟨⌊c⌋, Int.floor_le c, (Int.lt_floor_add_one c).le, w, 0, 0, 0, rfl, by ring, by ring, by ring, by ring⟩

/-- It is false: a volume is not interpolated. -/
theorem C93_full_false : ¬ CubicResizes := by
  intro h
  let t : Tensor ℝ := ⟨[0, 1], Layout.fromShape [1, 1, 1, 1, 2]⟩
  have ht : t.WF := fresh_wf (data := [(0 : ℝ), 1]) (dims := [1, 1, 1, 1, 2]) rfl
  let G : List Nat → ℝ := fun idx => if idx.getD 4 0 = 0 then 0 else 1
  obtain ⟨r, hr, hv⟩ := h t 1 1 [1, 1, 2] [1, 1, 4] .asymmetric .floor G ht rfl (Or.inr rfl) rfl (by decide) (by
    intro idx hi
    match idx, hi with
    | [a, b, c, d, e], hi =>
      have h1 : a < 1 := hi.1
      have h2 : b < 1 := hi.2.1
      have h3 : c < 1 := hi.2.2.1
      have h4 : d < 1 := hi.2.2.2.1
      have h5 : e < 2 := hi.2.2.2.2.1
      obtain rfl : a = 0 := by omega
      obtain rfl : b = 0 := by omega
      obtain rfl : c = 0 := by omega
      obtain rfl : d = 0 := by omega
      rcases (by omega : e = 0 ∨ e = 1) with rfl | rfl <;> rfl)
  rw [C93_cubic_volume realArith id id id .asymmetric .floor ht (B := 1) (C := 1) (ns := [1, 1, 2]) rfl rfl rfl] at hr
  obtain ⟨r', hr', _, _, hn⟩ := C93_nearest_partial realArith id id (t := t) (B := 1) (C := 1) (ns := [1, 1, 2])
    (ms := [1, 1, 4]) .asymmetric .floor ht rfl (Or.inr rfl) rfl (by decide)
  rw [hr] at hr'
  injection hr' with hr'
  subst hr'
  obtain ⟨ks, hk, he⟩ := hn 0 0 [0, 0, 1] (by decide) (by decide) (by decide)
  obtain ⟨v, hv1, hv2⟩ := hv 0 0 [0, 0, 1] (by decide) (by decide) (by decide)
  have c0 : srcCoord .asymmetric 1 1 0 = 0 := by norm_num [srcCoord]
  have c1 : srcCoord .asymmetric 2 4 1 = 1 / 2 := by norm_num [srcCoord]
  have hks : ks = [0, 0, 0] := by
    match ks, hk with
    | [a, b, c], hk =>
      obtain ⟨⟨z1, g1, rfl⟩, ⟨z2, g2, rfl⟩, ⟨z3, g3, rfl⟩, _⟩ := hk
      rw [c0] at g1 g2
      rw [c1] at g3
      obtain ⟨i1, i2⟩ := g3
      have j1 : z3 ≤ 0 := by
        have : (z3 : ℚ) < 1 := by linarith
        have : z3 < 1 := by exact_mod_cast this
        omega
      have : ∀ z, clampTo 1 z = 0 := by intro z; unfold clampTo; omega
      rw [this, this]
      congr 3
      unfold clampTo; omega
  subst hks
  have hz : t.elem [0, 0, 0, 0, 0] = some 0 := rfl
  rw [hz, hv1] at he
  injection he with he
  subst he
  have hs : srcCoords .asymmetric [1, 1, 2] [1, 1, 4] [0, 0, 1] = [0, 0, 1 / 2] := by
    simp only [srcCoords, c0, c1]
  rw [hs] at hv2
  have : (0 : ℝ) = 1 / 2 := by
    refine C93_unique (Or.inr rfl) hv2 ⟨fun _ => 1 / 2, fun a => ⟨fun _ => 1 / 2, fun b =>
      ⟨fun k => if k ≤ 0 then 0 else 1, fun k => ?_, ?_⟩, onSpline_const _ _⟩, onSpline_const _ _⟩
    · show _ = G _
      simp only [G, clampAll, List.zipWith_cons_cons, List.zipWith_nil_left, List.getD_cons_succ, List.getD_cons_zero]
      by_cases hk : k ≤ 0
      · rw [if_pos hk, if_pos (by unfold clampTo; omega)]
      · rw [if_neg hk, if_neg (by unfold clampTo; omega)]
    · refine ⟨0, by norm_num, by norm_num, 0, 1 / 2, 3 / 2, -1, ?_, ?_, ?_, ?_, ?_⟩ <;> norm_num
  norm_num at this

/-! ## Cases that meet the hypotheses -/

/-- A transposed view of a 2 × 3 image. -/
def resizeView : Tensor ℝ := ⟨[1, 2, 3, 4, 5, 6], ⟨[1, 1, 3, 2], [6, 6, 1, 3], 0⟩⟩

example : resizeView.WF := ⟨rfl, by
  intro idx h
  match idx, h with
  | [a, b, c, d], h =>
    have h1 : a < 1 := h.1
    have h2 : b < 1 := h.2.1
    have h3 : c < 3 := h.2.2.1
    have h4 : d < 2 := h.2.2.2.1
    simp [resizeView, Tensor.elem, dot]
    omega⟩

example : ∃ v, Interp OnLine (srcCoords .halfPixel [2] [4] [1]) (fun ks => ([10, 20] : List ℝ).getD (clampAll [2] ks).head! 0) v ∧
    v = 10 + 1 / 4 * (20 - 10) := by
  refine ⟨_, ⟨fun a => ([10, 20] : List ℝ).getD (clampTo 2 a) 0, fun a => rfl, 0, ?_, ?_, ?_⟩, rfl⟩
  · norm_num [srcCoord]
  · norm_num [srcCoord]
  · norm_num [srcCoord, clampTo]

example : ∃ k, IsNearest .preferFloor (srcCoord .alignCorners 4 3 1) k ∧ k = 1 :=
  ⟨1, by norm_num [srcCoord, IsNearest], rfl⟩

example : (match (⟨[1, 2, 3, 4], Layout.fromShape [1, 1, 2, 2]⟩ : Tensor ℚ).resize ⟨(· + ·), (· - ·), (· * ·), id⟩ fl32 id id
    [1, 4] .linear .halfPixel .floor with
    | .ok r => some (r.dims, r.storage)
    | _ => none) = some ([1, 1, 1, 4], [2, 9 / 4, 11 / 4, 3]) := by decide +kernel

example : (match (⟨[1, 2, 3, 4], Layout.fromShape [1, 1, 2, 2]⟩ : Tensor ℚ).resize ⟨(· + ·), (· - ·), (· * ·), id⟩ fl32 id id
    [3, 3] .nearest .pytorchHalfPixel .preferCeil with
    | .ok r => some (r.dims, r.storage)
    | _ => none) = some ([1, 1, 3, 3], [1, 2, 2, 3, 4, 4, 3, 4, 4]) := by decide +kernel

example : ResizeMode.parse "Bilinear" = some .linear ∧ ResizeCoord.parse "ALIGN_CORNERS" = some .alignCorners ∧
    ResizeNearest.parse "round_prefer_ceil" = some .preferCeil ∧ ResizeMode.parse "area" = none := by decide +kernel

end Hodu
