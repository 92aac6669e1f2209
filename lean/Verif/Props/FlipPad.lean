import Verif.Props.Concat

/-! # C19 flip, C20 pad -/

namespace Hodu
open Spec

/-! ## C19 -/

/-- The index with the coordinates of the axes `K` counted from the end. -/
def Spec.flipAxes (K : List Nat) (dims idx : List Nat) : List Nat :=
  idx.mapIdx fun k i => if k ∈ K then dims.getD k 0 - 1 - i else i

/-- The same, driven by a 0/1 mask, one entry per axis. -/
def flipMask : List Nat → List Nat → List Nat → List Nat
  | d :: ds, m :: ms, i :: is => (if m ≠ 0 then d - 1 - i else i) :: flipMask ds ms is
  | _, _, _ => []

theorem flipFold {shape mask : List Nat} (hl : mask.length = shape.length) (i : Nat) :
    (shape.zip mask).foldr flipStep (i, 0, 1) =
      (i / numel shape, rowMajor shape (flipMask shape mask (unravel shape (i % numel shape))),
        numel shape) := by
  induction shape generalizing mask with
  | nil => simp [numel, rowMajor]
  | cons d ds ih =>
    cases mask with
    | nil => simp at hl
    | cons m ms =>
      simp only [List.zip_cons_cons, List.foldr_cons]
      rw [ih (by simpa using hl)]
      simp only [flipStep, numel, unravel, flipMask, rowMajor]
      rw [Nat.mod_mul_left_div_self, Nat.mod_mul_left_mod, Nat.div_div_eq_div_mul, Nat.mul_comm d,
        Nat.add_comm]

theorem flipMask_length {ds ms is : List Nat} (h1 : ms.length = ds.length) (h2 : is.length = ds.length) :
    (flipMask ds ms is).length = ds.length := by
  induction ds generalizing ms is with
  | nil => simp [flipMask]
  | cons d ds ih =>
    cases ms <;> cases is <;> simp_all [flipMask]

theorem flipMask_get {ds ms is : List Nat} (h1 : ms.length = ds.length) (h2 : is.length = ds.length)
    {k : Nat} (hk : k < ds.length) :
    (flipMask ds ms is)[k]? = some (if ms[k]'(by omega) ≠ 0 then ds[k] - 1 - is[k]'(by omega)
      else is[k]'(by omega)) := by
  induction ds generalizing ms is k with
  | nil => simp at hk
  | cons d ds ih =>
    cases ms with
    | nil => simp at h1
    | cons m ms =>
      cases is with
      | nil => simp at h2
      | cons i is =>
        cases k with
        | zero => simp [flipMask]
        | succ k => simpa [flipMask] using ih (by simpa using h1) (by simpa using h2) (by simpa using hk)

theorem flipMask_eq {K ds is : List Nat} (h2 : is.length = ds.length) :
    flipMask ds ((List.range ds.length).map fun d => if K.contains d then 1 else 0) is =
      flipAxes K ds is := by
  apply List.ext_getElem?
  intro k
  by_cases hk : k < ds.length
  · rw [flipMask_get (by simp) h2 hk, flipAxes, List.getElem?_mapIdx,
      List.getElem?_eq_getElem (by omega)]
    by_cases hm : k ∈ K
    · simp [hm, hk]
    · simp [hm]
  · rw [List.getElem?_eq_none (by rw [flipMask_length (by simp) h2]; omega),
      List.getElem?_eq_none (by simp [flipAxes]; omega)]

theorem flipAxes_inRange {K ds is : List Nat} (h : InRange is ds) : InRange (flipAxes K ds is) ds := by
  rw [inRange_iff] at h ⊢
  refine ⟨by simp [flipAxes, h.1], fun k h1 h2 => ?_⟩
  have := h.2 k (by omega) h2
  simp only [flipAxes, List.getElem_mapIdx]
  split
  · simp only [List.getD_eq_getElem?_getD, List.getElem?_eq_getElem h2, Option.getD_some]
    omega
  · exact this

/-- Reversing twice is the identity. -/
theorem flipAxes_invol {K ds is : List Nat} (h : InRange is ds) :
    flipAxes K ds (flipAxes K ds is) = is := by
  rw [inRange_iff] at h
  apply List.ext_getElem (by simp [flipAxes])
  intro k h1 h2
  simp only [flipAxes, List.getElem_mapIdx]
  have := h.2 k h2 (by omega)
  split
  · simp only [List.getD_eq_getElem?_getD, List.getElem?_eq_getElem (show k < ds.length by omega),
      Option.getD_some]
    omega
  · rfl

/-- The full claim. -/
def C19_full : Prop :=
  ∀ (t : Tensor Nat) (ds : List Int) (K : List Nat), t.WF → t.dims.length < 2 ^ 31 →
    List.Forall₂ (IsAxis t.dims.length) ds K →
    ∃ r, t.flip ds = .ok r ∧ r.dims = t.dims ∧
      ∀ idx, InRange idx t.dims → r.elem idx = t.elem (flipAxes K t.dims idx)

/-- **C19 is false of the code**: the kernel gets neither strides nor offset, so flipping a
transposed matrix reads the wrong elements. -/
theorem C19_full_false : ¬ C19_full ∧
    (let t : Tensor Nat := ⟨[1, 2, 3, 4, 5, 6], ⟨[3, 2], [1, 3], 0⟩⟩
     t.flip [0] = .ok ⟨[5, 6, 3, 4, 1, 2], Layout.fromShape [3, 2]⟩ ∧ t.elem [2, 0] = some 3) := by
  have hc : (⟨[1, 2, 3, 4, 5, 6], ⟨[3, 2], [1, 3], 0⟩⟩ : Tensor Nat).flip [0] =
      .ok ⟨[5, 6, 3, 4, 1, 2], Layout.fromShape [3, 2]⟩ := by decide +kernel
  refine ⟨?_, hc, by decide +kernel⟩
  intro h
  obtain ⟨r, h1, _, h2⟩ := h ⟨[1, 2, 3, 4, 5, 6], ⟨[3, 2], [1, 3], 0⟩⟩ [0] [0]
    ⟨rfl, by
      intro idx hi
      match idx, hi with
      | [i, j], ⟨h1, h2, _⟩ =>
        simp only [Tensor.elem, dot]
        have : i * 1 + (j * 3 + 0) < 6 := by omega
        simp; omega⟩
    (by decide) (.cons ⟨by decide, Or.inl rfl⟩ .nil)
  rw [hc] at h1
  injection h1 with h1
  subst h1
  have := h2 [0, 0] (by decide)
  revert this
  decide +kernel

theorem forall_axis {n : Nat} (hn : n < 2 ^ 31) {ds : List Int} {K : List Nat}
    (h : List.Forall₂ (IsAxis n) ds K) : ds.map (axisUsize n) = K := by
  induction h with
  | nil => rfl
  | cons h _ ih => simp [axisUsize_eq h hn, ih]

/-- A contiguous tensor starting at the front of its buffer is stored in row-major order. -/
theorem elem_contig {t : Tensor α} (hc : t.layout.strides = Layout.computeStrides t.dims)
    (ho : t.layout.offset = 0) (idx : List Nat) (hi : InRange idx t.dims) :
    t.elem idx = t.storage[rowMajor t.dims idx]? := by
  have : t = ⟨t.storage, ⟨t.dims, Layout.computeStrides t.dims, 0⟩⟩ := by
    obtain ⟨s, ⟨d, st, o⟩⟩ := t
    have hc : st = Layout.computeStrides d := hc
    have ho : o = 0 := ho
    subst hc ho
    rfl
  rw [this, elem_rowMajor, Nat.zero_add]

/-- **C19, what holds.**  Flipping any row-major tensor that starts at the front of its buffer (fresh
results, reshapes, leading slices) along any list of axes, positive or negative, repeated or not,
reverses exactly the named axes.
Missing: strided views and views with an offset. -/
theorem C19_flip_partial {t : Tensor α} {ds : List Int} {K : List Nat} (ht : t.WF)
    (hn : t.dims.length < 2 ^ 31) (hax : List.Forall₂ (IsAxis t.dims.length) ds K)
    (hc : t.layout.strides = Layout.computeStrides t.dims) (ho : t.layout.offset = 0) :
    ∃ r, t.flip ds = .ok r ∧ r.WF ∧ r.layout = Layout.fromShape t.dims ∧
      ∀ idx, InRange idx t.dims → r.elem idx = t.elem (flipAxes K t.dims idx) := by
  have hbody : ∀ idx, InRange idx t.dims → ∀ x, t.elem (flipAxes K t.dims idx) = some x →
      readC t.storage ((t.dims.zip ((List.range t.dims.length).map
        fun d => if K.contains d then 1 else 0)).foldr flipStep (rowMajor t.dims idx, 0, 1)).2.1 =
        .ok x := by
    intro idx hi x hx
    rw [flipFold (by simp), Nat.mod_eq_of_lt (rowMajor_lt hi), unravel_rowMajor hi,
      flipMask_eq hi.length, readC_eq_ok, ← elem_contig hc ho _ (flipAxes_inRange hi)]
    exact hx
  obtain ⟨zs, h1, h2, h3⟩ := runLoop_elem (out := t.dims)
    (val := fun i => readC t.storage ((t.dims.zip ((List.range t.dims.length).map
        fun d => if K.contains d then 1 else 0)).foldr flipStep (i, 0, 1)).2.1)
    (by
      intro idx hi
      obtain ⟨x, hx⟩ := Option.isSome_iff_exists.mp (ht.2 _ (flipAxes_inRange (K := K) hi))
      exact ⟨x, hbody idx hi x hx⟩)
  refine ⟨⟨zs, Layout.fromShape t.dims⟩, ?_, fresh_wf h2.symm, rfl, ?_⟩
  · rw [Tensor.flip, forall_axis hn hax]
    have : flipKernel t.storage (flipMetadata t.layout K) = .ok zs := by
      unfold flipKernel flipMetadata
      rw [show readC ([t.layout.size, t.layout.ndim] ++ t.layout.dims ++
        (List.range t.layout.ndim).map fun d => if K.contains d then 1 else 0) 0 =
          .ok t.layout.size by simp [readC]]
      rw [Res.ok_bind, show readC ([t.layout.size, t.layout.ndim] ++ t.layout.dims ++
        (List.range t.layout.ndim).map fun d => if K.contains d then 1 else 0) 1 =
          .ok t.layout.dims.length by simp [readC]]
      rw [Res.ok_bind, sliceC_mid _ _ _ 2 _ rfl rfl, Res.ok_bind]
      rw [show [t.layout.size, t.layout.ndim] ++ t.layout.dims ++
        ((List.range t.layout.ndim).map fun d => if K.contains d then 1 else 0) =
          ([t.layout.size, t.layout.ndim] ++ t.layout.dims) ++
        ((List.range t.layout.ndim).map fun d => if K.contains d then 1 else 0) ++ [] by simp,
        sliceC_mid _ _ _ (2 + t.layout.dims.length) _ (by simp; omega) (by simp), Res.ok_bind]
      rw [Layout.size, shapeSize_eq]
      exact h1
    rw [this, Res.ok_bind]
  · intro idx hi
    obtain ⟨x, hx⟩ := Option.isSome_iff_exists.mp (ht.2 _ (flipAxes_inRange (K := K) hi))
    rw [hx]
    exact h3 idx hi x (hbody idx hi x hx)

/-- **C19, involution**: under the same conditions, flipping twice restores the tensor. -/
theorem C19_flip_twice_partial {t : Tensor α} {ds : List Int} {K : List Nat} (ht : t.WF)
    (hn : t.dims.length < 2 ^ 31) (hax : List.Forall₂ (IsAxis t.dims.length) ds K)
    (hc : t.layout.strides = Layout.computeStrides t.dims) (ho : t.layout.offset = 0) :
    ∃ r u, t.flip ds = .ok r ∧ r.flip ds = .ok u ∧ u.SameValues t := by
  obtain ⟨r, h1, h2, h3, h4⟩ := C19_flip_partial ht hn hax hc ho
  have hd : r.dims = t.dims := by rw [Tensor.dims, h3]; rfl
  obtain ⟨u, h5, _, h6, h7⟩ := C19_flip_partial (t := r) (ds := ds) (K := K) h2 (by rw [hd]; exact hn)
    (by rw [hd]; exact hax) (by rw [hd, h3]; rfl) (by rw [h3]; rfl)
  have hud : u.dims = t.dims := by rw [Tensor.dims, h6]; exact hd
  refine ⟨r, u, h1, h5, hud, fun idx hi => ?_⟩
  rw [hud] at hi
  rw [h7 idx (by rw [hd]; exact hi), hd, h4 _ (flipAxes_inRange hi), flipAxes_invol hi]

/-- C19: a 2×3 matrix flipped along its last axis. -/
example : (⟨[1, 2, 3, 4, 5, 6], Layout.fromShape [2, 3]⟩ : Tensor Nat).flip [-1] =
      .ok ⟨[3, 2, 1, 6, 5, 4], Layout.fromShape [2, 3]⟩ ∧
    List.Forall₂ (IsAxis 2) [-1] [1] ∧ flipAxes [1] [2, 3] [1, 0] = [1, 2] :=
  ⟨by decide +kernel, .cons ⟨by decide, Or.inr (by decide)⟩ .nil, by decide⟩

/-! ## C20 -/

/-- Where coordinate `c` of the padded tensor (with `b` cells added before a dimension of size `d`)
reads from, for the three modes that repeat data: `replicate` takes the nearest coordinate,
`circular` the one congruent modulo the size, `reflect` the one reached by mirroring at both ends
without repeating the border (period twice the size minus one; a dimension of size 1 mirrors to
itself). -/
def Spec.PadRule (mode : PadMode) (d b c j : Nat) : Prop :=
  j < d ∧
  match mode with
  | .constant => c = b + j
  | .replicate => (c < b ∧ j = 0) ∨ (b ≤ c ∧ c < b + d ∧ c = b + j) ∨ (b + d ≤ c ∧ j = d - 1)
  | .circular => (d : Int) ∣ (c : Int) - b - j
  | .reflect => d = 1 ∨ (2 * ((d : Int) - 1) ∣ (c : Int) - b - j) ∨ (2 * ((d : Int) - 1) ∣ (c : Int) - b + j)

/-- A source index, coordinate by coordinate. -/
def Spec.PadSource (mode : PadMode) (dims : List Nat) (padding : List (Nat × Nat)) (idx src : List Nat) :
    Prop :=
  src.length = dims.length ∧
  ∀ (k d : Nat) (p : Nat × Nat) (c j : Nat), dims[k]? = some d → padding[k]? = some p → idx[k]? = some c → src[k]? = some j →
    PadRule mode d p.1 c j

/-- The rule picks at most one coordinate. -/
theorem padRule_unique {mode : PadMode} {d b c j j' : Nat} (h : PadRule mode d b c j)
    (h' : PadRule mode d b c j') : j = j' := by
  obtain ⟨h1, h2⟩ := h
  obtain ⟨h3, h4⟩ := h'
  cases mode with
  | constant => simp only at h2 h4; omega
  | replicate => simp only at h2 h4; omega
  | circular =>
    simp only at h2 h4
    obtain ⟨x, hx⟩ := h2
    obtain ⟨y, hy⟩ := h4
    have h5 : ((d : Int)) ∣ (j : Int) - j' := ⟨y - x, by rw [mul_sub, ← hx, ← hy]; ring⟩
    have := Int.eq_zero_of_abs_lt_dvd h5 (by rw [abs_lt]; omega)
    omega
  | reflect =>
    simp only at h2 h4
    have key : ∀ z : Int, 2 * ((d : Int) - 1) ∣ z → z.natAbs < 2 * (d - 1) → z = 0 := by
      intro z hz hb
      exact Int.eq_zero_of_abs_lt_dvd hz (by rw [abs_lt]; omega)
    by_cases hd : d = 1
    · omega
    rcases h2 with h2 | h2 | h2 <;> rcases h4 with h4 | h4 | h4 <;> try exact absurd ‹d = 1› hd
    · have := key _ (Int.dvd_sub h4 h2) (by omega)
      omega
    · have h5 := Int.dvd_sub h4 h2
      by_cases hj : j + j' < 2 * (d - 1)
      · have := key _ h5 (by omega); omega
      · omega
    · have h5 := Int.dvd_sub h2 h4
      by_cases hj : j + j' < 2 * (d - 1)
      · have := key _ h5 (by omega); omega
      · omega
    · have := key _ (Int.dvd_sub h2 h4) (by omega)
      omega

/-- In every mode an interior coordinate reads the element shifted by the padding. -/
theorem padRule_interior {mode : PadMode} {d b i : Nat} (h : i < d) : PadRule mode d b (b + i) i := by
  refine ⟨h, ?_⟩
  cases mode with
  | constant => rfl
  | replicate => right; left; omega
  | circular => exact ⟨0, by simp⟩
  | reflect => right; left; exact ⟨0, by simp⟩

theorem replicate_rule {d b c : Nat} (hd : 0 < d) :
    PadRule .replicate d b c (replicateIndex ((c : Int) - b) d) := by
  unfold replicateIndex PadRule
  simp only
  split
  · omega
  · split <;> omega

theorem circular_rule {d b c : Nat} (hd : 0 < d) :
    PadRule .circular d b c (circularIndex ((c : Int) - b) d) := by
  unfold circularIndex PadRule
  simp only
  generalize hx : (c : Int) - b = x
  have h1 : (d : Int) ∣ x - x.tmod d := Int.dvd_self_sub_tmod
  have h2 := Int.tmod_lt_of_pos x (show (0 : Int) < d by omega)
  have h3 : -(d : Int) < x.tmod d := Int.lt_tmod_of_pos _ (by omega)
  by_cases h : x.tmod d < 0
  · rw [if_pos h]
    refine ⟨by omega, ?_⟩
    rw [Int.toNat_of_nonneg (by omega)]
    have : x - (x.tmod d + d) = (x - x.tmod d) - d := by ring
    rw [this]
    exact Int.dvd_sub h1 (Int.dvd_refl _)
  · rw [if_neg h]
    refine ⟨by omega, ?_⟩
    rw [Int.toNat_of_nonneg (by omega)]
    exact h1

theorem reflect_rule {d b c : Nat} (hd : 0 < d) :
    PadRule .reflect d b c (reflectIndex ((c : Int) - b) d) := by
  unfold reflectIndex PadRule
  simp only
  generalize (c : Int) - b = x
  by_cases h1 : d ≤ x.natAbs
  · rw [if_pos h1]
    by_cases h2 : 0 < 2 * (d - 1)
    · rw [if_pos h2]
      have hlt := Nat.mod_lt x.natAbs h2
      have hdvd : 2 * (d - 1) ∣ x.natAbs - x.natAbs % (2 * (d - 1)) := Nat.dvd_sub_mod _
      have hle := Nat.mod_le x.natAbs (2 * (d - 1))
      generalize x.natAbs % (2 * (d - 1)) = j at *
      have hz : (2 * ((d : Int) - 1)) ∣ (x.natAbs : Int) - j := by
        have := Int.natCast_dvd_natCast.mpr hdvd
        rw [Nat.cast_sub hle] at this
        have e : ((2 * (d - 1) : Nat) : Int) = 2 * ((d : Int) - 1) := by omega
        rwa [e] at this
      have e2 : ((2 * (d - 1) - j : Nat) : Int) = 2 * ((d : Int) - 1) - j := by omega
      by_cases h3 : d ≤ j
      · rw [if_pos h3]
        refine ⟨by omega, ?_⟩
        rw [e2]
        by_cases hx : 0 ≤ x
        · right; right
          rw [show x + (2 * ((d : Int) - 1) - j) = (x.natAbs - j) + 2 * ((d : Int) - 1) by omega]
          exact Int.dvd_add hz (Int.dvd_refl _)
        · right; left
          rw [show x - (2 * ((d : Int) - 1) - j) = -((x.natAbs - j) + 2 * ((d : Int) - 1)) by omega]
          exact Int.dvd_neg.mpr (Int.dvd_add hz (Int.dvd_refl _))
      · rw [if_neg h3]
        refine ⟨by omega, ?_⟩
        by_cases hx : 0 ≤ x
        · right; left
          rw [show x - j = (x.natAbs : Int) - j by omega]; exact hz
        · right; right
          rw [show x + j = -((x.natAbs : Int) - j) by omega]; exact Int.dvd_neg.mpr hz
    · rw [if_neg h2]
      have : d = 1 := by omega
      subst this
      exact ⟨by omega, Or.inl rfl⟩
  · rw [if_neg h1]
    refine ⟨by omega, ?_⟩
    by_cases hx : 0 ≤ x
    · right; left; rw [show x - x.natAbs = 0 by omega]; exact ⟨0, by simp⟩
    · right; right; rw [show x + x.natAbs = 0 by omega]; exact ⟨0, by simp⟩


/-- Source coordinates computed by the kernels of the three repeating modes. -/
def padSrc (f : Int → Nat → Nat) : List Nat → List Nat → List Nat → List Nat
  | d :: ds, b :: bs, c :: cs => f ((c : Int) - b) d :: padSrc f ds bs cs
  | _, _, _ => []

theorem padFold {f : Int → Nat → Nat} {ins outs bs : List Nat} (h1 : outs.length = ins.length)
    (h2 : bs.length = ins.length) (i : Nat) :
    (ins.zip (outs.zip bs)).foldr (padStep f) (i, 0, 1) =
      (i / numel outs, rowMajor ins (padSrc f ins bs (unravel outs (i % numel outs))), numel ins) := by
  induction ins generalizing outs bs with
  | nil =>
    cases outs with
    | nil => simp [numel, rowMajor]
    | cons => simp at h1
  | cons d ds ih =>
    cases outs with
    | nil => simp at h1
    | cons o os =>
      cases bs with
      | nil => simp at h2
      | cons b bs =>
        simp only [List.zip_cons_cons, List.foldr_cons]
        rw [ih (by simpa using h1) (by simpa using h2)]
        simp only [padStep, numel, unravel, padSrc, rowMajor]
        rw [Nat.mod_mul_left_div_self, Nat.mod_mul_left_mod, Nat.div_div_eq_div_mul, Nat.mul_comm o,
          Nat.add_comm, Nat.mul_comm d]

theorem padSrc_get {f : Int → Nat → Nat} {ds bs cs : List Nat} {k d b c : Nat}
    (h1 : ds[k]? = some d) (h2 : bs[k]? = some b) (h3 : cs[k]? = some c) :
    (padSrc f ds bs cs)[k]? = some (f ((c : Int) - b) d) := by
  induction ds generalizing bs cs k with
  | nil => simp at h1
  | cons d' ds ih =>
    cases bs with
    | nil => simp at h2
    | cons b' bs =>
      cases cs with
      | nil => simp at h3
      | cons c' cs =>
        cases k with
        | zero => simp_all [padSrc]
        | succ k => simpa [padSrc] using ih (by simpa using h1) (by simpa using h2) (by simpa using h3)

theorem padSrc_length {f : Int → Nat → Nat} {ds bs cs : List Nat} (h1 : bs.length = ds.length)
    (h2 : cs.length = ds.length) : (padSrc f ds bs cs).length = ds.length := by
  induction ds generalizing bs cs with
  | nil => simp [padSrc]
  | cons d ds ih => cases bs <;> cases cs <;> simp_all [padSrc]

/-- Source coordinates of constant mode, if all are inside. -/
def padConstSrc : List Nat → List Nat → List Nat → Option (List Nat)
  | d :: ds, b :: bs, c :: cs =>
    if b ≤ c ∧ c < b + d then (padConstSrc ds bs cs).map ((c - b) :: ·) else none
  | _, _, _ => some []

theorem padConstFold {ins outs bs : List Nat} (h1 : outs.length = ins.length)
    (h2 : bs.length = ins.length) (i : Nat) :
    match padConstSrc ins bs (unravel outs (i % numel outs)) with
    | some src => (ins.zip (outs.zip bs)).foldr padConstStep (true, i, 0, 1) =
        (true, i / numel outs, rowMajor ins src, numel ins)
    | none => ((ins.zip (outs.zip bs)).foldr padConstStep (true, i, 0, 1)).1 = false := by
  induction ins generalizing outs bs with
  | nil =>
    cases outs with
    | nil => simp [numel, rowMajor, padConstSrc]
    | cons => simp at h1
  | cons d ds ih =>
    cases outs with
    | nil => simp at h1
    | cons o os =>
      cases bs with
      | nil => simp at h2
      | cons b bs =>
        have ih := ih (outs := os) (bs := bs) (by simpa using h1) (by simpa using h2)
        simp only [List.zip_cons_cons, List.foldr_cons, numel, unravel, padConstSrc]
        rw [Nat.mod_mul_left_div_self, Nat.mod_mul_left_mod]
        cases hs : padConstSrc ds bs (unravel os (i % numel os)) with
        | none =>
          rw [hs] at ih
          simp only at ih
          generalize List.foldr padConstStep (true, i, 0, 1) (ds.zip (os.zip bs)) = st at ih
          obtain ⟨st1, st2⟩ := st
          simp only at ih
          subst ih
          simp [padConstStep]
        | some src =>
          rw [hs] at ih
          simp only at ih
          rw [ih]
          by_cases hc : b ≤ i / numel os % o ∧ i / numel os % o < b + d
          · rw [if_pos hc]
            simp only [Option.map_some, padConstStep, Bool.not_true, Bool.false_eq_true, if_false]
            rw [if_neg (by omega), rowMajor, Nat.div_div_eq_div_mul, Nat.mul_comm o, Nat.mul_comm d]
            have : (((i / numel os % o : Nat) : Int) - b).toNat = i / numel os % o - b := by omega
            rw [this, Nat.add_comm (rowMajor ds src)]
          · rw [if_neg hc]
            simp only [padConstStep, Bool.not_true, Bool.false_eq_true, if_false]
            rw [if_pos (by omega)]

theorem padConstSrc_some {ds bs cs src : List Nat} (h1 : bs.length = ds.length)
    (h2 : cs.length = ds.length) (h : padConstSrc ds bs cs = some src) :
    src.length = ds.length ∧ ∀ k d b c j : Nat, ds[k]? = some d → bs[k]? = some b → cs[k]? = some c →
      src[k]? = some j → j < d ∧ c = b + j := by
  induction ds generalizing bs cs src with
  | nil =>
    simp only [padConstSrc, Option.some.injEq] at h
    subst h
    exact ⟨rfl, fun k d b c j hd => by simp at hd⟩
  | cons d ds ih =>
    cases bs with
    | nil => simp at h1
    | cons b bs =>
      cases cs with
      | nil => simp at h2
      | cons c cs =>
        rw [padConstSrc] at h
        by_cases hc : b ≤ c ∧ c < b + d
        · rw [if_pos hc] at h
          cases hs : padConstSrc ds bs cs with
          | none => rw [hs] at h; simp at h
          | some s' =>
            rw [hs] at h
            simp only [Option.map_some, Option.some.injEq] at h
            subst h
            obtain ⟨h3, h4⟩ := ih (by simpa using h1) (by simpa using h2) hs
            refine ⟨by simp [h3], ?_⟩
            intro k d' b' c' j e1 e2 e3 e4
            cases k with
            | zero =>
              simp only [List.getElem?_cons_zero, Option.some.injEq] at e1 e2 e3 e4
              omega
            | succ k =>
              exact h4 k d' b' c' j (by simpa using e1) (by simpa using e2) (by simpa using e3)
                (by simpa using e4)
        · rw [if_neg hc] at h; cases h

theorem padConstSrc_none {ds bs cs : List Nat} (h1 : bs.length = ds.length)
    (h2 : cs.length = ds.length) (h : padConstSrc ds bs cs = none) :
    ∃ k d b c : Nat, ds[k]? = some d ∧ bs[k]? = some b ∧ cs[k]? = some c ∧ ¬ (b ≤ c ∧ c < b + d) := by
  induction ds generalizing bs cs with
  | nil => simp [padConstSrc] at h
  | cons d ds ih =>
    cases bs with
    | nil => simp at h1
    | cons b bs =>
      cases cs with
      | nil => simp at h2
      | cons c cs =>
        rw [padConstSrc] at h
        by_cases hc : b ≤ c ∧ c < b + d
        · rw [if_pos hc] at h
          have hs : padConstSrc ds bs cs = none := by
            cases hs : padConstSrc ds bs cs with
            | none => rfl
            | some s' => rw [hs] at h; simp at h
          obtain ⟨k, d', b', c', e1, e2, e3, e4⟩ := ih (by simpa using h1) (by simpa using h2) hs
          exact ⟨k + 1, d', b', c', by simpa using e1, by simpa using e2, by simpa using e3, e4⟩
        · exact ⟨0, d, b, c, rfl, rfl, rfl, hc⟩

/-- `r` is `t` padded: the sizes grow by both widths, every element that has a source by the rule
of the mode is that source's element, and an element without source (only in constant mode) is
`v`. -/
def Spec.IsPad (mode : PadMode) (t : Tensor α) (padding : List (Nat × Nat)) (v : α) (r : Tensor α) :
    Prop :=
  r.dims = List.zipWith (fun d p => d + p.1 + p.2) t.dims padding ∧
  ∀ idx, InRange idx r.dims →
    (∀ src, PadSource mode t.dims padding idx src → r.elem idx = t.elem src) ∧
    ((¬ ∃ src, PadSource mode t.dims padding idx src) → mode = .constant ∧ r.elem idx = some v)

/-- The full claim. -/
def C20_full : Prop :=
  ∀ (t : Tensor Nat) (padding : List (Nat × Nat)) (mode : PadMode) (v : Nat), t.WF →
    padding.length = t.dims.length → (∀ d ∈ t.dims, 0 < d) →
    ∃ r, t.pad padding mode v = .ok r ∧ IsPad mode t padding v r

/-- **C20 is false of the code**: padding a transposed matrix reads the buffer in row-major order. -/
theorem C20_full_false : ¬ C20_full ∧
    (let t : Tensor Nat := ⟨[1, 2, 3, 4, 5, 6], ⟨[3, 2], [1, 3], 0⟩⟩
     t.pad [(0, 0), (1, 0)] .constant 0 =
       .ok ⟨[0, 1, 2, 0, 3, 4, 0, 5, 6], Layout.fromShape [3, 3]⟩ ∧ t.elem [0, 1] = some 4) := by
  have hc : (⟨[1, 2, 3, 4, 5, 6], ⟨[3, 2], [1, 3], 0⟩⟩ : Tensor Nat).pad [(0, 0), (1, 0)] .constant 0 =
       .ok ⟨[0, 1, 2, 0, 3, 4, 0, 5, 6], Layout.fromShape [3, 3]⟩ := by decide +kernel
  refine ⟨?_, hc, by decide +kernel⟩
  intro h
  obtain ⟨r, h1, _, h2⟩ := h ⟨[1, 2, 3, 4, 5, 6], ⟨[3, 2], [1, 3], 0⟩⟩ [(0, 0), (1, 0)] .constant 0
    ⟨rfl, by
      intro idx hi
      match idx, hi with
      | [i, j], ⟨h1, h2, _⟩ =>
        simp only [Tensor.elem, dot]
        have : i * 1 + (j * 3 + 0) < 6 := by omega
        simp; omega⟩
    rfl (by decide)
  rw [hc] at h1
  injection h1 with h1
  subst h1
  have := (h2 [0, 2] (by decide)).1 [0, 1] ⟨rfl, by
    intro k d p c j e1 e2 e3 e4
    have e1 : [3, 2][k]? = some d := e1
    match k with
    | 0 => simp at e1 e2 e3 e4; subst e1 e2 e3 e4; exact ⟨by decide, rfl⟩
    | 1 => simp at e1 e2 e3 e4; subst e1 e2 e3 e4; exact ⟨by decide, rfl⟩
    | k + 2 => simp at e1⟩
  revert this
  decide +kernel

/-- Sources are unique. -/
theorem padSource_unique {mode : PadMode} {dims idx src src' : List Nat} {padding : List (Nat × Nat)}
    (hp : padding.length = dims.length) (hi : idx.length = dims.length)
    (h : PadSource mode dims padding idx src) (h' : PadSource mode dims padding idx src') :
    src = src' := by
  have e1 := h.1
  have e2 := h'.1
  apply List.ext_getElem (by omega)
  intro k h1 h2
  exact padRule_unique
    (h.2 k (dims[k]'(by omega)) (padding[k]'(by omega)) (idx[k]'(by omega)) src[k]
      (List.getElem?_eq_getElem _) (List.getElem?_eq_getElem _) (List.getElem?_eq_getElem _)
      (List.getElem?_eq_getElem _))
    (h'.2 k (dims[k]'(by omega)) (padding[k]'(by omega)) (idx[k]'(by omega)) src'[k]
      (List.getElem?_eq_getElem _) (List.getElem?_eq_getElem _) (List.getElem?_eq_getElem _)
      (List.getElem?_eq_getElem _))

/-- A source is an index of the input. -/
theorem padSource_inRange {mode : PadMode} {dims idx src : List Nat} {padding : List (Nat × Nat)}
    (hp : padding.length = dims.length) (hi : idx.length = dims.length)
    (h : PadSource mode dims padding idx src) : InRange src dims := by
  have e1 := h.1
  rw [inRange_iff]
  refine ⟨e1, fun k h1 h2 => ?_⟩
  exact (h.2 k dims[k] (padding[k]'(by omega)) (idx[k]'(by omega)) src[k]
      (List.getElem?_eq_getElem _) (List.getElem?_eq_getElem _) (List.getElem?_eq_getElem _)
      (List.getElem?_eq_getElem _)).1

theorem modeIndex_rule {mode : PadMode} (hm : mode ≠ .constant) {d b c : Nat} (hd : 0 < d) :
    PadRule mode d b c (mode.index ((c : Int) - b) d) := by
  cases mode with
  | constant => exact absurd rfl hm
  | reflect => exact reflect_rule hd
  | replicate => exact replicate_rule hd
  | circular => exact circular_rule hd

/-- The body of the pad kernels: succeeds at every output position, with the element the rule asks
for. -/
def padVal (mode : PadMode) (v : α) (inp : List α) (ins outs bs : List Nat) (i : Nat) : Res α :=
  match mode with
  | .constant =>
    if ((ins.zip (outs.zip bs)).foldr padConstStep (true, i, 0, 1)).1 then
      readC inp ((ins.zip (outs.zip bs)).foldr padConstStep (true, i, 0, 1)).2.2.1 else .ok v
  | m => readC inp ((ins.zip (outs.zip bs)).foldr (padStep m.index) (i, 0, 1)).2.1

theorem padVal_ok {t : Tensor α} {padding : List (Nat × Nat)} {mode : PadMode} {v : α} (ht : t.WF)
    (hp : padding.length = t.dims.length) (hz : mode ≠ .constant → ∀ d ∈ t.dims, 0 < d)
    (hc : t.layout.strides = Layout.computeStrides t.dims) (ho : t.layout.offset = 0)
    {outs idx : List Nat} (hol : outs.length = t.dims.length) (hi : InRange idx outs) :
    ∃ x, padVal mode v t.storage t.dims outs (padding.map Prod.fst) (rowMajor outs idx) = .ok x ∧
      ((∃ src, PadSource mode t.dims padding idx src ∧ t.elem src = some x) ∨
        (mode = .constant ∧ x = v ∧ ¬ ∃ src, PadSource mode t.dims padding idx src)) := by
  have hil : idx.length = t.dims.length := by rw [hi.length, hol]
  have hbl : (padding.map Prod.fst).length = t.dims.length := by simpa using hp
  by_cases hm : mode = .constant
  · subst hm
    have hf := padConstFold (ins := t.dims) (outs := outs) (bs := padding.map Prod.fst) hol hbl
      (rowMajor outs idx)
    rw [Nat.mod_eq_of_lt (rowMajor_lt hi), unravel_rowMajor hi] at hf
    cases hs : padConstSrc t.dims (padding.map Prod.fst) idx with
    | some src =>
      rw [hs] at hf
      simp only at hf
      obtain ⟨h1, h2⟩ := padConstSrc_some hbl hil hs
      have hsrc : PadSource .constant t.dims padding idx src := by
        refine ⟨h1, fun k d p c j e1 e2 e3 e4 => ?_⟩
        exact h2 k d p.1 c j e1 (by simp [e2]) e3 e4
      have hin := padSource_inRange hp hil hsrc
      obtain ⟨x, hx⟩ := Option.isSome_iff_exists.mp (ht.2 _ hin)
      refine ⟨x, ?_, Or.inl ⟨src, hsrc, hx⟩⟩
      rw [padVal, hf]
      simp only [if_true]
      rw [readC_eq_ok, ← elem_contig hc ho _ hin]
      exact hx
    | none =>
      rw [hs] at hf
      simp only at hf
      obtain ⟨k, d, b, c, e1, e2, e3, e4⟩ := padConstSrc_none hbl hil hs
      refine ⟨v, ?_, Or.inr ⟨rfl, rfl, ?_⟩⟩
      · rw [padVal, hf]; simp
      · rintro ⟨src, h1, h2⟩
        have hk : k < t.dims.length := by
          by_contra hn
          rw [List.getElem?_eq_none (by omega)] at e1
          cases e1
        rw [List.getElem?_map, Option.map_eq_some_iff] at e2
        obtain ⟨p, hpk, rfl⟩ := e2
        obtain ⟨h3, h4⟩ := h2 k d p c _ e1 hpk e3 (List.getElem?_eq_getElem (by omega))
        simp only at h4
        omega
  · have hsrc : PadSource mode t.dims padding idx
        (padSrc mode.index t.dims (padding.map Prod.fst) idx) := by
      refine ⟨padSrc_length hbl hil, fun k d p c j e1 e2 e3 e4 => ?_⟩
      rw [padSrc_get e1 (b := p.1) (by simp [e2]) e3] at e4
      injection e4 with e4
      subst e4
      exact modeIndex_rule hm (hz hm d (List.mem_of_getElem? e1))
    have hin := padSource_inRange hp hil hsrc
    obtain ⟨x, hx⟩ := Option.isSome_iff_exists.mp (ht.2 _ hin)
    refine ⟨x, ?_, Or.inl ⟨_, hsrc, hx⟩⟩
    have : padVal mode v t.storage t.dims outs (padding.map Prod.fst) (rowMajor outs idx) =
        readC t.storage ((t.dims.zip (outs.zip (padding.map Prod.fst))).foldr (padStep mode.index)
          (rowMajor outs idx, 0, 1)).2.1 := by
      cases mode <;> first | exact absurd rfl hm | rfl
    rw [this, padFold hol hbl, Nat.mod_eq_of_lt (rowMajor_lt hi), unravel_rowMajor hi, readC_eq_ok,
      ← elem_contig hc ho _ hin]
    exact hx

/-- **C20, what holds.**  Padding a row-major tensor at the front of its buffer, in any mode and by
any widths (also wider than the data): every read is inside the buffer, the sizes are right, the
interior is the input shifted and the border follows the rule of the mode.
Missing: strided views and views with an offset; zero-size dimensions in the repeating modes. -/
theorem C20_pad_partial {t : Tensor α} {padding : List (Nat × Nat)} {mode : PadMode} {v : α} (ht : t.WF)
    (hp : padding.length = t.dims.length) (hz : mode ≠ .constant → ∀ d ∈ t.dims, 0 < d)
    (hc : t.layout.strides = Layout.computeStrides t.dims) (ho : t.layout.offset = 0) :
    ∃ r, t.pad padding mode v = .ok r ∧ r.WF ∧ IsPad mode t padding v r := by
  have hol : (List.zipWith (fun d (p : Nat × Nat) => d + p.1 + p.2) t.dims padding).length =
      t.dims.length := by simp [hp]
  generalize hout : List.zipWith (fun d (p : Nat × Nat) => d + p.1 + p.2) t.dims padding = out at hol
  obtain ⟨zs, h1, h2, h3⟩ := runLoop_elem (out := out)
    (val := padVal mode v t.storage t.dims out (padding.map Prod.fst))
    (fun idx hi => by
      obtain ⟨x, hx, _⟩ := padVal_ok (v := v) ht hp hz hc ho hol hi
      exact ⟨x, hx⟩)
  have hk : padKernel mode v t.storage (paddingMetadata t.layout (padding.map Prod.fst) out) = .ok zs := by
    unfold padKernel paddingMetadata
    rw [show readC ([shapeSize out, t.layout.ndim] ++ t.layout.dims ++ out ++ padding.map Prod.fst) 0 =
      .ok (shapeSize out) by simp [readC]]
    rw [Res.ok_bind, show readC ([shapeSize out, t.layout.ndim] ++ t.layout.dims ++ out ++
      padding.map Prod.fst) 1 = .ok t.dims.length by simp [readC]]
    rw [Res.ok_bind, show [shapeSize out, t.layout.ndim] ++ t.layout.dims ++ out ++ padding.map Prod.fst =
      [shapeSize out, t.layout.ndim] ++ t.layout.dims ++ (out ++ padding.map Prod.fst) by simp,
      sliceC_mid _ _ _ 2 _ rfl rfl]
    rw [Res.ok_bind, show [shapeSize out, t.layout.ndim] ++ t.layout.dims ++ (out ++
        padding.map Prod.fst) =
      ([shapeSize out, t.layout.ndim] ++ t.layout.dims) ++ out ++ padding.map Prod.fst by simp,
      sliceC_mid _ _ _ (2 + t.dims.length) _
        (by rw [show t.dims = t.layout.dims from rfl]; simp; omega) hol.symm]
    rw [Res.ok_bind, show [shapeSize out, t.layout.ndim] ++ t.layout.dims ++ out ++ padding.map Prod.fst =
      ([shapeSize out, t.layout.ndim] ++ t.layout.dims ++ out) ++ padding.map Prod.fst ++ [] by simp,
      sliceC_mid _ _ _ (2 + 2 * t.dims.length) _
        (by
          have : out.length = t.layout.dims.length := hol
          simp only [List.length_append, List.length_cons, List.length_nil]
          rw [show t.dims = t.layout.dims from rfl]; omega) (by simp [hp])]
    rw [Res.ok_bind, shapeSize_eq]
    cases mode <;> exact h1
  refine ⟨⟨zs, Layout.fromShape out⟩, ?_, fresh_wf h2.symm, ?_⟩
  · rw [Tensor.pad, if_neg (by omega)]
    simp only [hout]
    rw [hk, Res.ok_bind]
  · refine ⟨hout.symm, fun idx hi => ?_⟩
    have hi : InRange idx out := hi
    have hil : idx.length = t.dims.length := by rw [hi.length, hol]
    obtain ⟨x, hx, h4⟩ := padVal_ok (v := v) ht hp hz hc ho hol hi
    rw [h3 idx hi x hx]
    rcases h4 with ⟨src, h5, h6⟩ | ⟨h5, h6, h7⟩
    · refine ⟨fun src' h' => ?_, fun hn => absurd ⟨src, h5⟩ hn⟩
      rw [← padSource_unique hp hil h5 h', h6]
    · refine ⟨fun src' h' => absurd ⟨src', h'⟩ h7, fun _ => ⟨h5, by rw [h6]⟩⟩

/-- **C20, widths**: a list of the wrong length is rejected. -/
theorem C20_rejects {t : Tensor α} {padding : List (Nat × Nat)} {mode : PadMode} {v : α}
    (hp : padding.length ≠ t.dims.length) : t.pad padding mode v = .err := by
  rw [Tensor.pad, if_pos hp]

/-- C20: reflect padding by more than the size, and constant padding of a matrix. -/
example : (⟨[1, 2, 3], Layout.fromShape [3]⟩ : Tensor Nat).pad [(3, 4)] .reflect 0 =
      .ok ⟨[2, 3, 2, 1, 2, 3, 2, 1, 2, 3], Layout.fromShape [10]⟩ ∧
    (⟨[1, 2, 3, 4], Layout.fromShape [2, 2]⟩ : Tensor Nat).pad [(1, 0), (0, 1)] .constant 9 =
      .ok ⟨[9, 9, 9, 1, 2, 9, 3, 4, 9], Layout.fromShape [3, 3]⟩ := by decide +kernel

/-- C20, the missing zero-size case: the kernel reads outside its (empty) buffer. -/
theorem C20_empty_dimension_ub :
    (⟨[], Layout.fromShape [0]⟩ : Tensor Nat).pad [(1, 0)] .replicate 0 = .ub := by decide +kernel

end Hodu
