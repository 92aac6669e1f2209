import Verif.Lemmas.Linalg
import Verif.Props.Nonzero
import Mathlib.LinearAlgebra.Matrix.Trace

/-!
# C66–C68: determinant, inverse and trace of every matrix of a batch
-/

namespace Hodu

open Spec

/-! ## Specification -/

/-- The square matrix `M` is the one held at batch index `b` of the tensor. -/
def Spec.MatrixAt (t : Tensor α) (b : List Nat) {n : Nat} (M : Matrix (Fin n) (Fin n) α) : Prop :=
  ∀ i j : Fin n, t.elem (b ++ [(i : Nat), (j : Nat)]) = some (M i j)

/-- Shape of one number per matrix; a single matrix gives the shape `[1]`. -/
def Spec.perMatrix (bd : List Nat) : List Nat := if bd = [] then [1] else bd

/-- Where the number of batch index `b` is found. -/
def Spec.perMatrixIndex (bd b : List Nat) : List Nat := if bd = [] then [0] else b

theorem numel_ne_zero {l : List Nat} : numel l ≠ 0 ↔ ∀ d ∈ l, d ≠ 0 := by
  induction l with
  | nil => simp [numel]
  | cons a l ih => simp [numel, ih]

/-! ## Decoding and indexing -/

theorem readC_getLast2 {s : List Nat} {r c k : Nat} (hk : s.length = k) :
    readC (s ++ [r, c]) k = .ok r ∧ readC (s ++ [r, c]) (k + 1) = .ok c := by
  subst hk
  constructor <;> (rw [readC_eq_ok]; simp)

/-- Round trip of the metadata of det, inv and trace. -/
theorem decodeLin_linMetadata {bd sb : List Nat} {n r c off : Nat} (hs : sb.length = bd.length) :
    (linMetadata ⟨bd ++ [n, n], sb ++ [r, c], off⟩).bind decodeLin =
      .ok ⟨if numel bd = 0 then 1 else numel bd, n, bd ++ [n, n], sb ++ [r, c], off, r, c⟩ := by
  have hc : linCheck (bd ++ [n, n]) = .ok n := by
    unfold linCheck
    have h1 : (bd ++ [n, n]).length - 1 = bd.length + 1 := by simp
    have h2 : (bd ++ [n, n]).length - 2 = bd.length := by simp
    rw [if_neg (by simp), h1, h2]
    simp
  have hb : linBatch (bd ++ [n, n]) = if numel bd = 0 then 1 else numel bd := by
    unfold linBatch
    have : (bd ++ [n, n]).take ((bd ++ [n, n]).length - 2) = bd := by simp
    rw [this, shapeSize_eq]
  unfold linMetadata
  simp only [hc, hb, Res.bind, Layout.ndim]
  unfold decodeLin
  have hnd : (bd ++ [n, n]).length = bd.length + 2 := by simp
  set B := if numel bd = 0 then 1 else numel bd
  have e0 : readC ([B, n, (bd ++ [n, n]).length] ++ (bd ++ [n, n]) ++ (sb ++ [r, c]) ++ [off]) 0 = .ok B := by
    rw [readC_eq_ok]; simp
  have e1 : readC ([B, n, (bd ++ [n, n]).length] ++ (bd ++ [n, n]) ++ (sb ++ [r, c]) ++ [off]) 1 = .ok n := by
    rw [readC_eq_ok]; simp
  have e2 : readC ([B, n, (bd ++ [n, n]).length] ++ (bd ++ [n, n]) ++ (sb ++ [r, c]) ++ [off]) 2 =
      .ok (bd.length + 2) := by
    rw [readC_eq_ok]; simp
  have e3 : sliceC ([B, n, (bd ++ [n, n]).length] ++ (bd ++ [n, n]) ++ (sb ++ [r, c]) ++ [off]) 3
      (bd.length + 2) = .ok (bd ++ [n, n]) := by
    unfold sliceC
    rw [if_pos (by simp; omega)]
    congr 1
    have : [B, n, (bd ++ [n, n]).length] ++ (bd ++ [n, n]) ++ (sb ++ [r, c]) ++ [off] =
      [B, n, (bd ++ [n, n]).length] ++ ((bd ++ [n, n]) ++ ((sb ++ [r, c]) ++ [off])) := by simp
    rw [this, List.drop_left' (by simp), List.take_left' hnd]
  have e4 : sliceC ([B, n, (bd ++ [n, n]).length] ++ (bd ++ [n, n]) ++ (sb ++ [r, c]) ++ [off])
      (3 + (bd.length + 2)) (bd.length + 2) = .ok (sb ++ [r, c]) := by
    unfold sliceC
    rw [if_pos (by simp; omega)]
    congr 1
    have : [B, n, (bd ++ [n, n]).length] ++ (bd ++ [n, n]) ++ (sb ++ [r, c]) ++ [off] =
      ([B, n, (bd ++ [n, n]).length] ++ (bd ++ [n, n])) ++ ((sb ++ [r, c]) ++ [off]) := by simp
    rw [this, List.drop_left' (by simp; omega), List.take_left' (by simp [hs])]
  have e5 : readC ([B, n, (bd ++ [n, n]).length] ++ (bd ++ [n, n]) ++ (sb ++ [r, c]) ++ [off])
      (3 + 2 * (bd.length + 2)) = .ok off := by
    rw [readC_eq_ok, List.getElem?_append_right (by simp; omega)]
    have : 3 + 2 * (bd.length + 2) -
        ([B, n, (bd ++ [n, n]).length] ++ (bd ++ [n, n]) ++ (sb ++ [r, c])).length = 0 := by
      simp; omega
    rw [this]; rfl
  simp only [e0, e1, e2, e3, e4, e5, Res.bind]
  rw [if_pos (by omega), if_pos (by omega)]
  have h1 : bd.length + 2 - 2 = bd.length := by omega
  have h2 : bd.length + 2 - 1 = bd.length + 1 := by omega
  rw [h1, h2, (readC_getLast2 hs).1, (readC_getLast2 hs).2]

/-- The layout of a well-formed tensor of matrices ends in a row and a column stride. -/
theorem lin_layout {t : Tensor α} {bd : List Nat} {n : Nat} (ht : t.WF) (hd : t.dims = bd ++ [n, n]) :
    ∃ sb r c, t.layout = ⟨bd ++ [n, n], sb ++ [r, c], t.layout.offset⟩ ∧ sb.length = bd.length := by
  have hl := ht.1
  rw [hd] at hl
  have hl' : t.layout.strides.length = bd.length + 2 := by simpa using hl
  refine ⟨t.layout.strides.take bd.length, t.layout.strides[bd.length]'(by omega),
    t.layout.strides[bd.length + 1]'(by omega), ?_, by simp; omega⟩
  have : t.layout.strides.take bd.length ++ [t.layout.strides[bd.length]'(by omega),
      t.layout.strides[bd.length + 1]'(by omega)] = t.layout.strides := by
    conv_rhs => rw [← List.take_append_drop bd.length t.layout.strides]
    congr 1
    rw [List.drop_eq_getElem_cons (by omega), List.drop_eq_getElem_cons (by omega),
      List.drop_eq_nil_of_le (by omega)]
  rw [this]
  have hd' : t.layout.dims = bd ++ [n, n] := hd
  cases h : t.layout with
  | mk a b c => rw [h] at hd'; simp at hd' ⊢; exact hd'

/-- The element the kernels fetch for batch index `b`, row `i`, column `j` is the element of the tensor. -/
theorem linGet_elem {t : Tensor α} {bd sb b : List Nat} {n r c B i j : Nat} {v : α}
    (hl : t.layout = ⟨bd ++ [n, n], sb ++ [r, c], t.layout.offset⟩) (hs : sb.length = bd.length)
    (hb : InRange b bd) (hv : t.elem (b ++ [i, j]) = some v) :
    linGet t.storage ⟨B, n, bd ++ [n, n], sb ++ [r, c], t.layout.offset, r, c⟩
      (linBatchOffset ⟨B, n, bd ++ [n, n], sb ++ [r, c], t.layout.offset, r, c⟩ (rowMajor bd b)) i j = .ok v := by
  unfold linGet linBatchOffset
  have h1 : (bd ++ [n, n]).length - 2 = bd.length := by simp
  simp only [h1]
  rw [List.take_left' rfl, List.take_left' hs, cUnravel_eq, Nat.mod_eq_of_lt (rowMajor_lt hb), unravel_rowMajor hb, cFlat_eq]
  rw [readC_eq_ok]
  unfold Tensor.elem at hv
  rw [hl] at hv
  simp only at hv
  rw [dot_append (by rw [hs]; exact (inRange_iff.mp hb).1)] at hv
  rw [← hv]
  congr 1
  simp [dot]
  ring

/-- The wrapper shared by det and trace: one number per matrix. -/
theorem lin_wrap {t : Tensor α} {bd : List Nat} {n : Nat} (ht : t.WF) (hd : t.dims = bd ++ [n, n])
    (hne : numel bd ≠ 0) {one : LinMeta → Nat → Res α} {P : List Nat → α → Prop}
    (h : ∀ (m : LinMeta) (b : List Nat), m.n = n → InRange b bd →
      (∀ i j : Nat, i < n → j < n →
        ∃ v, t.elem (b ++ [i, j]) = some v ∧ linGet t.storage m (linBatchOffset m (rowMajor bd b)) i j = .ok v) →
      ∃ v, one m (linBatchOffset m (rowMajor bd b)) = .ok v ∧ P b v) :
    ∃ y, ((linMetadata t.layout).bind fun md => ((decodeLin md).bind fun m =>
        (runLoop m.batch fun b => one m (linBatchOffset m b)).bind fun out =>
          if out.length ≤ shapeSize (linOutDims t.dims) then Res.ok out else .ub).bind fun s =>
        Res.ok ({ storage := s, layout := Layout.fromShape (linOutDims t.dims) } : Tensor α)) = .ok y ∧
      y.WF ∧ y.dims = perMatrix bd ∧
      ∀ b, InRange b bd → ∃ v, y.elem (perMatrixIndex bd b) = some v ∧ P b v := by
  obtain ⟨sb, r, c, hl, hs⟩ := lin_layout ht hd
  have hout : linOutDims t.dims = perMatrix bd := by
    unfold linOutDims perMatrix
    rw [hd]
    by_cases hb : bd = []
    · subst hb; simp
    · rw [if_neg hb, if_neg (by simp [hb])]
      simp
  have hnum : numel (perMatrix bd) = numel bd := by
    unfold perMatrix
    split
    · rename_i h0; rw [h0]; rfl
    · rfl
  have hdec := decodeLin_linMetadata (n := n) (r := r) (c := c) (off := t.layout.offset) hs
  rw [← hl, if_neg hne] at hdec
  set m : LinMeta := ⟨numel bd, n, bd ++ [n, n], sb ++ [r, c], t.layout.offset, r, c⟩ with hm
  have hone : ∀ b, InRange b bd → ∃ v, one m (linBatchOffset m (rowMajor bd b)) = .ok v ∧ P b v := by
    intro b hb
    refine h m b rfl hb ?_
    intro i j hi hj
    obtain ⟨v, hv⟩ := ht.get (idx := b ++ [i, j]) (by
      rw [hd]
      exact (inRange_append (inRange_iff.mp hb).1).mpr ⟨hb, by simp [InRange, hi, hj]⟩)
    exact ⟨v, hv, linGet_elem hl hs hb hv⟩
  obtain ⟨zs, h1, h2, h3⟩ := runLoop_elem (out := bd) (val := fun b => one m (linBatchOffset m b))
    (fun b hb => (hone b hb).imp fun v hv => hv.1)
  refine ⟨⟨zs, Layout.fromShape (perMatrix bd)⟩, ?_, fresh_wf (by rw [hnum, h2]), rfl, ?_⟩
  · rw [hout]
    cases hmd : linMetadata t.layout with
    | ok md =>
      rw [hmd] at hdec
      simp only [Res.bind] at hdec ⊢
      rw [hdec]
      simp only [hm] at h1 ⊢
      rw [h1]
      simp only
      rw [shapeSize_eq, hnum, if_pos (by omega)]
    | err => rw [hmd] at hdec; cases hdec
    | panic => rw [hmd] at hdec; cases hdec
    | ub => rw [hmd] at hdec; cases hdec
  · intro b hb
    obtain ⟨v, hv, hP⟩ := hone b hb
    refine ⟨v, ?_, hP⟩
    have h4 := h3 b hb v hv
    unfold perMatrix perMatrixIndex
    by_cases h0 : bd = []
    · subst h0
      rw [if_pos rfl, if_pos rfl]
      have : b = [] := by simpa [InRange] using (inRange_iff.mp hb).1
      subst this
      simp only [Layout.fromShape, elem_rowMajor] at h4 ⊢
      exact h4
    · rw [if_neg h0, if_neg h0]
      exact h4

/-- Value of the tensor used as a matrix over the naturals. -/
def matAt [Zero α] (t : Tensor α) (b : List Nat) : Nat → Nat → α := fun i j => (t.elem (b ++ [i, j])).getD 0

theorem rep_rows (n w : Nat) (M : Nat → Nat → α) :
    Rep ((List.range n).map fun i => (List.range w).map (M i)).flatten n w M := by
  have hlen : ∀ row ∈ (List.range n).map (fun i => (List.range w).map (M i)), row.length = w := by
    intro row hr
    obtain ⟨i, _, rfl⟩ := List.mem_map.mp hr
    simp
  refine ⟨?_, ?_⟩
  · simp [List.length_flatten, Function.comp_def]
  · intro i j hi hj
    have := getElem?_blocks hlen (r := i) (c := j) (row := (List.range w).map (M i)) (by simp [hi]) hj
    rw [List.flatMap_id] at this
    rw [this]
    simp [hj]

theorem linCopy_spec {inp : List α} {m : LinMeta} {b : Nat} {M : Nat → Nat → α}
    (h : ∀ i j, i < m.n → j < m.n → linGet inp m b i j = .ok (M i j)) :
    ∃ A, linCopy inp m b = .ok A ∧ Rep A m.n m.n M := by
  refine ⟨_, ?_, rep_rows m.n m.n M⟩
  unfold linCopy
  rw [Res.mapL_eq_ok_of (g := fun i => (List.range m.n).map (M i))]
  · rfl
  · intro i hi
    exact Res.mapL_eq_ok_of fun j hj => h i j (by simpa using hi) (by simpa using hj)

/-! ## C66 det -/

/-- **C66** (full statement): the determinant of every matrix of a well-formed tensor, in the arithmetic `o` of
its element type. -/
def Spec.DetCorrect [CommRing α] (o : Arith α) : Prop :=
  ∀ (t : Tensor α) (bd : List Nat) (n : Nat), t.WF → t.dims = bd ++ [n, n] →
    ∃ y, t.det o = .ok y ∧ y.WF ∧ y.dims = perMatrix bd ∧
      ∀ b (M : Matrix (Fin n) (Fin n) α), InRange b bd → MatrixAt t b M →
        y.elem (perMatrixIndex bd b) = some M.det

/-- The additive and multiplicative operations of `o` are those of the ring (wrapping integers, reals, …);
nothing is said of division, order or threshold. -/
structure Spec.IsRing [CommRing α] (o : Arith α) : Prop where
  one : o.one = 1
  add : ∀ a b, o.add a b = a + b
  sub : ∀ a b, o.sub a b = a - b
  mul : ∀ a b, o.mul a b = a * b
  neg : ∀ a, o.neg a = -a

/-- **C66, matrices up to 3 × 3**: over any commutative ring, so also for integer types that wrap around, the
kernel returns the determinant, for every batch without a zero dimension and every layout. -/
theorem C66_det_small_partial [CommRing α] {o : Arith α} (ho : IsRing o) {t : Tensor α} {bd : List Nat} {n : Nat}
    (ht : t.WF) (hd : t.dims = bd ++ [n, n]) (hn : n ≤ 3) (hne : ∀ d ∈ bd, d ≠ 0) :
    ∃ y, t.det o = .ok y ∧ y.WF ∧ y.dims = perMatrix bd ∧
      ∀ b (M : Matrix (Fin n) (Fin n) α), InRange b bd → MatrixAt t b M →
        y.elem (perMatrixIndex bd b) = some M.det := by
  obtain ⟨y, h1, h2, h3, h4⟩ := lin_wrap (one := fun m b => detOne o t.storage m b)
    (P := fun b v => ∀ M : Matrix (Fin n) (Fin n) α, MatrixAt t b M → v = M.det) ht hd (numel_ne_zero.mpr hne) (by
    intro m b hmn hb hget
    have hg : ∀ i j : Nat, i < n → j < n →
        linGet t.storage m (linBatchOffset m (rowMajor bd b)) i j = .ok (matAt t b i j) := by
      intro i j hi hj
      obtain ⟨v, hv, hg⟩ := hget i j hi hj
      rw [hg, matAt, hv]; rfl
    have hM : ∀ M : Matrix (Fin n) (Fin n) α, MatrixAt t b M → ∀ i j : Fin n, M i j = matAt t b i j := by
      intro M hM i j
      rw [matAt, hM i j]; rfl
    unfold detOne
    subst hmn
    rcases (by omega : m.n = 0 ∨ m.n = 1 ∨ m.n = 2 ∨ m.n = 3) with e | e | e | e
    · obtain ⟨A, hA, _⟩ := linCopy_spec hg
      simp only [e, List.range_zero, detLoop, Nat.zero_ne_one, if_false, hA, Res.bind]
      refine ⟨o.one, ?_, ?_⟩
      · simp [detSign]
      · intro M _
        rw [ho.one]
        have : IsEmpty (Fin m.n) := by rw [e]; infer_instance
        exact Matrix.det_isEmpty.symm
    · simp only [e, if_true]
      refine ⟨_, hg 0 0 (by omega) (by omega), ?_⟩
      intro M hM'
      have := hM M hM'
      generalize m.n = k at *
      subst e
      rw [Matrix.det_fin_one, this 0 0]
      rfl
    · simp only [e, if_true]
      rw [hg 0 0 (by omega) (by omega), hg 0 1 (by omega) (by omega), hg 1 0 (by omega) (by omega),
        hg 1 1 (by omega) (by omega)]
      refine ⟨_, rfl, ?_⟩
      intro M hM'
      have := hM M hM'
      generalize m.n = k at *
      subst e
      rw [Matrix.det_fin_two, this 0 0, this 0 1, this 1 0, this 1 1, det2, ho.sub, ho.mul, ho.mul]
      rfl
    · simp only [e, if_true]
      rw [hg 0 0 (by omega) (by omega), hg 0 1 (by omega) (by omega), hg 0 2 (by omega) (by omega),
        hg 1 0 (by omega) (by omega), hg 1 1 (by omega) (by omega), hg 1 2 (by omega) (by omega),
        hg 2 0 (by omega) (by omega), hg 2 1 (by omega) (by omega), hg 2 2 (by omega) (by omega)]
      refine ⟨_, rfl, ?_⟩
      intro M hM'
      have := hM M hM'
      generalize m.n = k at *
      subst e
      rw [Matrix.det_fin_three, this 0 0, this 0 1, this 0 2, this 1 0, this 1 1, this 1 2, this 2 0, this 2 1,
        this 2 2, det3]
      simp only [ho.sub, ho.mul, ho.add]
      show _ = matAt t b 0 0 * matAt t b 1 1 * matAt t b 2 2 - matAt t b 0 0 * matAt t b 1 2 * matAt t b 2 1 -
        matAt t b 0 1 * matAt t b 1 0 * matAt t b 2 2 + matAt t b 0 1 * matAt t b 1 2 * matAt t b 2 0 +
        matAt t b 0 2 * matAt t b 1 0 * matAt t b 2 1 - matAt t b 0 2 * matAt t b 1 1 * matAt t b 2 0
      ring)
  refine ⟨y, h1, h2, h3, ?_⟩
  intro b M hb hM
  obtain ⟨v, hv, hP⟩ := h4 b hb
  rw [hv, hP M hM]

variable {K : Type} [Field K] [LinearOrder K] [IsStrictOrderedRing K]

theorem fieldArith_isRing (tiny : Option K) : IsRing (fieldArith tiny) :=
  ⟨rfl, fun _ _ => rfl, fun _ _ => rfl, fun _ _ => rfl, fun _ => rfl⟩

omit [LinearOrder K] [IsStrictOrderedRing K] in
theorem toMat_matAt {t : Tensor K} {b : List Nat} {n : Nat} {M : Matrix (Fin n) (Fin n) K} (h : MatrixAt t b M) :
    toMat n (matAt t b) = M := by
  ext i j
  simp [toMat, matAt, h i j]

/-- The elimination branch of `detOne`. -/
theorem detOne_lu {tiny : Option K} (ht : ∀ e, tiny = some e → 0 < e) {inp : List K} {m : LinMeta} {b : Nat}
    {M : Nat → Nat → K} (hn : 4 ≤ m.n)
    (h : ∀ i j, i < m.n → j < m.n → linGet inp m b i j = .ok (M i j))
    (hD : tiny = none → (toMat m.n M).det ≠ 0) :
    ∃ v, detOne (fieldArith tiny) inp m b = .ok v ∧
      (v = (toMat m.n M).det ∨ (v = 0 ∧ tiny ≠ none)) := by
  obtain ⟨A, hA, hrep⟩ := linCopy_spec h
  obtain ⟨r, h1, h2⟩ := detLoop_spec (n := m.n) (tiny := tiny) ht (D := (toMat m.n M).det) hD m.n 0 A M 1 0
    (by omega) hrep (by intro i j hj; omega) (by simp) (by simp)
  refine ⟨r, ?_, h2⟩
  unfold detOne
  simp only [if_neg (by omega : ¬ m.n = 1), if_neg (by omega : ¬ m.n = 2), if_neg (by omega : ¬ m.n = 3), hA,
    Res.bind]
  exact h1

/-- **C66, any size, f32/f64-style kernel** (exact arithmetic, singularity threshold): the answer is the
determinant, or 0 for a matrix of size 4 or more.  The second case is not only taken by singular matrices. -/
theorem C66_det_partial {e : K} (he : 0 < e) {t : Tensor K} {bd : List Nat} {n : Nat}
    (ht : t.WF) (hd : t.dims = bd ++ [n, n]) (hne : ∀ d ∈ bd, d ≠ 0) :
    ∃ y, t.det (fieldArith (some e)) = .ok y ∧ y.WF ∧ y.dims = perMatrix bd ∧
      ∀ b (M : Matrix (Fin n) (Fin n) K), InRange b bd → MatrixAt t b M →
        y.elem (perMatrixIndex bd b) = some M.det ∨ (4 ≤ n ∧ y.elem (perMatrixIndex bd b) = some 0) := by
  by_cases hn : n ≤ 3
  · obtain ⟨y, h1, h2, h3, h4⟩ := C66_det_small_partial (fieldArith_isRing (some e)) ht hd hn hne
    exact ⟨y, h1, h2, h3, fun b M hb hM => Or.inl (h4 b M hb hM)⟩
  · obtain ⟨y, h1, h2, h3, h4⟩ := lin_wrap (one := fun m b => detOne (fieldArith (some e)) t.storage m b)
      (P := fun b v => v = (toMat n (matAt t b)).det ∨ v = 0) ht hd (numel_ne_zero.mpr hne) (by
      intro m b hmn hb hget
      subst hmn
      obtain ⟨v, hv, h⟩ := detOne_lu (tiny := some e) (by intro e' he'; cases he'; exact he) (inp := t.storage)
        (m := m) (b := linBatchOffset m (rowMajor bd b)) (M := matAt t b) (by omega) (by
          intro i j hi hj
          obtain ⟨v, hv, hg⟩ := hget i j hi hj
          rw [hg, matAt, hv]; rfl) (by intro h; cases h)
      exact ⟨v, hv, h.imp id And.left⟩)
    refine ⟨y, h1, h2, h3, ?_⟩
    intro b M hb hM
    obtain ⟨v, hv, hP⟩ := h4 b hb
    rw [toMat_matAt hM] at hP
    rcases hP with rfl | rfl
    · exact Or.inl hv
    · exact Or.inr ⟨by omega, hv⟩

/-- **C66, any size, f8/bf16/f16-style kernel** (exact arithmetic, no threshold): the determinant, provided every
matrix of the batch is invertible (a zero pivot is divided by). -/
theorem C66_det_exotic_partial {t : Tensor K} {bd : List Nat} {n : Nat}
    (ht : t.WF) (hd : t.dims = bd ++ [n, n]) (hne : ∀ d ∈ bd, d ≠ 0)
    (hinv : ∀ b (M : Matrix (Fin n) (Fin n) K), InRange b bd → MatrixAt t b M → M.det ≠ 0) :
    ∃ y, t.det (fieldArith none) = .ok y ∧ y.WF ∧ y.dims = perMatrix bd ∧
      ∀ b (M : Matrix (Fin n) (Fin n) K), InRange b bd → MatrixAt t b M →
        y.elem (perMatrixIndex bd b) = some M.det := by
  by_cases hn : n ≤ 3
  · exact C66_det_small_partial (fieldArith_isRing none) ht hd hn hne
  · obtain ⟨y, h1, h2, h3, h4⟩ := lin_wrap (one := fun m b => detOne (fieldArith none) t.storage m b)
      (P := fun b v => v = (toMat n (matAt t b)).det) ht hd (numel_ne_zero.mpr hne) (by
      intro m b hmn hb hget
      subst hmn
      obtain ⟨v, hv, h⟩ := detOne_lu (tiny := none) (by intro e' he'; cases he') (inp := t.storage)
        (m := m) (b := linBatchOffset m (rowMajor bd b)) (M := matAt t b) (by omega) (by
          intro i j hi hj
          obtain ⟨v, hv, hg⟩ := hget i j hi hj
          rw [hg, matAt, hv]; rfl) (fun _ => hinv b _ hb (by
            intro i j
            obtain ⟨v, hv, _⟩ := hget i j i.2 j.2
            rw [hv]; simp [toMat, matAt, hv]))
      rcases h with h | h
      · exact ⟨v, hv, h⟩
      · exact absurd rfl h.2)
    refine ⟨y, h1, h2, h3, ?_⟩
    intro b M hb hM
    obtain ⟨v, hv, hP⟩ := h4 b hb
    rw [hv, hP, toMat_matAt hM]

/-! ### Examples and counterexamples -/

/-- Exact arithmetic of the rationals with the threshold of the f32/f64 kernels, `1e-15` (ops_linalg.c:139). -/
def ratArith : Arith ℚ := fieldArith (some (1 / 10 ^ 15))

/-- Integer arithmetic: division truncates towards zero and is undefined for a zero divisor, and the threshold
`(TYPE)1e-15` is 0 (ops_linalg.c:139); the examples below stay far from overflow. -/
def intArith : Arith Int where
  zero := 0
  one := 1
  add := (· + ·)
  sub := (· - ·)
  mul := (· * ·)
  div a b := if b = 0 then .ub else .ok (a.tdiv b)
  neg := (- ·)
  lt a b := decide (a < b)
  tiny := some 0

/-- Arithmetic with a not-a-number `none` that every operation propagates and that is not less than anything,
for the kernels without threshold (f8/bf16/f16, ops_linalg.c:170-275): dividing by zero gives `none` (infinities
are not told apart from NaN). -/
def nanArith : Arith (Option ℚ) where
  zero := some 0
  one := some 1
  add a b := a.bind fun x => b.map (x + ·)
  sub a b := a.bind fun x => b.map (x - ·)
  mul a b := a.bind fun x => b.map (x * ·)
  div a b := .ok (a.bind fun x => b.bind fun y => if y = 0 then none else some (x / y))
  neg a := a.map (- ·)
  lt a b := match a, b with | some x, some y => decide (x < y) | _, _ => false
  tiny := none

/-- The hypotheses are met by a transposed batch of two 2 × 2 matrices. -/
example : ∃ t : Tensor ℚ, t.WF ∧ t.dims = [2] ++ [2, 2] ∧ (∀ d ∈ [2], d ≠ 0) ∧
    (t.det ratArith).bind (fun y => .ok (y.dims, y.storage)) = .ok ([2], [-2, 2]) :=
  ⟨⟨[1, 3, 2, 4, 2, 0, 5, 1], ⟨[2, 2, 2], [4, 1, 2], 0⟩⟩, ⟨rfl, by
    intro idx hi
    have : ∀ i < 2, ∀ j < 2, ∀ k < 2,
        ([1, 3, 2, 4, 2, 0, 5, 1] : List ℚ)[0 + dot [i, j, k] [4, 1, 2]]?.isSome := by decide
    match idx, hi with
    | [i, j, k], ⟨h1, h2, h3, _⟩ =>
      exact this i h1 j h2 k h3⟩, rfl, by decide, by decide +kernel⟩

/-- The 4 × 4 tensor with the given elements. -/
def mat4 (l : List α) : Tensor α := ⟨l, Layout.fromShape [4, 4]⟩

theorem matrixAt_mat4 {a0 a1 a2 a3 b0 b1 b2 b3 c0 c1 c2 c3 d0 d1 d2 d3 : α} :
    MatrixAt (mat4 [a0, a1, a2, a3, b0, b1, b2, b3, c0, c1, c2, c3, d0, d1, d2, d3]) []
      !![a0, a1, a2, a3; b0, b1, b2, b3; c0, c1, c2, c3; d0, d1, d2, d3] := by
  intro i j
  fin_cases i <;> fin_cases j <;> rfl

/-- The determinant answers `v` for the single matrix of `t`. -/
theorem det_single {α : Type} [CommRing α] {o : Arith α} (h : DetCorrect o) {t : Tensor α} {n : Nat} (ht : t.WF)
    (hd : t.dims = [n, n]) {M : Matrix (Fin n) (Fin n) α} (hM : MatrixAt t [] M) {v : Option α}
    (hv : (t.det o).bind (fun y => .ok (y.elem [0])) = .ok v) : v = some M.det := by
  obtain ⟨y, h1, _, _, h4⟩ := h t [] n ht hd
  have := h4 [] M trivial hM
  rw [h1] at hv
  simp only [Res.bind] at hv
  injection hv with hv
  rw [← hv]
  exact this

/-- **C66 is false for the threshold**: the matrix diag(10⁻¹⁶, 10¹⁶, 1, 1) has determinant 1, the kernel
answers 0. -/
theorem C66_threshold_wrong : ¬ DetCorrect ratArith := by
  intro h
  have := det_single h (t := mat4 [1 / 10 ^ 16, 0, 0, 0, 0, 10 ^ 16, 0, 0, 0, 0, 1, 0, 0, 0, 0, 1]) (n := 4)
    (fresh_wf rfl) rfl matrixAt_mat4 (v := some 0) (by decide +kernel)
  simp [Matrix.det_succ_row_zero, Fin.sum_univ_succ] at this

/-- **C66 is false for integer types**: the factors of the elimination are truncated.  The determinant of this
matrix is 1, the kernel answers 2. -/
theorem C66_integer_wrong : ¬ DetCorrect intArith := by
  intro h
  have := det_single h (t := mat4 [2, 1, 0, 0, 1, 1, 0, 0, 0, 0, 1, 0, 0, 0, 0, 1]) (n := 4)
    (fresh_wf rfl) rfl matrixAt_mat4 (v := some 2) (by decide +kernel)
  rw [show Matrix.det !![(2 : Int), 1, 0, 0; 1, 1, 0, 0; 0, 0, 1, 0; 0, 0, 0, 1] = 1 by decide +kernel] at this
  simp at this

/-- **C66 is false for singular integer matrices**: a zero pivot is not below the threshold 0, and the kernel
divides by it. -/
theorem C66_integer_singular_ub :
    (mat4 [0, 1, 0, 0, 0, 1, 0, 0, 0, 0, 1, 0, 0, 0, 0, 1]).det intArith = .ub := by decide +kernel

/-- **C66 is false for f8/bf16/f16**: the determinant of the zero matrix is not a number. -/
theorem C66_exotic_nan :
    ((mat4 (List.replicate 16 (some 0))).det nanArith).bind (fun y => .ok y.storage) = .ok [none] := by
  decide +kernel

/-- **C66 is false for a batch without matrices**: the batch size 0 is replaced by 1, and the kernel reads a
matrix that is not there. -/
theorem C66_empty_batch_ub {α : Type} (o : Arith α) :
    (⟨[], Layout.fromShape [0, 2, 2]⟩ : Tensor α).det o = .ub := rfl

/-! ## C67 inv -/

/-- **C67** (full statement): if every matrix of the batch is invertible, the result holds the inverses. -/
def Spec.InvCorrect [CommRing α] (o : Arith α) : Prop :=
  ∀ (t : Tensor α) (bd : List Nat) (n : Nat), t.WF → t.dims = bd ++ [n, n] →
    (∀ b (M : Matrix (Fin n) (Fin n) α), InRange b bd → MatrixAt t b M → M.det ≠ 0) →
    ∃ y, t.inv o = .ok y ∧ y.WF ∧ y.dims = bd ++ [n, n] ∧
      ∀ b (M : Matrix (Fin n) (Fin n) α), InRange b bd → MatrixAt t b M →
        ∃ N : Matrix (Fin n) (Fin n) α, MatrixAt y b N ∧ N * M = 1 ∧ M * N = 1

theorem augment_spec {tiny : Option K} {inp : List K} {m : LinMeta} {b : Nat} {M : Nat → Nat → K}
    (h : ∀ i j, i < m.n → j < m.n → linGet inp m b i j = .ok (M i j)) :
    ∃ A, augment (fieldArith tiny) inp m b = .ok A ∧
      Rep A m.n (2 * m.n) fun i j => if j < m.n then M i j else if i = j - m.n then 1 else 0 := by
  refine ⟨_, ?_, rep_rows m.n (2 * m.n) _⟩
  unfold augment
  rw [Res.mapL_eq_ok_of (g := fun i => (List.range (2 * m.n)).map fun j =>
    if j < m.n then M i j else if i = j - m.n then 1 else 0)]
  · rfl
  · intro i hi
    rw [Res.mapL_eq_ok_of (g := M i) fun j hj => h i j (by simpa using hi) (by simpa using hj)]
    simp only [Res.bind]
    congr 1
    rw [Nat.two_mul, List.range_add, List.map_append, List.map_map]
    congr 1
    · apply List.map_congr_left
      intro j hj
      rw [if_pos (by simpa using hj)]
    · apply List.map_congr_left
      intro j hj
      simp [fieldArith]

omit [LinearOrder K] [IsStrictOrderedRing K] in
theorem rightHalf_spec {A : List K} {n : Nat} {N : Nat → Nat → K} (h : Rep A n (2 * n) N) :
    ∃ L, rightHalf A n = .ok L ∧ Rep L n n fun i j => N i (n + j) := by
  refine ⟨_, ?_, rep_rows n n _⟩
  unfold rightHalf
  rw [Res.mapL_eq_ok_of (g := fun i => (List.range n).map fun j => N i (n + j))]
  · rfl
  · intro i hi
    refine Res.mapL_eq_ok_of fun j hj => h.get (by simpa using hi) ?_
    have : j < n := by simpa using hj
    omega

omit [LinearOrder K] [IsStrictOrderedRing K] in
/-- A multiple of the adjugate by the reciprocal of the determinant is the inverse. -/
theorem adjugate_inv {n : Nat} {M N : Matrix (Fin n) (Fin n) K} (hM : M.det ≠ 0)
    (h : ∀ i j, N i j = M.adjugate i j * (1 / M.det)) : N * M = 1 := by
  have : N = (1 / M.det) • M.adjugate := by
    ext i j; rw [h, Matrix.smul_apply, smul_eq_mul, mul_comm]
  rw [this, Matrix.smul_mul, Matrix.adjugate_mul, smul_smul, one_div_mul_cancel hM, one_smul]

/-- One inverse. -/
theorem invOne_spec {tiny : Option K} {inp : List K} {m : LinMeta} {b : Nat} {M : Nat → Nat → K}
    (h : ∀ i j, i < m.n → j < m.n → linGet inp m b i j = .ok (M i j)) (hdet : (toMat m.n M).det ≠ 0) :
    ∃ L N, invOne (fieldArith tiny) inp m b = .ok L ∧ Rep L m.n m.n N ∧ toMat m.n N * toMat m.n M = 1 := by
  unfold invOne
  by_cases e1 : m.n = 1
  · simp only [e1, if_true]
    rw [h 0 0 (by omega) (by omega)]
    generalize m.n = k at *
    subst e1
    rw [Matrix.det_fin_one] at hdet
    have h0 : M 0 0 ≠ 0 := hdet
    refine ⟨[1 / M 0 0], fun _ _ => 1 / M 0 0, ?_, ⟨rfl, ?_⟩, ?_⟩
    · simp [Res.bind, fieldArith, h0]
    · intro i j hi hj
      obtain rfl : i = 0 := by omega
      obtain rfl : j = 0 := by omega
      rfl
    · ext i j
      fin_cases i; fin_cases j
      simp [Matrix.mul_apply, toMat, h0]
  · by_cases e2 : m.n = 2
    · simp only [e2, if_true]
      rw [h 0 0 (by omega) (by omega), h 0 1 (by omega) (by omega), h 1 0 (by omega) (by omega),
        h 1 1 (by omega) (by omega)]
      generalize m.n = k at *
      subst e2
      have hd2 : det2 (fieldArith tiny) (M 0 0) (M 0 1) (M 1 0) (M 1 1) = (toMat 2 M).det := by
        rw [Matrix.det_fin_two]; rfl
      simp only [Res.bind, hd2]
      have hdiv : (fieldArith tiny).div (fieldArith tiny).one (toMat 2 M).det = .ok (1 / (toMat 2 M).det) := by
        simp only [fieldArith]; rw [if_neg hdet]
      rw [hdiv]
      set r := 1 / (toMat 2 M).det with hr
      refine ⟨_, fun i j => ([M 1 1 * r, -M 0 1 * r, -M 1 0 * r, M 0 0 * r] : List K).getD (i * 2 + j) 0, rfl,
        ⟨rfl, ?_⟩, adjugate_inv hdet ?_⟩
      · intro i j hi hj
        interval_cases i <;> interval_cases j <;> rfl
      · intro i j
        rw [Matrix.adjugate_fin_two, ← hr]
        fin_cases i <;> fin_cases j <;> simp [toMat]
    · by_cases e3 : m.n = 3
      · simp only [e3, if_true]
        rw [h 0 0 (by omega) (by omega), h 0 1 (by omega) (by omega), h 0 2 (by omega) (by omega),
          h 1 0 (by omega) (by omega), h 1 1 (by omega) (by omega), h 1 2 (by omega) (by omega),
          h 2 0 (by omega) (by omega), h 2 1 (by omega) (by omega), h 2 2 (by omega) (by omega)]
        generalize m.n = k at *
        subst e3
        have hd3 : det3 (fieldArith tiny) (M 0 0) (M 0 1) (M 0 2) (M 1 0) (M 1 1) (M 1 2) (M 2 0) (M 2 1) (M 2 2) =
            (toMat 3 M).det := by
          rw [Matrix.det_fin_three]
          simp only [det3, fieldArith, toMat]
          simp only [Fin.val_zero, Fin.val_one, Fin.val_two]
          ring
        simp only [Res.bind, hd3]
        have hdiv : (fieldArith tiny).div (fieldArith tiny).one (toMat 3 M).det = .ok (1 / (toMat 3 M).det) := by
          simp only [fieldArith]; rw [if_neg hdet]
        rw [hdiv]
        set r := 1 / (toMat 3 M).det with hr
        refine ⟨_, fun i j => ([(M 1 1 * M 2 2 - M 1 2 * M 2 1) * r, (M 0 2 * M 2 1 - M 0 1 * M 2 2) * r,
          (M 0 1 * M 1 2 - M 0 2 * M 1 1) * r, (M 1 2 * M 2 0 - M 1 0 * M 2 2) * r,
          (M 0 0 * M 2 2 - M 0 2 * M 2 0) * r, (M 0 2 * M 1 0 - M 0 0 * M 1 2) * r,
          (M 1 0 * M 2 1 - M 1 1 * M 2 0) * r, (M 0 1 * M 2 0 - M 0 0 * M 2 1) * r,
          (M 0 0 * M 1 1 - M 0 1 * M 1 0) * r] : List K).getD (i * 3 + j) 0, rfl,
          ⟨rfl, ?_⟩, adjugate_inv hdet ?_⟩
        · intro i j hi hj
          interval_cases i <;> interval_cases j <;> rfl
        · intro i j
          rw [Matrix.adjugate_fin_three, ← hr]
          fin_cases i <;> fin_cases j <;> simp [toMat] <;> (try left) <;> ring
      · simp only [e1, e2, e3, if_false]
        obtain ⟨A, hA, hrep⟩ := augment_spec (tiny := tiny) h
        obtain ⟨A', N, h1, h2, h3, h4⟩ := invLoop_spec (n := m.n) (tiny := tiny) M m.n 0 A _ (by omega) hrep
          (by intro i j _ hj; omega) (by
            have : (toMat m.n fun i j => if j < m.n then M i j else if i = j - m.n then 1 else 0) = toMat m.n M := by
              ext i j; simp [toMat]
            rw [this]; exact hdet) (by
            intro i j hi hj
            rw [if_pos hj, Finset.sum_eq_single i]
            · simp
            · intro l hl hli
              have : ¬ m.n + l < m.n := by omega
              simp [Ne.symm hli]
            · intro hi'; exact absurd (Finset.mem_range.mpr hi) hi')
        obtain ⟨L, h5, h6⟩ := rightHalf_spec h2
        refine ⟨L, _, ?_, h6, ?_⟩
        · rw [hA]
          simp only [Res.bind]
          rw [List.drop_zero] at h1
          rw [h1]
          exact h5
        · ext i j
          rw [Matrix.mul_apply, Matrix.one_apply]
          have := h4 i j i.2 j.2
          rw [h3 i j i.2 j.2] at this
          rw [Finset.sum_fin_eq_sum_range]
          rw [Finset.sum_congr rfl (g := fun l => N i (m.n + l) * M l j)]
          · rw [← this]; simp [Fin.ext_iff]
          · intro l hl
            rw [dif_pos (Finset.mem_range.mp hl)]
            rfl

/-- **C67, exact arithmetic, any size**: if every matrix of the batch is invertible, the result holds the
inverses, for every batch without a zero dimension and every layout. -/
theorem C67_inv_partial (tiny : Option K) {t : Tensor K} {bd : List Nat} {n : Nat}
    (ht : t.WF) (hd : t.dims = bd ++ [n, n]) (hne : ∀ d ∈ bd, d ≠ 0)
    (hinv : ∀ b (M : Matrix (Fin n) (Fin n) K), InRange b bd → MatrixAt t b M → M.det ≠ 0) :
    ∃ y, t.inv (fieldArith tiny) = .ok y ∧ y.WF ∧ y.dims = bd ++ [n, n] ∧
      ∀ b (M : Matrix (Fin n) (Fin n) K), InRange b bd → MatrixAt t b M →
        ∃ N : Matrix (Fin n) (Fin n) K, MatrixAt y b N ∧ N * M = 1 ∧ M * N = 1 := by
  obtain ⟨sb, r, c, hl, hs⟩ := lin_layout ht hd
  have hne' := numel_ne_zero.mpr hne
  have hdec := decodeLin_linMetadata (n := n) (r := r) (c := c) (off := t.layout.offset) hs
  rw [← hl, if_neg hne'] at hdec
  set m : LinMeta := ⟨numel bd, n, bd ++ [n, n], sb ++ [r, c], t.layout.offset, r, c⟩ with hm
  have hone : ∀ b, InRange b bd → ∃ L N, invOne (fieldArith tiny) t.storage m (linBatchOffset m (rowMajor bd b)) =
      .ok L ∧ Rep L n n N ∧ toMat n N * toMat n (matAt t b) = 1 := by
    intro b hb
    have hel : ∀ i j : Nat, i < n → j < n → t.elem (b ++ [i, j]) = some (matAt t b i j) := by
      intro i j hi hj
      obtain ⟨v, hv⟩ := ht.get (idx := b ++ [i, j]) (by
        rw [hd]
        exact (inRange_append (inRange_iff.mp hb).1).mpr ⟨hb, by simp [InRange, hi, hj]⟩)
      rw [matAt, hv]; rfl
    exact invOne_spec (m := m) (M := matAt t b) (fun i j hi hj => linGet_elem hl hs hb (hel i j hi hj))
      (hinv b _ hb fun i j => hel i j i.2 j.2)
  obtain ⟨zs, h1, h2, h3⟩ := runLoop_elem (out := bd)
    (val := fun b => invOne (fieldArith tiny) t.storage m (linBatchOffset m b))
    (fun b hb => by obtain ⟨L, N, h, _⟩ := hone b hb; exact ⟨L, h⟩)
  have hzs : ∀ b, InRange b bd → ∃ L N, zs[rowMajor bd b]? = some L ∧ Rep L n n N ∧
      toMat n N * toMat n (matAt t b) = 1 := by
    intro b hb
    obtain ⟨L, N, h, hr, hp⟩ := hone b hb
    refine ⟨L, N, ?_, hr, hp⟩
    have := h3 b hb L h
    simp only [Layout.fromShape, elem_rowMajor, Nat.zero_add] at this
    exact this
  have hlen : ∀ L ∈ zs, L.length = n * n := by
    intro L hL
    obtain ⟨i, hi, rfl⟩ := List.getElem_of_mem hL
    obtain ⟨L', N, hL', hr, _⟩ := hzs (unravel bd i) (unravel_inRange (by omega))
    rw [rowMajor_unravel (by omega), List.getElem?_eq_getElem hi] at hL'
    injection hL' with hL'
    rw [hL']; exact hr.1
  have hnum : numel (bd ++ [n, n]) = numel bd * (n * n) := by rw [numel_append]; simp [numel]
  have hflat : zs.flatten.length = numel (bd ++ [n, n]) := by
    rw [hnum, ← h2, List.length_flatten, List.map_eq_replicate_iff.mpr hlen, List.sum_replicate, smul_eq_mul]
  refine ⟨⟨zs.flatten, Layout.fromShape (bd ++ [n, n])⟩, ?_, fresh_wf hflat.symm, rfl, ?_⟩
  · unfold Tensor.inv
    rw [hd]
    cases hmd : linMetadata t.layout with
    | ok md =>
      rw [hmd] at hdec
      simp only [Res.bind, invKernel] at hdec ⊢
      rw [hdec]
      simp only [hm] at h1 ⊢
      rw [h1]
      simp only
      rw [shapeSize_eq, if_pos (by omega)]
    | err => rw [hmd] at hdec; cases hdec
    | panic => rw [hmd] at hdec; cases hdec
    | ub => rw [hmd] at hdec; cases hdec
  · intro b M hb hM
    obtain ⟨L, N, hL, hr, hp⟩ := hzs b hb
    rw [toMat_matAt hM] at hp
    refine ⟨toMat n N, ?_, hp, mul_eq_one_comm.mp hp⟩
    intro i j
    simp only [Layout.fromShape, elem_rowMajor, Nat.zero_add]
    rw [rowMajor_append (inRange_iff.mp hb).1]
    have hcell : rowMajor [n, n] [(i : Nat), (j : Nat)] = i * n + j := by simp [rowMajor, numel]
    have hnn : numel [n, n] = n * n := by simp [numel]
    rw [hcell, hnn]
    have := getElem?_blocks hlen hL (c := i * n + j) (cell_lt i.2 j.2)
    rw [List.flatMap_id] at this
    rw [this, hr.2 i j i.2 j.2]
    rfl

/-- The hypotheses are met by a 4 × 4 matrix that needs a row exchange, and the kernel inverts it. -/
example : ∃ (t : Tensor ℚ), t.WF ∧ t.dims = [] ++ [4, 4] ∧
    (∀ b (M : Matrix (Fin 4) (Fin 4) ℚ), InRange b [] → MatrixAt t b M → M.det ≠ 0) ∧
    (t.inv ratArith).bind (fun y => .ok y.storage) =
      .ok [0, 1 / 2, 0, 0, 1, 0, 0, 0, 0, 0, 1, -1, 0, 0, 0, 1] :=
  ⟨mat4 [0, 1, 0, 0, 2, 0, 0, 0, 0, 0, 1, 1, 0, 0, 0, 1], fresh_wf rfl, rfl, by
    intro b M hb hM
    have hb : b = [] := by cases b with | nil => rfl | cons _ _ => cases hb
    subst hb
    have : M = !![0, 1, 0, 0; 2, 0, 0, 0; 0, 0, 1, 1; 0, 0, 0, 1] := by
      ext i j
      have := hM i j
      rw [matrixAt_mat4 i j] at this
      injection this with this
      exact this.symm
    rw [this]
    have : Matrix.det !![(0 : ℚ), 1, 0, 0; 2, 0, 0, 0; 0, 0, 1, 1; 0, 0, 0, 1] = -2 := by decide +kernel
    rw [this]; norm_num, by decide +kernel⟩

/-- **C67 is false for a batch without matrices**, in any arithmetic. -/
theorem C67_empty_batch_ub {α : Type} (o : Arith α) :
    (⟨[], Layout.fromShape [0, 2, 2]⟩ : Tensor α).inv o = .ub := rfl

theorem C67_inv_false [CommRing α] (o : Arith α) : ¬ InvCorrect o := by
  intro h
  obtain ⟨y, h1, _⟩ := h ⟨[], Layout.fromShape [0, 2, 2]⟩ [0] 2 (fresh_wf rfl) rfl (by
    intro b M hb
    match b, hb with
    | [_], hb => exact absurd hb.1 (Nat.not_lt_zero _))
  rw [C67_empty_batch_ub] at h1
  cases h1

/-- **C67 is false for integer types**: the reciprocal of the determinant is truncated.  The matrix
`[[2, 1], [1, 0]]` has determinant -1 and is inverted, `[[2, 0], [0, 2]]` gives the zero matrix. -/
theorem C67_integer_wrong :
    ((⟨[2, 1, 1, 0], Layout.fromShape [2, 2]⟩ : Tensor Int).inv intArith).bind (fun y => .ok y.storage) =
      .ok [0, 1, 1, -2] ∧
    ((⟨[2, 0, 0, 2], Layout.fromShape [2, 2]⟩ : Tensor Int).inv intArith).bind (fun y => .ok y.storage) =
      .ok [0, 0, 0, 0] := by decide +kernel

/-- Even an integer matrix with an integer inverse (determinant 1; the inverse of the leading block is
`[[2, -1], [-3, 2]]`) is not inverted from size 4 on. -/
theorem C67_integer_unimodular_wrong :
    ((mat4 [2, 1, 0, 0, 3, 2, 0, 0, 0, 0, 1, 0, 0, 0, 0, 1]).inv intArith).bind (fun y => .ok y.storage) =
      .ok [0, 0, 0, 0, 1, 0, 0, 0, 0, 0, 1, 0, 0, 0, 0, 1] := by decide +kernel

/-! ## C68 trace -/

/-- **C68** (full statement): the sum of the diagonal of every matrix. -/
def Spec.TraceCorrect (α : Type) [AddCommMonoid α] : Prop :=
  ∀ (t : Tensor α) (bd : List Nat) (n : Nat), t.WF → t.dims = bd ++ [n, n] →
    ∃ y, t.trace 0 (· + ·) = .ok y ∧ y.WF ∧ y.dims = perMatrix bd ∧
      ∀ b (M : Matrix (Fin n) (Fin n) α), InRange b bd → MatrixAt t b M →
        y.elem (perMatrixIndex bd b) = some M.trace

theorem foldL_diag [AddCommMonoid α] {f : Nat → Res α} {g : Nat → α} : ∀ (n : Nat),
    (∀ i, i < n → f i = .ok (g i)) →
    Res.foldL (fun s i => (f i).bind fun v => .ok (s + v)) 0 (List.range n) = .ok (∑ i ∈ Finset.range n, g i)
  | 0, _ => rfl
  | n + 1, h => by
    rw [List.range_succ, foldL_append, foldL_diag n fun i hi => h i (by omega)]
    simp only [Res.bind, Res.foldL, h n (by omega)]
    rw [Finset.sum_range_succ]

/-- **C68** for every batch without a zero dimension, any layout, and any element type whose addition is
associative and commutative (wrapping integers included). -/
theorem C68_trace_partial [AddCommMonoid α] {t : Tensor α} {bd : List Nat} {n : Nat}
    (ht : t.WF) (hd : t.dims = bd ++ [n, n]) (hne : ∀ d ∈ bd, d ≠ 0) :
    ∃ y, t.trace 0 (· + ·) = .ok y ∧ y.WF ∧ y.dims = perMatrix bd ∧
      ∀ b (M : Matrix (Fin n) (Fin n) α), InRange b bd → MatrixAt t b M →
        y.elem (perMatrixIndex bd b) = some M.trace := by
  obtain ⟨y, h1, h2, h3, h4⟩ := lin_wrap (one := fun m b => Res.foldL (fun s i =>
      (linGet t.storage m b i i).bind fun v => .ok (s + v)) 0 (List.range m.n))
    (P := fun b v => v = ∑ i ∈ Finset.range n, matAt t b i i) ht hd (numel_ne_zero.mpr hne) (by
      intro m b hmn hb hget
      subst hmn
      exact ⟨_, foldL_diag m.n (fun i hi => by
        obtain ⟨v, hv, hg⟩ := hget i i hi hi
        rw [hg, matAt, hv]; rfl), rfl⟩)
  refine ⟨y, h1, h2, h3, ?_⟩
  intro b M hb hM
  obtain ⟨v, hv, rfl⟩ := h4 b hb
  rw [hv, Matrix.trace, Finset.sum_fin_eq_sum_range]
  congr 1
  apply Finset.sum_congr rfl
  intro i hi
  rw [dif_pos (Finset.mem_range.mp hi), Matrix.diag_apply, matAt]
  have := hM ⟨i, Finset.mem_range.mp hi⟩ ⟨i, Finset.mem_range.mp hi⟩
  rw [this]; rfl

example : ∃ t : Tensor Int, t.WF ∧ t.dims = [2] ++ [2, 2] ∧ (∀ d ∈ [2], d ≠ 0) ∧
    (t.trace 0 (· + ·)).bind (fun y => .ok (y.dims, y.storage)) = .ok ([2], [5, 13]) :=
  ⟨⟨[1, 2, 3, 4, 5, 6, 7, 8], Layout.fromShape [2, 2, 2]⟩, fresh_wf rfl, rfl, by decide, by decide⟩

/-- **C68 is false for a batch without matrices**. -/
theorem C68_trace_false (α : Type) [AddCommMonoid α] : ¬ TraceCorrect α := by
  intro h
  obtain ⟨y, h1, _⟩ := h ⟨[], Layout.fromShape [0, 2, 2]⟩ [0] 2 (fresh_wf rfl) rfl
  have : (⟨[], Layout.fromShape [0, 2, 2]⟩ : Tensor α).trace 0 (· + ·) = .ub := rfl
  rw [this] at h1
  cases h1

end Hodu
