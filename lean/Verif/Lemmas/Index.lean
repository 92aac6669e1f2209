import Verif.Spec
import Verif.Model.Layout
import Verif.Model.KernelUtils
import Mathlib.Tactic.Ring
import Mathlib.Tactic.Linarith

/-! Helper lemmas about index spaces. -/

namespace Hodu
open Spec

theorem foldl_mul_eq (l : List Nat) (a : Nat) : l.foldl (· * ·) a = a * numel l := by
  induction l generalizing a with
  | nil => simp [numel]
  | cons d ds ih => simp [numel, ih, Nat.mul_assoc]

theorem shapeSize_eq (l : List Nat) : shapeSize l = numel l := by
  simp [shapeSize, foldl_mul_eq]

theorem numel_append (a b : List Nat) : numel (a ++ b) = numel a * numel b := by
  induction a with
  | nil => simp [numel]
  | cons d ds ih => simp [numel, ih, Nat.mul_assoc]

theorem Spec.InRange.length {idx dims : List Nat} (h : InRange idx dims) : idx.length = dims.length := by
  induction dims generalizing idx with
  | nil => cases idx <;> simp_all [InRange]
  | cons d ds ih =>
    cases idx with
    | nil => simp [InRange] at h
    | cons i is => simp [ih h.2]

theorem inRange_iff {idx dims : List Nat} :
    InRange idx dims ↔ idx.length = dims.length ∧
      ∀ k (h : k < idx.length) (h' : k < dims.length), idx[k] < dims[k] := by
  induction dims generalizing idx with
  | nil => cases idx <;> simp [InRange]
  | cons d ds ih =>
    cases idx with
    | nil => simp [InRange]
    | cons i is =>
      simp only [InRange, ih, List.length_cons, Nat.add_right_cancel_iff]
      constructor
      · rintro ⟨h1, h2, h3⟩
        refine ⟨h2, fun k hk hk' => ?_⟩
        cases k with
        | zero => simpa using h1
        | succ k => simpa using h3 k (by omega) (by omega)
      · rintro ⟨h2, h3⟩
        refine ⟨by simpa using h3 0 (by omega) (by omega), h2, fun k hk hk' => ?_⟩
        exact h3 (k+1) (Nat.succ_lt_succ hk) (Nat.succ_lt_succ hk')

theorem rowMajor_lt {idx dims : List Nat} (h : InRange idx dims) : rowMajor dims idx < numel dims := by
  induction dims generalizing idx with
  | nil => cases idx <;> simp_all [InRange, rowMajor, numel]
  | cons d ds ih =>
    cases idx with
    | nil => simp [InRange] at h
    | cons i is =>
      have h2 := ih h.2
      have h1 := h.1
      simp only [rowMajor, numel]
      have : (i + 1) * numel ds ≤ d * numel ds := Nat.mul_le_mul_right _ h1
      rw [Nat.add_mul] at this
      omega

theorem numel_pos_of_inRange {idx dims : List Nat} (h : InRange idx dims) : 0 < numel dims :=
  Nat.lt_of_le_of_lt (Nat.zero_le _) (rowMajor_lt h)

theorem unravel_inRange {dims : List Nat} {n : Nat} (h : n < numel dims) :
    InRange (unravel dims n) dims := by
  induction dims generalizing n with
  | nil => simp [unravel, InRange]
  | cons d ds ih =>
    simp only [numel] at h
    have hp : 0 < numel ds := by
      rcases Nat.eq_zero_or_pos (numel ds) with h0 | h0
      · rw [h0] at h; omega
      · exact h0
    refine ⟨?_, ih (Nat.mod_lt _ hp)⟩
    exact Nat.div_lt_of_lt_mul (by rwa [Nat.mul_comm])

theorem rowMajor_unravel {dims : List Nat} {n : Nat} (h : n < numel dims) :
    rowMajor dims (unravel dims n) = n := by
  induction dims generalizing n with
  | nil => simp [numel] at h; simp [rowMajor, h]
  | cons d ds ih =>
    simp only [numel] at h
    have hp : 0 < numel ds := by
      rcases Nat.eq_zero_or_pos (numel ds) with h0 | h0
      · rw [h0] at h; omega
      · exact h0
    simp only [unravel, rowMajor, ih (Nat.mod_lt _ hp)]
    rw [Nat.mul_comm]; exact Nat.div_add_mod _ _

theorem unravel_rowMajor {idx dims : List Nat} (h : InRange idx dims) :
    unravel dims (rowMajor dims idx) = idx := by
  induction dims generalizing idx with
  | nil => cases idx <;> simp_all [InRange, unravel]
  | cons d ds ih =>
    cases idx with
    | nil => simp [InRange] at h
    | cons i is =>
      have hl := rowMajor_lt h.2
      have hp : 0 < numel ds := by omega
      simp only [rowMajor, unravel]
      rw [show i * numel ds + rowMajor ds is = rowMajor ds is + numel ds * i by ring]
      rw [Nat.add_mul_div_left _ _ hp, Nat.add_mul_mod_self_left, Nat.div_eq_of_lt hl,
        Nat.mod_eq_of_lt hl, ih h.2]
      simp

theorem rowMajor_inj {a b dims : List Nat} (ha : InRange a dims) (hb : InRange b dims)
    (h : rowMajor dims a = rowMajor dims b) : a = b := by
  rw [← unravel_rowMajor ha, ← unravel_rowMajor hb, h]

theorem unravel_length (dims : List Nat) (n : Nat) : (unravel dims n).length = dims.length := by
  induction dims generalizing n with
  | nil => rfl
  | cons d ds ih => simp [unravel, ih]

/-! ### Contiguous strides -/

theorem computeStrides_cons (d : Nat) (ds : List Nat) :
    Layout.computeStrides (d :: ds) = numel ds :: Layout.computeStrides ds := by
  induction ds generalizing d with
  | nil => simp [Layout.computeStrides, numel]
  | cons e es ih =>
    have h := ih e
    simp only [Layout.computeStrides] at h ⊢
    rw [h]
    simp [numel, Nat.mul_comm]

theorem computeStrides_length (ds : List Nat) : (Layout.computeStrides ds).length = ds.length := by
  induction ds with
  | nil => rfl
  | cons d ds ih => simp [computeStrides_cons, ih]

theorem dot_computeStrides (dims idx : List Nat) :
    dot idx (Layout.computeStrides dims) = rowMajor dims idx := by
  induction dims generalizing idx with
  | nil => cases idx <;> simp [Layout.computeStrides, dot, rowMajor]
  | cons d ds ih =>
    cases idx with
    | nil => simp [dot, rowMajor]
    | cons i is => simp [computeStrides_cons, dot, rowMajor, ih]

theorem dot_append {a b : List Nat} {s t : List Nat} (h : a.length = s.length) :
    dot (a ++ b) (s ++ t) = dot a s + dot b t := by
  induction a generalizing s with
  | nil =>
    cases s with
    | nil => simp [dot]
    | cons => simp at h
  | cons x xs ih =>
    cases s with
    | nil => simp at h
    | cons y ys => simp [dot, ih (by simpa using h), Nat.add_assoc]

theorem dot_nil_right (a : List Nat) : dot a [] = 0 := by cases a <;> rfl

theorem isContiguousLoop_append (e : Nat) (a b : List (Nat × Nat)) :
    Layout.isContiguousLoop e (a ++ b) =
      (Layout.isContiguousLoop e a && Layout.isContiguousLoop (e * numel (a.map Prod.fst)) b) := by
  induction a generalizing e with
  | nil => simp [Layout.isContiguousLoop, numel]
  | cons x xs ih =>
    obtain ⟨d, s⟩ := x
    simp only [List.cons_append, Layout.isContiguousLoop, List.map_cons, numel]
    split
    · simp
    · rw [ih, Nat.mul_assoc]

theorem numel_reverse (a : List Nat) : numel a.reverse = numel a := by
  induction a with
  | nil => rfl
  | cons d ds ih => simp [numel_append, numel, ih, Nat.mul_comm]

theorem map_fst_zip' {a b : List Nat} (h : a.length = b.length) : (a.zip b).map Prod.fst = a := by
  simp [List.map_fst_zip (by omega : a.length ≤ b.length)]

theorem isContiguous_iff {l : Layout} (h : l.strides.length = l.dims.length) :
    l.isContiguous = true ↔ l.strides = Layout.computeStrides l.dims := by
  obtain ⟨dims, strides, off⟩ := l
  simp only [Layout.isContiguous] at *
  induction dims generalizing strides with
  | nil =>
    have : strides = [] := by simpa using h
    subst this; simp [Layout.isContiguousLoop, Layout.computeStrides]
  | cons d ds ih =>
    cases strides with
    | nil => simp at h
    | cons s ss =>
      have hl : ss.length = ds.length := by simpa using h
      have := ih ss hl
      simp only [List.zip_cons_cons, List.reverse_cons, isContiguousLoop_append, Bool.and_eq_true,
        this, computeStrides_cons, List.map_reverse, map_fst_zip' hl.symm, numel_reverse,
        List.cons.injEq, Layout.isContiguousLoop]
      constructor
      · rintro ⟨h1, h2⟩
        refine ⟨?_, h1⟩
        by_contra hc
        simp [hc] at h2
      · rintro ⟨h1, h2⟩
        simp [h1, h2]

/-! ### The C index helpers -/

theorem stridedIndexLoop_acc (n acc : Nat) (l : List (Nat × Nat)) :
    stridedIndexLoop n acc l = acc + stridedIndexLoop n 0 l := by
  induction l generalizing n acc with
  | nil => simp [stridedIndexLoop]
  | cons x xs ih =>
    obtain ⟨d, s⟩ := x
    simp only [stridedIndexLoop]
    rw [ih, ih (acc := 0 + _)]; omega

theorem stridedIndexLoop_append (n : Nat) (a b : List (Nat × Nat)) :
    stridedIndexLoop n 0 (a ++ b) =
      stridedIndexLoop n 0 a + stridedIndexLoop (n / numel (a.map Prod.fst)) 0 b := by
  induction a generalizing n with
  | nil => simp [stridedIndexLoop, numel]
  | cons x xs ih =>
    obtain ⟨d, s⟩ := x
    simp only [List.cons_append, stridedIndexLoop, List.map_cons, numel]
    rw [stridedIndexLoop_acc, stridedIndexLoop_acc (l := xs), ih, Nat.div_div_eq_div_mul]
    omega

/-- Only the remainder modulo the element count matters. -/
theorem stridedIndexLoop_mod (n : Nat) (a : List (Nat × Nat)) :
    stridedIndexLoop (n % numel (a.map Prod.fst)) 0 a = stridedIndexLoop n 0 a := by
  induction a generalizing n with
  | nil => simp [stridedIndexLoop]
  | cons x xs ih =>
    obtain ⟨d, s⟩ := x
    simp only [stridedIndexLoop, List.map_cons, numel]
    rw [stridedIndexLoop_acc, stridedIndexLoop_acc (acc := 0 + n % d * s)]
    rw [Nat.mod_mul_right_div_self, ih, Nat.mod_mul_right_mod]

theorem getStridedIndex_eq_dot {dims strides : List Nat} {n : Nat}
    (hl : strides.length = dims.length) (hn : n < numel dims) :
    getStridedIndex n dims strides = dot (unravel dims n) strides := by
  unfold getStridedIndex
  induction dims generalizing strides n with
  | nil =>
    have : strides = [] := by simpa using hl
    subst this; simp [stridedIndexLoop, unravel, dot]
  | cons d ds ih =>
    cases strides with
    | nil => simp at hl
    | cons s ss =>
      have hl' : ss.length = ds.length := by simpa using hl
      simp only [numel] at hn
      have hp : 0 < numel ds := by
        rcases Nat.eq_zero_or_pos (numel ds) with h0 | h0
        · rw [h0] at hn; omega
        · exact h0
      simp only [List.zip_cons_cons, List.reverse_cons, stridedIndexLoop_append, List.map_reverse,
        map_fst_zip' hl'.symm, numel_reverse, stridedIndexLoop, unravel, dot]
      rw [← ih hl' (Nat.mod_lt _ hp)]
      have hm := stridedIndexLoop_mod n (ds.zip ss).reverse
      rw [List.map_reverse, map_fst_zip' hl'.symm, numel_reverse] at hm
      rw [hm, Nat.mod_eq_of_lt (Nat.div_lt_of_lt_mul (by rwa [Nat.mul_comm] at hn))]
      omega

theorem cContigLoop_append (e : Nat) (a b : List (Nat × Nat)) :
    cContigLoop e (a ++ b) =
      (cContigLoop e a && cContigLoop (e * numel (a.map Prod.fst)) b) := by
  induction a generalizing e with
  | nil => simp [cContigLoop, numel]
  | cons x xs ih =>
    obtain ⟨d, s⟩ := x
    simp only [List.cons_append, cContigLoop, List.map_cons, numel]
    split
    · simp
    · rw [ih, Nat.mul_assoc]

/-- If the C contiguity test succeeds, every in-range index is addressed by its row-major position. -/
theorem dot_eq_rowMajor_of_cContig {dims strides idx : List Nat}
    (hl : strides.length = dims.length) (hc : cIsContiguous dims strides = true)
    (hi : InRange idx dims) : dot idx strides = rowMajor dims idx := by
  unfold cIsContiguous at hc
  induction dims generalizing strides idx with
  | nil => cases idx <;> simp_all [InRange, dot, rowMajor]
  | cons d ds ih =>
    cases strides with
    | nil => simp at hl
    | cons s ss =>
      cases idx with
      | nil => simp [InRange] at hi
      | cons i is =>
        have hl' : ss.length = ds.length := by simpa using hl
        simp only [List.zip_cons_cons, List.reverse_cons, cContigLoop_append, Bool.and_eq_true,
          List.map_reverse, map_fst_zip' hl'.symm, numel_reverse, cContigLoop, Nat.one_mul] at hc
        simp only [dot, rowMajor, ih hl' hc.1 hi.2]
        by_cases hd : 1 < d ∧ numel ds ≠ s
        · simp [hd] at hc
        · have hi1 := hi.1
          by_cases h1 : 1 < d
          · have : numel ds = s := by
              by_contra hne; exact hd ⟨h1, hne⟩
            rw [this]
          · have : i = 0 := by omega
            subst this; simp

end Hodu
