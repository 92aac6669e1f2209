import Verif.Model.Window
import Verif.Lemmas.Meta
import Verif.Props.ConvAdjoint
import Verif.Props.Indexing
import Verif.Props.SmallFloat
import Mathlib.Algebra.BigOperators.Intervals
import Mathlib.Order.MinMax

/-!
# C83: sliding-window reductions

`reduce_window` computes, at every output position, the reduction of the input elements that lie in the window there.
-/

namespace Hodu
open Spec

/-! ## Specification -/

/-- Input element `idx` lies in the window of output position `o`: in every dimension the padded coordinate `idx + lo`
is one of `o * s, ..., o * s + w - 1`. -/
def Spec.InWindow : List (Nat × Nat) → List Nat → List Nat → List Nat → List Nat → Prop
  | (lo, _) :: ps, s :: ss, w :: ws, o :: os, i :: is =>
    (o * s ≤ i + lo ∧ i + lo < o * s + w) ∧ InWindow ps ss ws os is
  | [], [], [], [], [] => True
  | _, _, _, _, _ => False

/-- The window fits in the padded input and the strides are positive. -/
def Spec.WindowFits : List Nat → List (Nat × Nat) → List Nat → List Nat → Prop
  | d :: ds, (lo, hi) :: ps, w :: ws, s :: ss => (w ≤ d + lo + hi ∧ 0 < s) ∧ WindowFits ds ps ws ss
  | _, _, _, _ => True

/-- `out` counts the positions at which the window lies inside of the padded input. -/
def Spec.WindowCount : List Nat → List (Nat × Nat) → List Nat → List Nat → List Nat → Prop
  | d :: ds, (lo, hi) :: ps, w :: ws, s :: ss, o :: os =>
    (∀ k, k < o ↔ k * s + w ≤ lo + d + hi) ∧ WindowCount ds ps ws ss os
  | [], [], [], [], [] => True
  | _, _, _, _, _ => False

/-- Position `w` of the window at output position `o`, in the padded input. -/
def Spec.windowAt : List Nat → List Nat → List Nat → List Nat
  | s :: ss, o :: os, w :: ws => (o * s + w) :: windowAt ss os ws
  | _, _, _ => []

/-- The input index at a position of the padded input, `none` in the padding. -/
def Spec.unpad : List Nat → List (Nat × Nat) → List Nat → Option (List Nat)
  | d :: ds, (lo, _) :: ps, p :: pos =>
    if lo ≤ p ∧ p < lo + d then (unpad ds ps pos).map ((p - lo) :: ·) else none
  | [], [], [] => some []
  | _, _, _ => none

instance Spec.decInWindow : ∀ ps ss ws os is, Decidable (InWindow ps ss ws os is)
  | (lo, _) :: ps, s :: ss, w :: ws, o :: os, i :: is =>
    have := decInWindow ps ss ws os is
    inferInstanceAs (Decidable ((o * s ≤ i + lo ∧ i + lo < o * s + w) ∧ InWindow ps ss ws os is))
  | [], [], [], [], [] => isTrue trivial
  | [], _ :: _, _, _, _ | [], [], _ :: _, _, _ | [], [], [], _ :: _, _ | [], [], [], [], _ :: _ => isFalse id
  | _ :: _, [], _, _, _ | _ :: _, _ :: _, [], _, _ | _ :: _, _ :: _, _ :: _, [], _
  | _ :: _, _ :: _, _ :: _, _ :: _, [] => isFalse id

/-! ## Lemmas -/

theorem flatPad_length (ps : List (Nat × Nat)) : (flatPad ps).length = 2 * ps.length := by
  induction ps with
  | nil => rfl
  | cons p ps ih => simp [flatPad, ih]; omega

theorem flatPad_append (a b : List (Nat × Nat)) : flatPad (a ++ b) = flatPad a ++ flatPad b := by
  induction a with
  | nil => rfl
  | cons p a ih => simp [flatPad, ih]

theorem cWindowPos_eq {pre ps : List (Nat × Nat)} {ds ss os ws : List Nat} (hp : ps.length = ds.length)
    (hs : ss.length = ds.length) (ho : os.length = ds.length) (hw : ws.length = ds.length) :
    cWindowPos (flatPad (pre ++ ps)) pre.length ds ss os ws = unpad ds ps (windowAt ss os ws) := by
  induction ds generalizing pre ps ss os ws with
  | nil =>
    cases ps <;> cases ss <;> cases os <;> cases ws <;> simp at hp hs ho hw
    rfl
  | cons d ds ih =>
    cases ps with
    | nil => simp at hp
    | cons q ps =>
    cases ss with
    | nil => simp at hs
    | cons s ss =>
    cases os with
    | nil => simp at ho
    | cons o os =>
    cases ws with
    | nil => simp at hw
    | cons w ws =>
    obtain ⟨lo, hi⟩ := q
    have hg : (flatPad (pre ++ (lo, hi) :: ps)).getD (pre.length * 2) 0 = lo := by
      rw [flatPad_append, List.getD_eq_getElem?_getD, List.getElem?_append_right (by rw [flatPad_length]; omega),
        flatPad_length, show pre.length * 2 - 2 * pre.length = 0 by omega]
      rfl
    have h := ih (pre := pre ++ [(lo, hi)]) (ps := ps) (ss := ss) (os := os) (ws := ws) (by simpa using hp) (by simpa using hs) (by simpa using ho)
      (by simpa using hw)
    simp only [List.append_assoc, List.singleton_append, List.length_append, List.length_singleton] at h
    simp only [cWindowPos, hg, h, windowAt, unpad]
    by_cases h1 : o * s + w < lo
    · rw [if_pos h1, if_neg (by omega)]
    · by_cases h2 : d ≤ o * s + w - lo
      · rw [if_neg h1, if_pos h2, if_neg (by omega)]
      · rw [if_neg h1, if_neg h2, if_pos (by omega)]

theorem unpad_inRange {ds pos idx : List Nat} {ps : List (Nat × Nat)} (h : unpad ds ps pos = some idx) :
    InRange idx ds := by
  induction ds generalizing ps pos idx with
  | nil => cases ps <;> cases pos <;> simp [unpad] at h; subst h; trivial
  | cons d ds ih =>
    cases ps with
    | nil => simp [unpad] at h
    | cons q ps =>
      cases pos with
      | nil => simp [unpad] at h
      | cons p pos =>
        obtain ⟨lo, hi⟩ := q
        unfold unpad at h
        split at h
        · obtain ⟨r, hr, rfl⟩ := Option.map_eq_some_iff.mp h
          exact ⟨by omega, ih hr⟩
        · cases h

/-- An input element is met in the window exactly when it lies in it. -/
theorem inWindow_iff {ds ss ws os idx : List Nat} {ps : List (Nat × Nat)} (hp : ps.length = ds.length)
    (hs : ss.length = ds.length) (hw : ws.length = ds.length) (ho : os.length = ds.length) (hi : InRange idx ds) :
    InWindow ps ss ws os idx ↔ ∃ w, InRange w ws ∧ unpad ds ps (windowAt ss os w) = some idx := by
  induction ds generalizing ps ss ws os idx with
  | nil =>
    cases ps <;> cases ss <;> cases os <;> cases ws <;> simp at hp hs ho hw
    obtain rfl : idx = [] := List.eq_nil_of_length_eq_zero hi.length
    simp only [InWindow, true_iff]
    exact ⟨[], trivial, rfl⟩
  | cons d ds ih =>
    cases ps with
    | nil => simp at hp
    | cons q ps =>
    cases ss with
    | nil => simp at hs
    | cons s ss =>
    cases os with
    | nil => simp at ho
    | cons o os =>
    cases ws with
    | nil => simp at hw
    | cons w ws =>
    cases idx with
    | nil => exact absurd hi id
    | cons i idx =>
    obtain ⟨lo, hi'⟩ := q
    obtain ⟨h1, h2⟩ := hi
    have ih := ih (ps := ps) (ss := ss) (ws := ws) (os := os) (idx := idx) (by simpa using hp) (by simpa using hs)
      (by simpa using hw) (by simpa using ho) h2
    simp only [InWindow]
    rw [ih]
    constructor
    · rintro ⟨⟨ha, hb⟩, v, hv, hu⟩
      refine ⟨(i + lo - o * s) :: v, ⟨by omega, hv⟩, ?_⟩
      simp only [windowAt, unpad]
      rw [if_pos (by omega), hu, Option.map_some]
      congr 2
      omega
    · rintro ⟨v, hv, hu⟩
      cases v with
      | nil => exact absurd hv id
      | cons x v =>
        simp only [windowAt, unpad] at hu
        split at hu
        · rename_i hc
          obtain ⟨r, hr, he⟩ := Option.map_eq_some_iff.mp hu
          injection he with e1 e2
          subst e2
          have := hv.1
          exact ⟨⟨by omega, by omega⟩, v, hv.2, hr⟩
        · cases hu

theorem windowOut_ok {ds ws ss : List Nat} {ps : List (Nat × Nat)} (hp : ps.length = ds.length)
    (hw : ws.length = ds.length) (hs : ss.length = ds.length) (h : WindowFits ds ps ws ss) :
    ∃ out, windowOut ds ps ws ss = .ok out ∧ out.length = ds.length ∧ WindowCount ds ps ws ss out := by
  induction ds generalizing ps ss ws with
  | nil =>
    cases ps <;> cases ss <;> cases ws <;> simp at hp hs hw
    exact ⟨[], rfl, rfl, trivial⟩
  | cons d ds ih =>
    cases ps with
    | nil => simp at hp
    | cons q ps =>
    cases ss with
    | nil => simp at hs
    | cons s ss =>
    cases ws with
    | nil => simp at hw
    | cons w ws =>
    obtain ⟨lo, hi⟩ := q
    obtain ⟨⟨h1, h2⟩, h3⟩ := h
    obtain ⟨out, e1, e2, e3⟩ := ih (ps := ps) (ws := ws) (ss := ss) (by simpa using hp) (by simpa using hw)
      (by simpa using hs) h3
    refine ⟨((d + lo + hi - w) / s + 1) :: out, ?_, by simp [e2], ?_, e3⟩
    · simp only [windowOut]
      rw [if_neg (by omega), if_neg (by omega), e1]
      rfl
    · intro k
      rw [Nat.lt_succ_iff, Nat.le_div_iff_mul_le h2]
      omega

theorem Spec.WindowCount.length {ds ws ss out : List Nat} {ps : List (Nat × Nat)} (h : WindowCount ds ps ws ss out)
    (hs : ss.length = ds.length) : out.length = ds.length := by
  induction ds generalizing ps ws ss out with
  | nil =>
    cases ss <;> simp at hs
    cases ps <;> cases ws <;> cases out <;> first | rfl | exact absurd h id
  | cons d ds ih =>
    cases ps <;> cases ss <;> cases ws <;> cases out <;> first | exact absurd h id | skip
    simpa using ih h.2 (by simpa using hs)

theorem windowOut_panic {ds ws ss : List Nat} {ps : List (Nat × Nat)} (hp : ps.length = ds.length)
    (hw : ws.length = ds.length) (hs : ss.length = ds.length) (h : ¬ WindowFits ds ps ws ss) :
    windowOut ds ps ws ss = .panic := by
  induction ds generalizing ps ss ws with
  | nil =>
    cases ps <;> cases ss <;> cases ws <;> simp at hp hs hw
    exact absurd trivial h
  | cons d ds ih =>
    cases ps with
    | nil => simp at hp
    | cons q ps =>
    cases ss with
    | nil => simp at hs
    | cons s ss =>
    cases ws with
    | nil => simp at hw
    | cons w ws =>
    obtain ⟨lo, hi⟩ := q
    simp only [windowOut]
    by_cases h1 : d + lo + hi < w
    · rw [if_pos h1]
    · by_cases h2 : s = 0
      · rw [if_neg h1, if_pos h2]
      · rw [if_neg h1, if_neg h2, ih (by simpa using hp) (by simpa using hw) (by simpa using hs)]
        · rfl
        · intro h3
          exact h ⟨⟨by omega, by omega⟩, h3⟩

theorem foldL_ok {f : σ → β → Res σ} {g : σ → β → σ} (l : List β) (s : σ) (h : ∀ s, ∀ x ∈ l, f s x = .ok (g s x)) :
    Res.foldL f s l = .ok (l.foldl g s) := by
  induction l generalizing s with
  | nil => rfl
  | cons x l ih =>
    rw [Res.foldL, h s x (by simp), Res.ok_bind, ih _ fun a y hy => h a y (by simp [hy])]
    rfl

/-! ## The property -/

/-- C83 (rank at most 16, the size of the arrays in the kernel; exact arithmetic is a parameter): for every layout and
every accumulation, the output has one element per position at which the window fits, and that element is the
accumulation, in row-major order of the window, of the elements of the padded input (`none` in the padding). -/
theorem C83_fold_partial {t : Tensor α} {window strides : List Nat} {pad : List (Nat × Nat)} (init : A)
    (step : A → Option α → A) (fin : A → Nat → β) (ht : t.WF) (hr : t.dims.length ≤ 16)
    (hw : window.length = t.dims.length) (hs : strides.length = t.dims.length) (hp : pad.length = t.dims.length)
    (hf : WindowFits t.dims pad window strides) :
    ∃ r, t.reduceWindow init step fin window strides pad = .ok r ∧ r.WF ∧
      r.layout = Layout.fromShape r.dims ∧
      WindowCount t.dims pad window strides r.dims ∧
      ∀ o, InRange o r.dims → r.elem o = some (fin ((indices window).foldl (fun acc w =>
        step acc ((unpad t.dims pad (windowAt strides o w)).bind t.elem)) init) (numel window)) := by
  obtain ⟨out, e1, e2, e3⟩ := windowOut_ok hp hw hs hf
  have hsl : t.layout.strides.length = t.dims.length := ht.1
  have hpl : (flatPad pad).length = 2 * t.dims.length := by rw [flatPad_length, hp]
  generalize hmd : (shapeSize out :: t.dims.length :: (t.dims ++ (t.layout.strides ++ (t.layout.offset ::
    (window ++ (strides ++ (flatPad pad ++ (out ++ [])))))))) = md
  have hmeta : windowMetadata t.layout window strides (flatPad pad) out = md := by
    rw [← hmd]; simp [windowMetadata, Layout.ndim]
  have a0 : At md 0 (shapeSize out :: t.dims.length :: (t.dims ++ (t.layout.strides ++ (t.layout.offset ::
    (window ++ (strides ++ (flatPad pad ++ (out ++ [])))))))) := by rw [hmd]; exact At.start md
  have a1 := a0.next 1 rfl
  have a2 := a1.next 2 rfl
  have a3 := a2.skip rfl (2 + t.dims.length) rfl
  have a4 := a3.skip hsl (2 + 2 * t.dims.length) (by omega)
  have a5 := a4.next (2 + 2 * t.dims.length + 1) (by omega)
  have a6 := a5.skip hw (2 + 3 * t.dims.length + 1) (by omega)
  have a7 := a6.skip hs (2 + 4 * t.dims.length + 1) (by omega)
  have a8 := a7.skip hpl (2 + 6 * t.dims.length + 1) (by omega)
  have hcell : ∀ o, InRange o out →
      (Res.foldL (fun acc w => windowStep step t.storage t.dims t.layout.strides strides (flatPad pad) t.layout.offset
        (cUnravel out (rowMajor out o)).1 acc (cUnravel window w).1) init (List.range (shapeSize window))).map
          (fun acc => fin acc (shapeSize window)) = .ok (fin ((indices window).foldl (fun acc w =>
        step acc ((unpad t.dims pad (windowAt strides o w)).bind t.elem)) init) (numel window)) := by
    intro o ho
    rw [cUnravel_rowMajor ho, foldL_ok (g := fun acc w => step acc ((unpad t.dims pad (windowAt strides o
      (unravel window w))).bind t.elem))]
    · simp only [Res.map, shapeSize_eq, indices, List.foldl_map]
    · intro acc w hwm
      have hwl : w < numel window := by simpa [shapeSize_eq] using hwm
      have h1 : (cUnravel window w).1 = unravel window w := by rw [cUnravel_eq, Nat.mod_eq_of_lt hwl]
      have h2 := cWindowPos_eq (pre := []) hp hs (by rw [ho.length, e2])
        (by rw [(unravel_inRange hwl).length, hw] : (unravel window w).length = t.dims.length)
      simp only [List.nil_append, List.length_nil] at h2
      unfold windowStep
      rw [h1, h2]
      cases hu : unpad t.dims pad (windowAt strides o (unravel window w)) with
      | none => rfl
      | some ic =>
        obtain ⟨y, hy⟩ := ht.get (unpad_inRange hu)
        simp only [readC_elem hy, Res.map, Option.bind_some, hy]
  obtain ⟨zs, hz1, hz2, hz3⟩ := runLoop_elem (out := out) (val := fun k =>
      (Res.foldL (fun acc w => windowStep step t.storage t.dims t.layout.strides strides (flatPad pad) t.layout.offset
        (cUnravel out k).1 acc (cUnravel window w).1) init (List.range (shapeSize window))).map
          fun acc => fin acc (shapeSize window)) fun o ho => ⟨_, hcell o ho⟩
  refine ⟨⟨zs, Layout.fromShape out⟩, ?_, fresh_wf hz2.symm, rfl, e3, fun o ho => hz3 o ho _ (hcell o ho)⟩
  unfold Tensor.reduceWindow
  rw [if_neg (by simpa using hw), if_neg (by simpa using hs), if_neg (by simpa using hp), e1, Res.ok_bind, hmeta]
  unfold windowKernel
  rw [a0.read, Res.ok_bind, a1.read, Res.ok_bind, a2.slice rfl, Res.ok_bind, a3.slice hsl, Res.ok_bind, a4.read,
    Res.ok_bind, a5.slice hw, Res.ok_bind, a6.slice hs, Res.ok_bind, a7.slice hpl, Res.ok_bind, a8.slice e2,
    Res.ok_bind, if_neg (by omega), shapeSize_eq, hz1]
  rfl

/-- C83, rejected arguments: a length that is not the rank is an error; a window larger than the padded input or a
stride of 0 is a panic. -/
theorem C83_errors {t : Tensor α} {window strides : List Nat} {pad : List (Nat × Nat)} (init : A)
    (step : A → Option α → A) (fin : A → Nat → β) :
    (¬ (window.length = t.dims.length ∧ strides.length = t.dims.length ∧ pad.length = t.dims.length) →
      t.reduceWindow init step fin window strides pad = .err) ∧
    (window.length = t.dims.length → strides.length = t.dims.length → pad.length = t.dims.length →
      ¬ WindowFits t.dims pad window strides →
      t.reduceWindow init step fin window strides pad = .panic) := by
  constructor
  · intro h
    unfold Tensor.reduceWindow
    split_ifs <;> first | rfl | (exfalso; apply h; simp_all)
  · intro h1 h2 h3 h4
    unfold Tensor.reduceWindow
    rw [if_neg (by simpa using h1), if_neg (by simpa using h2), if_neg (by simpa using h3),
      windowOut_panic h3 h1 h2 h4]
    rfl

/-! ## Sums -/

theorem sum_congr' [AddCommMonoid M] {L : List β} {f g : β → M} (h : ∀ x ∈ L, f x = g x) : lsum L f = lsum L g := by
  unfold lsum
  rw [List.map_congr_left h]

theorem sum_zero' [AddCommMonoid M] (L : List β) : lsum L (fun _ => (0 : M)) = 0 := by
  induction L with
  | nil => rfl
  | cons a L ih => simp only [lsum, List.map_cons, List.sum_cons] at ih ⊢; rw [ih, add_zero]

theorem sum_window_axis [AddCommMonoid M] (G : Nat → M) (lo p d W : Nat) :
    lsum (List.range W) (fun w => if lo ≤ p + w ∧ p + w < lo + d then G (p + w - lo) else 0) =
      lsum (List.range d) fun i => if p ≤ i + lo ∧ i + lo < p + W then G i else 0 := by
  have key : ∀ n (f : Nat → M), lsum (List.range n) f = ∑ i ∈ Finset.range n, f i := by
    intro n f
    induction n with
    | zero => rfl
    | succ n ih => rw [Finset.sum_range_succ, ← ih]; simp [lsum, List.range_succ]
  rw [key, key, ← Finset.sum_filter, ← Finset.sum_filter]
  refine Finset.sum_nbij' (fun w => p + w - lo) (fun i => i + lo - p) ?_ ?_ ?_ ?_ ?_
  · intro w hw; simp only [Finset.mem_filter, Finset.mem_range] at hw ⊢; omega
  · intro w hw; simp only [Finset.mem_filter, Finset.mem_range] at hw ⊢; omega
  · intro w hw; simp only [Finset.mem_filter, Finset.mem_range] at hw ⊢; omega
  · intro w hw; simp only [Finset.mem_filter, Finset.mem_range] at hw ⊢; omega
  · intro w _; rfl

theorem lsum_indices_cons [AddCommMonoid M] (d : Nat) (ds : List Nat) (f : List Nat → M) :
    lsum (indices (d :: ds)) f = lsum (List.range d) fun i => lsum (indices ds) fun is => f (i :: is) := by
  rw [indices_cons]
  induction List.range d with
  | nil => rfl
  | cons a l ih =>
    simp only [List.flatMap_cons, lsum, List.map_append, List.sum_append, List.map_cons, List.sum_cons,
      List.map_map] at ih ⊢
    rw [ih]
    rfl

/-- Summing over the positions of the window is summing over the input elements in it. -/
theorem sum_window [AddCommMonoid M] {ds ss ws os : List Nat} {ps : List (Nat × Nat)} (hp : ps.length = ds.length)
    (hs : ss.length = ds.length) (hw : ws.length = ds.length) (ho : os.length = ds.length) (F : List Nat → M) :
    lsum (indices ws) (fun w => (unpad ds ps (windowAt ss os w)).elim 0 F) =
      lsum (indices ds) fun idx => if InWindow ps ss ws os idx then F idx else 0 := by
  induction ds generalizing ps ss ws os F with
  | nil =>
    cases ps <;> cases ss <;> cases os <;> cases ws <;> simp at hp hs ho hw
    simp [indices, numel, unravel, windowAt, unpad, InWindow, lsum]
  | cons d ds ih =>
    cases ps with
    | nil => simp at hp
    | cons q ps =>
    cases ss with
    | nil => simp at hs
    | cons s ss =>
    cases os with
    | nil => simp at ho
    | cons o os =>
    cases ws with
    | nil => simp at hw
    | cons w ws =>
    obtain ⟨lo, hi⟩ := q
    have ih := fun F => ih (ps := ps) (ss := ss) (ws := ws) (os := os) (by simpa using hp) (by simpa using hs)
      (by simpa using hw) (by simpa using ho) F
    rw [lsum_indices_cons, lsum_indices_cons]
    have hl : ∀ x, (lsum (indices ws) fun v => (unpad (d :: ds) ((lo, hi) :: ps)
        (windowAt (s :: ss) (o :: os) (x :: v))).elim 0 F) =
        if lo ≤ o * s + x ∧ o * s + x < lo + d then
          lsum (indices ds) (fun idx => if InWindow ps ss ws os idx then F ((o * s + x - lo) :: idx) else 0) else 0 := by
      intro x
      simp only [windowAt, unpad]
      by_cases hc : lo ≤ o * s + x ∧ o * s + x < lo + d
      · simp only [if_pos hc]
        rw [← ih fun idx => F ((o * s + x - lo) :: idx)]
        apply sum_congr'
        intro v _
        cases unpad ds ps (windowAt ss os v) <;> rfl
      · simp only [if_neg hc]
        exact sum_zero' (indices ws)
    rw [sum_congr' fun x _ => hl x, sum_window_axis (fun y => lsum (indices ds) fun idx =>
      if InWindow ps ss ws os idx then F (y :: idx) else 0)]
    apply sum_congr'
    intro i _
    by_cases hc : o * s ≤ i + lo ∧ i + lo < o * s + w
    · rw [if_pos hc]
      apply sum_congr'
      intro is _
      simp [InWindow, hc]
    · rw [if_neg hc]
      symm
      refine (sum_congr' fun is _ => ?_).trans (sum_zero' (indices ds))
      simp [InWindow, hc]

theorem foldl_accStep_add [AddCommMonoid M] (L : List β) (g : β → Option M) (a : M) :
    L.foldl (fun acc x => accStep (· + ·) 0 acc (g x)) a = a + lsum L fun x => (g x).getD 0 := by
  induction L generalizing a with
  | nil => simp [lsum]
  | cons x L ih => rw [List.foldl_cons, ih]; simp [accStep, lsum, add_assoc]

theorem foldl_sumStep_add [AddCommMonoid M] (L : List β) (g : β → Option M) (a : M) :
    L.foldl (fun acc x => sumStep (· + ·) acc (g x)) a = a + lsum L fun x => (g x).getD 0 := by
  induction L generalizing a with
  | nil => simp [lsum]
  | cons x L ih => rw [List.foldl_cons, ih]; cases h : g x <;> simp [sumStep, lsum, add_assoc, h]

theorem unpad_getD [AddCommMonoid M] {t : Tensor M} {X : List Nat → M} (hx : Reads t X) (pad : List (Nat × Nat))
    (pos : List Nat) :
    ((unpad t.dims pad pos).bind t.elem).getD 0 = (unpad t.dims pad pos).elim 0 X := by
  cases hu : unpad t.dims pad pos with
  | none => rfl
  | some i => simp only [Option.bind_some, hx i (unpad_inRange hu), Option.getD_some, Option.elim_some]

/-- C83, sum (rank at most 16, additions without rounding): every element of the result is the sum of the input
elements in its window. -/
theorem C83_sum_partial [AddCommMonoid M] {t : Tensor M} {X : List Nat → M} {window strides : List Nat}
    {pad : List (Nat × Nat)} (ht : t.WF) (hx : Reads t X) (hr : t.dims.length ≤ 16)
    (hw : window.length = t.dims.length) (hs : strides.length = t.dims.length) (hp : pad.length = t.dims.length)
    (hf : WindowFits t.dims pad window strides) :
    ∃ r, t.windowFold (· + ·) 0 window strides pad = .ok r ∧ r.WF ∧ WindowCount t.dims pad window strides r.dims ∧
      ∀ o, InRange o r.dims → r.elem o = some (lsum (indices t.dims) fun idx =>
        if InWindow pad strides window o idx then X idx else 0) := by
  obtain ⟨r, h1, h2, h3, h4, h5⟩ := C83_fold_partial (0 : M) (accStep (· + ·) 0) (fun a _ => a) ht hr hw hs hp hf
  refine ⟨r, h1, h2, h4, fun o ho => ?_⟩
  have hol : o.length = t.dims.length := by rw [ho.length, h4.length hs]
  rw [h5 o ho, foldl_accStep_add, zero_add, ← sum_window hp hs hw hol X]
  congr 1
  exact sum_congr' fun w _ => unpad_getD hx pad _

/-- C83, mean (rank at most 16, arithmetic without rounding): every element of the result is the sum of the input
elements in its window, divided by the number of positions of the window; padding counts as 0. -/
theorem C83_mean_partial [Field K] {t : Tensor K} {X : List Nat → K} {window strides : List Nat}
    {pad : List (Nat × Nat)} (ht : t.WF) (hx : Reads t X) (hr : t.dims.length ≤ 16)
    (hw : window.length = t.dims.length) (hs : strides.length = t.dims.length) (hp : pad.length = t.dims.length)
    (hf : WindowFits t.dims pad window strides) :
    ∃ r, t.windowMean 0 (· + ·) (fun a n => a / (n : K)) window strides pad = .ok r ∧ r.WF ∧
      WindowCount t.dims pad window strides r.dims ∧
      ∀ o, InRange o r.dims → r.elem o = some ((lsum (indices t.dims) fun idx =>
        if InWindow pad strides window o idx then X idx else 0) / (numel window : K)) := by
  obtain ⟨r, h1, h2, h3, h4, h5⟩ := C83_fold_partial (0 : K) (sumStep (· + ·)) (fun a n => a / (n : K)) ht hr hw hs hp hf
  refine ⟨r, h1, h2, h4, fun o ho => ?_⟩
  have hol : o.length = t.dims.length := by rw [ho.length, h4.length hs]
  rw [h5 o ho, foldl_sumStep_add, zero_add, ← sum_window hp hs hw hol X]
  congr 2
  exact sum_congr' fun w _ => unpad_getD hx pad _

/-! ## Largest and smallest elements -/

theorem foldl_max [LinearOrder V] (L : List β) (g : β → Option V) (init a : V) (ha : init ≤ a) :
    let r := L.foldl (fun acc x => accStep (cMax fun x y => decide (y < x)) init acc (g x)) a
    a ≤ r ∧ (∀ x ∈ L, ∀ v, g x = some v → v ≤ r) ∧ (r = a ∨ ∃ x ∈ L, g x = some r) := by
  induction L generalizing a with
  | nil => simp
  | cons x L ih =>
    have hstep : accStep (cMax fun x y => decide (y < x)) init a (g x) = max a ((g x).getD init) := by
      unfold accStep cMax
      by_cases h : (g x).getD init < a
      · simp [h, max_eq_left (le_of_lt h)]
      · simp [h, max_eq_right (not_lt.mp h)]
    simp only [List.foldl_cons, hstep]
    obtain ⟨h1, h2, h3⟩ := ih (max a ((g x).getD init)) (le_trans ha (le_max_left _ _))
    refine ⟨le_trans (le_max_left _ _) h1, ?_, ?_⟩
    · intro y hy v hv
      rcases List.mem_cons.mp hy with rfl | hy
      · exact le_trans (by rw [hv]; exact le_max_right _ _) h1
      · exact h2 y hy v hv
    · rcases h3 with h3 | ⟨y, hy, hv⟩
      · cases hg : g x with
        | none =>
          left
          rw [hg, Option.getD_none, max_eq_left ha] at h3
          rw [Option.getD_none, max_eq_left ha]
          exact h3
        | some v =>
          rw [hg, Option.getD_some] at h3
          rw [Option.getD_some]
          rcases le_total a v with h | h
          · right
            rw [max_eq_right h] at h3 ⊢
            exact ⟨x, by simp, by rw [hg, h3]⟩
          · left
            rw [max_eq_left h] at h3 ⊢
            exact h3
      · exact Or.inr ⟨y, by simp [hy], hv⟩

/-- C83, max (rank at most 16, totally ordered elements; the initial value is below every element, as the smallest
integer of the type or minus infinity is): every element of the result is the largest of the input elements in its
window, and the initial value if there are none. -/
theorem C83_max_partial [LinearOrder V] {t : Tensor V} {X : List Nat → V} {window strides : List Nat}
    {pad : List (Nat × Nat)} (init : V) (ht : t.WF) (hx : Reads t X)
    (hinit : ∀ idx, InRange idx t.dims → init ≤ X idx) (hr : t.dims.length ≤ 16)
    (hw : window.length = t.dims.length) (hs : strides.length = t.dims.length) (hp : pad.length = t.dims.length)
    (hf : WindowFits t.dims pad window strides) :
    ∃ r, t.windowFold (cMax fun x y => decide (y < x)) init window strides pad = .ok r ∧ r.WF ∧
      WindowCount t.dims pad window strides r.dims ∧
      ∀ o, InRange o r.dims → ∃ v, r.elem o = some v ∧
        (∀ idx, InRange idx t.dims → InWindow pad strides window o idx → X idx ≤ v) ∧
        ((∃ idx, InRange idx t.dims ∧ InWindow pad strides window o idx) →
          ∃ idx, InRange idx t.dims ∧ InWindow pad strides window o idx ∧ X idx = v) ∧
        ((¬ ∃ idx, InRange idx t.dims ∧ InWindow pad strides window o idx) → v = init) := by
  obtain ⟨r, h1, h2, h3, h4, h5⟩ := C83_fold_partial init (accStep (cMax fun x y => decide (y < x)) init)
    (fun a _ => a) ht hr hw hs hp hf
  refine ⟨r, h1, h2, h4, fun o ho => ⟨_, h5 o ho, ?_⟩⟩
  have hol : o.length = t.dims.length := by rw [ho.length, h4.length hs]
  obtain ⟨g1, g2, g3⟩ := foldl_max (indices window)
    (fun w => (unpad t.dims pad (windowAt strides o w)).bind t.elem) init init le_rfl
  generalize (indices window).foldl _ init = v at g1 g2 g3
  have hle : ∀ idx, InRange idx t.dims → InWindow pad strides window o idx → X idx ≤ v := by
    intro idx hi hin
    obtain ⟨w, hwr, hu⟩ := (inWindow_iff hp hs hw hol hi).mp hin
    exact g2 w (mem_indices.mpr hwr) _ (by rw [hu, Option.bind_some, hx idx hi])
  have hat : v = init ∨ ∃ idx, InRange idx t.dims ∧ InWindow pad strides window o idx ∧ X idx = v := by
    rcases g3 with g3 | ⟨w, hwm, hv⟩
    · exact Or.inl g3
    · right
      cases hu : unpad t.dims pad (windowAt strides o w) with
      | none => rw [hu] at hv; cases hv
      | some i =>
        have hi := unpad_inRange hu
        rw [hu, Option.bind_some, hx i hi] at hv
        injection hv with hv
        exact ⟨i, hi, (inWindow_iff hp hs hw hol hi).mpr ⟨w, mem_indices.mp hwm, hu⟩, hv⟩
  refine ⟨hle, ?_, ?_⟩
  · rintro ⟨idx, hi, hin⟩
    rcases hat with hat | hat
    · exact ⟨idx, hi, hin, le_antisymm (hle idx hi hin) (by rw [hat]; exact hinit idx hi)⟩
    · exact hat
  · intro hno
    rcases hat with hat | ⟨idx, hi, hin, _⟩
    · exact hat
    · exact absurd ⟨idx, hi, hin⟩ hno

/-- C83, min: the same with the order reversed. -/
theorem C83_min_partial [LinearOrder V] {t : Tensor V} {X : List Nat → V} {window strides : List Nat}
    {pad : List (Nat × Nat)} (init : V) (ht : t.WF) (hx : Reads t X)
    (hinit : ∀ idx, InRange idx t.dims → X idx ≤ init) (hr : t.dims.length ≤ 16)
    (hw : window.length = t.dims.length) (hs : strides.length = t.dims.length) (hp : pad.length = t.dims.length)
    (hf : WindowFits t.dims pad window strides) :
    ∃ r, t.windowFold (cMax fun x y => decide (x < y)) init window strides pad = .ok r ∧ r.WF ∧
      WindowCount t.dims pad window strides r.dims ∧
      ∀ o, InRange o r.dims → ∃ v, r.elem o = some v ∧
        (∀ idx, InRange idx t.dims → InWindow pad strides window o idx → v ≤ X idx) ∧
        ((∃ idx, InRange idx t.dims ∧ InWindow pad strides window o idx) →
          ∃ idx, InRange idx t.dims ∧ InWindow pad strides window o idx ∧ X idx = v) ∧
        ((¬ ∃ idx, InRange idx t.dims ∧ InWindow pad strides window o idx) → v = init) :=
  C83_max_partial (V := Vᵒᵈ) (t := t) (X := X) init ht hx hinit hr hw hs hp hf

/-! ## Concrete cases -/

/-- The hypotheses hold for a 2x3 input (a transposed, hence not contiguous, tensor), windows of 2x2 with strides 1 and 2
and padding. -/
def wEx : Tensor Int := ⟨[1, 4, 2, 5, 3, 6], ⟨[2, 3], [1, 2], 0⟩⟩

example : wEx.WF ∧ Reads wEx (fun idx => (wEx.elem idx).getD 0) ∧
    WindowFits wEx.dims [(1, 0), (0, 1)] [2, 2] [1, 2] := by
  have hw : wEx.WF := by
    refine ⟨rfl, fun idx hi => ?_⟩
    have h : ∀ idx ∈ indices [2, 3], (wEx.elem idx).isSome := by decide
    exact h idx (mem_indices.mpr hi)
  refine ⟨hw, fun idx hi => ?_, by decide, by decide, trivial⟩
  obtain ⟨x, h⟩ := hw.get hi
  simp [h]

example : wEx.windowFold (· + ·) 0 [2, 2] [1, 2] [(1, 0), (0, 1)] = .ok ⟨[3, 3, 12, 9], ⟨[2, 2], [2, 1], 0⟩⟩ := by
  decide

example : wEx.windowFold (cMax fun x y => decide (y < x)) (-128) [2, 2] [1, 2] [(1, 0), (0, 1)] =
    .ok ⟨[2, 3, 5, 6], ⟨[2, 2], [2, 1], 0⟩⟩ := by decide

/-! ## What does not hold -/

/-- C83 in full: the means of the 16-bit types are the means of the values and the largest elements of the 8-bit types
are the largest elements.  Here: for windows that tile a one-dimensional input without rounding being necessary. -/
def C83_full : Prop :=
  (∀ a b v : Nat, a < 2 ^ 15 → b < 2 ^ 15 → v < 2 ^ 15 →
    2 * Flt.mag Flt.f16 v = Flt.mag Flt.f16 a + Flt.mag Flt.f16 b →
    (Tensor.windowMean 0 Flt.u16add Flt.u16div ⟨[a, b], Layout.fromShape [2]⟩ [2] [2] [(0, 0)] =
      .ok ⟨[v], Layout.fromShape [1]⟩)) ∧
  (∀ a, a < 2 ^ 7 - 8 → Tensor.windowFold (Flt.smallMax Flt.cF8E4M3) Flt.f8NegInf ⟨[a], Layout.fromShape [1]⟩ [2] [1]
    [(0, 1)] = .ok ⟨[a], Layout.fromShape [1]⟩)

/-- C83 fails for means of `f16` (and `bf16`): the kernel adds and divides the bit patterns as integers.  The mean of
1 (0x3C00) and 4 (0x4400) is 2 (0x4000) instead of 2.5 (0x4100). -/
theorem C83_f16_mean_wrong :
    Tensor.windowMean 0 Flt.u16add Flt.u16div ⟨[0x3C00, 0x4400], Layout.fromShape [2]⟩ [2] [2] [(0, 0)] =
      .ok ⟨[0x4000], Layout.fromShape [1]⟩ ∧
    2 * Flt.mag Flt.f16 0x4100 = Flt.mag Flt.f16 0x3C00 + Flt.mag Flt.f16 0x4400 := by
  decide +kernel

/-- C83 fails for the 8-bit types: their "minus infinity" 0xFF is a NaN, so a window that ends in the padding has
the maximum NaN. -/
theorem C83_f8_max_padding_nan :
    Tensor.windowFold (Flt.smallMax Flt.cF8E4M3) Flt.f8NegInf ⟨[0x38], Layout.fromShape [1]⟩ [2] [1] [(0, 1)] =
      .ok ⟨[0x7F], Layout.fromShape [1]⟩ ∧
    Tensor.windowFold (Flt.smallMax Flt.cF8E5M2) Flt.f8NegInf ⟨[0x3C], Layout.fromShape [1]⟩ [2] [1] [(0, 1)] =
      .ok ⟨[0x7F], Layout.fromShape [1]⟩ ∧
    Flt.isNan32 (Flt.smallToFloat Flt.cF8E4M3 0x7F) ∧ Flt.isNan32 (Flt.smallToFloat Flt.cF8E5M2 0x7F) := by
  decide +kernel

theorem C83_full_false : ¬ C83_full := by
  intro h
  have h1 := h.1 0x3C00 0x4400 0x4100 (by decide) (by decide) (by decide) C83_f16_mean_wrong.2
  rw [C83_f16_mean_wrong.1] at h1
  revert h1
  decide

end Hodu
