import Verif.Lemmas.FracSeq
import Verif.Lemmas.TypedSeq
import Verif.Props.Window
import Verif.Lemmas.NormCells
import Mathlib.Data.List.Forall2

/-!
# C90: pooling layers

A pooling layer keeps batch and channel and replaces the spatial positions by reductions over windows, over everything
or over the blocks of a partition.
-/

namespace Hodu
open Spec

/-! ## Specification -/

/-- Spatial position `i` lies in the window of size `k` of output position `o`, with stride `s` and padding `p` on
both sides of every axis. -/
def Spec.Pooled (k s p : Nat) (o i : List Nat) : Prop :=
  List.Forall₂ (fun o i => o * s ≤ i + p ∧ i + p < o * s + k) o i

instance (k s p : Nat) (o i : List Nat) : Decidable (Pooled k s p o i) := by unfold Pooled; infer_instance

/-- The number of positions of a window of size `k` on an axis of size `d`. -/
def Spec.pooledSize (k s p d : Nat) : Nat := (d + 2 * p - k) / s + 1

/-- Adaptive windows: with `q` outputs on an axis of size `d` the windows are `d / q` apart; before the window of `o`
there is room for `o` strides, after it for `q - 1 - o`. -/
def Spec.Adapted : List Nat → List Nat → List Nat → List Nat → Prop
  | d :: ds, q :: qs, o :: os, i :: is =>
    (o * (d / q) ≤ i ∧ i + (q - 1 - o) * (d / q) < d) ∧ Adapted ds qs os is
  | _, _, _, _ => True

instance decAdapted : ∀ ds qs os is, Decidable (Adapted ds qs os is)
  | [], _, _, _ | _ :: _, [], _, _ | _ :: _, _ :: _, [], _ | _ :: _, _ :: _, _ :: _, [] => isTrue trivial
  | _ :: ds, _ :: qs, _ :: os, _ :: is => by
    unfold Adapted
    have := decAdapted ds qs os is
    infer_instance

/-- The sizes of the adaptive windows. -/
def Spec.adaptedSizes (ds qs : List Nat) : List Nat := List.zipWith (fun d q => d - (q - 1) * (d / q)) ds qs

/-! ## Windows over the spatial axes -/

theorem inWindow_lead {ps : List (Nat × Nat)} {ss ws o i : List Nat} {n c n' c' : Nat} :
    InWindow ((0, 0) :: (0, 0) :: ps) (1 :: 1 :: ss) (1 :: 1 :: ws) (n :: c :: o) (n' :: c' :: i) ↔
      n' = n ∧ c' = c ∧ InWindow ps ss ws o i := by
  simp only [InWindow]
  constructor
  · rintro ⟨h1, h2, h3⟩; exact ⟨by omega, by omega, h3⟩
  · rintro ⟨rfl, rfl, h3⟩; exact ⟨by omega, by omega, h3⟩

theorem lsum_single [AddCommMonoid M] {N n : Nat} (h : n < N) {f : Nat → M} (hf : ∀ j, j ≠ n → f j = 0) :
    lsum (List.range N) f = f n := by
  unfold lsum
  induction N with
  | zero => omega
  | succ N ih =>
    rw [List.range_succ, List.map_append, List.sum_append, List.map_singleton, List.sum_singleton]
    rcases Nat.lt_or_ge n N with hlt | hge
    · rw [ih hlt, hf N (by omega), add_zero]
    · obtain rfl : n = N := by omega
      have : ∀ x ∈ (List.range n).map f, x = 0 := by
        intro x hx
        obtain ⟨j, hj, rfl⟩ := List.mem_map.mp hx
        exact hf j (by simp at hj; omega)
      rw [List.sum_eq_zero this, zero_add]

theorem lsum_lead [AddCommMonoid M] {N C n c : Nat} {ds o ss ws : List Nat} {ps : List (Nat × Nat)} (hn : n < N)
    (hc : c < C) (X : List Nat → M) :
    (lsum (indices (N :: C :: ds)) fun idx =>
      if InWindow ((0, 0) :: (0, 0) :: ps) (1 :: 1 :: ss) (1 :: 1 :: ws) (n :: c :: o) idx then X idx else 0) =
    lsum (indices ds) fun i => if InWindow ps ss ws o i then X (n :: c :: i) else 0 := by
  rw [lsum_indices_cons, lsum_single hn, lsum_indices_cons, lsum_single hc]
  · exact sum_congr' fun i _ => by simp only [inWindow_lead, true_and]
  · intro j hj
    rw [show (fun is => if InWindow ((0, 0) :: (0, 0) :: ps) (1 :: 1 :: ss) (1 :: 1 :: ws) (n :: c :: o) (n :: j :: is)
        then X (n :: j :: is) else 0) = fun _ => 0 from funext fun is => if_neg fun h => hj (inWindow_lead.mp h).2.1]
    exact sum_zero' _
  · intro j hj
    rw [show (fun is => if InWindow ((0, 0) :: (0, 0) :: ps) (1 :: 1 :: ss) (1 :: 1 :: ws) (n :: c :: o) (j :: is)
        then X (j :: is) else 0) = fun _ => 0 from funext fun is => if_neg fun h => ?_]
    · exact sum_zero' _
    · match is, h with
      | _ :: _, h => exact hj (inWindow_lead.mp h).1

theorem count_unit {d o : Nat} (h : ∀ k, k < o ↔ k * 1 + 1 ≤ 0 + d + 0) : o = d := by
  have h1 := h o
  have h2 := h d
  omega

theorem count_size {d k s p o : Nat} (hs : 0 < s) (hk : k ≤ d + 2 * p) (h : ∀ j, j < o ↔ j * s + k ≤ p + d + p) :
    o = pooledSize k s p d := by
  have key : ∀ j, j < pooledSize k s p d ↔ j * s + k ≤ p + d + p := by
    intro j
    rw [pooledSize, Nat.lt_succ_iff, Nat.le_div_iff_mul_le hs]
    omega
  have h1 := (h o).trans (key o).symm
  have h2 := (h (pooledSize k s p d)).trans (key (pooledSize k s p d)).symm
  omega

theorem windowCount_lead {N C : Nat} {ds ws ss out : List Nat} {ps : List (Nat × Nat)}
    (h : WindowCount (N :: C :: ds) ((0, 0) :: (0, 0) :: ps) (1 :: 1 :: ws) (1 :: 1 :: ss) out) :
    ∃ o, out = N :: C :: o ∧ WindowCount ds ps ws ss o := by
  match out, h with
  | a :: b :: o, ⟨h1, h2, h3⟩ => exact ⟨o, by rw [count_unit h1, count_unit h2], h3⟩

theorem windowCount_replicate {ds out : List Nat} {k s p : Nat} (hs : 0 < s) (hk : ∀ d ∈ ds, k ≤ d + 2 * p)
    (h : WindowCount ds (List.replicate ds.length (p, p)) (List.replicate ds.length k) (List.replicate ds.length s) out) :
    out = ds.map (pooledSize k s p) := by
  induction ds generalizing out with
  | nil => match out, h with | [], _ => rfl
  | cons d ds ih =>
    match out, h with
    | o :: os, ⟨h1, h2⟩ =>
      rw [List.map_cons, ← ih (fun x hx => hk x (by simp [hx])) h2, ← count_size hs (hk d (by simp)) h1]

theorem windowFits_replicate {ds : List Nat} {k s p : Nat} (hs : 0 < s) (hk : ∀ d ∈ ds, k ≤ d + 2 * p) :
    WindowFits ds (List.replicate ds.length (p, p)) (List.replicate ds.length k) (List.replicate ds.length s) := by
  induction ds with
  | nil => trivial
  | cons d ds ih =>
    have := hk d (by simp)
    exact ⟨⟨by omega, hs⟩, ih fun x hx => hk x (by simp [hx])⟩

theorem inWindow_replicate {o i : List Nat} {k s p n : Nat} (ho : o.length = n) (hi : i.length = n) :
    InWindow (List.replicate n (p, p)) (List.replicate n s) (List.replicate n k) o i ↔ Pooled k s p o i := by
  induction n generalizing o i with
  | zero =>
    obtain rfl := List.eq_nil_of_length_eq_zero ho
    obtain rfl := List.eq_nil_of_length_eq_zero hi
    simp [InWindow, Pooled]
  | succ n ih =>
    match o, i, ho, hi with
    | a :: o, b :: i, ho, hi =>
      simp only [List.replicate_succ, InWindow, Pooled, List.forall₂_cons]
      rw [ih (by simpa using ho) (by simpa using hi)]
      rfl

theorem numel_replicate (n k : Nat) : numel (List.replicate n k) = k ^ n := by
  induction n with
  | zero => rfl
  | succ n ih => rw [List.replicate_succ, numel, ih, Nat.pow_succ, Nat.mul_comm]

/-- The largest elements of windows that do not mix batches and channels. -/
theorem max_lead [LinearOrder V] {t : Tensor V} {X : List Nat → V} {N C : Nat} {ds ws ss : List Nat}
    {ps : List (Nat × Nat)} (init : V) (ht : t.WF) (hd : t.dims = N :: C :: ds) (hN : 0 < N) (hC : 0 < C) (hx : Reads t X)
    (hinit : ∀ idx, InRange idx t.dims → init ≤ X idx) (hr : ds.length ≤ 14)
    (hw : ws.length = ds.length) (hs : ss.length = ds.length) (hp : ps.length = ds.length)
    (hf : WindowFits ds ps ws ss) :
    ∃ r out, t.windowFold (cMax fun x y => decide (y < x)) init (1 :: 1 :: ws) (1 :: 1 :: ss)
        ((0, 0) :: (0, 0) :: ps) = .ok r ∧ r.WF ∧ r.dims = N :: C :: out ∧ WindowCount ds ps ws ss out ∧
      ∀ n c o, InRange (n :: c :: o) (N :: C :: out) → ∃ v, r.elem (n :: c :: o) = some v ∧
        (∀ i, InRange i ds → InWindow ps ss ws o i → X (n :: c :: i) ≤ v) ∧
        ((∃ i, InRange i ds ∧ InWindow ps ss ws o i) → ∃ i, InRange i ds ∧ InWindow ps ss ws o i ∧ X (n :: c :: i) = v) ∧
        ((¬ ∃ i, InRange i ds ∧ InWindow ps ss ws o i) → v = init) := by
  obtain ⟨r, r1, r2, r3, r4⟩ := C83_max_partial (window := 1 :: 1 :: ws) (strides := 1 :: 1 :: ss)
    (pad := (0, 0) :: (0, 0) :: ps) init ht hx hinit (by rw [hd]; simp only [List.length_cons]; omega) (by rw [hd]; simpa using hw)
    (by rw [hd]; simpa using hs) (by rw [hd]; simpa using hp)
    (by rw [hd]; exact ⟨⟨by omega, by omega⟩, ⟨by omega, by omega⟩, hf⟩)
  rw [hd] at r3
  obtain ⟨out, ho, hcount⟩ := windowCount_lead r3
  refine ⟨r, out, r1, r2, ho, hcount, fun n c o hi => ?_⟩
  obtain ⟨v, v1, v2, v3, v4⟩ := r4 (n :: c :: o) (by rw [ho]; exact hi)
  have hsplit : ∀ idx, InRange idx t.dims → InWindow ((0, 0) :: (0, 0) :: ps) (1 :: 1 :: ss) (1 :: 1 :: ws)
      (n :: c :: o) idx → ∃ i, idx = n :: c :: i ∧ InRange i ds ∧ InWindow ps ss ws o i := by
    intro idx hj hin
    rw [hd] at hj
    match idx, hj with
    | a :: b :: i, hj =>
      obtain ⟨rfl, rfl, h3⟩ := inWindow_lead.mp hin
      exact ⟨i, rfl, hj.2.2, h3⟩
  have hjoin : ∀ i, InRange i ds → InWindow ps ss ws o i → InRange (n :: c :: i) t.dims ∧
      InWindow ((0, 0) :: (0, 0) :: ps) (1 :: 1 :: ss) (1 :: 1 :: ws) (n :: c :: o) (n :: c :: i) := fun i h1 h2 =>
    ⟨by rw [hd]; exact ⟨hi.1, hi.2.1, h1⟩, inWindow_lead.mpr ⟨rfl, rfl, h2⟩⟩
  refine ⟨v, v1, fun i h1 h2 => v2 _ (hjoin i h1 h2).1 (hjoin i h1 h2).2, ?_, ?_⟩
  · rintro ⟨i, h1, h2⟩
    obtain ⟨idx, a1, a2, a3⟩ := v3 ⟨_, hjoin i h1 h2⟩
    obtain ⟨i', rfl, b1, b2⟩ := hsplit idx a1 a2
    exact ⟨i', b1, b2, a3⟩
  · intro hno
    refine v4 ?_
    rintro ⟨idx, a1, a2⟩
    obtain ⟨i', -, b1, b2⟩ := hsplit idx a1 a2
    exact hno ⟨i', b1, b2⟩


/-- The means of windows that do not mix batches and channels. -/
theorem mean_lead [Field K] {t : Tensor K} {X : List Nat → K} {N C : Nat} {ds ws ss : List Nat}
    {ps : List (Nat × Nat)} (ht : t.WF) (hd : t.dims = N :: C :: ds) (hN : 0 < N) (hC : 0 < C) (hx : Reads t X)
    (hr : ds.length ≤ 14) (hw : ws.length = ds.length) (hs : ss.length = ds.length) (hp : ps.length = ds.length)
    (hf : WindowFits ds ps ws ss) :
    ∃ r out, t.windowMean 0 (· + ·) (fun a n => a / (n : K)) (1 :: 1 :: ws) (1 :: 1 :: ss)
        ((0, 0) :: (0, 0) :: ps) = .ok r ∧ r.WF ∧ r.dims = N :: C :: out ∧ WindowCount ds ps ws ss out ∧
      ∀ n c o, InRange (n :: c :: o) (N :: C :: out) →
        r.elem (n :: c :: o) = some ((lsum (indices ds) fun i =>
          if InWindow ps ss ws o i then X (n :: c :: i) else 0) / (numel ws : K)) := by
  obtain ⟨r, r1, r2, r3, r4⟩ := C83_mean_partial (window := 1 :: 1 :: ws) (strides := 1 :: 1 :: ss)
    (pad := (0, 0) :: (0, 0) :: ps) ht hx (by rw [hd]; simp only [List.length_cons]; omega)
    (by rw [hd]; simpa using hw) (by rw [hd]; simpa using hs) (by rw [hd]; simpa using hp)
    (by rw [hd]; exact ⟨⟨by omega, by omega⟩, ⟨by omega, by omega⟩, hf⟩)
  rw [hd] at r3 r4
  obtain ⟨out, ho, hcount⟩ := windowCount_lead r3
  refine ⟨r, out, r1, r2, ho, hcount, fun n c o hi => ?_⟩
  rw [r4 (n :: c :: o) (by rw [ho]; exact hi), lsum_lead hi.1 hi.2.1]
  simp [numel]

/-! ## C90: MaxPool and AvgPool -/

/-- C90, max pooling (at most 14 spatial dimensions, a batch and channels that are not empty): every output cell is the
largest entry of the same batch and channel in its window; a window that lies in the padding gives the initial value of
the kernel (minus infinity). -/
theorem C90_max_pool_partial [LinearOrder V] {t : Tensor V} {X : List Nat → V} {N C : Nat} {ds : List Nat} {k s p : Nat}
    (init : V) (ht : t.WF) (hd : t.dims = N :: C :: ds) (hN : 0 < N) (hC : 0 < C) (hx : Reads t X)
    (hinit : ∀ idx, InRange idx t.dims → init ≤ X idx) (hr : ds.length ≤ 14) (hs : 0 < s)
    (hk : ∀ d ∈ ds, k ≤ d + 2 * p) :
    ∃ r, t.pool (Tensor.windowFold (cMax fun x y => decide (y < x)) init) ds.length k s p = .ok r ∧ r.WF ∧
      r.dims = N :: C :: ds.map (pooledSize k s p) ∧
      ∀ n c o, InRange (n :: c :: o) r.dims → ∃ v, r.elem (n :: c :: o) = some v ∧
        (∀ i, InRange i ds → Pooled k s p o i → X (n :: c :: i) ≤ v) ∧
        ((∃ i, InRange i ds ∧ Pooled k s p o i) → ∃ i, InRange i ds ∧ Pooled k s p o i ∧ X (n :: c :: i) = v) ∧
        ((¬ ∃ i, InRange i ds ∧ Pooled k s p o i) → v = init) := by
  obtain ⟨r, out, r1, r2, r3, r4, r5⟩ := max_lead (ws := List.replicate ds.length k) (ss := List.replicate ds.length s)
    (ps := List.replicate ds.length (p, p)) init ht hd hN hC hx hinit hr (by simp) (by simp) (by simp)
    (windowFits_replicate hs hk)
  obtain rfl := windowCount_replicate hs hk r4
  refine ⟨r, by rw [Tensor.pool, if_neg (by rw [hd]; simp), r1], r2, r3, fun n c o hi => ?_⟩
  rw [r3] at hi
  have hol : o.length = ds.length := by rw [hi.2.2.length]; simp
  obtain ⟨v, v1, v2, v3, v4⟩ := r5 n c o hi
  have he : ∀ i, InRange i ds → (InWindow (List.replicate ds.length (p, p)) (List.replicate ds.length s)
      (List.replicate ds.length k) o i ↔ Pooled k s p o i) := fun i h => inWindow_replicate hol h.length
  refine ⟨v, v1, fun i h1 h2 => v2 i h1 ((he i h1).mpr h2), ?_, ?_⟩
  · rintro ⟨i, h1, h2⟩
    obtain ⟨j, j1, j2, j3⟩ := v3 ⟨i, h1, (he i h1).mpr h2⟩
    exact ⟨j, j1, (he j j1).mp j2, j3⟩
  · intro hno
    exact v4 fun ⟨i, h1, h2⟩ => hno ⟨i, h1, (he i h1).mp h2⟩

/-- C90, average pooling (as above, arithmetic without rounding): every output cell is the sum of the entries of the
same batch and channel in its window, divided by the number of positions of the window; padding counts as 0. -/
theorem C90_avg_pool_partial [Field K] {t : Tensor K} {X : List Nat → K} {N C : Nat} {ds : List Nat} {k s p : Nat}
    (ht : t.WF) (hd : t.dims = N :: C :: ds) (hN : 0 < N) (hC : 0 < C) (hx : Reads t X) (hr : ds.length ≤ 14)
    (hs : 0 < s) (hk : ∀ d ∈ ds, k ≤ d + 2 * p) :
    ∃ r, t.pool (Tensor.windowMean 0 (· + ·) (fun a n => a / (n : K))) ds.length k s p = .ok r ∧ r.WF ∧
      r.dims = N :: C :: ds.map (pooledSize k s p) ∧
      ∀ n c o, InRange (n :: c :: o) r.dims → r.elem (n :: c :: o) = some ((lsum (indices ds) fun i =>
        if Pooled k s p o i then X (n :: c :: i) else 0) / (k : K) ^ ds.length) := by
  obtain ⟨r, out, r1, r2, r3, r4, r5⟩ := mean_lead (ws := List.replicate ds.length k) (ss := List.replicate ds.length s)
    (ps := List.replicate ds.length (p, p)) ht hd hN hC hx hr (by simp) (by simp) (by simp) (windowFits_replicate hs hk)
  obtain rfl := windowCount_replicate hs hk r4
  refine ⟨r, by rw [Tensor.pool, if_neg (by rw [hd]; simp), r1], r2, r3, fun n c o hi => ?_⟩
  rw [r3] at hi
  have hol : o.length = ds.length := by rw [hi.2.2.length]; simp
  rw [r5 n c o hi, numel_replicate, Nat.cast_pow]
  congr 2
  refine sum_congr' fun i hm => ?_
  simp only [inWindow_replicate hol (mem_indices.mp hm).length]

/-- C90, errors: an input of another rank is rejected. -/
theorem C90_rank (window : Tensor α → List Nat → List Nat → List (Nat × Nat) → Res (Tensor β))
    (red : Tensor α → List Int → Bool → Res (Tensor β)) (fl : ℚ → ℚ) (comb : List α → β) (t : Tensor α) (sp k s p : Nat)
    (outs : List Nat) :
    (t.dims.length ≠ sp + 2 → t.pool window sp k s p = .err ∧ t.globalPool red sp = .err) ∧
    (t.dims.length ≠ outs.length + 2 → t.adaptivePool window outs = .err ∧ t.fractionalPool fl comb outs = .err) :=
  ⟨fun h => ⟨if_pos h, if_pos h⟩, fun h => ⟨if_pos h, if_pos h⟩⟩

/-! ## C90: adaptive pooling -/

theorem adaptiveSteps_ok {ds qs : List Nat} (h : List.Forall₂ (fun d q => 0 < q ∧ q ≤ d) ds qs) :
    ∃ ps, adaptiveSteps ds qs = .ok ps ∧ ps.map Prod.snd = adaptedSizes ds qs ∧
      (ps.map Prod.snd).length = ds.length ∧ (ps.map Prod.fst).length = ds.length ∧
      WindowFits ds (List.replicate ds.length (0, 0)) (ps.map Prod.snd) (ps.map Prod.fst) ∧
      (∀ out, WindowCount ds (List.replicate ds.length (0, 0)) (ps.map Prod.snd) (ps.map Prod.fst) out → out = qs) ∧
      ∀ o i, InRange o qs → i.length = ds.length →
        (InWindow (List.replicate ds.length (0, 0)) (ps.map Prod.fst) (ps.map Prod.snd) o i ↔ Adapted ds qs o i) := by
  induction h with
  | nil =>
    refine ⟨[], rfl, rfl, rfl, rfl, trivial, fun out h => ?_, fun o i ho hi => ?_⟩
    · match out, h with | [], _ => rfl
    · match o, i, ho, hi with
      | [], [], _, _ => simp [InWindow, Adapted]
  | @cons d q ds qs hq _ ih =>
    obtain ⟨ps, h1, h2, h3, h4, h5, h6, h7⟩ := ih
    have hpos : 0 < d / q := Nat.div_pos hq.2 hq.1
    have hle : q * (d / q) ≤ d := Nat.mul_div_le d q
    have hq1 : (q - 1) * (d / q) + d / q = q * (d / q) := by
      conv_rhs => rw [show q = q - 1 + 1 by omega, Nat.add_mul, Nat.one_mul]
      rw [show q - 1 + 1 = q by omega]
    refine ⟨(d / q, d - (q - 1) * (d / q)) :: ps, ?_, ?_, by simpa using h3, by simpa using h4, ?_, ?_, ?_⟩
    · simp only [adaptiveSteps, adaptiveStep, if_neg hq.1.ne', Res.ok_bind, h1]
    · simpa [adaptedSizes] using h2
    · exact ⟨⟨by simp, hpos⟩, h5⟩
    · intro out h
      match out, h with
      | o :: os, ⟨c1, c2⟩ =>
        rw [h6 os c2]
        have key : ∀ j, j < q ↔ j * (d / q) + (d - (q - 1) * (d / q)) ≤ 0 + d + 0 := by
          intro j
          constructor
          · intro hj
            have := Nat.mul_le_mul_right (d / q) (show j ≤ q - 1 by omega)
            omega
          · intro hj
            by_contra hc
            have := Nat.mul_le_mul_right (d / q) (show q ≤ j by omega)
            omega
        have k1 := (c1 o).trans (key o).symm
        have k2 := (c1 q).trans (key q).symm
        rw [show o = q by omega]
    · intro o i ho hi
      match o, i, ho, hi with
      | a :: o, b :: i, ho, hi =>
        have h8 := h7 o i ho.2 (by simpa using hi)
        simp only [List.length_cons, List.replicate_succ, List.map_cons, InWindow, Adapted] at h8 ⊢
        rw [h8]
        have ha : a < q := ho.1
        have e : a * (d / q) + (q - 1 - a) * (d / q) = (q - 1) * (d / q) := by
          rw [← Nat.add_mul, show a + (q - 1 - a) = q - 1 by omega]
        constructor
        · rintro ⟨⟨g1, g2⟩, g3⟩; exact ⟨⟨by omega, by omega⟩, g3⟩
        · rintro ⟨⟨g1, g2⟩, g3⟩; exact ⟨⟨by omega, by omega⟩, g3⟩

/-- C90, adaptive max pooling: the output has exactly the requested sizes (positive and at most the sizes of the input)
and every cell is the largest entry of its window. -/
theorem C90_adaptive_max_partial [LinearOrder V] {t : Tensor V} {X : List Nat → V} {N C : Nat} {ds qs : List Nat}
    (init : V) (ht : t.WF) (hd : t.dims = N :: C :: ds) (hN : 0 < N) (hC : 0 < C) (hx : Reads t X)
    (hinit : ∀ idx, InRange idx t.dims → init ≤ X idx) (hr : ds.length ≤ 14)
    (hq : List.Forall₂ (fun d q => 0 < q ∧ q ≤ d) ds qs) :
    ∃ r, t.adaptivePool (Tensor.windowFold (cMax fun x y => decide (y < x)) init) qs = .ok r ∧ r.WF ∧
      r.dims = N :: C :: qs ∧
      ∀ n c o, InRange (n :: c :: o) r.dims → ∃ v, r.elem (n :: c :: o) = some v ∧
        (∀ i, InRange i ds → Adapted ds qs o i → X (n :: c :: i) ≤ v) ∧
        (∃ i, InRange i ds ∧ Adapted ds qs o i ∧ X (n :: c :: i) = v) := by
  obtain ⟨ps, h1, h2, h3, h4, h5, h6, h7⟩ := adaptiveSteps_ok hq
  obtain ⟨r, out, r1, r2, r3, r4, r5⟩ := max_lead (ps := List.replicate ds.length (0, 0)) init ht hd hN hC hx hinit hr h3
    h4 (by simp) h5
  obtain rfl := h6 out r4
  have hlen := hq.length_eq
  refine ⟨r, ?_, r2, r3, fun n c o hi => ?_⟩
  · rw [Tensor.adaptivePool, if_neg (by rw [hd]; simp [hlen])]
    simp only [hd, List.drop_succ_cons, List.drop_zero, h1, Res.ok_bind]
    rw [← hlen]
    exact r1
  rw [r3] at hi
  obtain ⟨v, v1, v2, v3, -⟩ := r5 n c o hi
  refine ⟨v, v1, fun i g1 g2 => v2 i g1 ((h7 o i hi.2.2 g1.length).mpr g2), ?_⟩
  have hex : ∀ {ds qs o : List Nat}, List.Forall₂ (fun d q => 0 < q ∧ q ≤ d) ds qs → InRange o qs →
      ∃ i, InRange i ds ∧ Adapted ds qs o i := by
    intro ds qs o h
    induction h generalizing o with
    | nil => intro _; exact ⟨[], trivial, by simp [Adapted]⟩
    | @cons d q ds qs hq _ ih =>
      intro ho
      match o, ho with
      | a :: o, ho =>
        obtain ⟨i, i1, i2⟩ := ih ho.2
        have hpos : 0 < d / q := Nat.div_pos hq.2 hq.1
        have hle : q * (d / q) ≤ d := Nat.mul_div_le d q
        have ha : a < q := ho.1
        have e : a * (d / q) + (q - 1 - a) * (d / q) + d / q = q * (d / q) := by
          rw [← Nat.add_mul, ← Nat.succ_mul, show (a + (q - 1 - a)).succ = q by omega]
        exact ⟨a * (d / q) :: i, ⟨by omega, i1⟩, ⟨by omega, by omega⟩, i2⟩
  obtain ⟨i, i1, i2⟩ := hex hq hi.2.2
  obtain ⟨j, j1, j2, j3⟩ := v3 ⟨i, i1, (h7 o i hi.2.2 i1.length).mpr i2⟩
  exact ⟨j, j1, (h7 o j hi.2.2 j1.length).mp j2, j3⟩

/-- C90, adaptive average pooling: the same with the mean of the window. -/
theorem C90_adaptive_avg_partial [Field K] {t : Tensor K} {X : List Nat → K} {N C : Nat} {ds qs : List Nat}
    (ht : t.WF) (hd : t.dims = N :: C :: ds) (hN : 0 < N) (hC : 0 < C) (hx : Reads t X) (hr : ds.length ≤ 14)
    (hq : List.Forall₂ (fun d q => 0 < q ∧ q ≤ d) ds qs) :
    ∃ r, t.adaptivePool (Tensor.windowMean 0 (· + ·) (fun a n => a / (n : K))) qs = .ok r ∧ r.WF ∧
      r.dims = N :: C :: qs ∧
      ∀ n c o, InRange (n :: c :: o) r.dims → r.elem (n :: c :: o) = some ((lsum (indices ds) fun i =>
        if Adapted ds qs o i then X (n :: c :: i) else 0) / (numel (adaptedSizes ds qs) : K)) := by
  obtain ⟨ps, h1, h2, h3, h4, h5, h6, h7⟩ := adaptiveSteps_ok hq
  obtain ⟨r, out, r1, r2, r3, r4, r5⟩ := mean_lead (ps := List.replicate ds.length (0, 0)) ht hd hN hC hx hr h3
    h4 (by simp) h5
  obtain rfl := h6 out r4
  have hlen := hq.length_eq
  refine ⟨r, ?_, r2, r3, fun n c o hi => ?_⟩
  · rw [Tensor.adaptivePool, if_neg (by rw [hd]; simp [hlen])]
    simp only [hd, List.drop_succ_cons, List.drop_zero, h1, Res.ok_bind]
    rw [← hlen]
    exact r1
  rw [r3] at hi
  rw [h2] at h7
  rw [r5 n c o hi, h2]
  congr 2
  refine sum_congr' fun i hm => ?_
  simp only [h7 o i hi.2.2 (mem_indices.mp hm).length]

/-- C90, adaptive windows: every position of the input lies in a window; if the sizes divide the sizes of the input it
lies in exactly one. -/
theorem C90_adaptive_cover {ds qs i : List Nat} (hq : List.Forall₂ (fun d q => 0 < q ∧ q ≤ d) ds qs)
    (hi : InRange i ds) :
    (∃ o, InRange o qs ∧ Adapted ds qs o i) ∧
    (List.Forall₂ (fun d q => q ∣ d) ds qs → ∀ o o', InRange o qs → InRange o' qs → Adapted ds qs o i →
      Adapted ds qs o' i → o = o') := by
  induction hq generalizing i with
  | nil =>
    refine ⟨⟨[], trivial, by simp [Adapted]⟩, fun _ o o' h h' _ _ => ?_⟩
    rw [List.eq_nil_of_length_eq_zero h.length, List.eq_nil_of_length_eq_zero h'.length]
  | @cons d q ds qs hq _ ih =>
    match i, hi with
    | b :: i, ⟨hb, hi⟩ =>
      obtain ⟨⟨o, o1, o2⟩, u⟩ := ih hi
      have hpos : 0 < d / q := Nat.div_pos hq.2 hq.1
      have hle : q * (d / q) ≤ d := Nat.mul_div_le d q
      refine ⟨?_, fun hdv o o' ho ho' ha ha' => ?_⟩
      · have hmul := Nat.div_mul_le_self b (d / q)
        have hlt := Nat.lt_div_mul_add hpos (a := b)
        rcases Nat.lt_or_ge (b / (d / q)) q with hlt' | hge
        · refine ⟨b / (d / q) :: o, ⟨hlt', o1⟩, ⟨by omega, ?_⟩, o2⟩
          have e : b / (d / q) * (d / q) + (q - 1 - b / (d / q)) * (d / q) + d / q = q * (d / q) := by
            rw [← Nat.add_mul, ← Nat.succ_mul, show (b / (d / q) + (q - 1 - b / (d / q))).succ = q by omega]
          omega
        · refine ⟨(q - 1) :: o, ⟨by omega, o1⟩, ⟨?_, ?_⟩, o2⟩
          · have := Nat.mul_le_mul_right (d / q) (show q - 1 ≤ b / (d / q) by omega)
            omega
          · rw [show q - 1 - (q - 1) = 0 by omega]; omega
      · match o, o', ho, ho', ha, ha' with
        | a :: o, a' :: o', ho, ho', ha, ha' =>
          cases hdv with
          | cons hdv hdvs =>
            rw [u hdvs o o' ho.2 ho'.2 ha.2 ha'.2]
            congr 1
            have hex : q * (d / q) = d := Nat.mul_div_cancel' hdv
            have key : ∀ x, x < q → x * (d / q) ≤ b → b + (q - 1 - x) * (d / q) < d → b / (d / q) = x := by
              intro x hx h1 h2
              have e : x * (d / q) + (q - 1 - x) * (d / q) + d / q = q * (d / q) := by
                rw [← Nat.add_mul, ← Nat.succ_mul, show (x + (q - 1 - x)).succ = q by omega]
              have e2 : (x + 1) * (d / q) = x * (d / q) + d / q := Nat.succ_mul _ _
              exact (Nat.div_eq_iff hpos).mpr ⟨by omega, by omega⟩
            rw [← key a ho.1 ha.1.1 ha.1.2, ← key a' ho'.1 ha'.1.1 ha'.1.2]

/-! ## C90: global pooling -/

theorem Spec.Fibre.unique {K dims idx : List Nat} {keep : Bool} {js js' : List (List Nat)}
    (h : Fibre K keep dims idx js) (h' : Fibre K keep dims idx js') : js = js' := by
  have hperm : js.Perm js' := (List.perm_ext_iff_of_nodup h.nodup h'.nodup).mpr fun j => by rw [h.mem, h'.mem]
  have hm := h.order
  have hm' := h'.order
  rw [← hperm.length_eq, ← hm] at hm'
  have hinj := List.inj_on_of_nodup_map (hm ▸ List.nodup_range :
    (js.map (fun j => rowMajor (K.map fun k => dims.getD k 0) (K.map fun k => j.getD k 0))).Nodup)
  refine List.ext_getElem hperm.length_eq fun i h1 h2 => ?_
  refine hinj (List.getElem_mem h1) (hperm.mem_iff.mpr (List.getElem_mem h2)) ?_
  have := congrArg (fun l => l[i]?) hm'
  simpa [h1, h2] using this.symm

theorem range_map_getD (pre l : List Nat) :
    ((List.range l.length).map (· + pre.length)).map (fun k => (pre ++ l).getD k 0) = l := by
  refine List.ext_getElem (by simp) fun i h1 h2 => ?_
  simp [List.getD_eq_getElem?_getD, List.getElem?_append_right, h2]

theorem map_rowMajor_indices (dims : List Nat) : (indices dims).map (rowMajor dims) = List.range (numel dims) := by
  unfold indices
  rw [List.map_map]
  conv_rhs => rw [← List.map_id (List.range (numel dims))]
  exact List.map_congr_left fun n hn => rowMajor_unravel (List.mem_range.mp hn)

/-- The positions of one channel, in row-major order. -/
theorem fibre_channel {N C n c : Nat} {ds : List Nat} (hn : n < N) (hc : c < C) :
    Fibre ((List.range ds.length).map (· + 2)) true (N :: C :: ds) (n :: c :: List.replicate ds.length 0)
      ((indices ds).map fun q => n :: c :: q) := by
  constructor
  · intro j
    simp only [List.mem_map, mem_indices, reduceIndex, if_true]
    have hz : ∀ (a b : Nat) (q : List Nat), q.length = ds.length →
        zeroAxes ((List.range ds.length).map (· + 2)) (a :: b :: q) = a :: b :: List.replicate ds.length 0 := by
      intro a b q hq
      refine List.ext_getElem (by simp [zeroAxes, hq]) fun i h1 h2 => ?_
      simp only [zeroAxes, List.getElem_mapIdx]
      match i with
      | 0 => simp
      | 1 => simp
      | i + 2 =>
        have : i < ds.length := by simpa using h2
        simp [this]
    constructor
    · rintro ⟨q, hq, rfl⟩
      exact ⟨⟨hn, hc, hq⟩, hz n c q hq.length⟩
    · rintro ⟨h1, h2⟩
      match j, h1 with
      | a :: b :: q, h1 =>
        rw [hz a b q h1.2.2.length] at h2
        injection h2 with e1 h2
        injection h2 with e2 _
        subst e1; subst e2
        exact ⟨q, h1.2.2, rfl⟩
  · rw [List.map_map, List.length_map]
    have h1 : ((List.range ds.length).map (· + 2)).map (fun k => (N :: C :: ds).getD k 0) = ds :=
      range_map_getD [N, C] ds
    have hlen : (indices ds).length = numel ds := by simp [indices]
    rw [h1, hlen, ← map_rowMajor_indices]
    refine List.map_congr_left fun q hq => ?_
    have hq := (mem_indices.mp hq).length
    simp only [Function.comp_apply]
    rw [← hq]
    exact congrArg _ (range_map_getD [n, c] q)

/-- C90, global pooling, for every accumulation `comb` (mean, max): batch and channel are kept and the only spatial
position holds the accumulation of all entries of the channel, in row-major order. -/
theorem C90_global_partial {t : Tensor α} {X : List Nat → α} {N C : Nat} {ds : List Nat} (comb : List α → β) (ht : t.WF)
    (hd : t.dims = N :: C :: ds) (hx : Reads t X) (hr : ds.length ≤ 14) (hpos : 0 < ds.length) :
    ∃ r, t.globalPool (Tensor.reduce comb) ds.length = .ok r ∧ r.WF ∧
      r.dims = N :: C :: List.replicate ds.length 1 ∧
      ∀ n c, n < N → c < C → r.elem (n :: c :: List.replicate ds.length 0) =
        some (comb ((indices ds).map fun q => X (n :: c :: q))) := by
  have hax : NamesAxes t.dims.length ((List.range ds.length).map fun (i : Nat) => (i : Int) + 2)
      ((List.range ds.length).map (· + 2)) := by
    refine Or.inr ⟨by simpa using List.ne_nil_of_length_pos hpos, ?_⟩
    rw [List.forall₂_map_left_iff, List.forall₂_map_right_iff, List.forall₂_same]
    intro i hi
    have := List.mem_range.mp hi
    refine ⟨by rw [hd]; simp; omega, Or.inl (by push_cast; rfl)⟩
  have hn : ((List.range ds.length).map (· + 2)).Nodup := List.nodup_range.map fun a b h => by simpa using h
  obtain ⟨r, r1, r2, r3, r4⟩ := C21_reduce_partial (keep := true) ht
    (by rw [hd]; simp only [List.length_cons]; omega) hax hn (by simp) comb
  have hshape : reduceShape ((List.range ds.length).map (· + 2)) true t.dims = N :: C :: List.replicate ds.length 1 := by
    rw [hd]
    refine List.ext_getElem (by simp [reduceShape, unitAxes]) fun i h1 h2 => ?_
    simp only [reduceShape, if_true, unitAxes, List.getElem_mapIdx]
    match i with
    | 0 => simp
    | 1 => simp
    | i + 2 =>
      have : i < ds.length := by simpa using h2
      simp [this]
  refine ⟨r, by rw [Tensor.globalPool, if_neg (by rw [hd]; simp), r1], r2, by rw [r3, hshape], fun n c hn' hc => ?_⟩
  have hin : InRange (List.replicate ds.length 0) (List.replicate ds.length 1) := by
    generalize ds.length = m
    induction m with
    | zero => trivial
    | succ m ih => exact ⟨by omega, ih⟩
  obtain ⟨js, vals, f1, -, f3, f4⟩ := r4 (n :: c :: List.replicate ds.length 0)
    (by rw [hshape]; exact ⟨hn', hc, hin⟩)
  rw [hd] at f1
  obtain rfl := f1.unique (fibre_channel hn' hc)
  rw [f4]
  congr 2
  rw [List.map_map] at f3
  have : (indices ds).map (t.elem ∘ fun q => n :: c :: q) = ((indices ds).map fun q => X (n :: c :: q)).map some := by
    rw [List.map_map]
    refine List.map_congr_left fun q hq => hx _ ?_
    rw [hd]; exact ⟨hn', hc, mem_indices.mp hq⟩
  rw [this] at f3
  exact (List.map_injective_iff.mpr (Option.some_injective _) f3).symm

/-! ## C90: fractional pooling -/

/-- The first positions of the block of output position `o`, for boundaries `bs`. -/
def Spec.blockStart (bs : List (Nat → Nat)) (o : List Nat) : List Nat := List.zipWith (fun b i => b i) bs o

/-- The sizes of the block of output position `o`. -/
def Spec.blockSize (bs : List (Nat → Nat)) (o : List Nat) : List Nat :=
  List.zipWith (fun b i => b (i + 1) - b i) bs o

theorem inRange_block {ds q : List Nat} {bs : List (Nat × Nat)}
    (h : List.Forall₂ (fun d b => b.1 < b.2 ∧ b.2 ≤ d ∧ d < 2 ^ 31 - 1) ds bs)
    (hq : InRange q (bs.map fun b => b.2 - b.1)) : InRange (List.zipWith (· + ·) (bs.map Prod.fst) q) ds := by
  induction h generalizing q with
  | nil => rw [List.eq_nil_of_length_eq_zero hq.length]; trivial
  | @cons d b ds bs hb _ ih =>
    match q, hq with
    | y :: q, hq => exact ⟨by have : y < b.2 - b.1 := hq.1; simp only; omega, ih hq.2⟩

/-- Slices along all axes select a block. -/
theorem sliceAll_ok {t : Tensor α} {pre ds : List Nat} {bs : List (Nat × Nat)} (ht : t.WF) (hd : t.dims = pre ++ ds)
    (hr : (pre ++ ds).length < 2 ^ 31) (hb : List.Forall₂ (fun d b => b.1 < b.2 ∧ b.2 ≤ d ∧ d < 2 ^ 31 - 1) ds bs) :
    ∃ r, sliceAll pre.length bs t = .ok r ∧ r.WF ∧ r.dims = pre ++ bs.map (fun b => b.2 - b.1) ∧
      ∀ p q, InRange p pre → InRange q (bs.map fun b => b.2 - b.1) →
        r.elem (p ++ q) = t.elem (p ++ List.zipWith (· + ·) (bs.map Prod.fst) q) := by
  induction hb generalizing t pre with
  | nil =>
    refine ⟨t, rfl, ht, by simpa using hd, fun p q _ hq => ?_⟩
    rw [List.eq_nil_of_length_eq_zero hq.length]; rfl
  | @cons d b ds bs hb hrest ih =>
    obtain ⟨a, e⟩ := b
    simp only at hb
    have hk : pre.length < t.dims.length := by rw [hd]; simp
    have hgd : t.dims.getD pre.length 0 = d := by rw [hd]; simp [List.getD_eq_getElem?_getD]
    have hlen : t.dims.length < 2 ^ 31 := by rw [hd]; exact hr
    have hc := C04_slice_partial (dim := pre.length) (start := a) (stop := some (e : Int)) (step := 1) ht hlen
      ⟨hk, Or.inl rfl⟩ (by rw [hgd]; omega) (by unfold I32; omega)
      (by intro x hx; cases hx; unfold I32; omega) (by norm_num) (by rw [hgd]; omega)
    have hfrom : sliceFrom d a 1 = a := by simp only [sliceFrom]; omega
    have hto : sliceTo d (some (e : Int)) 1 = e := by simp only [sliceTo]; omega
    have hsel : ∀ j, sliceSelects d a (some (e : Int)) 1 j ↔ a + j < e := by
      intro j
      simp only [sliceSelects, hfrom, hto]
      rw [if_pos (by norm_num)]
      omega
    unfold SliceCorrect at hc
    simp only [hgd] at hc
    obtain ⟨r, n, r1, r2, r3, r4, r5⟩ := hc.2 ((hsel 0).mpr (by omega))
    have hn : n = e - a := by
      have h1 := (r4 n).trans (hsel n)
      have h2 := (r4 (e - a)).trans (hsel (e - a))
      have h3 := (r4 (e - a - 1)).trans (hsel (e - a - 1))
      omega
    have hrd : r.dims = (pre ++ [e - a]) ++ ds := by
      rw [r3, hd, hn, List.set_append_right _ _ (le_refl _)]; simp
    obtain ⟨r', q1, q2, q3, q4⟩ := ih (t := r) (pre := pre ++ [e - a]) r2 hrd (by simpa using hr)
    refine ⟨r', ?_, q2, by rw [q3]; simp, fun p q hp hq => ?_⟩
    · simp only [sliceAll]
      rw [r1, Res.ok_bind]
      simpa using q1
    · match q, hq with
      | x :: q, hq =>
        have hx : x < e - a := hq.1
        have hin : InRange (p ++ [x]) (pre ++ [e - a]) := (inRange_append hp.length).mpr ⟨hp, hx, trivial⟩
        have h1 := q4 (p ++ [x]) q hin hq.2
        rw [List.append_assoc, List.append_assoc] at h1
        simp only [List.singleton_append] at h1
        rw [h1]
        have hz := inRange_block hrest hq.2
        rw [r5 _ (by rw [hrd, List.append_assoc]; exact (inRange_append hp.length).mpr ⟨hp, hx, hz⟩)]
        have hpl := hp.length
        rw [hfrom, ← hpl, List.set_append_right _ _ (le_refl _)]
        simp only [Nat.sub_self, List.set_cons_zero, List.getD_eq_getElem?_getD,
          List.getElem?_append_right (le_refl p.length), List.getElem?_cons_zero, Option.getD_some, List.map_cons,
          List.zipWith_cons_cons]
        congr 3
        omega

/-- The reduction over all axes. -/
theorem reduce_everything {t : Tensor α} {F : List Nat → α} {e : List Nat} (comb : List α → β) (ht : t.WF)
    (hd : t.dims = e) (hv : Reads t F) (hr : e.length ≤ 16) (hpos : 0 < e.length) :
    ∃ r, t.reduce comb ((List.range e.length).map fun (i : Nat) => (i : Int)) false = .ok r ∧
      Val r [] (fun _ => comb ((indices e).map F)) ∧ r.storage.length = numel [] := by
  subst hd
  have hax : NamesAxes t.dims.length ((List.range t.dims.length).map fun (i : Nat) => (i : Int)) (List.range t.dims.length) := by
    refine Or.inr ⟨by simpa using List.ne_nil_of_length_pos hpos, ?_⟩
    rw [List.forall₂_map_left_iff, List.forall₂_same]
    exact fun i hi => ⟨List.mem_range.mp hi, Or.inl rfl⟩
  have hz : ∀ p, p ∉ List.range t.dims.length → t.dims[p]? ≠ some 0 := by
    intro p hp
    rw [List.getElem?_eq_none (by simpa using hp)]; simp
  obtain ⟨r, r1, r2, r3, r4⟩ := reduceWith_ok (keep := false) ht hr hax List.nodup_range (fun _ => hz)
    (fun vs : List (List Nat × α) => comb (vs.map Prod.snd))
  obtain ⟨r', s1, -, s3, s4⟩ := C22_shape_partial (keep := false) ht hr hax (fun _ => hz) comb
  have he : r = r' := by
    have : Res.ok r = Res.ok r' := by rw [← r1, ← s1]; rfl
    injection this
  subst he
  rw [reduceShape_all] at r3 r4 s3
  obtain ⟨js, vals, f1, f3, f4⟩ := r4 [] trivial
  have hF : Fibre (List.range t.dims.length) false t.dims [] (indices t.dims) := by
    constructor
    · intro j
      rw [mem_indices]
      refine ⟨fun h => ⟨h, ?_⟩, fun h => h.1⟩
      have : (cell (List.range t.dims.length) false t.dims []) = allIndices t.dims := cell_all _
      have hm : j ∈ cell (List.range t.dims.length) false t.dims [] := by rw [this, mem_allIndices]; exact h
      exact (mem_cell.mp hm).2
    · have hg : ∀ l : List Nat, (List.range l.length).map (fun k => l.getD k 0) = l := fun l => by
        simpa using range_map_getD [] l
      rw [hg, show (indices t.dims).length = numel t.dims by simp [indices], ← map_rowMajor_indices]
      refine List.map_congr_left fun q hq => ?_
      rw [← (mem_indices.mp hq).length, hg]
  obtain rfl := f1.unique hF
  refine ⟨r, s1, ⟨r2, s3, Or.inr (by rw [r3]; rfl), ?_⟩, by rw [s4, s3]⟩
  intro idx hi
  rw [List.eq_nil_of_length_eq_zero hi.length, f4]
  have hv' : (indices t.dims).map t.elem = ((indices t.dims).map F).map some := by
    rw [List.map_map]
    exact List.map_congr_left fun q hq => hv q (mem_indices.mp hq)
  rw [hv'] at f3
  have f3 := List.map_injective_iff.mpr (Option.some_injective _) f3
  rw [List.map_snd_zip]
  · rw [f3]
  · rw [← f3]; simp

theorem regionAt_eq {ds qs o : List Nat} {fl : ℚ → ℚ} (hl : ds.length = qs.length) (ho : o.length = qs.length) :
    regionAt (List.zipWith (fracSeq fl) ds qs) o =
      List.zipWith (fun (b : Nat → Nat) i => (b i, b (i + 1)))
        (List.zipWith (fun d q i => (fracSeq fl d q).getD i 0) ds qs) o := by
  induction ds generalizing qs o with
  | nil => cases qs <;> simp_all [regionAt]
  | cons d ds ih =>
    match qs, o, hl, ho with
    | q :: qs, i :: o, hl, ho =>
      simp only [List.zipWith_cons_cons, regionAt]
      rw [ih (by simpa using hl) (by simpa using ho)]

theorem block_bounds {ds qs o : List Nat} {bs : List (Nat → Nat)}
    (h : List.Forall₂ (fun (dq : Nat × Nat) b => Splits dq.1 dq.2 b ∧ dq.1 < 2 ^ 31 - 1) (ds.zip qs) bs)
    (hl : ds.length = qs.length) (ho : InRange o qs) :
    List.Forall₂ (fun d b => b.1 < b.2 ∧ b.2 ≤ d ∧ d < 2 ^ 31 - 1) ds
      (List.zipWith (fun (b : Nat → Nat) i => (b i, b (i + 1))) bs o) := by
  induction ds generalizing qs o bs with
  | nil =>
    match qs, hl with
    | [], _ => rw [List.eq_nil_of_length_eq_zero ho.length]; cases h; exact .nil
  | cons d ds ih =>
    match qs, o, hl, ho with
    | q :: qs, i :: o, hl, ho =>
      cases h with
      | cons h hs =>
        refine .cons ⟨h.1.step i ho.1, ?_, h.2⟩ (ih hs (by simpa using hl) ho.2)
        have key : ∀ n, i + 1 + n ≤ q → ∀ b : Nat → Nat, Splits d q b → b (i + 1) ≤ b (i + 1 + n) := by
          intro n hn b hb
          induction n with
          | zero => exact le_rfl
          | succ n ihn => exact (ihn (by omega)).trans (hb.step (i + 1 + n) (by omega)).le
        have hi : i < q := ho.1
        have := key (q - (i + 1)) (by omega) _ h.1
        rw [show i + 1 + (q - (i + 1)) = q by omega, h.1.last] at this
        exact this

/-- C90, fractional pooling (sizes below `2 ^ 24`, output sizes positive and at most the input sizes, every rounding of
`f64`): every axis is split into as many consecutive intervals as requested, none of them empty, with boundaries less
than 1 from the ideal ones; every output cell is the accumulation (`max`) of the entries of its batch, channel and block,
in row-major order. -/
theorem C90_fractional_partial {t : Tensor α} {X : List Nat → α} {N C : Nat} {ds qs : List Nat} {fl : ℚ → ℚ}
    (hfl : IsRounding fl) (comb : List α → β) (ht : t.WF) (hd : t.dims = N :: C :: ds) (hN : 0 < N) (hC : 0 < C)
    (hN' : N < 2 ^ 31 - 1) (hC' : C < 2 ^ 31 - 1) (hx : Reads t X) (hr : ds.length ≤ 14)
    (hq : List.Forall₂ (fun d q => 0 < q ∧ q ≤ d ∧ d < 2 ^ 24) ds qs) :
    ∃ bs : List (Nat → Nat), List.Forall₂ (fun (dq : Nat × Nat) b => Splits dq.1 dq.2 b) (ds.zip qs) bs ∧
    ∃ r, t.fractionalPool fl comb qs = .ok r ∧ r.WF ∧ r.dims = N :: C :: qs ∧
      ∀ n c o, InRange (n :: c :: o) r.dims → r.elem (n :: c :: o) = some (comb ((indices (blockSize bs o)).map fun q =>
        X (n :: c :: List.zipWith (· + ·) (blockStart bs o) q))) := by
  have hlen := hq.length_eq
  refine ⟨List.zipWith (fun d q i => (fracSeq fl d q).getD i 0) ds qs, ?_, ?_⟩
  · clear hr hlen hd
    induction hq with
    | nil => exact .nil
    | cons h _ ih => exact .cons (fracSeq_splits hfl h.1 h.2.1 h.2.2) ih
  have hbs : List.Forall₂ (fun (dq : Nat × Nat) b => Splits dq.1 dq.2 b ∧ dq.1 < 2 ^ 31 - 1) (ds.zip qs)
      (List.zipWith (fun d q i => (fracSeq fl d q).getD i 0) ds qs) := by
    clear hr hlen hd
    induction hq with
    | nil => exact .nil
    | cons h _ ih => exact .cons ⟨fracSeq_splits hfl h.1 h.2.1 h.2.2, by have := h.2.2; omega⟩ ih
  generalize hB : List.zipWith (fun d q i => (fracSeq fl d q).getD i 0) ds qs = bs at hbs
  -- one cell
  let val : List Nat → β := fun idx => comb ((indices (blockSize bs (idx.drop 2))).map fun q =>
    X (idx.take 2 ++ List.zipWith (· + ·) (blockStart bs (idx.drop 2)) q))
  have hcell : ∀ idx, InRange idx (N :: C :: qs) → ∃ r,
      ((sliceAll 0 ((idx.take 2).map (fun b => (b, b + 1)) ++ regionAt (List.zipWith (fracSeq fl) ds qs) (idx.drop 2))
        t).bind fun region => region.reduce comb ((List.range t.dims.length).map fun (i : Nat) => (i : Int)) false) =
        .ok r ∧ Val r [] (fun _ => val idx) ∧ r.storage.length = numel [] := by
    intro idx hi
    match idx, hi with
    | n :: c :: o, hi =>
      simp only [List.take_succ_cons, List.take_zero, List.drop_succ_cons, List.drop_zero, List.map_cons, List.map_nil,
        List.cons_append, List.nil_append]
      rw [regionAt_eq hlen hi.2.2.length, hB]
      have hbb := block_bounds hbs hlen hi.2.2
      obtain ⟨r, r1, r2, r3, r4⟩ := sliceAll_ok (pre := []) (ds := N :: C :: ds)
        (bs := (n, n + 1) :: (c, c + 1) :: List.zipWith (fun (b : Nat → Nat) i => (b i, b (i + 1))) bs o) ht hd
        (by simp only [List.nil_append, List.length_cons]; omega)
        (.cons ⟨by simp, hi.1, hN'⟩ (.cons ⟨by simp, hi.2.1, hC'⟩ hbb))
      have hsz : (List.zipWith (fun (b : Nat → Nat) i => (b i, b (i + 1))) bs o).map (fun b => b.2 - b.1) =
          blockSize bs o := by rw [List.map_zipWith]; rfl
      have hst : (List.zipWith (fun (b : Nat → Nat) i => (b i, b (i + 1))) bs o).map Prod.fst = blockStart bs o := by
        rw [List.map_zipWith]; rfl
      simp only [List.map_cons, hsz, hst, List.nil_append, Nat.add_sub_cancel_left] at r3 r4
      have hrl : r.dims.length = t.dims.length := by
        have h1 := hbb.length_eq
        rw [r3, hd, ← hsz]
        simp only [List.length_cons, List.length_map]
        omega
      have hread : Reads r (fun j => X (n :: c :: List.zipWith (· + ·) (blockStart bs o) (j.drop 2))) := by
        intro j hj
        rw [r3] at hj
        match j, hj with
        | a :: b :: q, hj =>
          have ha : a < 1 := hj.1
          have hb : b < 1 := hj.2.1
          obtain rfl : a = 0 := by omega
          obtain rfl : b = 0 := by omega
          have := r4 [] (0 :: 0 :: q) trivial hj
          simp only [List.nil_append, List.zipWith_cons_cons, Nat.add_zero] at this
          rw [this, hx]
          · rfl
          · rw [hd]
            refine ⟨hi.1, hi.2.1, ?_⟩
            have := inRange_block hbb (q := q) (by rw [hsz]; exact hj.2.2)
            rwa [hst] at this
      obtain ⟨r', s1, s2, s3⟩ := reduce_everything comb r2 rfl hread (by rw [hrl, hd]; simp only [List.length_cons]; omega)
        (by rw [hrl, hd]; simp)
      refine ⟨r', ?_, ?_, s3⟩
      · rw [show sliceAll 0 _ t = _ from r1, Res.ok_bind, ← hrl, s1]
      · refine s2.congr fun _ _ => ?_
        show comb _ = comb _
        congr 1
        rw [r3, indices_cons, show List.range 1 = [0] from rfl, List.flatMap_singleton, indices_cons,
          show List.range 1 = [0] from rfl, List.flatMap_singleton]
        simp only [List.map_map]
        rfl
  haveI : Nonempty (Tensor β) := ⟨⟨[], Layout.fromShape [0]⟩⟩
  choose! cellT c1 c2 c3 using hcell
  let shape := N :: C :: qs
  have hsh : t.dims.take 2 ++ qs = shape := by rw [hd]; rfl
  have hm : Res.mapL (fun idx => (sliceAll 0 ((idx.take 2).map (fun b => (b, b + 1)) ++
      regionAt (List.zipWith (fracSeq fl) (t.dims.drop 2) qs) (idx.drop 2)) t).bind fun region =>
        region.reduce comb ((List.range t.dims.length).map fun (i : Nat) => (i : Int)) false) (loops shape) =
      .ok ((indices shape).map cellT) := by
    rw [loops_eq]
    refine Res.mapL_eq_ok_of fun idx hi => ?_
    have := c1 idx (mem_indices.mp hi)
    rw [hd] at this ⊢
    exact this
  have hpos : 0 < numel shape := by
    have : 0 < numel qs := by
      clear hr hlen hd hbs hB hm hsh c1 c2 c3
      induction hq with
      | nil => simp [numel]
      | cons h _ ih => exact Nat.mul_pos h.1 ih
    exact Nat.mul_pos hN (Nat.mul_pos hC this)
  have hil : (indices shape).length = numel shape := by simp [indices]
  obtain ⟨s, s1, s2⟩ := Val.stack (ts := (indices shape).map cellT) (d := []) (G := fun i _ => val (unravel shape i))
    (by rw [List.length_map, hil]; exact hpos) (by simp) (by
      intro i hi
      have hi' : i < numel shape := by simpa [hil] using hi
      have hg : ((indices shape).map cellT)[i] = cellT (unravel shape i) := by simp [indices]
      rw [hg]
      have hu := unravel_inRange hi'
      exact ⟨c2 _ hu, c3 _ hu⟩)
  rw [List.length_map, hil] at s2
  obtain ⟨r, r1, r2⟩ := s2.reshape (e := shape) (G := val) (by simp [numel]) (by
    intro i j hi hj he
    match i, hi with
    | [a], _ =>
      have : a = rowMajor shape j := by simpa [rowMajor, numel] using he
      show val (unravel shape a) = val j
      rw [this, unravel_rowMajor hj])
  refine ⟨r, ?_, r2.wf, r2.dims, fun n c o hi => ?_⟩
  · rw [Tensor.fractionalPool, if_neg (by rw [hd]; simp [hlen])]
    simp only [hsh]
    rw [hm, Res.ok_bind, s1, Res.ok_bind, r1]
  · rw [r2.dims] at hi
    exact r2.vals _ hi

/-! ## C90: what does not hold -/

theorem windowFits_get {ds : List Nat} {ps : List (Nat × Nat)} {ws ss : List Nat} (h : WindowFits ds ps ws ss)
    (hp : ps.length = ds.length) (hw : ws.length = ds.length) (hs : ss.length = ds.length) (k : Nat)
    (hk : k < ds.length) :
    ws.getD k 0 ≤ ds.getD k 0 + (ps.getD k (0, 0)).1 + (ps.getD k (0, 0)).2 ∧ 0 < ss.getD k 0 := by
  induction ds generalizing ps ws ss k with
  | nil => simp at hk
  | cons d ds ih =>
    match ps, ws, ss, hp, hw, hs with
    | (lo, hi) :: ps, w :: ws, s :: ss, hp, hw, hs =>
      cases k with
      | zero => simpa using h.1
      | succ k =>
        simp only [List.getD_cons_succ]
        exact ih h.2 (by simpa using hp) (by simpa using hw) (by simpa using hs) k (by simpa using hk)

/-- C90 fails for an empty batch, for no channels, for stride 0 and for a window that is larger than the padded input:
the layers panic. -/
theorem C90_pool_panics {t : Tensor α} {N C : Nat} {ds : List Nat} {k s p : Nat} (init : A) (step : A → Option α → A)
    (fin : A → Nat → β) (hd : t.dims = N :: C :: ds)
    (h : N = 0 ∨ C = 0 ∨ (s = 0 ∧ ds ≠ []) ∨ ∃ d ∈ ds, d + 2 * p < k) :
    t.pool (Tensor.reduceWindow init step fin) ds.length k s p = .panic := by
  rw [Tensor.pool, if_neg (by rw [hd]; simp)]
  refine (C83_errors init step fin).2 (by rw [hd]; simp) (by rw [hd]; simp) (by rw [hd]; simp) fun hf => ?_
  rw [hd] at hf
  obtain ⟨⟨h1, -⟩, ⟨h2, -⟩, hf⟩ := hf
  have hg := windowFits_get hf (by simp) (by simp) (by simp)
  rcases h with h | h | ⟨h, hne⟩ | ⟨d, hm, h⟩
  · omega
  · omega
  · have hl := List.length_pos_of_ne_nil hne
    have := (hg 0 hl).2
    simp [List.getD_replicate, hl, h] at this
  · obtain ⟨i, hi, rfl⟩ := List.getElem_of_mem hm
    have := (hg i hi).1
    simp [List.getD_replicate, hi] at this
    omega

/-- C90 fails for an adaptive pooling to a size that is 0 or larger than the size of the input, and for an empty batch or
no channels: the layers panic. -/
theorem C90_adaptive_panics {t : Tensor α} {N C : Nat} {ds qs : List Nat} (init : A) (step : A → Option α → A)
    (fin : A → Nat → β) (hd : t.dims = N :: C :: ds) (hl : ds.length = qs.length)
    (h : N = 0 ∨ C = 0 ∨ ∃ k, k < ds.length ∧ (qs.getD k 0 = 0 ∨ ds.getD k 0 < qs.getD k 0)) :
    t.adaptivePool (Tensor.reduceWindow init step fin) qs = .panic := by
  rw [Tensor.adaptivePool, if_neg (by rw [hd]; simp [hl])]
  have hsteps : adaptiveSteps ds qs = .panic ∨ ∃ ps, adaptiveSteps ds qs = .ok ps ∧ ps.length = ds.length ∧
      ∀ k, k < ds.length → qs.getD k 0 ≠ 0 ∧ (ps.map Prod.fst).getD k 0 = ds.getD k 0 / qs.getD k 0 := by
    clear h hd
    induction ds generalizing qs with
    | nil => exact Or.inr ⟨[], rfl, rfl, by simp⟩
    | cons d ds ih =>
      match qs, hl with
      | q :: qs, hl =>
        by_cases hq : q = 0
        · exact Or.inl (by simp [adaptiveSteps, adaptiveStep, hq, Res.bind])
        · rcases ih (by simpa using hl) with h | ⟨ps, h1, h2, h3⟩
          · exact Or.inl (by simp [adaptiveSteps, adaptiveStep, hq, Res.bind, h])
          · refine Or.inr ⟨(d / q, d - (q - 1) * (d / q)) :: ps, by simp [adaptiveSteps, adaptiveStep, hq, Res.bind, h1],
              by simp [h2], fun k hk => ?_⟩
            cases k with
            | zero => exact ⟨hq, rfl⟩
            | succ k => simpa only [List.map_cons, List.getD_cons_succ] using h3 k (by simpa using hk)
  simp only [hd, List.drop_succ_cons, List.drop_zero]
  rcases hsteps with h0 | ⟨ps, h1, h2, h3⟩
  · rw [h0]; rfl
  rw [h1, Res.ok_bind]
  refine (C83_errors init step fin).2 (by rw [hd]; simp [h2]) (by rw [hd]; simp [h2]) (by rw [hd]; simp [hl]) fun hf => ?_
  rw [hd, List.replicate_succ, List.replicate_succ] at hf
  obtain ⟨⟨e1, -⟩, ⟨e2, -⟩, hf⟩ := hf
  rcases h with h | h | ⟨k, hk, h⟩
  · omega
  · omega
  · have := (windowFits_get hf (by simp [hl]) (by simp [h2]) (by simp [h2]) k hk).2
    rw [(h3 k hk).2] at this
    rcases h with h | h
    · exact (h3 k hk).1 h
    · rw [Nat.div_eq_of_lt h] at this; omega

/-- A batch of two images with one channel, the second image stored first. -/
def poolEx : Tensor ℚ := ⟨[7, 8, 9, 10, 11, 12, 1, 2, 3, 4, 5, 6], ⟨[2, 1, 2, 3], [0, 6, 3, 1], 6⟩⟩

theorem poolEx_wf : poolEx.WF := by
  refine ⟨rfl, fun idx hi => ?_⟩
  have h : ∀ idx ∈ indices [2, 1, 2, 3], (poolEx.elem idx).isSome := by decide +kernel
  exact h idx (mem_indices.mpr hi)

theorem poolEx_reads : Reads poolEx (fun idx => (poolEx.elem idx).getD 0) := by
  intro idx hi
  obtain ⟨x, h⟩ := poolEx_wf.get hi
  simp [h]

/-- The hypotheses are met: an expanded view, max pooling with padding, adaptive pooling of 2 by 3 to 1 by 2. -/
example : ∃ r, poolEx.pool (Tensor.windowFold (cMax fun x y => decide (y < x)) (-100)) 2 2 2 1 = .ok r ∧
    r.dims = [2, 1, 2, 2] := by
  obtain ⟨r, h, -, h2, -⟩ := C90_max_pool_partial (N := 2) (C := 1) (ds := [2, 3]) (k := 2) (s := 2) (p := 1) (-100)
    poolEx_wf rfl (by simp) (by simp) poolEx_reads (by
      have h : ∀ idx ∈ indices [2, 1, 2, 3], -100 ≤ (poolEx.elem idx).getD 0 := by decide +kernel
      exact fun idx hi => h idx (mem_indices.mpr hi)) (by simp) (by simp) (by simp)
  exact ⟨r, h, h2⟩

example : poolEx.pool (Tensor.windowFold (cMax fun x y => decide (y < x)) (-100)) 2 2 2 1 =
    .ok ⟨[1, 3, 4, 6, 1, 3, 4, 6], Layout.fromShape [2, 1, 2, 2]⟩ := by decide +kernel

example : poolEx.adaptivePool (Tensor.windowMean 0 (· + ·) (fun a n => a / (n : ℚ))) [1, 2] =
    .ok ⟨[3, 4, 3, 4], Layout.fromShape [2, 1, 1, 2]⟩ := by decide +kernel

example : List.Forall₂ (fun d q => 0 < q ∧ q ≤ d) [2, 3] [1, 2] ∧ adaptedSizes [2, 3] [1, 2] = [2, 2] :=
  ⟨.cons (by simp) (.cons (by simp) .nil), rfl⟩

/-- A rounding that is not exact: down to a multiple of `2 ^ -53`. -/
theorem isRounding_floor : IsRounding (fun x => (⌊x * 2 ^ 53⌋ : ℚ) / 2 ^ 53) := by
  have hc : ∃ c : ℚ, c = 2 ^ 53 ∧ 0 < c ∧ ∃ m : Nat, c = m := ⟨2 ^ 53, rfl, by norm_num, 2 ^ 53, by norm_num⟩
  obtain ⟨c, hc, h0, m, hm⟩ := hc
  refine ⟨fun x y h => ?_, fun n _ => ?_, fun x hx _ => ?_⟩ <;> rw [← hc]
  · refine div_le_div_of_nonneg_right ?_ h0.le
    exact_mod_cast Int.floor_mono (mul_le_mul_of_nonneg_right h h0.le)
  · have : (n : ℚ) * c = ((n * m : ℤ) : ℚ) := by rw [hm]; push_cast; rfl
    rw [this, Int.floor_intCast, ← this, mul_div_cancel_right₀ _ h0.ne']
  · have h1 := Int.floor_le (x * c)
    have h2 := Int.lt_floor_add_one (x * c)
    rw [show (⌊x * c⌋ : ℚ) / c - x = (⌊x * c⌋ - x * c) / c by field_simp, abs_div, abs_of_pos h0]
    refine div_le_div_of_nonneg_right ?_ h0.le
    rw [abs_le]
    constructor <;> linarith

example : (fracSeq (fun x => (⌊x * 2 ^ 53⌋ : ℚ) / 2 ^ 53) 7 3) = [0, 2, 5, 7] := by decide +kernel

/-- The hypotheses are met with that rounding. -/
example : ∃ r, poolEx.fractionalPool (fun x => (⌊x * 2 ^ 53⌋ : ℚ) / 2 ^ 53) List.sum [1, 2] = .ok r ∧
    r.dims = [2, 1, 1, 2] := by
  obtain ⟨bs, -, r, h, -, h2, -⟩ := C90_fractional_partial (N := 2) (C := 1) (ds := [2, 3]) (qs := [1, 2])
    isRounding_floor List.sum poolEx_wf rfl (by simp) (by simp) (by norm_num) (by norm_num) poolEx_reads (by simp)
    (.cons (by norm_num) (.cons (by norm_num) .nil))
  exact ⟨r, h, h2⟩

example : poolEx.fractionalPool id List.sum [1, 2] = .ok ⟨[12, 9, 12, 9], Layout.fromShape [2, 1, 1, 2]⟩ := by
  decide +kernel

example : poolEx.globalPool (Tensor.reduce List.sum) 2 = .ok ⟨[21, 21], Layout.fromShape [2, 1, 1, 1]⟩ := by
  decide +kernel

/-- C90 in full: every pooling to positive sizes succeeds. -/
def C90_full : Prop :=
  ∀ (t : Tensor ℚ) (N C H W p q : Nat), t.WF → t.dims = [N, C, H, W] → 0 < H → 0 < W → 0 < p → 0 < q →
    (∃ r, t.adaptivePool (Tensor.windowMean 0 (· + ·) (fun a n => a / (n : ℚ))) [p, q] = .ok r ∧ r.dims = [N, C, p, q]) ∧
    (∃ r, t.fractionalPool id List.sum [p, q] = .ok r ∧ r.dims = [N, C, p, q])

/-- C90 fails for a fractional pooling to a larger size: two boundaries coincide and the empty slice is rejected. -/
theorem C90_fractional_large : poolEx.fractionalPool id List.sum [1, 5] = .err := by decide +kernel

theorem C90_full_false : ¬ C90_full := by
  intro h
  obtain ⟨r, h1, -⟩ := (h poolEx 2 1 2 3 1 5 poolEx_wf rfl (by simp) (by simp) (by simp) (by simp)).1
  have h2 := C90_adaptive_panics (t := poolEx) (N := 2) (C := 1) (ds := [2, 3]) (qs := [1, 5]) 0 (sumStep (· + ·))
    (fun a n => a / (n : ℚ)) rfl rfl (Or.inr (Or.inr ⟨1, by simp, by simp⟩))
  cases h2.symm.trans h1

end Hodu
