import Verif.Lemmas.CudaUnique
import Verif.Lemmas.Views
import Verif.Lemmas.Elementwise
import Verif.Props.Unique

/-!
# C106: unique on CUDA
-/

namespace Hodu.Cuda
open _root_.Hodu.Spec Cuda.Spec

/-! ## Ranks -/

section
variable {κ : Type} [LinearOrder κ] {y : Nat → κ} {n : Nat} {mk : Nat → Bool}

theorem marks_le {i j : Nat} (h : i ≤ j) : marksTo mk i ≤ marksTo mk j := by
  induction h with
  | refl => exact le_refl _
  | step _ ih => exact le_trans ih (by rw [marksTo]; omega)

theorem marks_pos (h0 : mk 0 = true) (i : Nat) : 1 ≤ marksTo mk (i + 1) :=
  le_trans (by rw [marksTo, marksTo, h0]; exact le_refl _) (marks_le (show 1 ≤ i + 1 by omega))

theorem marks_step {t : Nat} (h : mk t = true) : marksTo mk (t + 1) = marksTo mk t + 1 := by rw [marksTo, h]; rfl

theorem marks_inj {t u : Nat} (ht : mk t = true) (hu : mk u = true) (h : marksTo mk (t + 1) = marksTo mk (u + 1)) :
    t = u := by
  rcases Nat.lt_trichotomy t u with h1 | h1 | h1
  · have := marks_le (mk := mk) (show t + 1 ≤ u by omega)
    have := marks_step hu
    omega
  · exact h1
  · have := marks_le (mk := mk) (show u + 1 ≤ t by omega)
    have := marks_step ht
    omega

theorem marks_onto : ∀ {n k : Nat}, k < marksTo mk n → ∃ t, t < n ∧ mk t = true ∧ marksTo mk t = k := by
  intro n
  induction n with
  | zero => intro k h; exact absurd h (by simp [marksTo])
  | succ n ih =>
    intro k h
    by_cases hk : k < marksTo mk n
    · obtain ⟨t, h1, h2, h3⟩ := ih hk
      exact ⟨t, by omega, h2, h3⟩
    · rw [marksTo] at h
      cases hm : mk n with
      | true => rw [hm] at h; exact ⟨n, by omega, hm, by simp at h; omega⟩
      | false => rw [hm] at h; simp at h; omega

variable (hmono : ∀ i j, i ≤ j → j < n → y i ≤ y j) (hmk : ∀ t, t + 1 < n → (mk (t + 1) = true ↔ y (t + 1) ≠ y t))
include hmono hmk

theorem marks_eq_iff {i j : Nat} (hij : i ≤ j) (hj : j < n) :
    marksTo mk (i + 1) = marksTo mk (j + 1) ↔ y i = y j := by
  induction hij with
  | refl => exact ⟨fun _ => rfl, fun _ => rfl⟩
  | @step j hij ih =>
    have ih := ih (by omega)
    have h := hmk j hj
    have hij : i ≤ j := hij
    show marksTo mk (i + 1) = marksTo mk (j + 1 + 1) ↔ y i = y (j + 1)
    by_cases he : y (j + 1) = y j
    · have hf : mk (j + 1) = false := by
        cases hm : mk (j + 1) with
        | true => exact absurd he (h.mp hm)
        | false => rfl
      have hs : marksTo mk (j + 1 + 1) = marksTo mk (j + 1) := by rw [marksTo, hf]; rfl
      rw [he, ← ih, hs]
    · have ht : mk (j + 1) = true := h.mpr he
      have h1 := marks_le (mk := mk) (show i + 1 ≤ j + 1 by omega)
      have h2 := marks_step ht
      have h3 := hmono i j hij (by omega)
      have h4 := lt_of_le_of_ne (hmono j (j + 1) (by omega) hj) (Ne.symm he)
      exact ⟨fun e => absurd e (by omega), fun e => absurd e (ne_of_lt (lt_of_le_of_lt h3 h4))⟩

theorem marks_eq_iff' {i j : Nat} (hi : i < n) (hj : j < n) :
    marksTo mk (i + 1) = marksTo mk (j + 1) ↔ y i = y j := by
  rcases le_total i j with h | h
  · exact marks_eq_iff hmono hmk h hj
  · rw [eq_comm, marks_eq_iff hmono hmk h hi, eq_comm]

theorem marks_lt {i j : Nat} (hj : j < n) (h : marksTo mk (i + 1) < marksTo mk (j + 1)) : y i < y j := by
  have hij : i < j := by
    by_contra hc
    have := marks_le (mk := mk) (show j + 1 ≤ i + 1 by omega)
    omega
  refine lt_of_le_of_ne (hmono i j (by omega) hj) fun e => ?_
  have := (marks_eq_iff hmono hmk (by omega) hj).mpr e
  omega

end

theorem marks_countP (p : Nat → Bool) (n : Nat) : marksTo p n = (List.range n).countP p := by
  induction n with
  | zero => rfl
  | succ n ih => rw [marksTo, ih, List.range_succ, List.countP_append, List.countP_singleton]

/-! ## Sizes -/

theorem pow2From_spec (n : Nat) : ∀ (r s : Nat), ∃ q, s ≤ q ∧ q ≤ s + r ∧ pow2From r (2 ^ s) n = 2 ^ q ∧
    (n ≤ 2 ^ q ∨ q = s + r) ∧ (q = s ∨ 2 ^ (q - 1) < n) := by
  intro r
  induction r with
  | zero => exact fun s => ⟨s, le_refl _, le_refl _, rfl, Or.inr rfl, Or.inl rfl⟩
  | succ r ih =>
    intro s
    rw [pow2From]
    by_cases h : n ≤ 2 ^ s
    · exact ⟨s, le_refl _, by omega, by rw [if_pos h], Or.inl h, Or.inl rfl⟩
    · rw [if_neg h, show 2 * 2 ^ s = 2 ^ (s + 1) by rw [Nat.pow_succ, Nat.mul_comm]]
      obtain ⟨q, h1, h2, h3, h4, h5⟩ := ih (s + 1)
      refine ⟨q, by omega, by omega, h3, by omega, Or.inr ?_⟩
      rcases h5 with rfl | h5
      · rw [Nat.add_sub_cancel]; omega
      · exact h5

/-- The padded size: the first power of two that is at least the number of elements. -/
theorem nextPow2_spec {n : Nat} (hn : n ≤ 2 ^ 31) : ∃ q, q ≤ 31 ∧ nextPow2 n = 2 ^ q ∧ n ≤ 2 ^ q ∧
    ∀ c, n = 2 ^ c → q = c := by
  obtain ⟨q, h1, h2, h3, h4, h5⟩ := pow2From_spec n 64 0
  have hq : q ≤ 31 := by
    rcases h5 with rfl | h5
    · omega
    · have : 2 ^ (q - 1) < 2 ^ 31 := by omega
      have := (Nat.pow_lt_pow_iff_right (by decide)).mp this
      omega
  have hle : n ≤ 2 ^ q := by
    rcases h4 with h4 | h4
    · exact h4
    · omega
  refine ⟨q, hq, h3, hle, fun c hc => ?_⟩
  rw [hc] at hle h5
  have h6 := (Nat.pow_le_pow_iff_right (by decide)).mp hle
  rcases h5 with rfl | h5
  · omega
  · have := (Nat.pow_lt_pow_iff_right (by decide)).mp h5
    omega

/-! ## The kernels of one operation -/

variable {α : Type}

open Bitonic in
theorem bitonic_chain {less : α → α → Bool} {q : Nat} (hq : q ≤ 31) {m0 : Mem (Cell α)} :
    ∀ (ps : List (Nat × Nat)), (∀ kj ∈ ps, ∃ r, r < q ∧ kj.2 = 2 ^ r) → ∀ v : Nat → α × Int,
    Chain (ps.map fun kj => progGrid64 (2 ^ q) (bitonicProg less (2 ^ q) kj.1 kj.2)) (m0.pair (2 ^ q) v)
      (m0.pair (2 ^ q) (net (fun a b => less a.1 b.1) ps v)) := by
  intro ps
  induction ps with
  | nil => exact fun _ v => .nil _
  | cons p ps ih =>
    intro h v
    obtain ⟨r, hr, e⟩ := h p List.mem_cons_self
    have hP : 2 ^ q ≤ 2 ^ 31 := Nat.pow_le_pow_right (by decide) hq
    have h1 := bitonic_ends (less := less) (k := p.1) hP hr (m0 := m0) v
    rw [← e] at h1
    exact .cons h1 (ih (fun kj hk => h kj (List.mem_cons_of_mem _ hk)) _)

/-- A permutation that moves the smaller keys to the front. -/
theorem front {κ : Type} [LinearOrder κ] {n P : Nat} {g : Nat → κ} {σ τ : Nat → Nat}
    (hb : ∀ x, x < P → σ x < P ∧ τ x < P) (hst : ∀ x, σ (τ x) = x ∧ τ (σ x) = x) (hnP : n ≤ P)
    (hs : ∀ x y, x < y → y < P → g (σ x) ≤ g (σ y))
    (hg : n = P ∨ ∀ x y, x < n → n ≤ y → y < P → g x < g y) {x : Nat} (hx : x < n) : σ x < n := by
  rcases hg with rfl | hg
  · exact (hb x hx).1
  · by_contra hc
    have hτ : ∀ z, z < n → τ z < x := by
      intro z hz
      by_contra hzx
      have h1 := hg z (σ x) hz (by omega) (hb x (by omega)).1
      rcases Nat.lt_or_eq_of_le (Nat.le_of_not_lt hzx) with h2 | h2
      · have h3 := hs x (τ z) h2 (hb z (by omega)).2
        rw [(hst z).1] at h3
        exact absurd h1 (not_lt.mpr h3)
      · rw [h2, (hst z).1] at hc
        exact hc hz
    have hnd : ((List.range n).map τ).Nodup := List.Nodup.map (fun a b h => by
      rw [← (hst a).1, h, (hst b).1]) List.nodup_range
    have hsub : ((List.range n).map τ) ⊆ List.range x := by
      intro a ha
      obtain ⟨z, hz, rfl⟩ := List.mem_map.mp ha
      exact List.mem_range.mpr (hτ z (List.mem_range.mp hz))
    have := (List.subperm_of_subset hnd hsub).length_le
    simp only [List.length_map, List.length_range] at this
    omega

/-! ## Theorems -/

/-- What the memory holds at the end of the operation: buffers of exactly these lengths. -/
def Spec.UniqueResult (M : Mem (Cell α)) (values : List α) (inverse : List Int) (counts : List Nat) : Prop :=
  (∀ k, M (bValues, k) = values[k]?.map .val) ∧ (∀ i, M (bInverse, i) = inverse[i]?.map .int) ∧
  ∀ k, M (bCounts, k) = counts[k]?.map fun c => .int (c : Nat)

theorem exists_fn_list {β : Type} {P : Nat → β → Prop} : ∀ (n : Nat), (∀ k, k < n → ∃ b, P k b) →
    ∃ l : List β, l.length = n ∧ ∀ k b, l[k]? = some b → P k b := by
  intro n
  induction n with
  | zero => exact fun _ => ⟨[], rfl, fun k b h => by simp at h⟩
  | succ n ih =>
    intro h
    obtain ⟨l, hl, hp⟩ := ih fun k hk => h k (by omega)
    obtain ⟨b, hb⟩ := h n (by omega)
    refine ⟨l ++ [b], by simp [hl], fun k c hc => ?_⟩
    rcases Nat.lt_trichotomy k n with hk | hk | hk
    · rw [List.getElem?_append_left (by omega)] at hc
      exact hp k c hc
    · subst hk
      rw [List.getElem?_append_right (by omega), hl, Nat.sub_self] at hc
      cases hc
      exact hb
    · rw [List.getElem?_eq_none (by simp; omega)] at hc
      cases hc

variable {κ : Type} [LinearOrder κ]

/-- The results of the kernels are the distinct keys. -/
theorem unique_spec {key : α → κ} {xs : List α} {zero : α} {mk : Nat → Bool} {σ : Nat → Nat} {M : Mem (Cell α)}
    (hσ : ∀ t, t < xs.length → σ t < xs.length) (hinj : ∀ t u, t < xs.length → u < xs.length → σ t = σ u → t = u)
    (hmono : ∀ i j, i ≤ j → j < xs.length → key (xs.getD (σ i) zero) ≤ key (xs.getD (σ j) zero))
    (h0 : mk 0 = true)
    (hmk : ∀ t, t + 1 < xs.length → (mk (t + 1) = true ↔ key (xs.getD (σ (t + 1)) zero) ≠ key (xs.getD (σ t) zero)))
    (hv0 : ∀ k, (M (bValues, k)).isSome = true ↔ k < marksTo mk xs.length)
    (hi0 : ∀ x, (M (bInverse, x)).isSome = true ↔ x < xs.length)
    (hc0 : ∀ k, (M (bCounts, k)).isSome = true ↔ k < marksTo mk xs.length)
    (hi : ∀ t, t < xs.length → M (bInverse, σ t) = some (.int ((marksTo mk (t + 1) - 1 : Nat) : Int)))
    (hv : ∀ t, t < xs.length → mk t = true → M (bValues, marksTo mk (t + 1) - 1) = some (.val (xs.getD (σ t) zero)))
    (hc : ∀ k, k < marksTo mk xs.length →
      M (bCounts, k) = some (.int (marksTo (fun t => marksTo mk (t + 1) - 1 == k) xs.length))) :
    ∃ values inverse counts, UniqueResult M values inverse counts ∧ IsUnique key xs values inverse counts ∧
      values.length = marksTo mk xs.length := by
  have hperm : ((List.range xs.length).map σ).Perm (List.range xs.length) := by
    refine perm_range (by simp) ?_ ?_
    · intro a ha
      obtain ⟨t, ht, rfl⟩ := List.mem_map.mp ha
      exact hσ t (List.mem_range.mp ht)
    · refine List.Nodup.map_on ?_ List.nodup_range
      intro a ha b hb h
      exact hinj a b (List.mem_range.mp ha) (List.mem_range.mp hb) h
  have honto : ∀ i, i < xs.length → ∃ t, t < xs.length ∧ σ t = i := by
    intro i hi
    have := hperm.symm.subset (List.mem_range.mpr hi)
    obtain ⟨t, ht, e⟩ := List.mem_map.mp this
    exact ⟨t, List.mem_range.mp ht, e⟩
  have hpos := fun i => marks_pos h0 i
  have hget : ∀ i v, xs[i]? = some v → xs.getD i zero = v := by
    intro i v h
    rw [List.getD_eq_getElem?_getD, h]
    rfl
  -- the first place of each value
  have hfirst : ∀ k, k < marksTo mk xs.length → ∃ t, t < xs.length ∧ mk t = true ∧ marksTo mk (t + 1) - 1 = k := by
    intro k hk
    obtain ⟨t, h1, h2, h3⟩ := marks_onto hk
    exact ⟨t, h1, h2, by rw [marks_step h2, h3]; omega⟩
  obtain ⟨values, vl, vp⟩ := exists_fn_list (P := fun k w => M (bValues, k) = some (.val w) ∧
      ∃ t, t < xs.length ∧ marksTo mk (t + 1) - 1 = k ∧ w = xs.getD (σ t) zero) (marksTo mk xs.length) fun k hk => by
    obtain ⟨t, h1, h2, h3⟩ := hfirst k hk
    refine ⟨_, ?_, t, h1, h3, rfl⟩
    rw [← h3]
    exact hv t h1 h2
  obtain ⟨inverse, il, ip⟩ := exists_fn_list (P := fun i c => M (bInverse, i) = some (.int c) ∧
      ∃ t, t < xs.length ∧ σ t = i ∧ c = ((marksTo mk (t + 1) - 1 : Nat) : Int)) xs.length fun i hx => by
    obtain ⟨t, h1, h2⟩ := honto i hx
    refine ⟨_, ?_, t, h1, h2, rfl⟩
    rw [← h2]
    exact hi t h1
  obtain ⟨counts, cl, cp⟩ := exists_fn_list (P := fun k c => M (bCounts, k) = some (.int (c : Nat)) ∧
      c = marksTo (fun t => marksTo mk (t + 1) - 1 == k) xs.length) (marksTo mk xs.length) fun k hk =>
    ⟨_, hc k hk, rfl⟩
  refine ⟨values, inverse, counts, ⟨fun k => ?_, fun i => ?_, fun k => ?_⟩, ⟨?_, il, ?_, by rw [cl, vl], ?_⟩, vl⟩
  · cases h : values[k]? with
    | some w => rw [(vp k w h).1]; rfl
    | none =>
      have h1 : ¬ k < marksTo mk xs.length := by
        rw [← vl]; exact fun hk => by rw [List.getElem?_eq_getElem hk] at h; cases h
      exact Option.isSome_eq_false_iff.mp (by simpa using fun hs => h1 ((hv0 k).mp hs)) |> Option.isNone_iff_eq_none.mp
  · cases h : inverse[i]? with
    | some w => rw [(ip i w h).1]; rfl
    | none =>
      have h1 : ¬ i < xs.length := by
        rw [← il]; exact fun hk => by rw [List.getElem?_eq_getElem hk] at h; cases h
      exact Option.isSome_eq_false_iff.mp (by simpa using fun hs => h1 ((hi0 i).mp hs)) |> Option.isNone_iff_eq_none.mp
  · cases h : counts[k]? with
    | some w => rw [(cp k w h).1]; rfl
    | none =>
      have h1 : ¬ k < marksTo mk xs.length := by
        rw [← cl]; exact fun hk => by rw [List.getElem?_eq_getElem hk] at h; cases h
      exact Option.isSome_eq_false_iff.mp (by simpa using fun hs => h1 ((hc0 k).mp hs)) |> Option.isNone_iff_eq_none.mp
  · rw [List.pairwise_map, List.pairwise_iff_getElem]
    intro i j hx hy hij
    obtain ⟨_, t, t1, t2, t3⟩ := vp i _ (List.getElem?_eq_getElem hx)
    obtain ⟨_, u, u1, u2, u3⟩ := vp j _ (List.getElem?_eq_getElem hy)
    rw [t3, u3]
    have := hpos t
    exact marks_lt (y := fun t => key (xs.getD (σ t) zero)) hmono hmk u1 (by omega)
  · intro i v hx
    obtain ⟨hil, _⟩ := List.getElem?_eq_some_iff.mp hx
    obtain ⟨e1, t, t1, t2, t3⟩ := ip i _ (List.getElem?_eq_getElem (show i < inverse.length by omega))
    have hlt : marksTo mk (t + 1) - 1 < values.length := by
      have := marks_le (mk := mk) (show t + 1 ≤ xs.length by omega)
      have := hpos t
      omega
    refine ⟨marksTo mk (t + 1) - 1, _, by rw [← t3]; exact List.getElem?_eq_getElem _, List.getElem?_eq_getElem hlt, ?_⟩
    obtain ⟨_, u, u1, u2, u3⟩ := vp _ _ (List.getElem?_eq_getElem hlt)
    rw [u3, ← hget i v hx, ← t2]
    have h1 := hpos t
    have h2 := hpos u
    exact (marks_eq_iff' (y := fun t => key (xs.getD (σ t) zero)) hmono hmk u1 t1).mp (by omega)
  · intro k w hw
    obtain ⟨_, t, t1, t2, t3⟩ := vp k w hw
    have hk : k < counts.length := by
      rw [cl, ← vl]
      exact (List.getElem?_eq_some_iff.mp hw).1
    constructor
    · rw [t3, List.getD_eq_getElem?_getD, List.getElem?_eq_getElem (hσ t t1)]
      exact List.getElem_mem _
    · rw [List.getElem?_eq_getElem hk, (cp k _ (List.getElem?_eq_getElem hk)).2, marks_countP]
      congr 1
      have e1 : xs.countP (fun v => decide (key v = key w)) =
          (List.range xs.length).countP fun i => decide (key (xs.getD i zero) = key w) := by
        have : xs = (List.range xs.length).map fun i => xs.getD i zero := by
          apply List.ext_getElem?
          intro i
          by_cases hi : i < xs.length
          · rw [List.getElem?_map, List.getElem?_range hi, Option.map_some, List.getD_eq_getElem?_getD,
              List.getElem?_eq_getElem hi]
            rfl
          · rw [List.getElem?_eq_none (by omega), List.getElem?_eq_none (by simp; omega)]
        conv_lhs => rw [this, List.countP_map]
        rfl
      rw [e1, ← hperm.countP_eq fun i => decide (key (xs.getD i zero) = key w), List.countP_map]
      apply List.countP_congr
      intro u hu
      have hu := List.mem_range.mp hu
      have h1 := hpos u
      have h2 := hpos t
      have h3 := marks_eq_iff' (y := fun t => key (xs.getD (σ t) zero)) hmono hmk hu t1
      simp only [Function.comp, beq_iff_eq, decide_eq_true_eq]
      rw [t3, ← h3]
      omega

/-- Elements of a tensor without gaps are read in order. -/
theorem contiguous_get {t : Tensor α} {xs : List α} (hw : t.WF) (hx : t.HasValues xs)
    (hc : t.layout.isContiguous = true) {i : Nat} (hi : i < xs.length) : t.storage[t.layout.offset + i]? = some xs[i] := by
  have hi' : i < numel t.dims := by rw [← hx.1]; exact hi
  have h := hx.get hi
  unfold Tensor.elem at h
  rw [(isContiguous_iff hw.1).mp hc] at h
  have e : dot (unravel t.dims i) (Layout.computeStrides t.layout.dims) = i :=
    (dot_computeStrides _ _).trans (rowMajor_unravel hi')
  rw [e] at h
  exact h

/-- The memory before the first kernel. -/
def startMem (zero : α) (input : List α) (P : Nat) : Mem (Cell α) :=
  (((Mem.ofBuf bInput (input.map .val)).alloc bSorted P (.val zero)).alloc bOrder P (.int 0)).alloc bCount 1 (.int 0)

/-- The memory before the kernels after the count. -/
def middleMem (zero : α) (n C : Nat) (m : Mem (Cell α)) : Mem (Cell α) :=
  ((((m.alloc bMarks n (.int 0)).alloc bUid n (.int 0)).alloc bValues C (.val zero)).alloc bInverse n (.int 0)).alloc
    bCounts C (.int 0)

/-- The sorted pairs of value and place, with the padding. -/
def sortedPairs (less : α → α → Bool) (zero maxVal : α) (xs : List α) (P : Nat) : Nat → α × Int :=
  Bitonic.net (fun a b => less a.1 b.1) (bitonicPairs P 64 2) (padded0 maxVal (fun x => xs.getD x zero) xs.length)

/-- All kernels but the last, for every contiguous tensor. -/
theorem unique_front (less eq : α → α → Bool) (zero maxVal : α) {t : Tensor α} {xs : List α} (hw : t.WF)
    (hx : t.HasValues xs) (hc : t.layout.isContiguous = true) (hpos : 0 < xs.length) (hn : xs.length ≤ 2 ^ 31)
    {q : Nat} (hq : q ≤ 31) (hnP : xs.length ≤ 2 ^ q) {v : Nat → α × Int}
    (hv : v = sortedPairs less zero maxVal xs (2 ^ q)) {C : Nat} (hC : C = marksTo (isMark eq v) xs.length) :
    ∃ M1 m4, Chain (uniqueKernels1 less eq maxVal xs.length t.layout.offset (2 ^ q)) (startMem zero t.storage (2 ^ q)) M1 ∧
      M1 (bCount, 0) = some (.int C) ∧ 1 ≤ C ∧
      Chain [progGrid64 xs.length (uniqueMarkProg eq), prefixKernel xs.length] (middleMem zero xs.length C M1) m4 ∧
      (∀ t, t < xs.length → m4 (bMarks, t) = some (.int (if isMark eq v t then 1 else 0))) ∧
      (∀ t, t < xs.length → m4 (bUid, t) = some (.int ((marksTo (isMark eq v) (t + 1) - 1 : Nat) : Int))) ∧
      (∀ t, t < xs.length → m4 (bSorted, t) = some (.val (v t).1)) ∧
      (∀ t, t < xs.length → m4 (bOrder, t) = some (.int (v t).2)) ∧
      (∀ k, m4 (bValues, k) = if k < C then some (.val zero) else none) ∧
      (∀ x, m4 (bInverse, x) = if x < xs.length then some (.int 0) else none) ∧
      ∀ k, m4 (bCounts, k) = if k < C then some (.int 0) else none := by
  have hP : 2 ^ q ≤ 2 ^ 31 := Nat.pow_le_pow_right (by decide) hq
  let m0 := startMem zero t.storage (2 ^ q)
  have em0 : m0 = m0.pair (2 ^ q) fun _ => (zero, 0) := by
    funext ⟨b, x⟩
    unfold Mem.pair
    by_cases h1 : b = bSorted
    · subst h1; simp [m0, startMem, Mem.alloc]
    · by_cases h2 : b = bOrder
      · subst h2; simp [m0, startMem, Mem.alloc]
      · simp only [h1, h2, if_false]
  have hin : ∀ x, x < xs.length → m0 (bInput, t.layout.offset + x) = some (.val (xs.getD x zero)) := by
    intro x h
    have : m0 (bInput, t.layout.offset + x) = (t.storage.map Cell.val)[t.layout.offset + x]? := by
      simp [m0, startMem, Mem.alloc, Mem.ofBuf]
    rw [this, List.getElem?_map, contiguous_get hw hx hc h, List.getD_eq_getElem?_getD, List.getElem?_eq_getElem h]
    rfl
  let v0 := padded0 maxVal (fun x => xs.getD x zero) xs.length
  let ps := bitonicPairs (2 ^ q) 64 2
  have hps : ∀ kj ∈ ps, ∃ r, r < q ∧ kj.2 = 2 ^ r := fun kj h => Bitonic.mem_pairs (s := 0) h
  have hv' : v = Bitonic.net (fun a b : α × Int => less a.1 b.1) ps v0 := hv
  have hmk0 : isMark eq v 0 = true := rfl
  have hCpos : 1 ≤ C := by
    have := marks_pos hmk0 (xs.length - 1)
    rw [Nat.sub_add_cancel hpos, ← hC] at this
    exact this
  let M1 := (m0.pair (2 ^ q) v).set (bCount, 0) (.int C)
  have chain1 : Chain (uniqueKernels1 less eq maxVal xs.length t.layout.offset (2 ^ q)) m0 M1 := by
    unfold uniqueKernels1
    refine Chain.append (m1 := m0.pair (2 ^ q) v) (Chain.append (m1 := m0.pair (2 ^ q) v0) (.cons ?_ (.nil _))
      (by rw [hv']; exact bitonic_chain hq ps hps v0)) (.cons ?_ (.nil _))
    · have := sort_ends (maxVal := maxVal) (s0 := fun _ => (zero, 0)) hP hin
      rw [← em0] at this
      exact this
    · have := count_ends (eq := eq) hn hnP (m0 := m0) v (by simp [m0, startMem, Mem.alloc])
      rw [← hC] at this
      exact this
  let m2 := middleMem zero xs.length C M1
  have m2s : ∀ x, x < xs.length → m2 (bSorted, x) = some (.val (v x).1) := by
    intro x hx
    have : m2 (bSorted, x) = m0.pair (2 ^ q) v (bSorted, x) := by
      simp [m2, middleMem, Mem.alloc, M1, Mem.set, Function.update]
    rw [this, pair_sorted (by omega)]
  have m2o : ∀ x, x < xs.length → m2 (bOrder, x) = some (.int (v x).2) := by
    intro x hx
    have : m2 (bOrder, x) = m0.pair (2 ^ q) v (bOrder, x) := by
      simp [m2, middleMem, Mem.alloc, M1, Mem.set, Function.update]
    rw [this, pair_order (by omega)]
  have em2 : m2 = m2.ints bMarks xs.length fun _ => 0 := by
    funext ⟨b, x⟩
    unfold Mem.ints
    by_cases h1 : b = bMarks
    · subst h1; simp [m2, middleMem, Mem.alloc]
    · simp only [h1, if_false]
  let m3 := m2.ints bMarks xs.length fun t => if isMark eq v t then 1 else 0
  have em3 : m3 = m3.ints bUid xs.length fun _ => 0 := by
    funext ⟨b, x⟩
    rw [Mem.ints]
    by_cases h1 : b = bUid
    · subst h1; simp [m3, m2, middleMem, Mem.alloc, Mem.ints]
    · simp only [h1, if_false]
  let m4 := m3.ints bUid xs.length (uidOf (isMark eq v))
  have m4k : ∀ b x, b ≠ bMarks → b ≠ bUid → m4 (b, x) = m2 (b, x) := by
    intro b x hb hb'
    show Mem.ints _ _ _ _ _ = _
    rw [ints_other hb']
    exact ints_other hb
  refine ⟨M1, m4, chain1, by simp [M1, Mem.set], hCpos, .cons (m1 := m3) ?_ (.cons (m1 := m4) ?_ (.nil _)), ?_, ?_, ?_, ?_, ?_,
    ?_, ?_⟩
  · have := mark_ends (eq := eq) hn v m2s
    rw [← em2] at this
    exact this
  · have := prefix_ends (mk := isMark eq v) (m0 := m3) (n := xs.length) (fun t ht => ints_at ht)
    rw [← em3] at this
    exact this
  · intro t ht
    show Mem.ints _ _ _ _ _ = _
    rw [ints_other (by simp)]
    exact ints_at ht
  · intro t ht
    show Mem.ints _ _ _ _ _ = _
    rw [ints_at ht]
    have := marks_pos hmk0 t
    unfold uidOf
    rw [Int.ofNat_sub this]
    rfl
  · intro t ht
    rw [m4k _ _ (by simp) (by simp)]
    exact m2s t ht
  · intro t ht
    rw [m4k _ _ (by simp) (by simp)]
    exact m2o t ht
  · intro k
    rw [m4k _ _ (by simp) (by simp)]
    simp [m2, middleMem, Mem.alloc]
  · intro x
    rw [m4k _ _ (by simp) (by simp)]
    simp [m2, middleMem, Mem.alloc]
  · intro k
    rw [m4k _ _ (by simp) (by simp)]
    simp [m2, middleMem, Mem.alloc]

/-- What the host does with the kernels. -/
theorem host_first (less eq : α → α → Bool) (zero maxVal : α) (l : Layout) (input : List α) {n P : Nat} (hlen : shapeSize l.dims = n) (hn : 0 < n)
    (eP : nextPow2 n = P) (s1 s2 : List (List Nat)) :
    (∀ r : Res (Option (Mem (Cell α))), r = .ok none ∨ r = .ub →
      runAll (uniqueKernels1 less eq maxVal n l.offset P) s1 (startMem zero input P) = r →
      callUniqueCuda less eq zero maxVal l input s1 s2 = r.bind fun _ => .ok none) ∧
    ∀ M1 C, M1 (bCount, 0) = some (.int (C : Nat)) → 1 ≤ C →
      runAll (uniqueKernels1 less eq maxVal n l.offset P) s1 (startMem zero input P) = .ok (some M1) →
      callUniqueCuda less eq zero maxVal l input s1 s2 =
        (runAll (uniqueKernels2 eq n) s2 (middleMem zero n C M1)).bind fun
          | none => .ok none
          | some m => .ok (some (C, m)) := by
  constructor
  · intro r hr h
    unfold callUniqueCuda
    rw [hlen]
    dsimp only
    rw [eP, if_neg (by omega)]
    show (runAll _ _ (startMem zero input P)).bind _ = _
    rw [h]
    rcases hr with rfl | rfl <;> rfl
  · intro M1 C hM1 hC h
    unfold callUniqueCuda
    rw [hlen]
    dsimp only
    rw [eP, if_neg (by omega)]
    show (runAll _ _ (startMem zero input P)).bind _ = _
    rw [h]
    have hC0 : ¬ C = 0 := by omega
    simp only [Res.bind, hM1, Int.toNat_natCast, hC0, if_false]
    rfl

/-- What the host reads of the kernels, whatever the interleavings: the count and the buffers, or nothing
yet; and everything once all threads had enough steps. -/
def Spec.UniqueEnds (less eq : α → α → Bool) (zero maxVal : α) (l : Layout) (input : List α) (count : Nat)
    (M : Mem (Cell α)) : Prop :=
  (∀ s1 s2, callUniqueCuda less eq zero maxVal l input s1 s2 = .ok none ∨
    callUniqueCuda less eq zero maxVal l input s1 s2 = .ok (some (count, M))) ∧
  ∃ B, ∀ s1 s2,
    Fair B (uniqueKernels1 less eq maxVal (numel l.dims) l.offset (nextPow2 (numel l.dims))) s1 →
    Fair B (uniqueKernels2 eq (numel l.dims)) s2 →
    callUniqueCuda less eq zero maxVal l input s1 s2 = .ok (some (count, M))

/-- The full claim: on CUDA `unique` gives the distinct keys, whatever the layout and the values. -/
def Spec.UniqueCudaCorrect (key : α → κ) (less eq : α → α → Bool) (zero maxVal : α) : Prop :=
  ∀ (t : Tensor α) (xs : List α), t.WF → t.HasValues xs → xs ≠ [] → xs.length ≤ 2 ^ 31 →
    ∃ count M values inverse counts, UniqueEnds less eq zero maxVal t.layout t.storage count M ∧
      UniqueResult M values inverse counts ∧ IsUnique key xs values inverse counts ∧ count = values.length

/-- Contiguous tensors whose keys are all below the padding, or whose number of elements is a power of two. -/
theorem C106_unique_partial {key : α → κ} {less eq : α → α → Bool} (hless : ∀ a b, less a b = decide (key a < key b))
    (heq : ∀ a b, eq a b = decide (key a = key b)) (zero maxVal : α) {t : Tensor α} {xs : List α} (hw : t.WF)
    (hx : t.HasValues xs) (hc : t.layout.isContiguous = true) (hne : xs ≠ []) (hn : xs.length ≤ 2 ^ 31)
    (hpad : (∀ v ∈ xs, key v < key maxVal) ∨ ∃ c, xs.length = 2 ^ c) :
    ∃ count M values inverse counts, UniqueEnds less eq zero maxVal t.layout t.storage count M ∧
      UniqueResult M values inverse counts ∧ IsUnique key xs values inverse counts ∧ count = values.length := by
  have hlen : shapeSize t.layout.dims = xs.length := by rw [shapeSize_eq]; exact hx.1.symm
  have hnumel : numel t.layout.dims = xs.length := hx.1.symm
  have hpos : 0 < xs.length := List.length_pos_iff.mpr hne
  obtain ⟨q, hq, eP, hnP, hpow⟩ := nextPow2_spec hn
  have hP : 2 ^ q ≤ 2 ^ 31 := Nat.pow_le_pow_right (by decide) hq
  let v0 := padded0 maxVal (fun x => xs.getD x zero) xs.length
  let ps := bitonicPairs (2 ^ q) 64 2
  have hps : ∀ kj ∈ ps, ∃ r, r < q ∧ kj.2 = 2 ^ r := fun kj h => Bitonic.mem_pairs (s := 0) h
  obtain ⟨σ, τ, h1, h2, h3⟩ := Bitonic.net_perm (lt := fun a b : α × Int => less a.1 b.1) ps hps v0
  let v := sortedPairs less zero maxVal xs (2 ^ q)
  have hsort : ∀ x y, x < y → y < 2 ^ q → key (v0 (σ x)).1 ≤ key (v0 (σ y)).1 := by
    intro x y hxy hy
    rw [← h1, ← h1]
    exact Bitonic.net_sorts (key := fun p : α × Int => key p.1) (lt := fun a b : α × Int => less a.1 b.1)
      (fun a b => hless a.1 b.1) (by omega) v0 hxy hy
  have hσ : ∀ x, x < xs.length → σ x < xs.length := by
    intro x hx
    refine front (g := fun x => key (v0 x).1) h2 h3 hnP hsort ?_ hx
    rcases hpad with hp | ⟨c, hc⟩
    · refine Or.inr fun a b ha hb _ => ?_
      show key (if a < xs.length then xs.getD a zero else maxVal) < key (if b < xs.length then xs.getD b zero else maxVal)
      rw [if_pos ha, if_neg (by omega), List.getD_eq_getElem?_getD, List.getElem?_eq_getElem ha]
      exact hp _ (List.getElem_mem ha)
    · rw [hpow c hc]
      exact Or.inl hc
  have hv1 : ∀ x, x < xs.length → (v x).1 = xs.getD (σ x) zero := by
    intro x hx
    show (Bitonic.net (fun a b : α × Int => less a.1 b.1) ps v0 x).1 = _
    rw [h1]
    show (if σ x < xs.length then xs.getD (σ x) zero else maxVal) = _
    rw [if_pos (hσ x hx)]
  have hv2 : ∀ x, (v x).2 = (σ x : Int) := by
    intro x
    show (Bitonic.net (fun a b : α × Int => less a.1 b.1) ps v0 x).2 = _
    rw [h1]
    rfl
  let mk := isMark eq v
  have hmk0 : mk 0 = true := rfl
  let C := marksTo mk xs.length
  obtain ⟨M1, m4, chain1, hM1, hCpos, chain2', m4m, m4u, m4s, m4o, m4v, m4i, m4c⟩ :=
    unique_front less eq zero maxVal hw hx hc hpos hn hq hnP (v := v) rfl (C := C) rfl
  have hinj : ∀ t u, t < xs.length → u < xs.length → σ t = σ u → t = u := by
    intro t u _ _ h
    rw [← (h3 t).2, h, (h3 u).2]
  obtain ⟨M, hM, hsame, b1, b2, b3⟩ := build_ends (α := α) (n := xs.length) (C := C) hn (m0 := m4) (mk := mk)
    (uid := fun t => marksTo mk (t + 1) - 1) (σ := σ) (w := fun t => (v t).1)
    (fun t ht => ⟨m4u t ht, by
      have := marks_le (mk := mk) (show t + 1 ≤ xs.length by omega)
      have := marks_pos hmk0 t
      show marksTo mk (t + 1) - 1 < marksTo mk xs.length
      omega⟩)
    (fun t ht => ⟨by rw [m4o t ht, hv2], hσ t ht⟩) m4m m4s
    (fun x hx => by rw [m4i, if_pos hx]; rfl) (fun k hk => by rw [m4v, if_pos hk]; rfl)
    (fun k hk => by rw [m4c, if_pos hk]) hinj
    (fun t u _ _ ht hu h => marks_inj ht hu (by
      have h1 := marks_pos hmk0 t
      have h2 := marks_pos hmk0 u
      have h3 : marksTo mk (t + 1) - 1 = marksTo mk (u + 1) - 1 := h
      omega))
  have chain2 : Chain (uniqueKernels2 eq xs.length) (middleMem zero xs.length C M1) M :=
    Chain.append (ls := [progGrid64 xs.length uniqueBuildProg]) chain2' (.cons hM (.nil _))
  obtain ⟨values, inverse, counts, r1, r2, r3⟩ := unique_spec (key := key) (xs := xs) (zero := zero) (mk := mk) (σ := σ)
    (M := M) hσ hinj
    (by
      intro i j hij hj
      rcases Nat.lt_or_eq_of_le hij with h | rfl
      · have := hsort i j h (by omega)
        rw [← h1, ← h1] at this
        rw [← hv1 i (by omega), ← hv1 j hj]
        exact this
      · exact le_refl _)
    hmk0
    (by
      intro t ht
      rw [← hv1 t (by omega), ← hv1 (t + 1) ht]
      show ((t + 1 == 0 || !eq (v (t + 1)).1 (v (t + 1 - 1)).1) = true) ↔ _
      rw [heq, Nat.add_sub_cancel]
      simp)
    (fun k => by rw [← hsame, m4v]; by_cases h : k < C <;> simp [h, C] at *)
    (fun x => by rw [← hsame, m4i]; by_cases h : x < xs.length <;> simp [h])
    (fun k => by rw [← hsame, m4c]; by_cases h : k < C <;> simp [h, C] at *)
    b1 (fun t ht hk => by rw [← hv1 t ht]; exact b2 t ht hk) b3
  obtain ⟨g1, B1, f1⟩ := chain_runAll chain1
  obtain ⟨g2, B2, f2⟩ := chain_runAll chain2
  refine ⟨C, M, values, inverse, counts, ⟨fun s1 s2 => ?_, max B1 B2, fun s1 s2 hf1 hf2 => ?_⟩, r1, r2, r3.symm⟩
  · have hh := host_first less eq zero maxVal t.layout t.storage hlen hpos eP s1 s2
    rcases g1 s1 with h | h
    · exact Or.inl (hh.1 _ (Or.inl rfl) h)
    · rw [hh.2 M1 C hM1 hCpos h]
      rcases g2 s2 with h' | h'
      · exact Or.inl (by rw [h']; rfl)
      · exact Or.inr (by rw [h']; rfl)
  · have hh := host_first less eq zero maxVal t.layout t.storage hlen hpos eP s1 s2
    rw [hnumel, eP] at hf1
    rw [hnumel] at hf2
    rw [hh.2 M1 C hM1 hCpos (f1 s1 (hf1.imp fun _ _ h t ht => le_trans (le_max_left _ _) (h t ht))),
      f2 s2 (hf2.imp fun _ _ h t ht => le_trans (le_max_right _ _) (h t ht))]
    rfl

/-- A line of `n` elements, `d` apart. -/
theorem line {s : List α} {n d o : Nat} {xs : List α} (hl : xs.length = n) (h : ∀ i, i < n → xs[i]? = s[o + i * d]?) :
    (⟨s, ⟨[n], [d], o⟩⟩ : Tensor α).WF ∧ (⟨s, ⟨[n], [d], o⟩⟩ : Tensor α).HasValues xs := by
  have he : ∀ i, (⟨s, ⟨[n], [d], o⟩⟩ : Tensor α).elem [i] = s[o + i * d]? := fun i => by
    simp [Tensor.elem, dot]
  refine ⟨⟨rfl, fun idx hi => ?_⟩, by simp [Tensor.dims, numel, hl], fun idx hi => ?_⟩
  · match idx, hi with
    | [i], hi =>
      have hi : i < n := hi.1
      rw [he, ← h i hi, List.getElem?_eq_getElem (by omega)]
      rfl
  · match idx, hi with
    | [i], hi =>
      have hi : i < n := hi.1
      rw [he, ← h i hi]
      simp [Tensor.dims, rowMajor, numel]

/-- Three different elements of `int8_t`, `INT8_MAX` not among them: all hypotheses hold. -/
example : ∃ count M values inverse counts,
    UniqueEnds (fun a b : Int => decide (a < b)) (fun a b => decide (a = b)) 0 127 ⟨[3], [1], 1⟩ [9, 3, -2, 3] count M ∧
      UniqueResult M values inverse counts ∧ IsUnique (id : Int → Int) [3, -2, 3] values inverse counts ∧
      count = values.length := by
  have h := line (α := Int) (s := [9, 3, -2, 3]) (n := 3) (d := 1) (o := 1) (xs := [3, -2, 3]) rfl (by decide)
  exact C106_unique_partial (fun _ _ => rfl) (fun _ _ => rfl) 0 127 h.1 h.2 rfl (by simp) (by simp) (Or.inl (by decide))

/-! ## What goes wrong -/

theorem exists_fair (B : Nat) : ∀ T : Nat, ∃ s : List Nat, ∀ t, t < T → B ≤ s.count t := by
  intro T
  induction T with
  | zero => exact ⟨[], fun t h => absurd h (by omega)⟩
  | succ T ih =>
    obtain ⟨s, hs⟩ := ih
    refine ⟨s ++ List.replicate B T, fun t ht => ?_⟩
    rw [List.count_append]
    rcases Nat.lt_or_eq_of_le (Nat.le_of_lt_succ ht) with h | rfl
    · exact le_trans (hs t h) (Nat.le_add_right _ _)
    · rw [List.count_replicate_self]
      exact Nat.le_add_left _ _

/-- Kernels without races can be brought to their end; then the next one runs. -/
theorem runAll_last {V : Type} {ks : List (PKernel V)} {m m' : Mem V} (h : Chain ks m m') : ∃ ss : List (List Nat),
    runAll ks ss m = .ok (some m') ∧ ∀ (k : PKernel V) s, k.launch m' s = .ub → runAll (ks ++ [k]) (ss ++ [s]) m = .ub := by
  induction h with
  | nil m =>
    refine ⟨[], rfl, fun k s h => ?_⟩
    show (k.launch m s).bind _ = _
    rw [h]
    rfl
  | @cons k ks m m1 m2 e _ ih =>
    obtain ⟨_, B, hB⟩ := launch_ends e
    obtain ⟨s0, hs0⟩ := exists_fair B k.threads
    obtain ⟨ss, h1, h2⟩ := ih
    refine ⟨s0 :: ss, ?_, fun k' s h => ?_⟩
    · show (k.launch m s0).bind _ = _
      rw [hB s0 hs0]
      exact h1
    · show (k.launch m s0).bind _ = _
      rw [hB s0 hs0]
      exact h2 k' s h

/-- A padding place among the first elements: the last kernel writes outside of its buffer. -/
theorem C106_padding_out_of_bounds (less eq : α → α → Bool) (zero maxVal : α) {t : Tensor α} {xs : List α} (hw : t.WF)
    (hx : t.HasValues xs) (hc : t.layout.isContiguous = true) (hn : xs.length ≤ 2 ^ 31) {x : Nat} (hxn : x < xs.length)
    (hpad : (xs.length : Int) ≤ (sortedPairs less zero maxVal xs (nextPow2 xs.length) x).2) :
    ∃ s1 s2, callUniqueCuda less eq zero maxVal t.layout t.storage s1 s2 = .ub := by
  have hlen : shapeSize t.layout.dims = xs.length := by rw [shapeSize_eq]; exact hx.1.symm
  have hpos : 0 < xs.length := by omega
  obtain ⟨q, hq, eP, hnP, _⟩ := nextPow2_spec hn
  rw [eP] at hpad
  obtain ⟨M1, m4, chain1, hM1, hCpos, chain2, m4m, m4u, m4s, m4o, m4v, m4i, m4c⟩ :=
    unique_front less eq zero maxVal hw hx hc hpos hn hq hnP rfl rfl
  obtain ⟨s1, e1, _⟩ := runAll_last chain1
  obtain ⟨s2, _, e2⟩ := runAll_last chain2
  refine ⟨s1, s2 ++ [[x, x, x, x]], ?_⟩
  have hh := host_first less eq zero maxVal t.layout t.storage hlen hpos eP s1 (s2 ++ [[x, x, x, x]])
  rw [hh.2 M1 _ hM1 hCpos e1]
  have hl : (progGrid64 xs.length uniqueBuildProg).launch m4 [x, x, x, x] = .ub := by
    obtain ⟨h1, h2⟩ := grid_bounds (show xs.length ≤ 2 ^ 32 - 256 by omega)
    have hst : threadStart x = x := threadStart_eq (by omega)
    have hthr : x < 256 * gridSize xs.length := by omega
    generalize hv : sortedPairs less zero maxVal xs (2 ^ q) = v at *
    have hi : m4 (bInverse, (v x).2.toNat) = none := by rw [m4i, if_neg (by omega)]
    have i1 : ((progGrid64 xs.length (uniqueBuildProg (α := α))).init m4).pc x = .head x := by
      show (if x < 256 * gridSize xs.length then PPc.head (threadStart x) else .done) = _
      rw [if_pos hthr, hst]
    unfold PKernel.launch PKernel.exec
    have st1 : (progGrid64 xs.length uniqueBuildProg).step ((progGrid64 xs.length uniqueBuildProg).init m4) x =
        .ok (((progGrid64 xs.length uniqueBuildProg).init m4).goto x (.run x (uniqueBuildProg x))) := by
      unfold PKernel.step
      rw [i1]
      show (if x < xs.length then _ else _) = _
      rw [if_pos hxn]
      rfl
    generalize hs0 : (progGrid64 xs.length (uniqueBuildProg (α := α))).init m4 = S0 at *
    have hm0 : S0.mem = m4 := by rw [← hs0]; rfl
    have hup : ∀ (b : Nat) (c : Cell α), m4 (b, x) = some c → m4.upd (b, x) (fun v => v) = m4 := by
      intro b c h
      unfold Mem.upd
      rw [show (m4 (b, x)).map (fun v => v) = m4 (b, x) by rw [h]; rfl, Function.update_eq_self]
    let S1 := S0.goto x (.run x (uniqueBuildProg x))
    have hm1 : S1.mem = m4 := hm0
    have p1 : S1.pc x = .run x (uniqueBuildProg x) := Function.update_self ..
    obtain ⟨S2, st2, hm2, c2, p2⟩ : ∃ S2, (progGrid64 xs.length uniqueBuildProg).step S1 x = .ok S2 ∧ S2.mem = m4 ∧
        ∃ c : Cell α → Prog (Cell α), S2.pc x = .run x (.load (bOrder, x) c) ∧
          c (.int (v x).2) = .store (bInverse, (v x).2.toNat) (.int ((marksTo (isMark eq v) (x + 1) - 1 : Nat) : Int))
            (.load (bMarks, x) fun
              | .int mk =>
                if mk ≠ 0 then .load (bSorted, x) fun w => .store (bValues, marksTo (isMark eq v) (x + 1) - 1) w
                  (.atomic (bCounts, marksTo (isMark eq v) (x + 1) - 1) inc .done)
                else .atomic (bCounts, marksTo (isMark eq v) (x + 1) - 1) inc .done
              | .val _ => .ub) := by
      refine ⟨{ mem := m4, pc := Function.update S1.pc x (.run x (.load (bOrder, x) fun co =>
        match (Cell.int ((marksTo (isMark eq v) (x + 1) - 1 : Nat) : Int) : Cell α), co with
        | .int uid, .int orig =>
          if uid < 0 ∨ orig < 0 then .ub
          else
            .store (bInverse, orig.toNat) (.int uid) <|
            .load (bMarks, x) fun
              | .int mk =>
                if mk ≠ 0 then .load (bSorted, x) fun w => .store (bValues, uid.toNat) w (.atomic (bCounts, uid.toNat) inc .done)
                else .atomic (bCounts, uid.toNat) inc .done
              | .val _ => .ub
        | _, _ => .ub)) }, ?_, rfl, _, Function.update_self .., ?_⟩
      · unfold PKernel.step
        rw [p1]
        unfold uniqueBuildProg Prog.load
        dsimp only
        rw [hm1, m4u x hxn]
        dsimp only
        rw [hup _ _ (m4u x hxn)]
        rfl
      · dsimp only
        rw [if_neg (by omega)]
        rfl
    obtain ⟨p2, hc2⟩ := p2
    let S3 : PSt (Cell α) := { mem := m4, pc := Function.update S2.pc x (.run x (c2 (.int (v x).2))) }
    have st3 : (progGrid64 xs.length uniqueBuildProg).step S2 x = .ok S3 := by
      unfold PKernel.step
      rw [p2]
      unfold Prog.load
      dsimp only
      rw [hm2, m4o x hxn]
      dsimp only
      rw [hup _ _ (m4o x hxn)]
      rfl
    have p3 : S3.pc x = .run x (c2 (.int (v x).2)) := Function.update_self ..
    have st4 : (progGrid64 xs.length uniqueBuildProg).step S3 x = .ub := by
      unfold PKernel.step
      rw [p3, hc2]
      unfold Prog.store
      dsimp only
      rw [show S3.mem = m4 from rfl, hi]
    simp only [Res.foldL, st1, Res.bind]
    show Res.bind (Res.bind ((progGrid64 xs.length uniqueBuildProg).step S1 x) _) _ = _
    rw [st2]
    simp only [Res.foldL, Res.bind, st3, st4]
  have := e2 _ _ hl
  have h' : uniqueKernels2 (α := α) eq xs.length = [progGrid64 xs.length (uniqueMarkProg eq), prefixKernel xs.length] ++
      [progGrid64 xs.length uniqueBuildProg] := rfl
  rw [h', this]
  rfl

/-- Every tensor that holds a value above the padding (an infinity, say) and whose number of elements is not a
power of two makes the last kernel write outside of its buffer. -/
theorem C106_above_padding_out_of_bounds {key : α → κ} {less : α → α → Bool}
    (hless : ∀ a b, less a b = decide (key a < key b)) (eq : α → α → Bool) (zero maxVal : α) {t : Tensor α} {xs : List α}
    (hw : t.WF) (hx : t.HasValues xs) (hc : t.layout.isContiguous = true) (hn : xs.length ≤ 2 ^ 31)
    (hpow : ∀ c, xs.length ≠ 2 ^ c) {v : α} (hv : v ∈ xs) (habove : key maxVal < key v) :
    ∃ s1 s2, callUniqueCuda less eq zero maxVal t.layout t.storage s1 s2 = .ub := by
  obtain ⟨q, hq, eP, hnP, _⟩ := nextPow2_spec hn
  obtain ⟨σ, τ, h1, h2, h3⟩ := Bitonic.net_perm (lt := fun a b : α × Int => less a.1 b.1) (bitonicPairs (2 ^ q) 64 2)
    (fun kj h => Bitonic.mem_pairs (s := 0) h) (padded0 maxVal (fun x => xs.getD x zero) xs.length)
  have hlt : xs.length < 2 ^ q := lt_of_le_of_ne hnP (hpow q)
  by_cases hall : ∃ x, x < xs.length ∧ xs.length ≤ σ x
  · obtain ⟨x, hx1, hx2⟩ := hall
    refine C106_padding_out_of_bounds less eq zero maxVal hw hx hc hn hx1 ?_
    rw [eP]
    unfold sortedPairs
    rw [h1]
    show (xs.length : Int) ≤ (σ x : Int)
    omega
  · exfalso
    have hσ : ∀ x, x < xs.length → σ x < xs.length := fun x hx' => by
      by_contra hc'
      exact hall ⟨x, hx', by omega⟩
    -- the padding is behind all elements
    have hperm : ((List.range xs.length).map σ).Perm (List.range xs.length) := by
      refine perm_range (by simp) ?_ ?_
      · intro a ha
        obtain ⟨t, ht, rfl⟩ := List.mem_map.mp ha
        exact hσ t (List.mem_range.mp ht)
      · refine List.Nodup.map ?_ List.nodup_range
        intro a b h
        rw [← (h3 a).2, h, (h3 b).2]
    obtain ⟨i, hi, rfl⟩ := List.getElem_of_mem hv
    obtain ⟨y, hy, e⟩ := List.mem_map.mp (hperm.symm.subset (List.mem_range.mpr hi))
    have hy := List.mem_range.mp hy
    have hτ : ¬ τ xs.length < xs.length := by
      intro h
      have := hσ _ h
      rw [(h3 _).1] at this
      omega
    have hs := Bitonic.net_sorts (key := fun p : α × Int => key p.1) (lt := fun a b : α × Int => less a.1 b.1)
      (fun a b => hless a.1 b.1) (show q ≤ 63 by omega) (padded0 maxVal (fun x => xs.getD x zero) xs.length)
      (show y < τ xs.length by omega) (h2 _ hlt).2
    rw [h1, h1, (h3 _).1, e] at hs
    unfold padded0 at hs
    dsimp only at hs
    rw [if_pos hi, if_neg (by omega), List.getD_eq_getElem?_getD, List.getElem?_eq_getElem hi] at hs
    exact absurd habove (not_lt.mpr hs)

theorem fair_both {V : Type} (B B' : Nat) (ks : List (PKernel V)) : ∃ ss, Fair B ks ss ∧ Fair B' ks ss := by
  induction ks with
  | nil => exact ⟨[], .nil, .nil⟩
  | cons k ks ih =>
    obtain ⟨ss, h, h'⟩ := ih
    obtain ⟨s, hs⟩ := exists_fair (B + B') k.threads
    exact ⟨s :: ss, .cons (fun t ht => le_trans (Nat.le_add_right _ _) (hs t ht)) h,
      .cons (fun t ht => le_trans (Nat.le_add_left _ _) (hs t ht)) h'⟩

/-- Three numbers with an infinity among them. -/
example : ∃ s1 s2, callUniqueCuda (fun a b : WithTop Int => decide (a < b)) (fun a b => decide (a = b)) 0 65504
    ⟨[3], [1], 0⟩ [1, ⊤, 2] s1 s2 = .ub := by
  have h := line (α := WithTop Int) (s := [1, ⊤, 2]) (n := 3) (d := 1) (o := 0) (xs := [1, ⊤, 2]) rfl (by decide)
  refine C106_above_padding_out_of_bounds (key := id) (fun _ _ => rfl) _ 0 65504 h.1 h.2 rfl (by simp) ?_
    (v := ⊤) (by simp) (WithTop.coe_lt_top 65504)
  intro c hc
  match c, hc with
  | 0, hc => exact absurd hc (by decide)
  | 1, hc => exact absurd hc (by decide)
  | c + 2, hc =>
    simp only [List.length_cons, List.length_nil, Nat.pow_succ] at hc
    omega

/-- `INT8_MAX` itself: the network puts a padding place among the first three. -/
theorem C106_int8_max_out_of_bounds : ∃ s1 s2, callUniqueCuda (fun a b : Int => decide (a < b)) (fun a b => decide (a = b))
    0 127 ⟨[3], [1], 0⟩ [1, 1, 127] s1 s2 = .ub := by
  have h := line (α := Int) (s := [1, 1, 127]) (n := 3) (d := 1) (o := 0) (xs := [1, 1, 127]) rfl (by decide)
  exact C106_padding_out_of_bounds (fun a b : Int => decide (a < b)) _ 0 127 h.1 h.2 rfl (by simp) (x := 2) (by decide)
    (by decide +kernel)

/-- The full claim is false already for contiguous `int8_t` tensors. -/
theorem C106_unique_int8_refuted :
    ¬ UniqueCudaCorrect (id : Int → Int) (fun a b => decide (a < b)) (fun a b => decide (a = b)) 0 127 := by
  intro hall
  have h := line (α := Int) (s := [1, 1, 127]) (n := 3) (d := 1) (o := 0) (xs := [1, 1, 127]) rfl (by decide)
  obtain ⟨count, M, _, _, _, he, _⟩ := hall _ _ h.1 h.2 (by simp) (by simp)
  obtain ⟨s1, s2, e⟩ := C106_int8_max_out_of_bounds
  rcases he.1 s1 s2 with h' | h' <;> rw [e] at h' <;> cases h'

/-- The strides never reach the kernels. -/
theorem C106_strides_ignored (less eq : α → α → Bool) (zero maxVal : α) (dims st st' : List Nat) (off : Nat)
    (input : List α) (s1 s2 : List (List Nat)) :
    callUniqueCuda less eq zero maxVal ⟨dims, st, off⟩ input s1 s2 =
      callUniqueCuda less eq zero maxVal ⟨dims, st', off⟩ input s1 s2 := rfl

/-- The first column of a matrix holds only `1`, but `unique` of that column looks at the first row: whatever the
padding, the claim fails for views. -/
theorem C106_unique_view_refuted (zero maxVal : Int) :
    ¬ UniqueCudaCorrect (id : Int → Int) (fun a b => decide (a < b)) (fun a b => decide (a = b)) zero maxVal := by
  intro hall
  have h1 := line (α := Int) (s := [1, 2, 1, 2]) (n := 2) (d := 2) (o := 0) (xs := [1, 1]) rfl (by decide)
  have h2 := line (α := Int) (s := [1, 2, 1, 2]) (n := 2) (d := 1) (o := 0) (xs := [1, 2]) rfl (by decide)
  obtain ⟨c1, M1, v1, i1, n1, ⟨_, B1, e1⟩, r1, u1, l1⟩ := hall _ _ h1.1 h1.2 (by simp) (by simp)
  obtain ⟨c2, M2, v2, i2, n2, ⟨_, B2, e2⟩, r2, u2, l2⟩ := hall _ _ h2.1 h2.2 (by simp) (by simp)
  obtain ⟨s1, f1, f1'⟩ := fair_both B1 B2 (uniqueKernels1 (fun a b : Int => decide (a < b)) (fun a b => decide (a = b)) maxVal
    (numel [2]) 0 (nextPow2 (numel [2])))
  obtain ⟨s2, f2, f2'⟩ := fair_both B1 B2 (uniqueKernels2 (fun a b : Int => decide (a = b)) (numel [2]))
  have a := e1 s1 s2 f1 f2
  have b := e2 s1 s2 f1' f2'
  have hsame : M1 = M2 := by
    have : (Res.ok (some (c1, M1)) : Res (Option (Nat × Mem (Cell Int)))) = .ok (some (c2, M2)) := by
      rw [← a, ← b]
      exact C106_strides_ignored ..
    injection this with this
    injection this with this
    injection this
  obtain ⟨k, w, _, hk, hw⟩ := u2.2.2.1 1 2 rfl
  have hkv : v1[k]? = some w := by
    have := r1.1 k
    rw [hsame, r2.1 k, hk] at this
    cases h : v1[k]? with
    | none => rw [h] at this; cases this
    | some w' =>
      rw [h] at this
      injection this with this
      injection this with this
      rw [this]
  have := (u1.2.2.2.2 k w hkv).1
  have hw : w = 2 := hw
  rw [hw] at this
  revert this
  decide

/-- A broadcast scalar: the second thread already reads behind the storage. -/
theorem C106_broadcast_out_of_bounds : callUniqueCuda (fun a b : Int => decide (a < b)) (fun a b => decide (a = b))
    0 127 ⟨[2], [0], 0⟩ [5] [[1, 1]] [] = .ub := by
  rfl

end Hodu.Cuda
