import Verif.Props.Nonzero
import Mathlib.Order.Defs.LinearOrder
import Mathlib.Order.Basic

/-!
# C64: unique

The distinct values in ascending order, for every element the position of its value, and for every
value the number of its occurrences.
-/

namespace Hodu
open Spec

/-! ## Specification -/

/-- `values`, `inverse`, `counts` describe the distinct keys of `xs`, in ascending order. -/
def Spec.IsUnique {κ : Type} [LT κ] [DecidableEq κ] (key : α → κ) (xs values : List α) (inverse : List Int)
    (counts : List Nat) : Prop :=
  (values.map key).Pairwise (· < ·) ∧
  inverse.length = xs.length ∧
  (∀ (i : Nat) (v : α), xs[i]? = some v →
    ∃ (k : Nat) (w : α), inverse[i]? = some (k : Int) ∧ values[k]? = some w ∧ key w = key v) ∧
  counts.length = values.length ∧
  ∀ (k : Nat) (w : α), values[k]? = some w →
    w ∈ xs ∧ counts[k]? = some (xs.countP fun v => decide (key v = key w))

/-- `sort` is a sorting by `key`: any order of the positions with ascending keys (`qsort` is not
stable and may leave equal keys in any order). -/
def Spec.SortsBy {κ : Type} [LE κ] (key : α → κ) (sort : List α → List Nat) : Prop :=
  ∀ xs, (sort xs).Perm (List.range xs.length) ∧
    (sort xs).Pairwise fun i j => ∀ v w, xs[i]? = some v → xs[j]? = some w → key v ≤ key w

/-- The values of a 64-bit signed integer. -/
def Spec.I64 (v : Int) : Prop := -2 ^ 63 ≤ v ∧ v < 2 ^ 63

/-- The full claim for the integer kernels, which sort by `uniqueIntKey`. -/
def Spec.UniqueCorrect : Prop :=
  ∀ (sort : List Int → List Nat), SortsBy uniqueIntKey sort →
  ∀ (t : Tensor Int) (xs : List Int), t.WF → t.HasValues xs → xs.length < 2 ^ 31 →
    (∀ v ∈ xs, I64 v) →
    ∃ V I C, t.unique (· != ·) sort = .ok (V, I, C) ∧
      IsUnique (id : Int → Int) xs V.storage I.storage C.storage

/-! ## Lemmas -/

section
variable {κ : Type} [LinearOrder κ] {key : α → κ} {vals : List α}

/-- Occurrences of the key `x` among the positions `done`. -/
def occ (key : α → κ) (vals : List α) (done : List Nat) (x : κ) : Nat :=
  done.countP fun i => (vals[i]?).any fun v => decide (key v = x)

theorem occ_append (done : List Nat) {o : Nat} {v : α} (hv : vals[o]? = some v) (x : κ) :
    occ key vals (done ++ [o]) x = occ key vals done x + if key v = x then 1 else 0 := by
  unfold occ
  rw [List.countP_append]
  simp [hv, List.countP_cons]

theorem occ_range (x : κ) :
    occ key vals (List.range vals.length) x = vals.countP fun v => decide (key v = x) := by
  unfold occ
  induction vals with
  | nil => rfl
  | cons a vals ih =>
    rw [List.length_cons, List.range_succ_eq_map, List.countP_cons, List.countP_cons, List.countP_map, ← ih]
    rfl

/-- Invariant of the output loop after the positions `done`. -/
structure UInv (key : α → κ) (vals : List α) (done : List Nat) (st : UniqueState α × Option α)
    (ini : List α) (w : α) : Prop where
  hvals : st.1.values = ini ++ [w]
  hprev : ∃ p, st.2 = some p ∧ key p = key w
  hpair : (st.1.values.map key).Pairwise (· < ·)
  hcl : st.1.counts.length = ini.length
  hc : ∀ (k : Nat) (u : α), ini[k]? = some u → st.1.counts[k]? = some (occ key vals done (key u))
  hcur : st.1.current = occ key vals done (key w)
  hmem : ∀ u ∈ st.1.values, u ∈ vals
  hle : ∀ i ∈ done, ∀ v, vals[i]? = some v → key v ≤ key w
  hlen : st.1.values.length ≤ done.length
  hil : st.1.inverse.length = vals.length
  hinv : ∀ i ∈ done, ∀ v, vals[i]? = some v → ∃ (k : Nat) (u : α),
    st.1.inverse[i]? = some (k : Int) ∧ st.1.values[k]? = some u ∧ key u = key v

theorem UInv.step {done : List Nat} {st : UniqueState α × Option α} {ini : List α} {w v : α} {o : Nat}
    (h : UInv key vals done st ini w) (hv : vals[o]? = some v) (ho : o ∉ done) (hge : key w ≤ key v)
    (hd : done.length + 1 < 2 ^ 31) {ne : α → α → Bool} (hne : ∀ a ∈ vals, ∀ b ∈ vals, ne a b = decide (key a ≠ key b))
    (hp : ∀ p, st.2 = some p → p ∈ vals) :
    ∃ st' ini' w', uniqueStep ne vals st o = .ok st' ∧ UInv key vals (done ++ [o]) st' ini' w' ∧
      key w' = key v ∧ ∀ p, st'.2 = some p → p ∈ vals := by
  obtain ⟨p, hp1, hp2⟩ := h.hprev
  have hvm : v ∈ vals := List.mem_of_getElem? hv
  have hol : o < vals.length := by rw [List.getElem?_eq_some_iff] at hv; exact hv.1
  have hlt : ∀ u ∈ ini, key u < key w := by
    have := h.hpair
    rw [h.hvals, List.map_append, List.pairwise_append] at this
    intro u hu
    exact this.2.2 _ (List.mem_map_of_mem hu) _ (by simp)
  have hinv' : ∀ (vs : List α) (n : Nat), n < 2 ^ 31 → vs.take st.1.values.length = st.1.values →
      (∃ u, vs[n]? = some u ∧ key u = key v) → ∀ i ∈ done ++ [o], ∀ v', vals[i]? = some v' →
      ∃ (k : Nat) (u : α), (st.1.inverse.set o (castI32 n))[i]? = some (k : Int) ∧ vs[k]? = some u ∧
        key u = key v' := by
    intro vs n hn htake hk i hi v' hv'
    rcases List.mem_append.mp hi with hi | hi
    · have hio : o ≠ i := fun e => ho (e ▸ hi)
      obtain ⟨k, u, h1, h2, h3⟩ := h.hinv i hi v' hv'
      refine ⟨k, u, by rw [List.getElem?_set_ne hio]; exact h1, ?_, h3⟩
      rw [← htake] at h2
      rw [List.getElem?_take] at h2
      split at h2
      · exact h2
      · cases h2
    · rw [List.mem_singleton] at hi
      subst hi
      rw [hv] at hv'
      cases hv'
      obtain ⟨u, h1, h2⟩ := hk
      exact ⟨n, u, by rw [List.getElem?_set_self (by rw [h.hil]; exact hol), castI32_of_lt hn], h1, h2⟩
  unfold uniqueStep
  rw [show readC vals o = .ok v by rw [readC_eq_ok]; exact hv, Res.ok_bind]
  simp only [hp1]
  rw [hne v hvm p (hp p hp1), hp2]
  by_cases hk : key v = key w
  · have hcur : st.1.current + 1 < 2 ^ 31 := by
      have := List.countP_le_length (p := fun i => (vals[i]?).any fun v => decide (key v = key w)) (l := done)
      have h2 := h.hcur
      unfold occ at h2
      omega
    rw [if_neg (by simp [hk]), if_pos hcur]
    refine ⟨_, ini, w, rfl, ⟨h.hvals, ⟨v, rfl, hk⟩, h.hpair, h.hcl, ?_, ?_, h.hmem, ?_, ?_, ?_, ?_⟩, hk.symm, ?_⟩
    · intro k u hu
      have := hlt u (List.mem_of_getElem? hu)
      show st.1.counts[k]? = _
      rw [h.hc k u hu, occ_append done hv, if_neg (by rw [hk]; exact ne_of_gt this), Nat.add_zero]
    · show st.1.current + 1 = _
      rw [occ_append done hv, if_pos hk, h.hcur]
    · intro i hi v' hv'
      rcases List.mem_append.mp hi with hi | hi
      · exact h.hle i hi v' hv'
      · rw [List.mem_singleton] at hi
        subst hi
        rw [hv] at hv'
        cases hv'
        exact le_of_eq hk
    · show st.1.values.length ≤ _
      have := h.hlen
      rw [List.length_append]; omega
    · show (List.set _ _ _).length = _
      rw [List.length_set, h.hil]
    · have hl := h.hlen
      have hl2 : 0 < st.1.values.length := by rw [h.hvals]; simp
      refine hinv' st.1.values (st.1.values.length - 1) (by omega) (by simp) ⟨w, ?_, hk.symm⟩
      rw [h.hvals]
      simp
    · intro p' hp'
      cases hp'
      exact hvm
  · have hlt2 : key w < key v := lt_of_le_of_ne hge (Ne.symm hk)
    rw [if_pos (by simp [hk])]
    refine ⟨_, ini ++ [w], v, rfl, ⟨?_, ⟨v, rfl, rfl⟩, ?_, ?_, ?_, ?_, ?_, ?_, ?_, ?_, ?_⟩, rfl, ?_⟩
    · show st.1.values ++ [v] = _
      rw [h.hvals]
    · show ((st.1.values ++ [v]).map key).Pairwise _
      rw [List.map_append, List.pairwise_append]
      refine ⟨h.hpair, by simp, ?_⟩
      intro a ha b hb
      simp only [List.map_cons, List.map_nil, List.mem_singleton] at hb
      subst hb
      rw [h.hvals, List.map_append, List.mem_append] at ha
      rcases ha with ha | ha
      · obtain ⟨u, hu, rfl⟩ := List.mem_map.mp ha
        exact lt_trans (hlt u hu) hlt2
      · simp only [List.map_cons, List.map_nil, List.mem_singleton] at ha
        rw [ha]; exact hlt2
    · show (st.1.counts ++ [_]).length = _
      simp [h.hcl]
    · intro k u hu
      show (st.1.counts ++ [st.1.current])[k]? = _
      rcases Nat.lt_or_ge k ini.length with hk' | hk'
      · rw [List.getElem?_append_left hk'] at hu
        have := hlt u (List.mem_of_getElem? hu)
        rw [List.getElem?_append_left (by rw [h.hcl]; exact hk'), h.hc k u hu, occ_append done hv,
          if_neg (ne_of_gt (lt_trans this hlt2)), Nat.add_zero]
      · rw [List.getElem?_append_right hk'] at hu
        rw [List.getElem?_append_right (by rw [h.hcl]; exact hk'), h.hcl]
        have hz : k - ini.length = 0 := by
          rw [List.getElem?_eq_some_iff] at hu
          obtain ⟨h1, _⟩ := hu
          simpa using h1
        rw [hz] at hu ⊢
        simp only [List.getElem?_cons_zero, Option.some.injEq] at hu ⊢
        subst hu
        rw [occ_append done hv, if_neg (ne_of_gt hlt2), Nat.add_zero, h.hcur]
    · show 1 = _
      rw [occ_append done hv, if_pos rfl]
      have : occ key vals done (key v) = 0 := by
        unfold occ
        rw [List.countP_eq_zero]
        intro i hi
        cases hv2 : vals[i]? with
        | none => simp
        | some a =>
          have := h.hle i hi a hv2
          simp only [Option.any_some, decide_eq_true_eq]
          exact ne_of_lt (lt_of_le_of_lt this hlt2)
      rw [this]
    · intro u hu
      rcases List.mem_append.mp hu with hu | hu
      · exact h.hmem u hu
      · rw [List.mem_singleton] at hu
        rw [hu]; exact hvm
    · intro i hi v' hv'
      rcases List.mem_append.mp hi with hi | hi
      · exact le_trans (h.hle i hi v' hv') hge
      · rw [List.mem_singleton] at hi
        subst hi
        rw [hv] at hv'
        cases hv'
        exact le_rfl
    · show (st.1.values ++ [v]).length ≤ _
      have := h.hlen
      rw [List.length_append, List.length_append]; simpa using this
    · show (List.set _ _ _).length = _
      rw [List.length_set, h.hil]
    · have hl := h.hlen
      refine hinv' (st.1.values ++ [v]) st.1.values.length (by omega) (by simp) ⟨v, ?_, rfl⟩
      simp
    · intro p' hp'
      cases hp'
      exact hvm

theorem UInv.run {ne : α → α → Bool} (hne : ∀ a ∈ vals, ∀ b ∈ vals, ne a b = decide (key a ≠ key b)) :
    ∀ (rest done : List Nat) (st : UniqueState α × Option α) (ini : List α) (w : α),
    UInv key vals done st ini w → (∀ p, st.2 = some p → p ∈ vals) → (∀ i ∈ rest, i < vals.length) →
    (done ++ rest).Nodup → (done ++ rest).length < 2 ^ 31 →
    rest.Pairwise (fun i j => ∀ v w, vals[i]? = some v → vals[j]? = some w → key v ≤ key w) →
    (∀ i ∈ rest, ∀ v, vals[i]? = some v → key w ≤ key v) →
    ∃ st' ini' w', Res.foldL (uniqueStep ne vals) st rest = .ok st' ∧
      UInv key vals (done ++ rest) st' ini' w'
  | [], done, st, ini, w, h, _, _, _, _, _, _ => ⟨st, ini, w, rfl, by rw [List.append_nil]; exact h⟩
  | o :: rest, done, st, ini, w, h, hp, hr, hn, hl, hs, hw => by
    have ho := hr o (by simp)
    have hv : vals[o]? = some vals[o] := List.getElem?_eq_getElem ho
    rw [List.length_append, List.length_cons] at hl
    have hno : o ∉ done := by
      rw [List.nodup_append] at hn
      intro hm
      exact hn.2.2 o hm o (by simp) rfl
    obtain ⟨st', ini', w', h1, h2, h3, h4⟩ := h.step hv hno (hw o (by simp) _ hv) (by omega) hne hp
    rw [List.pairwise_cons] at hs
    rw [Res.foldL, h1, Res.ok_bind]
    have e : done ++ o :: rest = (done ++ [o]) ++ rest := by simp
    rw [e] at hn ⊢
    exact UInv.run hne rest (done ++ [o]) st' ini' w' h2 h4 (fun i hi => hr i (by simp [hi])) hn
      (by simp only [List.length_append, List.length_cons, List.length_nil]; omega) hs.2 (fun i hi v' hv' => by
        rw [h3]; exact hs.1 i hi _ _ hv hv')

/-- The output loop over any sorted order of the positions. -/
theorem uniqueBuild_spec {ne : α → α → Bool}
    (hne : ∀ a ∈ vals, ∀ b ∈ vals, ne a b = decide (key a ≠ key b)) {order : List Nat}
    (hperm : order.Perm (List.range vals.length))
    (hsort : order.Pairwise fun i j => ∀ v w, vals[i]? = some v → vals[j]? = some w → key v ≤ key w)
    (hpos : 0 < vals.length) (hn : vals.length < 2 ^ 31) :
    ∃ V I C, uniqueBuild ne vals order = .ok (V, I, C) ∧ IsUnique key vals V I C := by
  have hlen : order.length = vals.length := by rw [hperm.length_eq, List.length_range]
  match order, hperm, hsort, hlen with
  | [], _, _, hlen => simp at hlen; omega
  | o :: rest, hperm, hsort, hlen =>
    have hlt : ∀ i ∈ o :: rest, i < vals.length := fun i hi => by
      have := hperm.mem_iff.mp hi
      rwa [List.mem_range] at this
    have ho := hlt o (by simp)
    have hv : vals[o]? = some vals[o] := List.getElem?_eq_getElem ho
    rw [List.pairwise_cons] at hsort
    have h0 : UInv key vals [o] (⟨[vals[o]], [], 1, (vals.map fun _ => (0 : Int)).set o (castI32 0)⟩,
        some vals[o]) [] vals[o] := by
      refine ⟨rfl, ⟨_, rfl, rfl⟩, by simp, rfl, by simp, ?_, by simp, ?_, by simp, by simp, ?_⟩
      · have := occ_append (key := key) [] hv (key vals[o])
        rw [List.nil_append, if_pos rfl] at this
        rw [this]
        rfl
      · intro i hi v hv'
        rw [List.mem_singleton] at hi
        subst hi
        rw [hv] at hv'
        cases hv'
        exact le_rfl
      · intro i hi v hv'
        rw [List.mem_singleton] at hi
        subst hi
        rw [hv] at hv'
        cases hv'
        refine ⟨0, vals[i], ?_, rfl, rfl⟩
        rw [List.getElem?_set_self (by simpa using ho)]
        rfl
    obtain ⟨st, ini, w, h1, h2⟩ := UInv.run hne rest [o] _ [] vals[o] h0
      (fun p hp => by cases hp; exact List.getElem_mem ho) (fun i hi => hlt i (by simp [hi]))
      (hperm.nodup_iff.mpr List.nodup_range) (by
        simp only [List.length_append, List.length_cons, List.length_nil] at hlen ⊢; omega) hsort.2
      (fun i hi v hv' => hsort.1 i hi _ _ hv hv')
    have hocc : ∀ x, occ key vals ([o] ++ rest) x = vals.countP fun v => decide (key v = x) := by
      intro x
      rw [← occ_range]
      exact hperm.countP_eq _
    refine ⟨st.1.values, st.1.inverse, st.1.counts ++ [st.1.current], ?_, h2.hpair, h2.hil, ?_, ?_, ?_⟩
    · unfold uniqueBuild
      rw [Res.foldL]
      have : uniqueStep ne vals (⟨[], [], 0, vals.map fun _ => 0⟩, none) o = .ok (⟨[vals[o]], [], 1,
          (vals.map fun _ => (0 : Int)).set o (castI32 0)⟩, some vals[o]) := by
        unfold uniqueStep
        rw [show readC vals o = .ok vals[o] by rw [readC_eq_ok]; exact hv, Res.ok_bind]
      rw [this, Res.ok_bind, h1, Res.ok_bind]
    · intro i v hv'
      have hi : i < vals.length := by rw [List.getElem?_eq_some_iff] at hv'; exact hv'.1
      exact h2.hinv i (hperm.mem_iff.mpr (List.mem_range.mpr hi)) v hv'
    · rw [h2.hvals]; simp [h2.hcl]
    · intro k u hu
      refine ⟨h2.hmem u (List.mem_of_getElem? hu), ?_⟩
      rw [h2.hvals] at hu
      rcases Nat.lt_or_ge k ini.length with hk | hk
      · rw [List.getElem?_append_left hk] at hu
        rw [List.getElem?_append_left (by rw [h2.hcl]; exact hk), h2.hc k u hu, hocc]
      · rw [List.getElem?_append_right hk] at hu
        rw [List.getElem?_append_right (by rw [h2.hcl]; exact hk), h2.hcl]
        have hz : k - ini.length = 0 := by
          rw [List.getElem?_eq_some_iff] at hu
          obtain ⟨h1, _⟩ := hu
          simpa using h1
        rw [hz] at hu ⊢
        simp only [List.getElem?_cons_zero, Option.some.injEq] at hu ⊢
        subst hu
        rw [h2.hcur, hocc]

/-- `unique` for a comparison that agrees with the sort key: values in ascending order of the key, inverse
and counts by key. -/
theorem unique_spec {t : Tensor α} {xs : List α} (ht : t.WF) (hx : t.HasValues xs) {ne : α → α → Bool}
    (hne : ∀ a ∈ xs, ∀ b ∈ xs, ne a b = decide (key a ≠ key b)) {sort : List α → List Nat}
    (hsort : SortsBy key sort) (hn : xs.length < 2 ^ 31) :
    ∃ V I C, t.unique ne sort = .ok (V, I, C) ∧ IsUnique key xs V.storage I.storage C.storage ∧
      V.layout = Layout.fromShape [V.storage.length] ∧ I.layout = Layout.fromShape [I.storage.length] ∧
      C.layout = Layout.fromShape [C.storage.length] := by
  have hsz : t.layout.size = numel t.dims := shapeSize_eq _
  unfold Tensor.unique
  by_cases h0 : t.layout.size = 0
  · have : xs = [] := List.length_eq_zero_iff.mp (by rw [hx.1, ← hsz, h0])
    subst this
    rw [if_pos h0, Res.ok_bind]
    refine ⟨_, _, _, rfl, ⟨by simp, rfl, by simp, rfl, by simp⟩, rfl, ?_, rfl⟩
    rw [h0]; rfl
  · rw [if_neg h0]
    have hk : uniqueKernel ne sort t.storage (stridedMetadata t.layout) = uniqueBuild ne xs (sort xs) := by
      unfold uniqueKernel
      rw [decodeStrided_stridedMetadata ht.1, Res.ok_bind, if_neg h0]
      rw [runLoop_list (zs := xs) (by show xs.length = t.layout.size; rw [hx.1, hsz]) (fun i hi => by
        have hi' : i < numel t.dims := by rw [← hx.1]; exact hi
        refine stridedRead_eq _ hi' ?_
        rw [← hx.2 _ (unravel_inRange hi'), rowMajor_unravel hi']
        exact List.getElem?_eq_getElem hi), Res.ok_bind]
    obtain ⟨V, I, C, h1, h2⟩ := uniqueBuild_spec (key := key) hne (hsort xs).1 (hsort xs).2
      (by rw [hx.1, ← hsz]; omega) hn
    rw [hk, h1, Res.ok_bind]
    refine ⟨_, _, _, rfl, h2, rfl, ?_, ?_⟩
    · show Layout.fromShape [t.layout.size] = Layout.fromShape [I.length]
      rw [h2.2.1, hx.1, hsz]
    · show Layout.fromShape [V.length] = Layout.fromShape [C.length]
      rw [h2.2.2.2.1]
end

theorem uniqueIntKey_nonneg {v : Int} (h0 : 0 ≤ v) (h : I64 v) : uniqueIntKey v = v.toNat := by
  unfold I64 at h
  unfold uniqueIntKey castUsize
  omega

theorem uniqueIntKey_inj {v w : Int} (hv : I64 v) (hw : I64 w) (h : uniqueIntKey v = uniqueIntKey w) : v = w := by
  unfold I64 at hv hw
  unfold uniqueIntKey castUsize at h
  omega

/-! ## C64 -/

/-- **C64** for the unsigned kernels, for every layout and every order `qsort` may leave.  Missing, and
false: negative numbers (`C64_signed_order_wrong`). -/
theorem C64_unique_partial {t : Tensor Nat} {xs : List Nat} (ht : t.WF) (hx : t.HasValues xs)
    (sort : List Nat → List Nat) (hsort : SortsBy (id : Nat → Nat) sort) (hn : xs.length < 2 ^ 31) :
    ∃ V I C, t.unique (· != ·) sort = .ok (V, I, C) ∧
      IsUnique (id : Nat → Nat) xs V.storage I.storage C.storage ∧ V.WF ∧ I.WF ∧ C.WF ∧
      V.dims = [V.storage.length] ∧ I.dims = [xs.length] ∧ C.dims = [V.storage.length] := by
  obtain ⟨V, I, C, h1, h2, h3, h4, h5⟩ := unique_spec (key := (id : Nat → Nat)) ht hx (ne := (· != ·))
    (fun a _ b _ => by by_cases e : a = b <;> simp [e]) hsort hn
  have w : ∀ {β : Type} (T : Tensor β), T.layout = Layout.fromShape [T.storage.length] → T.WF := by
    intro β T h
    obtain ⟨s, l⟩ := T
    simp only at h
    subst h
    exact fresh_wf (by simp [numel])
  refine ⟨V, I, C, h1, h2, w V h3, w I h4, w C h5, ?_, ?_, ?_⟩
  · show V.layout.dims = _; rw [h3]; rfl
  · show I.layout.dims = _; rw [h4, ← h2.2.1]; rfl
  · show C.layout.dims = _; rw [h5, ← h2.2.2.2.1]; rfl

/-- The floating-point kernels, with `val` the number a bit pattern stands for: holds for tensors of numbers
(no NaN, for which the comparison passed to `qsort` is no order); `+0` and `-0` are one value. -/
theorem C64_float_partial {t : Tensor α} {xs : List α} {κ : Type} [LinearOrder κ] (val : α → κ) (ht : t.WF)
    (hx : t.HasValues xs) (sort : List α → List Nat) (hsort : SortsBy val sort) (hn : xs.length < 2 ^ 31) :
    ∃ V I C, t.unique (fun a b => decide (val a ≠ val b)) sort = .ok (V, I, C) ∧
      IsUnique val xs V.storage I.storage C.storage := by
  obtain ⟨V, I, C, h1, h2, _⟩ := unique_spec (key := val) ht hx (ne := fun a b => decide (val a ≠ val b))
    (fun a _ b _ => rfl) hsort hn
  exact ⟨V, I, C, h1, h2⟩

/-- The signed kernels are right on tensors without negative numbers. -/
theorem C64_nonneg_partial {t : Tensor Int} {xs : List Int} (ht : t.WF) (hx : t.HasValues xs)
    (sort : List Int → List Nat) (hsort : SortsBy uniqueIntKey sort) (hn : xs.length < 2 ^ 31)
    (hv : ∀ v ∈ xs, 0 ≤ v ∧ I64 v) :
    ∃ V I C, t.unique (· != ·) sort = .ok (V, I, C) ∧
      IsUnique (id : Int → Int) xs V.storage I.storage C.storage := by
  obtain ⟨V, I, C, h1, h2, _⟩ := unique_spec (key := uniqueIntKey) ht hx (ne := (· != ·))
    (fun a ha b hb => by
      have := uniqueIntKey_inj (hv a ha).2 (hv b hb).2
      by_cases e : a = b
      · simp [e]
      · rw [bne_iff_ne.mpr e, eq_comm, decide_eq_true_eq]
        exact fun k => e (this k)) hsort hn
  obtain ⟨g1, g2, g3, g4, g5⟩ := h2
  have hm : ∀ k w, V.storage[k]? = some w → w ∈ xs := fun k w h => (g5 k w h).1
  refine ⟨V, I, C, h1, ?_, g2, ?_, g4, ?_⟩
  · rw [List.pairwise_map] at g1 ⊢
    refine g1.imp_of_mem ?_
    intro a b ha hb h
    obtain ⟨i, hi⟩ := List.mem_iff_getElem?.mp ha
    obtain ⟨j, hj⟩ := List.mem_iff_getElem?.mp hb
    have ha' := hv a (hm i a hi)
    have hb' := hv b (hm j b hj)
    rw [uniqueIntKey_nonneg ha'.1 ha'.2, uniqueIntKey_nonneg hb'.1 hb'.2] at h
    show a < b
    omega
  · intro i v hi
    obtain ⟨k, w, a1, a2, a3⟩ := g3 i v hi
    exact ⟨k, w, a1, a2, uniqueIntKey_inj (hv w (hm k w a2)).2 (hv v (List.mem_of_getElem? hi)).2 a3⟩
  · intro k w hk
    obtain ⟨a1, a2⟩ := g5 k w hk
    refine ⟨a1, ?_⟩
    rw [a2]
    congr 1
    apply List.countP_congr
    intro v hv'
    simp only [decide_eq_true_eq, id]
    exact ⟨uniqueIntKey_inj (hv v hv').2 (hv w a1).2, fun e => by rw [e]⟩

/-! ### Concrete cases -/

/-- Insertion sort of positions. -/
def insertPos (key : α → Nat) (xs : List α) (i : Nat) : List Nat → List Nat
  | [] => [i]
  | j :: js => if (xs[i]?.map key).getD 0 ≤ (xs[j]?.map key).getD 0 then i :: j :: js
      else j :: insertPos key xs i js

def sortPos (key : α → Nat) (xs : List α) : List Nat :=
  (List.range xs.length).foldr (insertPos key xs) []

theorem insertPos_perm (key : α → Nat) (xs : List α) (i : Nat) (js : List Nat) :
    (insertPos key xs i js).Perm (i :: js) := by
  induction js with
  | nil => exact List.Perm.refl _
  | cons j js ih =>
    unfold insertPos
    split
    · exact List.Perm.refl _
    · exact (ih.cons j).trans (List.Perm.swap i j js)

theorem insertPos_sorted (key : α → Nat) (xs : List α) (i : Nat) {js : List Nat}
    (h : js.Pairwise fun a b => (xs[a]?.map key).getD 0 ≤ (xs[b]?.map key).getD 0) :
    (insertPos key xs i js).Pairwise fun a b => (xs[a]?.map key).getD 0 ≤ (xs[b]?.map key).getD 0 := by
  induction js with
  | nil => simp [insertPos]
  | cons j js ih =>
    unfold insertPos
    rw [List.pairwise_cons] at h
    split
    · rename_i hle
      rw [List.pairwise_cons, List.pairwise_cons]
      refine ⟨fun b hb => ?_, h.1, h.2⟩
      rcases List.mem_cons.mp hb with rfl | hb
      · exact hle
      · exact Nat.le_trans hle (h.1 b hb)
    · rename_i hle
      rw [List.pairwise_cons]
      refine ⟨fun b hb => ?_, ih h.2⟩
      rcases List.mem_cons.mp ((insertPos_perm key xs i js).mem_iff.mp hb) with rfl | hb
      · exact Nat.le_of_lt (Nat.lt_of_not_le hle)
      · exact h.1 b hb

/-- There is a sorting, so the hypothesis `SortsBy` can be met. -/
theorem sortPos_sortsBy (key : α → Nat) : SortsBy key (sortPos key) := by
  intro xs
  constructor
  · unfold sortPos
    generalize List.range xs.length = l
    induction l with
    | nil => exact List.Perm.refl _
    | cons i l ih => exact (insertPos_perm key xs i _).trans (ih.cons i)
  · have : (sortPos key xs).Pairwise fun a b => (xs[a]?.map key).getD 0 ≤ (xs[b]?.map key).getD 0 := by
      unfold sortPos
      generalize List.range xs.length = l
      induction l with
      | nil => exact List.Pairwise.nil
      | cons i l ih => exact insertPos_sorted key xs i ih
    refine this.imp ?_
    intro i j h v w hv hw
    simpa [hv, hw] using h

/-- A transposed matrix: values 1, 3, 7. -/
example : let t : Tensor Nat := ⟨[7, 3, 1, 3, 7, 3], ⟨[3, 2], [1, 3], 0⟩⟩
    (t.unique (· != ·) (sortPos id)).map (fun r => (r.1.storage, r.2.1.storage, r.2.2.storage)) =
      .ok ([1, 3, 7], [2, 1, 1, 2, 0, 1], [1, 3, 2]) := by decide +kernel

/-! ## The full claim is false -/

/-- The signed kernels sort by the value cast to `size_t`: `-1` comes after `0`. -/
theorem C64_signed_order_wrong :
    (⟨[0, -1], Layout.fromShape [2]⟩ : Tensor Int).unique (· != ·) (sortPos uniqueIntKey) =
      .ok (⟨[0, -1], Layout.fromShape [2]⟩, ⟨[0, 1], Layout.fromShape [2]⟩, ⟨[1, 1], Layout.fromShape [2]⟩) := by
  decide +kernel

theorem C64_full_false : ¬ Spec.UniqueCorrect := by
  intro h
  obtain ⟨V, I, C, h1, h2⟩ := h (sortPos uniqueIntKey) (sortPos_sortsBy _)
    ⟨[0, -1], Layout.fromShape [2]⟩ [0, -1] (fresh_wf (by decide))
    ⟨by decide, fun idx hi => by rw [Layout.fromShape, elem_rowMajor, Nat.zero_add]⟩ (by decide)
    (by intro v hv; unfold I64; simp at hv; omega)
  rw [C64_signed_order_wrong] at h1
  cases h1
  exact absurd h2.1 (by decide)

end Hodu
