import Verif.Model.Matmul
import Verif.Lemmas.Move
import Verif.Lemmas.Meta
import Verif.Lemmas.Elementwise

/-! # Lemmas about the matrix kernels -/

namespace Hodu
open Spec

/-! ### Loops -/

theorem foldL_append {f : σ → β → Res σ} (s : σ) (xs ys : List β) :
    Res.foldL f s (xs ++ ys) = (Res.foldL f s xs).bind fun s' => Res.foldL f s' ys := by
  induction xs generalizing s with
  | nil => rfl
  | cons x xs ih =>
    simp only [List.cons_append, Res.foldL]
    cases f s x with
    | ok s' => simp [ih]
    | _ => rfl

theorem blocksFrom_flatMap {B hi : Nat} (hB : 0 < B) (fuel s : Nat) (hf : hi - s ≤ fuel) :
    (blocksFrom B hi fuel s).flatMap span = List.range' s (hi - s) := by
  induction fuel generalizing s with
  | zero => simp [blocksFrom, show hi - s = 0 by omega]
  | succ fuel ih =>
    unfold blocksFrom
    by_cases h : s < hi
    · rw [if_pos h, List.flatMap_cons, ih (s + B) (by omega)]
      unfold span
      dsimp only
      by_cases h2 : s + B < hi
      · rw [if_pos h2, show s + B - s = B by omega, show hi - s = B + (hi - (s + B)) by omega,
          ← List.range'_append]
        simp
      · rw [if_neg h2, show hi - (s + B) = 0 by omega]
        simp
    · rw [if_neg h, show hi - s = 0 by omega]
      rfl

theorem blocks_flatMap {B : Nat} (hB : 0 < B) (lo hi : Nat) :
    (blocks B lo hi).flatMap span = List.range' lo (hi - lo) :=
  blocksFrom_flatMap hB _ _ (Nat.le_refl _)

theorem blocksFrom_size {B hi fuel s : Nat} {b : Nat × Nat} (hb : b ∈ blocksFrom B hi fuel s) :
    b.2 - b.1 ≤ B ∧ b.2 ≤ hi := by
  induction fuel generalizing s with
  | zero => simp [blocksFrom] at hb
  | succ fuel ih =>
    unfold blocksFrom at hb
    by_cases h : s < hi
    · rw [if_pos h] at hb
      rcases List.mem_cons.mp hb with rfl | hb
      · dsimp only
        split <;> omega
      · exact ih hb
    · rw [if_neg h] at hb; cases hb

theorem span_nodup (b : Nat × Nat) : (span b).Nodup := List.nodup_range'

theorem mem_span {b : Nat × Nat} {x : Nat} : x ∈ span b ↔ b.1 ≤ x ∧ x < b.2 := by
  simp only [span, List.mem_range'_1]
  omega

/-! ### Accumulation -/

/-- A sequence of multiply-accumulate steps: every cell receives the products of the steps aimed at
it, in order. -/
theorem mulAcc_fold {add mul : α → α → α} {lhs rhs : List α} {val : Nat × Nat × Nat → α}
    (steps : List (Nat × Nat × Nat)) (out : List α)
    (hv : ∀ st ∈ steps, readBoth mul lhs rhs st.2.1 st.2.2 = .ok (val st))
    (hp : ∀ st ∈ steps, st.1 < out.length) :
    ∃ out', Res.foldL (mulAcc add mul lhs rhs) out steps = .ok out' ∧ out'.length = out.length ∧
      ∀ p x, out[p]? = some x → out'[p]? =
        some ((steps.filter (fun st => st.1 = p)).foldl (fun acc st => add acc (val st)) x) := by
  induction steps generalizing out with
  | nil => exact ⟨out, rfl, rfl, fun p x h => by simpa using h⟩
  | cons st steps ih =>
    have h1 := hv st (by simp)
    have h2 := hp st (by simp)
    obtain ⟨a, ha, h1⟩ := Res.bind_eq_ok.mp h1
    obtain ⟨b, hb, h1⟩ := Res.map_eq_ok.mp h1
    have hstep : mulAcc add mul lhs rhs out st = .ok (out.set st.1 (add out[st.1] (val st))) := by
      unfold mulAcc
      rw [ha, Res.ok_bind, hb, Res.ok_bind]
      simp [readC, h2, ← h1]
    obtain ⟨out', e1, e2, e3⟩ := ih (out.set st.1 (add out[st.1] (val st)))
      (fun s hs => hv s (by simp [hs])) (fun s hs => by simpa using hp s (by simp [hs]))
    refine ⟨out', by rw [Res.foldL, hstep]; exact e1, by simpa using e2, ?_⟩
    intro p x hx
    by_cases hc : st.1 = p
    · subst hc
      have hx' : out[st.1] = x := by
        rw [List.getElem?_eq_getElem h2] at hx
        exact Option.some.inj hx
      rw [e3 st.1 (add out[st.1] (val st)) (by simp [h2])]
      simp [hx']
    · rw [e3 p x (by rw [List.getElem?_set_ne hc]; exact hx)]
      simp [hc]

/-- A loop of independent writes. -/
theorem writes_fold {rd : β → Res α} {v : β → α} {addr : β → Nat} (ps : List β) (s : List α)
    (h : ∀ p ∈ ps, rd p = .ok (v p)) :
    Res.foldL (fun s p => (rd p).bind fun x =>
      if addr p < s.length then .ok (s.set (addr p) x) else .ub) s ps
      = applyWrites s (ps.map fun p => (addr p, v p)) := by
  induction ps generalizing s with
  | nil => rfl
  | cons p ps ih =>
    simp only [Res.foldL, List.map_cons, applyWrites]
    rw [h p (by simp), Res.ok_bind]
    split
    · rw [Res.ok_bind]
      exact ih _ fun q hq => h q (by simp [hq])
    · rfl

/-! ### Selecting the steps of one cell -/

theorem flatMap_ite_eq {l : List Nat} (hl : l.Nodup) (a : Nat) (g : List β) :
    (l.flatMap fun x => if x = a then g else []) = if a ∈ l then g else [] := by
  induction l with
  | nil => simp
  | cons y ys ih =>
    rw [List.flatMap_cons, ih (List.nodup_cons.mp hl).2]
    by_cases h : y = a
    · subst h
      simp [(List.nodup_cons.mp hl).1]
    · have h' : ¬ a = y := fun e => h e.symm
      simp [h, h']

theorem flatMap_ite_mem {bs : List γ} {sp : γ → List Nat} (hn : (bs.flatMap sp).Nodup) (a : Nat)
    (g : List β) :
    (bs.flatMap fun b => if a ∈ sp b then g else []) = if a ∈ bs.flatMap sp then g else [] := by
  induction bs with
  | nil => simp
  | cons b bs ih =>
    rw [List.flatMap_cons, List.flatMap_cons]
    rw [List.flatMap_cons] at hn
    rw [ih (List.nodup_append.mp hn).2.1]
    by_cases h : a ∈ sp b
    · have : a ∉ bs.flatMap sp := fun h' => (List.nodup_append.mp hn).2.2 a h a h' rfl
      rw [if_pos h, if_neg this, if_pos (by simp [h])]
      simp
    · rw [if_neg h]
      simp only [List.nil_append, List.mem_append, h, false_or]

/-- `(range n).flatMap` over the pairs of a matrix enumerates its flat positions. -/
theorem pairs_flat (M N : Nat) :
    (tilePairs M N).map (fun p => p.1 * N + p.2) = List.range (M * N) := by
  induction M with
  | zero => simp [tilePairs]
  | succ M ih =>
    unfold tilePairs at ih ⊢
    rw [List.range_succ, List.flatMap_append, List.map_append, ih, Nat.succ_mul]
    rw [List.range_add]
    simp [Function.comp_def]

theorem mem_tilePairs {M N i j : Nat} : (i, j) ∈ tilePairs M N ↔ i < M ∧ j < N := by
  simp [tilePairs]

theorem flat_inj {N i j i' j' : Nat} (hj : j < N) (hj' : j' < N) (h : i * N + j = i' * N + j') :
    i = i' ∧ j = j' := by
  have h1 : (i * N + j) / N = i := by
    rw [Nat.add_comm, Nat.add_mul_div_right _ _ (by omega), Nat.div_eq_of_lt hj]; omega
  have h2 : (i' * N + j') / N = i' := by
    rw [Nat.add_comm, Nat.add_mul_div_right _ _ (by omega), Nat.div_eq_of_lt hj']; omega
  have h3 : i = i' := by rw [← h1, ← h2, h]
  subst h3
  exact ⟨rfl, by omega⟩

theorem tilePairs_nodup (M N : Nat) : (tilePairs M N).Nodup := by
  have h := pairs_flat M N
  exact List.Nodup.of_map _ (h ▸ List.nodup_range)

/-! ### Row workers -/

theorem rows_flatten (M T k : Nat) (hk : k < T) :
    ((List.range k).flatMap fun t => span (rowStart M T t, rowEnd M T t)) =
      List.range (k * (M / T)) := by
  induction k with
  | zero => simp
  | succ k ih =>
    rw [List.range_succ, List.flatMap_append, ih (by omega)]
    have he : rowEnd M T k = (k + 1) * (M / T) := by
      unfold rowEnd; rw [if_neg (by omega)]; rfl
    simp only [List.flatMap_cons, List.flatMap_nil, List.append_nil, span]
    rw [he, rowStart, List.range_eq_range', List.range_eq_range', Nat.succ_mul,
      Nat.add_sub_cancel_left, ← List.range'_append]
    simp

theorem rows_all (M T : Nat) (hT : 0 < T) :
    ((List.range T).flatMap fun t => span (rowStart M T t, rowEnd M T t)) = List.range M := by
  obtain ⟨k, rfl⟩ : ∃ k, T = k + 1 := ⟨T - 1, by omega⟩
  rw [List.range_succ, List.flatMap_append, rows_flatten M (k + 1) k (by omega)]
  have h1 := Nat.div_add_mod M (k + 1)
  generalize hq : M / (k + 1) = q at h1
  generalize hr : M % (k + 1) = r at h1
  have h2 : rowEnd M (k + 1) k = M := by
    unfold rowEnd
    rw [if_pos (by omega), hq, hr, h1]
  simp only [List.flatMap_cons, List.flatMap_nil, List.append_nil, span]
  rw [h2, rowStart, hq]
  have h3 : k * q ≤ M := by
    have : (k + 1) * q = k * q + q := Nat.succ_mul k q
    omega
  rw [List.range_eq_range', List.range_eq_range',
    show M = k * q + (M - k * q) by omega, ← List.range'_append]
  simp

/-- The multi-threaded branch with the workers' writes interleaved in any order. -/
theorem rowThreads_any {zero : α} {add mul : α → α → α} {lhs rhs : List α} {M K N T : Nat}
    (hT : 0 < T) {g : Nat → Nat → α}
    (hg : ∀ i j, i < M → j < N → rowCell zero add mul lhs rhs K N i j = .ok (g i j)) :
    ∃ wss, Res.mapL (rowWorker zero add mul lhs rhs M K N T) (List.range T) = .ok wss ∧
      ∀ ws buf, ws.Perm wss.flatten → buf.length = M * N →
        applyWrites buf ws = .ok ((tilePairs M N).map fun p => g p.1 p.2) := by
  have hall := rows_all M T hT
  let rowsOf : Nat → List Nat := fun t => span (rowStart M T t, rowEnd M T t)
  have hlt : ∀ t ∈ List.range T, ∀ i ∈ rowsOf t, i < M := by
    intro t ht i hi
    have : i ∈ (List.range T).flatMap rowsOf := List.mem_flatMap.mpr ⟨t, ht, hi⟩
    rw [show (List.range T).flatMap rowsOf = List.range M from hall] at this
    simpa using this
  refine ⟨(List.range T).map fun t => ((rowsOf t).flatMap fun i => (List.range N).map fun j =>
    (i, j)).map fun p => (p.1 * N + p.2, g p.1 p.2), ?_, ?_⟩
  · apply Res.mapL_eq_ok_of
    intro t ht
    apply Res.mapL_eq_ok_of
    intro p hp
    obtain ⟨i, hi, hp⟩ := List.mem_flatMap.mp hp
    obtain ⟨j, hj, rfl⟩ := List.mem_map.mp hp
    simp only
    rw [hg i j (hlt t ht i hi) (by simpa using hj)]
    rfl
  · intro ws buf hperm hb
    have hflat : ((List.range T).map fun t => ((rowsOf t).flatMap fun i => (List.range N).map fun j =>
        (i, j)).map fun p : Nat × Nat => (p.1 * N + p.2, g p.1 p.2)).flatten =
        (tilePairs M N).map fun p => (p.1 * N + p.2, g p.1 p.2) := by
      rw [tilePairs, ← hall, List.flatMap_assoc, ← List.flatMap_def, List.map_flatMap]
    rw [hflat] at hperm
    let h : Nat → α := fun p => g (p / N) (p % N)
    have hgh : ∀ p ∈ tilePairs M N, g p.1 p.2 = h (p.1 * N + p.2) := by
      rintro ⟨i, j⟩ hp
      obtain ⟨_, hj⟩ := mem_tilePairs.mp hp
      have h1 : (i * N + j) / N = i := by
        rw [Nat.add_comm, Nat.add_mul_div_right _ _ (by omega), Nat.div_eq_of_lt hj]; omega
      have h2 : (i * N + j) % N = j := by
        rw [Nat.add_comm, Nat.add_mul_mod_self_right, Nat.mod_eq_of_lt hj]
      simp only [h]
      rw [h1, h2]
    have e1 : (tilePairs M N).map (fun p => (p.1 * N + p.2, g p.1 p.2)) =
        (List.range (M * N)).map fun i => (i, h i) := by
      rw [← pairs_flat, List.map_map]
      apply List.map_congr_left
      intro p hp
      simp only [Function.comp]
      rw [hgh p hp]
    have e2 : (tilePairs M N).map (fun p => g p.1 p.2) = (List.range (M * N)).map h := by
      rw [← pairs_flat, List.map_map]
      apply List.map_congr_left
      intro p hp
      exact hgh p hp
    rw [e1] at hperm
    rw [e2]
    exact applyWrites_perm hb hperm

/-! ### The two single-threaded paths of the dot kernel -/

/-- The product of two cells, `d` if one of them cannot be read. -/
def prodAt (d : α) (mul : α → α → α) (lhs rhs : List α) (a b : Nat) : α :=
  match readBoth mul lhs rhs a b with
  | .ok x => x
  | _ => d

theorem prodAt_ok {d : α} {mul : α → α → α} {lhs rhs : List α} {a b : Nat}
    (ha : a < lhs.length) (hb : b < rhs.length) :
    readBoth mul lhs rhs a b = .ok (prodAt d mul lhs rhs a b) := by
  simp [prodAt, readBoth, readC, ha, hb, Res.map]

theorem filter_map_flatMap (l : List β) (f : β → γ) (p : γ → Bool) :
    (l.map f).filter p = l.flatMap fun x => if p (f x) then [f x] else [] := by
  induction l with
  | nil => rfl
  | cons x xs ih =>
    rw [List.map_cons, List.filter_cons, List.flatMap_cons, ih]
    split <;> rfl

/-- The steps of a block of the strided path that go to cell `(i0, j0)`. -/
theorem filter_block_ikj {N i0 j0 : Nat} (hj0 : j0 < N) (bi bk bj : Nat × Nat) (hbj : bj.2 ≤ N)
    (f : Nat → Nat → Nat → Nat × Nat × Nat) (hf : ∀ i k j, (f i k j).1 = i * N + j) :
    ((span bi).flatMap fun i => (span bk).flatMap fun k => (span bj).map fun j => f i k j).filter
      (fun st => st.1 = i0 * N + j0) =
    if i0 ∈ span bi then (if j0 ∈ span bj then (span bk).map fun k => f i0 k j0 else []) else [] := by
  rw [List.filter_flatMap, ← flatMap_ite_eq (span_nodup bi)]
  apply List.flatMap_congr
  intro i hi
  rw [List.filter_flatMap]
  by_cases h : i = i0
  · subst h
    rw [if_pos rfl]
    have : ∀ k, ((span bj).map fun j => f i k j).filter (fun st => st.1 = i * N + j0) =
        if j0 ∈ span bj then [f i k j0] else [] := by
      intro k
      rw [filter_map_flatMap, ← flatMap_ite_eq (span_nodup bj)]
      apply List.flatMap_congr
      intro j hj
      simp only [hf, decide_eq_true_eq]
      by_cases hjj : j = j0
      · subst hjj; simp
      · rw [if_neg (by omega), if_neg hjj]
    simp only [this]
    by_cases hm : j0 ∈ span bj
    · simp only [if_pos hm]
      induction span bk with
      | nil => rfl
      | cons x xs ih => simpa using ih
    · simp only [if_neg hm]
      simp
  · rw [if_neg h]
    apply List.flatMap_eq_nil_iff.mpr
    intro k hk
    apply List.filter_eq_nil_iff.mpr
    intro st hst
    obtain ⟨j, hj, rfl⟩ := List.mem_map.mp hst
    simp only [hf, decide_eq_true_eq]
    intro he
    have := mem_span.mp hj
    exact h (flat_inj (by omega) hj0 he).1

/-- The steps of a register tile that go to cell `(i0, j0)`. -/
theorem filter_block_ijk {N i0 j0 : Nat} (hj0 : j0 < N) (bi bk bj : Nat × Nat) (hbj : bj.2 ≤ N)
    (f : Nat → Nat → Nat → Nat × Nat × Nat) (hf : ∀ i k j, (f i k j).1 = i * N + j) :
    ((span bi).flatMap fun i => (span bj).flatMap fun j => (span bk).map fun k => f i k j).filter
      (fun st => st.1 = i0 * N + j0) =
    if i0 ∈ span bi then (if j0 ∈ span bj then (span bk).map fun k => f i0 k j0 else []) else [] := by
  rw [List.filter_flatMap, ← flatMap_ite_eq (span_nodup bi)]
  apply List.flatMap_congr
  intro i hi
  rw [List.filter_flatMap]
  by_cases h : i = i0
  · subst h
    rw [if_pos rfl, ← flatMap_ite_eq (span_nodup bj)]
    apply List.flatMap_congr
    intro j hj
    by_cases hjj : j = j0
    · subst hjj
      rw [if_pos rfl]
      apply List.filter_eq_self.mpr
      intro st hst
      obtain ⟨k, hk, rfl⟩ := List.mem_map.mp hst
      simp [hf]
    · rw [if_neg hjj]
      apply List.filter_eq_nil_iff.mpr
      intro st hst
      obtain ⟨k, hk, rfl⟩ := List.mem_map.mp hst
      simp only [hf, decide_eq_true_eq]
      omega
  · rw [if_neg h]
    apply List.flatMap_eq_nil_iff.mpr
    intro j hj
    apply List.filter_eq_nil_iff.mpr
    intro st hst
    obtain ⟨k, hk, rfl⟩ := List.mem_map.mp hst
    simp only [hf, decide_eq_true_eq]
    intro he
    have := mem_span.mp hj
    exact h (flat_inj (by omega) hj0 he).1

/-- Multiply-accumulate steps of a register tile. -/
def tileSteps (K N : Nat) (i j k : Nat × Nat) : List (Nat × Nat × Nat) :=
  (span i).flatMap fun iv => (span j).flatMap fun jv => (span k).map fun kv =>
    (iv * N + jv, iv * K + kv, kv * N + jv)

theorem filter_map_unique {ps : List β} (hn : ps.Nodup) {f : β → Nat × γ} {p0 : β} (hp : p0 ∈ ps)
    (hinj : ∀ p ∈ ps, (f p).1 = (f p0).1 → p = p0) :
    (ps.map f).filter (fun st => st.1 = (f p0).1) = [f p0] := by
  induction ps with
  | nil => cases hp
  | cons q qs ih =>
    rw [List.map_cons, List.filter_cons]
    by_cases h : q = p0
    · subst h
      rw [if_pos (by simp)]
      congr 1
      apply List.filter_eq_nil_iff.mpr
      intro st hst
      obtain ⟨r, hr, rfl⟩ := List.mem_map.mp hst
      simp only [decide_eq_true_eq]
      intro he
      have := hinj r (by simp [hr]) he
      subst this
      exact (List.nodup_cons.mp hn).1 hr
    · rw [if_neg (by simpa using fun he => h (hinj q (by simp) he))]
      refine ih (List.nodup_cons.mp hn).2 ?_ fun p hp he => hinj p (by simp [hp]) he
      rcases List.mem_cons.mp hp with rfl | hp
      · exact absurd rfl h
      · exact hp

/-- A register tile does the same as its multiply-accumulate steps on the output. -/
theorem dotTile_eq {zero : α} {add mul : α → α → α} {lhs rhs : List α} {M K N : Nat}
    {i j k : Nat × Nat} {out : List α} (hi4 : i.2 - i.1 ≤ 4) (hj4 : j.2 - j.1 ≤ 4) (hi : i.2 ≤ M)
    (hj : j.2 ≤ N) (hk : k.2 ≤ K) (hout : out.length = M * N)
    (hl : ∀ a b, a < M → b < K → a * K + b < lhs.length)
    (hr : ∀ a b, a < K → b < N → a * N + b < rhs.length) :
    dotTile zero add mul lhs rhs K N i j k out =
      Res.foldL (mulAcc add mul lhs rhs) out (tileSteps K N i j k) := by
  have hflat : ∀ a b, a < M → b < N → a * N + b < M * N := by
    intro a b ha hb
    calc a * N + b < a * N + N := by omega
      _ = (a + 1) * N := (Nat.succ_mul a N).symm
      _ ≤ M * N := Nat.mul_le_mul_right _ ha
  generalize hps : tilePairs (i.2 - i.1) (j.2 - j.1) = ps
  have hmem : ∀ p ∈ ps, p.1 < i.2 - i.1 ∧ p.2 < j.2 - j.1 := by
    rintro ⟨a, b⟩ hp
    rw [← hps] at hp
    exact mem_tilePairs.mp hp
  have hnd : ps.Nodup := hps ▸ tilePairs_nodup _ _
  have hinj4 : ∀ p ∈ ps, ∀ q ∈ ps, p.1 * 4 + p.2 = q.1 * 4 + q.2 → p = q := by
    intro p hp q hq he
    have h1 := hmem p hp
    have h2 := hmem q hq
    exact Prod.ext (by omega) (by omega)
  have hinjN : ∀ p ∈ ps, ∀ q ∈ ps,
      (i.1 + p.1) * N + (j.1 + p.2) = (i.1 + q.1) * N + (j.1 + q.2) → p = q := by
    intro p hp q hq he
    have h1 := hmem p hp
    have h2 := hmem q hq
    have := flat_inj (by omega) (by omega) he
    exact Prod.ext (by omega) (by omega)
  unfold dotTile
  simp only [hps]
  -- load
  let cell : Nat × Nat → Nat := fun p => (i.1 + p.1) * N + (j.1 + p.2)
  have hcell : ∀ p ∈ ps, cell p < out.length := by
    intro p hp
    have h1 := hmem p hp
    rw [hout]
    exact hflat _ _ (by omega) (by omega)
  rw [writes_fold (rd := fun p => readC out (cell p)) (v := fun p => out.getD (cell p) zero)
    (addr := fun p => p.1 * 4 + p.2) ps (List.replicate 16 zero) (by
      intro p hp
      have := hcell p hp
      simp [readC, this])]
  obtain ⟨acc, ha1, ha2⟩ := applyWrites_ok (buf := List.replicate 16 zero)
    (ws := ps.map fun p => (p.1 * 4 + p.2, out.getD (cell p) zero)) (by
      intro w hw
      obtain ⟨p, hp, rfl⟩ := List.mem_map.mp hw
      have h1 := hmem p hp
      simp only [List.length_replicate]
      omega)
  obtain ⟨-, ha3, -⟩ := applyWrites_get (by
    rw [List.map_map]
    refine List.Nodup.map_on ?_ hnd
    intro p hp q hq he
    exact hinj4 p hp q hq he) ha1
  rw [ha1, Res.ok_bind]
  simp only [List.length_replicate] at ha2
  -- accumulate
  let step : Nat → Nat × Nat → Nat × Nat × Nat := fun kv p =>
    (p.1 * 4 + p.2, (i.1 + p.1) * K + kv, kv * N + (j.1 + p.2))
  obtain ⟨acc', hb1, hb2, hb3⟩ := mulAcc_fold (add := add) (mul := mul) (lhs := lhs) (rhs := rhs)
    (val := fun st => prodAt zero mul lhs rhs st.2.1 st.2.2)
    ((span k).flatMap fun kv => ps.map fun p => step kv p) acc (by
      intro st hst
      obtain ⟨kv, hkv, hst⟩ := List.mem_flatMap.mp hst
      obtain ⟨p, hp, rfl⟩ := List.mem_map.mp hst
      have h1 := hmem p hp
      have h2 := mem_span.mp hkv
      exact prodAt_ok (hl _ _ (by omega) (by omega)) (hr _ _ (by omega) (by omega))) (by
      intro st hst
      obtain ⟨kv, hkv, hst⟩ := List.mem_flatMap.mp hst
      obtain ⟨p, hp, rfl⟩ := List.mem_map.mp hst
      have h1 := hmem p hp
      rw [ha2]
      simp only [step]
      omega)
  rw [hb1, Res.ok_bind]
  have hacc : ∀ p ∈ ps, acc'[p.1 * 4 + p.2]? = some ((span k).foldl (fun x kv =>
      add x (prodAt zero mul lhs rhs ((i.1 + p.1) * K + kv) (kv * N + (j.1 + p.2))))
        (out.getD (cell p) zero)) := by
    intro p hp
    rw [hb3 _ _ (ha3 _ _ (List.mem_map.mpr ⟨p, hp, rfl⟩))]
    have : ((span k).flatMap fun kv => ps.map fun p => step kv p).filter
        (fun st => st.1 = p.1 * 4 + p.2) = (span k).map fun kv => step kv p := by
      rw [List.filter_flatMap]
      rw [List.map_eq_flatMap]
      apply List.flatMap_congr
      intro kv hkv
      exact filter_map_unique (f := step kv) hnd hp fun q hq he => hinj4 q hq p hp he
    rw [this, List.foldl_map]
  -- store
  rw [writes_fold (rd := fun p : Nat × Nat => readC acc' (p.1 * 4 + p.2))
    (v := fun p => (span k).foldl (fun x kv =>
      add x (prodAt zero mul lhs rhs ((i.1 + p.1) * K + kv) (kv * N + (j.1 + p.2))))
        (out.getD (cell p) zero)) (addr := cell) ps out (by
      intro p hp
      rw [readC_eq_ok]
      exact hacc p hp)]
  obtain ⟨out1, hc1, hc2⟩ := applyWrites_ok (buf := out)
    (ws := ps.map fun p => (cell p, (span k).foldl (fun x kv =>
      add x (prodAt zero mul lhs rhs ((i.1 + p.1) * K + kv) (kv * N + (j.1 + p.2))))
        (out.getD (cell p) zero))) (by
      intro w hw
      obtain ⟨p, hp, rfl⟩ := List.mem_map.mp hw
      exact hcell p hp)
  obtain ⟨-, hc3, hc4⟩ := applyWrites_get (by
    rw [List.map_map]
    refine List.Nodup.map_on ?_ hnd
    intro p hp q hq he
    exact hinjN p hp q hq he) hc1
  -- the plain steps
  obtain ⟨out2, hd1, hd2, hd3⟩ := mulAcc_fold (add := add) (mul := mul) (lhs := lhs) (rhs := rhs)
    (val := fun st => prodAt zero mul lhs rhs st.2.1 st.2.2) (tileSteps K N i j k) out (by
      intro st hst
      obtain ⟨iv, hiv, hst⟩ := List.mem_flatMap.mp hst
      obtain ⟨jv, hjv, hst⟩ := List.mem_flatMap.mp hst
      obtain ⟨kv, hkv, rfl⟩ := List.mem_map.mp hst
      have h1 := mem_span.mp hiv
      have h2 := mem_span.mp hjv
      have h3 := mem_span.mp hkv
      exact prodAt_ok (hl _ _ (by omega) (by omega)) (hr _ _ (by omega) (by omega))) (by
      intro st hst
      obtain ⟨iv, hiv, hst⟩ := List.mem_flatMap.mp hst
      obtain ⟨jv, hjv, hst⟩ := List.mem_flatMap.mp hst
      obtain ⟨kv, hkv, rfl⟩ := List.mem_map.mp hst
      have h1 := mem_span.mp hiv
      have h2 := mem_span.mp hjv
      rw [hout]
      exact hflat _ _ (by omega) (by omega))
  rw [hc1, hd1]
  congr 1
  apply List.ext_getElem?
  intro q
  by_cases hq : q < out.length
  · have hN : 0 < N := by
      rcases Nat.eq_zero_or_pos N with h | h
      · rw [hout, h] at hq; simp at hq
      · exact h
    have hqe : q = q / N * N + q % N := by
      rw [Nat.mul_comm]; exact (Nat.div_add_mod q N).symm
    have hqm : q % N < N := Nat.mod_lt _ hN
    rw [hd3 q out[q] (List.getElem?_eq_getElem hq)]
    have hfil : (tileSteps K N i j k).filter (fun st => st.1 = q) =
        if q / N ∈ span i then (if q % N ∈ span j then
          (span k).map fun kv => (q / N * N + q % N, q / N * K + kv, kv * N + q % N) else []) else [] := by
      have := filter_block_ijk hqm i k j hj
        (fun iv kv jv => (iv * N + jv, iv * K + kv, kv * N + jv)) (fun _ _ _ => rfl) (i0 := q / N)
      rw [← hqe] at this
      rw [← hqe]
      exact this
    rw [hfil]
    by_cases hin : q / N ∈ span i ∧ q % N ∈ span j
    · obtain ⟨h1, h2⟩ := hin
      rw [if_pos h1, if_pos h2, List.foldl_map]
      have g1 := mem_span.mp h1
      have g2 := mem_span.mp h2
      have hp : (q / N - i.1, q % N - j.1) ∈ ps := by
        rw [← hps]
        exact mem_tilePairs.mpr ⟨by omega, by omega⟩
      have e1 : i.1 + (q / N - i.1) = q / N := by omega
      have e2 : j.1 + (q % N - j.1) = q % N := by omega
      have := hc3 _ _ (List.mem_map.mpr ⟨_, hp, rfl⟩)
      simp only [cell, e1, e2] at this
      rw [← hqe] at this
      rw [this]
      simp [hq]
    · have : (if q / N ∈ span i then (if q % N ∈ span j then
          (span k).map fun kv => (q / N * N + q % N, q / N * K + kv, kv * N + q % N) else []) else []) =
          [] := by
        split
        · rw [if_neg (fun h => hin ⟨by assumption, h⟩)]
        · rfl
      rw [this]
      have hnot : q ∉ (ps.map fun p => (cell p, (span k).foldl (fun x kv =>
          add x (prodAt zero mul lhs rhs ((i.1 + p.1) * K + kv) (kv * N + (j.1 + p.2))))
            (out.getD (cell p) zero))).map Prod.fst := by
        rw [List.map_map]
        intro hm
        obtain ⟨p, hp, he⟩ := List.mem_map.mp hm
        have h1 := hmem p hp
        simp only [Function.comp, cell] at he
        rw [hqe] at he
        obtain ⟨g1, g2⟩ := flat_inj (by omega) hqm he
        exact hin ⟨mem_span.mpr ⟨by omega, by omega⟩, mem_span.mpr ⟨by omega, by omega⟩⟩
      rw [hc4 q hnot, List.getElem?_eq_getElem hq]
      rfl
  · rw [List.getElem?_eq_none (by omega), List.getElem?_eq_none (by omega)]

/-- Tiles one after the other. -/
theorem tiles_fold {zero : α} {add mul : α → α → α} {lhs rhs : List α} {M K N : Nat}
    (ts : List ((Nat × Nat) × (Nat × Nat) × (Nat × Nat))) (out : List α) (hout : out.length = M * N)
    (hts : ∀ t ∈ ts, t.1.2 - t.1.1 ≤ 4 ∧ t.2.1.2 - t.2.1.1 ≤ 4 ∧ t.1.2 ≤ M ∧ t.2.1.2 ≤ N ∧ t.2.2.2 ≤ K)
    (hl : ∀ a b, a < M → b < K → a * K + b < lhs.length)
    (hr : ∀ a b, a < K → b < N → a * N + b < rhs.length) :
    Res.foldL (fun out t => dotTile zero add mul lhs rhs K N t.1 t.2.1 t.2.2 out) out ts =
      Res.foldL (mulAcc add mul lhs rhs) out (ts.flatMap fun t => tileSteps K N t.1 t.2.1 t.2.2) := by
  induction ts generalizing out with
  | nil => rfl
  | cons t ts ih =>
    obtain ⟨h1, h2, h3, h4, h5⟩ := hts t (by simp)
    rw [List.flatMap_cons, foldL_append, Res.foldL, dotTile_eq h1 h2 h3 h4 h5 hout hl hr]
    obtain ⟨out', e1, e2, -⟩ := mulAcc_fold (add := add) (mul := mul) (lhs := lhs) (rhs := rhs)
      (val := fun st => prodAt zero mul lhs rhs st.2.1 st.2.2) (tileSteps K N t.1 t.2.1 t.2.2) out (by
        intro st hst
        obtain ⟨iv, hiv, hst⟩ := List.mem_flatMap.mp hst
        obtain ⟨jv, hjv, hst⟩ := List.mem_flatMap.mp hst
        obtain ⟨kv, hkv, rfl⟩ := List.mem_map.mp hst
        have h1 := mem_span.mp hiv
        have h2 := mem_span.mp hjv
        have h3 := mem_span.mp hkv
        exact prodAt_ok (hl _ _ (by omega) (by omega)) (hr _ _ (by omega) (by omega))) (by
        intro st hst
        obtain ⟨iv, hiv, hst⟩ := List.mem_flatMap.mp hst
        obtain ⟨jv, hjv, hst⟩ := List.mem_flatMap.mp hst
        obtain ⟨kv, hkv, rfl⟩ := List.mem_map.mp hst
        have h1 := mem_span.mp hiv
        have h2 := mem_span.mp hjv
        rw [hout]
        calc iv * N + jv < iv * N + N := by omega
          _ = (iv + 1) * N := (Nat.succ_mul iv N).symm
          _ ≤ M * N := Nat.mul_le_mul_right _ (by omega))
    rw [e1, Res.ok_bind, Res.ok_bind]
    exact ih out' (by omega) fun t ht => hts t (by simp [ht])

theorem blocks_range {B n : Nat} (hB : 0 < B) : (blocks B 0 n).flatMap span = List.range n := by
  rw [blocks_flatMap hB, List.range_eq_range']
  rfl

/-- Steps of the strided path for one cell: every `k` once, in order. -/
theorem dotSteps_cell {m : DotMeta} {i0 j0 : Nat} (hi : i0 < m.M) (hj : j0 < m.N) :
    (dotSteps m).filter (fun st => st.1 = i0 * m.N + j0) = (List.range m.K).map fun k =>
      (i0 * m.N + j0, m.lo + i0 * m.lm + k * m.lk, m.ro + k * m.rk + j0 * m.rn) := by
  unfold dotSteps
  rw [List.filter_flatMap]
  have hM := blocks_range (B := 32) (n := m.M) (by omega)
  have hN := blocks_range (B := 32) (n := m.N) (by omega)
  have hK := blocks_range (B := 256) (n := m.K) (by omega)
  have h1 : ∀ bi ∈ blocks 32 0 m.M, ((blocks 256 0 m.K).flatMap fun bk =>
      (blocks 32 0 m.N).flatMap fun bj =>
        (span bi).flatMap fun i => (span bk).flatMap fun k => (span bj).map fun j =>
        (i * m.N + j, m.lo + i * m.lm + k * m.lk, m.ro + k * m.rk + j * m.rn)).filter
        (fun st => st.1 = i0 * m.N + j0) =
      if i0 ∈ span bi then (List.range m.K).map fun k =>
        (i0 * m.N + j0, m.lo + i0 * m.lm + k * m.lk, m.ro + k * m.rk + j0 * m.rn) else [] := by
    intro bi hbi
    rw [List.filter_flatMap, ← hK, List.map_flatMap]
    by_cases hm : i0 ∈ span bi
    · rw [if_pos hm]
      apply List.flatMap_congr
      intro bk hbk
      rw [List.filter_flatMap]
      rw [show (blocks 32 0 m.N).flatMap _ = (blocks 32 0 m.N).flatMap (fun bj =>
        if j0 ∈ span bj then (span bk).map fun k =>
          (i0 * m.N + j0, m.lo + i0 * m.lm + k * m.lk, m.ro + k * m.rk + j0 * m.rn) else []) from by
        apply List.flatMap_congr
        intro bj hbj
        rw [filter_block_ikj hj bi bk bj (blocksFrom_size hbj).2
          (fun i k j => (i * m.N + j, m.lo + i * m.lm + k * m.lk, m.ro + k * m.rk + j * m.rn))
          (fun _ _ _ => rfl), if_pos hm]]
      rw [flatMap_ite_mem (by rw [hN]; exact List.nodup_range), hN, if_pos (by simpa using hj)]
    · rw [if_neg hm]
      apply List.flatMap_eq_nil_iff.mpr
      intro bk hbk
      rw [List.filter_flatMap]
      apply List.flatMap_eq_nil_iff.mpr
      intro bj hbj
      rw [filter_block_ikj hj bi bk bj (blocksFrom_size hbj).2
          (fun i k j => (i * m.N + j, m.lo + i * m.lm + k * m.lk, m.ro + k * m.rk + j * m.rn))
          (fun _ _ _ => rfl), if_neg hm]
  rw [List.flatMap_congr h1, flatMap_ite_mem (by rw [hM]; exact List.nodup_range), hM,
    if_pos (by simpa using hi)]

/-- Steps of the register-blocked path for one cell: every `k` once, in order. -/
theorem dotTiles_cell {M K N i0 j0 : Nat} (hi : i0 < M) (hj : j0 < N) :
    ((dotTiles M K N).flatMap fun t => tileSteps K N t.1 t.2.1 t.2.2).filter
      (fun st => st.1 = i0 * N + j0) = (List.range K).map fun k =>
      (i0 * N + j0, i0 * K + k, k * N + j0) := by
  unfold dotTiles
  have hM := blocks_range (B := 32) (n := M) (by omega)
  have hN := blocks_range (B := 32) (n := N) (by omega)
  have hK := blocks_range (B := 256) (n := K) (by omega)
  simp only [List.flatMap_assoc, List.flatMap_map, List.filter_flatMap]
  have h2 : ∀ bi bk, ∀ bj ∈ blocks 32 0 N, ((blocks 4 bi.1 bi.2).flatMap fun ti =>
      (blocks 4 bj.1 bj.2).flatMap fun tj => (tileSteps K N ti tj bk).filter
        (fun st => st.1 = i0 * N + j0)) =
      if j0 ∈ span bj then (if i0 ∈ span bi then (span bk).map fun k =>
        (i0 * N + j0, i0 * K + k, k * N + j0) else []) else [] := by
    intro bi bk bj hbj
    have hbi4 : (blocks 4 bi.1 bi.2).flatMap span = span bi := blocks_flatMap (by omega) _ _
    have hbj4 : (blocks 4 bj.1 bj.2).flatMap span = span bj := blocks_flatMap (by omega) _ _
    have h3 : ∀ ti, ((blocks 4 bj.1 bj.2).flatMap fun tj => (tileSteps K N ti tj bk).filter
        (fun st => st.1 = i0 * N + j0)) =
        if i0 ∈ span ti then (if j0 ∈ span bj then (span bk).map fun k =>
          (i0 * N + j0, i0 * K + k, k * N + j0) else []) else [] := by
      intro ti
      rw [show (blocks 4 bj.1 bj.2).flatMap _ = (blocks 4 bj.1 bj.2).flatMap (fun tj =>
        if j0 ∈ span tj then (if i0 ∈ span ti then (span bk).map fun k =>
          (i0 * N + j0, i0 * K + k, k * N + j0) else []) else []) from by
        apply List.flatMap_congr
        intro tj htj
        have h4 := (blocksFrom_size htj).2
        have h5 := (blocksFrom_size hbj).2
        rw [tileSteps, filter_block_ijk hj ti bk tj (by omega)
          (fun i k j => (i * N + j, i * K + k, k * N + j)) (fun _ _ _ => rfl)]
        by_cases ha : i0 ∈ span ti <;> by_cases hb : j0 ∈ span tj <;> simp [ha, hb]]
      rw [flatMap_ite_mem (by rw [hbj4]; exact span_nodup _), hbj4]
      by_cases ha : i0 ∈ span ti <;> by_cases hb : j0 ∈ span bj <;> simp [ha, hb]
    rw [List.flatMap_congr fun ti _ => h3 ti, flatMap_ite_mem (by rw [hbi4]; exact span_nodup _), hbi4]
    by_cases ha : i0 ∈ span bi <;> by_cases hb : j0 ∈ span bj <;> simp [ha, hb]
  have h1 : ∀ bi ∈ blocks 32 0 M, ((blocks 256 0 K).flatMap fun bk =>
      (blocks 32 0 N).flatMap fun bj => (blocks 4 bi.1 bi.2).flatMap fun ti =>
        (blocks 4 bj.1 bj.2).flatMap fun tj => (tileSteps K N ti tj bk).filter
          (fun st => st.1 = i0 * N + j0)) =
      if i0 ∈ span bi then (List.range K).map fun k =>
        (i0 * N + j0, i0 * K + k, k * N + j0) else [] := by
    intro bi hbi
    rw [← hK, List.map_flatMap]
    rw [show (blocks 256 0 K).flatMap _ = (blocks 256 0 K).flatMap (fun bk =>
      if i0 ∈ span bi then (span bk).map fun k => (i0 * N + j0, i0 * K + k, k * N + j0) else []) from by
      apply List.flatMap_congr
      intro bk _
      rw [List.flatMap_congr fun bj hbj => h2 bi bk bj hbj,
        flatMap_ite_mem (by rw [hN]; exact List.nodup_range), hN, if_pos (by simpa using hj)]]
    by_cases ha : i0 ∈ span bi <;> simp [ha]
  rw [List.flatMap_congr h1, flatMap_ite_mem (by rw [hM]; exact List.nodup_range), hM,
    if_pos (by simpa using hi)]

/-- The sum the kernels compute for one cell. -/
theorem dotSum_ok {zero : α} {add mul : α → α → α} {lhs rhs : List α} {K : Nat} {la ra : Nat → Nat}
    (hl : ∀ k, k < K → la k < lhs.length) (hr : ∀ k, k < K → ra k < rhs.length) :
    dotSum zero add mul lhs rhs K la ra = .ok ((List.range K).foldl (fun acc k =>
      add acc (prodAt zero mul lhs rhs (la k) (ra k))) zero) := by
  unfold dotSum
  rw [Res.mapL_eq_ok_of (g := fun k => prodAt zero mul lhs rhs (la k) (ra k))]
  · simp [Res.map, List.foldl_map]
  · intro k hk
    have : k < K := by simpa using hk
    exact prodAt_ok (hl k this) (hr k this)

theorem rowThreadCount_pos {cores M r : Nat} (h : 1 < rowThreadCount cores M r) :
    0 < rowThreadCount cores M r := by omega

theorem tilePairs_length (M N : Nat) : (tilePairs M N).length = M * N := by
  have := congrArg List.length (pairs_flat M N)
  simpa using this

theorem tilePairs_get {M N i j : Nat} (hi : i < M) (hj : j < N) :
    (tilePairs M N)[i * N + j]? = some (i, j) := by
  have hlt : i * N + j < (tilePairs M N).length := by
    rw [tilePairs_length]
    calc i * N + j < i * N + N := by omega
      _ = (i + 1) * N := (Nat.succ_mul i N).symm
      _ ≤ M * N := Nat.mul_le_mul_right _ hi
  have h3 : ((tilePairs M N).map fun p => p.1 * N + p.2)[i * N + j]? = some (i * N + j) := by
    rw [pairs_flat]
    rw [tilePairs_length] at hlt
    simp [hlt]
  rw [List.getElem?_map, List.getElem?_eq_getElem hlt] at h3
  simp only [Option.map_some, Option.some.injEq] at h3
  have hmem : (tilePairs M N)[i * N + j] ∈ tilePairs M N := List.getElem_mem _
  rw [List.getElem?_eq_getElem hlt]
  generalize (tilePairs M N)[i * N + j] = ab at h3 hmem
  obtain ⟨a, b⟩ := ab
  obtain ⟨_, hb⟩ := mem_tilePairs.mp hmem
  obtain ⟨rfl, rfl⟩ := flat_inj hb hj h3
  rfl

/-- **The dot kernel, all paths**: whatever the core count, cell `(i, j)` of the output is the sum over
`k`, in increasing order, of the products of the addressed elements. -/
theorem dotKernel_ok {zero : α} {add mul : α → α → α} {lhs rhs : List α} {md : List Nat} {m : DotMeta}
    (cores : Nat) (hm : decodeDot md = .ok m)
    (hl : ∀ i k, i < m.M → k < m.K → m.lo + i * m.lm + k * m.lk < lhs.length)
    (hr : ∀ k j, k < m.K → j < m.N → m.ro + k * m.rk + j * m.rn < rhs.length) :
    ∃ s, dotKernel cores zero add mul lhs rhs md = .ok s ∧ s.length = m.M * m.N ∧
      ∀ i j, i < m.M → j < m.N → s[i * m.N + j]? = some ((List.range m.K).foldl (fun acc k =>
        add acc (prodAt zero mul lhs rhs (m.lo + i * m.lm + k * m.lk) (m.ro + k * m.rk + j * m.rn))) zero) := by
  have hflat : ∀ a b, a < m.M → b < m.N → a * m.N + b < m.M * m.N := by
    intro a b ha hb
    calc a * m.N + b < a * m.N + m.N := by omega
      _ = (a + 1) * m.N := (Nat.succ_mul a m.N).symm
      _ ≤ m.M * m.N := Nat.mul_le_mul_right _ ha
  unfold dotKernel
  rw [hm, Res.ok_bind]
  by_cases hf : m.fast = true
  · simp only [hf, if_true]
    have hf' := hf
    simp only [DotMeta.fast, Bool.and_eq_true, beq_iff_eq] at hf'
    obtain ⟨⟨⟨⟨⟨e1, e2⟩, e3⟩, e4⟩, e5⟩, e6⟩ := hf'
    have ea : ∀ i k, m.lo + i * m.lm + k * m.lk = i * m.K + k := by
      intro i k; rw [e1, e3, e5]; omega
    have eb : ∀ k j, m.ro + k * m.rk + j * m.rn = k * m.N + j := by
      intro k j; rw [e2, e4, e6]; omega
    simp only [ea, eb] at hl hr ⊢
    by_cases hT : 1 < rowThreadCount cores m.M 256
    · rw [if_pos hT]
      obtain ⟨wss, h1, h2⟩ := rowThreads_any (zero := zero) (add := add) (mul := mul) (lhs := lhs)
        (rhs := rhs) (M := m.M) (K := m.K) (N := m.N) (rowThreadCount_pos hT)
        (g := fun i j => (List.range m.K).foldl (fun acc k =>
          add acc (prodAt zero mul lhs rhs (i * m.K + k) (k * m.N + j))) zero) (by
          intro i j hi hj
          exact dotSum_ok (fun k hk => hl i k hi hk) (fun k hk => hr k j hk hj))
      unfold rowThreads
      rw [h1, Res.ok_bind]
      refine ⟨_, h2 _ _ (List.Perm.refl _) (by simp), ?_, ?_⟩
      · rw [List.length_map, tilePairs_length]
      · intro i j hi hj
        rw [List.getElem?_map, tilePairs_get hi hj]
        rfl
    · rw [if_neg hT]
      rw [tiles_fold (M := m.M) _ _ (by simp) (by
        intro t ht
        unfold dotTiles at ht
        obtain ⟨bi, hbi, ht⟩ := List.mem_flatMap.mp ht
        obtain ⟨bk, hbk, ht⟩ := List.mem_flatMap.mp ht
        obtain ⟨bj, hbj, ht⟩ := List.mem_flatMap.mp ht
        obtain ⟨ti, hti, ht⟩ := List.mem_flatMap.mp ht
        obtain ⟨tj, htj, rfl⟩ := List.mem_map.mp ht
        have g1 := blocksFrom_size hbi
        have g2 := blocksFrom_size hbk
        have g3 := blocksFrom_size hbj
        have g4 := blocksFrom_size hti
        have g5 := blocksFrom_size htj
        exact ⟨g4.1, g5.1, by simp only; omega, by simp only; omega, by simp only; omega⟩) hl hr]
      have hmem : ∀ st ∈ (dotTiles m.M m.K m.N).flatMap (fun t => tileSteps m.K m.N t.1 t.2.1 t.2.2),
          ∃ i j k, i < m.M ∧ j < m.N ∧ k < m.K ∧ st = (i * m.N + j, i * m.K + k, k * m.N + j) := by
        intro st hst
        obtain ⟨t, ht, hst⟩ := List.mem_flatMap.mp hst
        unfold dotTiles at ht
        obtain ⟨bi, hbi, ht⟩ := List.mem_flatMap.mp ht
        obtain ⟨bk, hbk, ht⟩ := List.mem_flatMap.mp ht
        obtain ⟨bj, hbj, ht⟩ := List.mem_flatMap.mp ht
        obtain ⟨ti, hti, ht⟩ := List.mem_flatMap.mp ht
        obtain ⟨tj, htj, rfl⟩ := List.mem_map.mp ht
        have g1 := blocksFrom_size hbi
        have g2 := blocksFrom_size hbk
        have g3 := blocksFrom_size hbj
        have g4 := blocksFrom_size hti
        have g5 := blocksFrom_size htj
        obtain ⟨iv, hiv, hst⟩ := List.mem_flatMap.mp hst
        obtain ⟨jv, hjv, hst⟩ := List.mem_flatMap.mp hst
        obtain ⟨kv, hkv, rfl⟩ := List.mem_map.mp hst
        have h1 := mem_span.mp hiv
        have h2 := mem_span.mp hjv
        have h3 := mem_span.mp hkv
        simp only at h1 h2 h3
        exact ⟨iv, jv, kv, by omega, by omega, by omega, rfl⟩
      obtain ⟨out, h1, h2, h3⟩ := mulAcc_fold (add := add) (mul := mul) (lhs := lhs) (rhs := rhs)
        (val := fun st => prodAt zero mul lhs rhs st.2.1 st.2.2)
        ((dotTiles m.M m.K m.N).flatMap fun t => tileSteps m.K m.N t.1 t.2.1 t.2.2)
        (List.replicate (m.M * m.N) zero) (by
          intro st hst
          obtain ⟨i, j, k, hi, hj, hk, rfl⟩ := hmem st hst
          exact prodAt_ok (hl i k hi hk) (hr k j hk hj)) (by
          intro st hst
          obtain ⟨i, j, k, hi, hj, hk, rfl⟩ := hmem st hst
          simpa using hflat i j hi hj)
      refine ⟨out, h1, by simpa using h2, ?_⟩
      intro i j hi hj
      rw [h3 _ zero (by simp [hflat i j hi hj]), dotTiles_cell hi hj, List.foldl_map]
  · have hf0 : m.fast = false := by simpa using hf
    simp only [hf0]
    rw [if_neg (by simp)]
    have hmem : ∀ st ∈ dotSteps m, ∃ i j k, i < m.M ∧ j < m.N ∧ k < m.K ∧
        st = (i * m.N + j, m.lo + i * m.lm + k * m.lk, m.ro + k * m.rk + j * m.rn) := by
      intro st hst
      unfold dotSteps at hst
      obtain ⟨bi, hbi, hst⟩ := List.mem_flatMap.mp hst
      obtain ⟨bk, hbk, hst⟩ := List.mem_flatMap.mp hst
      obtain ⟨bj, hbj, hst⟩ := List.mem_flatMap.mp hst
      obtain ⟨iv, hiv, hst⟩ := List.mem_flatMap.mp hst
      obtain ⟨kv, hkv, hst⟩ := List.mem_flatMap.mp hst
      obtain ⟨jv, hjv, rfl⟩ := List.mem_map.mp hst
      have g1 := blocksFrom_size hbi
      have g2 := blocksFrom_size hbk
      have g3 := blocksFrom_size hbj
      have h1 := mem_span.mp hiv
      have h2 := mem_span.mp hjv
      have h3 := mem_span.mp hkv
      exact ⟨iv, jv, kv, by omega, by omega, by omega, rfl⟩
    obtain ⟨out, h1, h2, h3⟩ := mulAcc_fold (add := add) (mul := mul) (lhs := lhs) (rhs := rhs)
      (val := fun st => prodAt zero mul lhs rhs st.2.1 st.2.2) (dotSteps m)
      (List.replicate (m.M * m.N) zero) (by
        intro st hst
        obtain ⟨i, j, k, hi, hj, hk, rfl⟩ := hmem st hst
        exact prodAt_ok (hl i k hi hk) (hr k j hk hj)) (by
        intro st hst
        obtain ⟨i, j, k, hi, hj, hk, rfl⟩ := hmem st hst
        simpa using hflat i j hi hj)
    refine ⟨out, h1, by simpa using h2, ?_⟩
    intro i j hi hj
    rw [h3 _ zero (by simp [hflat i j hi hj]), dotSteps_cell hi hj, List.foldl_map]

end Hodu
