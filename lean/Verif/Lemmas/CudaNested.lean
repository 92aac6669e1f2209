import Verif.Model.CudaConvGrad
import Verif.Lemmas.CudaAtomic
import Verif.Lemmas.CudaGrid

/-!
# Grid-stride loops around loops of atomic updates

The indices of all threads together are all turns of all elements, each once, also when the grid is smaller than the
number of elements.
-/

namespace Hodu.Cuda

open Cuda.Spec

variable {V W : Type} [DecidableEq W]

/-- Turn `j` of thread `t`. -/
def nestedAt (G T t j : Nat) : Nat := (t + j / T * G) * T + j % T

theorem nestedAt_div {G T t j : Nat} (hT : 0 < T) : nestedAt G T t j / T = t + j / T * G := by
  unfold nestedAt
  rw [Nat.mul_comm, Nat.mul_add_div hT, Nat.div_eq_of_lt (Nat.mod_lt _ hT), Nat.add_zero]

theorem nestedAt_mod {G T t j : Nat} : nestedAt G T t j % T = j % T := by
  unfold nestedAt
  rw [Nat.mul_comm, Nat.mul_add_mod, Nat.mod_mod]

theorem nestedAt_inj {G T t t' j j' : Nat} (hT : 0 < T) (ht : t < G) (ht' : t' < G)
    (h : nestedAt G T t j = nestedAt G T t' j') : t = t' ∧ j = j' := by
  have h1 := congrArg (· / T) h
  have h2 := congrArg (· % T) h
  simp only [nestedAt_div hT, nestedAt_mod] at h1 h2
  have hm : ∀ {a b}, a < G → (a + b * G) % G = a := fun {a b} h => by
    rw [Nat.add_mul_mod_self_right, Nat.mod_eq_of_lt h]
  have e1 : t = t' := by rw [← hm (b := j / T) ht, h1, hm ht']
  subst e1
  have e2 : j / T = j' / T := Nat.eq_of_mul_eq_mul_right (by omega) (Nat.add_left_cancel h1)
  exact ⟨rfl, by rw [← Nat.div_add_mod j T, ← Nat.div_add_mod j' T, e2, h2]⟩

/-- How many elements thread `t` of `G` takes. -/
def shareOf (G total t : Nat) : Nat := (total - t + (G - 1)) / G

theorem lt_shareOf {G total t r : Nat} (hG : 0 < G) : r < shareOf G total t ↔ t + r * G < total := by
  unfold shareOf
  rw [Nat.lt_iff_add_one_le, Nat.le_div_iff_mul_le hG, Nat.add_mul]
  generalize r * G = q
  omega

omit [DecidableEq W] in
theorem rmwLoops_iter {G total taps : Nat} {start adv : Nat → Nat} (hst : ∀ t, t < G → start t = t)
    (hadv : ∀ i, i < total → adv i = i + G) (hG : 0 < G) (hT : 0 < taps)
    (job : Nat → Nat → Res (Option (Nat × V))) (word : Nat → Nat) (upd : Nat → W → V → W) (way : Way) {t : Nat}
    (ht : t < G) (j : Nat) (hj : j ≤ taps * shareOf G total t) :
    (rmwLoops G start adv total taps job word upd way).next^[j] ((rmwLoops G start adv total taps job word upd way).start t) =
      nestedAt G taps t j := by
  induction j with
  | zero =>
    show start t * taps = _
    rw [hst t ht]
    simp [nestedAt]
  | succ j ih =>
    rw [Function.iterate_succ_apply', ih (by omega)]
    have hr : j / taps < shareOf G total t := Nat.div_lt_of_lt_mul (by omega)
    have hb := (lt_shareOf (by omega)).mp hr
    show (if nestedAt G taps t j % taps + 1 = taps then
      adv (nestedAt G taps t j / taps) * taps else nestedAt G taps t j + 1) = _
    rw [nestedAt_mod, nestedAt_div hT]
    have hm := Nat.mod_lt j hT
    have hdm := Nat.div_add_mod j taps
    split_ifs with hc
    · have e : j + 1 = taps * (j / taps + 1) := by rw [Nat.mul_add]; omega
      have ea : adv (t + j / taps * G) = t + j / taps * G + G := hadv _ hb
      rw [ea]
      unfold nestedAt
      rw [e, Nat.mul_div_cancel_left _ hT, Nat.mul_mod_right, Nat.add_zero, Nat.add_mul (j / taps) 1, Nat.one_mul,
        Nat.add_assoc]
    · have e : j + 1 = taps * (j / taps) + (j % taps + 1) := by omega
      have hl : j % taps + 1 < taps := by omega
      unfold nestedAt
      rw [show (j + 1) / taps = j / taps by
          conv_lhs => rw [e]
          rw [Nat.mul_add_div hT, Nat.div_eq_of_lt hl, Nat.add_zero],
        show (j + 1) % taps = j % taps + 1 by
          conv_lhs => rw [e]
          rw [Nat.mul_add_mod, Nat.mod_eq_of_lt hl]]
      omega

/-- Every execution of such a kernel is one of the turns of all elements in some order, each once. -/
theorem rmwLoops_linearizes {G total taps : Nat} {start adv : Nat → Nat} (hst : ∀ t, t < G → start t = t)
    (hadv : ∀ i, i < total → adv i = i + G) (hG : 0 < G)
    {job : Nat → Nat → Res (Option (Nat × V))} {word : Nat → Nat} {upd : Nat → W → V → W} {way : Way} {mem : List W}
    (hj : ∀ idx tap, idx < total → tap < taps →
      ∃ o, job idx tap = .ok o ∧ ∀ c v, o = some (c, v) → word c < mem.length) :
    let k := rmwLoops G start adv total taps job word upd way
    (∀ sched, ∃ s, k.exec mem sched = .ok s ∧ s.mem.length = mem.length ∧ (s.finished →
      ∃ order : List Nat, order.Perm (List.range (total * taps)) ∧ s.mem = order.foldl (apply k) mem)) ∧
    ∃ B, ∀ sched s, (∀ t, t < k.threads → B ≤ sched.count t) → k.exec mem sched = .ok s → s.finished := by
  intro k
  have hlin : Linearizes k mem (fun t => taps * shareOf G total t) := by
    apply linearizes
    · intro i hi
      have hi' : i < total * taps := hi
      have hT : 0 < taps := Nat.pos_of_ne_zero fun e => by subst e; omega
      exact hj _ _ (Nat.div_lt_of_lt_mul (by rwa [Nat.mul_comm])) (Nat.mod_lt _ hT)
    · intro t ht
      have ht' : t < G := ht
      rcases Nat.eq_zero_or_pos taps with e | hT
      · subst e
        exact ⟨fun j hj => by simp at hj, by simp only [k, rmwLoops]; omega⟩
      · constructor
        · intro j hj
          rw [rmwLoops_iter hst hadv hG hT job word upd way ht' j (by omega)]
          have := (lt_shareOf hG).mp (Nat.div_lt_of_lt_mul hj)
          show nestedAt _ _ _ _ < total * taps
          apply (Nat.div_lt_iff_lt_mul hT).mp
          rwa [nestedAt_div hT]
        · rw [rmwLoops_iter hst hadv hG hT job word upd way ht' _ (Nat.le_refl _)]
          show ¬ nestedAt _ _ _ _ < total * taps
          rw [← Nat.div_lt_iff_lt_mul hT, nestedAt_div hT, Nat.mul_div_cancel_left _ hT,
            ← lt_shareOf hG]
          omega
  have hperm : ((List.range k.threads).flatMap fun t => taken k t (taps * shareOf G total t)).Perm
      (List.range (total * taps)) := by
    rcases Nat.eq_zero_or_pos taps with e | hT
    · subst e
      simp [taken]
    · have htk : ∀ t, t < G → taken k t (taps * shareOf G total t) =
          (List.range (taps * shareOf G total t)).map (nestedAt G taps t) := by
        intro t ht
        unfold taken
        apply List.map_congr_left
        intro j hj
        exact rmwLoops_iter hst hadv hG hT job word upd way ht j (by have := List.mem_range.mp hj; omega)
      have hmem : ∀ t i, t < G → (i ∈ taken k t (taps * shareOf G total t) ↔
          ∃ j, j < taps * shareOf G total t ∧ nestedAt G taps t j = i) := by
        intro t i ht
        rw [htk t ht]
        simp
      rw [List.perm_ext_iff_of_nodup _ List.nodup_range]
      · intro i
        rw [List.mem_flatMap, List.mem_range]
        constructor
        · rintro ⟨t, ht, hi⟩
          have ht' : t < G := List.mem_range.mp ht
          obtain ⟨j, hj, rfl⟩ := (hmem t i ht').mp hi
          have := (lt_shareOf hG).mp (Nat.div_lt_of_lt_mul hj)
          apply (Nat.div_lt_iff_lt_mul hT).mp
          rwa [nestedAt_div hT]
        · intro hi
          have hq : i / taps < total := (Nat.div_lt_iff_lt_mul hT).mpr hi
          have ht : i / taps % G < G := Nat.mod_lt _ hG
          refine ⟨i / taps % G, List.mem_range.mpr ht, (hmem _ _ ht).mpr
            ⟨taps * (i / taps / G) + i % taps, ?_, ?_⟩⟩
          · have hs : i / taps / G < shareOf G total (i / taps % G) := by
              rw [lt_shareOf hG, Nat.add_comm, Nat.mul_comm, Nat.div_add_mod]
              exact hq
            have := Nat.mul_le_mul_left taps (Nat.succ_le_of_lt hs)
            have hm := Nat.mod_lt i hT
            rw [Nat.mul_succ] at this
            omega
          · unfold nestedAt
            rw [Nat.mul_add_div hT, Nat.div_eq_of_lt (Nat.mod_lt _ hT), Nat.add_zero, Nat.mul_add_mod, Nat.mod_mod,
              Nat.add_comm (i / taps % G), Nat.mul_comm (i / taps / G), Nat.div_add_mod,
              Nat.mul_comm, Nat.div_add_mod]
      · rw [List.nodup_flatMap]
        constructor
        · intro t ht
          have ht' : t < G := List.mem_range.mp ht
          rw [htk t ht']
          exact List.Nodup.map_on (fun a _ b _ e => (nestedAt_inj hT ht' ht' e).2) List.nodup_range
        · refine List.Pairwise.imp_of_mem ?_ (List.nodup_range (n := k.threads))
          intro a b ha hb hne i hia hib
          have ha' : a < G := List.mem_range.mp ha
          have hb' : b < G := List.mem_range.mp hb
          obtain ⟨j, _, e1⟩ := (hmem a i ha').mp hia
          obtain ⟨j', _, e2⟩ := (hmem b i hb').mp hib
          exact hne (nestedAt_inj hT ha' hb' (e1.trans e2.symm)).1
  obtain ⟨h1, h2⟩ := hlin
  refine ⟨fun sched => ?_, h2⟩
  obtain ⟨s, a1, a2, a3⟩ := h1 sched
  refine ⟨s, a1, a2, fun hf => ?_⟩
  obtain ⟨order, b1, b2⟩ := a3 hf
  exact ⟨order, b1.trans hperm, b2⟩

/-- The counters of a grid of CUDA. -/
theorem grid_steps {grid total : Nat} (h : total + 256 * grid ≤ 2 ^ 32) :
    (∀ t, t < 256 * grid → threadStart t = t) ∧ ∀ i, i < total → advance grid i = i + 256 * grid := by
  refine ⟨fun t ht => threadStart_eq (by omega), fun i hi => ?_⟩
  unfold advance u32
  have hgl : 256 * grid < 2 ^ 32 := by omega
  rw [Nat.mod_eq_of_lt hgl, Nat.mod_eq_of_lt (by omega)]

end Hodu.Cuda
