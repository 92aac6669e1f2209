import Verif.Model.MetalMatrix
import Verif.Lemmas.CudaTile
import Verif.Lemmas.Matmul
import Mathlib.Data.List.Induction

/-!
# A kernel with 4 x 4 register blocks behaves like one with a thread per cell

Every execution of `DOT_OP` on Metal (8 x 8 threads, 16 cells each) is simulated by an execution of the
tiled kernel with 32 x 32 threads.
-/

namespace Hodu.Metal

open _root_.Hodu Hodu.Cuda Hodu.Cuda.TileKernel

variable {α : Type}

/-- The same work with one thread per cell of a tile. -/
def wide (c : TileKernel α) : TileKernel α := { c with launch := { c.launch with bx := 32, bY := 32 } }

/-- Steps of one tile that cell `i` has seen when its thread is at `p`. -/
def vin (p i : Nat) : Nat :=
  (if i < p then 1 else 0) + (if i + 16 < p then 1 else 0) + (if 32 < p then 1 else 0) +
    min 32 ((p - 18 - i) / 16) + (if 545 < p then 1 else 0)

/-- Position of cell `i` when its thread is at `r`. -/
def vpos (n r i : Nat) : Nat :=
  if r / 546 < n then r / 546 * 36 + vin (r % 546) i
  else n * 36 + (if i < r - n * 546 then 1 else 0)

theorem vin_zero (i : Nat) : vin 0 i = 0 := by
  unfold vin; simp

theorem vin_last {i : Nat} (hi : i < 16) : vin 546 i = 36 := by
  unfold vin
  rw [if_pos (by omega), if_pos (by omega), if_pos (by omega), if_pos (by omega)]
  omega

theorem vpos_tile {n tile p i : Nat} (ht : tile < n) (hp : p ≤ 546) (hi : i < 16) :
    vpos n (tile * 546 + p) i = tile * 36 + vin p i := by
  unfold vpos
  by_cases h : p < 546
  · rw [show (tile * 546 + p) / 546 = tile by omega, show (tile * 546 + p) % 546 = p by omega, if_pos ht]
  · have hp' : p = 546 := by omega
    subst hp'
    rw [show (tile * 546 + 546) / 546 = tile + 1 by omega, show (tile * 546 + 546) % 546 = 0 by omega,
      vin_last hi, vin_zero]
    by_cases h' : tile + 1 < n
    · rw [if_pos h']; omega
    · rw [if_neg h', if_neg (by omega)]; omega

theorem vpos_end {n q i : Nat} : vpos n (n * 546 + q) i = n * 36 + (if i < q then 1 else 0) := by
  unfold vpos
  rw [if_neg (by omega), show n * 546 + q - n * 546 = q by omega]

theorem vin_mono {p q i : Nat} (h : p ≤ q) : vin p i ≤ vin q i := by
  unfold vin
  have h1 : (p - 18 - i) / 16 ≤ (q - 18 - i) / 16 := Nat.div_le_div_right (by omega)
  generalize (p - 18 - i) / 16 = x at *
  generalize (q - 18 - i) / 16 = y at *
  split <;> split <;> split <;> split <;> split <;> split <;> split <;> split <;> omega

theorem vpos_succ {n r i : Nat} (hi : i < 16) : vpos n r i ≤ vpos n (r + 1) i := by
  by_cases h : r < n * 546
  · have ht : r / 546 < n := by omega
    have e : r = r / 546 * 546 + r % 546 := by omega
    rw [e, Nat.add_assoc, vpos_tile ht (by omega) hi, vpos_tile ht (by omega) hi]
    have := vin_mono (i := i) (show r % 546 ≤ r % 546 + 1 by omega)
    omega
  · have e : r = n * 546 + (r - n * 546) := by omega
    rw [e, Nat.add_assoc, vpos_end, vpos_end]
    split <;> split <;> omega

theorem vpos_mono {n r r' i : Nat} (hi : i < 16) (h : r ≤ r') : vpos n r i ≤ vpos n r' i := by
  induction h with
  | refl => exact Nat.le_refl _
  | step _ ih => exact Nat.le_trans ih (vpos_succ hi)

/-! ## Cells and threads -/

theorem sub_inj {t t' : Tid} {i i' : Nat} (hi : i < 16) (hi' : i' < 16) :
    sub t i = sub t' i' ↔ t = t' ∧ i = i' := by
  constructor
  · intro h
    obtain ⟨a, b, d, y, x⟩ := t
    obtain ⟨a', b', d', y', x'⟩ := t'
    simp only [sub, Tid.mk.injEq] at h
    obtain ⟨h1, h2, h3, h4, h5⟩ := h
    refine ⟨?_, by omega⟩
    simp only [Tid.mk.injEq]
    exact ⟨h1, h2, h3, by omega, by omega⟩
  · rintro ⟨rfl, rfl⟩; rfl

theorem sub_cell (t : Tid) (i y x : Nat) : ({ sub t i with ty := y, tx := x } : Tid) =
    sub { t with ty := y / 4, tx := x / 4 } (y % 4 * 4 + x % 4) := by
  simp only [sub, Tid.mk.injEq, true_and]
  omega

theorem wide_has {c : TileKernel α} (hx : c.launch.bx = 8) (hy : c.launch.bY = 8) {t : Tid}
    (h : c.has t = true) {i : Nat} (hi : i < 16) : (wide c).has (sub t i) = true := by
  obtain ⟨h1, h2, h3, h4, h5⟩ := has_iff.mp h
  rw [hy] at h4
  rw [hx] at h5
  refine has_iff.mpr ⟨h1, h2, h3, ?_, ?_⟩
  · show t.ty * 4 + i / 4 < 32; omega
  · show t.tx * 4 + i % 4 < 32; omega

theorem wide_owner {c : TileKernel α} (hx : c.launch.bx = 8) (hy : c.launch.bY = 8) {u : Tid}
    (h : (wide c).has u = true) : ∃ t i, i < 16 ∧ u = sub t i ∧ c.has t = true := by
  obtain ⟨h1, h2, h3, h4, h5⟩ := has_iff.mp h
  have h4' : u.ty < 32 := h4
  have h5' : u.tx < 32 := h5
  refine ⟨{ u with ty := u.ty / 4, tx := u.tx / 4 }, u.ty % 4 * 4 + u.tx % 4, by omega, ?_, ?_⟩
  · have := sub_cell u 0 u.ty u.tx
    simp only [sub] at this ⊢
    rw [← this]
  · refine has_iff.mpr ⟨h1, h2, h3, ?_, ?_⟩
    · rw [hy]; show u.ty / 4 < 8; omega
    · rw [hx]; show u.tx / 4 < 8; omega

/-! ## Simulation -/

/-- The states correspond: cell `i` of thread `t` is where `vpos` puts it. -/
structure Sim (c : TileKernel α) (s : BlockSt α) (v : TileSt α) : Prop where
  pc : ∀ t i, i < 16 → v.pc (sub t i) = vpos c.tiles (s.pc t) i
  sum : ∀ t i, i < 16 → v.sum (sub t i) = s.sums t i
  lt : v.lt = s.lt
  rt : v.rt = s.rt
  out : v.out = s.out

theorem sim_pc {c : TileKernel α} {s : BlockSt α} {v : TileSt α} (h : Sim c s v) {t : Tid} {i0 : Nat}
    (hi0 : i0 < 16) (ho : vpos c.tiles (s.pc t + 1) i0 = vpos c.tiles (s.pc t) i0 + 1)
    (hn : ∀ i, i < 16 → i ≠ i0 → vpos c.tiles (s.pc t + 1) i = vpos c.tiles (s.pc t) i) :
    ∀ t' i, i < 16 → Function.update v.pc (sub t i0) (v.pc (sub t i0) + 1) (sub t' i) =
      vpos c.tiles (Function.update s.pc t (s.pc t + 1) t') i := by
  intro t' i hi
  by_cases ht : t' = t
  · subst ht
    rw [Function.update_self]
    by_cases e : i = i0
    · subst e
      rw [Function.update_self, h.pc _ _ hi, ho]
    · rw [Function.update_of_ne (fun e' => e ((sub_inj hi hi0).mp e').2), h.pc _ _ hi, hn i hi e]
  · rw [Function.update_of_ne ht, Function.update_of_ne (fun e' => ht ((sub_inj hi hi0).mp e').1), h.pc _ _ hi]

theorem vin_lhs {p : Nat} (hp : p < 16) : vin p p = 0 ∧ vin (p + 1) p = 1 ∧
    ∀ i, i < 16 → i ≠ p → vin (p + 1) i = vin p i := by
  unfold vin
  refine ⟨?_, ?_, ?_⟩
  · rw [if_neg (by omega), if_neg (by omega), if_neg (by omega), if_neg (by omega)]; omega
  · rw [if_pos (by omega), if_neg (by omega), if_neg (by omega), if_neg (by omega)]; omega
  · intro i hi hne
    rw [show (if i < p + 1 then 1 else 0) = (if i < p then 1 else 0) by split <;> split <;> omega]
    rw [if_neg (show ¬ i + 16 < p + 1 by omega), if_neg (show ¬ i + 16 < p by omega),
      if_neg (show ¬ 32 < p + 1 by omega), if_neg (show ¬ 32 < p by omega),
      if_neg (show ¬ 545 < p + 1 by omega), if_neg (show ¬ 545 < p by omega)]
    omega

theorem vin_rhs {p : Nat} (h0 : 16 ≤ p) (hp : p < 32) : vin p (p - 16) = 1 ∧ vin (p + 1) (p - 16) = 2 ∧
    ∀ i, i < 16 → i ≠ p - 16 → vin (p + 1) i = vin p i := by
  unfold vin
  refine ⟨?_, ?_, ?_⟩
  · rw [if_pos (by omega), if_neg (by omega), if_neg (by omega), if_neg (by omega)]; omega
  · rw [if_pos (by omega), if_pos (by omega), if_neg (by omega), if_neg (by omega)]; omega
  · intro i hi hne
    rw [show (if i + 16 < p + 1 then 1 else 0) = (if i + 16 < p then 1 else 0) by split <;> split <;> omega]
    rw [if_pos (show i < p + 1 by omega), if_pos (show i < p by omega),
      if_neg (show ¬ 32 < p + 1 by omega), if_neg (show ¬ 32 < p by omega),
      if_neg (show ¬ 545 < p + 1 by omega), if_neg (show ¬ 545 < p by omega)]
    omega

theorem vin_mac {p : Nat} (h0 : 33 ≤ p) (hp : p < 545) : vin p ((p - 33) % 16) = 3 + (p - 33) / 16 ∧
    vin (p + 1) ((p - 33) % 16) = 4 + (p - 33) / 16 ∧
    ∀ i, i < 16 → i ≠ (p - 33) % 16 → vin (p + 1) i = vin p i := by
  unfold vin
  refine ⟨?_, ?_, ?_⟩
  · rw [if_pos (by omega), if_pos (by omega), if_pos (by omega), if_neg (by omega)]; omega
  · rw [if_pos (by omega), if_pos (by omega), if_pos (by omega), if_neg (by omega)]; omega
  · intro i hi hne
    rw [if_pos (show i < p + 1 by omega), if_pos (show i < p by omega),
      if_pos (show i + 16 < p + 1 by omega), if_pos (show i + 16 < p by omega),
      if_pos (show 32 < p + 1 by omega), if_pos (show 32 < p by omega),
      if_neg (show ¬ 545 < p + 1 by omega), if_neg (show ¬ 545 < p by omega)]
    omega

theorem vin_barrier {p i : Nat} (hp : p = 32 ∨ p = 545) (hi : i < 16) :
    vin p i = (if p = 32 then 2 else 35) ∧ vin (p + 1) i = vin p i + 1 := by
  unfold vin
  rcases hp with rfl | rfl
  · refine ⟨?_, ?_⟩
    · rw [if_pos (by omega), if_pos (by omega), if_neg (by omega), if_neg (by omega), if_pos rfl]; omega
    · rw [if_pos (by omega), if_pos (by omega), if_pos (by omega), if_neg (by omega), if_pos (by omega),
        if_pos (by omega), if_neg (by omega), if_neg (by omega)]; omega
  · refine ⟨?_, ?_⟩
    · rw [if_pos (by omega), if_pos (by omega), if_pos (by omega), if_neg (by omega), if_neg (by omega)]; omega
    · rw [if_pos (by omega), if_pos (by omega), if_pos (by omega), if_pos (by omega), if_pos (by omega),
        if_pos (by omega), if_pos (by omega), if_neg (by omega)]; omega

theorem wide_step {c : TileKernel α} (hT : c.T = 32) {v : TileSt α} {u : Tid} {tile j : Nat}
    (hu : (wide c).has u = true) (hpc : v.pc u = tile * 36 + j) (ht : tile < c.tiles) (hj : j < 36) :
    (wide c).step v u =
      if j = 0 then
        if u.ty < c.T ∧ u.tx < c.T then
          (if c.row u < c.M ∧ tile * c.T + u.tx < c.K then c.lhs u.bz (c.row u) (tile * c.T + u.tx)
            else .ok c.zero).bind fun x =>
              .ok { v with pc := Function.update v.pc u (v.pc u + 1), lt := Function.update v.lt u x }
        else .ub
      else if j = 1 then
        if u.ty < c.T ∧ u.tx < c.T then
          (if tile * c.T + u.ty < c.K ∧ c.col u < c.N then c.rhs u.bz (tile * c.T + u.ty) (c.col u)
            else .ok c.zero).bind fun x =>
              .ok { v with pc := Function.update v.pc u (v.pc u + 1), rt := Function.update v.rt u x }
        else .ub
      else if j = 2 ∨ j = c.T + 3 then
        if (wide c).arrived v u (v.pc u) then .ok { v with pc := Function.update v.pc u (v.pc u + 1) }
        else .ok v
      else
        .ok { v with
              pc := Function.update v.pc u (v.pc u + 1)
              sum := Function.update v.sum u
                (c.macc (v.sum u) (v.lt { u with tx := j - 3 }) (v.rt { u with ty := j - 3 })) } := by
  have hw : (wide c).width = 36 := by show c.T + 4 = 36; omega
  have h1 : v.pc u / (wide c).width = tile := by rw [hw, hpc]; omega
  have h2 : v.pc u % (wide c).width = j := by rw [hw, hpc]; omega
  unfold TileKernel.step
  rw [if_neg (by rw [hu]; decide)]
  simp only [h1, h2]
  rw [if_pos (show tile < (wide c).tiles from ht)]
  rfl

/-- All 16 cells of a thread pass a barrier. -/
theorem wide_barrier {c : TileKernel α} (hT : c.T = 32) (hx : c.launch.bx = 8) (hy : c.launch.bY = 8)
    {v : TileSt α} {t : Tid} {tile j : Nat} (hu : c.has t = true) (ht : tile < c.tiles)
    (hj : j = 2 ∨ j = 35) (hpc : ∀ i, i < 16 → v.pc (sub t i) = tile * 36 + j)
    (harr : ∀ y x, y < 32 → x < 32 → tile * 36 + j ≤ v.pc { sub t 0 with ty := y, tx := x }) {n : Nat}
    (hn : n ≤ 16) :
    ∃ v', Res.foldL (wide c).step v ((List.range n).map (sub t)) = .ok v' ∧ v'.sum = v.sum ∧
      v'.lt = v.lt ∧ v'.rt = v.rt ∧ v'.out = v.out ∧
      (∀ i, i < 16 → v'.pc (sub t i) = if i < n then v.pc (sub t i) + 1 else v.pc (sub t i)) ∧
      ∀ u, (∀ i, i < 16 → u ≠ sub t i) → v'.pc u = v.pc u := by
  induction n with
  | zero => exact ⟨v, rfl, rfl, rfl, rfl, rfl, fun i _ => by simp, fun _ _ => rfl⟩
  | succ n ih =>
    obtain ⟨w, h1, h2, h3, h4, h5, h6, h7⟩ := ih (by omega)
    have hp : w.pc (sub t n) = tile * 36 + j := by
      rw [h6 n (by omega), if_neg (by omega), hpc n (by omega)]
    have hge : ∀ u, v.pc u ≤ w.pc u := by
      intro u
      by_cases e : ∃ i, i < 16 ∧ u = sub t i
      · obtain ⟨i, hi, rfl⟩ := e
        rw [h6 i hi]; split <;> omega
      · rw [h7 u fun i hi e' => e ⟨i, hi, e'⟩]
    have ha : (wide c).arrived w (sub t n) (w.pc (sub t n)) = true := by
      rw [arrived_iff, hp]
      intro y x hy' hx'
      exact Nat.le_trans (harr y x hy' hx') (hge _)
    refine ⟨{ w with pc := Function.update w.pc (sub t n) (w.pc (sub t n) + 1) }, ?_, h2, h3, h4, h5, ?_, ?_⟩
    · rw [List.range_succ, List.map_append, foldL_append, h1, Res.ok_bind, List.map_singleton, Res.foldL,
        wide_step hT (wide_has hx hy hu (by omega)) hp ht (by omega), if_neg (by omega), if_neg (by omega),
        if_pos (by omega), if_pos ha, Res.ok_bind, Res.foldL]
    · intro i hi
      show Function.update w.pc _ _ _ = _
      by_cases e : i = n
      · subst e
        rw [Function.update_self, if_pos (by omega), h6 i hi, if_neg (by omega)]
      · rw [Function.update_of_ne (fun e' => e ((sub_inj hi (by omega)).mp e').2), h6 i hi]
        by_cases h : i < n
        · rw [if_pos h, if_pos (by omega)]
        · rw [if_neg h, if_neg (by omega)]
    · intro u hne
      show Function.update w.pc _ _ _ = _
      rw [Function.update_of_ne (hne n (by omega)), h7 u hne]

theorem foldL_one {σ β : Type} {f : σ → β → Res σ} {s s' : σ} {x : β} (h : f s x = .ok s') :
    Res.foldL f s [x] = .ok s' := by
  rw [Res.foldL, h, Res.ok_bind, Res.foldL]

/-- One step of a thread is some steps of its cells. -/
theorem sim_step {c : TileKernel α} (hT : c.T = 32) (hx : c.launch.bx = 8) (hy : c.launch.bY = 8)
    {s : BlockSt α} {v : TileSt α} (h : Sim c s v) (hok : ∀ u, ∃ v', (wide c).step v u = .ok v') (t : Tid) :
    ∃ s' us v', blockStep c s t = .ok s' ∧ Res.foldL (wide c).step v us = .ok v' ∧ Sim c s' v' := by
  unfold blockStep
  by_cases hu : c.has t = true
  swap
  · rw [if_pos (by simpa using hu)]
    exact ⟨s, [], v, rfl, rfl, h⟩
  rw [if_neg (by rw [hu]; decide)]
  have hsplit : s.pc t = s.pc t / 546 * 546 + s.pc t % 546 := by omega
  have hp : s.pc t % 546 < 546 := Nat.mod_lt _ (by omega)
  by_cases ht : s.pc t / 546 < c.tiles
  · simp only [if_pos ht]
    have hv : ∀ i, i < 16 → vpos c.tiles (s.pc t) i = s.pc t / 546 * 36 + vin (s.pc t % 546) i := by
      intro i hi
      conv_lhs => rw [hsplit]
      exact vpos_tile ht (by omega) hi
    have hv' : ∀ i, i < 16 → vpos c.tiles (s.pc t + 1) i = s.pc t / 546 * 36 + vin (s.pc t % 546 + 1) i := by
      intro i hi
      conv_lhs => rw [hsplit, Nat.add_assoc]
      exact vpos_tile ht (by omega) hi
    by_cases h1 : s.pc t % 546 < 16
    · rw [if_pos h1]
      obtain ⟨e1, e2, e3⟩ := vin_lhs h1
      have hpc := h.pc t _ h1
      have hst := wide_step (j := 0) hT (wide_has hx hy hu h1) (by rw [hpc, hv _ h1, e1]) ht (by omega)
      rw [if_pos rfl] at hst
      obtain ⟨v', hv1⟩ := hok (sub t (s.pc t % 546))
      have hv2 := hv1
      rw [hst] at hv2
      split at hv2
      · rename_i hg
        rw [if_pos hg]
        obtain ⟨x, hx1, hx2⟩ := Res.bind_eq_ok.mp hv2
        rw [show (sub t (s.pc t % 546)).bz = t.bz from rfl] at hx1
        rw [hx1, Res.ok_bind]
        cases hx2
        refine ⟨_, [sub t (s.pc t % 546)], _, rfl, foldL_one hv1, ⟨?_, h.sum, ?_, h.rt, h.out⟩⟩
        · exact sim_pc h h1 (by rw [hv _ h1, hv' _ h1, e1, e2])
            fun i hi hne => by rw [hv _ hi, hv' _ hi, e3 i hi hne]
        · show Function.update v.lt _ _ = _
          rw [h.lt]
      · cases hv2
    rw [if_neg h1]
    by_cases h2 : s.pc t % 546 < 32
    · rw [if_pos h2]
      have hi0 : s.pc t % 546 - 16 < 16 := by omega
      obtain ⟨e1, e2, e3⟩ := vin_rhs (by omega) h2
      have hpc := h.pc t _ hi0
      have hst := wide_step (j := 1) hT (wide_has hx hy hu hi0) (by rw [hpc, hv _ hi0, e1]) ht (by omega)
      rw [if_neg (by omega), if_pos rfl] at hst
      obtain ⟨v', hv1⟩ := hok (sub t (s.pc t % 546 - 16))
      have hv2 := hv1
      rw [hst] at hv2
      split at hv2
      · rename_i hg
        rw [if_pos hg]
        obtain ⟨x, hx1, hx2⟩ := Res.bind_eq_ok.mp hv2
        rw [show (sub t (s.pc t % 546 - 16)).bz = t.bz from rfl] at hx1
        rw [hx1, Res.ok_bind]
        cases hx2
        refine ⟨_, [sub t (s.pc t % 546 - 16)], _, rfl, foldL_one hv1, ⟨?_, h.sum, h.lt, ?_, h.out⟩⟩
        · exact sim_pc h hi0 (by rw [hv _ hi0, hv' _ hi0, e1, e2])
            fun i hi hne => by rw [hv _ hi, hv' _ hi, e3 i hi hne]
        · show Function.update v.rt _ _ = _
          rw [h.rt]
      · cases hv2
    rw [if_neg h2]
    by_cases h3 : s.pc t % 546 = 32 ∨ s.pc t % 546 = 545
    · rw [if_pos h3]
      by_cases ha : blockArrived c s t (s.pc t) = true
      swap
      · rw [if_neg ha]
        exact ⟨s, [], v, rfl, rfl, h⟩
      rw [if_pos ha]
      have hall : ∀ y x, y < 8 → x < 8 → s.pc t ≤ s.pc { t with ty := y, tx := x } := by
        simp only [blockArrived, List.all_eq_true, List.mem_range, decide_eq_true_eq] at ha
        intro y x hy' hx'
        exact ha y (by omega) x (by omega)
      obtain ⟨v', g1, g2, g3, g4, g5, g6, g7⟩ := wide_barrier (n := 16)
        (j := if s.pc t % 546 = 32 then 2 else 35) hT hx hy (v := v) hu ht (by split <;> simp)
        (fun i hi => by rw [h.pc t i hi, hv i hi, (vin_barrier h3 hi).1])
        (by
          intro y x hy' hx'
          rw [sub_cell, h.pc _ _ (by omega), ← (vin_barrier h3 (show y % 4 * 4 + x % 4 < 16 by omega)).1,
            ← hv _ (by omega)]
          exact vpos_mono (by omega) (hall (y / 4) (x / 4) (by omega) (by omega))) (Nat.le_refl _)
      refine ⟨_, _, v', rfl, g1, ⟨?_, by rw [g2]; exact h.sum, by rw [g3, h.lt], by rw [g4, h.rt],
        by rw [g5, h.out]⟩⟩
      intro t' i hi
      show _ = vpos c.tiles (Function.update s.pc t _ t') i
      by_cases e : t' = t
      · subst e
        rw [Function.update_self, g6 i hi, if_pos hi, h.pc _ _ hi, hv i hi, hv' i hi, (vin_barrier h3 hi).2,
          Nat.add_assoc]
      · rw [Function.update_of_ne e, g7 _ (fun i' hi' e' => e ((sub_inj hi hi').mp e').1), h.pc _ _ hi]
    · rw [if_neg h3]
      have hi0 : (s.pc t % 546 - 33) % 16 < 16 := Nat.mod_lt _ (by omega)
      obtain ⟨e1, e2, e3⟩ := vin_mac (show 33 ≤ s.pc t % 546 by omega) (by omega)
      have hpc := h.pc t _ hi0
      have hst := wide_step (j := 3 + (s.pc t % 546 - 33) / 16) hT (wide_has hx hy hu hi0)
        (by rw [hpc, hv _ hi0, e1]) ht (by omega)
      rw [if_neg (by omega), if_neg (by omega), if_neg (by omega), Nat.add_sub_cancel_left] at hst
      refine ⟨_, [sub t ((s.pc t % 546 - 33) % 16)], _, rfl, foldL_one hst, ⟨?_, ?_, h.lt, h.rt, h.out⟩⟩
      · exact sim_pc h hi0 (by rw [hv _ hi0, hv' _ hi0, e1, e2]; omega)
          fun i hi hne => by rw [hv _ hi, hv' _ hi, e3 i hi hne]
      · intro t' i hi
        show Function.update v.sum _ _ _ = Function.update s.sums t _ t' i
        by_cases e : t' = t
        · subst e
          rw [Function.update_self]
          by_cases e' : i = (s.pc t' % 546 - 33) % 16
          · subst e'
            rw [Function.update_self, Function.update_self]
            simp only [h.sum _ _ hi, h.lt, h.rt]
          · have hne : sub t' i ≠ sub t' ((s.pc t' % 546 - 33) % 16) := fun q => e' ((sub_inj hi hi0).mp q).2
            rw [Function.update_of_ne e', Function.update_of_ne hne, h.sum _ _ hi]
        · rw [Function.update_of_ne e, Function.update_of_ne (fun q => e ((sub_inj hi hi0).mp q).1),
            h.sum _ _ hi]
  · simp only [if_neg ht]
    by_cases hq : s.pc t < c.tiles * 546 + 16
    swap
    · rw [if_neg hq]
      exact ⟨s, [], v, rfl, rfl, h⟩
    rw [if_pos hq]
    have hle : c.tiles * 546 ≤ s.pc t := by omega
    obtain ⟨q, hq'⟩ := Nat.exists_eq_add_of_le hle
    have hi0 : q < 16 := by omega
    rw [show s.pc t - c.tiles * 546 = q by omega]
    have hv : ∀ i, vpos c.tiles (s.pc t) i = c.tiles * 36 + (if i < q then 1 else 0) := by
      intro i; rw [hq', vpos_end]
    have hv' : ∀ i, vpos c.tiles (s.pc t + 1) i = c.tiles * 36 + (if i < q + 1 then 1 else 0) := by
      intro i; rw [hq', Nat.add_assoc, vpos_end]
    have hpc := h.pc t _ hi0
    rw [hv, if_neg (by omega), Nat.add_zero] at hpc
    have hw : (wide c).width = 36 := by show c.T + 4 = 36; omega
    have hst : (wide c).step v (sub t q) =
        if c.row (sub t q) < c.M ∧ c.col (sub t q) < c.N then
          if c.cell (sub t q) < v.out.length then
            .ok { v with pc := Function.update v.pc (sub t q) (v.pc (sub t q) + 1),
                         out := v.out.set (c.cell (sub t q)) (v.sum (sub t q)) }
          else .ub
        else .ok { v with pc := Function.update v.pc (sub t q) (v.pc (sub t q) + 1) } := by
      unfold TileKernel.step
      rw [if_neg (by rw [wide_has hx hy hu hi0]; decide)]
      simp only [hw]
      rw [if_neg (show ¬ v.pc (sub t q) / 36 < (wide c).tiles by
        show ¬ v.pc (sub t q) / 36 < c.tiles; rw [hpc]; omega), if_pos (show _ = (wide c).tiles * 36 from hpc)]
      rfl
    have key := sim_pc h (t := t) hi0 (by rw [hv, hv', if_neg (show ¬ q < q by omega), if_pos (show q < q + 1 by omega)])
      (fun i hi hne => by rw [hv, hv']; split <;> split <;> omega)
    obtain ⟨v', hv1⟩ := hok (sub t q)
    have hv2 := hv1
    rw [hst] at hv2
    split at hv2
    · rename_i hg
      rw [if_pos hg]
      split at hv2
      · rename_i hg'
        rw [h.out] at hg'
        rw [if_pos hg']
        cases hv2
        refine ⟨_, [sub t q], _, rfl, foldL_one hv1, ⟨key, h.sum, h.lt, h.rt, ?_⟩⟩
        show v.out.set _ _ = _
        rw [h.out, h.sum _ _ hi0]
      · cases hv2
    · rename_i hg
      rw [if_neg hg]
      cases hv2
      exact ⟨_, [sub t q], _, rfl, foldL_one hv1, ⟨key, h.sum, h.lt, h.rt, h.out⟩⟩

/-- Every execution is simulated by one of the kernel with a thread per cell. -/
theorem sim_exec {c : TileKernel α} (hT : c.T = 32) (hx : c.launch.bx = 8) (hy : c.launch.bY = 8)
    {lt0 rt0 : Tid → α} {buf : List α} (hok : ∀ us, ∃ v, (wide c).exec lt0 rt0 buf us = .ok v)
    (sched : List Tid) : ∃ s us v, blockExec c lt0 rt0 buf sched = .ok s ∧
      (wide c).exec lt0 rt0 buf us = .ok v ∧ Sim c s v := by
  induction sched using List.reverseRecOn with
  | nil =>
    refine ⟨_, [], _, rfl, rfl, ⟨?_, fun _ _ _ => rfl, rfl, rfl, rfl⟩⟩
    intro t i hi
    show 0 = vpos c.tiles 0 i
    rw [vpos]
    split
    · rw [Nat.zero_mod, vin_zero]
    · rw [if_neg (by omega)]; omega
  | append_singleton sched t ih =>
    obtain ⟨s, us, v, h1, h2, h3⟩ := ih
    have hok' : ∀ u, ∃ v', (wide c).step v u = .ok v' := by
      intro u
      obtain ⟨v', hv'⟩ := hok (us ++ [u])
      rw [TileKernel.exec_append, h2, Res.ok_bind, Res.foldL] at hv'
      obtain ⟨w, hw, _⟩ := Res.bind_eq_ok.mp hv'
      exact ⟨w, hw⟩
    obtain ⟨s', us', v', g1, g2, g3⟩ := sim_step hT hx hy h3 hok' t
    refine ⟨s', us ++ us', v', ?_, by rw [TileKernel.exec_append, h2, Res.ok_bind, g2], g3⟩
    rw [blockExec, foldL_append]
    show (blockExec c lt0 rt0 buf sched).bind _ = _
    rw [h1, Res.ok_bind, foldL_one g1]

/-! ## All threads come to their end -/

theorem blockStep_pc {c : TileKernel α} {s s' : BlockSt α} {t : Tid} (h : blockStep c s t = .ok s') :
    (s'.pc = s.pc ∨ s'.pc = Function.update s.pc t (s.pc t + 1)) ∧
    (c.has t = true → s.pc t < c.tiles * 546 + 16 → blockArrived c s t (s.pc t) = true →
      s'.pc = Function.update s.pc t (s.pc t + 1)) := by
  unfold blockStep at h
  by_cases ht : c.has t = true
  swap
  · rw [if_pos (by simpa using ht)] at h
    cases h
    exact ⟨Or.inl rfl, fun h' => absurd h' ht⟩
  rw [if_neg (by rw [ht]; decide)] at h
  dsimp only at h
  have stay : ∀ {x : Res α} {g : α → BlockSt α}, (∀ v, (g v).pc = Function.update s.pc t (s.pc t + 1)) →
      (x.bind fun v => .ok (g v)) = .ok s' → s'.pc = Function.update s.pc t (s.pc t + 1) := by
    intro x g hg hx
    obtain ⟨v, _, h2⟩ := Res.bind_eq_ok.mp hx
    cases h2
    exact hg v
  have both : s'.pc = Function.update s.pc t (s.pc t + 1) →
      (s'.pc = s.pc ∨ s'.pc = Function.update s.pc t (s.pc t + 1)) ∧
      (c.has t = true → s.pc t < c.tiles * 546 + 16 → blockArrived c s t (s.pc t) = true →
        s'.pc = Function.update s.pc t (s.pc t + 1)) := fun e => ⟨Or.inr e, fun _ _ _ => e⟩
  by_cases hτ : s.pc t / 546 < c.tiles
  · rw [if_pos hτ] at h
    by_cases h1 : s.pc t % 546 < 16
    · rw [if_pos h1] at h
      split at h
      · exact both (stay (fun _ => rfl) h)
      · cases h
    rw [if_neg h1] at h
    by_cases h2 : s.pc t % 546 < 32
    · rw [if_pos h2] at h
      split at h
      · exact both (stay (fun _ => rfl) h)
      · cases h
    rw [if_neg h2] at h
    by_cases h3 : s.pc t % 546 = 32 ∨ s.pc t % 546 = 545
    · rw [if_pos h3] at h
      cases ha : blockArrived c s t (s.pc t) with
      | true =>
        rw [ha, if_pos rfl] at h
        cases h
        exact ⟨Or.inr rfl, fun _ _ _ => rfl⟩
      | false =>
        rw [ha, if_neg (by simp)] at h
        cases h
        exact ⟨Or.inl rfl, by simp⟩
    · rw [if_neg h3] at h
      cases h
      exact both rfl
  · rw [if_neg hτ] at h
    by_cases he : s.pc t < c.tiles * 546 + 16
    · rw [if_pos he] at h
      split at h
      · split at h
        · cases h; exact both rfl
        · cases h
      · cases h; exact both rfl
    · rw [if_neg he] at h
      cases h
      exact ⟨Or.inl rfl, fun _ h1 _ => absurd h1 he⟩

theorem block_mono {c : TileKernel α} {xs : List Tid} {s s' : BlockSt α}
    (h : Res.foldL (blockStep c) s xs = .ok s') (u : Tid) : s.pc u ≤ s'.pc u := by
  induction xs generalizing s with
  | nil => cases h; exact Nat.le_refl _
  | cons a as ih =>
    rw [Res.foldL] at h
    obtain ⟨s1, h1, h2⟩ := Res.bind_eq_ok.mp h
    refine Nat.le_trans ?_ (ih h2)
    rcases (blockStep_pc h1).1 with e | e
    · rw [e]
    · rw [e]
      by_cases hu : u = a
      · subst hu; rw [Function.update_self]; omega
      · rw [Function.update_of_ne hu]

/-- After a schedule that contains thread `u`, that thread is past position `R` if all were at `R`. -/
theorem block_round {c : TileKernel α} {xs : List Tid} {s s' : BlockSt α}
    (h : Res.foldL (blockStep c) s xs = .ok s') {R : Nat} (hR : R < c.tiles * 546 + 16)
    (hs : ∀ u, c.has u = true → R ≤ s.pc u) : ∀ u, c.has u = true → u ∈ xs → R + 1 ≤ s'.pc u := by
  induction xs generalizing s with
  | nil => intro u _ hm; cases hm
  | cons t ts ih =>
    rw [Res.foldL] at h
    obtain ⟨s1, h1, h2⟩ := Res.bind_eq_ok.mp h
    have hmono : ∀ u, s.pc u ≤ s1.pc u := block_mono (xs := [t]) (foldL_one h1)
    intro u hu hm
    rcases List.mem_cons.mp hm with rfl | hm
    · refine Nat.le_trans ?_ (block_mono h2 u)
      by_cases he : s.pc u = R
      · have ha : blockArrived c s u (s.pc u) = true := by
          simp only [blockArrived, List.all_eq_true, List.mem_range, decide_eq_true_eq]
          intro y hy x hx
          rw [he]
          apply hs
          obtain ⟨b1, b2, b3, _⟩ := has_iff.mp hu
          exact has_iff.mpr ⟨b1, b2, b3, hy, hx⟩
        rw [(blockStep_pc h1).2 hu (by omega) ha, Function.update_self]
        omega
      · have := hs u hu
        have := hmono u
        omega
    · exact ih h2 (fun u hu => Nat.le_trans (hs u hu) (hmono u)) u hu hm

theorem block_rounds {c : TileKernel α} {rs : List (List Tid)}
    (hrs : ∀ r ∈ rs, ∀ t, c.has t = true → t ∈ r) {s s' : BlockSt α}
    (h : Res.foldL (blockStep c) s rs.flatten = .ok s') {R : Nat} (hs : ∀ u, c.has u = true → R ≤ s.pc u) :
    ∀ u, c.has u = true → min (R + rs.length) (c.tiles * 546 + 16) ≤ s'.pc u := by
  induction rs generalizing s R with
  | nil =>
    cases h
    intro u hu
    have := hs u hu
    simp; omega
  | cons r rs ih =>
    rw [List.flatten_cons, foldL_append] at h
    obtain ⟨s1, h1, h2⟩ := Res.bind_eq_ok.mp h
    intro u hu
    by_cases hR : R < c.tiles * 546 + 16
    · have := ih (fun r hr => hrs r (by simp [hr])) h2 (R := R + 1)
        (fun u hu => block_round h1 hR hs u hu (hrs r (by simp) u hu)) u hu
      simp only [List.length_cons]
      omega
    · have a1 := hs u hu
      have a2 := block_mono h1 u
      have a3 := block_mono h2 u
      omega

/-! ## Specification -/

/-- Every interleaving of the threads of `DOT_OP` runs without an access outside of a buffer; whenever all
threads are done the output is `vals`; and all are done after enough rounds in which every thread takes a
step. -/
def Spec.BlockComputes (c : TileKernel α) (lt0 rt0 : Tid → α) (buf vals : List α) : Prop :=
  (∀ sched, ∃ s, blockExec c lt0 rt0 buf sched = .ok s ∧ (blockFinished c s → s.out = vals)) ∧
  ∃ R, ∀ rs : List (List Tid), R ≤ rs.length → (∀ r ∈ rs, ∀ t, c.has t = true → t ∈ r) →
    ∃ s, blockExec c lt0 rt0 buf rs.flatten = .ok s ∧ blockFinished c s

/-- What the kernel with a thread per cell computes, the one with blocks computes. -/
theorem block_computes {c : TileKernel α} (hT : c.T = 32) (hx : c.launch.bx = 8) (hy : c.launch.bY = 8)
    {lt0 rt0 : Tid → α} {buf vals : List α} (h : Cuda.Spec.TileComputes (wide c) lt0 rt0 buf vals) :
    Spec.BlockComputes c lt0 rt0 buf vals := by
  have hok : ∀ us, ∃ v, (wide c).exec lt0 rt0 buf us = .ok v := fun us =>
    let ⟨v, hv, _⟩ := h.1 us
    ⟨v, hv⟩
  refine ⟨?_, c.tiles * 546 + 16, ?_⟩
  · intro sched
    obtain ⟨s, us, v, h1, h2, h3⟩ := sim_exec hT hx hy hok sched
    refine ⟨s, h1, fun hfin => ?_⟩
    obtain ⟨v', g1, g2⟩ := h.1 us
    rw [h2] at g1
    cases g1
    rw [← h3.out]
    apply g2
    intro u hu
    obtain ⟨t, i, hi, rfl, ht⟩ := wide_owner hx hy hu
    rw [h3.pc t i hi]
    obtain ⟨q, hq⟩ := Nat.exists_eq_add_of_le (hfin t ht)
    rw [hq, Nat.add_assoc, vpos_end, if_pos (by omega)]
    have hw : (wide c).width = 36 := by show c.T + 4 = 36; omega
    rw [hw]
    show c.tiles * 36 < _
    omega
  · intro rs hlen hrs
    obtain ⟨s, us, v, h1, h2, h3⟩ := sim_exec hT hx hy hok rs.flatten
    refine ⟨s, h1, ?_⟩
    intro t ht
    have := block_rounds hrs h1 (R := 0) (fun _ _ => Nat.zero_le _) t ht
    omega

end Hodu.Metal
