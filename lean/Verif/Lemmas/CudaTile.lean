import Verif.Model.CudaTile
import Verif.Lemmas.Cuda

/-! # Tiled kernels: what every execution computes -/

namespace Hodu.Cuda
namespace TileKernel
variable {α : Type} (c : TileKernel α)

/-- Threads of the same block. -/
def Mates (u v : Tid) : Prop := u.bz = v.bz ∧ u.brow = v.brow ∧ u.bcol = v.bcol

/-- Program counter at a barrier. -/
def IsBar (r : Nat) : Prop := r / c.width < c.tiles ∧ (r % c.width = 2 ∨ r % c.width = c.T + 3)

/-- Number of terms summed before position `r`. -/
def count (r : Nat) : Nat :=
  if r / c.width < c.tiles then r / c.width * c.T + min (r % c.width - 3) c.T else c.tiles * c.T

section
variable (lv rv : Nat → Nat → Nat → α) (lt0 rt0 : Tid → α)

/-- What thread `t` stores of the left operand for tile `τ`. -/
def padL (t : Tid) (τ : Nat) : α :=
  if c.row t < c.M ∧ τ * c.T + t.tx < c.K then lv t.bz (c.row t) (τ * c.T + t.tx) else c.zero

/-- What thread `t` stores of the right operand for tile `τ`. -/
def padR (t : Tid) (τ : Nat) : α :=
  if τ * c.T + t.ty < c.K ∧ c.col t < c.N then rv t.bz (τ * c.T + t.ty) (c.col t) else c.zero

/-- What cell `v` of the left tile holds while tile `τ` is summed. -/
def heldL (v : Tid) (τ : Nat) : α := if c.has v then c.padL lv v τ else lt0 v

/-- What cell `v` of the right tile holds while tile `τ` is summed. -/
def heldR (v : Tid) (τ : Nat) : α := if c.has v then c.padR rv v τ else rt0 v

/-- The sum of thread `t` after `n` terms. -/
def partialSum (t : Tid) : Nat → α
  | 0 => c.zero
  | n + 1 => c.macc (partialSum t n) (c.heldL lv lt0 { t with tx := n % c.T } (n / c.T))
      (c.heldR rv rt0 { t with ty := n % c.T } (n / c.T))

/-- The value thread `t` writes. -/
def result (t : Tid) : α := c.partialSum lv rv lt0 rt0 t (c.tiles * c.T)

/-- A thread that writes. -/
def Writes (t : Tid) : Prop := c.has t = true ∧ c.row t < c.M ∧ c.col t < c.N

/-- Invariant of every execution. -/
structure Inv (buf : List α) (s : TileSt α) : Prop where
  bar : ∀ u v, c.has u = true → c.has v = true → Mates u v → ∀ β, c.IsBar β → β < s.pc u → β ≤ s.pc v
  left : ∀ u, c.has u = true → ∀ τ, τ < c.tiles → τ * c.width + 1 ≤ s.pc u →
    s.pc u ≤ (τ + 1) * c.width → s.lt u = c.padL lv u τ
  right : ∀ u, c.has u = true → ∀ τ, τ < c.tiles → τ * c.width + 2 ≤ s.pc u →
    s.pc u ≤ (τ + 1) * c.width + 1 → s.rt u = c.padR rv u τ
  leftOut : ∀ u, c.has u = false → s.lt u = lt0 u
  rightOut : ∀ u, c.has u = false → s.rt u = rt0 u
  sums : ∀ u, s.sum u = c.partialSum lv rv lt0 rt0 u (c.count (s.pc u))
  len : s.out.length = buf.length
  written : ∀ u, c.Writes u → c.tiles * c.width < s.pc u →
    s.out[c.cell u]? = some (c.result lv rv lt0 rt0 u)
  other : ∀ a : Nat, (∀ u, c.Writes u → c.cell u ≠ a) → s.out[a]? = buf[a]?
end

variable {c} {lv rv : Nat → Nat → Nat → α} {lt0 rt0 : Tid → α} {buf : List α}

/-! ## Program counters -/

theorem width_pos : 0 < c.width := by simp [width]

theorem pc_split (r : Nat) : r = r / c.width * c.width + r % c.width := by
  rw [Nat.mul_comm]; exact (Nat.div_add_mod r c.width).symm

theorem succ_div {r : Nat} (h : r % c.width ≠ c.T + 3) :
    (r + 1) / c.width = r / c.width ∧ (r + 1) % c.width = r % c.width + 1 := by
  have hw : r % c.width < c.width := Nat.mod_lt _ width_pos
  have hl : r % c.width + 1 < c.width := by simp only [width] at *; omega
  have h0 := pc_split (c := c) r
  have h1 : r + 1 = (r % c.width + 1) + c.width * (r / c.width) := by
    rw [Nat.mul_comm]; omega
  constructor
  · conv_lhs => rw [h1]
    rw [Nat.add_mul_div_left _ _ width_pos, Nat.div_eq_of_lt hl]; omega
  · conv_lhs => rw [h1]
    rw [Nat.add_mul_mod_self_left, Nat.mod_eq_of_lt hl]

theorem succ_div_last {r : Nat} (h : r % c.width = c.T + 3) :
    (r + 1) / c.width = r / c.width + 1 ∧ (r + 1) % c.width = 0 := by
  have h0 := pc_split (c := c) r
  have h1 : r + 1 = c.width * (r / c.width + 1) := by
    rw [Nat.mul_comm, Nat.add_mul]
    have : c.width = c.T + 4 := rfl
    omega
  constructor
  · conv_lhs => rw [h1]
    rw [Nat.mul_div_cancel_left _ width_pos]
  · conv_lhs => rw [h1]
    rw [Nat.mul_mod_right]

/-- A position is in the tile its bounds say. -/
theorem tile_eq {τ r : Nat} (h1 : τ * c.width ≤ r) (h2 : r < (τ + 1) * c.width) : r / c.width = τ :=
  Nat.div_eq_of_lt_le h1 h2

theorem count_mac {r : Nat} (ht : r / c.width < c.tiles) (h3 : 3 ≤ r % c.width)
    (hl : r % c.width ≠ c.T + 3) :
    c.count r = r / c.width * c.T + (r % c.width - 3) ∧ c.count (r + 1) = c.count r + 1 := by
  have hw : r % c.width < c.width := Nat.mod_lt _ width_pos
  have hb : r % c.width < c.T + 3 := by simp only [width] at *; omega
  obtain ⟨e1, e2⟩ := succ_div hl
  simp only [count, e1, e2, if_pos ht]
  omega

theorem count_other {r : Nat} (h : r / c.width < c.tiles → r % c.width < 3 ∨ r % c.width = c.T + 3) :
    c.count (r + 1) = c.count r := by
  by_cases hl : r % c.width = c.T + 3
  · obtain ⟨e1, e2⟩ := succ_div_last hl
    simp only [count, e1, e2, hl]
    by_cases ht : r / c.width < c.tiles
    · rw [if_pos ht]
      by_cases ht' : r / c.width + 1 < c.tiles
      · rw [if_pos ht', Nat.add_mul]
        have : min (c.T + 3 - 3) c.T = c.T := by omega
        rw [this]; simp
      · rw [if_neg ht', show c.tiles = r / c.width + 1 by omega, Nat.add_mul]
        have : min (c.T + 3 - 3) c.T = c.T := by omega
        rw [this]; simp
    · rw [if_neg ht, if_neg (by omega)]
  · obtain ⟨e1, e2⟩ := succ_div hl
    simp only [count, e1, e2]
    by_cases ht : r / c.width < c.tiles
    · rw [if_pos ht, if_pos ht]
      have := h ht
      omega
    · rw [if_neg ht, if_neg ht]

theorem count_end {r : Nat} (h : c.tiles * c.width ≤ r) : c.count r = c.tiles * c.T := by
  have : ¬ r / c.width < c.tiles := by
    rw [Nat.div_lt_iff_lt_mul width_pos]; omega
  rw [count, if_neg this]

theorem count_zero : c.count 0 = 0 := by
  simp only [count, Nat.zero_div, Nat.zero_mod, Nat.zero_mul]
  split
  · simp
  · have : c.tiles = 0 := by omega
    simp [this]

/-! ## The invariant -/

/-- What the kernel needs of its launch and its reads. -/
structure Fits (c : TileKernel α) (lv rv : Nat → Nat → Nat → α) (buf : List α) : Prop where
  bx : c.launch.bx ≤ c.T
  bY : c.launch.bY ≤ c.T
  lhs : ∀ b i k, b < c.launch.gz → i < c.M → k < c.K → c.lhs b i k = .ok (lv b i k)
  rhs : ∀ b k j, b < c.launch.gz → k < c.K → j < c.N → c.rhs b k j = .ok (rv b k j)
  out : c.launch.gz * (c.M * c.N) ≤ buf.length

theorem has_iff {t : Tid} : c.has t = true ↔ t.bz < c.launch.gz ∧ t.brow < c.launch.gy ∧
    t.bcol < c.launch.gx ∧ t.ty < c.launch.bY ∧ t.tx < c.launch.bx := by
  simp [has]

theorem cell_lt (hf : Fits c lv rv buf) {t : Tid} (h : c.Writes t) : c.cell t < buf.length := by
  obtain ⟨h1, h2, h3⟩ := h
  have hb := (has_iff.mp h1).1
  have h4 : c.row t * c.N + c.col t < c.M * c.N := by
    calc c.row t * c.N + c.col t < c.row t * c.N + c.N := by omega
      _ = (c.row t + 1) * c.N := by rw [Nat.add_mul]; omega
      _ ≤ c.M * c.N := Nat.mul_le_mul_right _ h2
  calc c.cell t < t.bz * (c.M * c.N) + c.M * c.N := by rw [cell]; omega
    _ = (t.bz + 1) * (c.M * c.N) := by rw [Nat.add_mul]; omega
    _ ≤ c.launch.gz * (c.M * c.N) := Nat.mul_le_mul_right _ hb
    _ ≤ buf.length := hf.out

theorem digits {a b x y n : Nat} (h : a * n + x = b * n + y) (hx : x < n) (hy : y < n) : a = b ∧ x = y := by
  have hn : 0 < n := by omega
  have h1 : (x + a * n) / n = (y + b * n) / n := by rw [Nat.add_comm x, Nat.add_comm y, h]
  rw [Nat.add_mul_div_right _ _ hn, Nat.add_mul_div_right _ _ hn, Nat.div_eq_of_lt hx,
    Nat.div_eq_of_lt hy] at h1
  have : a = b := by omega
  subst this
  exact ⟨rfl, by omega⟩

theorem cell_inj (hf : Fits c lv rv buf) {t u : Tid} (h : c.Writes t) (h' : c.Writes u)
    (e : c.cell t = c.cell u) : t = u := by
  obtain ⟨h1, h2, h3⟩ := h
  obtain ⟨g1, g2, g3⟩ := h'
  obtain ⟨_, _, _, h4, h5⟩ := has_iff.mp h1
  obtain ⟨_, _, _, g4, g5⟩ := has_iff.mp g1
  have hlt : ∀ {t : Tid}, c.row t < c.M → c.col t < c.N → c.row t * c.N + c.col t < c.M * c.N := by
    intro t h2 h3
    calc c.row t * c.N + c.col t < c.row t * c.N + c.N := by omega
      _ = (c.row t + 1) * c.N := by rw [Nat.add_mul]; omega
      _ ≤ c.M * c.N := Nat.mul_le_mul_right _ h2
  simp only [cell, Nat.add_assoc] at e
  obtain ⟨e1, e2⟩ := digits e (hlt h2 h3) (hlt g2 g3)
  obtain ⟨e3, e4⟩ := digits e2 h3 g3
  have := hf.bx
  have := hf.bY
  simp only [row] at e3
  simp only [col] at e4
  obtain ⟨e5, e6⟩ := digits e3 (by omega) (by omega)
  obtain ⟨e7, e8⟩ := digits e4 (by omega) (by omega)
  cases t; cases u
  simp_all

theorem inv_init : c.Inv lv rv lt0 rt0 buf (c.init lt0 rt0 buf) where
  bar := by intro u v _ _ _ β _ h; simp [init] at h
  left := by intro u _ τ _ h; simp [init] at h
  right := by intro u _ τ _ h; simp [init] at h
  leftOut := by intro u _; rfl
  rightOut := by intro u _; rfl
  sums := by intro u; simp [init, count_zero, partialSum]
  len := rfl
  written := by intro u _ h; simp [init] at h
  other := by intro a _; rfl

theorem arrived_iff {s : TileSt α} {t : Tid} {r : Nat} : c.arrived s t r = true ↔
    ∀ y x, y < c.launch.bY → x < c.launch.bx → r ≤ s.pc { t with ty := y, tx := x } := by
  simp only [arrived, List.all_eq_true, List.mem_range, decide_eq_true_eq]
  exact ⟨fun h y x hy hx => h y hy x hx, fun h y hy x hx => h y x hy hx⟩

/-- Moving thread `t` one position on keeps the order at barriers, if a barrier is only passed once
everyone arrived. -/
theorem bar_step {s : TileSt α} (hi : c.Inv lv rv lt0 rt0 buf s) {t : Tid}
    (hb : c.IsBar (s.pc t) → c.arrived s t (s.pc t) = true) :
    ∀ u v, c.has u = true → c.has v = true → Mates u v → ∀ β, c.IsBar β →
      β < Function.update s.pc t (s.pc t + 1) u → β ≤ Function.update s.pc t (s.pc t + 1) v := by
  intro u v hu hv hm β hβ hlt
  have hge : s.pc v ≤ Function.update s.pc t (s.pc t + 1) v := by
    by_cases h : v = t
    · subst h; simp
    · simp [Function.update_of_ne h]
  refine Nat.le_trans ?_ hge
  by_cases h : u = t
  · subst h
    simp only [Function.update_self] at hlt
    by_cases he : β = s.pc u
    · subst he
      have := arrived_iff.mp (hb hβ) v.ty v.tx (has_iff.mp hv).2.2.2.1 (has_iff.mp hv).2.2.2.2
      obtain ⟨m1, m2, m3⟩ := hm
      rw [m1, m2, m3] at this
      exact this
    · exact hi.bar u v hu hv hm β hβ (by omega)
  · rw [Function.update_of_ne h] at hlt
    exact hi.bar u v hu hv hm β hβ hlt

theorem left_step {s : TileSt α} (hi : c.Inv lv rv lt0 rt0 buf s) {t : Tid}
    (h0 : s.pc t / c.width < c.tiles → s.pc t % c.width ≠ 0) :
    ∀ u, c.has u = true → ∀ τ, τ < c.tiles →
      τ * c.width + 1 ≤ Function.update s.pc t (s.pc t + 1) u →
      Function.update s.pc t (s.pc t + 1) u ≤ (τ + 1) * c.width → s.lt u = c.padL lv u τ := by
  intro u hu τ hτ h1 h2
  by_cases h : u = t
  · subst h
    simp only [Function.update_self] at h1 h2
    refine hi.left u hu τ hτ ?_ (by omega)
    by_cases he : s.pc u = τ * c.width
    · refine absurd ?_ (h0 ?_)
      · rw [he, Nat.mul_mod_left]
      · rw [he, Nat.mul_div_cancel _ width_pos]; exact hτ
    · omega
  · rw [Function.update_of_ne h] at h1 h2
    exact hi.left u hu τ hτ h1 h2

theorem right_step {s : TileSt α} (hi : c.Inv lv rv lt0 rt0 buf s) {t : Tid}
    (h0 : s.pc t / c.width < c.tiles → s.pc t % c.width ≠ 1) :
    ∀ u, c.has u = true → ∀ τ, τ < c.tiles →
      τ * c.width + 2 ≤ Function.update s.pc t (s.pc t + 1) u →
      Function.update s.pc t (s.pc t + 1) u ≤ (τ + 1) * c.width + 1 → s.rt u = c.padR rv u τ := by
  intro u hu τ hτ h1 h2
  by_cases h : u = t
  · subst h
    simp only [Function.update_self] at h1 h2
    refine hi.right u hu τ hτ ?_ (by omega)
    by_cases he : s.pc u = τ * c.width + 1
    · have hw : 1 < c.width := by simp only [width]; omega
      refine absurd ?_ (h0 ?_)
      · rw [he, Nat.mul_comm, Nat.mul_add_mod, Nat.mod_eq_of_lt hw]
      · rw [he, tile_eq (τ := τ) (by omega) (by rw [Nat.add_mul]; omega)]; exact hτ
    · omega
  · rw [Function.update_of_ne h] at h1 h2
    exact hi.right u hu τ hτ h1 h2

theorem sums_step {s : TileSt α} (hi : c.Inv lv rv lt0 rt0 buf s) {t : Tid}
    (h0 : c.count (s.pc t + 1) = c.count (s.pc t)) :
    ∀ u, s.sum u = c.partialSum lv rv lt0 rt0 u (c.count (Function.update s.pc t (s.pc t + 1) u)) := by
  intro u
  by_cases h : u = t
  · subst h
    rw [Function.update_self, h0]
    exact hi.sums u
  · rw [Function.update_of_ne h]
    exact hi.sums u

theorem written_step {s : TileSt α} (hi : c.Inv lv rv lt0 rt0 buf s) {t : Tid}
    (h0 : c.Writes t → s.pc t ≠ c.tiles * c.width) :
    ∀ u, c.Writes u → c.tiles * c.width < Function.update s.pc t (s.pc t + 1) u →
      s.out[c.cell u]? = some (c.result lv rv lt0 rt0 u) := by
  intro u hu h1
  by_cases h : u = t
  · subst h
    rw [Function.update_self] at h1
    have := h0 hu
    exact hi.written u hu (by omega)
  · rw [Function.update_of_ne h] at h1
    exact hi.written u hu h1

/-- What thread `t` finds in the tiles while it sums. -/
theorem held {s : TileSt α} (hi : c.Inv lv rv lt0 rt0 buf s) {t : Tid} (ht : c.has t = true)
    (hτ : s.pc t / c.width < c.tiles) (h3 : 3 ≤ s.pc t % c.width) (hl : s.pc t % c.width ≠ c.T + 3) (v : Tid)
    (hm : Mates t v) :
    s.lt v = c.heldL lv lt0 v (s.pc t / c.width) ∧ s.rt v = c.heldR rv rt0 v (s.pc t / c.width) := by
  cases hv : c.has v with
  | false => exact ⟨by rw [heldL, hv]; exact hi.leftOut v hv, by rw [heldR, hv]; exact hi.rightOut v hv⟩
  | true =>
    have hw : s.pc t % c.width < c.width := Nat.mod_lt _ width_pos
    have hwd : c.width = c.T + 4 := rfl
    have hsp := pc_split (c := c) (s.pc t)
    generalize hτ' : s.pc t / c.width = τ at *
    generalize hj : s.pc t % c.width = j at *
    have hbar : ∀ b, b < c.width → (b = 2 ∨ b = c.T + 3) → c.IsBar (τ * c.width + b) := by
      intro b hb hb'
      refine ⟨?_, ?_⟩
      · rw [tile_eq (τ := τ) (by omega) (by rw [Nat.add_mul]; omega)]; exact hτ
      · rw [Nat.mul_comm, Nat.mul_add_mod, Nat.mod_eq_of_lt hb]; exact hb'
    have hm' : Mates v t := ⟨hm.1.symm, hm.2.1.symm, hm.2.2.symm⟩
    have g1 := hi.bar t v ht hv hm (τ * c.width + 2) (hbar 2 (by omega) (Or.inl rfl)) (by omega)
    have g2 : s.pc v ≤ τ * c.width + (c.T + 3) := by
      by_contra hc
      have := hi.bar v t hv ht hm' (τ * c.width + (c.T + 3)) (hbar (c.T + 3) (by omega) (Or.inr rfl))
        (by omega)
      omega
    refine ⟨?_, ?_⟩
    · rw [heldL, hv, if_pos rfl]
      exact hi.left v hv τ hτ (by omega) (by rw [Nat.add_mul]; omega)
    · rw [heldR, hv, if_pos rfl]
      exact hi.right v hv τ hτ (by omega) (by rw [Nat.add_mul]; omega)

/-- Every step succeeds and keeps the invariant. -/
theorem inv_step (hf : Fits c lv rv buf) {s : TileSt α} (hi : c.Inv lv rv lt0 rt0 buf s) (t : Tid) :
    ∃ s', c.step s t = .ok s' ∧ c.Inv lv rv lt0 rt0 buf s' := by
  unfold step
  cases ht : c.has t with
  | false => exact ⟨s, by simp, hi⟩
  | true =>
    rw [if_neg (by simp)]
    dsimp only
    obtain ⟨b1, b2, b3, b4, b5⟩ := has_iff.mp ht
    have hb1 := hf.bx
    have hb2 := hf.bY
    have hwd : c.width = c.T + 4 := rfl
    have hend : s.pc t / c.width < c.tiles → s.pc t ≠ c.tiles * c.width := by
      intro h1 h2
      rw [h2, Nat.mul_div_cancel _ width_pos] at h1
      omega
    by_cases hτ : s.pc t / c.width < c.tiles
    · rw [if_pos hτ]
      by_cases hj0 : s.pc t % c.width = 0
      · rw [if_pos hj0, if_pos ⟨by omega, by omega⟩]
        have hv : (if c.row t < c.M ∧ s.pc t / c.width * c.T + t.tx < c.K then
            c.lhs t.bz (c.row t) (s.pc t / c.width * c.T + t.tx) else .ok c.zero) =
            .ok (c.padL lv t (s.pc t / c.width)) := by
          rw [padL]
          split
          · rename_i h; exact hf.lhs _ _ _ b1 h.1 h.2
          · rfl
        rw [hv]
        refine ⟨_, rfl, ?_⟩
        refine ⟨bar_step hi ?_, ?_, right_step hi (by omega), ?_, hi.rightOut, sums_step hi ?_, hi.len,
          written_step hi (fun _ => hend hτ), hi.other⟩
        · intro h; rcases h.2 with h | h <;> omega
        · intro u hu τ hτu h1 h2
          dsimp only at h1 h2 ⊢
          by_cases h : u = t
          · subst h
            simp only [Function.update_self] at h1 h2 ⊢
            have hsp := pc_split (c := c) (s.pc u)
            rw [hj0] at hsp
            have : s.pc u / c.width = τ := by
              apply tile_eq
              · omega
              · omega
            rw [this]
          · rw [Function.update_of_ne h] at h1 h2 ⊢
            exact hi.left u hu τ hτu h1 h2
        · intro u hu
          have : u ≠ t := by rintro rfl; simp [ht] at hu
          dsimp only
          rw [Function.update_of_ne this]
          exact hi.leftOut u hu
        · exact count_other (fun _ => by omega)
      · rw [if_neg hj0]
        by_cases hj1 : s.pc t % c.width = 1
        · rw [if_pos hj1, if_pos ⟨by omega, by omega⟩]
          have hv : (if s.pc t / c.width * c.T + t.ty < c.K ∧ c.col t < c.N then
              c.rhs t.bz (s.pc t / c.width * c.T + t.ty) (c.col t) else .ok c.zero) =
              .ok (c.padR rv t (s.pc t / c.width)) := by
            rw [padR]
            split
            · rename_i h; exact hf.rhs _ _ _ b1 h.1 h.2
            · rfl
          rw [hv]
          refine ⟨_, rfl, ?_⟩
          refine ⟨bar_step hi ?_, left_step hi (by omega), ?_, hi.leftOut, ?_, sums_step hi ?_, hi.len,
            written_step hi (fun _ => hend hτ), hi.other⟩
          · intro h; rcases h.2 with h | h <;> omega
          · intro u hu τ hτu h1 h2
            dsimp only at h1 h2 ⊢
            by_cases h : u = t
            · subst h
              simp only [Function.update_self] at h1 h2 ⊢
              have hsp := pc_split (c := c) (s.pc u)
              rw [hj1] at hsp
              have : s.pc u / c.width = τ := by
                apply tile_eq
                · omega
                · rcases Nat.lt_or_ge (s.pc u) ((τ + 1) * c.width) with h | h
                  · exact h
                  · have he : s.pc u = (τ + 1) * c.width := by omega
                    rw [he, Nat.mul_mod_left] at hj1
                    omega
              rw [this]
            · rw [Function.update_of_ne h] at h1 h2 ⊢
              exact hi.right u hu τ hτu h1 h2
          · intro u hu
            have : u ≠ t := by rintro rfl; simp [ht] at hu
            dsimp only
            rw [Function.update_of_ne this]
            exact hi.rightOut u hu
          · exact count_other (fun _ => by omega)
        · rw [if_neg hj1]
          by_cases hjb : s.pc t % c.width = 2 ∨ s.pc t % c.width = c.T + 3
          · rw [if_pos hjb]
            cases ha : c.arrived s t (s.pc t) with
            | false => exact ⟨s, by simp, hi⟩
            | true =>
              rw [if_pos rfl]
              exact ⟨_, rfl, bar_step hi (fun _ => ha), left_step hi (fun _ => hj0),
                right_step hi (fun _ => hj1), hi.leftOut, hi.rightOut,
                sums_step hi (count_other (fun _ => by omega)), hi.len,
                written_step hi (fun _ => hend hτ), hi.other⟩
          · rw [if_neg hjb]
            have h3 : 3 ≤ s.pc t % c.width := by omega
            have hl : s.pc t % c.width ≠ c.T + 3 := by omega
            refine ⟨_, rfl, ?_⟩
            refine ⟨bar_step hi ?_, left_step hi (fun _ => hj0), right_step hi (fun _ => hj1),
              hi.leftOut, hi.rightOut, ?_, hi.len, written_step hi (fun _ => hend hτ), hi.other⟩
            · intro h; exact absurd h.2 hjb
            · intro u
              dsimp only
              by_cases h : u = t
              · subst h
                simp only [Function.update_self]
                obtain ⟨e1, e2⟩ := count_mac hτ h3 hl
                have hw : s.pc u % c.width < c.width := Nat.mod_lt _ width_pos
                rw [e2, partialSum, ← hi.sums u,
                  (held hi ht hτ h3 hl { u with tx := s.pc u % c.width - 3 } ⟨rfl, rfl, rfl⟩).1,
                  (held hi ht hτ h3 hl { u with ty := s.pc u % c.width - 3 } ⟨rfl, rfl, rfl⟩).2, e1]
                have d1 : (s.pc u / c.width * c.T + (s.pc u % c.width - 3)) % c.T =
                    s.pc u % c.width - 3 := by
                  rw [Nat.mul_comm, Nat.mul_add_mod, Nat.mod_eq_of_lt (by omega)]
                have d2 : (s.pc u / c.width * c.T + (s.pc u % c.width - 3)) / c.T =
                    s.pc u / c.width :=
                  Nat.div_eq_of_lt_le (by omega) (by rw [Nat.add_mul]; omega)
                rw [d1, d2]
              · rw [Function.update_of_ne h, Function.update_of_ne h]
                exact hi.sums u
    · rw [if_neg hτ]
      have hnb : ¬ c.IsBar (s.pc t) := fun h => hτ h.1
      have hge : c.tiles * c.width ≤ s.pc t := by
        have := (Nat.div_lt_iff_lt_mul (width_pos (c := c)) (x := s.pc t) (y := c.tiles)).not.mp hτ
        omega
      by_cases he : s.pc t = c.tiles * c.width
      · rw [if_pos he]
        by_cases hw : c.row t < c.M ∧ c.col t < c.N
        · have hwr : c.Writes t := ⟨ht, hw⟩
          have hcl := cell_lt hf hwr
          rw [if_pos hw, if_pos (by rw [hi.len]; exact hcl)]
          have hsum : s.sum t = c.result lv rv lt0 rt0 t := by
            rw [hi.sums, count_end hge]; rfl
          refine ⟨_, rfl, ?_⟩
          refine ⟨bar_step hi (fun h => absurd h hnb), left_step hi (fun h => absurd h hτ),
            right_step hi (fun h => absurd h hτ), hi.leftOut, hi.rightOut,
            sums_step hi (count_other (fun h => absurd h hτ)), ?_, ?_, ?_⟩
          · simp [hi.len]
          · intro u hu h1
            dsimp only at h1 ⊢
            by_cases h : u = t
            · subst h
              rw [List.getElem?_set_self (by rw [hi.len]; exact hcl), hsum]
            · rw [Function.update_of_ne h] at h1
              rw [List.getElem?_set_ne (fun e => h (cell_inj hf hu hwr e.symm))]
              exact hi.written u hu h1
          · intro a ha
            dsimp only
            rw [List.getElem?_set_ne (ha t hwr)]
            exact hi.other a ha
        · rw [if_neg hw]
          exact ⟨_, rfl, bar_step hi (fun h => absurd h hnb), left_step hi (fun h => absurd h hτ),
            right_step hi (fun h => absurd h hτ), hi.leftOut, hi.rightOut,
            sums_step hi (count_other (fun h => absurd h hτ)), hi.len,
            written_step hi (fun h => absurd h.2 hw), hi.other⟩
      · rw [if_neg he]
        exact ⟨s, rfl, hi⟩

theorem exec_append (xs ys : List Tid) : c.exec lt0 rt0 buf (xs ++ ys) =
    (c.exec lt0 rt0 buf xs).bind fun s => Res.foldL c.step s ys := by
  unfold exec
  generalize c.init lt0 rt0 buf = s0
  induction xs generalizing s0 with
  | nil => rfl
  | cons a as ih =>
    simp only [List.cons_append, Res.foldL]
    cases c.step s0 a <;> simp [ih]

theorem exec_snoc (sched : List Tid) (t : Tid) : c.exec lt0 rt0 buf (sched ++ [t]) =
    (c.exec lt0 rt0 buf sched).bind fun s => c.step s t := by
  rw [exec_append]
  cases c.exec lt0 rt0 buf sched with
  | ok s => simp only [Res.ok_bind, Res.foldL]; cases c.step s t <;> rfl
  | err => rfl
  | panic => rfl
  | ub => rfl

theorem exec_inv (hf : Fits c lv rv buf) (sched : List Tid) :
    ∃ s, c.exec lt0 rt0 buf sched = .ok s ∧ c.Inv lv rv lt0 rt0 buf s := by
  induction sched using List.reverseRecOn with
  | nil => exact ⟨_, rfl, inv_init⟩
  | append_singleton sched t ih =>
    obtain ⟨s, hs, hi⟩ := ih
    rw [exec_snoc, hs]
    exact inv_step hf hi t

/-! ## Progress -/

/-- A step moves at most its own thread, by one position, and does so unless a barrier holds it. -/
theorem step_pc {s s' : TileSt α} {t : Tid} (h : c.step s t = .ok s') :
    (s'.pc = s.pc ∨ s'.pc = Function.update s.pc t (s.pc t + 1)) ∧
    (c.has t = true → s.pc t ≤ c.tiles * c.width → c.arrived s t (s.pc t) = true →
      s'.pc = Function.update s.pc t (s.pc t + 1)) := by
  unfold step at h
  cases ht : c.has t with
  | false =>
    rw [if_pos ht] at h
    cases h
    exact ⟨Or.inl rfl, by simp⟩
  | true =>
    rw [if_neg (by simp [ht])] at h
    dsimp only at h
    have stay : ∀ {x : Res α} {g : α → TileSt α}, (∀ v, (g v).pc = Function.update s.pc t (s.pc t + 1)) →
        (x.bind fun v => .ok (g v)) = .ok s' → s'.pc = Function.update s.pc t (s.pc t + 1) := by
      intro x g hg hx
      cases x with
      | ok v => cases hx; exact hg v
      | err => cases hx
      | panic => cases hx
      | ub => cases hx
    have both : s'.pc = Function.update s.pc t (s.pc t + 1) →
        (s'.pc = s.pc ∨ s'.pc = Function.update s.pc t (s.pc t + 1)) ∧
        (true = true → s.pc t ≤ c.tiles * c.width → c.arrived s t (s.pc t) = true →
          s'.pc = Function.update s.pc t (s.pc t + 1)) := fun e => ⟨Or.inr e, fun _ _ _ => e⟩
    by_cases hτ : s.pc t / c.width < c.tiles
    · rw [if_pos hτ] at h
      by_cases hj0 : s.pc t % c.width = 0
      · rw [if_pos hj0] at h
        split at h
        · exact both (stay (fun _ => rfl) h)
        · cases h
      · rw [if_neg hj0] at h
        by_cases hj1 : s.pc t % c.width = 1
        · rw [if_pos hj1] at h
          split at h
          · exact both (stay (fun _ => rfl) h)
          · cases h
        · rw [if_neg hj1] at h
          by_cases hjb : s.pc t % c.width = 2 ∨ s.pc t % c.width = c.T + 3
          · rw [if_pos hjb] at h
            cases ha : c.arrived s t (s.pc t) with
            | true =>
              rw [ha, if_pos rfl] at h
              cases h
              exact ⟨Or.inr rfl, fun _ _ _ => rfl⟩
            | false =>
              rw [ha, if_neg (by simp)] at h
              cases h
              exact ⟨Or.inl rfl, by simp⟩
          · rw [if_neg hjb] at h
            cases h
            exact both rfl
    · rw [if_neg hτ] at h
      have hge : c.tiles * c.width ≤ s.pc t := by
        have := (Nat.div_lt_iff_lt_mul (width_pos (c := c)) (x := s.pc t) (y := c.tiles)).not.mp hτ
        omega
      by_cases he : s.pc t = c.tiles * c.width
      · rw [if_pos he] at h
        split at h
        · split at h
          · cases h; exact both rfl
          · cases h
        · cases h; exact both rfl
      · rw [if_neg he] at h
        cases h
        exact ⟨Or.inl rfl, fun _ h1 _ => by omega⟩

theorem step_mono {s s' : TileSt α} {t : Tid} (h : c.step s t = .ok s') (u : Tid) : s.pc u ≤ s'.pc u := by
  rcases (step_pc h).1 with e | e
  · rw [e]
  · rw [e]
    by_cases hu : u = t
    · subst hu; simp
    · rw [Function.update_of_ne hu]

/-- After a schedule that contains thread `u`, that thread is past position `R` if all were at `R`. -/
theorem round {xs : List Tid} {s s' : TileSt α} (h : Res.foldL c.step s xs = .ok s') {R : Nat}
    (hR : R ≤ c.tiles * c.width) (hs : ∀ u, c.has u = true → R ≤ s.pc u) :
    (∀ u, s.pc u ≤ s'.pc u) ∧ ∀ u, c.has u = true → u ∈ xs → R + 1 ≤ s'.pc u := by
  induction xs generalizing s with
  | nil =>
    cases h
    exact ⟨fun _ => Nat.le_refl _, by simp⟩
  | cons t ts ih =>
    rw [Res.foldL] at h
    cases h1 : c.step s t with
    | ok s1 =>
      rw [h1, Res.ok_bind] at h
      obtain ⟨g1, g2⟩ := ih h (fun u hu => Nat.le_trans (hs u hu) (step_mono h1 u))
      refine ⟨fun u => Nat.le_trans (step_mono h1 u) (g1 u), ?_⟩
      intro u hu hm
      rcases List.mem_cons.mp hm with rfl | hm
      · refine Nat.le_trans ?_ (g1 u)
        by_cases he : s.pc u = R
        · have ha : c.arrived s u (s.pc u) = true := by
            rw [arrived_iff, he]
            intro y x hy hx
            apply hs
            obtain ⟨b1, b2, b3, _⟩ := has_iff.mp hu
            exact has_iff.mpr ⟨b1, b2, b3, hy, hx⟩
          rw [(step_pc h1).2 hu (by omega) ha, Function.update_self]
          omega
        · have := hs u hu
          have := step_mono h1 u
          omega
      · exact g2 u hu hm
    | err => rw [h1] at h; cases h
    | panic => rw [h1] at h; cases h
    | ub => rw [h1] at h; cases h

/-- `R` rounds, each with a step of every thread, bring every thread `R` positions on. -/
theorem rounds {rs : List (List Tid)} (hrs : ∀ r ∈ rs, ∀ t, c.has t = true → t ∈ r) {s s' : TileSt α}
    (h : Res.foldL c.step s rs.flatten = .ok s') {R : Nat} (hs : ∀ u, c.has u = true → R ≤ s.pc u) :
    ∀ u, c.has u = true → min (R + rs.length) (c.tiles * c.width + 1) ≤ s'.pc u := by
  induction rs generalizing s R with
  | nil =>
    cases h
    intro u hu
    have := hs u hu
    simp; omega
  | cons r rs ih =>
    rw [List.flatten_cons] at h
    have hsplit : Res.foldL c.step s (r ++ rs.flatten) =
        (Res.foldL c.step s r).bind fun s1 => Res.foldL c.step s1 rs.flatten := by
      clear h hs hrs
      induction r generalizing s with
      | nil => rfl
      | cons a as iha =>
        simp only [List.cons_append, Res.foldL]
        cases c.step s a <;> simp [iha]
    rw [hsplit] at h
    cases h1 : Res.foldL c.step s r with
    | ok s1 =>
      rw [h1, Res.ok_bind] at h
      by_cases hR : R ≤ c.tiles * c.width
      · obtain ⟨_, g⟩ := round h1 hR hs
        have := ih (fun r hr => hrs r (by simp [hr])) h (R := R + 1)
          (fun u hu => g u hu (hrs r (by simp) u hu))
        intro u hu
        have := this u hu
        simp only [List.length_cons]
        omega
      · have mono : ∀ {xs : List Tid} {s s' : TileSt α}, Res.foldL c.step s xs = .ok s' →
            ∀ u, s.pc u ≤ s'.pc u := by
          intro xs
          induction xs with
          | nil => intro s s' h u; cases h; exact Nat.le_refl _
          | cons a as iha =>
            intro s s' h u
            rw [Res.foldL] at h
            cases h2 : c.step s a with
            | ok s2 => rw [h2, Res.ok_bind] at h; exact Nat.le_trans (step_mono h2 u) (iha h u)
            | err => rw [h2] at h; cases h
            | panic => rw [h2] at h; cases h
            | ub => rw [h2] at h; cases h
        intro u hu
        have := hs u hu
        have := mono h1 u
        have := mono h u
        omega
    | err => rw [h1] at h; cases h
    | panic => rw [h1] at h; cases h
    | ub => rw [h1] at h; cases h

theorem rounds_finish {rs : List (List Tid)} (hrs : ∀ r ∈ rs, ∀ t, c.has t = true → t ∈ r)
    (hl : c.tiles * c.width + 1 ≤ rs.length) {s : TileSt α}
    (h : c.exec lt0 rt0 buf rs.flatten = .ok s) : c.finished s := by
  intro t ht
  have := rounds hrs h (R := 0) (fun _ _ => Nat.zero_le _) t ht
  omega

end TileKernel

/-! ## Specification -/

/-- Every interleaving runs without an access outside of a buffer; whenever all threads are done the
output is `vals`; and all are done after enough rounds in which every thread takes a step. -/
def Spec.TileComputes (c : TileKernel α) (lt0 rt0 : Tid → α) (buf vals : List α) : Prop :=
  (∀ sched, ∃ s, c.exec lt0 rt0 buf sched = .ok s ∧ (c.finished s → s.out = vals)) ∧
  ∃ R, ∀ rs : List (List Tid), R ≤ rs.length → (∀ r ∈ rs, ∀ t, c.has t = true → t ∈ r) →
    ∃ s, c.exec lt0 rt0 buf rs.flatten = .ok s ∧ c.finished s

namespace TileKernel
variable {α : Type} {c : TileKernel α} {lv rv : Nat → Nat → Nat → α} {lt0 rt0 : Tid → α} {buf : List α}

/-- All writers write their result, the rest of the buffer stays. -/
theorem tile_computes (hf : Fits c lv rv buf) {vals : List α}
    (hw : ∀ u, c.Writes u → vals[c.cell u]? = some (c.result lv rv lt0 rt0 u))
    (ho : ∀ a : Nat, (∀ u, c.Writes u → c.cell u ≠ a) → vals[a]? = buf[a]?) :
    Spec.TileComputes c lt0 rt0 buf vals := by
  refine ⟨?_, c.tiles * c.width + 1, ?_⟩
  · intro sched
    obtain ⟨s, hs, hi⟩ := exec_inv (lt0 := lt0) (rt0 := rt0) hf sched
    refine ⟨s, hs, fun hfin => ?_⟩
    apply List.ext_getElem?
    intro a
    by_cases h : ∃ u, c.Writes u ∧ c.cell u = a
    · obtain ⟨u, hu, rfl⟩ := h
      rw [hi.written u hu (hfin u hu.1), hw u hu]
    · have h' : ∀ u, c.Writes u → c.cell u ≠ a := fun u hu e => h ⟨u, hu, e⟩
      rw [hi.other a h', ho a h']
  · intro rs hlen hrs
    obtain ⟨s, hs, _⟩ := exec_inv (lt0 := lt0) (rt0 := rt0) hf rs.flatten
    exact ⟨s, hs, rounds_finish hrs hlen hs⟩

/-- Terms `zero * zero` after the first change nothing: for some property of running sums. -/
def PadOk (zero : α) (macc : α → α → α → α) : Prop :=
  ∃ P : α → Prop, P zero ∧ (∀ s a b, P s → P (macc s a b)) ∧ ∀ s, P s → macc s zero zero = s

/-- The value of a thread if the tiles hold the operands, filled up with zeros. -/
theorem result_of_terms (hT : 0 < c.T) (hpad : PadOk c.zero c.macc) {t : Tid} {f g : Nat → α}
    (hterm : ∀ n, c.heldL lv lt0 { t with tx := n % c.T } (n / c.T) = (if n < c.K then f n else c.zero) ∧
      c.heldR rv rt0 { t with ty := n % c.T } (n / c.T) = (if n < c.K then g n else c.zero)) :
    c.result lv rv lt0 rt0 t = (List.range c.K).foldl (fun s k => c.macc s (f k) (g k)) c.zero := by
  obtain ⟨P, hP0, hP1, hP2⟩ := hpad
  have hP : ∀ n, P (c.partialSum lv rv lt0 rt0 t n) := by
    intro n
    induction n with
    | zero => exact hP0
    | succ n ih => exact hP1 _ _ _ ih
  have hup : ∀ n, n ≤ c.K → c.partialSum lv rv lt0 rt0 t n =
      (List.range n).foldl (fun s k => c.macc s (f k) (g k)) c.zero := by
    intro n
    induction n with
    | zero => intro _; rfl
    | succ n ih =>
      intro hn
      rw [partialSum, ih (by omega), (hterm n).1, (hterm n).2, if_pos (by omega), if_pos (by omega),
        List.range_succ, List.foldl_append]
      rfl
  have hstop : ∀ n, c.K ≤ n → c.partialSum lv rv lt0 rt0 t n = c.partialSum lv rv lt0 rt0 t c.K := by
    intro n hn
    induction n with
    | zero => have : c.K = 0 := by omega
              rw [this]
    | succ n ih =>
      by_cases he : c.K = n + 1
      · rw [he]
      · rw [partialSum, (hterm n).1, (hterm n).2, if_neg (by omega), if_neg (by omega), hP2 _ (hP n),
          ih (by omega)]
  have hge : c.K ≤ c.tiles * c.T := by
    rw [tiles]
    have h0 := Nat.div_add_mod (c.K + c.T - 1) c.T
    have h1 := Nat.mod_lt (c.K + c.T - 1) hT
    rw [Nat.mul_comm] at h0
    omega
  rw [result, hstop _ hge, hup _ (Nat.le_refl _)]

/-- The value of a thread if the blocks are as large as the tiles: the sum over the inner size. -/
theorem result_full (hx : c.launch.bx = c.T) (hy : c.launch.bY = c.T) (hpad : PadOk c.zero c.macc)
    {t : Tid} (ht : c.Writes t) :
    c.result lv rv lt0 rt0 t =
      (List.range c.K).foldl (fun s k => c.macc s (lv t.bz (c.row t) k) (rv t.bz k (c.col t))) c.zero := by
  obtain ⟨h1, h2, h3⟩ := ht
  obtain ⟨b1, b2, b3, b4, b5⟩ := has_iff.mp h1
  have hT : 0 < c.T := by omega
  refine result_of_terms hT hpad ?_
  intro n
  have hm := Nat.mod_lt n hT
  have hdm : n / c.T * c.T + n % c.T = n := by rw [Nat.mul_comm]; exact Nat.div_add_mod n c.T
  have v1 : c.has { t with tx := n % c.T } = true :=
    has_iff.mpr ⟨b1, b2, b3, b4, by show n % c.T < _; omega⟩
  have v2 : c.has { t with ty := n % c.T } = true :=
    has_iff.mpr ⟨b1, b2, b3, by show n % c.T < _; omega, b5⟩
  have r1 : c.row { t with tx := n % c.T } = c.row t := rfl
  have r2 : c.col { t with ty := n % c.T } = c.col t := rfl
  constructor
  · rw [heldL, if_pos v1, padL, r1]
    dsimp only
    rw [hdm]
    simp [h2]
  · rw [heldR, if_pos v2, padR, r2]
    dsimp only
    rw [hdm]
    simp [h3]

/-- The thread of a cell. -/
theorem writer_exists {b i j : Nat} (hT : 0 < c.T) (hx : c.launch.bx = c.T) (hy : c.launch.bY = c.T)
    (hb : b < c.launch.gz) (hi : i < c.M) (hj : j < c.N) (hgy : c.M ≤ c.launch.gy * c.T)
    (hgx : c.N ≤ c.launch.gx * c.T) :
    ∃ u, c.Writes u ∧ u.bz = b ∧ c.row u = i ∧ c.col u = j := by
  have e1 : i / c.T * c.T + i % c.T = i := by rw [Nat.mul_comm]; exact Nat.div_add_mod i c.T
  have e2 : j / c.T * c.T + j % c.T = j := by rw [Nat.mul_comm]; exact Nat.div_add_mod j c.T
  have r1 : c.row ⟨b, i / c.T, j / c.T, i % c.T, j % c.T⟩ = i := e1
  have r2 : c.col ⟨b, i / c.T, j / c.T, i % c.T, j % c.T⟩ = j := e2
  refine ⟨⟨b, i / c.T, j / c.T, i % c.T, j % c.T⟩, ⟨has_iff.mpr ⟨hb, ?_, ?_, ?_, ?_⟩, ?_, ?_⟩, rfl, r1, r2⟩
  · show i / c.T < _
    rw [Nat.div_lt_iff_lt_mul hT]; omega
  · show j / c.T < _
    rw [Nat.div_lt_iff_lt_mul hT]; omega
  · show i % c.T < _
    rw [hy]; exact Nat.mod_lt _ hT
  · show j % c.T < _
    rw [hx]; exact Nat.mod_lt _ hT
  · rw [r1]; exact hi
  · rw [r2]; exact hj

end TileKernel
end Hodu.Cuda
