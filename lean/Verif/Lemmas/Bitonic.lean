import Mathlib.Order.Basic
import Mathlib.Data.Nat.Bitwise
import Mathlib.Logic.Function.Iterate
import Verif.Model.CudaUnique

/-!
# The bitonic sorting network

Correctness for every power of two, by the values above a threshold: a comparison network acts on them as on
bits, and for bits a half-cleaner splits an interval of ones (or of zeros) into two.
-/

namespace Hodu.Cuda.Bitonic

/-! ## Bits -/

/-- Ones in an interval, or outside of it. -/
def Bit01 (f : Nat → Bool) (w : Nat) : Prop := ∃ p q b, ∀ x, x < w → f x = (decide (p ≤ x ∧ x < q) ^^ b)

theorem Bit01.not {f : Nat → Bool} {w : Nat} (h : Bit01 f w) : Bit01 (fun x => !f x) w := by
  obtain ⟨p, q, b, h⟩ := h
  refine ⟨p, q, !b, fun x hx => ?_⟩
  simp only [h x hx]
  cases decide (p ≤ x ∧ x < q) <;> cases b <;> rfl

theorem Bit01.congr {f g : Nat → Bool} {w : Nat} (h : Bit01 f w) (e : ∀ x, x < w → g x = f x) : Bit01 g w := by
  obtain ⟨p, q, b, h⟩ := h
  exact ⟨p, q, b, fun x hx => by rw [e x hx, h x hx]⟩

/-- A half-cleaner on an interval of ones. -/
theorem half_ones {f : Nat → Bool} {m p q : Nat} (h : ∀ x, x < 2 * m → f x = decide (p ≤ x ∧ x < q)) :
    Bit01 (fun x => f x && f (x + m)) m ∧ Bit01 (fun x => f x || f (x + m)) m ∧
      ∀ x y, x < m → y < m → (f x && f (x + m)) = true → (f y || f (y + m)) = true := by
  have e1 : ∀ x, x < m → f x = decide (p ≤ x ∧ x < q) := fun x hx => h x (by omega)
  have e2 : ∀ x, x < m → f (x + m) = decide (p ≤ x + m ∧ x + m < q) := fun x hx => h (x + m) (by omega)
  refine ⟨?_, ?_, ?_⟩
  · refine ⟨p, q - m, false, fun x hx => ?_⟩
    dsimp only
    rw [e1 x hx, e2 x hx, Bool.xor_false, ← Bool.decide_and]
    exact decide_eq_decide.mpr (by omega)
  · by_cases hq : q ≤ m
    · refine ⟨p, q, false, fun x hx => ?_⟩
      dsimp only
      rw [e1 x hx, e2 x hx, Bool.xor_false, ← Bool.decide_or]
      exact decide_eq_decide.mpr (by omega)
    · by_cases hp : m ≤ p
      · refine ⟨p - m, q - m, false, fun x hx => ?_⟩
        dsimp only
        rw [e1 x hx, e2 x hx, Bool.xor_false, ← Bool.decide_or]
        exact decide_eq_decide.mpr (by omega)
      · refine ⟨q - m, p, true, fun x hx => ?_⟩
        dsimp only
        rw [e1 x hx, e2 x hx, Bool.xor_true, ← Bool.decide_or, ← decide_not]
        exact decide_eq_decide.mpr (by omega)
  · intro x y hx hy
    rw [e1 x hx, e2 x hx, e1 y hy, e2 y hy, ← Bool.decide_and, ← Bool.decide_or, decide_eq_true_iff,
      decide_eq_true_iff]
    omega

/-- A half-cleaner: both halves stay of that form and the ones are in the upper half, or the zeros in the
lower. -/
theorem half {f : Nat → Bool} {m : Nat} (h : Bit01 f (2 * m)) :
    Bit01 (fun x => f x && f (x + m)) m ∧ Bit01 (fun x => f x || f (x + m)) m ∧
      ∀ x y, x < m → y < m → (f x && f (x + m)) = true → (f y || f (y + m)) = true := by
  obtain ⟨p, q, b, h⟩ := h
  cases b with
  | false => exact half_ones (p := p) (q := q) fun x hx => by rw [h x hx, Bool.xor_false]
  | true =>
    obtain ⟨h1, h2, h3⟩ := half_ones (f := fun x => !f x) (m := m) (p := p) (q := q) fun x hx => by
      rw [h x hx, Bool.xor_true, Bool.not_not]
    refine ⟨h2.not.congr fun x _ => ?_, h1.not.congr fun x _ => ?_, fun x y hx hy => ?_⟩
    · cases f x <;> cases f (x + m) <;> rfl
    · cases f x <;> cases f (x + m) <;> rfl
    · have := h3 y x hy hx
      revert this
      cases f x <;> cases f (x + m) <;> cases f y <;> cases f (y + m) <;> simp

/-- Ascending bits are ones from some place on. -/
theorem threshold {f : Nat → Bool} {k : Nat} (h : ∀ x y, x < y → y < k → f x = true → f y = true) :
    ∃ p, p ≤ k ∧ ∀ x, x < k → f x = decide (p ≤ x) := by
  induction k with
  | zero => exact ⟨0, le_refl _, fun x hx => by omega⟩
  | succ k ih =>
    obtain ⟨p, hp, hx⟩ := ih fun x y h1 h2 => h x y h1 (by omega)
    by_cases hk : f k = true
    · refine ⟨p, by omega, fun x h' => ?_⟩
      rcases Nat.lt_or_ge x k with h1 | h1
      · exact hx x h1
      · have : x = k := by omega
        subst this
        rw [hk]
        exact (decide_eq_true hp).symm
    · have hall : ∀ x, x < k → f x = false := by
        intro x h1
        by_contra hc
        exact hk (h x k h1 (by omega) (by simpa using hc))
      refine ⟨k + 1, le_refl _, fun x h' => ?_⟩
      rw [decide_eq_false (by omega)]
      rcases Nat.lt_or_ge x k with h1 | h1
      · exact hall x h1
      · have : x = k := by omega
        subst this
        simpa using hk

/-- Up, then down. -/
theorem up_down {f : Nat → Bool} {k : Nat} (h1 : ∀ x y, x < y → y < k → f x = true → f y = true)
    (h2 : ∀ x y, x < y → y < k → f (k + x) = false → f (k + y) = false) : Bit01 f (2 * k) := by
  obtain ⟨p, hp, e1⟩ := threshold h1
  obtain ⟨q, hq, e2⟩ := threshold (f := fun x => !f (k + x)) (k := k) fun x y hx hy h => by
    simp only [Bool.not_eq_true'] at h ⊢
    exact h2 x y hx hy h
  refine ⟨p, k + q, false, fun x hx => ?_⟩
  rw [Bool.xor_false]
  rcases Nat.lt_or_ge x k with h | h
  · rw [e1 x h]
    exact decide_eq_decide.mpr (by omega)
  · have := e2 (x - k) (by omega)
    rw [show k + (x - k) = x by omega] at this
    have h3 : f x = !decide (q ≤ x - k) := by rw [← this, Bool.not_not]
    rw [h3, ← decide_not]
    exact decide_eq_decide.mpr (by omega)

/-! ## Merging -/

/-- A half-cleaner on all blocks of size `2 * j`, ascending. -/
def clean (j : Nat) (F : Nat → Bool) (x : Nat) : Bool :=
  if x % (2 * j) < j then F x && F (x + j) else F (x - j) || F x

/-- Within the blocks of size `k`: the blocks of size `w` are bitonic and in order. -/
structure Merging (k w : Nat) (F : Nat → Bool) : Prop where
  blocks : ∀ B, Bit01 (fun x => F (w * B + x)) w
  order : ∀ x y, x / k = y / k → x / w < y / w → F x = true → F y = true

theorem merging_step {k j : Nat} (hj : 0 < j) (hk : 2 * j ∣ k) {F : Nat → Bool} (h : Merging k (2 * j) F) :
    Merging k j (clean j F) := by
  have hlo : ∀ B x, x < j → clean j F (2 * j * B + x) = (F (2 * j * B + x) && F (2 * j * B + (x + j))) := by
    intro B x hx
    unfold clean
    rw [if_pos (by rw [Nat.mul_add_mod, Nat.mod_eq_of_lt (by omega)]; exact hx), Nat.add_assoc]
  have hhi : ∀ B x, x < j → clean j F (2 * j * B + (x + j)) = (F (2 * j * B + x) || F (2 * j * B + (x + j))) := by
    intro B x hx
    unfold clean
    rw [if_neg (by rw [Nat.mul_add_mod, Nat.mod_eq_of_lt (by omega)]; omega),
      show 2 * j * B + (x + j) - j = 2 * j * B + x by omega]
  -- every position is in the lower or in the upper half of its block
  have hpos : ∀ x, ∃ B r, r < j ∧ (x = 2 * j * B + r ∨ x = 2 * j * B + (r + j)) := by
    intro x
    have e := Nat.div_add_mod x (2 * j)
    have hm := Nat.mod_lt x (show 0 < 2 * j by omega)
    rcases Nat.lt_or_ge (x % (2 * j)) j with hl | hl
    · exact ⟨x / (2 * j), x % (2 * j), hl, Or.inl e.symm⟩
    · exact ⟨x / (2 * j), x % (2 * j) - j, by omega, Or.inr (by omega)⟩
  have hdiv : ∀ B r, r < 2 * j → (2 * j * B + r) / (2 * j) = B := by
    intro B r hr
    rw [Nat.mul_add_div (by omega), Nat.div_eq_of_lt hr, Nat.add_zero]
  constructor
  · intro B
    have hb := half (h.blocks (B / 2))
    rcases Nat.mod_two_eq_zero_or_one B with hB | hB
    · refine hb.1.congr fun x hx => ?_
      have : j * B = 2 * j * (B / 2) := by
        have := Nat.div_add_mod B 2
        rw [hB, Nat.add_zero] at this
        conv_lhs => rw [← this]
        rw [← Nat.mul_assoc, Nat.mul_comm j 2]
      rw [this]
      exact hlo _ _ hx
    · refine hb.2.1.congr fun x hx => ?_
      have : j * B = 2 * j * (B / 2) + j := by
        have := Nat.div_add_mod B 2
        rw [hB] at this
        conv_lhs => rw [← this]
        rw [Nat.mul_add, ← Nat.mul_assoc, Nat.mul_comm j 2, Nat.mul_one]
      rw [this, Nat.add_assoc, Nat.add_comm j x]
      exact hhi _ _ hx
  · intro x y hxy hlt
    obtain ⟨B, r, hr, hx⟩ := hpos x
    obtain ⟨C, t, ht, hy⟩ := hpos y
    have hBx : x / (2 * j) = B := by rcases hx with rfl | rfl <;> exact hdiv _ _ (by omega)
    have hCy : y / (2 * j) = C := by rcases hy with rfl | rfl <;> exact hdiv _ _ (by omega)
    have hle : B ≤ C := by
      rw [← hBx, ← hCy, Nat.mul_comm 2 j, ← Nat.div_div_eq_div_mul, ← Nat.div_div_eq_div_mul]
      exact Nat.div_le_div_right (by omega)
    rcases Nat.lt_or_eq_of_le hle with hBC | hBC
    · -- different blocks
      obtain ⟨c, hc⟩ := hk
      have hkx : ∀ D s, s < 2 * j → (2 * j * D + s) / k = D / c := by
        intro D s hs
        rw [hc, ← Nat.div_div_eq_div_mul, hdiv D s hs]
      have hxk : x / k = B / c := by rcases hx with rfl | rfl <;> exact hkx _ _ (by omega)
      have hyk : y / k = C / c := by rcases hy with rfl | rfl <;> exact hkx _ _ (by omega)
      have key : ∀ s u, s < 2 * j → u < 2 * j → F (2 * j * B + s) = true → F (2 * j * C + u) = true := by
        intro s u hs hu
        refine h.order _ _ ?_ ?_
        · rw [hkx _ _ hs, hkx _ _ hu, ← hxk, ← hyk, hxy]
        · rw [hdiv _ _ hs, hdiv _ _ hu]; exact hBC
      have k1 := key r t (by omega) (by omega)
      have k2 := key r (t + j) (by omega) (by omega)
      have k3 := key (r + j) t (by omega) (by omega)
      have k4 := key (r + j) (t + j) (by omega) (by omega)
      revert k1 k2 k3 k4
      rcases hx with rfl | rfl <;> rcases hy with rfl | rfl <;>
        simp only [hlo _ _ hr, hhi _ _ hr, hlo _ _ ht, hhi _ _ ht] <;>
        cases F (2 * j * B + r) <;> cases F (2 * j * B + (r + j)) <;> cases F (2 * j * C + t) <;>
        cases F (2 * j * C + (t + j)) <;> simp
    · subst hBC
      have hb := (half (h.blocks B)).2.2
      have hd1 : ∀ r, r < j → (2 * j * B + r) / j = 2 * B := by
        intro r hr
        rw [show 2 * j * B + r = j * (2 * B) + r by rw [Nat.mul_comm 2 j, Nat.mul_assoc],
          Nat.mul_add_div hj, Nat.div_eq_of_lt hr, Nat.add_zero]
      have hd2 : ∀ r, r < j → (2 * j * B + (r + j)) / j = 2 * B + 1 := by
        intro r hr
        rw [show 2 * j * B + (r + j) = j * (2 * B + 1) + r by
          rw [Nat.mul_add, Nat.mul_one, Nat.mul_comm 2 j, Nat.mul_assoc]; omega,
          Nat.mul_add_div hj, Nat.div_eq_of_lt hr, Nat.add_zero]
      rcases hx with rfl | rfl <;> rcases hy with rfl | rfl
      · rw [hd1 _ hr, hd1 _ ht] at hlt; omega
      · intro hF
        rw [hlo _ _ hr] at hF
        rw [hhi _ _ ht]
        exact hb r t hr ht hF
      · rw [hd2 _ hr, hd1 _ ht] at hlt; omega
      · rw [hd2 _ hr, hd2 _ ht] at hlt; omega

/-! ## Partners and directions -/

theorem xor_two_pow (r x : Nat) :
    x ^^^ 2 ^ r = if x % (2 * 2 ^ r) < 2 ^ r then x + 2 ^ r else x - 2 ^ r := by
  have hp : 0 < 2 ^ r := Nat.two_pow_pos r
  have e := Nat.div_add_mod x (2 ^ r)
  have hm := Nat.mod_lt x hp
  have hx : x ^^^ 2 ^ r = 2 ^ r * (x / 2 ^ r ^^^ 1) + x % 2 ^ r := by
    apply Nat.eq_of_testBit_eq
    intro i
    rw [Nat.testBit_xor, Nat.testBit_two_pow_mul_add _ hm, Nat.testBit_two_pow]
    by_cases hi : i < r
    · rw [if_pos hi, Nat.testBit_mod_two_pow, decide_eq_true hi, decide_eq_false (by omega)]
      simp
    · rw [if_neg hi, Nat.testBit_xor, Nat.testBit_div_two_pow, Nat.sub_add_cancel (by omega),
        show (1 : Nat) = 2 ^ 0 from rfl, Nat.testBit_two_pow]
      congr 1
      exact decide_eq_decide.mpr (by omega)
  have h2 : x % (2 * 2 ^ r) = 2 ^ r * (x / 2 ^ r % 2) + x % 2 ^ r := by
    rw [Nat.mul_comm 2, Nat.mod_mul, Nat.add_comm]
  rw [hx, h2]
  rcases Nat.mod_two_eq_zero_or_one (x / 2 ^ r) with hq | hq
  · rw [hq, Nat.xor_one_of_even (Nat.even_iff.mpr hq), if_pos (by omega), Nat.mul_add]
    omega
  · have h1 : 1 ≤ x / 2 ^ r := by
      rcases Nat.eq_zero_or_pos (x / 2 ^ r) with h | h
      · rw [h] at hq; simp at hq
      · exact h
    obtain ⟨c, hc⟩ : ∃ c, x / 2 ^ r = c + 1 := ⟨x / 2 ^ r - 1, by omega⟩
    rw [hq, Nat.xor_one_of_odd (Nat.odd_iff.mpr hq), if_neg (by omega)]
    rw [hc] at e ⊢
    rw [Nat.mul_add] at e
    rw [Nat.add_sub_cancel]
    omega

theorem and_two_pow_zero (s x : Nat) : x &&& 2 ^ s = 0 ↔ x / 2 ^ s % 2 = 0 := by
  rw [Nat.and_two_pow, Nat.testBit_eq_decide_div_mod_eq]
  have hp : 0 < 2 ^ s := Nat.two_pow_pos s
  rcases Nat.mod_two_eq_zero_or_one (x / 2 ^ s) with hq | hq
  · simp [hq]
  · simp [hq]

/-! ## The network -/

variable {β κ : Type}

/-- One comparison of the network: whether the cells `x` and its partner are exchanged. -/
def swaps (lt : β → β → Bool) (k j : Nat) (v : Nat → β) (x : Nat) : Bool :=
  let lo := min x (x ^^^ j)
  let hi := max x (x ^^^ j)
  if lo &&& k = 0 then !lt (v lo) (v hi) else lt (v lo) (v hi)

/-- Where the contents of the cell `x` come from. -/
def from_ (lt : β → β → Bool) (k j : Nat) (v : Nat → β) (x : Nat) : Nat := if swaps lt k j v x then x ^^^ j else x

/-- One step of the network. -/
def bstep (lt : β → β → Bool) (k j : Nat) (v : Nat → β) : Nat → β := fun x => v (from_ lt k j v x)

theorem swaps_partner (lt : β → β → Bool) (k j : Nat) (v : Nat → β) (x : Nat) :
    swaps lt k j v (x ^^^ j) = swaps lt k j v x := by
  unfold swaps
  rw [Nat.xor_assoc, Nat.xor_self, Nat.xor_zero, min_comm, max_comm]

theorem from_inv (lt : β → β → Bool) (k j : Nat) (v : Nat → β) (x : Nat) :
    from_ lt k j v (from_ lt k j v x) = x := by
  by_cases h : swaps lt k j v x = true
  · have e : from_ lt k j v x = x ^^^ j := by unfold from_; rw [if_pos h]
    rw [e]
    unfold from_
    rw [swaps_partner, if_pos h, Nat.xor_assoc, Nat.xor_self, Nat.xor_zero]
  · have e : from_ lt k j v x = x := by unfold from_; rw [if_neg h]
    rw [e, e]

variable [LinearOrder κ] {key : β → κ} {lt : β → β → Bool}

/-- The values above `c`; below `c` in the blocks that are sorted downwards. -/
def above (key : β → κ) (k : Nat) (c : κ) (v : Nat → β) (x : Nat) : Bool :=
  if x / k % 2 = 0 then decide (c < key (v x)) else !decide (c < key (v x))

/-- On the values above a threshold a step is a half-cleaner. -/
theorem bstep_above (hlt : ∀ a b, lt a b = decide (key a < key b)) {s r : Nat} (h : r < s) (c : κ) (v : Nat → β)
    (x : Nat) : above key (2 ^ s) c (bstep lt (2 ^ s) (2 ^ r) v) x = clean (2 ^ r) (above key (2 ^ s) c v) x := by
  have hp : 0 < 2 ^ r := Nat.two_pow_pos r
  have hd : ∀ y z, y / (2 * 2 ^ r) = z / (2 * 2 ^ r) → y / 2 ^ s = z / 2 ^ s := by
    intro y z hyz
    obtain ⟨d, rfl⟩ : ∃ d, s = r + 1 + d := ⟨s - r - 1, by omega⟩
    rw [Nat.pow_add, Nat.pow_add, Nat.pow_one, Nat.mul_comm (2 ^ r) 2,
      ← Nat.div_div_eq_div_mul y (2 * 2 ^ r), ← Nat.div_div_eq_div_mul z (2 * 2 ^ r), hyz]
  have e := Nat.div_add_mod x (2 * 2 ^ r)
  have hm := Nat.mod_lt x (show 0 < 2 * 2 ^ r by omega)
  have hdiv : ∀ B t, t < 2 * 2 ^ r → (2 * 2 ^ r * B + t) / (2 * 2 ^ r) = B := by
    intro B t ht
    rw [Nat.mul_add_div (by omega), Nat.div_eq_of_lt ht, Nat.add_zero]
  have hx2 := xor_two_pow r x
  unfold clean bstep above
  dsimp only
  by_cases hx : x % (2 * 2 ^ r) < 2 ^ r
  · rw [if_pos hx] at hx2
    rw [if_pos hx]
    have hf : from_ lt (2 ^ s) (2 ^ r) v x = if (if x / 2 ^ s % 2 = 0 then !decide (key (v x) < key (v (x + 2 ^ r)))
        else decide (key (v x) < key (v (x + 2 ^ r)))) then x + 2 ^ r else x := by
      unfold from_ swaps
      dsimp only
      rw [hx2, Nat.min_eq_left (Nat.le_add_right x _), Nat.max_eq_right (Nat.le_add_right x _)]
      simp only [hlt, and_two_pow_zero]
    generalize 2 ^ r = j at *
    have hd' : (x + j) / 2 ^ s = x / 2 ^ s := hd _ _ (by
      rw [← e, Nat.add_assoc, hdiv _ _ (by omega), hdiv _ _ (by omega)])
    simp only [hd', hf]
    by_cases hk : x / 2 ^ s % 2 = 0
    · simp only [hk, if_true]
      by_cases hl : key (v x) < key (v (x + j))
      · simp only [hl, decide_true, Bool.not_true, Bool.false_eq_true, if_false]
        by_cases hc : c < key (v x)
        · simp [hc, lt_trans hc hl]
        · simp [hc]
      · simp only [hl, decide_false, Bool.not_false, if_true]
        by_cases hc : c < key (v (x + j))
        · simp [hc, lt_of_lt_of_le hc (not_lt.mp hl)]
        · simp [hc]
    · simp only [hk, if_false]
      by_cases hl : key (v x) < key (v (x + j))
      · simp only [hl, decide_true, if_true]
        by_cases hc : c < key (v x)
        · simp [hc, lt_trans hc hl]
        · simp [hc]
      · simp only [hl, decide_false, Bool.false_eq_true, if_false]
        by_cases hc : c < key (v (x + j))
        · simp [hc, lt_of_lt_of_le hc (not_lt.mp hl)]
        · simp [hc]
  · rw [if_neg hx] at hx2
    rw [if_neg hx]
    have hf : from_ lt (2 ^ s) (2 ^ r) v x = if (if (x - 2 ^ r) / 2 ^ s % 2 = 0
        then !decide (key (v (x - 2 ^ r)) < key (v x)) else decide (key (v (x - 2 ^ r)) < key (v x)))
        then x - 2 ^ r else x := by
      unfold from_ swaps
      dsimp only
      rw [hx2, Nat.min_eq_right (Nat.sub_le x _), Nat.max_eq_left (Nat.sub_le x _)]
      simp only [hlt, and_two_pow_zero]
    generalize 2 ^ r = j at *
    have hjx : j ≤ x := by
      have := Nat.mod_le x (2 * j)
      omega
    have hd' : (x - j) / 2 ^ s = x / 2 ^ s := hd _ _ (by
      rw [show x - j = 2 * j * (x / (2 * j)) + (x % (2 * j) - j) by omega, hdiv _ _ (by omega)])
    simp only [hd', hf]
    by_cases hk : x / 2 ^ s % 2 = 0
    · simp only [hk, if_true]
      by_cases hl : key (v (x - j)) < key (v x)
      · simp only [hl, decide_true, Bool.not_true, Bool.false_eq_true, if_false]
        by_cases hc : c < key (v (x - j))
        · simp [hc, lt_trans hc hl]
        · simp [hc]
      · simp only [hl, decide_false, Bool.not_false, if_true]
        by_cases hc : c < key (v x)
        · simp [hc, lt_of_lt_of_le hc (not_lt.mp hl)]
        · simp [hc]
    · simp only [hk, if_false]
      by_cases hl : key (v (x - j)) < key (v x)
      · simp only [hl, decide_true, if_true]
        by_cases hc : c < key (v (x - j))
        · simp [hc, lt_trans hc hl]
        · simp [hc]
      · simp only [hl, decide_false, Bool.false_eq_true, if_false]
        by_cases hc : c < key (v x)
        · simp [hc, lt_of_lt_of_le hc (not_lt.mp hl)]
        · simp [hc]

/-- Steps one after the other. -/
def net (lt : β → β → Bool) (ps : List (Nat × Nat)) (v : Nat → β) : Nat → β :=
  ps.foldl (fun v kj => bstep lt kj.1 kj.2 v) v

omit [LinearOrder κ] in
theorem net_append (ps qs : List (Nat × Nat)) (v : Nat → β) : net lt (ps ++ qs) v = net lt qs (net lt ps v) :=
  List.foldl_append

/-- The blocks of size `k` are sorted, upwards and downwards in turn. -/
def Blocks (key : β → κ) (k : Nat) (v : Nat → β) : Prop := ∀ c, Merging k 1 (above key k c v)

theorem halves_pow (r : Nat) : ∀ f, r < f → halves f (2 ^ r) =
    2 ^ r :: (match r with | 0 => [] | r' + 1 => halves (f - 1) (2 ^ r')) := by
  intro f hf
  obtain ⟨f, rfl⟩ : ∃ g, f = g + 1 := ⟨f - 1, by omega⟩
  have hp : 1 ≤ 2 ^ r := Nat.two_pow_pos r
  rw [halves, if_pos hp, Nat.add_sub_cancel]
  cases r with
  | zero => cases f <;> simp [halves]
  | succ r => rw [Nat.pow_succ, Nat.mul_div_cancel _ (by omega)]

/-- The steps of one stage merge. -/
theorem stage (hlt : ∀ a b, lt a b = decide (key a < key b)) {s : Nat} : ∀ (r f : Nat) (v : Nat → β), r < s → r < f →
    (∀ c, Merging (2 ^ s) (2 * 2 ^ r) (above key (2 ^ s) c v)) →
    Blocks key (2 ^ s) (net lt ((halves f (2 ^ r)).map fun j => (2 ^ s, j)) v) := by
  intro r
  induction r with
  | zero =>
    intro f v hs hf h c
    rw [halves_pow 0 f hf]
    have : above key (2 ^ s) c (bstep lt (2 ^ s) (2 ^ 0) v) = clean (2 ^ 0) (above key (2 ^ s) c v) :=
      funext fun x => bstep_above hlt hs c v x
    show Merging (2 ^ s) 1 (above key (2 ^ s) c (bstep lt (2 ^ s) (2 ^ 0) v))
    rw [this]
    exact merging_step (j := 2 ^ 0) (by omega) (by
      rw [Nat.mul_comm, ← Nat.pow_succ]; exact Nat.pow_dvd_pow 2 (by omega)) (h c)
  | succ r ih =>
    intro f v hs hf h
    rw [halves_pow (r + 1) f hf]
    show Blocks key (2 ^ s) (net lt ((halves (f - 1) (2 ^ r)).map fun j => (2 ^ s, j)) (bstep lt (2 ^ s) (2 ^ (r + 1)) v))
    refine ih (f - 1) _ (by omega) (by omega) fun c => ?_
    have : above key (2 ^ s) c (bstep lt (2 ^ s) (2 ^ (r + 1)) v) = clean (2 ^ (r + 1)) (above key (2 ^ s) c v) :=
      funext fun x => bstep_above hlt hs c v x
    rw [this, show 2 * 2 ^ r = 2 ^ (r + 1) by rw [Nat.pow_succ, Nat.mul_comm]]
    exact merging_step (Nat.two_pow_pos _) (by
      rw [Nat.mul_comm, ← Nat.pow_succ]; exact Nat.pow_dvd_pow 2 (by omega)) (h c)

/-- Two sorted blocks, one upwards and one downwards, are ready for the next stage. -/
theorem next_stage {k : Nat} (hk : 0 < k) {v : Nat → β} (h : Blocks key k v) (c : κ) :
    Merging (2 * k) (2 * k) (above key (2 * k) c v) := by
  refine ⟨fun B => ?_, fun x y h1 h2 => absurd h1 (by omega)⟩
  have hdiv : ∀ B t, t < 2 * k → (2 * k * B + t) / (2 * k) = B := by
    intro B t ht
    rw [Nat.mul_add_div (by omega), Nat.div_eq_of_lt ht, Nat.add_zero]
  have hd1 : ∀ x, x < k → (2 * k * B + x) / k = 2 * B := by
    intro x hx
    rw [show 2 * k * B + x = k * (2 * B) + x by rw [Nat.mul_comm 2 k, Nat.mul_assoc],
      Nat.mul_add_div hk, Nat.div_eq_of_lt hx, Nat.add_zero]
  have hd2 : ∀ x, x < k → (2 * k * B + (k + x)) / k = 2 * B + 1 := by
    intro x hx
    rw [show 2 * k * B + (k + x) = k * (2 * B + 1) + x by
      rw [Nat.mul_add, Nat.mul_one, Nat.mul_comm 2 k, Nat.mul_assoc]; omega,
      Nat.mul_add_div hk, Nat.div_eq_of_lt hx, Nat.add_zero]
  have hb : Bit01 (fun x => decide (c < key (v (2 * k * B + x)))) (2 * k) := by
    apply up_down
    · intro x y hxy hy hx
      have := (h c).order (2 * k * B + x) (2 * k * B + y) (by rw [hd1 _ (by omega), hd1 _ hy])
        (by rw [Nat.div_one, Nat.div_one]; omega)
      unfold above at this
      rw [hd1 _ (by omega), hd1 _ hy, if_pos (by omega), if_pos (by omega)] at this
      exact this hx
    · intro x y hxy hy hx
      have := (h c).order (2 * k * B + (k + x)) (2 * k * B + (k + y)) (by rw [hd2 _ (by omega), hd2 _ hy])
        (by rw [Nat.div_one, Nat.div_one]; omega)
      unfold above at this
      rw [hd2 _ (by omega), hd2 _ hy, if_neg (by omega), if_neg (by omega)] at this
      simpa using this (by simpa using hx)
  by_cases hB : B % 2 = 0
  · refine hb.congr fun x hx => ?_
    unfold above
    rw [hdiv _ _ hx, if_pos hB]
  · refine hb.not.congr fun x hx => ?_
    unfold above
    rw [hdiv _ _ hx, if_neg hB]

theorem pairs_step {q s f : Nat} (h : s ≤ q) : bitonicPairs (2 ^ q) (f + 1) (2 ^ (s + 1)) =
    if s + 1 ≤ q then (halves 64 (2 ^ s)).map (fun j => (2 ^ (s + 1), j)) ++ bitonicPairs (2 ^ q) f (2 ^ (s + 2))
    else [] := by
  rw [bitonicPairs, Nat.pow_succ 2 (s + 1)]
  by_cases h' : s + 1 ≤ q
  · rw [if_pos h', if_pos (Nat.pow_le_pow_right (by decide) h'), Nat.pow_succ 2 s, Nat.mul_div_cancel _ (by decide)]
  · rw [if_neg h', if_neg (Nat.not_le.mpr (Nat.pow_lt_pow_right (by decide) (by omega)))]

theorem stages (hlt : ∀ a b, lt a b = decide (key a < key b)) {q : Nat} (hq : q ≤ 63) : ∀ (d s f : Nat) (v : Nat → β),
    d = q - s → s ≤ q → d < f → Blocks key (2 ^ s) v →
    Blocks key (2 ^ q) (net lt (bitonicPairs (2 ^ q) f (2 ^ (s + 1))) v) := by
  intro d
  induction d with
  | zero =>
    intro s f v hd hs hf h
    obtain ⟨f, rfl⟩ : ∃ g, f = g + 1 := ⟨f - 1, by omega⟩
    have : s = q := by omega
    subst this
    rw [pairs_step (le_refl _), if_neg (by omega)]
    exact h
  | succ d ih =>
    intro s f v hd hs hf h
    obtain ⟨f, rfl⟩ : ∃ g, f = g + 1 := ⟨f - 1, by omega⟩
    rw [pairs_step hs, if_pos (by omega), net_append]
    refine ih (s + 1) f _ (by omega) (by omega) (by omega) ?_
    refine stage hlt s 64 v (by omega) (by omega) fun c => ?_
    rw [Nat.pow_succ, Nat.mul_comm]
    exact next_stage (Nat.two_pow_pos s) h c

/-- The network sorts. -/
theorem net_sorts (hlt : ∀ a b, lt a b = decide (key a < key b)) {q : Nat} (hq : q ≤ 63) (v : Nat → β) {x y : Nat}
    (hxy : x < y) (hy : y < 2 ^ q) :
    key (net lt (bitonicPairs (2 ^ q) 64 2) v x) ≤ key (net lt (bitonicPairs (2 ^ q) 64 2) v y) := by
  have h0 : Blocks key (2 ^ 0) v := by
    intro c
    refine ⟨fun B => ⟨0, if above key (2 ^ 0) c v (1 * B + 0) then 1 else 0, false, fun x hx => ?_⟩, fun x y h1 h2 => ?_⟩
    · have : x = 0 := by omega
      subst this
      dsimp only
      cases above key (2 ^ 0) c v (1 * B + 0) <;> simp
    · rw [Nat.pow_zero] at h1
      omega
  have h := stages hlt hq q 0 64 v (by omega) (by omega) (by omega) h0
  have := (h (key (net lt (bitonicPairs (2 ^ q) 64 2) v y))).order x y
    (by rw [Nat.div_eq_of_lt hy, Nat.div_eq_of_lt (lt_trans hxy hy)]) (by rw [Nat.div_one, Nat.div_one]; exact hxy)
  unfold above at this
  rw [Nat.div_eq_of_lt hy, Nat.div_eq_of_lt (lt_trans hxy hy)] at this
  simp only [Nat.zero_mod, if_true, decide_eq_true_eq] at this
  exact not_lt.mp fun hc => lt_irrefl _ (this hc)

/-- What the network does to the places: a rearrangement of the first `2 ^ q` cells. -/
theorem net_perm {q : Nat} (ps : List (Nat × Nat)) (hps : ∀ kj ∈ ps, ∃ r, r < q ∧ kj.2 = 2 ^ r) (v : Nat → β) :
    ∃ σ τ : Nat → Nat, (∀ x, net lt ps v x = v (σ x)) ∧ (∀ x, x < 2 ^ q → σ x < 2 ^ q ∧ τ x < 2 ^ q) ∧
      (∀ x, σ (τ x) = x ∧ τ (σ x) = x) := by
  induction ps generalizing v with
  | nil => exact ⟨id, id, fun _ => rfl, fun x hx => ⟨hx, hx⟩, fun _ => ⟨rfl, rfl⟩⟩
  | cons p ps ih =>
    obtain ⟨σ, τ, h1, h2, h3⟩ := ih (fun kj h => hps kj (List.mem_cons_of_mem _ h)) (bstep lt p.1 p.2 v)
    have hb : ∀ x, x < 2 ^ q → from_ lt p.1 p.2 v x < 2 ^ q := by
      intro x hx
      obtain ⟨r, hr, e⟩ := hps p List.mem_cons_self
      unfold from_
      split
      · rw [e]
        exact Nat.xor_lt_two_pow hx (Nat.pow_lt_pow_right (by decide) hr)
      · exact hx
    refine ⟨fun x => from_ lt p.1 p.2 v (σ x), fun x => τ (from_ lt p.1 p.2 v x), fun x => h1 x, fun x hx => ?_,
      fun x => ?_⟩
    · exact ⟨hb _ (h2 x hx).1, (h2 _ (hb x hx)).2⟩
    · dsimp only
      rw [(h3 _).1, from_inv, from_inv, (h3 _).2]
      exact ⟨rfl, rfl⟩

theorem mem_halves {j : Nat} : ∀ {f r : Nat}, j ∈ halves f (2 ^ r) → ∃ t, t ≤ r ∧ j = 2 ^ t := by
  intro f
  induction f with
  | zero => intro r h; simp [halves] at h
  | succ f ih =>
    intro r h
    rw [halves, if_pos (show 1 ≤ 2 ^ r from Nat.two_pow_pos r)] at h
    rcases List.mem_cons.mp h with h | h
    · exact ⟨r, le_refl _, h⟩
    · cases r with
      | zero => cases f <;> simp [halves] at h
      | succ r =>
        rw [Nat.pow_succ, Nat.mul_div_cancel _ (by decide)] at h
        obtain ⟨t, ht, e⟩ := ih h
        exact ⟨t, by omega, e⟩

/-- The distances of the network. -/
theorem mem_pairs {q : Nat} : ∀ {f s : Nat} {kj : Nat × Nat}, kj ∈ bitonicPairs (2 ^ q) f (2 ^ (s + 1)) →
    ∃ r, r < q ∧ kj.2 = 2 ^ r := by
  intro f
  induction f with
  | zero => intro s kj h; simp [bitonicPairs] at h
  | succ f ih =>
    intro s kj h
    rw [bitonicPairs] at h
    split at h
    · next hk =>
      have hs : s + 1 ≤ q := (Nat.pow_le_pow_iff_right (by decide)).mp hk
      rcases List.mem_append.mp h with h | h
      · rw [Nat.pow_succ, Nat.mul_div_cancel _ (by decide)] at h
        obtain ⟨j, hj, rfl⟩ := List.mem_map.mp h
        obtain ⟨t, ht, e⟩ := mem_halves hj
        exact ⟨t, by omega, e⟩
      · rw [← Nat.pow_succ] at h
        exact ih h
    · simp at h

end Hodu.Cuda.Bitonic
