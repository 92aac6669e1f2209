import Verif.Model.TensorRegistry
import Mathlib.Algebra.BigOperators.Group.Finset.Basic
import Mathlib.Algebra.BigOperators.Ring.Finset
import Mathlib.Tactic.SplitIfs

/-!
# C37: the registry never frees a tensor the program holds, and frees the others
-/

namespace Hodu.TReg

open Function

abbrev Reg := Nat → Option Ent

namespace Spec

/-- How many tensors numbered below `n` have `i` as their stored gradient. -/
def links (n : Nat) (reg : Reg) (i : Nat) : Nat :=
  ∑ j ∈ Finset.range n, if gradOf reg j = some i then 1 else 0

/-- The gradient stored in `i`, if any, is a plain run-time tensor, not held by the program and
not stored in any other tensor. -/
def SoleGradient (st : St) (i : Nat) : Prop :=
  ∀ g, gradOf st.reg i = some g → st.held g = 0 ∧ (∀ j, gradOf st.reg j = some g → j = i) ∧
    ∃ e, st.reg g = some e ∧ e.runtime = true ∧ e.owner = none

/-- The same for every tensor the clean-up of context `c` removes, when it gets to it; there the
gradient must not come from `zero_grad`. -/
def CleanSafe (c : Nat) (held : Nat → Nat) : Reg → List Nat → Prop
  | _, [] => True
  | reg, i :: l =>
    (held i = 0 → ∀ g, gradOf reg i = some g → held g = 0 ∧ (∀ j, gradOf reg j = some g → j = i) ∧
      ∃ e, reg g = some e ∧ e.runtime = true ∧ e.owner = none ∧ e.isGrad = false) ∧
    CleanSafe c held (cleanOne c reg i) l

/-- Steps a program can make: it uses only handles it has. -/
def Possible (st : St) : Step → Prop
  | .create _ _ => True
  | .clone i => 0 < st.held i
  | .drop i => 0 < st.held i
  | .grad i => 0 < st.held i
  | .setGrad i g => 0 < st.held i ∧ 0 < st.held g
  | .zeroGrad i => 0 < st.held i
  | .computing _ => True
  | .cleanup _ _ => True

/-- Where the proof needs more: when the last handle of a tensor goes away, its gradient is not
held and not shared. -/
def Safe (st : St) : Step → Prop
  | .drop i => st.held i = 1 → SoleGradient st i
  | .cleanup c order => CleanSafe c st.held st.reg order
  | _ => True

/-- `P` holds of every step of a history in the state it is made in. -/
def Along (P : St → Step → Prop) : St → List Step → Prop
  | _, [] => True
  | st, s :: l => P st s ∧ Along P (step st s) l

end Spec

/-! ## Counting -/

/-- The count of an entry; 0 without one. -/
def rcOf (reg : Reg) (i : Nat) : Nat :=
  match reg i with
  | some e => e.rc
  | none => 0

/-- 1 if the link is to `i`. -/
def ind (o : Option Nat) (i : Nat) : Nat := if o = some i then 1 else 0

/-- Every count is the number of handles plus the number of gradient links; nothing is held or
linked that is not there. -/
structure Bal (n : Nat) (reg : Reg) (held : Nat → Nat) : Prop where
  sup : ∀ i, reg i ≠ none → i < n
  eq : ∀ i, rcOf reg i = held i + Spec.links n reg i

theorem links_update (n : Nat) (reg : Reg) (j : Nat) (hj : j < n) (x : Option Ent) (i : Nat) :
    Spec.links n (update reg j x) i + ind (gradOf reg j) i =
      Spec.links n reg i + ind (gradOf (update reg j x) j) i := by
  unfold Spec.links
  have hm : j ∈ Finset.range n := Finset.mem_range.mpr hj
  rw [← Finset.add_sum_erase _ _ hm,
    ← Finset.add_sum_erase (Finset.range n) (fun k => if gradOf reg k = some i then 1 else 0) hm]
  have : ∑ k ∈ (Finset.range n).erase j, (if gradOf (update reg j x) k = some i then 1 else 0) =
      ∑ k ∈ (Finset.range n).erase j, (if gradOf reg k = some i then 1 else 0) := by
    apply Finset.sum_congr rfl
    intro k hk
    have hne : k ≠ j := Finset.ne_of_mem_erase hk
    have hgk : gradOf (update reg j x) k = gradOf reg k := by simp [gradOf, update_of_ne hne]
    rw [hgk]
  rw [this]
  simp only [ind]
  omega

theorem links_congr {n : Nat} {reg reg' : Reg} (h : ∀ j, gradOf reg j = gradOf reg' j) (i : Nat) :
    Spec.links n reg i = Spec.links n reg' i := by
  unfold Spec.links
  simp only [h]

theorem links_pos {n : Nat} {reg : Reg} {j i : Nat} (hj : j < n) (h : gradOf reg j = some i) :
    0 < Spec.links n reg i := by
  unfold Spec.links
  rw [← Finset.add_sum_erase _ _ (Finset.mem_range.mpr hj), if_pos h]
  omega

theorem links_one {n : Nat} {reg : Reg} {j i : Nat} (hj : j < n) (h : gradOf reg j = some i)
    (hu : ∀ k, gradOf reg k = some i → k = j) : Spec.links n reg i = 1 := by
  unfold Spec.links
  rw [Finset.sum_eq_single j]
  · rw [if_pos h]
  · intro k _ hk
    rw [if_neg]
    intro hc
    exact hk (hu k hc)
  · intro hn
    exact absurd (Finset.mem_range.mpr hj) hn

theorem gradOf_some {reg : Reg} {i g : Nat} (h : gradOf reg i = some g) :
    ∃ e, reg i = some e ∧ e.grad = some g := by
  unfold gradOf at h
  cases hr : reg i with
  | none => rw [hr] at h; simp at h
  | some e => rw [hr] at h; exact ⟨e, rfl, h⟩

theorem Bal.lt_of_link {n : Nat} {reg : Reg} {held : Nat → Nat} (h : Bal n reg held) {i g : Nat}
    (hg : gradOf reg i = some g) : i < n := by
  obtain ⟨e, he, _⟩ := gradOf_some hg
  exact h.sup i (by rw [he]; simp)

/-- Something needed is there. -/
theorem Bal.there {n : Nat} {reg : Reg} {held : Nat → Nat} (h : Bal n reg held) {i : Nat}
    (hi : 0 < held i + Spec.links n reg i) :
    ∃ e, reg i = some e ∧ e.rc = held i + Spec.links n reg i := by
  have := h.eq i
  unfold rcOf at this
  cases hr : reg i with
  | none => rw [hr] at this; simp at this; omega
  | some e => rw [hr] at this; exact ⟨e, rfl, this⟩

/-- Changing only counts. -/
theorem gradOf_count (reg : Reg) (i : Nat) (e e' : Ent) (h : reg i = some e) (hg : e'.grad = e.grad)
    (j : Nat) : gradOf (update reg i (some e')) j = gradOf reg j := by
  by_cases hj : j = i
  · subst hj
    simp [gradOf, h, hg]
  · simp [gradOf, update_of_ne hj]

theorem gradOf_incr (reg : Reg) (i j : Nat) : gradOf (incr reg i) j = gradOf reg j := by
  unfold incr
  cases h : reg i with
  | none => rfl
  | some e => exact gradOf_count reg i e { e with rc := e.rc + 1 } h rfl j

theorem gradOf_decr (reg : Reg) (i j : Nat) : gradOf (decr reg i) j = gradOf reg j := by
  unfold decr
  cases h : reg i with
  | none => rfl
  | some e => exact gradOf_count reg i e { e with rc := subW e.rc } h rfl j

theorem gradOf_decrG (reg : Reg) (i j : Nat) : gradOf (decrG reg i) j = gradOf reg j := by
  unfold decrG
  cases h : reg i with
  | none => rfl
  | some e => exact gradOf_count reg i e { e with rc := e.rc - 1 } h rfl j

theorem gradOf_mark (reg : Reg) (i j : Nat) : gradOf (markGrad reg i) j = gradOf reg j := by
  unfold markGrad
  cases h : reg i with
  | none => rfl
  | some e => exact gradOf_count reg i e { e with isGrad := true } h rfl j

/-- An unguarded decrement of a positive count is the guarded one. -/
theorem decr_eq_decrG {reg : Reg} {i : Nat} (h : 0 < rcOf reg i) : decr reg i = decrG reg i := by
  unfold decr decrG
  unfold rcOf at h
  cases hr : reg i with
  | none => rfl
  | some e =>
    rw [hr] at h
    simp only at h ⊢
    have : subW e.rc = e.rc - 1 := by unfold subW; rw [if_neg (by omega)]
    rw [this]

theorem rcOf_decrG (reg : Reg) (i j : Nat) :
    rcOf (decrG reg i) j = rcOf reg j - if j = i then 1 else 0 := by
  unfold decrG
  cases h : reg i with
  | none =>
    by_cases hj : j = i
    · subst hj; simp [rcOf, h]
    · simp [hj]
  | some e =>
    by_cases hj : j = i
    · subst hj; simp [rcOf, h]
    · simp [rcOf, hj]

theorem rcOf_incr (reg : Reg) (i j : Nat) (h : reg i ≠ none) :
    rcOf (incr reg i) j = rcOf reg j + if j = i then 1 else 0 := by
  unfold incr
  cases hr : reg i with
  | none => exact absurd hr h
  | some e =>
    by_cases hj : j = i
    · subst hj; simp [rcOf, hr]
    · simp [rcOf, hj]

theorem none_incr (reg : Reg) (i j : Nat) : incr reg i j = none ↔ reg j = none := by
  unfold incr
  cases h : reg i with
  | none => rfl
  | some e =>
    by_cases hj : j = i
    · subst hj; simp [h]
    · simp [update_of_ne hj]

theorem none_decrG (reg : Reg) (i j : Nat) : decrG reg i j = none ↔ reg j = none := by
  unfold decrG
  cases h : reg i with
  | none => rfl
  | some e =>
    by_cases hj : j = i
    · subst hj; simp [h]
    · simp [update_of_ne hj]

theorem none_setLink (reg : Reg) (i : Nat) (g : Option Nat) (j : Nat) :
    setLink reg i g j = none ↔ reg j = none := by
  unfold setLink
  cases h : reg i with
  | none => rfl
  | some e =>
    by_cases hj : j = i
    · subst hj; simp [h]
    · simp [update_of_ne hj]

theorem rcOf_setLink (reg : Reg) (i : Nat) (g : Option Nat) (j : Nat) :
    rcOf (setLink reg i g) j = rcOf reg j := by
  unfold setLink
  cases h : reg i with
  | none => rfl
  | some e =>
    by_cases hj : j = i
    · subst hj; simp [rcOf, h]
    · simp [rcOf, update_of_ne hj]

theorem links_setLink {n : Nat} {reg : Reg} {i : Nat} (hi : i < n) (h : reg i ≠ none)
    (g : Option Nat) (k : Nat) :
    Spec.links n (setLink reg i g) k + ind (gradOf reg i) k = Spec.links n reg k + ind g k := by
  unfold setLink
  cases hr : reg i with
  | none => exact absurd hr h
  | some e =>
    have := links_update n reg i hi (some { e with grad := g }) k
    simpa [gradOf] using this

/-- Removing an entry nobody holds or links to keeps the balance. -/
theorem Bal.remove {n : Nat} {reg : Reg} {held : Nat → Nat} (h : Bal n reg held) {i : Nat}
    (hi : rcOf reg i = 0) : Bal n (remove reg i) held := by
  unfold TReg.remove
  cases hg : gradOf reg i with
  | none =>
    show Bal n (update reg i none) held
    refine ⟨?_, ?_⟩
    · intro k hk
      by_cases hki : k = i
      · subst hki; simp at hk
      · simp only [update_of_ne hki] at hk; exact h.sup k hk
    · intro k
      by_cases hlt : i < n
      · have hl := links_update n reg i hlt none k
        have h2 : gradOf (update reg i none) i = none := by simp [gradOf]
        rw [hg, h2] at hl
        have hrc : rcOf (update reg i none) k = rcOf reg k := by
          by_cases hki : k = i
          · subst hki; simp [rcOf] at hi ⊢; exact hi.symm
          · simp [rcOf, update_of_ne hki]
        rw [show rcOf _ k = rcOf reg k from hrc, h.eq k]
        omega
      · have hn : reg i = none := by
          by_contra hne
          exact hlt (h.sup i hne)
        have : update reg i none = reg := by rw [← hn]; exact update_eq_self i reg
        rw [this]
        exact h.eq k
  | some g =>
    have hlt := h.lt_of_link hg
    have hpos : 0 < rcOf reg g := by
      rw [h.eq g]
      have := links_pos hlt hg
      omega
    have hgi : g ≠ i := by intro hc; subst hc; omega
    simp only
    rw [decr_eq_decrG hpos]
    refine ⟨?_, ?_⟩
    · intro k hk
      by_cases hki : k = i
      · subst hki; exact hlt
      · rw [update_of_ne hki] at hk
        exact h.sup k (fun hn => hk ((none_decrG reg g k).mpr hn))
    · intro k
      have hl := links_update n (decrG reg g) i hlt none k
      have h2 : gradOf (update (decrG reg g) i none) i = none := by simp [gradOf]
      rw [h2, gradOf_decrG, hg, links_congr (gradOf_decrG reg g)] at hl
      have he := h.eq k
      have hrc : rcOf (update (decrG reg g) i none) k = rcOf reg k - if k = g then 1 else 0 := by
        by_cases hki : k = i
        · subst hki
          simp [rcOf]
          rw [if_neg (Ne.symm hgi)]
          simpa [rcOf] using hi.symm
        · have : rcOf (update (decrG reg g) i none) k = rcOf (decrG reg g) k := by
            simp [rcOf, update_of_ne hki]
          rw [this, rcOf_decrG]
      rw [hrc]
      by_cases hkg : k = g
      · subst hkg
        simp [ind] at hl ⊢
        omega
      · simp [ind, hkg, Ne.symm hkg] at hl ⊢
        omega

/-- Removing a tensor and then its gradient, whose only use that was, is what `Drop` and the
clean-up do. -/
theorem removeWithGrad_eq {n : Nat} {reg : Reg} {held : Nat → Nat} (h : Bal n reg held)
    {i g : Nat} (hi : rcOf reg i = 0) (cg : Bool) (hg : gradOf reg i = some g) (hh : held g = 0)
    (hu : ∀ j, gradOf reg j = some g → j = i) (e : Ent) (he : reg g = some e)
    (hrt : e.runtime = true) (how : e.owner = none) (hcg : cg = true → e.isGrad = false) :
    removeWithGrad reg cg i = TReg.remove (TReg.remove reg i) g ∧ rcOf (TReg.remove reg i) g = 0 := by
  have hlt := h.lt_of_link hg
  have hone := links_one hlt hg hu
  have hrc : e.rc = 1 := by
    have := h.eq g
    unfold rcOf at this
    rw [he] at this
    simp only at this
    omega
  have hgi : g ≠ i := by
    intro hc
    subst hc
    unfold rcOf at hi
    rw [he] at hi
    simp only at hi
    omega
  have hgg : gradOf reg g ≠ some g := fun hc => hgi (hu g hc)
  obtain ⟨ei, hei, hegi⟩ := gradOf_some hg
  have hdr : decr reg g = update reg g (some { e with rc := 0 }) := by
    unfold decr; rw [he]; simp [subW, hrc]
  have hdG : decrG reg g = update reg g (some { e with rc := 0 }) := by
    unfold decrG; rw [he]; simp [hrc]
  have hge : gradOf reg g = e.grad := by unfold gradOf; rw [he]
  have hr1 : TReg.remove reg i = update (update reg g (some { e with rc := 0 })) i none := by
    unfold TReg.remove; rw [hg]; simp only; rw [hdr]
  have hg1 : gradOf (TReg.remove reg i) g = e.grad := by
    rw [hr1]; simp [gradOf, update_of_ne hgi]
  refine ⟨?_, by rw [hr1]; simp [rcOf, update_of_ne hgi]⟩
  unfold removeWithGrad
  rw [hg]
  simp only
  unfold dropGrad
  rw [he]
  simp only
  rw [if_pos ⟨Or.inl hrc, hrt, how, hcg⟩, hdG]
  -- the inner removal of the gradient
  have hg0 : gradOf (update reg g (some { e with rc := 0 })) g = e.grad := by simp [gradOf]
  have hin : ∃ r : Reg, TReg.remove (update reg g (some { e with rc := 0 })) g = update r g none ∧
      (∀ k, k ≠ g → k ≠ i → r k = (match e.grad with
        | some g2 => decr (TReg.remove reg i) g2
        | none => TReg.remove reg i) k) ∧ gradOf r i = some g := by
    unfold TReg.remove
    rw [hg0]
    cases hgr : e.grad with
    | none =>
      refine ⟨_, rfl, ?_, ?_⟩
      · intro k hkg hki
        rw [hg]
        simp only
        rw [hdr, update_of_ne hki, update_of_ne hkg, update_of_ne hkg]
      · simp [gradOf, update_of_ne (Ne.symm hgi), hei, hegi]
    | some g2 =>
      have hg2 : g2 ≠ g := by intro hc; subst hc; exact hgg (by rw [hge, hgr])
      refine ⟨_, rfl, ?_, ?_⟩
      · intro k hkg hki
        rw [hg]
        simp only
        rw [hdr]
        unfold decr
        by_cases h2i : g2 = i
        · subst h2i
          simp only [update_of_ne (Ne.symm hgi), update_self, hei]
          rw [update_of_ne hki, update_of_ne hki, update_of_ne hkg, update_of_ne hkg]
        · simp only [update_of_ne hg2, update_of_ne h2i]
          cases h2 : reg g2 with
          | none => simp only; rw [update_of_ne hki, update_of_ne hkg, update_of_ne hkg]
          | some e2 =>
            simp only
            by_cases hk2 : k = g2
            · subst hk2; simp
            · rw [update_of_ne hk2, update_of_ne hk2, update_of_ne hki, update_of_ne hkg,
                update_of_ne hkg]
      · rw [gradOf_decr]
        simp [gradOf, update_of_ne (Ne.symm hgi), hei, hegi]
  obtain ⟨r, hr, hrk, hri⟩ := hin
  rw [hr]
  have hgi' : gradOf (update r g none) i = some g := by
    unfold gradOf at hri ⊢
    rw [update_of_ne (Ne.symm hgi)]
    exact hri
  funext k
  conv_lhs => unfold TReg.remove
  rw [hgi']
  simp only
  have hnone : decr (update r g none) g = update r g none := by
    unfold decr; simp
  rw [hnone]
  have hrr : TReg.remove (TReg.remove reg i) g = update (match e.grad with
      | some g2 => decr (TReg.remove reg i) g2
      | none => TReg.remove reg i) g none := by
    conv_lhs => rw [TReg.remove, hg1]
    rfl
  rw [hrr]
  by_cases hkg : k = g
  · subst hkg
    simp [update_of_ne hgi]
  · rw [update_of_ne hkg]
    by_cases hki : k = i
    · subst hki
      rw [update_self]
      have hrn : TReg.remove reg k k = none := by unfold TReg.remove; simp
      cases e.grad with
      | none => exact hrn.symm
      | some g2 =>
        simp only
        unfold decr
        by_cases h2k : g2 = k
        · subst h2k; rw [hrn]; exact hrn.symm
        · cases hx : TReg.remove reg k g2 with
          | none => exact hrn.symm
          | some e2 => simp only; rw [update_of_ne (Ne.symm h2k)]; exact hrn.symm
    · rw [update_of_ne hki, update_of_ne hkg]
      exact hrk k hkg hki

theorem Bal.removeWithGrad {n : Nat} {reg : Reg} {held : Nat → Nat} (h : Bal n reg held) {i : Nat}
    (hi : rcOf reg i = 0) (cg : Bool)
    (hs : ∀ g, gradOf reg i = some g → held g = 0 ∧ (∀ j, gradOf reg j = some g → j = i) ∧
      ∃ e, reg g = some e ∧ e.runtime = true ∧ e.owner = none ∧ (cg = true → e.isGrad = false)) :
    Bal n (removeWithGrad reg cg i) held := by
  cases hg : gradOf reg i with
  | none =>
    unfold TReg.removeWithGrad
    rw [hg]
    exact h.remove hi
  | some g =>
    obtain ⟨hh, hu, e, he, hrt, how, hcg⟩ := hs g hg
    obtain ⟨heq, hrc⟩ := removeWithGrad_eq h hi cg hg hh hu e he hrt how hcg
    rw [heq]
    exact (h.remove hi).remove hrc

/-- Taking one handle. -/
theorem Bal.incr {n : Nat} {reg : Reg} {held : Nat → Nat} (h : Bal n reg held) {i : Nat}
    (hi : reg i ≠ none) : Bal n (incr reg i) (update held i (held i + 1)) := by
  refine ⟨fun k hk => h.sup k (fun hn => hk ((none_incr reg i k).mpr hn)), ?_⟩
  intro k
  rw [rcOf_incr reg i k hi, links_congr (gradOf_incr reg i), h.eq k]
  by_cases hk : k = i
  · subst hk; simp; omega
  · simp [update_of_ne hk, hk]

/-- Giving one handle back. -/
theorem Bal.decrG {n : Nat} {reg : Reg} {held : Nat → Nat} (h : Bal n reg held) {i : Nat}
    (hi : 0 < held i) : Bal n (decrG reg i) (update held i (held i - 1)) := by
  refine ⟨fun k hk => h.sup k (fun hn => hk ((none_decrG reg i k).mpr hn)), ?_⟩
  intro k
  rw [rcOf_decrG reg i k, links_congr (gradOf_decrG reg i), h.eq k]
  by_cases hk : k = i
  · subst hk; simp; omega
  · simp [update_of_ne hk, hk]

/-- Turning a link into a handle. -/
theorem Bal.unlink {n : Nat} {reg : Reg} {held : Nat → Nat} (h : Bal n reg held) {i o : Nat}
    (hg : gradOf reg i = some o) :
    Bal n (setLink reg i none) (update held o (held o + 1)) := by
  have hlt := h.lt_of_link hg
  obtain ⟨e, he, _⟩ := gradOf_some hg
  refine ⟨fun k hk => h.sup k (fun hn => hk ((none_setLink reg i none k).mpr hn)), ?_⟩
  intro k
  have hne : reg i ≠ none := by rw [he]; simp
  have hl := links_setLink hlt hne none k
  rw [rcOf_setLink, h.eq k]
  rw [hg] at hl
  by_cases hk : k = o
  · subst hk
    simp [ind] at hl ⊢
    omega
  · simp [ind, hk, Ne.symm hk] at hl ⊢
    omega

/-- Turning a handle into a link. -/
theorem Bal.link {n : Nat} {reg : Reg} {held : Nat → Nat} {i g : Nat}
    (h : Bal n reg (update held g (held g + 1))) (hi : reg i ≠ none)
    (hg : gradOf reg i = none) : Bal n (setLink reg i (some g)) held := by
  have hlt := h.sup i hi
  refine ⟨fun k hk => h.sup k (fun hn => hk ((none_setLink reg i _ k).mpr hn)), ?_⟩
  intro k
  have hl := links_setLink hlt hi (some g) k
  rw [rcOf_setLink, h.eq k]
  rw [hg] at hl
  by_cases hk : k = g
  · subst hk
    simp [ind] at hl ⊢
    omega
  · simp [ind, hk, Ne.symm hk] at hl ⊢
    omega

theorem Bal.congr_held {n : Nat} {reg : Reg} {held held' : Nat → Nat} (h : Bal n reg held)
    (he : ∀ i, held i = held' i) : Bal n reg held' := by
  rw [show held' = held from funext fun i => (he i).symm]
  exact h

/-- `release` gives a handle back. -/
theorem Bal.release {n : Nat} {reg : Reg} {held : Nat → Nat} {o : Nat}
    (h : Bal n reg (update held o (held o + 1))) : Bal n (release reg o) held := by
  have h1 : Bal n (TReg.decrG reg o) held :=
    (h.decrG (i := o) (by simp)).congr_held (by
      intro k
      by_cases hk : k = o
      · subst hk; simp
      · simp [update_of_ne hk])
  have hpos : 0 < rcOf reg o := by rw [h.eq o]; simp; omega
  unfold TReg.release
  cases hr : reg o with
  | none => unfold rcOf at hpos; rw [hr] at hpos; simp at hpos
  | some e =>
    simp only
    rw [decr_eq_decrG hpos]
    split
    · rename_i hc
      refine h1.remove ?_
      rw [rcOf_decrG]
      unfold rcOf
      rw [hr]
      simp [hc.1]
    · exact h1

/-- Link surgery at `i` commutes with removing another entry. -/
theorem setLink_remove (reg : Reg) (i o : Nat) (g : Option Nat) (hio : i ≠ o) :
    setLink (remove reg o) i g = remove (setLink reg i g) o := by
  have hgo : gradOf (setLink reg i g) o = gradOf reg o := by
    unfold setLink gradOf
    cases reg i with
    | none => rfl
    | some e => simp [update_of_ne (Ne.symm hio)]
  have hd : ∀ g2, setLink (decr reg g2) i g = decr (setLink reg i g) g2 := by
    intro g2
    unfold setLink decr
    by_cases h2 : g2 = i
    · subst h2
      cases hr : reg g2 with
      | none => simp [hr]
      | some e => simp
    · cases hr : reg i with
      | none =>
        cases hr2 : reg g2 with
        | none => simp [hr, hr2]
        | some e2 => simp [hr, hr2, update_of_ne (Ne.symm h2)]
      | some e =>
        cases hr2 : reg g2 with
        | none => simp [hr, hr2, update_of_ne h2]
        | some e2 =>
          simp only [update_of_ne (Ne.symm h2), hr, update_of_ne h2, hr2]
          exact update_comm h2 _ _ _
  have hu : ∀ r : Reg, setLink (update r o none) i g = update (setLink r i g) o none := by
    intro r
    unfold setLink
    rw [update_of_ne hio]
    cases hr : r i with
    | none => rfl
    | some e => exact update_comm (Ne.symm hio) _ _ _
  unfold remove
  rw [hgo]
  cases gradOf reg o with
  | none => exact hu reg
  | some g2 => simp only; rw [hu, hd]

theorem setLink_decrG (reg : Reg) (i o : Nat) (g : Option Nat) :
    setLink (decrG reg o) i g = decrG (setLink reg i g) o := by
  unfold setLink decrG
  by_cases h2 : o = i
  · subst h2
    cases hr : reg o with
    | none => simp [hr]
    | some e => simp
  · cases hr : reg i with
    | none =>
      cases hr2 : reg o with
      | none => simp [hr, hr2]
      | some e2 => simp [hr, hr2, update_of_ne (Ne.symm h2)]
    | some e =>
      cases hr2 : reg o with
      | none => simp [hr, hr2, update_of_ne h2]
      | some e2 =>
        simp only [update_of_ne (Ne.symm h2), hr, update_of_ne h2, hr2]
        exact update_comm h2 _ _ _

theorem setLink_setLink (reg : Reg) (i : Nat) (a b : Option Nat) :
    setLink (setLink reg i a) i b = setLink reg i b := by
  unfold setLink
  cases hr : reg i with
  | none => simp [hr]
  | some e => simp

/-- What `release` leaves of an entry other than the released one. -/
theorem release_there {reg : Reg} {o i : Nat} (hio : i ≠ o) (hi : reg i ≠ none) :
    release reg o i ≠ none := by
  have hd : ∀ (r : Reg) g, r i ≠ none → decr r g i ≠ none := by
    intro r g h
    unfold decr
    cases hr : r g with
    | none => exact h
    | some e =>
      by_cases hig : i = g
      · subst hig; simp
      · simpa [update_of_ne hig] using h
  unfold release
  cases hr : reg o with
  | none => exact hi
  | some e =>
    simp only
    split
    · unfold remove
      rw [update_of_ne hio]
      cases gradOf (decr reg o) o with
      | none => exact hd _ _ hi
      | some g => exact hd _ _ (hd _ _ hi)
    · exact hd _ _ hi

theorem gradOf_release {reg : Reg} {o i : Nat} (hio : i ≠ o) :
    gradOf (release reg o) i = gradOf reg i := by
  have hu : ∀ r : Reg, gradOf (update r o none) i = gradOf r i := by
    intro r; simp [gradOf, update_of_ne hio]
  unfold release
  cases hr : reg o with
  | none => rfl
  | some e =>
    simp only
    split
    · unfold remove
      rw [hu]
      cases gradOf (decr reg o) o with
      | none => exact gradOf_decr _ _ _
      | some g => simp only; rw [gradOf_decr, gradOf_decr]
    · exact gradOf_decr _ _ _

/-! ## The invariant of histories -/

theorem bal_init : Bal init.next init.reg init.held := by
  refine ⟨by simp [init], ?_⟩
  intro i
  simp [init, rcOf, Spec.links]

theorem bal_create {st : St} (h : Bal st.next st.reg st.held) (r : Bool) (o : Option Nat) :
    Bal (create st r o).next (create st r o).reg (create st r o).held := by
  have hn : st.reg st.next = none := by
    by_contra hne
    exact absurd (h.sup st.next hne) (Nat.lt_irrefl _)
  refine ⟨?_, ?_⟩
  · intro i hi
    simp only [create] at hi ⊢
    by_cases hin : i = st.next
    · omega
    · rw [update_of_ne hin] at hi
      have := h.sup i hi
      omega
  · intro i
    have hgr : ∀ j, gradOf (create st r o).reg j = gradOf st.reg j := by
      intro j
      simp only [create]
      by_cases hj : j = st.next
      · subst hj; simp [gradOf, hn]
      · simp [gradOf, update_of_ne hj]
    have hl : Spec.links (create st r o).next (create st r o).reg i =
        Spec.links st.next st.reg i := by
      rw [links_congr hgr]
      unfold Spec.links
      show ∑ j ∈ Finset.range (st.next + 1), _ = _
      rw [Finset.sum_range_succ]
      simp [gradOf, hn]
    rw [hl]
    simp only [create]
    have he := h.eq i
    by_cases hi : i = st.next
    · subst hi
      simp [rcOf, hn] at he ⊢
      omega
    · simpa [rcOf, update_of_ne hi] using he

theorem bal_clone {st : St} (h : Bal st.next st.reg st.held) {i : Nat} (hi : st.reg i ≠ none) :
    Bal (clone st i).next (clone st i).reg (clone st i).held := h.incr hi

theorem bal_drop {st : St} (h : Bal st.next st.reg st.held) {i : Nat} (hi : 0 < st.held i)
    (hs : st.held i = 1 → Spec.SoleGradient st i) :
    Bal (drop st i).next (drop st i).reg (drop st i).held := by
  have h1 := h.decrG hi
  obtain ⟨e, he, hrc⟩ := h.there (i := i) (by omega)
  simp only [drop, he]
  split
  · rename_i hrem
    have hrc1 : e.rc = 1 := by
      simp only [removable, Bool.and_eq_true, Bool.or_eq_true, beq_iff_eq] at hrem
      omega
    have hone : st.held i = 1 := by omega
    refine h1.removeWithGrad ?_ false ?_
    · rw [rcOf_decrG]; simp [rcOf, he, hrc1]
    · intro g hg
      rw [gradOf_decrG] at hg
      obtain ⟨hh, hu, eg, heg, hrt, how⟩ := hs hone g hg
      have hgi : g ≠ i := by intro hc; subst hc; omega
      refine ⟨by rw [update_of_ne hgi]; exact hh, ?_, eg, ?_, hrt, how, by simp⟩
      · intro j hj
        rw [gradOf_decrG] at hj
        exact hu j hj
      · unfold TReg.decrG
        rw [he]
        simp only
        rw [update_of_ne hgi]
        exact heg
  · exact h1

theorem bal_setGrad {st : St} (h : Bal st.next st.reg st.held) {i g : Nat} (hi : 0 < st.held i)
    (hg : 0 < st.held g) :
    Bal (setGrad st i g).next (setGrad st i g).reg (setGrad st i g).held := by
  obtain ⟨ei, hei, hrci⟩ := h.there (i := i) (by omega)
  obtain ⟨eg, heg, hrcg⟩ := h.there (i := g) (by omega)
  have h1 : Bal st.next (incr st.reg g) (update st.held g (st.held g + 1)) :=
    h.incr (by rw [heg]; simp)
  have hi1 : incr st.reg g i ≠ none := fun hn => by
    rw [none_incr, hei] at hn; simp at hn
  simp only [setGrad, heg, gradOf_incr]
  cases ho : gradOf st.reg i with
  | none => exact h1.link hi1 (by rw [gradOf_incr]; exact ho)
  | some o =>
    simp only
    have ho1 : gradOf (incr st.reg g) i = some o := by rw [gradOf_incr]; exact ho
    -- detach the old gradient first
    have h2 := h1.unlink ho1
    have h3 : Bal st.next (setLink (TReg.decrG (incr st.reg g) o) i none)
        (update st.held g (st.held g + 1)) := by
      rw [setLink_decrG]
      refine (h2.decrG (i := o) (by simp)).congr_held ?_
      intro k
      by_cases hk : k = o
      · subst hk; simp
      · simp [update_of_ne hk]
    have h4 : Bal st.next (setLink (TReg.decrG (incr st.reg g) o) i (some g)) st.held := by
      rw [← setLink_setLink _ i none (some g)]
      refine h3.link ?_ ?_
      · intro hn
        rw [none_setLink, none_decrG] at hn
        exact hi1 hn
      · have hne : TReg.decrG (incr st.reg g) o i ≠ none := by
          rw [Ne, none_decrG]; exact hi1
        unfold setLink gradOf
        cases hx : TReg.decrG (incr st.reg g) o i with
        | none => exact absurd hx hne
        | some x => simp
    have hpos : 0 < rcOf (incr st.reg g) o := by
      rw [h1.eq o]
      have := links_pos (h1.lt_of_link ho1) ho1
      omega
    unfold TReg.release
    cases hro : incr st.reg g o with
    | none => unfold rcOf at hpos; rw [hro] at hpos; simp at hpos
    | some eo =>
      simp only
      rw [decr_eq_decrG hpos]
      split
      · rename_i hc
        have hlo := links_pos (h1.lt_of_link ho1) ho1
        have heq := h1.eq o
        unfold rcOf at heq
        rw [hro] at heq
        simp only at heq
        have hio : i ≠ o := by
          intro hio
          subst hio
          by_cases hig : i = g
          · subst hig; simp at heq; omega
          · rw [update_of_ne hig] at heq; omega
        rw [setLink_remove _ i o _ hio]
        refine h4.remove ?_
        rw [rcOf_setLink, rcOf_decrG]
        unfold rcOf
        rw [hro]
        simp [hc.1]
      · exact h4

theorem bal_zeroGrad {st : St} (h : Bal st.next st.reg st.held) {i : Nat} (hi : 0 < st.held i) :
    Bal (zeroGrad st i).next (zeroGrad st i).reg (zeroGrad st i).held := by
  unfold zeroGrad
  cases hg : gradOf st.reg i with
  | none => exact h
  | some o =>
    simp only
    have h1 := h.unlink hg
    obtain ⟨ei, hei, hrci⟩ := h.there (i := i) (by omega)
    have hlpos := links_pos (h.lt_of_link hg) hg
    cases ho : setLink st.reg i none o with
    | none =>
      have := h1.eq o
      unfold rcOf at this
      rw [ho] at this
      simp at this
      omega
    | some eo =>
      simp only
      have h2 : Bal st.next (release (setLink st.reg i none) o) st.held := h1.release
      have hgl : gradOf (setLink st.reg i none) i = none := by
        unfold setLink gradOf; rw [hei]; simp
      -- the tensor itself is still there, without a gradient
      have hthere : release (setLink st.reg i none) o i ≠ none ∧
          gradOf (release (setLink st.reg i none) o) i = none := by
        have hbi := h2.there (i := i) (by omega)
        obtain ⟨e2, he2, _⟩ := hbi
        refine ⟨by rw [he2]; simp, ?_⟩
        by_cases hio : i = o
        · subst hio
          unfold TReg.release at he2 ⊢
          rw [ho] at he2 ⊢
          simp only at he2 ⊢
          split at he2
          · unfold TReg.remove at he2; simp at he2
          · rename_i hc
            rw [if_neg hc, gradOf_decr]
            exact hgl
        · rw [gradOf_release hio]; exact hgl
      generalize hreg : release (setLink st.reg i none) o = reg at *
      have hin : i ≠ st.next := by
        intro hc
        have := h2.sup i hthere.1
        omega
      -- creation of the zeros
      have h3 := bal_create (st := { st with reg := reg }) h2 true none
      generalize hst2 : create { st with reg := reg } true none = st2 at *
      have hnext : st2.next = st.next + 1 := by rw [← hst2]; rfl
      have hheld : st2.held = update st.held st.next (st.held st.next + 1) := by rw [← hst2]; rfl
      have hreg2 : st2.reg = update reg st.next (some
          { rc := 1, runtime := true, isGrad := false, owner := none, grad := none }) := by
        rw [← hst2]; rfl
      have hz0 : st.held st.next = 0 := by
        have := h.eq st.next
        have hn : st.reg st.next = none := by
          by_contra hne
          exact absurd (h.sup _ hne) (Nat.lt_irrefl _)
        unfold rcOf at this
        rw [hn] at this
        simp at this
        omega
      -- marking it
      have hm : Bal st2.next (markGrad st2.reg st.next) st2.held := by
        refine ⟨?_, ?_⟩
        · intro k hk
          apply h3.sup k
          intro hn
          apply hk
          unfold markGrad
          cases hx : st2.reg st.next with
          | none => exact hn
          | some e =>
            by_cases hkn : k = st.next
            · subst hkn; rw [hn] at hx; simp at hx
            · simp only; rw [update_of_ne hkn]; exact hn
        · intro k
          rw [links_congr (gradOf_mark st2.reg st.next), ← h3.eq k]
          unfold markGrad rcOf
          cases hx : st2.reg st.next with
          | none => rfl
          | some e =>
            by_cases hkn : k = st.next
            · subst hkn; simp [hx]
            · simp [update_of_ne hkn]
      have hmz : markGrad st2.reg st.next st.next ≠ none := by
        unfold markGrad; rw [hreg2]; simp
      have h4 := hm.incr hmz
      have hmi : incr (markGrad st2.reg st.next) st.next i = reg i := by
        unfold incr markGrad
        rw [hreg2]
        simp [update_of_ne hin]
      -- linking it
      have h5 : Bal st2.next
          (setLink (incr (markGrad st2.reg st.next) st.next) i (some st.next)) st2.held := by
        refine h4.link (by rw [hmi]; exact hthere.1) ?_
        have := hthere.2
        unfold gradOf at this ⊢
        rw [hmi]
        exact this
      -- dropping the local handle
      refine bal_drop (st := { st2 with
        reg := setLink (incr (markGrad st2.reg st.next) st.next) i (some st.next) }) h5
        (by simp [hheld]) ?_
      intro _ g hgz
      simp only at hgz
      exfalso
      unfold setLink incr markGrad at hgz
      rw [hreg2] at hgz
      simp only [update_self, update_of_ne hin] at hgz
      cases hx : reg i with
      | none => exact hthere.1 hx
      | some ex =>
        rw [hx] at hgz
        simp [gradOf, update_of_ne (Ne.symm hin)] at hgz

theorem bal_cleanup {n : Nat} {held : Nat → Nat} (c : Nat) : ∀ (l : List Nat) (reg : Reg),
    Bal n reg held → Spec.CleanSafe c held reg l → Bal n (l.foldl (cleanOne c) reg) held := by
  intro l
  induction l with
  | nil => intro reg h _; exact h
  | cons i l ih =>
    intro reg h hs
    refine ih _ ?_ hs.2
    unfold cleanOne
    cases hr : reg i with
    | none => exact h
    | some e =>
      simp only
      split
      · rename_i hc
        have hrc : rcOf reg i = 0 := by unfold rcOf; rw [hr]; exact hc.2.1
        have hh : held i = 0 := by have := h.eq i; omega
        refine h.removeWithGrad hrc true ?_
        intro g hg
        obtain ⟨h1, h2, eg, h3, h4, h5, h6⟩ := hs.1 hh g hg
        exact ⟨h1, h2, eg, h3, h4, h5, fun _ => h6⟩
      · exact h

theorem bal_step {st : St} (h : Bal st.next st.reg st.held) (s : Step) (hp : Spec.Possible st s)
    (hs : Spec.Safe st s) : Bal (step st s).next (step st s).reg (step st s).held := by
  cases s with
  | create r o => exact bal_create h r o
  | clone i =>
    obtain ⟨e, he, _⟩ := h.there (i := i) (Nat.lt_of_lt_of_le hp (Nat.le_add_right _ _))
    exact bal_clone h (by rw [he]; simp)
  | drop i => exact bal_drop h hp hs
  | grad i =>
    simp only [step, grad]
    cases hg : gradOf st.reg i with
    | none => exact h
    | some g =>
      have hl := links_pos (h.lt_of_link hg) hg
      obtain ⟨e, he, _⟩ := h.there (i := g) (by omega)
      exact bal_clone h (by rw [he]; simp)
  | setGrad i g => exact bal_setGrad h hp.1 hp.2
  | zeroGrad i => exact bal_zeroGrad h hp
  | computing b => exact h
  | cleanup c order => exact bal_cleanup c order st.reg h hs

theorem bal_run : ∀ (l : List Step) (st : St), Bal st.next st.reg st.held →
    Spec.Along Spec.Possible st l → Spec.Along Spec.Safe st l →
    Bal (run st l).next (run st l).reg (run st l).held := by
  intro l
  induction l with
  | nil => intro st h _ _; exact h
  | cons s l ih => intro st h hp hs; exact ih _ (bal_step h s hp.1 hs.1) hp.2 hs.2

/-- C37, first half, for programs in which a tensor's last handle never goes away while its
gradient is still held or is also the gradient of another tensor: after any history of creations,
clones, drops, gradients set, read and zeroed, and clean-ups of contexts, every handle the program
holds and every gradient link refers to an entry of the registry, and the count of every entry is
the number of handles plus the number of links.

What is missing from C37: the excluded drops (`C37_held_gradient_false`,
`C37_shared_gradient_false`), and the second half, see `C37_freed_partial`. -/
theorem C37_live_partial (l : List Step) (hp : Spec.Along Spec.Possible init l)
    (hs : Spec.Along Spec.Safe init l) (i : Nat) :
    (0 < (run init l).held i → ∃ e, (run init l).reg i = some e) ∧
    (∀ j, gradOf (run init l).reg j = some i → ∃ e, (run init l).reg i = some e) ∧
    (∀ e, (run init l).reg i = some e →
      e.rc = (run init l).held i + Spec.links (run init l).next (run init l).reg i) := by
  have h := bal_run l init bal_init hp hs
  generalize run init l = st at *
  refine ⟨?_, ?_, ?_⟩
  · intro hi
    obtain ⟨e, he, _⟩ := h.there (i := i) (by omega)
    exact ⟨e, he⟩
  · intro j hj
    have := links_pos (h.lt_of_link hj) hj
    obtain ⟨e, he, _⟩ := h.there (i := i) (by omega)
    exact ⟨e, he⟩
  · intro e he
    have := h.eq i
    unfold rcOf at this
    rw [he] at this
    exact this

/-! ## The second half: what nobody uses any more is gone -/

namespace Spec

/-- No gradient has a gradient of its own. -/
def Flat (reg : Reg) : Prop := ∀ i g, gradOf reg i = some g → gradOf reg g = none

/-- Entries the code keeps at count zero: owned by a gradient context, not of run time, or made by
`zero_grad`. -/
def Kept (e : Ent) : Prop := e.owner ≠ none ∨ e.runtime = false ∨ e.isGrad = true

/-- Entries the clean-up of context `c` keeps at count zero. -/
def KeptBy (c : Nat) (e : Ent) : Prop :=
  (∃ c', e.owner = some c' ∧ c' ≠ c) ∨ e.runtime = false ∨ e.isGrad = true

end Spec

/-- At count zero `i` is one of the entries that satisfy `K`. -/
def Okay (K : Ent → Prop) (reg : Reg) (i : Nat) : Prop := ∀ e, reg i = some e → e.rc = 0 → K e

theorem removeWithGrad_at {n : Nat} {reg : Reg} {held : Nat → Nat} (h : Bal n reg held) {i : Nat}
    (hi : rcOf reg i = 0) (cg : Bool)
    (hs : ∀ g, gradOf reg i = some g → held g = 0 ∧ (∀ j, gradOf reg j = some g → j = i) ∧
      ∃ e, reg g = some e ∧ e.runtime = true ∧ e.owner = none ∧ (cg = true → e.isGrad = false))
    (hf : Spec.Flat reg) (k : Nat) :
    removeWithGrad reg cg i k = if k = i ∨ gradOf reg i = some k then none else reg k := by
  cases hg : gradOf reg i with
  | none =>
    unfold TReg.removeWithGrad
    rw [hg]
    simp only
    unfold remove
    rw [hg]
    by_cases hk : k = i
    · subst hk; simp
    · simp [hk]
  | some g =>
    obtain ⟨hh, hu, e, he, hrt, how, hcg⟩ := hs g hg
    obtain ⟨heq, hrc⟩ := removeWithGrad_eq h hi cg hg hh hu e he hrt how hcg
    have hgn := hf i g hg
    have hgi : g ≠ i := by intro hc; subst hc; rw [hg] at hgn; simp at hgn
    have hr1 : remove reg i = update (decr reg g) i none := by unfold remove; rw [hg]
    have hg1 : gradOf (remove reg i) g = none := by
      rw [hr1]
      have := gradOf_decr reg g g
      rw [hgn] at this
      unfold gradOf at this ⊢
      rw [update_of_ne hgi]
      exact this
    have hr2 : remove (remove reg i) g = update (remove reg i) g none := by
      conv_lhs => rw [remove, hg1]
    rw [heq, hr2]
    by_cases hkg : k = g
    · subst hkg; simp
    · by_cases hki : k = i
      · subst hki; rw [update_of_ne hkg, hr1]; simp
      · rw [update_of_ne hkg, hr1, update_of_ne hki, if_neg (by
          rintro (h1 | h1)
          · exact hki h1
          · injection h1 with h1; exact hkg h1.symm)]
        unfold decr
        rw [he]
        exact update_of_ne hkg _ _

theorem okay_release {reg : Reg} {o : Nat} (hg : gradOf reg o = none) (k : Nat)
    (h : Okay Spec.Kept reg k) : Okay Spec.Kept (release reg o) k := by
  unfold release
  cases hr : reg o with
  | none => exact h
  | some e =>
    simp only
    have hd : decr reg o = update reg o (some { e with rc := subW e.rc }) := by
      unfold decr; rw [hr]
    split
    · unfold remove
      rw [gradOf_decr, hg, hd]
      intro x hx
      by_cases hk : k = o
      · subst hk; simp at hx
      · simp only [update_of_ne hk] at hx
        exact h x hx
    · rename_i hc
      rw [hd]
      intro x hx h0
      by_cases hk : k = o
      · subst hk
        rw [update_self] at hx
        injection hx with hx
        subst hx
        simp only [subW] at h0
        have h1 : e.rc = 1 := by
          by_cases hz : e.rc = 0
          · rw [if_pos hz] at h0; exact absurd h0 (by decide)
          · rw [if_neg hz] at h0; omega
        unfold Spec.Kept
        simp only
        by_cases hrt : e.runtime = true
        · by_cases how : e.owner = none
          · exact absurd ⟨h1, hrt, how⟩ hc
          · exact Or.inl how
        · exact Or.inr (Or.inl (by simpa using hrt))
      · rw [update_of_ne hk] at hx
        exact h x hx h0

theorem okay_incr {K : Ent → Prop} {reg : Reg} (i k : Nat) (h : Okay K reg k) :
    Okay K (incr reg i) k := by
  unfold incr
  cases hr : reg i with
  | none => exact h
  | some e =>
    intro x hx h0
    simp only at hx
    by_cases hk : k = i
    · subst hk
      rw [update_self] at hx
      injection hx with hx
      subst hx
      simp at h0
    · rw [update_of_ne hk] at hx
      exact h x hx h0

theorem okay_setLink {reg : Reg} (i : Nat) (g : Option Nat) (k : Nat) (h : Okay Spec.Kept reg k) :
    Okay Spec.Kept (setLink reg i g) k := by
  unfold setLink
  cases hr : reg i with
  | none => exact h
  | some e =>
    intro x hx h0
    simp only at hx
    by_cases hk : k = i
    · subst hk
      rw [update_self] at hx
      injection hx with hx
      subst hx
      exact h e hr h0
    · rw [update_of_ne hk] at hx
      exact h x hx h0

theorem okay_create {st : St} (r : Bool) (o : Option Nat) (k : Nat)
    (h : Okay Spec.Kept st.reg k) : Okay Spec.Kept (create st r o).reg k := by
  intro x hx h0
  simp only [create] at hx
  by_cases hk : k = st.next
  · subst hk
    rw [update_self] at hx
    injection hx with hx
    subst hx
    simp at h0
  · rw [update_of_ne hk] at hx
    exact h x hx h0

theorem okay_drop {st : St} (h : Bal st.next st.reg st.held) {i : Nat} (hi : 0 < st.held i)
    (hs : st.held i = 1 → Spec.SoleGradient st i) (hf : Spec.Flat st.reg)
    (hc : st.computing = false) (k : Nat) (hk : Okay Spec.Kept st.reg k) :
    Okay Spec.Kept (drop st i).reg k := by
  have h1 := h.decrG hi
  obtain ⟨e, he, hrc⟩ := h.there (i := i) (by omega)
  have hd : decrG st.reg i = update st.reg i (some { e with rc := e.rc - 1 }) := by
    unfold TReg.decrG; rw [he]
  simp only [drop, he]
  split
  · rename_i hrem
    have hrc1 : e.rc = 1 := by
      simp only [removable, Bool.and_eq_true, Bool.or_eq_true, beq_iff_eq] at hrem
      omega
    have hone : st.held i = 1 := by omega
    intro x hx h0
    rw [removeWithGrad_at h1 (by rw [rcOf_decrG]; simp [rcOf, he, hrc1]) false (by
      intro g hg
      rw [gradOf_decrG] at hg
      obtain ⟨hh, hu, eg, heg, hrt, how⟩ := hs hone g hg
      have hgi : g ≠ i := by intro hc; subst hc; omega
      refine ⟨by rw [update_of_ne hgi]; exact hh, ?_, eg, ?_, hrt, how, by simp⟩
      · intro j hj
        rw [gradOf_decrG] at hj
        exact hu j hj
      · rw [hd, update_of_ne hgi]
        exact heg) (by
      intro a b hab
      rw [gradOf_decrG] at hab ⊢
      exact hf a b hab)] at hx
    split at hx
    · simp at hx
    · rename_i hne
      have hki : k ≠ i := fun hc => hne (Or.inl hc)
      rw [hd, update_of_ne hki] at hx
      exact hk x hx h0
  · rename_i hrem
    intro x hx h0
    rw [hd] at hx
    by_cases hki : k = i
    · subst hki
      rw [update_self] at hx
      injection hx with hx
      subst hx
      simp only at h0
      have h01 : (e.rc == 1 || e.rc == 0) = true := by
        simp only [Bool.or_eq_true, beq_iff_eq]; omega
      unfold Spec.Kept
      simp only
      simp only [removable, hc, h01, Bool.not_false, Bool.true_and, Bool.and_eq_true,
        Option.isNone_iff_eq_none, Bool.not_eq_true', not_and] at hrem
      by_cases hrt : e.runtime = true
      · by_cases how : e.owner = none
        · right; right
          simpa using hrem ⟨hrt, how⟩
        · exact Or.inl how
      · exact Or.inr (Or.inl (by simpa using hrt))
    · rw [update_of_ne hki] at hx
      exact hk x hx h0

theorem okay_zeroGrad {st : St} (h : Bal st.next st.reg st.held) {i : Nat}
    (hf : Spec.Flat st.reg) (k : Nat) (hk : Okay Spec.Kept st.reg k) :
    Okay Spec.Kept (zeroGrad st i).reg k := by
  unfold zeroGrad
  cases hg : gradOf st.reg i with
  | none => exact hk
  | some o =>
    simp only
    have hgo := hf i o hg
    have hio : i ≠ o := by intro hc; subst hc; rw [hg] at hgo; simp at hgo
    have hlin : ∀ j, j ≠ i → setLink st.reg i none j = st.reg j := by
      intro j hj
      unfold setLink
      cases st.reg i with
      | none => rfl
      | some e => exact update_of_ne hj _ _
    cases ho : setLink st.reg i none o with
    | none => exact okay_setLink i none k hk
    | some eo =>
      simp only
      have h1 := okay_setLink i none k hk
      have h2 : Okay Spec.Kept (release (setLink st.reg i none) o) k := by
        refine okay_release ?_ k h1
        unfold gradOf at hgo ⊢
        rw [hlin o (Ne.symm hio)]
        exact hgo
      have hin : i ≠ st.next := by
        intro hc
        have := h.lt_of_link hg
        omega
      generalize release (setLink st.reg i none) o = reg at *
      have h3 := okay_create (st := { st with reg := reg }) true none k h2
      have hreg2 : (create { st with reg := reg } true none).reg = update reg st.next (some
          { rc := 1, runtime := true, isGrad := false, owner := none, grad := none }) := rfl
      have hheld : (create { st with reg := reg } true none).held st.next =
          st.held st.next + 1 := by simp [create]
      -- the entry of the zeros has count 2 when the local handle goes
      have hz : setLink (incr (markGrad (create { st with reg := reg } true none).reg st.next)
          st.next) i (some st.next) st.next =
          some { rc := 2, runtime := true, isGrad := true, owner := none, grad := none } := by
        rw [hreg2]
        unfold setLink incr markGrad
        simp only [update_self, update_of_ne hin]
        cases reg i with
        | none => simp
        | some ei => simp [update_of_ne (Ne.symm hin)]
      intro x hx h0
      simp only [drop, hz] at hx
      rw [if_neg (by simp [removable])] at hx
      unfold decrG at hx
      rw [hz] at hx
      simp only at hx
      by_cases hkz : k = st.next
      · subst hkz
        rw [update_self] at hx
        injection hx with hx
        subst hx
        simp at h0
      · rw [update_of_ne hkz] at hx
        refine okay_setLink i (some st.next) k (okay_incr st.next k ?_) x hx h0
        intro y hy hy0
        unfold markGrad at hy
        rw [hreg2] at hy
        simp only [update_self] at hy
        rw [update_of_ne hkz] at hy
        rw [hreg2] at h3
        exact h3 y hy hy0

/-- What one turn of the clean-up does to each entry. -/
theorem cleanOne_at {n : Nat} {reg : Reg} {held : Nat → Nat} (c : Nat) {i : Nat} {l : List Nat}
    (h : Bal n reg held) (hs : Spec.CleanSafe c held reg (i :: l)) (hf : Spec.Flat reg) (k : Nat) :
    (cleanOne c reg i k = none ∨ cleanOne c reg i k = reg k) ∧
      Okay (Spec.KeptBy c) (cleanOne c reg i) i := by
  unfold cleanOne
  cases hr : reg i with
  | none => exact ⟨Or.inr rfl, fun e he => by simp only at he; rw [hr] at he; simp at he⟩
  | some e =>
    simp only
    split
    · rename_i hc
      have hrc : rcOf reg i = 0 := by unfold rcOf; rw [hr]; exact hc.2.1
      have hh : held i = 0 := by have := h.eq i; omega
      have hat := removeWithGrad_at h hrc true (by
        intro g hg
        obtain ⟨h1, h2, eg, h3, h4, h5, h6⟩ := hs.1 hh g hg
        exact ⟨h1, h2, eg, h3, h4, h5, fun _ => h6⟩) hf
      refine ⟨?_, ?_⟩
      · rw [hat k]
        split
        · exact Or.inl rfl
        · exact Or.inr rfl
      · intro x hx
        rw [hat i] at hx
        simp at hx
    · rename_i hc
      refine ⟨Or.inr rfl, ?_⟩
      intro x hx h0
      rw [hr] at hx
      injection hx with hx
      subst hx
      unfold Spec.KeptBy
      by_cases hrt : e.runtime = true
      · by_cases hig : e.isGrad = true
        · exact Or.inr (Or.inr hig)
        · left
          cases how : e.owner with
          | none => exact absurd ⟨Or.inr how, h0, hrt, by simpa using hig⟩ hc
          | some c' =>
            refine ⟨c', rfl, ?_⟩
            intro hcc
            subst hcc
            exact hc ⟨Or.inl how, h0, hrt, by simpa using hig⟩
      · exact Or.inr (Or.inl (by simpa using hrt))

theorem flat_shrink {reg reg' : Reg} (h : ∀ k, reg' k = none ∨ reg' k = reg k)
    (hf : Spec.Flat reg) : Spec.Flat reg' := by
  have hg : ∀ k g, gradOf reg' k = some g → gradOf reg k = some g := by
    intro k g hkg
    obtain ⟨e, he, heg⟩ := gradOf_some hkg
    rcases h k with h1 | h1
    · rw [h1] at he; simp at he
    · unfold gradOf; rw [← h1, he]; exact heg
  intro i g hig
  have := hf i g (hg i g hig)
  cases hx : gradOf reg' g with
  | none => rfl
  | some y => rw [hg g y hx] at this; simp at this

theorem cleanup_at {n : Nat} {held : Nat → Nat} (c : Nat) : ∀ (l : List Nat) (reg : Reg),
    Bal n reg held → Spec.CleanSafe c held reg l → Spec.Flat reg →
    (∀ k, l.foldl (cleanOne c) reg k = none ∨ l.foldl (cleanOne c) reg k = reg k) ∧
    ∀ k ∈ l, Okay (Spec.KeptBy c) (l.foldl (cleanOne c) reg) k := by
  intro l
  induction l with
  | nil => intro reg _ _ _; exact ⟨fun k => Or.inr rfl, by simp⟩
  | cons i l ih =>
    intro reg h hs hf
    have h1 := bal_cleanup (held := held) c [i] reg h ⟨hs.1, trivial⟩
    have hone := fun k => (cleanOne_at c h hs hf k).1
    have hok := (cleanOne_at c h hs hf 0).2
    obtain ⟨h2, h3⟩ := ih (cleanOne c reg i) h1 hs.2 (flat_shrink hone hf)
    refine ⟨?_, ?_⟩
    · intro k
      rcases h2 k with h4 | h4
      · exact Or.inl h4
      · rcases hone k with h5 | h5
        · left; show l.foldl (cleanOne c) (cleanOne c reg i) k = none; rw [h4, h5]
        · right; show l.foldl (cleanOne c) (cleanOne c reg i) k = _; rw [h4, h5]
    · intro k hk
      rcases List.mem_cons.mp hk with rfl | hk
      · intro e he h0
        change l.foldl (cleanOne c) (cleanOne c reg k) k = _ at he
        rcases h2 k with h4 | h4
        · rw [h4] at he; simp at he
        · rw [h4] at he; exact hok e he h0
      · exact h3 k hk

theorem okay_step {st : St} (h : Bal st.next st.reg st.held) (s : Step) (hp : Spec.Possible st s)
    (hs : Spec.Safe st s) (hf : Spec.Flat st.reg) (hc : st.computing = false)
    (hk : ∀ k, Okay Spec.Kept st.reg k) (k : Nat) : Okay Spec.Kept (step st s).reg k := by
  cases s with
  | create r o => exact okay_create r o k (hk k)
  | clone i => exact okay_incr i k (hk k)
  | drop i => exact okay_drop h hp hs hf hc k (hk k)
  | grad i =>
    simp only [step, grad]
    cases gradOf st.reg i with
    | none => exact hk k
    | some g => exact okay_incr g k (hk k)
  | setGrad i g =>
    simp only [step, setGrad]
    cases st.reg g with
    | none => exact hk k
    | some e =>
      simp only [gradOf_incr]
      apply okay_setLink
      cases ho : gradOf st.reg i with
      | none => exact okay_incr g k (hk k)
      | some o =>
        exact okay_release (by rw [gradOf_incr]; exact hf i o ho) k (okay_incr g k (hk k))
  | zeroGrad i => exact okay_zeroGrad h hf k (hk k)
  | computing b => exact hk k
  | cleanup c order =>
    intro e he h0
    rcases (cleanup_at c order st.reg h hs hf).1 k with h1 | h1
    · simp only [step, cleanup] at he; rw [h1] at he; simp at he
    · simp only [step, cleanup] at he; rw [h1] at he; exact hk k e he h0

theorem computing_step (st : St) (s : Step) (h : s ≠ .computing true) (hc : st.computing = false) :
    (step st s).computing = false := by
  cases s with
  | computing b => cases b with
    | true => exact absurd rfl h
    | false => rfl
  | grad i => simp only [step, grad]; cases gradOf st.reg i <;> exact hc
  | setGrad i g => simp only [step, setGrad]; cases st.reg g <;> exact hc
  | zeroGrad i =>
    simp only [step, zeroGrad]
    cases gradOf st.reg i with
    | none => exact hc
    | some o =>
      simp only
      cases setLink st.reg i none o <;> exact hc
  | _ => exact hc

theorem okay_run : ∀ (l : List Step) (st : St), Bal st.next st.reg st.held →
    Spec.Along Spec.Possible st l → Spec.Along Spec.Safe st l →
    Spec.Along (fun st _ => Spec.Flat st.reg) st l → (∀ s ∈ l, s ≠ .computing true) →
    st.computing = false → (∀ k, Okay Spec.Kept st.reg k) →
    ∀ k, Okay Spec.Kept (run st l).reg k := by
  intro l
  induction l with
  | nil => intro st _ _ _ _ _ _ hk; exact hk
  | cons s l ih =>
    intro st h hp hs hf hn hc hk
    exact ih _ (bal_step h s hp.1 hs.1) hp.2 hs.2 hf.2 (fun x hx => hn x (List.mem_cons_of_mem _ hx))
      (computing_step st s (hn s List.mem_cons_self) hc) (okay_step h s hp.1 hs.1 hf.1 hc hk)

/-- No tensor has `i` as its gradient: then the number of links is 0. -/
theorem links_zero {n : Nat} {reg : Reg} {i : Nat} (h : ∀ j, gradOf reg j ≠ some i) :
    Spec.links n reg i = 0 := by
  unfold Spec.links
  exact Finset.sum_eq_zero fun j _ => if_neg (h j)

/-- C37, second half, for the same programs outside of `backward` and without gradients of
gradients: an entry that no handle and no gradient link refers to is gone, unless it is the result
of an operation (owned by a context), was made by `zero_grad`, or is not of run time.

What is missing from C37: those exceptions (`C37_op_result_leak_false`,
`C37_zero_grad_leak_false`; the first kind goes at the next clean-up, `C37_cleanup_partial`). -/
theorem C37_freed_partial (l : List Step) (hp : Spec.Along Spec.Possible init l)
    (hs : Spec.Along Spec.Safe init l) (hf : Spec.Along (fun st _ => Spec.Flat st.reg) init l)
    (hn : ∀ s ∈ l, s ≠ .computing true) (i : Nat) (hi : (run init l).held i = 0)
    (hl : ∀ j, gradOf (run init l).reg j ≠ some i) :
    (run init l).reg i = none ∨
      ∃ e, (run init l).reg i = some e ∧
        (e.owner ≠ none ∨ e.runtime = false ∨ e.isGrad = true) := by
  have hb := bal_run l init bal_init hp hs
  have hk := okay_run l init bal_init hp hs hf hn rfl (by intro k e he; simp [init] at he)
  generalize run init l = st at *
  cases hr : st.reg i with
  | none => exact Or.inl rfl
  | some e =>
    right
    refine ⟨e, rfl, hk i e hr ?_⟩
    have := hb.eq i
    rw [links_zero hl, hi] at this
    unfold rcOf at this
    rw [hr] at this
    exact this

/-- C37, second half, after the clean-up of context `c` (which `backward` and leaving a context
run over all entries): also inside `backward`, an entry that no handle and no link refers to is
gone, unless another context owns it, it was made by `zero_grad`, or is not of run time. -/
theorem C37_cleanup_partial (l : List Step) (c : Nat) (order : List Nat)
    (hp : Spec.Along Spec.Possible init l) (hs : Spec.Along Spec.Safe init l)
    (hf : Spec.Flat (run init l).reg)
    (hsafe : Spec.CleanSafe c (run init l).held (run init l).reg order)
    (hall : ∀ i, (run init l).reg i ≠ none → i ∈ order) (i : Nat)
    (hi : (run init l).held i = 0)
    (hl : ∀ j, gradOf (run init (l ++ [.cleanup c order])).reg j ≠ some i) :
    (run init (l ++ [.cleanup c order])).reg i = none ∨
      ∃ e, (run init (l ++ [.cleanup c order])).reg i = some e ∧
        ((∃ c', e.owner = some c' ∧ c' ≠ c) ∨ e.runtime = false ∨ e.isGrad = true) := by
  have hrun : run init (l ++ [.cleanup c order]) = cleanup (run init l) c order := by
    simp [run, List.foldl_append, step]
  rw [hrun] at hl ⊢
  have hb := bal_run l init bal_init hp hs
  generalize run init l = st at *
  have hb2 := bal_cleanup c order st.reg hb hsafe
  obtain ⟨h1, h2⟩ := cleanup_at c order st.reg hb hsafe hf
  simp only [cleanup] at hl ⊢
  cases hr : order.foldl (cleanOne c) st.reg i with
  | none => exact Or.inl rfl
  | some e =>
    right
    have hin : i ∈ order := by
      apply hall
      intro hn
      rcases h1 i with h3 | h3 <;> rw [hr] at h3
      · simp at h3
      · rw [hn] at h3; simp at h3
    refine ⟨e, rfl, h2 i hin e hr ?_⟩
    have := hb2.eq i
    rw [links_zero hl, hi] at this
    unfold rcOf at this
    rw [hr] at this
    exact this

/-! ## Cases that meet the hypotheses, and the excluded ones -/

section Check

/-- The gradient of `i`, checked over the tensors numbered below `n`. -/
def soleB (n : Nat) (reg : Reg) (held : Nat → Nat) (i : Nat) (notGrad : Bool) : Bool :=
  match gradOf reg i with
  | none => true
  | some g => held g == 0 && (List.range n).all (fun j => gradOf reg j != some g || j == i) &&
    match reg g with
    | some e => e.runtime && e.owner.isNone && (!notGrad || !e.isGrad)
    | none => false

def cleanB (n c : Nat) (held : Nat → Nat) : Reg → List Nat → Bool
  | _, [] => true
  | reg, i :: l => (held i != 0 || soleB n reg held i true) && cleanB n c held (cleanOne c reg i) l

def safeB (st : St) : Step → Bool
  | .drop i => st.held i != 1 || soleB st.next st.reg st.held i false
  | .cleanup c order => cleanB st.next c st.held st.reg order
  | _ => true

def flatB (n : Nat) (reg : Reg) : Bool :=
  (List.range n).all fun i => match gradOf reg i with
    | none => true
    | some g => (gradOf reg g).isNone

def alongB (P : St → Step → Bool) : St → List Step → Bool
  | _, [] => true
  | st, s :: l => P st s && alongB P (step st s) l

theorem soleB_spec {n : Nat} {reg : Reg} {held : Nat → Nat} (h : Bal n reg held) {i : Nat}
    {ng : Bool} (hb : soleB n reg held i ng = true) (g : Nat) (hg : gradOf reg i = some g) :
    held g = 0 ∧ (∀ j, gradOf reg j = some g → j = i) ∧
      ∃ e, reg g = some e ∧ e.runtime = true ∧ e.owner = none ∧ (ng = true → e.isGrad = false) := by
  unfold soleB at hb
  rw [hg] at hb
  simp only [Bool.and_eq_true, beq_iff_eq, List.all_eq_true, List.mem_range, Bool.or_eq_true,
    bne_iff_ne] at hb
  obtain ⟨⟨h1, h2⟩, h3⟩ := hb
  refine ⟨h1, ?_, ?_⟩
  · intro j hj
    rcases h2 j (h.lt_of_link hj) with h4 | h4
    · exact absurd hj h4
    · exact h4
  · cases hr : reg g with
    | none => rw [hr] at h3; simp at h3
    | some e =>
      rw [hr] at h3
      simp only [Bool.and_eq_true, Option.isNone_iff_eq_none, Bool.or_eq_true, Bool.not_eq_true'] at h3
      refine ⟨e, rfl, h3.1.1, h3.1.2, ?_⟩
      intro hng
      rcases h3.2 with h5 | h5
      · rw [hng] at h5; simp at h5
      · exact h5

theorem cleanB_spec {n c : Nat} {held : Nat → Nat} : ∀ (l : List Nat) (reg : Reg),
    Bal n reg held → cleanB n c held reg l = true → Spec.CleanSafe c held reg l := by
  intro l
  induction l with
  | nil => intro reg _ _; trivial
  | cons i l ih =>
    intro reg h hb
    simp only [cleanB, Bool.and_eq_true, Bool.or_eq_true, bne_iff_ne] at hb
    have h1 : held i = 0 → ∀ g, gradOf reg i = some g → held g = 0 ∧
        (∀ j, gradOf reg j = some g → j = i) ∧
        ∃ e, reg g = some e ∧ e.runtime = true ∧ e.owner = none ∧ e.isGrad = false := by
      intro hi g hg
      rcases hb.1 with h2 | h2
      · exact absurd hi h2
      · obtain ⟨a, b, e, c1, c2, c3, c4⟩ := soleB_spec h h2 g hg
        exact ⟨a, b, e, c1, c2, c3, c4 rfl⟩
    exact ⟨h1, ih _ (bal_cleanup (held := held) c [i] reg h ⟨h1, trivial⟩) hb.2⟩

theorem safeB_spec : ∀ (l : List Step) (st : St), Bal st.next st.reg st.held →
    Spec.Along Spec.Possible st l → alongB safeB st l = true → Spec.Along Spec.Safe st l := by
  intro l
  induction l with
  | nil => intro st _ _ _; trivial
  | cons s l ih =>
    intro st h hp hb
    simp only [alongB, Bool.and_eq_true] at hb
    have h1 : Spec.Safe st s := by
      cases s with
      | drop i =>
        intro hi g hg
        have h2 := hb.1
        simp only [safeB, Bool.or_eq_true, bne_iff_ne] at h2
        rcases h2 with h2 | h2
        · exact absurd hi h2
        · obtain ⟨a, b, e, c1, c2, c3, _⟩ := soleB_spec h h2 g hg
          exact ⟨a, b, e, c1, c2, c3⟩
      | cleanup c order => exact cleanB_spec order st.reg h hb.1
      | _ => trivial
    exact ⟨h1, ih _ (bal_step h s hp.1 h1) hp.2 hb.2⟩

theorem flatB_spec {n : Nat} {reg : Reg} {held : Nat → Nat} (h : Bal n reg held)
    (hb : flatB n reg = true) : Spec.Flat reg := by
  intro i g hg
  simp only [flatB, List.all_eq_true, List.mem_range] at hb
  have := hb i (h.lt_of_link hg)
  rw [hg] at this
  simpa using this

theorem flatB_along : ∀ (l : List Step) (st : St), Bal st.next st.reg st.held →
    Spec.Along Spec.Possible st l → Spec.Along Spec.Safe st l →
    alongB (fun st _ => flatB st.next st.reg) st l = true →
    Spec.Along (fun st _ => Spec.Flat st.reg) st l := by
  intro l
  induction l with
  | nil => intro st _ _ _ _; trivial
  | cons s l ih =>
    intro st h hp hs hb
    simp only [alongB, Bool.and_eq_true] at hb
    exact ⟨flatB_spec h hb.1, ih _ (bal_step h s hp.1 hs.1) hp.2 hs.2 hb.2⟩

end Check

/-- Two parameters, a clone, a gradient each, one of them read and dropped, replaced and zeroed;
then the first parameter goes away. -/
def exLife : List Step :=
  [.create true none, .create true none, .clone 0, .create true none, .setGrad 0 2, .drop 2,
   .create true none, .setGrad 1 3, .grad 1, .drop 3, .drop 3, .create true none, .setGrad 0 4,
   .drop 4, .zeroGrad 1, .drop 0, .drop 0]

theorem exLife_possible : Spec.Along Spec.Possible init exLife := by
  simp only [exLife, Spec.Along, Spec.Possible]
  decide +kernel

theorem exLife_safe : Spec.Along Spec.Safe init exLife :=
  safeB_spec _ _ bal_init exLife_possible (by decide +kernel)

theorem exLife_flat : Spec.Along (fun st _ => Spec.Flat st.reg) init exLife :=
  flatB_along _ _ bal_init exLife_possible exLife_safe (by decide +kernel)

/-- The hypotheses of `C37_live_partial` hold of `exLife`; tensor 1 is held, 5 is its gradient. -/
example : (∃ e, (run init exLife).reg 1 = some e) ∧ ∃ e, (run init exLife).reg 5 = some e :=
  ⟨(C37_live_partial exLife exLife_possible exLife_safe 1).1 (by decide +kernel),
    (C37_live_partial exLife exLife_possible exLife_safe 5).2.1 1 (by decide +kernel)⟩

/-- No link of `exLife`'s last state goes to `i`, checked over the six tensors. -/
theorem exLife_nolink (i : Nat)
    (h : (List.range 6).all (fun j => gradOf (run init exLife).reg j != some i) = true) (j : Nat) :
    gradOf (run init exLife).reg j ≠ some i := by
  intro hj
  have hb := bal_run exLife init bal_init exLife_possible exLife_safe
  have hlt : j < 6 := hb.lt_of_link hj
  simp only [List.all_eq_true, List.mem_range, bne_iff_ne] at h
  exact h j hlt hj

/-- The hypotheses of `C37_freed_partial` hold of `exLife`: the first parameter (0) and its last
gradient (4) are gone. -/
example : (run init exLife).reg 0 = none ∧ (run init exLife).reg 4 = none ∧
    ((run init exLife).reg 0 = none ∨ ∃ e, (run init exLife).reg 0 = some e ∧
      (e.owner ≠ none ∨ e.runtime = false ∨ e.isGrad = true)) :=
  ⟨by decide +kernel, by decide +kernel,
    C37_freed_partial exLife exLife_possible exLife_safe exLife_flat
      (by simp [exLife]) 0 (by decide +kernel) (exLife_nolink 0 (by decide +kernel))⟩

/-- An operation's result, dropped, and a temporary of `backward`, dropped there. -/
def exTemp : List Step :=
  [.create true none, .create true (some 0), .drop 1, .computing true, .create true none, .drop 2,
   .create true none, .setGrad 0 3, .drop 3, .computing false]

theorem exTemp_possible : Spec.Along Spec.Possible init exTemp := by
  simp only [exTemp, Spec.Along, Spec.Possible]
  decide +kernel

theorem exTemp_safe : Spec.Along Spec.Safe init exTemp :=
  safeB_spec _ _ bal_init exTemp_possible (by decide +kernel)

/-- The hypotheses of `C37_cleanup_partial` hold of `exTemp`: 1 and 2 are still there before the
clean-up and gone after it; 0 and its gradient 3 stay. -/
example : (run init exTemp).reg 1 ≠ none ∧ (run init exTemp).reg 2 ≠ none ∧
    (∀ i < 4, (run init (exTemp ++ [.cleanup 0 [3, 2, 1, 0]])).reg i = none ↔ i = 1 ∨ i = 2) ∧
    ((run init (exTemp ++ [.cleanup 0 [3, 2, 1, 0]])).reg 2 = none ∨
      ∃ e, (run init (exTemp ++ [.cleanup 0 [3, 2, 1, 0]])).reg 2 = some e ∧
        ((∃ c', e.owner = some c' ∧ c' ≠ 0) ∨ e.runtime = false ∨ e.isGrad = true)) := by
  have hb := bal_run exTemp init bal_init exTemp_possible exTemp_safe
  have hc : Spec.CleanSafe 0 (run init exTemp).held (run init exTemp).reg [3, 2, 1, 0] :=
    cleanB_spec _ _ hb (by decide +kernel)
  refine ⟨by decide +kernel, by decide +kernel, by decide +kernel,
    C37_cleanup_partial exTemp 0 [3, 2, 1, 0] exTemp_possible exTemp_safe
      (flatB_spec hb (by decide +kernel)) hc ?_ 2 (by decide +kernel) ?_⟩
  · intro i hi
    have : i < 4 := hb.sup i hi
    simp only [List.mem_cons, List.not_mem_nil, or_false]
    omega
  · intro j hj
    have hb2 := bal_run (exTemp ++ [.cleanup 0 [3, 2, 1, 0]]) init bal_init
      (by simp only [exTemp, List.cons_append, List.nil_append, Spec.Along, Spec.Possible]; decide +kernel)
      (safeB_spec _ _ bal_init
        (by simp only [exTemp, List.cons_append, List.nil_append, Spec.Along, Spec.Possible]
            decide +kernel) (by decide +kernel))
    have hlt : j < 4 := hb2.lt_of_link hj
    have : ∀ j < 4, gradOf (run init (exTemp ++ [.cleanup 0 [3, 2, 1, 0]])).reg j ≠ some 2 := by
      decide +kernel
    exact this j hlt hj

/-- C37 is false when a gradient is held while its tensor goes away: `let g = x.grad(); drop(x);
let h = g.clone(); drop(h)`.  `Drop` of `x` takes two off the gradient's count for one link
(tensor/core.rs:73-94 and registry.rs:20-24), so the next drop frees it under the handle `g`. -/
theorem C37_held_gradient_false :
    ∃ l : List Step, Spec.Along Spec.Possible init l ∧ 0 < (run init l).held 1 ∧
      (run init l).reg 1 = none := by
  refine ⟨[.create true none, .create true none, .setGrad 0 1, .drop 1, .grad 0, .drop 0, .clone 1,
    .drop 1], ?_, by decide +kernel, by decide +kernel⟩
  simp only [Spec.Along, Spec.Possible]
  decide +kernel

/-- C37 is false when two tensors share a gradient, as `backward` of `a + b` makes them do
(gradient/vjp_binary.rs): dropping `a` takes two off the shared count, and reading `b`'s gradient
twice, dropping it once, leaves a handle and a link to an entry that is gone. -/
theorem C37_shared_gradient_false :
    ∃ l : List Step, Spec.Along Spec.Possible init l ∧ 0 < (run init l).held 1 ∧
      gradOf (run init l).reg 1 = some 2 ∧ 0 < (run init l).held 2 ∧
      (run init l).reg 2 = none := by
  refine ⟨[.create true none, .create true none, .create true none, .setGrad 0 2, .setGrad 1 2,
    .drop 2, .drop 0, .grad 1, .drop 2, .grad 1], ?_, by decide +kernel, by decide +kernel,
    by decide +kernel, by decide +kernel⟩
  simp only [Spec.Along, Spec.Possible]
  decide +kernel

/-- `n` rounds of computing a result outside of any gradient context (owner: the default context,
internal.rs:38-48) and dropping it. -/
def inferLoop : Nat → List Step
  | 0 => []
  | n + 1 => inferLoop n ++ [.create true (some 0), .drop n]

theorem inferLoop_state (n : Nat) :
    Spec.Along Spec.Possible init (inferLoop n) ∧ (run init (inferLoop n)).next = n ∧
      (∀ i, (run init (inferLoop n)).held i = 0) ∧
      (∀ i < n, (run init (inferLoop n)).reg i =
        some { rc := 0, runtime := true, isGrad := false, owner := some 0, grad := none }) := by
  have happ : ∀ (P : St → Step → Prop) (a b : List Step) (st : St),
      Spec.Along P st (a ++ b) ↔ Spec.Along P st a ∧ Spec.Along P (run st a) b := by
    intro P a b
    induction a with
    | nil => intro st; simp [Spec.Along, run]
    | cons s a ih => intro st; simp only [List.cons_append, Spec.Along, ih, and_assoc]; rfl
  induction n with
  | zero => exact ⟨trivial, rfl, fun _ => rfl, by omega⟩
  | succ n ih =>
    obtain ⟨h1, h2, h3, h4⟩ := ih
    have hrun : run init (inferLoop (n + 1)) =
        drop (create (run init (inferLoop n)) true (some 0)) n := by
      simp [inferLoop, run, List.foldl_append, step]
    rw [hrun]
    refine ⟨?_, ?_, ?_, ?_⟩
    · rw [inferLoop, happ]
      refine ⟨h1, trivial, ?_, trivial⟩
      simp [Spec.Possible, step, create, h2]
    · simp [drop, create, h2]
    · intro i
      by_cases hi : i = n
      · subst hi; simp [drop, create, h2, h3]
      · simp [drop, create, h2, update_of_ne hi, h3]
    · intro i hi
      have hat : (create (run init (inferLoop n)) true (some 0)).reg n =
          some { rc := 1, runtime := true, isGrad := false, owner := some 0, grad := none } := by
        simp [create, h2]
      simp only [drop, hat]
      rw [if_neg (by simp [removable])]
      unfold decrG
      rw [hat]
      simp only
      by_cases hin : i = n
      · subst hin; simp
      · rw [update_of_ne hin]
        simp only [create, h2]
        rw [update_of_ne hin]
        exact h4 i (by omega)

/-- C37's second half is false of results of operations: without a `backward` or a context to
leave, every result stays in the registry for ever, with its storage, however many are made and
dropped. -/
theorem C37_op_result_leak_false (n : Nat) :
    ∃ l : List Step, Spec.Along Spec.Possible init l ∧ (∀ i, (run init l).held i = 0) ∧
      ∀ i < n, (run init l).reg i ≠ none ∧ ∀ j, gradOf (run init l).reg j ≠ some i := by
  obtain ⟨h1, h2, h3, h4⟩ := inferLoop_state n
  refine ⟨inferLoop n, h1, h3, fun i hi => ⟨by rw [h4 i hi]; simp, ?_⟩⟩
  intro j hj
  obtain ⟨e, he, heg⟩ := gradOf_some hj
  by_cases hjn : j < n
  · rw [h4 j hjn] at he
    injection he with he
    subst he
    simp at heg
  · have hb := bal_run (inferLoop n) init bal_init h1 (by
      have : ∀ (m : Nat), Spec.Along Spec.Safe init (inferLoop m) := by
        have happ : ∀ (P : St → Step → Prop) (a b : List Step) (st : St),
            Spec.Along P st (a ++ b) ↔ Spec.Along P st a ∧ Spec.Along P (run st a) b := by
          intro P a b
          induction a with
          | nil => intro st; simp [Spec.Along, run]
          | cons s a ih => intro st; simp only [List.cons_append, Spec.Along, ih, and_assoc]; rfl
        intro m
        induction m with
        | zero => trivial
        | succ m ih =>
          rw [inferLoop, happ]
          refine ⟨ih, trivial, ?_, trivial⟩
          intro _ g hg
          simp [step, create, (inferLoop_state m).2.1, gradOf] at hg
      exact this n)
    have := hb.lt_of_link hj
    omega

theorem cleanup_keep (c : Nat) (reg : Reg) : ∀ (l : List Nat),
    (l.all fun i => match reg i with
      | some e => e.rc != 0 || e.isGrad
      | none => true) = true → l.foldl (cleanOne c) reg = reg := by
  intro l
  induction l with
  | nil => intro _; rfl
  | cons i l ih =>
    intro h
    rw [List.all_cons, Bool.and_eq_true] at h
    have : cleanOne c reg i = reg := by
      unfold cleanOne
      have h1 := h.1
      cases hr : reg i with
      | none => rfl
      | some e =>
        rw [hr] at h1
        simp only [Bool.or_eq_true, bne_iff_ne] at h1 ⊢
        rw [if_neg]
        rintro ⟨-, h2, -, h3⟩
        rcases h1 with h1 | h1
        · exact h1 h2
        · rw [h3] at h1; simp at h1
    rw [List.foldl_cons, this]
    exact ih h.2

/-- C37's second half is false of gradients made by `zero_grad`: `x.zero_grad(); let h = x.grad();`
a second gradient replaces it, `drop(h)`; nobody refers to the zeros, and neither `Drop` nor any
clean-up removes them. -/
theorem C37_zero_grad_leak_false :
    ∃ l : List Step, Spec.Along Spec.Possible init l ∧ Spec.Along Spec.Safe init l ∧
      (run init l).held 2 = 0 ∧ (∀ j, gradOf (run init l).reg j ≠ some 2) ∧
      ∀ c, (run init (l ++ [.cleanup c [0, 1, 2, 3]])).reg 2 ≠ none := by
  have hp : Spec.Along Spec.Possible init [.create true none, .create true none, .setGrad 0 1,
      .drop 1, .zeroGrad 0, .grad 0, .create true none, .setGrad 0 3, .drop 3, .drop 2] := by
    simp only [Spec.Along, Spec.Possible]
    decide +kernel
  have hs := safeB_spec _ _ bal_init hp (by decide +kernel)
  refine ⟨_, hp, hs, by decide +kernel, ?_, ?_⟩
  · intro j hj
    have hb := bal_run _ init bal_init hp hs
    have hlt : j < 4 := hb.lt_of_link hj
    have : ∀ j < 4, gradOf (run init [.create true none, .create true none, .setGrad 0 1,
      .drop 1, .zeroGrad 0, .grad 0, .create true none, .setGrad 0 3, .drop 3, .drop 2]).reg j ≠
        some 2 := by decide +kernel
    exact this j hlt hj
  · intro c
    rw [show ∀ l : List Step, (run init (l ++ [.cleanup c [0, 1, 2, 3]])).reg =
      List.foldl (cleanOne c) (run init l).reg [0, 1, 2, 3] from fun l => by
        rw [run, List.foldl_append]; rfl]
    rw [cleanup_keep]
    · decide +kernel
    · decide +kernel

end Hodu.TReg
