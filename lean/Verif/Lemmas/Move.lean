import Verif.Model.Move
import Verif.Props.Elementwise

/-! Helper lemmas for the data-moving operations. -/

namespace Hodu
open Spec

/-- The index with `s` added to coordinate `k`. -/
def Spec.addAt (k s : Nat) (idx : List Nat) : List Nat := idx.modify k (· + s)

theorem cUnravel_eq (shape : List Nat) (id : Nat) :
    cUnravel shape id = (unravel shape (id % numel shape), id / numel shape) := by
  induction shape with
  | nil => simp [cUnravel, unravel, numel]
  | cons d ds ih =>
    have : cUnravel (d :: ds) id = ((cUnravel ds id).2 % d :: (cUnravel ds id).1, (cUnravel ds id).2 / d) :=
      rfl
    rw [this, ih]
    simp only [unravel, numel]
    rw [Nat.mod_mul_left_div_self, Nat.mod_mul_left_mod, Nat.div_div_eq_div_mul, Nat.mul_comm d]

theorem cUnravel_rowMajor {shape idx : List Nat} (h : InRange idx shape) :
    (cUnravel shape (rowMajor shape idx)).1 = idx := by
  rw [cUnravel_eq, Nat.mod_eq_of_lt (rowMajor_lt h)]
  exact unravel_rowMajor h

theorem cFlat_eq (start : Nat) (idx strides : List Nat) :
    cFlat start idx strides = start + dot idx strides := by
  unfold cFlat
  induction idx generalizing start strides with
  | nil => simp [dot]
  | cons i is ih =>
    cases strides with
    | nil => simp [dot]
    | cons s ss => simp [dot, ih, Nat.add_assoc]

/-- A loop over all positions of a shape whose body succeeds everywhere fills a fresh tensor. -/
theorem runLoop_elem {out : List Nat} {val : Nat → Res β}
    (h : ∀ idx, InRange idx out → ∃ v, val (rowMajor out idx) = .ok v) :
    ∃ zs, runLoop (numel out) val = .ok zs ∧ zs.length = numel out ∧
      ∀ idx, InRange idx out → ∀ v, val (rowMajor out idx) = .ok v →
        Tensor.elem ⟨zs, Layout.fromShape out⟩ idx = some v := by
  have hv : ∀ i, i < numel out → ∃ v, val i = .ok v := by
    intro i hi
    have := h _ (unravel_inRange hi)
    rwa [rowMajor_unravel hi] at this
  have : ∃ zs, runLoop (numel out) val = .ok zs := by
    unfold runLoop
    generalize hn : numel out = n at hv
    clear hn h
    have : ∀ l : List Nat, (∀ i ∈ l, i < n) → ∃ zs, Res.mapL val l = .ok zs := by
      intro l
      induction l with
      | nil => intro _; exact ⟨[], rfl⟩
      | cons a as ih =>
        intro hl
        obtain ⟨v, hv⟩ := hv a (hl a (by simp))
        obtain ⟨zs, hz⟩ := ih (fun i hi => hl i (by simp [hi]))
        exact ⟨v :: zs, by simp [Res.mapL, hv, hz]⟩
    exact this _ (by simp)
  obtain ⟨zs, hz⟩ := this
  obtain ⟨hlen, hget⟩ := Res.mapL_ok_inv hz
  simp only [List.length_range] at hlen
  refine ⟨zs, hz, hlen, fun idx hi v hval => ?_⟩
  have hlt := rowMajor_lt hi
  rw [Layout.fromShape, elem_rowMajor, Nat.zero_add]
  have hg := hget (rowMajor out idx) (by simpa using hlt) (by omega)
  rw [List.getElem_range, hval] at hg
  rw [List.getElem?_eq_getElem (by omega)]
  injection hg with hg
  rw [hg]

/-! ### Lists of equal-length lists -/

theorem flatMap_slice {ls : List β} {f : β → List Nat} {nd t : Nat} (hl : ∀ l ∈ ls, (f l).length = nd)
    (ht : t < ls.length) : sliceC (ls.flatMap f) (t * nd) nd = .ok (f ls[t]) := by
  induction ls generalizing t with
  | nil => simp at ht
  | cons l ls ih =>
    have h1 := hl l (by simp)
    cases t with
    | zero =>
      simp only [Nat.zero_mul, List.flatMap_cons, List.getElem_cons_zero]
      rw [← h1]
      simp [sliceC]
    | succ t =>
      have := ih (fun l hm => hl l (by simp [hm])) (t := t) (by simpa using ht)
      simp only [List.flatMap_cons, List.getElem_cons_succ]
      unfold sliceC at this ⊢
      rw [Nat.succ_mul]
      have hle : t * nd + nd ≤ (List.flatMap f ls).length := by
        by_contra hc
        rw [if_neg hc] at this
        cases this
      rw [if_pos hle] at this
      rw [if_pos (by rw [List.length_append, h1]; omega), Nat.add_comm (t * nd) nd, ← h1,
        List.drop_length_add_append, h1]
      exact this

theorem flatMap_read {ls : List β} {f : β → List Nat} {nd t k x : Nat}
    (hl : ∀ l ∈ ls, (f l).length = nd) (ht : t < ls.length) (hk : (f ls[t])[k]? = some x) :
    readC (ls.flatMap f) (t * nd + k) = .ok x := by
  have hlt : k < nd := by
    rw [← hl ls[t] (List.getElem_mem ht)]
    by_contra hc
    rw [List.getElem?_eq_none (by omega)] at hk
    cases hk
  have := flatMap_slice hl ht
  unfold sliceC at this
  split at this
  · injection this with this
    rw [← this] at hk
    rw [List.getElem?_take, if_pos hlt, List.getElem?_drop] at hk
    exact readC_eq_ok.mpr hk
  · cases this

theorem flatMap_length {ls : List β} {f : β → List γ} {nd : Nat} (hl : ∀ l ∈ ls, (f l).length = nd) :
    (ls.flatMap f).length = ls.length * nd := by
  induction ls with
  | nil => simp
  | cons l ls ih =>
    rw [List.flatMap_cons, List.length_append, hl l (by simp), ih (fun l hm => hl l (by simp [hm]))]
    simp [Nat.succ_mul]; omega

/-- Reading in a packed buffer. -/
theorem flatMap_packed {ls : List β} {f : β → List γ} {t x : Nat} (ht : t < ls.length)
    (hx : x < (f ls[t]).length) :
    (ls.flatMap f)[((ls.take t).map fun l => (f l).length).sum + x]? = (f ls[t])[x]? := by
  induction ls generalizing t with
  | nil => simp at ht
  | cons l ls ih =>
    cases t with
    | zero =>
      simp only [List.take_zero, List.map_nil, List.sum_nil, Nat.zero_add, List.flatMap_cons,
        List.getElem_cons_zero] at hx ⊢
      rw [List.getElem?_append_left hx]
    | succ t =>
      simp only [List.take_succ_cons, List.map_cons, List.sum_cons, List.flatMap_cons,
        List.getElem_cons_succ] at hx ⊢
      rw [List.getElem?_append_right (by omega), ← ih (by simpa using ht) hx]
      congr 1
      omega

theorem bufferOffsets_get (ls : List Layout) (s t : Nat) (ht : t < ls.length) :
    (bufferOffsets s ls)[t]? = some (s + ((ls.take t).map (·.size)).sum) := by
  induction ls generalizing s t with
  | nil => simp at ht
  | cons l ls ih =>
    cases t with
    | zero => simp [bufferOffsets]
    | succ t =>
      simp only [bufferOffsets, List.getElem?_cons_succ]
      rw [ih _ _ (by simpa using ht)]
      simp [Nat.add_assoc]

theorem bufferOffsets_length (ls : List Layout) (s : Nat) : (bufferOffsets s ls).length = ls.length := by
  induction ls generalizing s with
  | nil => rfl
  | cons l ls ih => simp [bufferOffsets, ih]

theorem decodeConcat_concatMetadata {ls : List Layout} {out : List Nat} {dim : Nat}
    (hd : ∀ l ∈ ls, l.dims.length = out.length) (hs : ∀ l ∈ ls, l.strides.length = out.length) :
    decodeConcat (concatMetadata ls dim out) =
      .ok { numEls := shapeSize out, nd := out.length, outShape := out, concatDim := dim,
            numInputs := ls.length, inShapes := ls.flatMap (·.dims),
            inStrides := ls.flatMap (·.strides), inOffsets := ls.map (·.offset),
            bufOffsets := bufferOffsets 0 ls } := by
  have h1 := flatMap_length (f := fun l : Layout => l.dims) hd
  have h2 := flatMap_length (f := fun l : Layout => l.strides) hs
  unfold decodeConcat concatMetadata
  generalize ls.flatMap (·.dims) = A at h1
  generalize ls.flatMap (·.strides) = B at h2
  have h3 : (ls.map (·.offset)).length = ls.length := by simp
  generalize ls.map (·.offset) = C at h3
  have h4 := bufferOffsets_length ls 0
  generalize bufferOffsets 0 ls = D at h4
  rw [show readC ([shapeSize out, out.length] ++ out ++ [dim, ls.length] ++ A ++ B ++ C ++ D) 0 =
    .ok (shapeSize out) by simp [readC]]
  rw [Res.ok_bind, show readC ([shapeSize out, out.length] ++ out ++ [dim, ls.length] ++ A ++ B ++ C ++ D) 1 =
    .ok out.length by simp [readC]]
  rw [Res.ok_bind, show [shapeSize out, out.length] ++ out ++ [dim, ls.length] ++ A ++ B ++ C ++ D =
    [shapeSize out, out.length] ++ out ++ ([dim, ls.length] ++ A ++ B ++ C ++ D) by simp,
    sliceC_mid _ _ _ 2 _ rfl rfl]
  rw [Res.ok_bind, show [shapeSize out, out.length] ++ out ++ ([dim, ls.length] ++ A ++ B ++ C ++ D) =
    ([shapeSize out, out.length] ++ out) ++ dim :: (ls.length :: (A ++ B ++ C ++ D)) by simp,
    readC_mid _ _ _ (2 + out.length) (by simp; omega)]
  rw [Res.ok_bind, show ([shapeSize out, out.length] ++ out) ++ dim :: (ls.length :: (A ++ B ++ C ++ D)) =
    ([shapeSize out, out.length] ++ out ++ [dim]) ++ ls.length :: (A ++ B ++ C ++ D) by simp,
    readC_mid _ _ _ (2 + out.length + 1) (by simp; omega)]
  rw [Res.ok_bind, show ([shapeSize out, out.length] ++ out ++ [dim]) ++ ls.length :: (A ++ B ++ C ++ D) =
    ([shapeSize out, out.length] ++ out ++ [dim, ls.length]) ++ A ++ (B ++ C ++ D) by simp,
    sliceC_mid _ _ _ (2 + out.length + 2) _ (by simp; omega) h1.symm]
  rw [Res.ok_bind, show ([shapeSize out, out.length] ++ out ++ [dim, ls.length]) ++ A ++ (B ++ C ++ D) =
    ([shapeSize out, out.length] ++ out ++ [dim, ls.length] ++ A) ++ B ++ (C ++ D) by simp,
    sliceC_mid _ _ _ (2 + out.length + 2 + _) _ (by simp; omega) h2.symm]
  rw [Res.ok_bind, show ([shapeSize out, out.length] ++ out ++ [dim, ls.length] ++ A) ++ B ++ (C ++ D) =
    ([shapeSize out, out.length] ++ out ++ [dim, ls.length] ++ A ++ B) ++ C ++ D by simp,
    sliceC_mid _ _ _ (2 + out.length + 2 + _ + _) _ (by simp; omega) h3.symm]
  rw [Res.ok_bind, show ([shapeSize out, out.length] ++ out ++ [dim, ls.length] ++ A ++ B) ++ C ++ D =
    ([shapeSize out, out.length] ++ out ++ [dim, ls.length] ++ A ++ B ++ C) ++ D ++ [] by simp,
    sliceC_mid _ _ _ (2 + out.length + 2 + _ + _ + _) _ (by simp; omega) h4.symm]
  rfl

theorem concatFind_ok {shapes ss : List Nat} {nd dim c j : Nat}
    (hs : ∀ i (hi : i < ss.length), readC shapes (i * nd + dim) = .ok ss[i])
    (hj : j < ss.length) (hc : c < ss[j]) :
    ∀ (k i : Nat), i + k = j → ∀ fuel, k < fuel →
      concatFind shapes nd dim ((ss.take j).sum + c) fuel i ((ss.take i).sum) =
        .ok (j, (ss.take j).sum) := by
  intro k
  induction k with
  | zero =>
    intro i hi fuel hf
    obtain ⟨fuel, rfl⟩ : ∃ f, fuel = f + 1 := ⟨fuel - 1, by omega⟩
    have : i = j := by omega
    subst this
    simp only [concatFind, hs i hj, Res.ok_bind]
    rw [if_pos (by omega)]
  | succ k ih =>
    intro i hi fuel hf
    obtain ⟨fuel, rfl⟩ : ∃ f, fuel = f + 1 := ⟨fuel - 1, by omega⟩
    have hil : i < ss.length := by omega
    have hsum : (ss.take (i + 1)).sum = (ss.take i).sum + ss[i] := by
      rw [List.take_succ_eq_append_getElem hil, List.sum_append]; simp
    have hle : (ss.take (i + 1)).sum ≤ (ss.take j).sum := by
      rw [show j = (i + 1) + k by omega, List.take_add (i := i + 1), List.sum_append]
      exact Nat.le_add_right _ _
    simp only [concatFind, hs i hil, Res.ok_bind]
    rw [if_neg (by omega), ← hsum]
    exact ih (i + 1) (by omega) fuel (by omega)

/-- Every coordinate below the total lies in exactly one operand's range. -/
theorem locate {ss : List Nat} {c : Nat} (h : c < ss.sum) :
    ∃ j, ∃ hj : j < ss.length, (ss.take j).sum ≤ c ∧ c - (ss.take j).sum < ss[j] := by
  induction ss generalizing c with
  | nil => simp at h
  | cons s ss ih =>
    by_cases hc : c < s
    · exact ⟨0, by simp, by simp, by simpa using hc⟩
    · have h' : c - s < ss.sum := by simp at h; omega
      obtain ⟨j, hj, h1, h2⟩ := ih h'
      refine ⟨j + 1, by simpa using hj, ?_, ?_⟩
      · simp; omega
      · simp; omega

/-! ### Indices with one coordinate changed -/

theorem inRange_set {idx dims : List Nat} {k c n : Nat} (h : InRange idx dims) (hc : c < n) :
    InRange (idx.set k c) (dims.set k n) := by
  rw [inRange_iff] at h ⊢
  obtain ⟨h1, h2⟩ := h
  refine ⟨by simp [h1], ?_⟩
  intro i hi hi'
  simp only [List.length_set] at hi hi'
  rw [List.getElem_set, List.getElem_set]
  split
  · exact hc
  · exact h2 i hi hi'

theorem inRange_get {idx dims : List Nat} {k d : Nat} (h : InRange idx dims) (hd : dims[k]? = some d) :
    ∃ c, idx[k]? = some c ∧ c < d := by
  obtain ⟨h1, h2⟩ := inRange_iff.mp h
  have hk : k < dims.length := by
    by_contra hc
    rw [List.getElem?_eq_none (by omega)] at hd
    cases hd
  refine ⟨idx[k], by simp [h1, hk], ?_⟩
  have := h2 k (by omega) hk
  rw [List.getElem?_eq_getElem hk] at hd
  injection hd with hd
  omega

theorem set_self {l : List Nat} {k x : Nat} (h : l[k]? = some x) : l.set k x = l := by
  apply List.ext_getElem?
  intro i
  rw [List.getElem?_set]
  split
  · subst_vars
    split
    · exact h.symm
    · rw [List.getElem?_eq_none (by omega)]
  · rfl

theorem addAt_eq_set {idx : List Nat} {k s c : Nat} (h : idx[k]? = some c) :
    addAt k s idx = idx.set k (c + s) := by
  unfold addAt
  apply List.ext_getElem?
  intro i
  rw [List.getElem?_set, List.getElem?_modify]
  split
  · subst_vars
    rw [h]
    have : i < idx.length := by
      by_contra hc
      rw [List.getElem?_eq_none (by omega)] at h
      cases h
    simp [this]
  · simp

theorem axisUsize_eq {n : Nat} {d : Int} {k : Nat} (h : IsAxis n d k) (hn : n < 2 ^ 31) :
    axisUsize n d = k := by
  obtain ⟨h1, h2⟩ := h
  unfold axisUsize castUsize
  rcases h2 with rfl | rfl
  · rw [if_neg (by omega)]; omega
  · rw [if_pos (by omega)]; omega

end Hodu
