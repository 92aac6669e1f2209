import Verif.Lemmas.TypedRed
import Verif.Props.Losses
import Verif.Model.Norm

/-!
# Cells of reductions over trailing axes and over everything but the channels
-/

namespace Hodu
open Spec

theorem zeroAxes_trailing (n m : Nat) {i j : List Nat} (hi : i.length = n) (hj : j.length ≤ m) :
    zeroAxes (List.range' n m) (i ++ j) = i ++ List.replicate j.length 0 := by
  subst hi
  unfold zeroAxes
  rw [List.mapIdx_append]
  congr 1
  · apply List.ext_getElem (by simp)
    intro k h1 h2
    simp only [List.length_mapIdx] at h1
    simp; omega
  · apply List.ext_getElem (by simp)
    intro k h1 h2
    simp only [List.length_mapIdx] at h1
    simp; omega

theorem zeroAxes_channel (m : Nat) {a b : Nat} {j : List Nat} (hj : j.length ≤ m) :
    zeroAxes (0 :: List.range' 2 m) (a :: b :: j) = 0 :: b :: List.replicate j.length 0 := by
  unfold zeroAxes
  simp only [List.mapIdx_cons, List.mem_cons, true_or, if_true]
  refine congrArg₂ _ rfl (congrArg₂ _ (by simp) ?_)
  apply List.ext_getElem (by simp)
  intro k h1 h2
  simp only [List.length_mapIdx] at h1
  simp; omega

/-- The positions a mean over the last axes runs over. -/
theorem cell_trailing {lead tail idx : List Nat} (h : InRange idx (lead ++ tail)) :
    (cell (List.range' lead.length tail.length) true (lead ++ tail)
      (reduceIndex (List.range' lead.length tail.length) true idx)).Perm
      ((allIndices tail).map fun q => idx.take lead.length ++ q) := by
  have hl := h.length
  simp only [List.length_append] at hl
  have hs := List.take_append_drop lead.length idx
  have hA : InRange (idx.take lead.length) lead ∧ InRange (idx.drop lead.length) tail := by
    rw [← hs] at h
    exact (inRange_append (by simp; omega)).mp h
  refine (List.perm_ext_iff_of_nodup (nodup_cell ..) ?_).mpr fun j => ?_
  · exact (nodup_allIndices _).map fun _ _ h => by simpa using h
  · rw [mem_cell]
    simp only [List.mem_map, mem_allIndices, reduceIndex, if_true]
    conv => lhs; rhs; rhs; rw [← hs]
    rw [zeroAxes_trailing _ _ hA.1.length hA.2.length.le]
    constructor
    · rintro ⟨h1, h2⟩
      have hjl := h1.length
      simp only [List.length_append] at hjl
      have hjs := List.take_append_drop lead.length j
      have hB : InRange (j.take lead.length) lead ∧ InRange (j.drop lead.length) tail := by
        rw [← hjs] at h1
        exact (inRange_append (by simp; omega)).mp h1
      rw [← hjs, zeroAxes_trailing _ _ hB.1.length hB.2.length.le] at h2
      refine ⟨_, hB.2, ?_⟩
      rw [← (List.append_inj h2 (by rw [hB.1.length, hA.1.length])).1, hjs]
    · rintro ⟨q, hq, rfl⟩
      refine ⟨(inRange_append hA.1.length).mpr ⟨hA.1, hq⟩, ?_⟩
      rw [zeroAxes_trailing _ _ hA.1.length hq.length.le, hq.length, hA.2.length]

/-- The positions a mean over all axes but the channels (axis 1) runs over. -/
theorem cell_channel {n c a b : Nat} {sp idx : List Nat} (h : InRange (a :: b :: idx) (n :: c :: sp)) :
    (cell (0 :: List.range' 2 sp.length) true (n :: c :: sp)
      (reduceIndex (0 :: List.range' 2 sp.length) true (a :: b :: idx))).Perm
      ((allIndices (n :: sp)).map fun q => q.headD 0 :: b :: q.tail) := by
  obtain ⟨ha, hb, hi⟩ := h
  refine (List.perm_ext_iff_of_nodup (nodup_cell ..) ?_).mpr fun j => ?_
  · refine (List.nodup_map_iff_inj_on (nodup_allIndices _)).mpr fun q hq r hr h => ?_
    match q, r, mem_allIndices.mp hq, mem_allIndices.mp hr with
    | x :: q, y :: r, _, _ => simpa using h
  · rw [mem_cell]
    simp only [List.mem_map, mem_allIndices, reduceIndex, if_true]
    rw [zeroAxes_channel _ hi.length.le]
    constructor
    · rintro ⟨h1, h2⟩
      match j, h1 with
      | x :: y :: r, ⟨hx, hy, hr⟩ =>
        rw [zeroAxes_channel _ hr.length.le] at h2
        simp only [List.cons.injEq, true_and] at h2
        exact ⟨x :: r, ⟨hx, hr⟩, by simp [h2.1]⟩
    · rintro ⟨q, hq, rfl⟩
      match q, hq with
      | x :: r, ⟨hx, hr⟩ =>
        refine ⟨⟨hx, hb, hr⟩, ?_⟩
        simp only [List.headD_cons, List.tail_cons]
        rw [zeroAxes_channel _ hr.length.le, hr.length, hi.length]

theorem broadcastsTo_trailing (lead tail : List Nat) : BroadcastsTo tail (lead ++ tail) := by
  refine ⟨by simp, fun k y hk => Or.inr ?_⟩
  have hl : (lead ++ tail).length - tail.length = lead.length := by simp
  rw [hl, List.getElem?_append_right (by omega)]
  simpa using hk

theorem broadcastIndex_trailing {lead tail j : List Nat} (hj : InRange j (lead ++ tail)) :
    broadcastIndex tail j = j.drop lead.length := by
  have hl := hj.length
  have h : broadcastIndex tail j = broadcastIndex tail (j.drop lead.length) := by
    unfold broadcastIndex
    rw [List.drop_drop]
    congr 2
    simp only [List.length_append, List.length_drop] at hl ⊢
    omega
  rw [h]
  refine broadcastIndex_self ?_
  rw [← List.take_append_drop lead.length j] at hj
  exact ((inRange_append (by simp at hl ⊢; omega)).mp hj).2

/-! ### Channels -/

/-- A tensor of one number per channel, as a view which broadcasts over the other dimensions. -/
theorem TVal.reshape {α : Type} {x : TT α} {dt : DType} {d e : List Nat} {F G : List Nat → α}
    (h : TVal x dt d F) (hn : numel d = numel e)
    (hv : ∀ i j, InRange i d → InRange j e → rowMajor d i = rowMajor e j → F i = G j) :
    ∃ r, TT.reshape x e = .ok r ∧ TVal r dt e G := by
  obtain ⟨t, rfl, h⟩ := h
  obtain ⟨r, h1, h2⟩ := h.reshape hn hv
  exact ⟨.num dt r, by simp [TT.reshape, h1], r, rfl, h2⟩

theorem numel_ones (m : Nat) : numel (List.replicate m 1) = 1 := by
  induction m with
  | zero => rfl
  | succ m ih => simp [List.replicate_succ, numel, ih]

theorem inRange_ones {m : Nat} {q : List Nat} (h : InRange q (List.replicate m 1)) :
    q = List.replicate m 0 := by
  induction m generalizing q with
  | zero => cases q with
    | nil => rfl
    | cons _ _ => exact absurd h id
  | succ m ih => cases q with
    | nil => exact absurd h id
    | cons x q =>
      obtain ⟨h1, h2⟩ := h
      rw [List.replicate_succ, ih h2]
      congr 1
      omega

theorem rowMajor_replicate_zero (m : Nat) (d : List Nat) : rowMajor d (List.replicate m 0) = 0 := by
  induction d generalizing m with
  | nil => cases m <;> simp [rowMajor]
  | cons x d ih => cases m with
    | zero => simp [rowMajor]
    | succ m => simp [rowMajor, List.replicate_succ, ih]

theorem TVal.perChannel {α : Type} {x : TT α} {dt : DType} {c : Nat} {F : List Nat → α}
    (h : TVal x dt [c] F) (m : Nat) :
    ∃ r, TT.reshape x (1 :: c :: List.replicate m 1) = .ok r ∧
      TVal r dt (1 :: c :: List.replicate m 1) fun j => F [j.getD 1 0] := by
  refine h.reshape (by simp [numel, numel_ones]) fun i j hi hj he => ?_
  match i, hi, j, hj with
  | [k], ⟨hk, _⟩, a :: b :: q, ⟨ha, hb, hq⟩ =>
    obtain rfl : a = 0 := by omega
    rw [inRange_ones hq] at he
    simp [rowMajor, numel_ones, rowMajor_replicate_zero, numel] at he
    simp [he]

theorem broadcastsTo_channel (n c : Nat) (sp : List Nat) :
    BroadcastsTo (1 :: c :: List.replicate sp.length 1) (n :: c :: sp) := by
  refine ⟨by simp, fun k d hk => ?_⟩
  match k with
  | 0 => left; simpa using hk.symm
  | 1 => right; simpa using hk
  | k + 2 =>
    left
    simp only [List.getElem?_cons_succ] at hk
    rw [List.getElem?_replicate] at hk
    split at hk <;> simp_all

theorem broadcastIndex_channel {n c a b : Nat} {sp q : List Nat}
    (h : InRange (a :: b :: q) (n :: c :: sp)) :
    (broadcastIndex (1 :: c :: List.replicate sp.length 1) (a :: b :: q)).getD 1 0 = b := by
  obtain ⟨-, hb, hq⟩ := h
  have hl := hq.length
  simp only [broadcastIndex, List.length_cons, List.length_replicate, hl, Nat.sub_self, List.drop_zero,
    List.zipWith_cons_cons, List.getD_cons_succ, List.getD_cons_zero]
  split <;> omega

theorem pos_channel {n c : Nat} {sp : List Nat} (hpd : ∀ x ∈ n :: c :: sp, 0 < x) :
    ∀ x ∈ 1 :: c :: List.replicate sp.length 1, 0 < x := by
  intro x hx
  simp only [List.mem_cons, List.mem_replicate] at hx
  rcases hx with rfl | rfl | ⟨-, rfl⟩
  · exact one_pos
  · exact hpd _ (by simp)
  · exact one_pos

end Hodu
