import Verif.Props.Reduce

/-!
# C108: any and all

The kernels store one byte per result, in a buffer allocated with the element type of the input.
-/

namespace Hodu
open Spec

variable {α : Type}

/-! ## Specification -/

/-- Some element with a property is reduced into `idx`. -/
def Spec.SomeElement (t : Tensor α) (K : List Nat) (keep : Bool) (idx : List Nat) (P : α → Prop) : Prop :=
  ∃ j v, InRange j t.dims ∧ reduceIndex K keep j = idx ∧ t.elem j = some v ∧ P v

/-- The full claim, for the integer types: 1 or 0 at every index of the result. -/
def C108_full : Prop :=
  ∀ (dt : DType) (junk : Nat → Nat) (t : Tensor Nat) (ds : List Int) (K : List Nat), dt.isInt ∨ dt.isUint → t.WF →
    t.dims.length ≤ 16 → NamesAxes t.dims.length ds K → K.Nodup →
    ∃ r, t.boolReduce dt junk (anyComb (· != 0)) ds true = .ok r ∧ ∀ idx, InRange idx (reduceShape K true t.dims) →
      (SomeElement t K true idx (· ≠ 0) → r.elem idx = some 1) ∧
      (¬ SomeElement t K true idx (· ≠ 0) → r.elem idx = some 0)

/-! ## One-byte types -/

theorem boolReduce_ok {t : Tensor α} {ds : List Int} {K : List Nat} {keep : Bool} {dt : DType} (junk : Nat → Nat)
    (hdt : dt.sizeInBytes = 1) (ht : t.WF)
    (hr : t.dims.length ≤ 16) (hax : NamesAxes t.dims.length ds K) (hn : K.Nodup)
    (hz : keep = false → ∀ p, p ∉ K → t.dims[p]? ≠ some 0) (comb : List (List Nat × α) → Nat) (hc : ∀ vs, comb vs ≤ 1) :
    ∃ r, t.boolReduce dt junk comb ds keep = .ok r ∧ r.WF ∧ r.dims = reduceShape K keep t.dims ∧
      ∀ idx, InRange idx (reduceShape K keep t.dims) →
        ∃ js vals, Fibre K keep t.dims idx js ∧ js.map t.elem = vals.map some ∧
          r.elem idx = some (comb (js.zip vals)) := by
  obtain ⟨zs, h1, h2, h3⟩ := reduceKernel_ok (K := K) (keep := keep) ht hr comb
    (fun idx vs => ∃ js vals, Fibre K keep t.dims idx js ∧ js.map t.elem = vals.map some ∧
      vs = js.zip vals)
    (fun idx hi => by
      obtain ⟨js, vals, a, b, c⟩ := reduceVisits_ok ht hn hax.lt hi
      exact ⟨_, ⟨js, vals, a, b, rfl⟩, c⟩)
  have hsmall : ∀ x ∈ zs, x < 256 ^ 1 := by
    intro x hx
    obtain ⟨p, hp, e⟩ := List.mem_iff_getElem.mp hx
    obtain ⟨vs, _, k1⟩ := h3 _ (unravel_inRange (dims := reduceShape K keep t.dims) (n := p) (by omega))
    rw [Layout.fromShape, elem_rowMajor, rowMajor_unravel (by omega), Nat.zero_add, List.getElem?_eq_getElem hp, e] at k1
    have := Option.some.inj k1
    have := hc vs
    omega
  refine ⟨⟨zs, Layout.fromShape (reduceShape K keep t.dims)⟩, ?_, fresh_wf h2.symm, rfl, ?_⟩
  · unfold Tensor.boolReduce
    rw [reduceWith_eq _ hr hax hz, h1, Res.ok_bind, hdt, storeAs_same (by decide) zs hsmall]
    rfl
  · intro idx hi
    obtain ⟨_, ⟨js, vals, a, b, rfl⟩, c⟩ := h3 idx hi
    exact ⟨js, vals, a, b, c⟩

/-- Pairs of a fibre with its values. -/
theorem mem_fibre {t : Tensor α} {K : List Nat} {keep : Bool} {idx : List Nat} {js : List (List Nat)} {vals : List α}
    (hf : Fibre K keep t.dims idx js) (hv : js.map t.elem = vals.map some) (P : α → Prop) :
    (∃ p ∈ js.zip vals, P p.2) ↔ SomeElement t K keep idx P := by
  have hlen : js.length = vals.length := by
    have := congrArg List.length hv
    simpa using this
  have key : ∀ (p : Nat) (h1 : p < js.length) (h2 : p < vals.length), t.elem js[p] = some vals[p] := by
    intro p h1 h2
    have hv' := congrArg (fun l => l[p]?) hv
    simpa [List.getElem?_map, List.getElem?_eq_getElem h1, List.getElem?_eq_getElem h2] using hv'
  constructor
  · rintro ⟨⟨j, v⟩, hm, hp⟩
    obtain ⟨p, hlt, e⟩ := List.mem_iff_getElem.mp hm
    simp only [List.length_zip] at hlt
    simp only [List.getElem_zip, Prod.mk.injEq] at e
    have h := key p (by omega) (by omega)
    rw [e.1, e.2] at h
    have hj := (hf.mem j).mp (by rw [← e.1]; exact List.getElem_mem _)
    exact ⟨j, v, hj.1, hj.2, h, hp⟩
  · rintro ⟨j, v, h1, h2, h3, hp⟩
    obtain ⟨p, hlt, e⟩ := List.mem_iff_getElem.mp ((hf.mem j).mpr ⟨h1, h2⟩)
    have h := key p hlt (by omega)
    rw [e, h3] at h
    refine ⟨(j, v), ?_, hp⟩
    rw [List.mem_iff_getElem]
    exact ⟨p, by simp; omega, by simp [e, Option.some.inj h]⟩

/-- **C108, any**: for the one-byte types 1 where some element is not zero, else 0.  Missing: all other types
(false, `C108_allocator`), repeated axes, rank above 16, empty axes without `keep_dim`. -/
theorem C108_any_partial {t : Tensor α} {ds : List Int} {K : List Nat} {keep : Bool} {dt : DType} (junk : Nat → Nat)
    (nz : α → Bool) (hdt : dt.sizeInBytes = 1) (ht : t.WF)
    (hr : t.dims.length ≤ 16) (hax : NamesAxes t.dims.length ds K) (hn : K.Nodup)
    (hz : keep = false → ∀ p, p ∉ K → t.dims[p]? ≠ some 0) :
    ∃ r, t.boolReduce dt junk (anyComb nz) ds keep = .ok r ∧ r.WF ∧ r.dims = reduceShape K keep t.dims ∧
      ∀ idx, InRange idx (reduceShape K keep t.dims) →
        (SomeElement t K keep idx (nz · = true) → r.elem idx = some 1) ∧
        (¬ SomeElement t K keep idx (nz · = true) → r.elem idx = some 0) := by
  obtain ⟨r, h1, h2, h3, h4⟩ := boolReduce_ok junk hdt ht hr hax hn hz (anyComb nz)
    (fun vs => by unfold anyComb; split <;> omega)
  refine ⟨r, h1, h2, h3, fun idx hi => ?_⟩
  obtain ⟨js, vals, a, b, c⟩ := h4 idx hi
  rw [← mem_fibre a b, c]
  unfold anyComb
  constructor
  · intro h
    rw [if_pos (List.any_eq_true.mpr h)]
  · intro h
    rw [if_neg (fun h' => h (List.any_eq_true.mp h'))]

/-- **C108, all**: for the one-byte types 0 where some element is zero, else 1. -/
theorem C108_all_partial {t : Tensor α} {ds : List Int} {K : List Nat} {keep : Bool} {dt : DType} (junk : Nat → Nat)
    (nz : α → Bool) (hdt : dt.sizeInBytes = 1) (ht : t.WF)
    (hr : t.dims.length ≤ 16) (hax : NamesAxes t.dims.length ds K) (hn : K.Nodup)
    (hz : keep = false → ∀ p, p ∉ K → t.dims[p]? ≠ some 0) :
    ∃ r, t.boolReduce dt junk (allComb nz) ds keep = .ok r ∧ r.WF ∧ r.dims = reduceShape K keep t.dims ∧
      ∀ idx, InRange idx (reduceShape K keep t.dims) →
        (SomeElement t K keep idx (nz · = false) → r.elem idx = some 0) ∧
        (¬ SomeElement t K keep idx (nz · = false) → r.elem idx = some 1) := by
  obtain ⟨r, h1, h2, h3, h4⟩ := boolReduce_ok junk hdt ht hr hax hn hz (allComb nz)
    (fun vs => by unfold allComb; split <;> omega)
  refine ⟨r, h1, h2, h3, fun idx hi => ?_⟩
  obtain ⟨js, vals, a, b, c⟩ := h4 idx hi
  rw [← mem_fibre a b, c]
  unfold allComb
  constructor
  · rintro ⟨p, hp, hv⟩
    rw [if_neg (fun h' => by
      have := List.all_eq_true.mp h' p hp
      rw [hv] at this
      exact absurd this (by decide))]
  · intro h
    rw [if_pos (List.all_eq_true.mpr fun p hp => by
      by_contra hc
      exact h ⟨p, hp, by simpa using hc⟩)]

/-- A transposed matrix of unsigned bytes. -/
example :
    let t : Tensor Nat := ⟨[0, 7, 0, 0, 0, 9], ⟨[3, 2], [1, 3], 0⟩⟩
    t.boolReduce .u8 (fun _ => 77) (anyComb (· != 0)) [0] false = .ok ⟨[1, 1], Layout.fromShape [2]⟩ ∧
    t.boolReduce .u8 (fun _ => 77) (anyComb (· != 0)) [1] true = .ok ⟨[0, 1, 1], Layout.fromShape [3, 1]⟩ ∧
    t.boolReduce .u8 (fun _ => 77) (allComb (· != 0)) [1] true = .ok ⟨[0, 0, 0], Layout.fromShape [3, 1]⟩ := by
  decide +kernel

/-! ## Larger types -/

/-- Values of one byte in larger elements: the last byte of the buffer is not written. -/
theorem storeAs_junk {sz : Nat} (hsz : 1 < sz) {xs : List Nat} (hx : xs ≠ []) :
    ∃ junk junk' ys ys', storeAs 1 sz junk xs = .ok ys ∧ storeAs 1 sz junk' xs = .ok ys' ∧
      ys[xs.length - 1]? ≠ ys'[xs.length - 1]? := by
  have hpos : 0 < xs.length := List.length_pos_iff.mpr hx
  refine ⟨fun _ => 0, fun _ => 255 * 256 ^ (sz - 1), _, _, by unfold storeAs; rw [if_neg hx, if_neg (by omega)],
    by unfold storeAs; rw [if_neg hx, if_neg (by omega)], ?_⟩
  simp only [List.getElem?_map]
  rw [List.getElem?_range (by omega)]
  simp only [Option.map_some, ne_eq, Option.some.injEq]
  obtain ⟨s, rfl⟩ : ∃ s, sz = s + 1 := ⟨sz - 1, by omega⟩
  rw [List.range_succ]
  simp only [List.map_append, List.sum_append, List.map_singleton, List.sum_singleton]
  have hout : xs[((xs.length - 1) * (s + 1) + s) / 1]? = none := by
    rw [List.getElem?_eq_none_iff, Nat.div_one, Nat.mul_add, Nat.mul_one]
    have : xs.length - 1 ≤ (xs.length - 1) * s := Nat.le_mul_of_pos_right _ (by omega)
    omega
  rw [hout]
  have he : ((List.range s).map fun k => (xs[((xs.length - 1) * (s + 1) + k) / 1]?.elim (leByte 0 k)
        fun x => leByte x (((xs.length - 1) * (s + 1) + k) % 1)) * 256 ^ k) =
      ((List.range s).map fun k => (xs[((xs.length - 1) * (s + 1) + k) / 1]?.elim (leByte (255 * 256 ^ (s + 1 - 1)) k)
        fun x => leByte x (((xs.length - 1) * (s + 1) + k) % 1)) * 256 ^ k) := by
    refine List.map_congr_left fun k hk => ?_
    rw [List.mem_range] at hk
    have : leByte (255 * 256 ^ (s + 1 - 1)) k = leByte 0 k := by
      unfold leByte
      obtain ⟨d, rfl⟩ : ∃ d, s = k + (d + 1) := ⟨s - k - 1, by omega⟩
      rw [Nat.add_sub_cancel, Nat.pow_add, Nat.pow_succ]
      rw [show 255 * (256 ^ k * (256 ^ d * 256)) = 256 ^ k * (255 * 256 ^ d * 256) by ring,
        Nat.mul_div_cancel_left _ (by positivity)]
      simp
    rw [this]
  rw [he]
  simp only [Option.elim_none, leByte]
  rw [Nat.add_sub_cancel, Nat.mul_div_cancel _ (by positivity)]
  simp

/-- **C108 for the larger types**: whenever the result has an element, it depends on what the allocator left in the
buffer. -/
theorem C108_allocator {t : Tensor α} {ds : List Int} {K : List Nat} {keep : Bool} {dt : DType} (hdt : 1 < dt.sizeInBytes)
    (ht : t.WF) (hr : t.dims.length ≤ 16) (hax : NamesAxes t.dims.length ds K) (hn : K.Nodup)
    (hz : keep = false → ∀ p, p ∉ K → t.dims[p]? ≠ some 0) (comb : List (List Nat × α) → Nat)
    (hne : numel (reduceShape K keep t.dims) ≠ 0) :
    ∃ junk junk' r r', t.boolReduce dt junk comb ds keep = .ok r ∧ t.boolReduce dt junk' comb ds keep = .ok r' ∧
      ∃ idx, InRange idx (reduceShape K keep t.dims) ∧ r.elem idx ≠ r'.elem idx := by
  obtain ⟨zs, h1, h2, _⟩ := reduceKernel_ok (K := K) (keep := keep) ht hr comb (fun _ _ => True)
    (fun idx hi => by
      obtain ⟨js, vals, a, b, c⟩ := reduceVisits_ok ht hn hax.lt hi
      exact ⟨_, trivial, c⟩)
  obtain ⟨junk, junk', ys, ys', e1, e2, e3⟩ := storeAs_junk hdt (xs := zs) (by
    intro h
    rw [h] at h2
    exact hne h2.symm)
  have key : ∀ junk ys, storeAs 1 dt.sizeInBytes junk zs = .ok ys → t.boolReduce dt junk comb ds keep =
      .ok ⟨ys, Layout.fromShape (reduceShape K keep t.dims)⟩ := by
    intro junk ys h
    unfold Tensor.boolReduce
    rw [reduceWith_eq _ hr hax hz, h1, Res.ok_bind, h]
    rfl
  have hlt : zs.length - 1 < numel (reduceShape K keep t.dims) := by omega
  refine ⟨junk, junk', _, _, key _ _ e1, key _ _ e2, unravel _ (zs.length - 1), unravel_inRange hlt, ?_⟩
  rw [Layout.fromShape, elem_rowMajor, elem_rowMajor, rowMajor_unravel hlt, Nat.zero_add]
  exact e3

/-- **C108 is false as stated**: of two rows, the first with a 1, the answers land in the first element, behind
each other, and the second element is what the allocator left. -/
theorem C108_full_false : ¬ C108_full ∧
    (⟨[1, 0, 0, 1], Layout.fromShape [2, 2]⟩ : Tensor Nat).boolReduce .u32 (fun _ => 0x4D4D4D4D) (anyComb (· != 0)) [1] true =
      .ok ⟨[0x4D4D0101, 0x4D4D4D4D], Layout.fromShape [2, 1]⟩ ∧
    (⟨[0x3F800000], Layout.fromShape [1]⟩ : Tensor Nat).boolReduce .f32 (fun _ => 0) (anyComb (· != 0)) [0] false =
      .ok ⟨[1], Layout.fromShape []⟩ := by
  have hc : (⟨[1, 0, 0, 1], Layout.fromShape [2, 2]⟩ : Tensor Nat).boolReduce .u32 (fun _ => 0x4D4D4D4D)
      (anyComb (· != 0)) [1] true = .ok ⟨[0x4D4D0101, 0x4D4D4D4D], Layout.fromShape [2, 1]⟩ := by decide +kernel
  refine ⟨fun h => ?_, hc, by decide +kernel⟩
  obtain ⟨r, h1, h2⟩ := h .u32 (fun _ => 0x4D4D4D4D) ⟨[1, 0, 0, 1], Layout.fromShape [2, 2]⟩ [1] [1] (by decide)
    (fresh_wf_list _ _ rfl) (by decide) (.inr ⟨by simp, .cons ⟨by decide, .inl rfl⟩ .nil⟩) (by decide)
  rw [hc] at h1
  injection h1 with h1
  subst h1
  have := (h2 [0, 0] (by decide)).1 ⟨[0, 0], 1, by decide, by decide, by decide +kernel, by decide⟩
  revert this
  decide +kernel

/-- The hypotheses of `C108_allocator` on a 2×2 matrix. -/
example : 1 < DType.f32.sizeInBytes ∧ NamesAxes 2 [-1] [1] ∧ numel (reduceShape [1] false [2, 2]) ≠ 0 :=
  ⟨by decide, .inr ⟨by simp, .cons ⟨by decide, .inr (by decide)⟩ .nil⟩, by decide⟩

end Hodu
