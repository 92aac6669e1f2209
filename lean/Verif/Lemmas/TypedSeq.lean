import Verif.Model.Recurrent
import Verif.Lemmas.TypedMat
import Verif.Props.Batch
import Verif.Props.Indexing

/-!
# Rows, column slices and stacks of typed tensors
-/

namespace Hodu
open Spec

variable {α : Type} {E : Rt α} {dt : DType}

/-- A tensor with known values whose buffer holds nothing else. -/
def TEx (x : TT α) (dt : DType) (d : List Nat) (F : List Nat → α) : Prop :=
  ∃ t, x = .num dt t ∧ Val t d F ∧ t.storage.length = numel d

theorem TEx.val {x : TT α} {d : List Nat} {F : List Nat → α} (h : TEx x dt d F) : TVal x dt d F := by
  obtain ⟨t, h1, h2, _⟩ := h; exact ⟨t, h1, h2⟩

theorem TEx.congr {x : TT α} {d : List Nat} {F G : List Nat → α} (h : TEx x dt d F)
    (hc : ∀ i, InRange i d → F i = G i) : TEx x dt d G := by
  obtain ⟨t, h1, h2, h3⟩ := h; exact ⟨t, h1, h2.congr hc, h3⟩

/-- The result of a binary operation fills its buffer. -/
theorem TEx.bin (E : Rt α) {a b : TT α} {d e : List Nat} {F G : List Nat → α} (hf : dt.isFloat = true) {o : BOp}
    (ho : o ≠ .rem) (ha : TVal a dt d F) (hb : TVal b dt e G) (hbr : BroadcastsTo e d)
    (hpd : ∀ x ∈ d, 0 < x) (hpe : ∀ x ∈ e, 0 < x) :
    ∃ r, E.bin o a b = .ok r ∧ TEx r dt d (fun i => E.A.bin o (F i) (G (broadcastIndex e i))) := by
  obtain ⟨s, rfl, ha⟩ := ha
  obtain ⟨t, rfl, hb⟩ := hb
  obtain ⟨r, h1, h2⟩ := ha.binary hb hbr hpd hpe E.cores (E.A.bin o) E.fill
  obtain ⟨l, hl⟩ := backend_binary hf ho
  refine ⟨.num dt r, by simp [Rt.bin, TT.dtype, validate_binary hf, h1, hl], r, rfl, h2, ?_⟩
  obtain ⟨r', h3, _, h4, _⟩ := (C10_buffer ha.wf hb.wf (by rw [ha.dims]; exact hpd) (by rw [hb.dims]; exact hpe)
    (E.A.bin o) E.cores E.fill).2 (by rw [ha.dims, hb.dims]; exact (commonShape_of_broadcastsTo hbr).1)
  rw [h1] at h3
  cases h3
  rw [h4, h2.dims]

theorem TEx.bin_same (E : Rt α) {a b : TT α} {d : List Nat} {F G : List Nat → α} (hf : dt.isFloat = true) {o : BOp}
    (ho : o ≠ .rem) (ha : TVal a dt d F) (hb : TVal b dt d G) (hpd : ∀ x ∈ d, 0 < x) :
    ∃ r, E.bin o a b = .ok r ∧ TEx r dt d (fun i => E.A.bin o (F i) (G i)) := by
  obtain ⟨r, h1, h2⟩ := TEx.bin E hf ho ha hb (broadcastsTo_self d) hpd hpd
  exact ⟨r, h1, h2.congr fun idx hi => by rw [broadcastIndex_self hi]⟩

/-- The result of a unary operation fills its buffer. -/
theorem TEx.un (E : Rt α) {a : TT α} {d : List Nat} {F : List Nat → α} (hf : dt.isFloat = true) (o : UOp)
    (ha : TVal a dt d F) : ∃ r, E.un o a = .ok r ∧ TEx r dt d (fun i => E.A.un o (F i)) := by
  obtain ⟨s, rfl, ha⟩ := ha
  obtain ⟨r, h1, h2⟩ := ha.unary E.cores (E.A.un o) E.fill
  obtain ⟨l, hl⟩ := backend_unary hf o
  refine ⟨.num dt r, by simp [Rt.un, TT.dtype, validate_unary hf, h1, hl], r, rfl, h2, ?_⟩
  obtain ⟨xs, hx⟩ := ha.wf.hasValues
  have hk := unaryKernel_ok (f := E.A.un o) ha.wf hx ha.unary_h0 E.cores
    (List.replicate s.layout.size E.fill) (by simp [Layout.size, shapeSize_eq])
  simp only [Tensor.unary, hk, Res.ok_bind, Res.ok.injEq] at h1
  rw [← h1, ← ha.dims]
  simpa using hx.1

/-- A tensor filled with one number. -/
theorem TEx.full (d : List Nat) (v : α) : TEx (TT.full d ⟨dt, v⟩) dt d fun _ => v := by
  obtain ⟨t, h1, h2⟩ := TVal.full dt d v
  refine ⟨t, h1, h2, ?_⟩
  unfold TT.full at h1
  cases h1
  simp [shapeSize_eq]

/-! ## Columns -/

theorem layout_slice_cols {B W k H : Nat} (hk : k + H ≤ W) (hH : 0 < H) (hW : W < 2 ^ 31 - 1) :
    Layout.slice ⟨[B, W], Layout.computeStrides [B, W], 0⟩ 1 k (some ((k + H : Nat) : Int)) 1 =
      .ok ⟨[B, H], [W, 1], k⟩ := by
  have hsb : Layout.sliceBounds (W : Int) k (some ((k + H : Nat) : Int)) 1 = .ok ((k : Int), (H : Int)) := by
    have h1 : Layout.sliceStartIdx (W : Int) k = .ok (k : Int) := by
      rw [Layout.sliceStartIdx, if_neg (by omega)]
    have h2 : Layout.sliceEndIdx (W : Int) (some ((k + H : Nat) : Int)) 1 = .ok ((k + H : Nat) : Int) := by
      rw [Layout.sliceEndIdx, if_neg (by omega)]
    have h3 : clampI32 (k : Int) 0 W = .ok (k : Int) := by
      rw [clampI32, if_neg (by omega), if_neg (by omega), if_neg (by omega)]
    have h4 : clampI32 ((k + H : Nat) : Int) 0 W = .ok ((k + H : Nat) : Int) := by
      rw [clampI32, if_neg (by omega), if_neg (by omega), if_neg (by omega)]
    have h5 : Layout.sliceCount (k : Int) ((k + H : Nat) : Int) 1 = .ok (H : Int) := by
      rw [Layout.sliceCount, if_pos (by omega), if_pos (by omega),
        show ((k + H : Nat) : Int) - k = H by omega, i32_ok ⟨by omega, by omega⟩, Res.ok_bind,
        i32_ok ⟨by omega, by omega⟩, Res.ok_bind, i32_ok ⟨by omega, by omega⟩, Res.ok_bind,
        show (H : Int) + 1 - 1 = H by omega, Int.tdiv_one]
    rw [Layout.sliceBounds, h1, Res.ok_bind, h2, Res.ok_bind, h3, Res.ok_bind, if_pos (by omega), h4,
      Res.ok_bind, h5, Res.ok_bind, if_neg (by omega)]
  have h0 : castUsize 1 = 1 := by decide
  rw [Layout.slice]
  simp only [computeStrides_cons, h0]
  rw [if_neg (by omega)]
  simp only [List.getElem?_cons_zero, List.getElem?_cons_succ]
  rw [if_neg (by omega), castI32_small (by omega), hsb, Res.ok_bind]
  simp [numel, Layout.computeStrides]

/-- Some of the columns of a matrix. -/
theorem TVal.sliceCols {x : TT α} {B W k H : Nat} {F : List Nat → α} (h : TVal x dt [B, W] F)
    (hk : k + H ≤ W) (hH : 0 < H) (hHW : H < W) (hW : W < 2 ^ 31 - 1) :
    ∃ r, x.slice 1 k (some ((k + H : Nat) : Int)) 1 = .ok r ∧
      TVal r dt [B, H] (fun i => F [i.getD 0 0, k + i.getD 1 0]) := by
  obtain ⟨t, rfl, h⟩ := h
  obtain ⟨s, h1, h2⟩ := h.viewC
  have hv : ∀ idx, InRange idx [B, H] → Tensor.elem ⟨s, ⟨[B, H], [W, 1], k⟩⟩ idx =
      some (F [idx.getD 0 0, k + idx.getD 1 0]) := by
    intro idx hi
    match idx, hi with
    | [a, b], ⟨ha, hb, _⟩ =>
      have hb : b < H := hb
      refine Eq.trans ?_ (h2 [a, k + b] ⟨ha, by omega, trivial⟩)
      show s[k + dot [a, b] [W, 1]]? = _
      congr 1
      simp [dot, rowMajor, numel]
      ring
  refine ⟨.num dt ⟨s, ⟨[B, H], [W, 1], k⟩⟩, ?_, _, rfl, ⟨rfl, fun idx hi => by rw [hv idx hi]; rfl⟩, rfl,
    Or.inl ?_, hv⟩
  · simp only [TT.slice, Tensor.slice]
    rw [h1, layout_slice_cols hk hH hW]
    rfl
  · simp only [Layout.isContiguous, List.zip_cons_cons, List.zip_nil_right, List.reverse_cons, List.reverse_nil,
      List.nil_append, List.singleton_append, Layout.isContiguousLoop]
    simp
    omega

/-! ## Rows -/

/-- A row of a sequence. -/
theorem TVal.row {x : TT α} {T t : Nat} {d : List Nat} {F : List Nat → α} (h : TVal x dt (T :: d) F)
    (ht : t < T) (hT : T < 2 ^ 31) (hd : d.length + 1 < 2 ^ 31) :
    ∃ r, E.row x t = .ok r ∧ TVal r dt d (fun i => F (t :: i)) := by
  obtain ⟨x, rfl, h⟩ := h
  have hx := h.dims
  obtain ⟨r, r1, r2, r3, r4⟩ := C28_raw (t := x) (ix := ⟨[(t : Int)], Layout.fromShape [1]⟩) (dim := 0) (k := 0)
    (n := T) (E.A.cst .zero) h.wf (by rw [hx]; simpa using hd) (by rw [hx]; exact ⟨by simp, Or.inl rfl⟩)
    (by rw [hx]; rfl) hT (by simp [Tensor.dims, Layout.fromShape, numel])
    (by intro v hv; simp at hv; subst hv; unfold I32; omega)
  have hdims : r.dims = 1 :: d := by
    rw [r2, hx]; simp [Tensor.dims, Layout.fromShape, numel]
  have hr : Val r (1 :: d) (fun i => F (t :: i.tail)) := by
    refine ⟨r3, hdims, Or.inr ?_, ?_⟩
    · unfold Tensor.indexSelect at r1
      simp only at r1
      split at r1
      · cases r1
      · obtain ⟨u, -, h⟩ := Res.bind_eq_ok.mp r1
        cases h
        rfl
    · intro idx hi
      match idx, hi with
      | a :: rest, ⟨ha, hrest⟩ =>
        obtain rfl : a = 0 := by omega
        obtain ⟨g1, -⟩ := r4 (0 :: rest) (by rw [hdims]; exact ⟨ha, hrest⟩) 0 t rfl rfl
        rw [g1 t ⟨ht, Or.inl rfl⟩]
        exact h.vals (t :: rest) ⟨ht, hrest⟩
  obtain ⟨q, q1, q2⟩ := hr.squeezeFirst
  exact ⟨.num dt q, by simp [Rt.row, Rt.indexSelect, r1, TT.squeeze, q1], q, rfl, q2⟩

/-! ## Stacks -/

theorem Val.viewC_exact {t : Tensor α} {d : List Nat} {F : List Nat → α} (h : Val t d F)
    (hs : t.storage.length = numel d) :
    ∃ s, (∀ f, t.viewVia f = (f ⟨d, Layout.computeStrides d, 0⟩).bind fun l => .ok ⟨s, l⟩) ∧
      (∀ idx, InRange idx d → s[rowMajor d idx]? = some (F idx)) ∧ s.length = numel d := by
  obtain ⟨s, o, c1, c2, c3⟩ := contiguous_spec h.wf
  obtain ⟨s', h1, h2⟩ := h.viewC
  have he : s = s' := by
    have := h1 fun l => .ok l
    simp only [Tensor.viewVia, c1, Res.ok_bind, Res.ok.injEq] at this
    exact congrArg Tensor.storage this
  subst he
  refine ⟨s, h1, h2, ?_⟩
  rcases c3 with ⟨-, hl, -⟩ | ⟨rfl, -, -⟩
  · rw [hl, h.dims]
  · exact hs

theorem TT.allNum_map (dt : DType) (ts : List (Tensor α)) : TT.allNum dt (ts.map (.num dt)) = some ts := by
  induction ts with
  | nil => rfl
  | cons t ts ih => simp [TT.allNum, ih]

theorem exists_nums {xs : List (TT α)} {P : Nat → Tensor α → Prop}
    (h : ∀ i (hi : i < xs.length), ∃ t, xs[i] = .num dt t ∧ P i t) :
    ∃ ts : List (Tensor α), xs = ts.map (.num dt) ∧ ∀ i (hi : i < ts.length), P i ts[i] := by
  induction xs generalizing P with
  | nil => exact ⟨[], rfl, fun i hi => absurd hi (by simp)⟩
  | cons x xs ih =>
    obtain ⟨t, h1, h2⟩ := h 0 (by simp)
    obtain ⟨ts, h3, h4⟩ := ih (P := fun i => P (i + 1)) fun i hi =>
      h (i + 1) (by simpa using hi)
    refine ⟨t :: ts, by simp only [List.getElem_cons_zero] at h1; rw [h1, h3]; rfl, ?_⟩
    rintro (_ | i) hi
    · exact h2
    · exact h4 i (by simpa using hi)

/-- Tensors that fill their buffers, stacked. -/
theorem Val.stack {ts : List (Tensor α)} {d : List Nat} {G : Nat → List Nat → α} (hne : 0 < ts.length)
    (hd : d.length < 16) (ht : ∀ i (hi : i < ts.length), Val ts[i] d (G i) ∧ ts[i].storage.length = numel d) :
    ∃ r, Tensor.stack ts 0 = .ok r ∧ Val r (ts.length :: d) (fun i => G (i.getD 0 0) i.tail) := by
  have hu : ∀ i (hi : i < ts.length), ∃ u : Tensor α, ts[i].unsqueeze 0 = .ok u ∧
      Val u (1 :: d) (fun j => G i j.tail) ∧ u.storage.length = numel (1 :: d) := by
    intro i hi
    obtain ⟨s, s1, s2, s3⟩ := (ht i hi).1.viewC_exact (ht i hi).2
    refine ⟨⟨s, ⟨1 :: d, Layout.computeStrides (1 :: d), 0⟩⟩, ?_, Val.of_rowMajor ?_, by simpa [numel] using s3⟩
    · rw [Tensor.unsqueeze, s1, layout_unsqueeze_row]; rfl
    · intro idx hi
      match idx, hi with
      | a :: rest, ⟨ha, hr⟩ =>
        obtain rfl : a = 0 := by omega
        simpa [rowMajor] using s2 rest hr
  choose u u1 u2 u3 using hu
  let us : List (Tensor α) := List.ofFn fun i : Fin ts.length => u i i.2
  have hul : us.length = ts.length := by simp [us]
  have hug : ∀ i (hi : i < us.length), us[i] = u i (by omega) := by intro i hi; simp [us]
  have hm : Res.mapL (fun t : Tensor α => t.unsqueeze 0) ts = .ok us :=
    Res.mapL_list hul fun i h1 h2 => by rw [u1 i h1, hug i h2]
  have hmem : ∀ v ∈ us, v.WF ∧ v.dims = 1 :: d := by
    intro v hv
    obtain ⟨i, hi, rfl⟩ := List.getElem_of_mem hv
    rw [hug i hi]
    exact ⟨(u2 i _).wf, (u2 i _).dims⟩
  have h0 : us.head? = some us[0] := by
    rw [List.head?_eq_getElem?, List.getElem?_eq_getElem]
  have hd0 : us[0].dims = 1 :: d := (hmem _ (List.getElem_mem _)).2
  obtain ⟨r, r1, r2, r3, r4, r5, r6⟩ := C16_concat_partial (d := 0) (k := 0) h0 (fun v hv => (hmem v hv).1)
    ⟨by rw [hd0]; simp, Or.inl rfl⟩ (by rw [hd0]; simpa using hd)
    (fun v hv => by rw [(hmem v hv).2, hd0]; exact ⟨rfl, fun _ _ => rfl⟩)
    (fun i hi _ => by rw [hug i hi, u3, (u2 i _).dims])
  have hstart : ∀ j, j ≤ us.length → startOf 0 (us.map (·.dims)) j = j := by
    intro j hj
    have : ((us.map (·.dims)).take j).map (fun ds => ds.getD 0 0) = List.replicate j 1 := by
      rw [List.eq_replicate_iff]
      constructor
      · simp; omega
      · intro x hx
        obtain ⟨ds, hds, rfl⟩ := List.mem_map.mp hx
        obtain ⟨v, hv, rfl⟩ := List.mem_map.mp (List.mem_of_mem_take hds)
        rw [(hmem v hv).2]; rfl
    rw [startOf, this, List.sum_replicate]; simp
  have hrd : r.dims = ts.length :: d := by
    rw [r5 _ h0, hd0, hstart _ (le_refl _), hul]; rfl
  refine ⟨r, ?_, r2, hrd, Or.inr (by rw [r4]; rfl), ?_⟩
  · unfold Tensor.stack
    split
    · simp at hne
    · rw [hm, Res.ok_bind, r1]
  · intro idx hi
    match idx, hi with
    | a :: rest, ⟨ha, hr⟩ =>
      have ha : a < ts.length := ha
      have hin : InRange (0 :: rest) us[a].dims := by
        rw [hug, (u2 a ha).dims]; exact ⟨by omega, hr⟩
      have e := r6 a (by omega) (0 :: rest) hin
      rw [hstart a (by omega), hug, (u2 a ha).vals (0 :: rest) ⟨by omega, hr⟩] at e
      simpa [addAt] using e

/-- The same with element types. -/
theorem TVal.stack {xs : List (TT α)} {d : List Nat} {G : Nat → List Nat → α} (hne : 0 < xs.length)
    (hd : d.length < 16) (h : ∀ i (hi : i < xs.length), TEx xs[i] dt d (G i)) :
    ∃ r, TT.stack xs 0 = .ok r ∧ TVal r dt (xs.length :: d) (fun i => G (i.getD 0 0) i.tail) := by
  obtain ⟨ts, rfl, ht⟩ := exists_nums (P := fun i t => Val t d (G i) ∧ t.storage.length = numel d) h
  have hlen : (ts.map (TT.num dt)).length = ts.length := by simp
  rw [hlen] at hne ⊢
  obtain ⟨r, hst, hv⟩ := Val.stack hne hd ht
  refine ⟨.num dt r, ?_, r, rfl, hv⟩
  have hall := TT.allNum_map dt ts
  cases ts with
  | nil => simp at hne
  | cons t ts =>
    simp only [List.map_cons] at hall
    simp only [TT.stack, List.map_cons, hall, hst, Res.ok_bind]

/-- Exchanging the first two axes of rank 3. -/
theorem TVal.transpose01 {x : TT α} {a b c : Nat} {F : List Nat → α} (h : TVal x dt [a, b, c] F) :
    ∃ r, x.transpose 0 1 = .ok r ∧
      TVal r dt [b, a, c] (fun i => F [i.getD 1 0, i.getD 0 0, i.getD 2 0]) := by
  obtain ⟨t, rfl, h⟩ := h
  obtain ⟨r, h1, h2⟩ := h.transpose (x := 0) (y := 1) (a := 0) (b := 1) (e := [b, a, c])
    (g := fun i => [i.getD 1 0, i.getD 0 0, i.getD 2 0]) (by simp)
    ⟨by simp, Or.inl rfl⟩ ⟨by simp, Or.inl rfl⟩ rfl
    (by
      intro k hk
      simp only [List.length_cons, List.length_nil] at hk
      obtain rfl | rfl | rfl : k = 0 ∨ k = 1 ∨ k = 2 := by omega
      all_goals rfl)
    (by
      intro j hj
      match j, hj with
      | [p, q, u], ⟨hp, hq, hu, _⟩ =>
        refine ⟨⟨hq, hp, hu, trivial⟩, fun k hk => ?_⟩
        simp only [List.length_cons, List.length_nil] at hk
        obtain rfl | rfl | rfl : k = 0 ∨ k = 1 ∨ k = 2 := by omega
        all_goals rfl)
  exact ⟨.num dt r, by simp [TT.transpose, h1], r, rfl, h2⟩

end Hodu
