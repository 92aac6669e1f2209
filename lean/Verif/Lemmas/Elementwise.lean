import Verif.Lemmas.Views

/-! Helper lemmas about the element-wise kernels. -/

namespace Hodu
open Spec

theorem Res.mapL_list {f : α → Res β} {l : List α} {zs : List β} (hl : zs.length = l.length)
    (h : ∀ i (h1 : i < l.length) (h2 : i < zs.length), f l[i] = .ok zs[i]) :
    Res.mapL f l = .ok zs := by
  induction l generalizing zs with
  | nil => cases zs <;> simp_all [Res.mapL]
  | cons a as ih =>
    cases zs with
    | nil => simp at hl
    | cons z zs =>
      have h0 := h 0 (by simp) (by simp)
      simp only [List.getElem_cons_zero] at h0
      have h1 := @ih zs (by simpa using hl) (fun i h1 h2 => by
        have := h (i + 1) (by simpa using h1) (by simpa using h2)
        simpa using this)
      simp [Res.mapL, h0, h1]

theorem runLoop_list {n : Nat} {val : Nat → Res β} {zs : List β} (hn : zs.length = n)
    (h : ∀ i (hi : i < zs.length), val i = .ok zs[i]) : runLoop n val = .ok zs := by
  apply Res.mapL_list (by simpa using hn)
  intro i h1 h2
  simpa using h i h2

theorem map_range_getD {zs : List β} {d : β} {n : Nat} (hn : zs.length = n) :
    (List.range n).map (fun i => zs[i]?.getD d) = zs := by
  apply List.ext_getElem (by simp [hn])
  intro i h1 h2
  simp [h2]

theorem chunkEnd_le {n T t : Nat} (ht : t < T) : chunkEnd n T t ≤ n := by
  have h1 := Nat.mod_lt n (show 0 < T by omega)
  have h2 := Nat.div_add_mod n T
  have h3 : (t + 1) * (n / T) ≤ T * (n / T) := Nat.mul_le_mul_right _ ht
  rw [chunk_step]
  simp only [chunkStart]
  split <;> omega

theorem chunkStart_mono (n T : Nat) {a b : Nat} (h : a ≤ b) : chunkStart n T a ≤ chunkStart n T b := by
  induction h with
  | refl => exact Nat.le_refl _
  | step _ ih => exact Nat.le_trans ih (by rw [← chunk_step]; exact chunkStart_le_end n T _)

/-- All writes of all workers: any order of them fills the buffer with the values. -/
theorem workers_any_order {n T : Nat} {val : Nat → Res β} {zs : List β} (hT : 0 < T)
    (hn : zs.length = n) (h : ∀ i (hi : i < zs.length), val i = .ok zs[i]) :
    ∃ wss, Res.mapL (fun t => workerWrites val (chunkStart n T t) (chunkEnd n T t)) (List.range T)
        = .ok wss ∧
      ∀ ws buf, ws.Perm wss.flatten → buf.length = n → applyWrites buf ws = .ok zs := by
  by_cases hz : n = 0
  · subst hz
    have hz : zs = [] := List.eq_nil_of_length_eq_zero hn
    subst hz
    refine ⟨List.replicate T [], ?_, ?_⟩
    · apply Res.mapL_list (by simp)
      intro t h1 h2
      have h3 := chunkEnd_le (n := 0) (show t < T by simpa using h1)
      simp [workerWrites, show chunkEnd 0 T t = 0 by omega, Res.mapL]
    · intro ws buf hp hb
      have hf : (List.replicate T ([] : List (Nat × β))).flatten = [] := by simp
      rw [hf] at hp
      have := hp.eq_nil
      subst this
      have : buf = [] := List.eq_nil_of_length_eq_zero hb
      subst this
      rfl
  · have hne : Nonempty β := ⟨zs[0]⟩
    let g : Nat → β := fun i => zs[i]?.getD hne.some
    have hg : ∀ i, i < n → val i = .ok (g i) := by
      intro i hi
      rw [h i (by omega)]
      simp [g, hn, hi]
    refine ⟨(List.range T).map fun t =>
      (List.range' (chunkStart n T t) (chunkEnd n T t - chunkStart n T t)).map fun i => (i, g i),
      ?_, ?_⟩
    · apply Res.mapL_eq_ok_of
      intro t ht
      apply workerWrites_ok
      intro i _ hi
      exact hg i (Nat.lt_of_lt_of_le hi (chunkEnd_le (by simpa using ht)))
    · intro ws buf hp hb
      rw [← map_range_getD (d := hne.some) hn]
      apply applyWrites_perm hb
      have := chunks_flatten n T T
      rw [chunkStart_last n T hT] at this
      rw [← this, List.map_flatten, List.map_map]
      exact hp

theorem runChunks_list {n T : Nat} {val : Nat → Res β} {zs : List β} {buf : List β} (hT : 0 < T)
    (hn : zs.length = n) (hb : buf.length = n)
    (h : ∀ i (hi : i < zs.length), val i = .ok zs[i]) : runChunks n T val buf = .ok zs := by
  obtain ⟨wss, h1, h2⟩ := workers_any_order hT hn h
  simp only [runChunks, h1, Res.ok_bind]
  exact h2 _ _ (List.Perm.refl _) hb

theorem mapL_append {f : α → Res β} {a b : List α} :
    Res.mapL f (a ++ b) = (Res.mapL f a).bind fun x => (Res.mapL f b).bind fun y => .ok (x ++ y) := by
  induction a with
  | nil => simp [Res.mapL]; cases Res.mapL f b <;> rfl
  | cons c cs ih =>
    simp only [List.cons_append, Res.mapL, ih]
    cases f c <;> simp
    cases Res.mapL f cs <;> simp
    cases Res.mapL f b <;> simp

theorem range_split {n m : Nat} (h : m ≤ n) : List.range n = List.range m ++ List.range' m (n - m) := by
  rw [List.range_eq_range', List.range_eq_range']
  have := @List.range'_append 0 m (n - m) 1
  simp only [Nat.one_mul, Nat.zero_add] at this
  rw [this]; congr 1; omega

theorem simd_blocks {W : Nat} {val : Nat → Res β} (k : Nat) :
    (Res.mapL (fun b => Res.mapL val (List.range' (b * W) W)) (List.range k)).bind
      (fun bs => .ok bs.flatten) = Res.mapL val (List.range (k * W)) := by
  induction k with
  | zero => simp [Res.mapL]
  | succ k ih =>
    rw [List.range_succ, mapL_append, range_split (show k * W ≤ (k + 1) * W by
      rw [Nat.succ_mul]; omega), mapL_append, ← ih]
    have : (k + 1) * W - k * W = W := by rw [Nat.succ_mul]; omega
    rw [this]
    cases Res.mapL (fun b => Res.mapL val (List.range' (b * W) W)) (List.range k) <;>
      simp [Res.mapL]
    cases Res.mapL val (List.range' (k * W) W) <;> simp

theorem runSimd_eq (W n : Nat) (val : Nat → Res β) : runSimd W n val = runLoop n val := by
  unfold runSimd runLoop
  rw [range_split (show n / W * W ≤ n from Nat.div_mul_le_self n W), mapL_append, ← simd_blocks]
  cases Res.mapL (fun b => Res.mapL val (List.range' (b * W) W)) (List.range (n / W)) <;> simp

theorem Tensor.WF.hasValues {t : Tensor α} (h : t.WF) : ∃ xs, t.HasValues xs := by
  refine ⟨(List.range (numel t.dims)).attach.map fun i =>
    (t.elem (unravel t.dims i.1)).get (h.2 _ (unravel_inRange (by simpa using i.2))), by simp, ?_⟩
  intro idx hi
  have := rowMajor_lt hi
  simp [this, unravel_rowMajor hi]

theorem Tensor.HasValues.get {t : Tensor α} {xs : List α} (h : t.HasValues xs) {i : Nat}
    (hi : i < xs.length) : t.elem (unravel t.dims i) = some xs[i] := by
  have hi' : i < numel t.dims := by rw [← h.1]; exact hi
  rw [← h.2 _ (unravel_inRange hi'), rowMajor_unravel hi']
  simp [hi]

/-- The read at kernel position `i` of a tensor's buffer, contiguous or strided. -/
theorem HasValues.readC_strided {t : Tensor α} {xs : List α} (hw : t.WF) (h : t.HasValues xs) {i : Nat}
    (hi : i < xs.length) :
    readC t.storage (t.layout.offset + getStridedIndex i t.dims t.layout.strides) = .ok xs[i] := by
  have hi' : i < numel t.dims := by rw [← h.1]; exact hi
  rw [readC_eq_ok, getStridedIndex_eq_dot hw.1 hi']
  exact h.get hi

theorem HasValues.readC_cont {t : Tensor α} {xs : List α} (hw : t.WF) (h : t.HasValues xs) {i : Nat}
    (hc : cIsContiguous t.dims t.layout.strides = true) (hi : i < xs.length) :
    readC t.storage (t.layout.offset + i) = .ok xs[i] := by
  have hi' : i < numel t.dims := by rw [← h.1]; exact hi
  rw [readC_eq_ok]
  have := kernelIndex_cont hw.1 hi' hc
  conv_lhs => rw [this]
  exact h.get hi

theorem getOptimalThreads_pos {cores n m : Nat} (h : 1 < getOptimalThreads cores n m) :
    0 < getOptimalThreads cores n m := by omega

section Binary
variable {α β : Type} {l r : Tensor α} {xs ys : List α} {f : α → α → β}

theorem readBoth_ok {l r : List α} {i j : Nat} {x y : α} (hx : readC l i = .ok x)
    (hy : readC r j = .ok y) : readBoth f l r i j = .ok (f x y) := by
  simp [readBoth, hx, hy, Res.map]

/-- Metadata the host passes for two same-shaped operands decodes to their fields. -/
theorem decode_pair (hl : l.WF) (hr : r.WF) (hd : l.dims = r.dims) :
    decodeBinary (binaryMetadata l.layout r.layout l.layout) =
      .ok { numEls := numel l.dims, lhsDims := l.dims, rhsDims := r.dims,
            lhsStrides := l.layout.strides, rhsStrides := r.layout.strides,
            lhsOffset := l.layout.offset, rhsOffset := r.layout.offset } := by
  have hd' : r.layout.dims.length = l.layout.dims.length := congrArg List.length hd.symm
  rw [decodeBinary_binaryMetadata rfl hd' hl.1 hr.1]
  simp [Layout.size, shapeSize_eq]

theorem strided_loop_ok {n : Nat} {li ri : Nat → Nat} {L R : List α} (hx : xs.length = n)
    (hy : ys.length = n) (h1 : ∀ i (h : i < xs.length), readC L (li i) = .ok xs[i])
    (h2 : ∀ i (h : i < ys.length), readC R (ri i) = .ok ys[i]) :
    runLoop n (fun i => readBoth f L R (li i) (ri i)) = .ok (List.zipWith f xs ys) := by
  apply runLoop_list (by simp; omega)
  intro i hi
  simp only [List.length_zipWith] at hi
  rw [readBoth_ok (h1 i (by omega)) (h2 i (by omega))]
  simp

theorem binaryKernel_ok (hl : l.WF) (hr : r.WF) (hd : l.dims = r.dims) (hx : l.HasValues xs)
    (hy : r.HasValues ys) (cores : Nat) (buf : List β) (hb : buf.length = numel l.dims) :
    binaryKernel cores f l.storage r.storage (binaryMetadata l.layout r.layout l.layout) buf =
      .ok (List.zipWith f xs ys) := by
  have hxl := hx.1
  have hyl : ys.length = numel l.dims := by rw [hd]; exact hy.1
  unfold binaryKernel
  rw [decode_pair hl hr hd]
  simp only [Res.ok_bind]
  split
  case isTrue hc =>
    simp only [Bool.and_eq_true] at hc
    have hv : ∀ i (hi : i < (List.zipWith f xs ys).length),
        readBoth f l.storage r.storage (l.layout.offset + i) (r.layout.offset + i)
          = .ok (List.zipWith f xs ys)[i] := by
      intro i hi
      simp only [List.length_zipWith] at hi
      rw [readBoth_ok (HasValues.readC_cont hl hx hc.1 (by omega))
        (HasValues.readC_cont hr hy hc.2 (by omega))]
      simp
    split
    · rename_i hT
      exact runChunks_list (getOptimalThreads_pos hT) (by simp; omega) hb hv
    · exact runLoop_list (by simp; omega) hv
  case isFalse hc =>
    split
    case isTrue hc1 =>
      exact strided_loop_ok hxl hyl (fun i hi => HasValues.readC_cont hl hx hc1 hi)
        (fun i hi => HasValues.readC_strided hr hy hi)
    case isFalse hc1 =>
      split
      case isTrue hc2 =>
        exact strided_loop_ok hxl hyl (fun i hi => HasValues.readC_strided hl hx hi)
          (fun i hi => HasValues.readC_cont hr hy hc2 hi)
      case isFalse =>
        exact strided_loop_ok hxl hyl (fun i hi => HasValues.readC_strided hl hx hi)
          (fun i hi => HasValues.readC_strided hr hy hi)

theorem binarySimdKernel_ok (hl : l.WF) (hr : r.WF) (hd : l.dims = r.dims) (hx : l.HasValues xs)
    (hy : r.HasValues ys) (W : Nat) :
    binarySimdKernel W f l.storage r.storage (binaryMetadata l.layout r.layout l.layout) =
      .ok (List.zipWith f xs ys) := by
  have hxl := hx.1
  have hyl : ys.length = numel l.dims := by rw [hd]; exact hy.1
  unfold binarySimdKernel
  rw [decode_pair hl hr hd]
  simp only [Res.ok_bind, runSimd_eq]
  split
  case isTrue hc =>
    simp only [Bool.and_eq_true] at hc
    exact strided_loop_ok hxl hyl (fun i hi => HasValues.readC_cont hl hx hc.1 hi)
      (fun i hi => HasValues.readC_cont hr hy hc.2 hi)
  case isFalse hc =>
    split
    case isTrue hc1 =>
      exact strided_loop_ok hxl hyl (fun i hi => HasValues.readC_cont hl hx hc1 hi)
        (fun i hi => HasValues.readC_strided hr hy hi)
    case isFalse hc1 =>
      split
      case isTrue hc2 =>
        exact strided_loop_ok hxl hyl (fun i hi => HasValues.readC_strided hl hx hi)
          (fun i hi => HasValues.readC_cont hr hy hc2 hi)
      case isFalse =>
        exact strided_loop_ok hxl hyl (fun i hi => HasValues.readC_strided hl hx hi)
          (fun i hi => HasValues.readC_strided hr hy hi)

theorem binaryBoolKernel_ok {f : α → α → Bool} (hl : l.WF) (hr : r.WF) (hd : l.dims = r.dims)
    (hx : l.HasValues xs) (hy : r.HasValues ys) :
    binaryBoolKernel f l.storage r.storage (binaryMetadata l.layout r.layout l.layout) =
      .ok (List.zipWith f xs ys) := by
  have hxl := hx.1
  have hyl : ys.length = numel l.dims := by rw [hd]; exact hy.1
  unfold binaryBoolKernel
  rw [decode_pair hl hr hd]
  simp only [Res.ok_bind]
  split
  case isTrue hc =>
    simp only [Bool.and_eq_true] at hc
    exact strided_loop_ok hxl hyl (fun i hi => HasValues.readC_cont hl hx hc.1 hi)
      (fun i hi => HasValues.readC_cont hr hy hc.2 hi)
  case isFalse hc =>
    apply strided_loop_ok hxl hyl
    · intro i hi
      split
      · rename_i hc1; exact HasValues.readC_cont hl hx hc1 hi
      · exact HasValues.readC_strided hl hx hi
    · intro i hi
      split
      · rename_i hc1; exact HasValues.readC_cont hr hy hc1 hi
      · exact HasValues.readC_strided hr hy hi

end Binary

theorem unaryKernel_ok {f : α → β} {t : Tensor α} {xs : List α} (ht : t.WF) (hx : t.HasValues xs)
    (h0 : t.dims ≠ [] ∨ t.layout.offset = 0) (cores : Nat) (buf : List β)
    (hb : buf.length = numel t.dims) :
    unaryKernel cores f t.storage (unaryMetadata t.layout t.layout) buf = .ok (xs.map f) := by
  have hxl := hx.1
  have hoff : (if 0 < t.layout.dims.length then t.layout.offset else 0) = t.layout.offset := by
    split
    · rfl
    · rename_i hc
      rcases h0 with h0 | h0
      · exact absurd (List.length_pos_iff.mpr h0) hc
      · exact h0.symm
  unfold unaryKernel
  rw [decodeUnary_unaryMetadata ht.1]
  simp only [Res.ok_bind, hoff, Layout.size, shapeSize_eq]
  split
  case isTrue hc =>
    have hv : ∀ i (hi : i < (xs.map f).length),
        (readC t.storage (t.layout.offset + i)).map f = .ok (xs.map f)[i] := by
      intro i hi
      simp only [List.length_map] at hi
      rw [HasValues.readC_cont ht hx hc hi]
      simp [Res.map]
    split
    · rename_i hT
      exact runChunks_list (getOptimalThreads_pos hT) (by simpa using hxl) hb hv
    · exact runLoop_list (by simpa using hxl) hv
  case isFalse hc =>
    apply runLoop_list (by simpa using hxl)
    intro i hi
    simp only [List.length_map] at hi
    rw [HasValues.readC_strided ht hx hi]
    simp [Res.map]

end Hodu
