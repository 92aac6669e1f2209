import Verif.Model.MetalGrid
import Verif.Props.Cuda

/-! # Property C121: element-wise kernels on Metal -/

namespace Hodu.Metal
open _root_.Hodu _root_.Hodu.Spec Hodu.Cuda Cuda.Spec

variable {α β : Type}

/-! ## The grid -/

/-- The grid covers the elements, and has at most a group of threads more than that. -/
theorem linearSplit_ok {maxT n : Nat} (hm : 0 < maxT) (hm' : maxT ≤ 1024) (hn : 0 < n)
    (hn' : n ≤ 2 ^ 32 - 1024) : ∃ T, linearSplit maxT n = .ok T ∧ n ≤ T ∧ T < 2 ^ 32 := by
  have hw : 0 < min maxT n := by omega
  refine ⟨_, by simp only [linearSplit]; rw [if_neg (by omega)], ?_, ?_⟩
  · have h1 := Nat.div_add_mod (n + min maxT n - 1) (min maxT n)
    have h2 := Nat.mod_lt (n + min maxT n - 1) hw
    rw [Nat.mul_comm] at h1
    omega
  · have h1 := Nat.div_mul_le_self (n + min maxT n - 1) (min maxT n)
    omega

theorem linearSplit_zero (maxT : Nat) : linearSplit maxT 0 = .panic := by simp [linearSplit]

theorem stride_small {T n i : Nat} (h1 : n ≤ T) (h2 : T < 2 ^ 32) (hi : i < 2 ^ 32) :
    n ≤ u32 (i + u32 T) ∨ u32 (i + u32 T) < i := by
  unfold u32
  rw [Nat.mod_eq_of_lt h2]
  omega

theorem stride_leaves {T n : Nat} (h1 : n ≤ T) (h2 : T < 2 ^ 32) : ∀ i, i < 2 ^ 32 →
    ∃ m, m ≤ i + 1 ∧ ¬ (fun i => u32 (i + u32 T))^[m] i < n := by
  intro i
  induction i using Nat.strongRecOn with
  | ind i ih =>
    intro hi
    rcases stride_small h1 h2 hi with h | h
    · exact ⟨1, by omega, by simpa using h⟩
    · obtain ⟨m, hm, hb⟩ := ih _ h (Nat.mod_lt _ (by decide))
      exact ⟨m + 1, by omega, by rw [Function.iterate_succ_apply]; exact hb⟩

theorem strideGrid_computes {T n : Nat} {val : Nat → Res β} {dst : Nat → Nat} {buf vals : List β}
    (h1 : n ≤ T) (h2 : T < 2 ^ 32) (hl : vals.length = buf.length)
    (hv : ∀ i, i < n → dst i < buf.length ∧ ∃ v, val i = .ok v ∧ vals[dst i]? = some v)
    (hrest : ∀ a : Nat, (∀ i, i < n → dst i ≠ a) → vals[a]? = buf[a]?) :
    Computes (strideGrid T n val dst) buf vals := by
  refine computes_of hl hv hrest ?_ ⟨2 ^ 32, ?_⟩
  · intro i hi
    have hi' : i < n := hi
    exact ⟨i, show i < T by omega, u32_of_lt (by omega)⟩
  · intro t _
    have hlt : u32 t < 2 ^ 32 := Nat.mod_lt _ (by decide)
    obtain ⟨m, hm, hb⟩ := stride_leaves h1 h2 (u32 t) hlt
    exact ⟨m, by omega, hb⟩

theorem onceGrid_computes {T n : Nat} {val : Nat → Res β} {dst : Nat → Nat} {buf vals : List β}
    (h1 : n ≤ T) (h2 : T < 2 ^ 32) (hl : vals.length = buf.length)
    (hv : ∀ i, i < n → dst i < buf.length ∧ ∃ v, val i = .ok v ∧ vals[dst i]? = some v)
    (hrest : ∀ a : Nat, (∀ i, i < n → dst i ≠ a) → vals[a]? = buf[a]?) :
    Computes (onceGrid T n val dst) buf vals := by
  refine computes_of hl hv hrest ?_ ⟨1, ?_⟩
  · intro i hi
    have hi' : i < n := hi
    exact ⟨i, show i < T by omega, u32_of_lt (by omega)⟩
  · intro t _
    exact ⟨1, Nat.le_refl 1, by simp [onceGrid]⟩

/-- Cell `i` gets the value of index `i`. -/
theorem cells_list {n : Nat} {val : Nat → Res β} {buf vals : List β} (hb : buf.length = n)
    (hl : vals.length = n) (hv : ∀ i (h : i < vals.length), val i = .ok vals[i]) :
    (∀ i, i < n → i < buf.length ∧ ∃ v, val i = .ok v ∧ vals[i]? = some v) ∧
    ∀ a : Nat, (∀ i, i < n → i ≠ a) → vals[a]? = buf[a]? := by
  constructor
  · intro i hi
    exact ⟨by omega, vals[i]'(by omega), hv i (by omega), by simp⟩
  · intro a ha
    have : n ≤ a := by
      by_contra hc
      exact ha a (by omega) rfl
    rw [List.getElem?_eq_none (by omega), List.getElem?_eq_none (by omega)]

/-! ## Positions -/

theorem u32_add_left (a b : Nat) : u32 (u32 a + b) = u32 (a + b) := by simp [u32]

/-- Accumulating in 32 bits is reducing the sum. -/
theorem strided_acc : ∀ (ps : List (Nat × Nat)) (idx acc : Nat),
    (ps.foldl (fun (s : Nat × Nat) p => (u32 (s.1 + s.2 % p.1 * p.2), s.2 / p.1)) (u32 acc, idx)).1
      = u32 (stridedIndexLoop idx acc ps)
  | [], idx, acc => rfl
  | (d, s) :: ps, idx, acc => by
    rw [List.foldl_cons, stridedIndexLoop]
    show (ps.foldl _ (u32 (u32 acc + idx % d * s), idx / d)).1 = _
    rw [u32_add_left]
    exact strided_acc ps (idx / d) (acc + idx % d * s)

theorem strided32_eq (idx : Nat) (dims strides : List Nat) :
    strided32 idx dims strides = stridedIndex idx dims strides := by
  unfold strided32 stridedIndex getStridedIndex
  rw [← strided_acc, ← List.foldr_reverse, List.reverse_reverse]
  rfl

theorem viewPos_eq (m : UnaryMeta) (i : Nat) : viewPos m i = unaryPos m i := by
  simp only [viewPos, unaryPos, strided32_eq]

/-- The elements of a view, read by the kernels. -/
theorem view_reads {t : Tensor α} (ht : t.WF) (hs : t.storage.length ≤ 2 ^ 32) {xs : List α}
    (hx : t.HasValues xs) {i : Nat} (hi : i < xs.length) :
    readC t.storage (viewPos (viewMeta t.layout) i) = .ok xs[i] := by
  rw [viewPos_eq]
  unfold unaryPos
  split
  · rename_i hc; exact HasValues.readC_cont ht hx hc hi
  · exact (pos_ok ht hx hs hi).2

theorem map_elems {t : Tensor α} {xs : List α} (hx : t.HasValues xs) (f : α → β) :
    ∀ idx, InRange idx t.dims → ∃ x, t.elem idx = some x ∧
      (xs.map f)[rowMajor t.dims idx]? = some (f x) := by
  intro idx hi
  have hlt : rowMajor t.dims idx < xs.length := by rw [hx.1]; exact rowMajor_lt hi
  exact ⟨xs[rowMajor t.dims idx], by rw [← hx.2 idx hi]; simp [hlt], by simp [hlt]⟩

/-! ## C121 -/

/-- **C121, unary and scalar operations**: for a view with at least one and at most `2 ^ 32 - 1024`
elements in a buffer of at most `2 ^ 32`, whatever the pipeline's group size, the old content of the
output and the interleaving of the threads, the kernel finishes with `f` of the elements in row-major
order. -/
theorem C121_unary_partial {t : Tensor α} (ht : t.WF) (h0 : 0 < numel t.dims)
    (hn : numel t.dims ≤ 2 ^ 32 - 1024) (hs : t.storage.length ≤ 2 ^ 32) (f : α → β) :
    ∃ vals : List β, vals.length = numel t.dims ∧
      (∀ idx, InRange idx t.dims → ∃ x, t.elem idx = some x ∧
        vals[rowMajor t.dims idx]? = some (f x)) ∧
      ∀ maxT, 0 < maxT → maxT ≤ 1024 →
        ∃ k, unaryLoop maxT f t.storage (unaryMetadata t.layout t.layout) = .ok k ∧
          ∀ buf, buf.length = numel t.dims → Computes k buf vals := by
  obtain ⟨xs, hx⟩ := ht.hasValues
  refine ⟨xs.map f, by simpa using hx.1, map_elems hx f, fun maxT hm hm' => ?_⟩
  obtain ⟨T, hT, h1, h2⟩ := linearSplit_ok hm hm' h0 hn
  refine ⟨strideGrid T (numel t.dims) (fun i => (readC t.storage (viewPos (viewMeta t.layout) i)).map f)
    fun i => i, ?_, fun buf hb => ?_⟩
  · rw [unaryLoop, decodeUnary_md ht.1]
    simp only [Res.ok_bind, Layout.size, shapeSize_eq]
    rw [show linearSplit maxT (numel t.layout.dims) = .ok T from hT]
    rfl
  · obtain ⟨ha, hr⟩ := cells_list (n := numel t.dims)
      (val := fun i => (readC t.storage (viewPos (viewMeta t.layout) i)).map f) (vals := xs.map f) hb
      (by simpa using hx.1) fun i hi => by
        simp only [List.length_map] at hi
        rw [view_reads ht hs hx hi]
        simp [Res.map]
    exact strideGrid_computes h1 h2 (by rw [List.length_map, hx.1, hb]) ha hr

/-- **C121, casts and contiguous copies**: the same for the kernels that handle one element per
thread. -/
theorem C121_copy_partial {t : Tensor α} (ht : t.WF) (h0 : 0 < numel t.dims)
    (hn : numel t.dims ≤ 2 ^ 32 - 1024) (hs : t.storage.length ≤ 2 ^ 32) (f : α → β) :
    ∃ vals : List β, vals.length = numel t.dims ∧
      (∀ idx, InRange idx t.dims → ∃ x, t.elem idx = some x ∧
        vals[rowMajor t.dims idx]? = some (f x)) ∧
      ∀ maxT, 0 < maxT → maxT ≤ 1024 →
        ∃ k, copyLoop maxT f t.storage (unaryMetadata t.layout t.layout) = .ok k ∧
          ∀ buf, buf.length = numel t.dims → Computes k buf vals := by
  obtain ⟨xs, hx⟩ := ht.hasValues
  refine ⟨xs.map f, by simpa using hx.1, map_elems hx f, fun maxT hm hm' => ?_⟩
  obtain ⟨T, hT, h1, h2⟩ := linearSplit_ok hm hm' h0 hn
  refine ⟨onceGrid T (numel t.dims) (fun i => (readC t.storage (viewPos (viewMeta t.layout) i)).map f)
    fun i => i, ?_, fun buf hb => ?_⟩
  · rw [copyLoop, decodeUnary_md ht.1]
    simp only [Res.ok_bind, Layout.size, shapeSize_eq]
    rw [show linearSplit maxT (numel t.layout.dims) = .ok T from hT]
    rfl
  · obtain ⟨ha, hr⟩ := cells_list (n := numel t.dims)
      (val := fun i => (readC t.storage (viewPos (viewMeta t.layout) i)).map f) (vals := xs.map f) hb
      (by simpa using hx.1) fun i hi => by
        simp only [List.length_map] at hi
        rw [view_reads ht hs hx hi]
        simp [Res.map]
    exact onceGrid_computes h1 h2 (by rw [List.length_map, hx.1, hb]) ha hr

/-- **C121, binary operations**: for operands of one shape within the same bounds, every group size and
every interleaving end with the list that all variants of the C kernel produce. -/
theorem C121_binary_partial {l r : Tensor α} (hl : l.WF) (hr : r.WF) (hd : l.dims = r.dims)
    (h0 : 0 < numel l.dims) (hn : numel l.dims ≤ 2 ^ 32 - 1024) (hsl : l.storage.length ≤ 2 ^ 32)
    (hsr : r.storage.length ≤ 2 ^ 32) (f : α → α → β) :
    ∃ vals : List β, vals.length = numel l.dims ∧
      (∀ idx, InRange idx l.dims → ∃ x y, l.elem idx = some x ∧ r.elem idx = some y ∧
        vals[rowMajor l.dims idx]? = some (f x y)) ∧
      (∀ cores buf, buf.length = numel l.dims →
        binaryKernel cores f l.storage r.storage (binaryMetadata l.layout r.layout l.layout) buf
          = .ok vals) ∧
      ∀ maxT, 0 < maxT → maxT ≤ 1024 →
        ∃ k, binaryLoop maxT f l.storage r.storage (binaryMetadata l.layout r.layout l.layout) = .ok k ∧
          ∀ buf, buf.length = numel l.dims → Computes k buf vals := by
  obtain ⟨xs, hx⟩ := hl.hasValues
  obtain ⟨ys, hy⟩ := hr.hasValues
  have hxl := hx.1
  have hyl : ys.length = numel l.dims := by rw [hd]; exact hy.1
  refine ⟨List.zipWith f xs ys, by simp; omega, ?_, ?_, fun maxT hm hm' => ?_⟩
  · intro idx hi
    have hlt := rowMajor_lt hi
    refine ⟨xs[rowMajor l.dims idx], ys[rowMajor l.dims idx], ?_, ?_, ?_⟩
    · rw [← hx.2 idx hi]; simp [hxl, hlt]
    · rw [← hy.2 idx (hd ▸ hi), ← hd]; simp [hyl, hlt]
    · simp [hxl, hyl, hlt]
  · exact fun cores buf hb => binaryKernel_ok hl hr hd hx hy cores buf hb
  obtain ⟨T, hT, h1, h2⟩ := linearSplit_ok hm hm' h0 hn
  refine ⟨_, by rw [binaryLoop, decode_pair hl hr hd]; simp only [Res.ok_bind]; rw [hT]; rfl,
    fun buf hb => ?_⟩
  have hval : ∀ (val : Nat → Res β) (_ : ∀ i (h : i < (List.zipWith f xs ys).length),
      val i = .ok (List.zipWith f xs ys)[i]), Computes (onceGrid T (numel l.dims) val fun i => i) buf
        (List.zipWith f xs ys) := by
    intro val hv
    obtain ⟨ha, hr⟩ := cells_list hb (by simp; omega) hv
    exact onceGrid_computes h1 h2 (by simp; omega) ha hr
  apply hval
  intro i hi
  simp only [List.length_zipWith] at hi
  have h1 := (pos_ok hl hx hsl (i := i) (by omega)).1
  have h2 := (pos_ok hr hy hsr (i := i) (by omega)).1
  have key : ∀ {a b : Nat}, readC l.storage a = .ok (xs[i]'(by omega)) →
      readC r.storage b = .ok (ys[i]'(by omega)) →
      readBoth f l.storage r.storage a b = .ok ((List.zipWith f xs ys)[i]'(by simp; omega)) := by
    intro a b ha hb
    rw [readBoth_ok ha hb]
    simp
  simp only [strided32_eq]
  split
  · rename_i hc
    simp only [Bool.and_eq_true] at hc
    exact key (HasValues.readC_cont hl hx hc.1 (by omega)) (HasValues.readC_cont hr hy hc.2 (by omega))
  · split
    · rename_i hc; exact key (HasValues.readC_cont hl hx hc (by omega)) h2
    · split
      · rename_i hc; exact key h1 (HasValues.readC_cont hr hy hc (by omega))
      · rw [← hd] at h2
        exact key h1 h2

/-- **C121, filling a view**: every element of the view gets the value, every other cell of the buffer
keeps its content. -/
theorem C121_fill_partial {t : Tensor α} (ht : t.WF) (h0 : 0 < numel t.dims)
    (hn : numel t.dims ≤ 2 ^ 32 - 1024) (hs : t.storage.length ≤ 2 ^ 32) (v : α) :
    ∃ vals : List α, vals.length = t.storage.length ∧
      (∀ idx, InRange idx t.dims → (⟨vals, t.layout⟩ : Tensor α).elem idx = some v) ∧
      (∀ p : Nat, (∀ idx, InRange idx t.dims → t.layout.offset + dot idx t.layout.strides ≠ p) →
        vals[p]? = t.storage[p]?) ∧
      ∀ maxT, 0 < maxT → maxT ≤ 1024 →
        ∃ k, constSetLoop maxT v (unaryMetadata t.layout t.layout) = .ok k ∧
          Computes k t.storage vals := by
  obtain ⟨xs, hx⟩ := ht.hasValues
  obtain ⟨vals, hvl, hv1, hv2, _⟩ := C103_fill_partial ht (by omega) hs v
  refine ⟨vals, hvl, hv1, hv2, fun maxT hm hm' => ?_⟩
  obtain ⟨T, hT, h1, h2⟩ := linearSplit_ok hm hm' h0 hn
  have hpos : ∀ i, i < numel t.dims → viewPos (viewMeta t.layout) i =
        t.layout.offset + dot (unravel t.dims i) t.layout.strides := by
    intro i hi
    rw [viewPos_eq]
    unfold unaryPos
    split
    · rename_i hc
      show t.layout.offset + i = _
      rw [← kernelIndex_cont ht.1 hi hc]
    · have h := readC_lt (HasValues.readC_strided ht hx (i := i) (by rw [hx.1]; exact hi))
      have he : stridedIndex i t.dims t.layout.strides = getStridedIndex i t.dims t.layout.strides :=
        u32_of_lt (by omega)
      show u32 (t.layout.offset + stridedIndex i t.dims t.layout.strides) = _
      rw [he, u32_of_lt (by omega), getStridedIndex_eq_dot ht.1 hi]
  refine ⟨strideGrid T (numel t.dims) (fun _ => .ok v) (viewPos (viewMeta t.layout)), ?_, ?_⟩
  · rw [constSetLoop, decodeUnary_md ht.1]
    simp only [Res.ok_bind, Layout.size, shapeSize_eq]
    rw [show linearSplit maxT (numel t.layout.dims) = .ok T from hT]
    rfl
  · refine strideGrid_computes h1 h2 hvl ?_ ?_
    · intro i hi
      have h := hv1 _ (unravel_inRange hi)
      have h' : vals[t.layout.offset + dot (unravel t.dims i) t.layout.strides]? = some v := h
      rw [hpos i hi]
      exact ⟨by rw [← hvl]; exact (List.getElem?_eq_some_iff.mp h').1, v, rfl, h'⟩
    · intro a ha
      apply hv2
      intro idx hi e
      have hlt := rowMajor_lt hi
      apply ha _ hlt
      rw [hpos _ hlt, unravel_rowMajor hi]
      exact e

/-- **C121, refuted without elements**: every element-wise kernel panics in the launch, where the C
kernels return the empty buffer. -/
theorem C121_empty_false {t : Tensor α} (ht : t.WF) (h0 : numel t.dims = 0) (maxT : Nat) (f : α → β)
    (v : α) :
    unaryLoop maxT f t.storage (unaryMetadata t.layout t.layout) = .panic ∧
    copyLoop maxT f t.storage (unaryMetadata t.layout t.layout) = .panic ∧
    constSetLoop maxT v (unaryMetadata t.layout t.layout) = .panic ∧
    (∀ cores, unaryKernel cores f t.storage (unaryMetadata t.layout t.layout) [] = .ok []) ∧
    ∀ (g : α → α → β),
      binaryLoop maxT g t.storage t.storage (binaryMetadata t.layout t.layout t.layout) = .panic := by
  have hz : linearSplit maxT (numel t.layout.dims) = .panic := by
    rw [show numel t.layout.dims = 0 from h0]; exact linearSplit_zero maxT
  obtain ⟨xs, hx⟩ := ht.hasValues
  refine ⟨?_, ?_, ?_, ?_, ?_⟩
  · rw [unaryLoop, decodeUnary_md ht.1]
    simp only [Res.ok_bind, Layout.size, shapeSize_eq]
    rw [hz]; rfl
  · rw [copyLoop, decodeUnary_md ht.1]
    simp only [Res.ok_bind, Layout.size, shapeSize_eq]
    rw [hz]; rfl
  · rw [constSetLoop, decodeUnary_md ht.1]
    simp only [Res.ok_bind, Layout.size, shapeSize_eq]
    rw [hz]; rfl
  · intro cores
    have hne : t.dims ≠ [] := by
      intro e
      rw [e] at h0
      exact absurd h0 (by decide)
    rw [unaryKernel_ok (f := f) ht hx (Or.inl hne) cores [] (by simp [h0])]
    have : xs = [] := List.eq_nil_of_length_eq_zero (by rw [hx.1, h0])
    rw [this]; rfl
  · intro g
    rw [binaryLoop, decode_pair ht ht rfl]
    simp only [Res.ok_bind]
    rw [show linearSplit maxT (numel t.dims) = .panic from hz]; rfl

/-- **C121, refuted for large buffers**: as on CUDA, `unsigned strided_i = offset + ...` drops the upper
bits of the offset. -/
theorem C121_offset_truncated : ∃ t : Tensor Nat,
    t.WF ∧ t.HasValues [1, 1] ∧ 0 < numel t.dims ∧ numel t.dims ≤ 2 ^ 32 - 1024 ∧
    ∀ maxT, 0 < maxT → maxT ≤ 1024 →
      ∃ k, unaryLoop maxT id t.storage (unaryMetadata t.layout t.layout) = .ok k ∧
        ∀ buf, buf.length = 2 → Computes k buf [0, 0] := by
  have hex : ∃ S : List Nat, (∀ j, j < 2 ^ 32 → readC S j = .ok 0) ∧
      ∀ j, j < 3 → S[2 ^ 32 + j]? = some 1 := by
    generalize 2 ^ 32 = N
    refine ⟨List.replicate N 0 ++ [1, 1, 1], ?_, ?_⟩
    · intro j hj
      rw [readC_eq_ok, List.getElem?_append_left (by simpa using hj), List.getElem?_replicate, if_pos hj]
    · intro j hj
      rw [List.getElem?_append_right (by simp), List.length_replicate,
        show N + j - N = j by omega]
      match j, hj with
      | 0, _ => rfl
      | 1, _ => rfl
      | 2, _ => rfl
  obtain ⟨S, hS0, hS1⟩ := hex
  obtain ⟨a, b, _⟩ := lateView_facts S hS0 hS1
  refine ⟨lateView S, a, b, by show 0 < 2 * 1; omega, by show 2 * 1 ≤ _; omega, fun maxT hm hm' => ?_⟩
  obtain ⟨T, hT, h1, h2⟩ := linearSplit_ok hm hm' (n := 2) (by omega) (by omega)
  refine ⟨strideGrid T 2
    (fun i => (readC S (viewPos { numEls := 2, dims := [2], strides := [2], offset := 2 ^ 32 } i)).map id)
    fun i => i, ?_, fun buf hb => ?_⟩
  · rw [unaryLoop, decodeUnary_md rfl, Res.ok_bind]
    show (linearSplit maxT 2).bind _ = _
    rw [hT]; rfl
  · have hp : ∀ i, i < 2 → viewPos { numEls := 2, dims := [2], strides := [2], offset := 2 ^ 32 } i < 2 ^ 32 := by
      decide +kernel
    obtain ⟨ha, hr⟩ := cells_list (n := 2) (vals := [0, 0]) (val := fun i =>
      (readC S (viewPos { numEls := 2, dims := [2], strides := [2], offset := 2 ^ 32 } i)).map id) hb rfl
      fun i hi => by
        have hi' : i < 2 := hi
        rw [hS0 _ (hp i hi')]
        match i, hi' with
        | 0, _ => rfl
        | 1, _ => rfl
    exact strideGrid_computes h1 h2 (by rw [hb]; rfl) ha hr

/-! ## Concrete cases -/

/-- The hypotheses on a transposed view, groups of four threads (eight threads for six elements), and an
interleaving in which index 1 is stored before index 0. -/
example :
    let t : Tensor Nat := ⟨[1, 2, 3, 4, 5, 6], ⟨[3, 2], [1, 3], 0⟩⟩
    0 < numel t.dims ∧ numel t.dims ≤ 2 ^ 32 - 1024 ∧ t.storage.length ≤ 2 ^ 32 ∧
    linearSplit 4 6 = .ok 8 ∧
    ((unaryLoop 4 (· + 10) t.storage (unaryMetadata t.layout t.layout)).bind fun k =>
      (k.exec [0, 0, 0, 0, 0, 0] [1, 0, 1, 0, 7]).map (·.out)) = .ok [11, 14, 0, 0, 0, 0] := by
  decide +kernel

/-- Both operands strided: the path that decodes with the shape of the left one. -/
example :
    let t : Tensor Nat := ⟨[1, 2, 3, 4, 5, 6], ⟨[3, 2], [1, 3], 0⟩⟩
    let r : Tensor Nat := ⟨[10, 20, 30], ⟨[3, 2], [1, 0], 0⟩⟩
    ((binaryLoop 1024 (· + ·) t.storage r.storage (binaryMetadata t.layout r.layout t.layout)).bind fun k =>
      (k.exec [0, 0, 0, 0, 0, 0] [3, 3, 0, 0, 5, 5]).map (·.out)) = .ok [11, 0, 0, 25, 0, 36] := by
  decide +kernel

/-- A tensor without elements, as in `C121_empty_false`. -/
example : let t : Tensor Nat := ⟨[], ⟨[0, 3], [3, 1], 0⟩⟩
    t.WF ∧ numel t.dims = 0 := by
  refine ⟨⟨rfl, ?_⟩, by decide⟩
  intro idx hi
  match idx, hi with
  | [i, _], ⟨h, _⟩ => exact absurd h (Nat.not_lt_zero _)

end Hodu.Metal
