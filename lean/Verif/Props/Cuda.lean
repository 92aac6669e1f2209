import Verif.Lemmas.Cuda
import Verif.Props.Elementwise

/-! # Property C103: element-wise kernels on CUDA -/

namespace Hodu.Cuda
open _root_.Hodu.Spec
open Cuda.Spec

variable {α β : Type}

/-! ## Reading operands -/

/-- The fields the host passes for a layout. -/
abbrev viewMeta (l : Layout) : UnaryMeta := ⟨numel l.dims, l.dims, l.strides, l.offset⟩

theorem u32_of_lt {n : Nat} (h : n < 2 ^ 32) : u32 n = n := Nat.mod_eq_of_lt h

theorem decodeUnary_md {l out : Layout} (hl : l.strides.length = l.dims.length) :
    decodeUnary (unaryMetadata l out) =
      .ok { numEls := out.size, dims := l.dims, strides := l.strides, offset := l.offset } := by
  have h0 : readC (unaryMetadata l out) 0 = .ok out.size := by simp [unaryMetadata, readC]
  have h1 : readC (unaryMetadata l out) 1 = .ok l.dims.length := by
    simp [unaryMetadata, readC, Layout.ndim]
  have h2 : sliceC (unaryMetadata l out) 2 l.dims.length = .ok l.dims := by
    have := sliceC_mid [out.size, l.ndim] l.dims (l.strides ++ [l.offset]) 2 l.dims.length rfl rfl
    simpa [unaryMetadata, List.append_assoc] using this
  have h3 : sliceC (unaryMetadata l out) (2 + l.dims.length) l.dims.length = .ok l.strides := by
    have := sliceC_mid ([out.size, l.ndim] ++ l.dims) l.strides [l.offset] (2 + l.dims.length)
      l.dims.length (by simp; omega) hl.symm
    simpa [unaryMetadata, List.append_assoc] using this
  have h4 : readC (unaryMetadata l out) (2 + 2 * l.dims.length) = .ok l.offset := by
    rw [readC_eq_ok]
    simp only [unaryMetadata]
    rw [List.getElem?_append_right (by simp; omega)]
    simp [hl, show 2 + 2 * l.dims.length - (l.dims.length + l.dims.length + 1 + 1) = 0 by omega]
  simp [decodeUnary, h0, h1, h2, h3, h4]

theorem readC_lt {buf : List α} {i : Nat} {a : α} (h : readC buf i = .ok a) : i < buf.length := by
  rw [readC_eq_ok] at h
  exact (List.getElem?_eq_some_iff.mp h).1

/-- The positions the CUDA kernels compute are those of the C kernels while the buffer has at most
`2 ^ 32` elements. -/
theorem pos_ok {t : Tensor α} {xs : List α} (ht : t.WF) (hx : t.HasValues xs)
    (hs : t.storage.length ≤ 2 ^ 32) {i : Nat} (hi : i < xs.length) :
    readC t.storage (t.layout.offset + stridedIndex i t.dims t.layout.strides) = .ok xs[i] ∧
    readC t.storage (u32 (t.layout.offset + stridedIndex i t.dims t.layout.strides)) = .ok xs[i] := by
  have h := HasValues.readC_strided ht hx hi
  have hlt := readC_lt h
  have he : stridedIndex i t.dims t.layout.strides = getStridedIndex i t.dims t.layout.strides :=
    u32_of_lt (by omega)
  rw [he, u32_of_lt (by omega)]
  exact ⟨h, h⟩

/-! ## C103 -/

/-- **C103, unary operations, scalar operations, casts and copies** (`f` is the element operation, the
cast or the identity): for a view of at most `2 ^ 32 - 256` elements in a buffer of at most `2 ^ 32`
elements, whatever the old content of the output and however the threads are interleaved, the kernel
finishes with `f` of the elements in row-major order. -/
theorem C103_unary_partial {t : Tensor α} (ht : t.WF) (hn : numel t.dims ≤ 2 ^ 32 - 256)
    (hs : t.storage.length ≤ 2 ^ 32) (f : α → β) :
    ∃ vals : List β, vals.length = numel t.dims ∧
      (∀ idx, InRange idx t.dims → ∃ x, t.elem idx = some x ∧
        vals[rowMajor t.dims idx]? = some (f x)) ∧
      ∃ k, unaryLoop f t.storage (unaryMetadata t.layout t.layout) = .ok k ∧
        ∀ buf, buf.length = numel t.dims → Computes k buf vals := by
  obtain ⟨xs, hx⟩ := ht.hasValues
  refine ⟨xs.map f, by simpa using hx.1, ?_, _, by rw [unaryLoop, decodeUnary_md ht.1]; rfl, ?_⟩
  · intro idx hi
    have hlt : rowMajor t.dims idx < xs.length := by rw [hx.1]; exact rowMajor_lt hi
    exact ⟨xs[rowMajor t.dims idx], by rw [← hx.2 idx hi]; simp [hlt], by simp [hlt]⟩
  · intro buf hb
    simp only [Layout.size, shapeSize_eq]
    apply gridLoop_list hn hb (by simpa using hx.1)
    intro i hi
    simp only [List.length_map] at hi
    have hr : readC t.storage (unaryPos (viewMeta t.layout) i) = .ok xs[i] := by
      unfold unaryPos
      split
      · rename_i hc; exact HasValues.readC_cont ht hx hc hi
      · exact (pos_ok ht hx hs hi).2
    rw [hr]
    simp [Res.map]

/-- **C103, binary operations**: for operands of one shape with at most `2 ^ 32 - 256` elements, in
buffers of at most `2 ^ 32` elements, every interleaving of the threads ends with the list that all
variants of the C kernel produce (`C09_kernel_value`). -/
theorem C103_binary_partial {l r : Tensor α} (hl : l.WF) (hr : r.WF) (hd : l.dims = r.dims)
    (hn : numel l.dims ≤ 2 ^ 32 - 256) (hsl : l.storage.length ≤ 2 ^ 32)
    (hsr : r.storage.length ≤ 2 ^ 32) (f : α → α → β) :
    ∃ vals : List β, vals.length = numel l.dims ∧
      (∀ idx, InRange idx l.dims → ∃ x y, l.elem idx = some x ∧ r.elem idx = some y ∧
        vals[rowMajor l.dims idx]? = some (f x y)) ∧
      (∀ cores buf, buf.length = numel l.dims →
        binaryKernel cores f l.storage r.storage (binaryMetadata l.layout r.layout l.layout) buf
          = .ok vals) ∧
      ∃ k, binaryLoop f l.storage r.storage (binaryMetadata l.layout r.layout l.layout) = .ok k ∧
        ∀ buf, buf.length = numel l.dims → Computes k buf vals := by
  obtain ⟨xs, hx⟩ := hl.hasValues
  obtain ⟨ys, hy⟩ := hr.hasValues
  have hxl := hx.1
  have hyl : ys.length = numel l.dims := by rw [hd]; exact hy.1
  refine ⟨List.zipWith f xs ys, by simp; omega, ?_, ?_, _,
    by rw [binaryLoop, decode_pair hl hr hd]; rfl, ?_⟩
  · intro idx hi
    have hlt := rowMajor_lt hi
    refine ⟨xs[rowMajor l.dims idx], ys[rowMajor l.dims idx], ?_, ?_, ?_⟩
    · rw [← hx.2 idx hi]; simp [hxl, hlt]
    · rw [← hy.2 idx (hd ▸ hi), ← hd]; simp [hyl, hlt]
    · simp [hxl, hyl, hlt]
  · exact fun cores buf hb => binaryKernel_ok hl hr hd hx hy cores buf hb
  · intro buf hb
    apply gridLoop_list hn hb (by simp; omega)
    intro i hi
    simp only [List.length_zipWith] at hi
    have h1 := (pos_ok hl hx hsl (i := i) (by omega)).1
    have h2 := (pos_ok hr hy hsr (i := i) (by omega)).1
    have key : ∀ {a b : Nat}, readC l.storage a = .ok (xs[i]'(by omega)) →
        readC r.storage b = .ok (ys[i]'(by omega)) →
        readBoth f l.storage r.storage a b = .ok ((List.zipWith f xs ys)[i]'(by simp; omega)) := by
      intro a b ha hb
      rw [readBoth_ok ha hb]
      simp
    dsimp only
    split
    · rename_i hc
      simp only [Bool.and_eq_true] at hc
      exact key (HasValues.readC_cont hl hx hc.1 (by omega)) (HasValues.readC_cont hr hy hc.2 (by omega))
    · split
      · rename_i hc; exact key (HasValues.readC_cont hl hx hc (by omega)) h2
      · split
        · rename_i hc; exact key h1 (HasValues.readC_cont hr hy hc (by omega))
        · exact key h1 h2

/-- **C103, filling a view**: every element of the view gets the value, every other cell of the
buffer keeps its content, under every interleaving. -/
theorem C103_fill_partial {t : Tensor α} (ht : t.WF) (hn : numel t.dims ≤ 2 ^ 32 - 256)
    (hs : t.storage.length ≤ 2 ^ 32) (v : α) :
    ∃ vals : List α, vals.length = t.storage.length ∧
      (∀ idx, InRange idx t.dims → (⟨vals, t.layout⟩ : Tensor α).elem idx = some v) ∧
      (∀ p : Nat, (∀ idx, InRange idx t.dims → t.layout.offset + dot idx t.layout.strides ≠ p) →
        vals[p]? = t.storage[p]?) ∧
      ∃ k, constSetLoop v (unaryMetadata t.layout t.layout) = .ok k ∧ Computes k t.storage vals := by
  classical
  obtain ⟨xs, hx⟩ := ht.hasValues
  -- the position of index `i`
  have hpos : ∀ i, i < numel t.dims → unaryPos (viewMeta t.layout) i =
        t.layout.offset + dot (unravel t.dims i) t.layout.strides := by
    intro i hi
    unfold unaryPos
    split
    · rename_i hc
      show t.layout.offset + i = _
      rw [← kernelIndex_cont ht.1 hi hc]
    · have h := readC_lt (HasValues.readC_strided ht hx (i := i) (by rw [hx.1]; exact hi))
      have he : stridedIndex i t.dims t.layout.strides = getStridedIndex i t.dims t.layout.strides :=
        u32_of_lt (by omega)
      show u32 (t.layout.offset + stridedIndex i t.dims t.layout.strides) = _
      rw [he, u32_of_lt (by omega), getStridedIndex_eq_dot ht.1 hi]
  let vals : List α := (List.range t.storage.length).attach.map fun p =>
    if ∃ idx, InRange idx t.dims ∧ t.layout.offset + dot idx t.layout.strides = p.1 then v
    else t.storage[p.1]'(by simpa using p.2)
  have hvl : vals.length = t.storage.length := by simp [vals]
  have hv1 : ∀ idx, InRange idx t.dims → vals[t.layout.offset + dot idx t.layout.strides]? = some v := by
    intro idx hi
    have hsome := ht.2 idx hi
    have hlt : t.layout.offset + dot idx t.layout.strides < t.storage.length := by
      unfold Tensor.elem at hsome
      rw [Option.isSome_iff_exists] at hsome
      obtain ⟨a, ha⟩ := hsome
      exact (List.getElem?_eq_some_iff.mp ha).1
    rw [List.getElem?_eq_getElem (by rw [hvl]; exact hlt)]
    simp only [vals, List.getElem_map, List.getElem_attach, List.getElem_range, Option.some.injEq]
    rw [if_pos ⟨idx, hi, rfl⟩]
  have hv2 : ∀ p : Nat, (∀ idx, InRange idx t.dims → t.layout.offset + dot idx t.layout.strides ≠ p) →
      vals[p]? = t.storage[p]? := by
    intro p hp
    by_cases hlt : p < t.storage.length
    · rw [List.getElem?_eq_getElem (by rw [hvl]; exact hlt), List.getElem?_eq_getElem hlt]
      simp only [vals, List.getElem_map, List.getElem_attach, List.getElem_range, Option.some.injEq]
      rw [if_neg fun ⟨idx, h1, h2⟩ => hp idx h1 h2]
    · rw [List.getElem?_eq_none (by omega), List.getElem?_eq_none (by omega)]
  refine ⟨vals, hvl, hv1, hv2, _, by rw [constSetLoop, decodeUnary_md ht.1]; rfl, ?_⟩
  simp only [Layout.size, shapeSize_eq]
  apply gridLoop_computes hn hvl
  · intro i hi
    have hr := unravel_inRange hi
    have hp := hpos i hi
    have h1 := hv1 _ hr
    refine ⟨?_, v, rfl, ?_⟩
    · show unaryPos _ i < _
      rw [show unaryPos (viewMeta t.layout) i = _ from hp, ← hvl]
      exact (List.getElem?_eq_some_iff.mp h1).1
    · rw [show unaryPos (viewMeta t.layout) i = _ from hp]
      exact h1
  · intro a ha
    apply hv2
    intro idx hi e
    have hlt := rowMajor_lt hi
    apply ha _ hlt
    rw [show unaryPos (viewMeta t.layout) (rowMajor t.layout.dims idx) = _ from
        hpos _ hlt]
    rw [show unravel t.dims (rowMajor t.layout.dims idx) = idx from unravel_rowMajor hi]
    exact e

/-- **C103, refuted for large tensors**: with more than `2 ^ 32 - 256` elements no execution of an
element-wise kernel finishes: the stride `blockDim.x * gridDim.x` wraps to zero, or the 32-bit index
never reaches `num_els`. -/
theorem C103_endless {t : Tensor α} (ht : t.WF) (hn : 2 ^ 32 - 256 < numel t.dims) (f : α → β)
    {k : Loop β} (hk : unaryLoop f t.storage (unaryMetadata t.layout t.layout) = .ok k)
    {buf : List β} {sched : List Nat} {s : St β} (hs : k.exec buf sched = .ok s) : ¬ s.finished := by
  rw [unaryLoop, decodeUnary_md ht.1] at hk
  simp only [Res.ok_bind, Layout.size, shapeSize_eq] at hk
  cases hk
  exact gridLoop_endless hn hs

/-- The view of two elements with stride 2 from position `2 ^ 32` of a buffer. -/
def lateView (S : List Nat) : Tensor Nat := ⟨S, ⟨[2], [2], 2 ^ 32⟩⟩

theorem lateView_facts (S : List Nat) (h0 : ∀ j, j < 2 ^ 32 → readC S j = .ok 0)
    (h1 : ∀ j, j < 3 → S[2 ^ 32 + j]? = some 1) :
    (lateView S).WF ∧ (lateView S).HasValues [1, 1] ∧
    ∃ k, unaryLoop id S (unaryMetadata (lateView S).layout (lateView S).layout) = .ok k ∧
      ∀ buf, buf.length = 2 → Computes k buf [0, 0] := by
  have hel : ∀ idx, InRange idx (lateView S).dims → (lateView S).elem idx = some 1 := by
    intro idx hi
    match idx, hi with
    | [i], ⟨h, _⟩ =>
      have h' : i < 2 := h
      have := h1 (i * 2) (by omega)
      show S[2 ^ 32 + (i * 2 + 0)]? = some 1
      exact this
  refine ⟨⟨rfl, fun idx hi => by rw [hel idx hi]; rfl⟩, ⟨rfl, ?_⟩, _,
    by rw [unaryLoop, decodeUnary_md rfl]; rfl, ?_⟩
  · intro idx hi
    rw [hel idx hi]
    match idx, hi with
    | [i], ⟨h, _⟩ =>
      have h' : i < 2 := h
      match i, h' with
      | 0, _ => rfl
      | 1, _ => rfl
  · intro buf hb
    apply gridLoop_list (n := 2) (by decide) hb rfl
    intro i hi
    have hi' : i < 2 := hi
    have hp : ∀ i, i < 2 → unaryPos { numEls := 2, dims := [2], strides := [2], offset := 2 ^ 32 } i < 2 ^ 32 := by
      decide +kernel
    show (readC S (unaryPos { numEls := 2, dims := [2], strides := [2], offset := 2 ^ 32 } i)).map id = _
    rw [h0 _ (hp i hi')]
    match i, hi' with
    | 0, _ => rfl
    | 1, _ => rfl

/-- **C103, refuted for large buffers**: `uint32_t idx = offset + ...` drops the upper bits of the
offset: the view of two ones behind `2 ^ 32` zeros is copied as two zeros. -/
theorem C103_offset_truncated : ∃ t : Tensor Nat,
    t.WF ∧ t.HasValues [1, 1] ∧ numel t.dims ≤ 2 ^ 32 - 256 ∧
    ∃ k, unaryLoop id t.storage (unaryMetadata t.layout t.layout) = .ok k ∧
      ∀ buf, buf.length = 2 → Computes k buf [0, 0] := by
  have hex : ∃ S : List Nat, (∀ j, j < 2 ^ 32 → readC S j = .ok 0) ∧
      ∀ j, j < 3 → S[2 ^ 32 + j]? = some 1 := by
    generalize 2 ^ 32 = N
    refine ⟨List.replicate N 0 ++ [1, 1, 1], ?_, ?_⟩
    · intro j hj
      rw [readC_eq_ok, List.getElem?_append_left (by simpa using hj), List.getElem?_replicate, if_pos hj]
    · intro j hj
      rw [List.getElem?_append_right (by simp), List.length_replicate,
        show N + j - N = j by omega]
      match j, hj with
      | 0, _ => rfl
      | 1, _ => rfl
      | 2, _ => rfl
  obtain ⟨S, h0, h1⟩ := hex
  obtain ⟨a, b, c⟩ := lateView_facts S h0 h1
  exact ⟨lateView S, a, b, by show 2 * 1 ≤ _; omega, c⟩

/-- The statement without the two bounds. -/
def Spec.UnaryEverywhere (α : Type) : Prop :=
  ∀ (t : Tensor α) (xs : List α) (k : Loop α) (buf : List α), t.WF → t.HasValues xs →
    unaryLoop id t.storage (unaryMetadata t.layout t.layout) = .ok k → buf.length = numel t.dims →
    Computes k buf xs

theorem C103_full_false : ¬ UnaryEverywhere Nat := by
  intro h
  obtain ⟨t, hw, hv, _, k, hk, hc⟩ := C103_offset_truncated
  obtain ⟨h1, B, h2⟩ := h t _ k [7, 7] hw hv hk hv.1
  obtain ⟨g1, _⟩ := hc [7, 7] rfl
  -- an execution that finishes
  let sched : List Nat := (List.range k.threads).flatMap fun t => List.replicate B t
  obtain ⟨s, hs, hf⟩ := h1 sched
  have hcnt : ∀ t, t < k.threads → B ≤ sched.count t := by
    intro t ht
    have : (List.replicate B t).count t ≤ sched.count t := by
      apply List.Sublist.count_le
      have hm : List.replicate B t ∈ (List.range k.threads).map fun t => List.replicate B t :=
        List.mem_map.mpr ⟨t, by simpa using ht, rfl⟩
      simp only [sched, List.flatMap]
      exact List.sublist_flatten_of_mem hm
    simpa using this
  have hfin := h2 sched s hcnt hs
  obtain ⟨s', hs', hf'⟩ := g1 sched
  rw [hs] at hs'
  cases hs'
  have e1 := hf hfin
  rw [hf' hfin] at e1
  exact absurd e1 (by decide)

/-! ## Concrete cases -/

/-- The hypotheses of the partial theorems on a transposed view, and one interleaving of the first two
threads: index 1 is stored before index 0. -/
example :
    let t : Tensor Nat := ⟨[1, 2, 3, 4, 5, 6], ⟨[3, 2], [1, 3], 0⟩⟩
    numel t.dims ≤ 2 ^ 32 - 256 ∧ t.storage.length ≤ 2 ^ 32 ∧
    ((unaryLoop (· + 10) t.storage (unaryMetadata t.layout t.layout)).bind fun k =>
      (k.exec [0, 0, 0, 0, 0, 0] [1, 0, 1, 0]).map (·.out)) = .ok [11, 14, 0, 0, 0, 0] := by
  decide +kernel

/-- A view with more than `2 ^ 32 - 256` elements, as in `C103_endless`: one element broadcast. -/
example : let t : Tensor Nat := ⟨[5], ⟨[2 ^ 32], [0], 0⟩⟩
    t.WF ∧ 2 ^ 32 - 256 < numel t.dims := by
  refine ⟨⟨rfl, ?_⟩, by decide⟩
  intro idx hi
  match idx, hi with
  | [i], _ => simp [Tensor.elem, dot]

end Hodu.Cuda
