import Verif.Props.Views2
import Verif.Lemmas.Elementwise

/-! # Properties C09-C12: element-wise kernels and operators -/

namespace Hodu
open Spec

variable {α β : Type}

/-! ## C09 -/

/-- **C09.** For two operands of the same shape there is one list of values - `op` of the operands'
elements at each row-major position - that every variant of the kernel produces: any core count (so
any number of threads), any previous content of the output buffer, any SIMD width.  On the threaded
path, for every worker count `T`, the workers' writes performed in any order (so under any
interleaving) produce that list as well. -/
theorem C09_kernel_value {l r : Tensor α} (hl : l.WF) (hr : r.WF) (hd : l.dims = r.dims)
    (f : α → α → β) :
    ∃ vals : List β,
      vals.length = numel l.dims ∧
      (∀ idx, InRange idx l.dims → ∃ x y, l.elem idx = some x ∧ r.elem idx = some y ∧
        vals[rowMajor l.dims idx]? = some (f x y)) ∧
      (∀ (cores : Nat) (buf : List β), buf.length = numel l.dims →
        binaryKernel cores f l.storage r.storage (binaryMetadata l.layout r.layout l.layout) buf
          = .ok vals) ∧
      (∀ W, binarySimdKernel W f l.storage r.storage
          (binaryMetadata l.layout r.layout l.layout) = .ok vals) ∧
      (∀ m, decodeBinary (binaryMetadata l.layout r.layout l.layout) = .ok m →
        cIsContiguous m.lhsDims m.lhsStrides → cIsContiguous m.rhsDims m.rhsStrides →
        ∀ T, 0 < T → ∃ writes,
          Res.mapL (binaryWorker f l.storage r.storage m T) (List.range T) = .ok writes ∧
          ∀ order buf, order.Perm writes.flatten → buf.length = numel l.dims →
            applyWrites buf order = .ok vals) := by
  obtain ⟨xs, hx⟩ := hl.hasValues
  obtain ⟨ys, hy⟩ := hr.hasValues
  have hxl := hx.1
  have hyl : ys.length = numel l.dims := by rw [hd]; exact hy.1
  refine ⟨List.zipWith f xs ys, by simp; omega, ?_, ?_, ?_, ?_⟩
  · intro idx hi
    have hlt := rowMajor_lt hi
    refine ⟨xs[rowMajor l.dims idx], ys[rowMajor l.dims idx], ?_, ?_, ?_⟩
    · rw [← hx.2 idx hi]; simp [hxl, hlt]
    · rw [← hy.2 idx (hd ▸ hi), ← hd]; simp [hyl, hlt]
    · simp [hxl, hyl, hlt]
  · exact fun cores buf hb => binaryKernel_ok hl hr hd hx hy cores buf hb
  · exact fun W => binarySimdKernel_ok hl hr hd hx hy W
  · intro m hm hc1 hc2 T hT
    rw [decode_pair hl hr hd] at hm
    cases hm
    apply workers_any_order hT (by simp; omega)
    intro i hi
    simp only [List.length_zipWith] at hi
    rw [readBoth_ok (HasValues.readC_cont hl hx hc1 (by omega))
        (HasValues.readC_cont hr hy hc2 (by omega))]
    simp

/-- **C09, one writer per cell**: each of the `n` output positions is written by exactly one of the
`T` workers. -/
theorem C09_one_writer (n T i : Nat) (hT : 0 < T) (hi : i < n) :
    ∃ t, (t < T ∧ chunkStart n T t ≤ i ∧ i < chunkEnd n T t) ∧
      ∀ u, u < T → chunkStart n T u ≤ i → i < chunkEnd n T u → u = t := by
  have hex : ∀ k, i < chunkStart n T k → ∃ t, t < k ∧ chunkStart n T t ≤ i ∧ i < chunkEnd n T t := by
    intro k
    induction k with
    | zero => intro h; rw [chunkStart_zero] at h; omega
    | succ k ih =>
      intro h
      by_cases hk : i < chunkStart n T k
      · obtain ⟨t, h1, h2⟩ := ih hk
        exact ⟨t, by omega, h2⟩
      · exact ⟨k, by omega, by omega, by rw [chunk_step]; exact h⟩
  obtain ⟨t, h1, h2, h3⟩ := hex T (by rw [chunkStart_last n T hT]; exact hi)
  refine ⟨t, ⟨h1, h2, h3⟩, ?_⟩
  intro u _ h4 h5
  rw [chunk_step] at h3 h5
  rcases Nat.lt_trichotomy u t with h | h | h
  · have := chunkStart_mono n T (show u + 1 ≤ t from h); omega
  · exact h
  · have := chunkStart_mono n T (show t + 1 ≤ u from h); omega

/-- Non-vacuity: a transposed and a fresh operand of the same shape. -/
example :
    let l : Tensor Nat := ⟨[1, 2, 3, 4, 5, 6], ⟨[3, 2], [1, 3], 0⟩⟩
    let r : Tensor Nat := ⟨[10, 20, 30, 40, 50, 60], Layout.fromShape [3, 2]⟩
    l.dims = r.dims ∧ binaryKernel 8 (· + ·) l.storage r.storage
      (binaryMetadata l.layout r.layout l.layout) [0, 0, 0, 0, 0, 0] = .ok [11, 24, 32, 45, 53, 66] ∧
    chunkStart 10 4 1 = 3 ∧ chunkEnd 10 4 1 = 6 := by decide +kernel

/-! ## C10, C12 -/

/-- `r` is the element-wise combination of `a` and `b` under broadcasting. -/
def Spec.IsBroadcastOp (f : α → α → β) (a b : Tensor α) (r : Tensor β) : Prop :=
  CommonShape a.dims b.dims r.dims ∧
  ∀ idx, InRange idx r.dims → ∃ x y,
    a.elem (broadcastIndex a.dims idx) = some x ∧ b.elem (broadcastIndex b.dims idx) = some y ∧
    r.elem idx = some (f x y)

theorem dimFromRight_get {dims : List Nat} {k d : Nat} (h : dims[k]? = some d) :
    dimFromRight dims (dims.length - 1 - k) = d ∧ k < dims.length := by
  have hk : k < dims.length := by
    by_contra hc
    rw [List.getElem?_eq_none (by omega)] at h
    simp at h
  refine ⟨?_, hk⟩
  unfold dimFromRight
  rw [List.getD_eq_getElem?_getD, List.getElem?_reverse (by omega),
    show dims.length - 1 - (dims.length - 1 - k) = k by omega, h]
  rfl

theorem get_of_dimFromRight {dims : List Nat} {k : Nat} (hk : k < dims.length) :
    dims[k]? = some (dimFromRight dims (dims.length - 1 - k)) := by
  have h : dims[k]? = some dims[k] := by simp [hk]
  rw [(dimFromRight_get h).1, h]

theorem Spec.CommonShape.unique {a b o p : List Nat} (h1 : CommonShape a b o)
    (h2 : CommonShape a b p) : o = p := by
  have hl : o.length = p.length := by rw [h1.1, h2.1]
  apply List.ext_getElem?
  intro k
  by_cases hk : k < o.length
  · rw [get_of_dimFromRight hk, get_of_dimFromRight (by omega), hl, h1.2, h2.2]
  · rw [List.getElem?_eq_none (by omega), List.getElem?_eq_none (by omega)]

theorem broadcastsTo_left {a b out : List Nat} (h : CommonShape a b out) : BroadcastsTo a out := by
  obtain ⟨h1, h2⟩ := h
  refine ⟨by omega, ?_⟩
  intro k d hk
  obtain ⟨h3, h4⟩ := dimFromRight_get hk
  by_cases hd : d = 1
  · exact Or.inl hd
  right
  have := h2 (a.length - 1 - k)
  rw [h3, if_neg hd] at this
  rw [get_of_dimFromRight (by omega),
    show out.length - 1 - (k + (out.length - a.length)) = a.length - 1 - k by omega, this]

theorem broadcastsTo_right {a b out : List Nat} (hc : Compatible a b) (h : CommonShape a b out) :
    BroadcastsTo b out := by
  obtain ⟨h1, h2⟩ := h
  refine ⟨by omega, ?_⟩
  intro k d hk
  obtain ⟨h3, h4⟩ := dimFromRight_get hk
  by_cases hd : d = 1
  · exact Or.inl hd
  right
  have := h2 (b.length - 1 - k)
  have hc := hc (b.length - 1 - k)
  rw [h3] at this hc
  have h5 : dimFromRight out (b.length - 1 - k) = d := by
    rw [this]
    split
    · rfl
    · omega
  rw [get_of_dimFromRight (by omega),
    show out.length - 1 - (k + (out.length - b.length)) = b.length - 1 - k by omega, h5]

theorem broadcastIndex_self {dims idx : List Nat} (h : InRange idx dims) :
    broadcastIndex dims idx = idx := by
  unfold broadcastIndex
  rw [h.length, Nat.sub_self, List.drop_zero]
  induction dims generalizing idx with
  | nil => cases idx <;> simp_all [InRange]
  | cons d ds ih =>
    cases idx with
    | nil => simp [InRange] at h
    | cons i is =>
      simp only [InRange] at h
      simp only [List.zipWith_cons_cons, ih h.2]
      split
      · congr 1; omega
      · rfl

/-- What the two broadcast operands look like. -/
theorem broadcast2_spec {a b : Tensor α} (ha : a.WF) (hb : b.WF) (hpa : ∀ d ∈ a.dims, 0 < d)
    (hpb : ∀ d ∈ b.dims, 0 < d) :
    (¬ Compatible a.dims b.dims → Tensor.broadcast2 a b = .err) ∧
    (Compatible a.dims b.dims → ∃ l r, Tensor.broadcast2 a b = .ok (l, r) ∧
      CommonShape a.dims b.dims l.dims ∧ r.dims = l.dims ∧ l.WF ∧ r.WF ∧
      (∀ idx, InRange idx l.dims → l.elem idx = a.elem (broadcastIndex a.dims idx) ∧
        r.elem idx = b.elem (broadcastIndex b.dims idx)) ∧
      (l.dims = a.dims → a.layout.isContiguous = false ∨ a.layout.offset = 0 →
        ∀ idx, InRange idx l.dims →
          l.layout.offset + dot idx l.layout.strides = rowMajor l.dims idx)) := by
  obtain ⟨h1, h2⟩ := C06_broadcast_dims_partial a.dims b.dims hpa hpb
  constructor
  · intro h; simp [Tensor.broadcast2, h2 h]
  · intro hc
    obtain ⟨out, e1, e2⟩ := h1 hc
    obtain ⟨l, hl, hld, hlw, hle⟩ := (C05_broadcast ha out).2 (broadcastsTo_left e2)
    obtain ⟨r, hr, hrd, hrw, hre⟩ := (C05_broadcast hb out).2 (broadcastsTo_right hc e2)
    refine ⟨l, r, by simp [Tensor.broadcast2, e1, hl, hr], hld ▸ e2, by rw [hrd, hld], hlw, hrw,
      fun idx hi => ⟨(hle idx (hld ▸ hi)).2, (hre idx (hld ▸ hi)).2⟩, ?_⟩
    intro hdims hoff idx hi
    obtain ⟨s, o, c1, _, c3⟩ := contiguous_spec ha
    have ho : o = 0 := by
      rcases c3 with ⟨c3, _⟩ | ⟨_, c3, c4⟩
      · exact c3
      · rcases hoff with hoff | hoff
        · rw [hoff] at c4; simp at c4
        · omega
    subst ho
    obtain ⟨st, b1, _, b3⟩ := (broadcastTo_spec (l := ⟨a.dims, Layout.computeStrides a.dims, 0⟩)
      (target := out) (computeStrides_length _)).1 (broadcastsTo_left e2)
    have hL : l = ⟨s, ⟨out, st, 0⟩⟩ := by
      have : a.broadcast out = .ok ⟨s, ⟨out, st, 0⟩⟩ := by
        simp [Tensor.broadcast, Tensor.viewVia, c1, b1]
      rw [hl] at this
      exact (Res.ok.inj this)
    subst hL
    have hdims : out = a.dims := hdims
    have hi : InRange idx out := hi
    subst hdims
    have := (b3 idx hi).2
    simp only at this
    rw [broadcastIndex_self hi, dot_computeStrides] at this
    simpa using this

/-- The full property C10, over all operands with elements in `Nat`. -/
def C10_full : Prop :=
  ∀ (a b : Tensor Nat) (f : Nat → Nat → Nat) (cores fill : Nat), a.WF → b.WF →
    (Compatible a.dims b.dims →
      ∃ r, Tensor.binary cores f fill a b = .ok r ∧ IsBroadcastOp f a b r) ∧
    (¬ Compatible a.dims b.dims → Tensor.binary cores f fill a b = .err)

/-- Well-formedness of a freshly created tensor. -/
theorem fresh_wf {data : List α} {dims : List Nat} (h : numel dims = data.length) :
    Tensor.WF ⟨data, Layout.fromShape dims⟩ := by
  refine ⟨computeStrides_length dims, fun idx hi => ?_⟩
  have hlt : rowMajor dims idx < numel dims := rowMajor_lt hi
  simp only [Layout.fromShape, elem_rowMajor]
  simp
  omega

/-- **C10 is false of the code**: `[5] + [1,2,3]` is `[6,6,6]` (the result takes over the broadcast
left operand's layout, stride 0). -/
theorem C10_full_false : ¬ C10_full := by
  intro h
  have hc : Compatible [1] [3] := fun k => by
    match k with
    | 0 => decide
    | k + 1 => simp [dimFromRight]
  obtain ⟨h, _⟩ := h ⟨[5], Layout.fromShape [1]⟩ ⟨[1, 2, 3], Layout.fromShape [3]⟩ (· + ·) 1 0
    (fresh_wf rfl) (fresh_wf rfl)
  obtain ⟨r, h1, _, h2⟩ := h hc
  have he : Tensor.binary 1 (· + ·) 0 (⟨[5], Layout.fromShape [1]⟩ : Tensor Nat)
    ⟨[1, 2, 3], Layout.fromShape [3]⟩ = .ok ⟨[6, 7, 8], ⟨[3], [0], 0⟩⟩ := by decide +kernel
  rw [he] at h1
  cases h1
  obtain ⟨x, y, hx, hy, hr⟩ := h2 [1] (by decide)
  have hx : x = 5 := by
    have : some 5 = some x := hx
    simpa using this.symm
  have hy : y = 2 := by
    have : some 2 = some y := hy
    simpa using this.symm
  subst hx hy
  exact absurd hr (by decide)

/-- A second way C10 fails: a contiguous slice with a non-zero offset on the left gives a result
whose elements lie outside its storage (`x[1:3] + x[1:3]` for `x = [0,1,2,3]`). -/
theorem C10_slice_operand_out_of_bounds :
    ∃ s : Tensor Nat, (⟨[0, 1, 2, 3], Layout.fromShape [4]⟩ : Tensor Nat).slice 0 1 (some 3) 1 = .ok s ∧
      ∃ r, Tensor.binary 1 (· + ·) 0 s s = .ok r ∧ r.dims = [2] ∧ r.elem [0] = some 4 ∧
        r.elem [1] = none := by
  refine ⟨⟨[0, 1, 2, 3], ⟨[2], [1], 1⟩⟩, by decide +kernel, ⟨[2, 4], ⟨[2], [1], 1⟩⟩, ?_⟩
  decide +kernel

/-- **C10, buffer contents** (no zero-size dimensions): the operation succeeds exactly on compatible
shapes, the result has the common shape, and its buffer lists `f` of the broadcast elements in
row-major order.  Only the layout attached to it can be wrong. -/
theorem C10_buffer {a b : Tensor α} (ha : a.WF) (hb : b.WF) (hpa : ∀ d ∈ a.dims, 0 < d)
    (hpb : ∀ d ∈ b.dims, 0 < d) (f : α → α → β) (cores : Nat) (fill : β) :
    (¬ Compatible a.dims b.dims → Tensor.binary cores f fill a b = .err) ∧
    (Compatible a.dims b.dims → ∃ r, Tensor.binary cores f fill a b = .ok r ∧
      CommonShape a.dims b.dims r.dims ∧ r.storage.length = numel r.dims ∧
      (∀ idx, InRange idx r.dims → ∃ x y,
        a.elem (broadcastIndex a.dims idx) = some x ∧ b.elem (broadcastIndex b.dims idx) = some y ∧
        r.storage[rowMajor r.dims idx]? = some (f x y)) ∧
      (r.dims = a.dims → a.layout.isContiguous = false ∨ a.layout.offset = 0 →
        ∀ idx, InRange idx r.dims → r.elem idx = r.storage[rowMajor r.dims idx]?)) := by
  obtain ⟨h1, h2⟩ := broadcast2_spec ha hb hpa hpb
  constructor
  · intro hc; simp [Tensor.binary, h1 hc]
  · intro hc
    obtain ⟨l, r, e1, e2, e3, e4, e5, e6, e7⟩ := h2 hc
    obtain ⟨vals, v1, v2, v3, _⟩ := C09_kernel_value e4 e5 e3.symm f
    have hk := v3 cores (List.replicate l.layout.size fill) (by simp [Layout.size, shapeSize_eq])
    refine ⟨⟨vals, l.layout⟩, by simp [Tensor.binary, e1, hk], e2, v1, ?_, ?_⟩
    · intro idx hi
      obtain ⟨x, y, hx, hy, hv⟩ := v2 idx hi
      exact ⟨x, y, by rw [← (e6 idx hi).1, hx], by rw [← (e6 idx hi).2, hy], hv⟩
    · intro hd ho idx hi
      have := e7 hd ho idx hi
      simp only [Tensor.elem, this]

/-- **C10** for a left operand that already has the common shape and is either non-contiguous (any
transposed or strided view) or starts at its buffer's beginning; the right operand is arbitrary.
Missing: a left operand that gets broadcast (false, `C10_full_false`), a contiguous slice on the left
(false, `C10_slice_operand_out_of_bounds`), zero-size dimensions (false, `C06_zero_dim_wrong`). -/
theorem C10_binary_partial {a b : Tensor α} (ha : a.WF) (hb : b.WF) (hpa : ∀ d ∈ a.dims, 0 < d)
    (hpb : ∀ d ∈ b.dims, 0 < d) (f : α → α → β) (cores : Nat) (fill : β)
    (hc : Compatible a.dims b.dims) (hs : CommonShape a.dims b.dims a.dims)
    (ho : a.layout.isContiguous = false ∨ a.layout.offset = 0) :
    ∃ r, Tensor.binary cores f fill a b = .ok r ∧ IsBroadcastOp f a b r := by
  obtain ⟨r, h1, h2, _, h4, h5⟩ := (C10_buffer ha hb hpa hpb f cores fill).2 hc
  have hd : r.dims = a.dims := h2.unique hs
  refine ⟨r, h1, h2, ?_⟩
  intro idx hi
  obtain ⟨x, y, hx, hy, hv⟩ := h4 idx hi
  exact ⟨x, y, hx, hy, by rw [h5 hd ho idx hi, hv]⟩

/-- Non-vacuity: a transposed left operand, a broadcast right operand. -/
example :
    let a : Tensor Nat := ⟨[1, 2, 3, 4, 5, 6], ⟨[3, 2], [1, 3], 0⟩⟩
    let b : Tensor Nat := ⟨[10, 20], Layout.fromShape [2]⟩
    a.layout.isContiguous = false ∧ Tensor.broadcastDims a.dims b.dims = .ok a.dims ∧
    Tensor.binary 4 (· + ·) 0 a b =
      .ok ⟨[11, 24, 12, 25, 13, 26], ⟨[3, 2], [2, 1], 0⟩⟩ := by decide +kernel

/-- The full property C12. -/
def C12_full : Prop :=
  ∀ (a b : Tensor Nat) (f : Nat → Nat → Bool), a.WF → b.WF →
    (Compatible a.dims b.dims →
      ∃ r, Tensor.binaryBool f a b = .ok r ∧ IsBroadcastOp f a b r) ∧
    (¬ Compatible a.dims b.dims → Tensor.binaryBool f a b = .err)

/-- **C12 is false of the code**: comparing `[2] < [1,2,3]` reads `[false,false,false]`. -/
theorem C12_full_false : ¬ C12_full := by
  intro h
  have hc : Compatible [1] [3] := fun k => by
    match k with
    | 0 => decide
    | k + 1 => simp [dimFromRight]
  obtain ⟨h, _⟩ := h ⟨[2], Layout.fromShape [1]⟩ ⟨[1, 2, 3], Layout.fromShape [3]⟩
    (fun x y => decide (x < y)) (fresh_wf rfl) (fresh_wf rfl)
  obtain ⟨r, h1, _, h2⟩ := h hc
  have he : Tensor.binaryBool (fun x y => decide (x < y)) (⟨[2], Layout.fromShape [1]⟩ : Tensor Nat)
    ⟨[1, 2, 3], Layout.fromShape [3]⟩ = .ok ⟨[false, false, true], ⟨[3], [0], 0⟩⟩ := by decide +kernel
  rw [he] at h1
  cases h1
  obtain ⟨x, y, hx, hy, hr⟩ := h2 [2] (by decide)
  have hx : x = 2 := by
    have : some 2 = some x := hx
    simpa using this.symm
  have hy : y = 3 := by
    have : some 3 = some y := hy
    simpa using this.symm
  subst hx hy
  exact absurd hr (by decide)

/-- **C12** under the same restriction on the left operand as `C10_binary_partial` (the comparison
operators attach the broadcast left operand's layout, too); incompatible shapes are rejected. -/
theorem C12_compare_partial {a b : Tensor α} (ha : a.WF) (hb : b.WF) (hpa : ∀ d ∈ a.dims, 0 < d)
    (hpb : ∀ d ∈ b.dims, 0 < d) (f : α → α → Bool) :
    (¬ Compatible a.dims b.dims → Tensor.binaryBool f a b = .err) ∧
    (Compatible a.dims b.dims → CommonShape a.dims b.dims a.dims →
      a.layout.isContiguous = false ∨ a.layout.offset = 0 →
      ∃ r, Tensor.binaryBool f a b = .ok r ∧ IsBroadcastOp f a b r) := by
  obtain ⟨h1, h2⟩ := broadcast2_spec ha hb hpa hpb
  constructor
  · intro hc; simp [Tensor.binaryBool, h1 hc]
  · intro hc hs ho
    obtain ⟨l, r, e1, e2, e3, e4, e5, e6, e7⟩ := h2 hc
    obtain ⟨xs, hx⟩ := e4.hasValues
    obtain ⟨ys, hy⟩ := e5.hasValues
    have hk := binaryBoolKernel_ok (f := f) e4 e5 e3.symm hx hy
    have hd : l.dims = a.dims := e2.unique hs
    refine ⟨⟨List.zipWith f xs ys, l.layout⟩, by simp [Tensor.binaryBool, e1, hk], e2, ?_⟩
    intro idx hi
    have hlt := rowMajor_lt hi
    have hxl := hx.1
    have hyl := hy.1
    rw [e3] at hyl
    have hlt' : rowMajor l.dims idx < numel l.dims := hlt
    refine ⟨xs[rowMajor l.dims idx], ys[rowMajor l.dims idx], ?_, ?_, ?_⟩
    · rw [← (e6 idx hi).1, ← hx.2 idx hi]; simp [hxl, hlt']
    · have := hy.2 idx (e3 ▸ hi)
      rw [e3] at this
      rw [← (e6 idx hi).2, ← this]; simp [hyl, hlt']
    · have := e7 hd ho idx hi
      simp only [Tensor.elem, this]
      simp [hxl, hyl, hlt']

example :
    let a : Tensor Nat := ⟨[1, 2, 3, 4, 5, 6], ⟨[3, 2], [1, 3], 0⟩⟩
    let b : Tensor Nat := ⟨[2, 5], Layout.fromShape [2]⟩
    Tensor.broadcastDims a.dims b.dims = .ok a.dims ∧
    Tensor.binaryBool (fun x y => decide (x < y)) a b =
      .ok ⟨[true, true, false, false, false, false], ⟨[3, 2], [2, 1], 0⟩⟩ := by decide +kernel

/-! ## C11 -/

/-- The full property C11. -/
def C11_full : Prop :=
  ∀ (t : Tensor Nat) (f : Nat → Nat) (cores fill : Nat), t.WF →
    ∃ r, Tensor.unary cores f fill t = .ok r ∧ r.dims = t.dims ∧
      ∀ idx, InRange idx t.dims → ∃ x, t.elem idx = some x ∧ r.elem idx = some (f x)

/-- **C11 is false of the code**: on a rank-0 view that does not start at its buffer's beginning
(slice `[10,20,30][1:2]`, then squeeze) the kernel ignores the offset. -/
theorem C11_full_false : ¬ C11_full ∧
    ∃ s v, (⟨[10, 20, 30], Layout.fromShape [3]⟩ : Tensor Nat).slice 0 1 (some 2) 1 = .ok s ∧
      s.squeeze [0] = .ok v ∧ v.dims = [] ∧ v.elem [] = some 20 ∧
      Tensor.unary 1 (· + 1) 0 v = .ok ⟨[11], ⟨[], [], 0⟩⟩ := by
  have hw : Tensor.WF (⟨[10, 20, 30], ⟨[], [], 1⟩⟩ : Tensor Nat) := by
    refine ⟨rfl, fun idx hi => ?_⟩
    cases idx with
    | nil => decide
    | cons i is => simp [InRange] at hi
  constructor
  · intro h
    obtain ⟨r, h1, _, h2⟩ := h ⟨[10, 20, 30], ⟨[], [], 1⟩⟩ (· + 1) 1 0 hw
    have he : Tensor.unary 1 (· + 1) 0 (⟨[10, 20, 30], ⟨[], [], 1⟩⟩ : Tensor Nat)
      = .ok ⟨[11], ⟨[], [], 0⟩⟩ := by decide +kernel
    rw [he] at h1
    cases h1
    obtain ⟨x, hx, hr⟩ := h2 [] (by decide)
    have hx : x = 20 := by
      have : some 20 = some x := hx
      simpa using this.symm
    subst hx
    exact absurd hr (by decide)
  · refine ⟨⟨[10, 20, 30], ⟨[1], [1], 1⟩⟩, ⟨[10, 20, 30], ⟨[], [], 1⟩⟩, ?_⟩
    decide +kernel

/-- **C11** for every tensor of rank at least 1 (any view), and for rank-0 tensors at offset 0.
Missing: rank-0 views with a non-zero offset (false, `C11_full_false`). -/
theorem C11_unary_partial {t : Tensor α} (ht : t.WF) (h0 : t.dims ≠ [] ∨ t.layout.offset = 0)
    (f : α → β) (cores : Nat) (fill : β) :
    ∃ r, Tensor.unary cores f fill t = .ok r ∧ r.dims = t.dims ∧ r.WF ∧
      ∀ idx, InRange idx t.dims → ∃ x, t.elem idx = some x ∧ r.elem idx = some (f x) := by
  obtain ⟨xs, hx⟩ := ht.hasValues
  have hk := unaryKernel_ok (f := f) ht hx h0 cores (List.replicate t.layout.size fill)
    (by simp [Layout.size, shapeSize_eq])
  refine ⟨⟨xs.map f, Layout.fromShape t.dims⟩, by simp [Tensor.unary, hk], rfl,
    fresh_wf (by simpa using hx.1.symm), ?_⟩
  intro idx hi
  have hlt := rowMajor_lt hi
  have hxl := hx.1
  refine ⟨xs[rowMajor t.dims idx], ?_, ?_⟩
  · rw [← hx.2 idx hi]; simp [hxl, hlt]
  · simp [Layout.fromShape, elem_rowMajor, hxl, hlt]

example :
    let t : Tensor Nat := ⟨[1, 2, 3, 4, 5, 6], ⟨[2, 2], [1, 3], 1⟩⟩
    t.dims ≠ [] ∧ Tensor.unary 4 (· * 10) 0 t = .ok ⟨[20, 50, 30, 60], ⟨[2, 2], [2, 1], 0⟩⟩ := by
  decide +kernel

end Hodu
