import Verif.Props.MetalIndex
import Verif.Props.MetalMatrix
import Verif.Props.MetalWindow
import Verif.Props.MetalConv
import Verif.Props.MetalScan
import Verif.Props.MetalReduce
import Verif.Props.MetalMove

/-!
# C123-C125, C127-C130: arguments that do not match

What the hosts of the Metal operations answer to arguments outside of the domain of the operation: an error, before any
buffer is touched.
-/

namespace Hodu.Metal

open _root_.Hodu _root_.Hodu.Spec Cuda Cuda.Spec Metal.Spec

variable {α β A V W : Type}

/-- The types a reduction has a kernel for. -/
def Spec.reduceKernels : Dispatch.ReduceOp → List DType
  | .std | .var => []
  | .mean | .norm | .logSum | .logSumExp => [.bf16, .f16, .f32]
  | .any | .all => [.bool, .bf16, .f16, .f32, .i8, .i16, .i32, .i64, .u8, .u16, .u32, .u64]
  | .sum | .max | .min | .prod | .argMax | .argMin => [.bf16, .f16, .f32, .i8, .i16, .i32, .i64, .u8, .u16, .u32, .u64]

/-- **C124, every operation and type**: which reductions have a kernel. -/
theorem C124_kernels (op : Dispatch.ReduceOp) (dt : DType) :
    reduceMetalRuns op dt = true ↔ dt ∈ Spec.reduceKernels op := by
  cases op <;> cases dt <;> decide +kernel

/-- **C125, types of index_select, index_put and scatter**: a type without a kernel is refused, for an axis of the tensor
and an input whose first elements can be copied (`C125_scatter_broadcast_ub` otherwise). -/
theorem C125_more_types (maxT : Nat) {dt : DType} (ixTy : DType) (h : dt ∉ kernelTypes) {t : Tensor α} (src : Tensor α)
    (ix : Tensor Int) {dim : Int} {k : Nat} (hk : IsAxis t.dims.length dim k) (hr : t.dims.length < 2 ^ 31)
    (hc : numel t.dims ≤ t.storage.length) (op : ScatterOp) :
    indexSelectMetal maxT dt ixTy t dim ix = .err ∧ indexPutMetal maxT dt ixTy t dim ix src = .err ∧
      scatterMetal maxT dt ixTy op t dim ix src = .err := by
  have hb : blitFirst t.layout.size t.storage = .ok (t.storage.take t.layout.size) := by
    unfold blitFirst
    rw [if_pos]
    have : t.layout.size = numel t.dims := shapeSize_eq _
    omega
  have hax : axisUsize t.dims.length dim = k := axisUsize_eq hk hr
  have hkl : k < t.dims.length := hk.1
  refine ⟨?_, ?_, ?_⟩
  · unfold indexSelectMetal
    simp only [hax]
    rw [if_neg (by omega), if_pos (by simpa using h)]
  · unfold indexPutMetal
    rw [hb, Res.ok_bind, if_pos (by simpa using h)]
  · unfold scatterMetal
    rw [hb, Res.ok_bind, if_pos (by simpa using h)]

/-- **C127, ranks**: the product of a tensor with fewer than two dimensions, on either side, is an error. -/
theorem C127_rank (zero : α) (macc : α → α → α → α) {a b : Tensor α} (h : a.dims.length < 2 ∨ b.dims.length < 2) :
    callOpsMatmulMetal zero macc a b = .err := by
  unfold callOpsMatmulMetal
  exact if_pos h

/-- **C128, windows**: a window, strides or padding of another rank than the input is an error. -/
theorem C128_window_args (maxT : Nat) (op : WindowOp) (ty : DType) (init : A) (step : A → Option α → Res A)
    (fin : A → Nat → β) {t : Tensor α} {window strides : List Nat} {pad : List (Nat × Nat)}
    (h : window.length ≠ t.dims.length ∨ strides.length ≠ t.dims.length ∨ pad.length ≠ t.dims.length) :
    reduceWindowMetal maxT op ty init step fin t window strides pad = .err := by
  unfold reduceWindowMetal
  split
  · rfl
  split
  · rfl
  split
  · rfl
  · rename_i h1 h2 h3
    rcases h with h | h | h
    · exact absurd h h1
    · exact absurd h h2
    · exact absurd h h3

/-- **C128, einsum**: no operands, or more than four, are an error. -/
theorem C128_einsum_args (maxT : Nat) (ty : DType) (zero one : A) (add mul : A → A → A) (ld : α → A) (st : A → β)
    (equation : List Char) {ts : List (Tensor α)} (h : ts = [] ∨ 4 < ts.length) :
    einsumMetal maxT ty zero one add mul ld st equation ts = .err := by
  unfold einsumMetal
  rcases h with rfl | h
  · rfl
  · rw [if_neg (by omega), if_pos h]

/-- **C129, convolutions**: an input or a weight of the wrong rank, or with different numbers of channels in their second
dimensions, is an error, in the convolution and in the transposed one. -/
theorem C129_args (maxT : Nat) (ty : DType) (zero : α) (add mul : α → α → α) {nsp : Nat} {x w : Tensor α} (s p op d : Nat)
    (h : x.dims.length ≠ 2 + nsp ∨ w.dims.length ≠ 2 + nsp ∨ ∃ c c', x.dims[1]? = some c ∧ w.dims[1]? = some c' ∧ c ≠ c') :
    convMetal maxT ty zero add mul nsp x w s p d = .err ∧ convTMetal maxT ty zero add mul nsp x w s p op d = .err := by
  unfold convMetal convTMetal
  by_cases h1 : x.dims.length ≠ 2 + nsp ∨ w.dims.length ≠ 2 + nsp
  · rw [if_pos h1, if_pos h1]
    exact ⟨rfl, rfl⟩
  · rw [if_neg h1, if_neg h1]
    have h2 : x.dims.getD 1 0 ≠ w.dims.getD 1 0 := by
      rcases h with h | h | ⟨c, c', hc, hc', hne⟩
      · exact absurd (Or.inl h) h1
      · exact absurd (Or.inr h) h1
      · rw [List.getD_eq_getElem?_getD, List.getD_eq_getElem?_getD, hc, hc']
        exact hne
    rw [if_pos h2, if_pos h2]
    exact ⟨rfl, rfl⟩

/-- **C129, weight gradients**: an input, an output gradient or a weight shape of the wrong rank is an error. -/
theorem C129_grad_args (maxT : Nat) (ty : DType) (job : ConvGradMeta → Nat → Nat → Res (Option (Nat × V)))
    (word : Nat → Nat) (upd : Nat → W → V → W) (way : Way) {nsp : Nat} {x g : Layout} {wdims : List Nat} (s p d : Nat)
    (h : x.dims.length ≠ 2 + nsp ∨ g.dims.length ≠ 2 + nsp ∨ wdims.length ≠ 2 + nsp) :
    convGradWMetal maxT ty job word upd way nsp x g wdims s p d = .err := by
  unfold convGradWMetal
  exact if_pos h

/-- **C130, topk**: a scalar, an axis outside of the tensor, or more elements than the axis has are an error. -/
theorem C130_topk_args {K : Type} [LinearOrder K] (maxT : Nat) (key : α → K) (back : K → Res α) (dt : DType) (gv : Given α)
    (gi : Given Nat) {t : Tensor α} {k : Nat} {dim : Int} (largest sorted : Bool)
    (h : t.dims = [] ∨ t.dims.length ≤ axisUsize t.dims.length dim ∨
      ∃ n, t.dims[axisUsize t.dims.length dim]? = some n ∧ n < k) :
    topkMetal maxT key back dt gv gi t k dim largest sorted = .err := by
  unfold topkMetal
  simp only
  split
  · rfl
  split
  · rfl
  split
  · rfl
  · rename_i h1 h2 h3
    rcases h with h | h | ⟨n, hn, hk⟩
    · rw [h] at h1; exact absurd rfl h1
    · exact absurd h h2
    · rw [List.getD_eq_getElem?_getD, hn] at h3
      exact absurd hk h3

/-! ## Examples -/

/-- **C123, concat and split**: no tensors, tensors of different ranks, or a type without a kernel are an error of `concat` for an axis of
the first tensor; an axis outside of the tensor, parts that together are longer than it or a type without a kernel are an error of
`split`. -/
theorem C123_args (maxT : Nat) (dt : DType) (dim : Int) :
    concatMetal maxT dt ([] : List (Tensor α)) dim = .err ∧
    (∀ (t : Tensor α) rest, axisUsize t.dims.length dim < t.dims.length →
      (dt ∉ kernelTypes ∨ ∃ u ∈ rest, u.dims.length ≠ t.dims.length) → concatMetal maxT dt (t :: rest) dim = .err) ∧
    ∀ (t : Tensor α) k start size, (t.dims[k]? = none ∨ (∃ n, t.dims[k]? = some n ∧ n < start + size) ∨ dt ∉ kernelTypes) →
      callSplitMetal maxT dt t k start size = .err := by
  refine ⟨rfl, fun t rest hk h => ?_, fun t k start size h => ?_⟩
  · simp only [concatMetal]
    by_cases hr : ∀ l ∈ rest.map (·.layout), l.dims.length = t.dims.length
    · rw [concatOutDims_ok hk hr, Res.ok_bind]
      rcases h with h | ⟨u, hu, h⟩
      · split
        · rfl
        · rw [if_pos (by simpa using h)]
      · exact absurd (hr u.layout (List.mem_map_of_mem hu)) h
    · rw [concatOutDims_err hk hr]; rfl
  · unfold callSplitMetal
    split
    · rfl
    · rename_i d hd
      split
      · rfl
      · rename_i hs
        rcases h with h | ⟨n, h, h'⟩ | h
        · rw [hd] at h; cases h
        · rw [hd] at h; cases h; omega
        · rw [if_pos (by simpa using h)]

/-- The shape of the result cannot be formed for an axis outside of the tensor. -/
theorem setAll_panic {v : Nat} : ∀ {ks : List Nat} {out : List Nat}, (∃ k ∈ ks, out.length ≤ k) → setAll v ks out = .panic
  | [], _, h => by obtain ⟨k, hk, _⟩ := h; cases hk
  | k :: ks, out, h => by
    unfold setAll
    split
    · obtain ⟨j, hj, hl⟩ := h
      rcases List.mem_cons.mp hj with rfl | hj
      · omega
      · exact setAll_panic ⟨j, hj, by simpa using hl⟩
    · rfl

/-- **C124, axes**: an axis outside of the tensor is a panic, before the check of the device that would make it an error
(be_metal/storage/ops_reduce.rs:28-35). -/
theorem C124_axes (maxT : Nat) (comb : List (List Nat × α) → Res β) {t : Tensor α} {ds : List Int} {d : Int} (hd : d ∈ ds)
    (h : t.dims.length ≤ axisUsize t.dims.length d) (keep : Bool) : reduceMetal maxT comb t ds keep = .panic := by
  have : ∃ k ∈ reduceAxes t.dims.length ds, t.dims.length ≤ k := by
    refine ⟨axisUsize t.dims.length d, ?_, h⟩
    unfold reduceAxes
    rw [if_neg (by simp only [List.isEmpty_iff]; exact List.ne_nil_of_mem hd)]
    exact List.mem_map_of_mem hd
  unfold reduceMetal reduceHostDims
  simp only
  rw [setAll_panic this]
  rfl

open IntOps in
theorem foldInt_mul {t : Ty} (ht : t.Std) : ∀ (vs : List Int) (a : Int), t.Holds a → (∀ v ∈ vs, t.Holds v) →
    (∀ w, Res.foldL (fun acc v => metal t .mul acc v) a vs = .ok w → w = t.conv (a * vs.prod)) ∧
    (t.signed = false ∨ t.bits < 32 → t ≠ ⟨false, 16⟩ → ∃ w, Res.foldL (fun acc v => metal t .mul acc v) a vs = .ok w)
  | [], a, ha, _ => by
    refine ⟨fun w h => ?_, fun _ _ => ⟨a, rfl⟩⟩
    have : a = w := Res.ok.inj h
    rw [← this, List.prod_nil, Int.mul_one, conv_of_holds ht ha]
  | v :: vs, a, ha, hv => by
    have hstep : ∀ b, metal t .mul a v = .ok b → b = t.conv (a * v) := fun b hb => arith_map ht hb
    constructor
    · intro w h
      simp only [Res.foldL] at h
      obtain ⟨b, hb, h⟩ := Res.bind_eq_ok.mp h
      have e := hstep b hb
      have := (foldInt_mul ht vs b (e ▸ conv_holds ht _) (fun x hx => hv x (List.mem_cons_of_mem _ hx))).1 w h
      rw [this, List.prod_cons]
      apply conv_congr
      rw [e, ← Int.mul_assoc]
      exact (conv_modEq t (a * v)).mul_right _
    · intro hs h16
      obtain ⟨w, hw⟩ := (foldInt_mul ht vs (t.conv (a * v)) (conv_holds ht _)
        (fun x hx => hv x (List.mem_cons_of_mem _ hx))).2 hs h16
      have hb : metal t .mul a v = .ok (t.conv (a * v)) :=
        (C122_reduced_partial ht ha (hv v List.mem_cons_self) hs).2.1 (Or.inl h16)
      exact ⟨w, by simp only [Res.foldL, hb, Res.ok_bind, hw]⟩

open IntOps in
/-- **C124, products**: a defined product is the product of the values reduced to the type; it is defined for every type but `int32_t`,
`int64_t` and `uint16_t` (whose products are computed in `int`). -/
theorem C124_products {t : Ty} (ht : t.Std) {vs : List Int} (hv : ∀ v ∈ vs, t.Holds v) :
    (∀ w, foldInt t .mul vs = .ok w → w = t.conv vs.prod) ∧
    (t.signed = false ∨ t.bits < 32 → t ≠ ⟨false, 16⟩ → foldInt t .mul vs = .ok (t.conv vs.prod)) := by
  have h1 : t.Holds 1 := by
    obtain ⟨s, b⟩ := t
    rcases ht with h1 | h1 | h1 | h1 <;> simp only at h1 <;> subst h1 <;> cases s <;> decide
  obtain ⟨a, b⟩ := foldInt_mul ht vs 1 h1 hv
  have a' : ∀ w, foldInt t .mul vs = .ok w → w = t.conv vs.prod := by
    intro w hw
    have := a w hw
    rwa [Int.one_mul] at this
  refine ⟨a', fun hs h16 => ?_⟩
  obtain ⟨w, hw⟩ := b hs h16
  rw [← a' w hw]
  exact hw

/-- The product of a `u8` row is reduced; that of two `u16` values may be undefined. -/
example : foldInt ⟨false, 8⟩ .mul [16, 17, 3] = .ok 48 ∧ foldInt ⟨false, 16⟩ .mul [65535, 65535] = .ub ∧
    axisUsize 2 1 < 2 ∧ 2 ≤ axisUsize 2 2 := by decide +kernel

example : reduceMetalRuns .max .f64 = false ∧ reduceMetalRuns .argMin .u64 = true := by decide +kernel

example : DType.f64 ∉ kernelTypes ∧ IsAxis [2, 3].length 0 0 ∧
    numel [2, 3] ≤ (⟨[1, 2, 3, 4, 5, 6], Layout.fromShape [2, 3]⟩ : Tensor Int).storage.length :=
  ⟨by decide, ⟨by decide, Or.inl rfl⟩, by decide⟩

/-- A vector on the right; a window of two dimensions for a vector; five operands; channels 1 and 2; the fourth best of three;
the axis 1 of a vector. -/
example : callOpsMatmulMetal 0 (fun a x y => a + x * y) (⟨[1, 2], Layout.fromShape [1, 2]⟩ : Tensor Int)
      ⟨[1, 2], Layout.fromShape [2]⟩ = .err ∧
    ([2, 2] : List Nat).length ≠ (⟨[1, 2], Layout.fromShape [2]⟩ : Tensor Int).dims.length ∧
    4 < (List.replicate 5 (⟨[1], Layout.fromShape [1]⟩ : Tensor Int)).length ∧
    (∃ c c', (⟨[1, 2], Layout.fromShape [1, 1, 2]⟩ : Tensor Int).dims[1]? = some c ∧
      (⟨[1, 2], Layout.fromShape [1, 2, 1]⟩ : Tensor Int).dims[1]? = some c' ∧ c ≠ c') ∧
    (∃ n, (⟨[1, 2, 3], Layout.fromShape [3]⟩ : Tensor Int).dims[axisUsize 1 0]? = some n ∧ n < 4) ∧
    (⟨[1, 2, 3], Layout.fromShape [3]⟩ : Tensor Int).dims.length ≤ axisUsize 1 1 :=
  ⟨C127_rank _ _ (Or.inr (by decide)), by decide, by decide, ⟨1, 2, rfl, rfl, by decide⟩, ⟨3, rfl, by decide⟩, by decide⟩

end Hodu.Metal
