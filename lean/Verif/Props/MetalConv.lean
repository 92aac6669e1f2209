import Verif.Model.MetalConv
import Verif.Props.MetalIndex
import Verif.Props.CudaConvGrad

/-!
# C129: convolutions on Metal

A convolution on Metal leaves what the CPU computes, whatever the interleaving of the threads and the contents of the
pooled buffer; the transposed convolution and the weight gradients do not.
-/

namespace Hodu.Metal

open _root_.Hodu _root_.Hodu.Spec Cuda Cuda.Spec Metal.Spec

variable {α A V W : Type}

/-! ## Convolution -/

theorem convLoop_of_kernel {zero : α} {add mul : α → α → α} {nsp : Nat} {inp w : List α} {md : List Nat} {zs : List α}
    (h : convKernel zero add mul nsp inp w md = .ok zs) {maxT : Nat} (hm : GroupSize maxT) (h0 : 0 < zs.length)
    (hn : zs.length ≤ 2 ^ 32 - 1024) :
    md[0]? = some zs.length ∧ ∃ k, convLoop maxT zero add mul nsp inp w md = .ok k ∧
      ∀ buf, zs.length ≤ buf.length → Computes k buf (zs ++ buf.drop zs.length) := by
  unfold convKernel at h
  obtain ⟨m, hd, h⟩ := Res.bind_eq_ok.mp h
  have hl : zs.length = m.numEls := by simpa using (Res.mapL_ok_inv h).1
  obtain ⟨k, hk, hc⟩ := stride_of_runLoop h hm (by omega) (by omega)
  exact ⟨by rw [decodeConv_numEls hd, hl], k, by rw [convLoop, hd, Res.ok_bind, hk], hc⟩

/-- C129, convolution (a type with a kernel, at least one and at most `2 ^ 32 - 1024` elements): every interleaving of the
threads ends with what the CPU computes with the same arithmetic at the front of the buffer. -/
theorem C129_conv_like_cpu {ty : DType} (hty : ty ∈ convTypes) {zero : α} {add mul : α → α → α} {nsp : Nat}
    {x w r : Tensor α} {s p d : Nat} (h : x.conv zero add mul nsp w s p d = .ok r) {maxT : Nat} (hm : GroupSize maxT)
    (h0 : 0 < r.storage.length) (hn : r.storage.length ≤ 2 ^ 32 - 1024) :
    Delivers (convMetal maxT ty zero add mul nsp x w s p d) r := by
  unfold Tensor.conv at h
  split at h
  · cases h
  split at h
  · cases h
  rename_i h1 h2
  obtain ⟨outs, ho, h⟩ := Res.bind_eq_ok.mp h
  obtain ⟨zs, hz, h⟩ := Res.bind_eq_ok.mp h
  injection h with h
  subst h
  unfold callOpsConv at hz
  rw [if_neg h1] at hz
  split at hz
  · cases hz
  obtain ⟨outs', ho', hz⟩ := Res.bind_eq_ok.mp hz
  rw [ho] at ho'
  injection ho' with ho'
  subst ho'
  have hnsp : x.layout.dims.length - 2 = nsp := by
    simp only [not_or, not_not] at h1
    have := h1.1
    unfold Tensor.dims at this
    omega
  obtain ⟨e0, k, hk, hc⟩ := convLoop_of_kernel hz hm h0 hn
  refine ⟨rfl, k, ?_, hc⟩
  unfold convMetal
  rw [if_neg h1, if_neg h2, ho, Res.ok_bind]
  unfold callConvMetal
  rw [show convSizes (convOutSize · · s p d) (x.layout.dims.drop 2) (w.layout.dims.drop 2) = .ok outs from ho,
    Res.ok_bind, if_neg (by simpa using hty), hnsp]
  have hk' : convLoop maxT zero add mul nsp x.storage w.storage (convMetadata x.layout w.layout
      (List.replicate nsp s) (List.replicate nsp p) (List.replicate nsp d)
      ([x.layout.dims.getD 0 0, w.layout.dims.getD 0 0] ++ outs)) = .ok k := hk
  rw [hk', Res.ok_bind, Res.ok_bind]
  have hlen : shapeSize ([x.layout.dims.getD 0 0, w.layout.dims.getD 0 0] ++ outs) = zs.length := by
    have : some (shapeSize ([x.layout.dims.getD 0 0, w.layout.dims.getD 0 0] ++ outs)) = some zs.length := e0
    injection this
  show Res.ok _ = Res.ok _
  dsimp only
  rw [hlen]
  rfl

/-- C129, convolution by the elements, for operands stored in row-major order: the cross-correlation with zero padding,
summed in the order channel, kernel position.  Missing: strided views (`C129_view_wrong`), `int` overflow, results that
are empty (`C129_empty`) or have more than `2 ^ 32 - 1024` elements, the types without a kernel (`C129_types`). -/
theorem C129_conv_partial {ty : DType} (hty : ty ∈ convTypes) {nsp : Nat} (h3 : nsp = 1 ∨ nsp = 2 ∨ nsp = 3)
    {x w : Tensor α} {X W : List Nat → α} (zero : α) (add mul : α → α → α) {s p d B Ci Co : Nat} {ns ks : List Nat}
    (hx : Reads x X) (hw : Reads w W) (px : Packed x) (pw : Packed w) (dx : x.dims = B :: Ci :: ns)
    (dw : w.dims = Co :: Ci :: ks) (hn : ns.length = nsp) (hk : ks.length = nsp) (hs : 0 < s)
    (hv : KernelFits p d ns ks) (hb : ∀ n ∈ ns, n + 2 * p < 2 ^ 31) {maxT : Nat} (hm : GroupSize maxT)
    (h0 : 0 < numel (B :: Co :: convOuts s p d ns ks))
    (hsz : numel (B :: Co :: convOuts s p d ns ks) ≤ 2 ^ 32 - 1024) :
    ∃ y : Tensor α, Delivers (convMetal maxT ty zero add mul nsp x w s p d) y ∧ y.WF ∧
      y.dims = B :: Co :: convOuts s p d ns ks ∧
      ∀ b oc o, b < B → oc < Co → InRange o (convOuts s p d ns ks) → y.elem (b :: oc :: o) =
        some ((convTerms mul s p d Ci ns ks X W b oc o).foldl add zero) := by
  obtain ⟨y, h1, h2, _, h5, h6⟩ := C59_conv_partial h3 zero add mul hx hw px pw dx dw hn hk hs hv hb
  have hlen : y.storage.length = numel y.dims := conv_storage_length h1
  exact ⟨y, C129_conv_like_cpu hty h1 hm (by rw [hlen, h5]; exact h0) (by rw [hlen, h5]; exact hsz), h2, h5, h6⟩

/-- C129 is false of the types without a kernel: where the CPU convolves, Metal reports an error. -/
theorem C129_types {ty : DType} (hty : ty ∉ convTypes) (maxT : Nat) {zero : α} {add mul : α → α → α}
    {nsp : Nat} {x w : Tensor α} {s p d : Nat} (h : ∃ r, x.conv zero add mul nsp w s p d = .ok r) :
    convMetal maxT ty zero add mul nsp x w s p d = .err := by
  obtain ⟨r, h⟩ := h
  unfold Tensor.conv at h
  split at h
  · cases h
  split at h
  · cases h
  rename_i h1 h2
  obtain ⟨outs, ho, h⟩ := Res.bind_eq_ok.mp h
  unfold convMetal
  rw [if_neg h1, if_neg h2, ho, Res.ok_bind]
  unfold callConvMetal
  rw [show convSizes (convOutSize · · s p d) (x.layout.dims.drop 2) (w.layout.dims.drop 2) = .ok outs from ho,
    Res.ok_bind, if_pos hty]
  rfl

/-- C129 is false of empty batches: the CPU gives the empty tensor, the launch on Metal divides by zero. -/
theorem C129_empty {ty : DType} (hty : ty ∈ convTypes) (maxT : Nat) {zero : α} {add mul : α → α → α} {nsp : Nat}
    {x w r : Tensor α} {s p d : Nat} (h : x.conv zero add mul nsp w s p d = .ok r) (h0 : r.storage.length = 0) :
    convMetal maxT ty zero add mul nsp x w s p d = .panic := by
  unfold Tensor.conv at h
  split at h
  · cases h
  split at h
  · cases h
  rename_i h1 h2
  obtain ⟨outs, ho, h⟩ := Res.bind_eq_ok.mp h
  obtain ⟨zs, hz, h⟩ := Res.bind_eq_ok.mp h
  injection h with h
  subst h
  unfold callOpsConv at hz
  rw [if_neg h1] at hz
  split at hz
  · cases hz
  obtain ⟨outs', ho', hz⟩ := Res.bind_eq_ok.mp hz
  rw [ho] at ho'
  injection ho' with ho'
  subst ho'
  have hnsp : x.layout.dims.length - 2 = nsp := by
    simp only [not_or, not_not] at h1
    have := h1.1
    unfold Tensor.dims at this
    omega
  unfold convKernel at hz
  obtain ⟨m, hd, hz⟩ := Res.bind_eq_ok.mp hz
  have hl : zs.length = m.numEls := by simpa using (Res.mapL_ok_inv hz).1
  have hm0 : m.numEls = 0 := by rw [← hl]; exact h0
  unfold convMetal
  rw [if_neg h1, if_neg h2, ho, Res.ok_bind]
  unfold callConvMetal
  rw [show convSizes (convOutSize · · s p d) (x.layout.dims.drop 2) (w.layout.dims.drop 2) = .ok outs from ho,
    Res.ok_bind, if_neg (by simpa using hty), hnsp]
  have hk : convLoop maxT zero add mul nsp x.storage w.storage (convMetadata x.layout w.layout
      (List.replicate nsp s) (List.replicate nsp p) (List.replicate nsp d)
      ([x.layout.dims.getD 0 0, w.layout.dims.getD 0 0] ++ outs)) = .panic := by
    unfold convLoop
    have hd' : decodeConv nsp (convMetadata x.layout w.layout
      (List.replicate nsp s) (List.replicate nsp p) (List.replicate nsp d)
      ([x.layout.dims.getD 0 0, w.layout.dims.getD 0 0] ++ outs)) = .ok m := hd
    rw [hd', Res.ok_bind, hm0]
    exact (launch_empty _ _).1
  rw [hk]
  rfl

/-- C129 is false of strided views, on Metal as on the CPU: the view whose first channel is `1, 3` convolved with the
kernel that selects the first channel gives `1, 2`. -/
theorem C129_view_wrong {maxT : Nat} (hm : GroupSize maxT) : transposedInput.WF ∧
    transposedInput.elem [0, 0, 0] = some 1 ∧ transposedInput.elem [0, 0, 1] = some 3 ∧
    Delivers (convMetal maxT .f32 0 (· + ·) (· * ·) 1 transposedInput ⟨[1, 0], Layout.fromShape [1, 2, 1]⟩ 1 0 1)
      ⟨[1, 2], Layout.fromShape [1, 1, 2]⟩ :=
  ⟨C59_view_wrong.1, C59_view_wrong.2.1, C59_view_wrong.2.2.1,
    C129_conv_like_cpu (r := ⟨[1, 2], Layout.fromShape [1, 1, 2]⟩) (by decide) (by decide) hm (by decide) (by decide)⟩

/-! ## Transposed convolution -/

/-- What a transposed convolution does on Metal, for an input stored in row-major order and a weight stored with the input
channel outermost: the result has the shape of a transposed convolution, but its storage has as many elements as a
convolution, and every interleaving of the threads ends with the elements of a transposed convolution whose shape is that
of a convolution; what a pooled buffer holds behind them stays. -/
theorem C129_convT_computes {ty : DType} (hty : ty ∈ convTypes) {nsp : Nat} (h3 : nsp = 1 ∨ nsp = 2 ∨ nsp = 3)
    {x w : Tensor α} {X W : List Nat → α} (zero : α) (add mul : α → α → α) {s p op d B Ci Co : Nat} {ns ks : List Nat}
    (hx : Reads x X) (hw : Reads w W) (px : Packed x) (pw : InputMajor w Ci Co ks) (dx : x.dims = B :: Ci :: ns)
    (dw : w.dims = Co :: Ci :: ks) (hn : ns.length = nsp) (hk : ks.length = nsp) (hs : 0 < s) (hs' : s < 2 ^ 31)
    (hv : KernelFits p d ns ks) (hvT : TransposeFits s p ns ks) (hb : ∀ n ∈ ns, n + 3 * p < 2 ^ 31) {maxT : Nat}
    (hm : GroupSize maxT) (h0 : 0 < numel (B :: Co :: convOuts s p d ns ks))
    (hsz : numel (B :: Co :: convOuts s p d ns ks) ≤ 2 ^ 32 - 1024) :
    ∃ k zs, convTMetal maxT ty zero add mul nsp x w s p op d =
        .ok ⟨k, numel (B :: Co :: convOuts s p d ns ks), B :: Co :: convTOuts s p op d ns ks⟩ ∧
      zs.length = numel (B :: Co :: convOuts s p d ns ks) ∧
      (∀ buf, zs.length ≤ buf.length → Computes k buf (zs ++ buf.drop zs.length)) ∧
      ∀ b oc o, b < B → oc < Co → InRange o (convOuts s p d ns ks) →
        zs[rowMajor (B :: Co :: convOuts s p d ns ks) (b :: oc :: o)]? =
        some ((backTerms mul s p d Ci ns ks X W b oc o).foldl add zero) := by
  have hol := convOuts_length (s := s) hv
  have hf := backFits_conv (s := s) hv hb
  have hcell : ∀ b oc o, b < B → oc < Co → InRange o (convOuts s p d ns ks) → _ := fun b oc o h1 h2 h3 =>
    convTVal_ok (zero := zero) (add := add) (mul := mul) (ld := id) (st := id)
      (N := numel (B :: Co :: convOuts s p d ns ks)) (reads_mapped id hx) (reads_mapped id hw)
      px pw dx dw (by omega) hol hs hs' hf h1 h2 h3
  obtain ⟨zs, e1, e2, e3⟩ := runLoop_elem (out := B :: Co :: convOuts s p d ns ks)
    (val := convTVal zero add mul id id x.storage w.storage
      ⟨numel (B :: Co :: convOuts s p d ns ks), B, Ci, Co, mkAxes s p d ns ks (convOuts s p d ns ks),
        x.layout.offset, w.layout.offset⟩) (by
      intro idx hi
      obtain ⟨b, oc, o, rfl, h1, h2, h3⟩ := inRange_cons2 hi
      exact ⟨_, hcell b oc o h1 h2 h3⟩)
  obtain ⟨k, hk1, hk2⟩ := stride_of_runLoop e1 hm h0 hsz
  refine ⟨k, zs, ?_, e2, hk2, fun b oc o h1 h2 h4 => ?_⟩
  · unfold convTMetal callConvMetal
    rw [if_neg (by rw [dx, dw]; simp; omega), if_neg (by rw [dx, dw]; simp),
      show x.dims.drop 2 = ns by rw [dx]; rfl, show w.dims.drop 2 = ks by rw [dw]; rfl, convTSizes_eq hvT, Res.ok_bind,
      show x.layout.dims = B :: Ci :: ns from dx, show w.layout.dims = Co :: Ci :: ks from dw,
      convSizes_eq hs hv, Res.ok_bind, if_neg (by simpa using hty), dx, dw]
    simp only [List.getD_cons_zero, List.cons_append, List.nil_append, List.length_cons]
    unfold convTLoop
    rw [hn, show nsp + 1 + 1 - 2 = nsp by omega, decodeConv_convMetadata h3 (show x.layout.dims = B :: Ci :: ns from dx)
        (by rw [show w.layout.dims = Co :: Ci :: ks from dw]; rfl) hn hk (by omega), Res.ok_bind]
    dsimp only
    rw [hk1, Res.ok_bind, Res.ok_bind, shapeSize_eq]
  · have := e3 (b :: oc :: o) ⟨h1, h2, h4⟩ _ (hcell b oc o h1 h2 h4)
    unfold Layout.fromShape at this
    rw [elem_rowMajor, Nat.zero_add] at this
    exact this

/-- C129, transposed convolution, for the sizes for which the convolution has the same shape: every element is the sum
over channels and kernel positions.  Missing: all other sizes (`C129_convT_false`), strided inputs and weights in the
documented order (as on the CPU), output padding, `int` overflow. -/
theorem C129_convT_partial {ty : DType} (hty : ty ∈ convTypes) {nsp : Nat} (h3 : nsp = 1 ∨ nsp = 2 ∨ nsp = 3)
    {x w : Tensor α} {X W : List Nat → α} (zero : α) (add mul : α → α → α) {s p d B Ci Co : Nat} {ns ks : List Nat}
    (hx : Reads x X) (hw : Reads w W) (px : Packed x) (pw : InputMajor w Ci Co ks) (dx : x.dims = B :: Ci :: ns)
    (dw : w.dims = Co :: Ci :: ks) (hn : ns.length = nsp) (hk : ks.length = nsp) (hs : 0 < s) (hs' : s < 2 ^ 31)
    (hv : KernelFits p d ns ks) (hvT : TransposeFits s p ns ks) (hb : ∀ n ∈ ns, n + 3 * p < 2 ^ 31) {maxT : Nat}
    (hm : GroupSize maxT) (h0 : 0 < numel (B :: Co :: convOuts s p d ns ks))
    (hsz : numel (B :: Co :: convOuts s p d ns ks) ≤ 2 ^ 32 - 1024)
    (hsame : convOuts s p d ns ks = convTOuts s p 0 d ns ks) :
    ∃ y : Tensor α, Delivers (convTMetal maxT ty zero add mul nsp x w s p 0 d) y ∧
      y.dims = B :: Co :: convTOuts s p 0 d ns ks ∧
      ∀ b oc o, b < B → oc < Co → InRange o (convTOuts s p 0 d ns ks) → y.elem (b :: oc :: o) =
        some ((backTerms mul s p d Ci ns ks X W b oc o).foldl add zero) := by
  obtain ⟨k, zs, h1, h2, h4, h5⟩ := C129_convT_computes hty h3 zero add mul (op := 0) hx hw px pw dx dw hn hk hs hs'
    hv hvT hb hm h0 hsz
  rw [hsame] at h1 h2 h5
  refine ⟨⟨zs, Layout.fromShape (B :: Co :: convTOuts s p 0 d ns ks)⟩, ⟨rfl, k, ?_, h4⟩, rfl, fun b oc o hb' hoc ho => ?_⟩
  · rw [h1, h2]
    rfl
  · unfold Layout.fromShape
    rw [elem_rowMajor, Nat.zero_add]
    exact h5 b oc o hb' hoc ho

/-- For these sizes and a commutative and associative addition the result is that of the CPU. -/
theorem C129_convT_like_cpu [CommSemiring A] {ty : DType} (hty : ty ∈ convTypes) {nsp : Nat}
    (h3 : nsp = 1 ∨ nsp = 2 ∨ nsp = 3) {x w r : Tensor A} {X W : List Nat → A} {s p d B Ci Co : Nat} {ns ks : List Nat}
    (hx : Reads x X) (hw : Reads w W) (px : Packed x) (pw : InputMajor w Ci Co ks) (dx : x.dims = B :: Ci :: ns)
    (dw : w.dims = Co :: Ci :: ks) (hn : ns.length = nsp) (hk : ks.length = nsp) (hs : 0 < s) (hs' : s < 2 ^ 31)
    (hv : KernelFits p d ns ks) (hvT : TransposeFits s p ns ks) (hb : ∀ n ∈ ns, n + 3 * p < 2 ^ 31) {maxT : Nat}
    (hm : GroupSize maxT) (h0 : 0 < numel (B :: Co :: convOuts s p d ns ks))
    (hsz : numel (B :: Co :: convOuts s p d ns ks) ≤ 2 ^ 32 - 1024)
    (hsame : convOuts s p d ns ks = convTOuts s p 0 d ns ks)
    (hbT : ∀ o ∈ convTOuts s p 0 d ns ks, o + 2 * p < 2 ^ 31) (hr : x.convT 0 (· + ·) (· * ·) nsp w s p 0 d = .ok r) :
    ∃ y, Delivers (convTMetal maxT ty 0 (· + ·) (· * ·) nsp x w s p 0 d) y ∧ y.dims = r.dims ∧
      ∀ i, InRange i r.dims → y.elem i = r.elem i := by
  obtain ⟨y, h1, h2, h4⟩ := C129_convT_partial (α := A) hty h3 0 (· + ·) (· * ·) hx hw px pw dx dw hn hk hs hs' hv
    hvT hb hm h0 hsz hsame
  obtain ⟨r', g1, _, _, g2, g3⟩ := C60_convT_partial h3 (0 : A) (· + ·) (· * ·) hx hw px pw dx dw hn hk hvT hbT
  rw [hr] at g1
  injection g1 with g1
  subst g1
  refine ⟨y, h1, by rw [h2, g2], fun i hi => ?_⟩
  rw [g2] at hi
  obtain ⟨b, oc, o, rfl, hb', hoc, ho⟩ := inRange_cons2 hi
  rw [h4 b oc o hb' hoc ho, g3 b oc o hb' hoc ho]
  have hl := convTOuts_length (op := 0) (d := d) hvT
  have := backTerms_sum (p := p) (d := d) (Ci := Ci) (ks := ks) (ns := ns) hs X W b oc ho (by omega) (by omega)
  exact congrArg some this

/-- C129 is false of the transposed convolution: `[1, 2]` and the kernel `[1, 1]` give the shape `[1, 1, 3]` and a storage
of one element; in a pooled buffer of four elements the three others are what was there before.  The CPU computes
`1, 3, 2`. -/
theorem C129_convT_false {maxT : Nat} (hm : GroupSize maxT) :
    (∃ k, convTMetal maxT .f32 0 (· + ·) (· * ·) 1 (⟨[1, 2], Layout.fromShape [1, 1, 2]⟩ : Tensor Nat)
        ⟨[1, 1], Layout.fromShape [1, 1, 2]⟩ 1 0 0 1 = .ok ⟨k, 1, [1, 1, 3]⟩ ∧
      ∀ a b c d, Computes k [a, b, c, d] [1, b, c, d]) ∧
    (⟨[1, 2], Layout.fromShape [1, 1, 2]⟩ : Tensor Nat).convT 0 (· + ·) (· * ·) 1
      ⟨[1, 1], Layout.fromShape [1, 1, 2]⟩ 1 0 0 1 = .ok ⟨[1, 3, 2], Layout.fromShape [1, 1, 3]⟩ := by
  refine ⟨?_, by decide +kernel⟩
  have hr : runLoop 1 (convTVal 0 (· + ·) (· * ·) id id [1, 2] [1, 1] ⟨1, 1, 1, 1, mkAxes 1 0 1 [2] [2] [1], 0, 0⟩) =
      .ok [1] := by decide +kernel
  obtain ⟨k, h1, h2⟩ := stride_of_runLoop hr hm (by decide) (by decide)
  refine ⟨k, ?_, fun a b c d => h2 [a, b, c, d] (by simp)⟩
  have hd : decodeConv 1 (convMetadata (Layout.fromShape [1, 1, 2]) (Layout.fromShape [1, 1, 2]) [1] [0] [1] [1, 1, 1]) =
      .ok ⟨1, 1, 1, 1, mkAxes 1 0 1 [2] [2] [1], 0, 0⟩ := by decide +kernel
  show ((Res.bind (convTLoop maxT 0 (· + ·) (· * ·) 1 [1, 2] [1, 1] (convMetadata (Layout.fromShape [1, 1, 2])
    (Layout.fromShape [1, 1, 2]) [1] [0] [1] [1, 1, 1])) fun l => Res.ok (l, 1)).bind fun l =>
      Res.ok (⟨l.1, l.2, [1, 1, 3]⟩ : Launched Nat)) = _
  unfold convTLoop
  rw [hd, Res.ok_bind]
  dsimp only
  rw [h1]
  rfl

/-- A kernel longer than the input: the CPU computes the five elements, the host of Metal panics. -/
theorem C129_convT_panics (maxT : Nat) :
    convTMetal maxT .f32 0 (· + ·) (· * ·) 1 (countUp [1, 1, 2] 1) (countUp [1, 1, 4] 1) 1 0 0 1 = .panic ∧
    ((countUp [1, 1, 2] 1).convT 0 (· + ·) (· * ·) 1 (countUp [1, 1, 4] 1) 1 0 0 1).map (·.storage) =
      .ok [1 * 1, 1 * 2 + 2 * 1, 1 * 3 + 2 * 2, 1 * 4 + 2 * 3, 2 * 4] :=
  ⟨rfl, by decide +kernel⟩

/-! ## Weight gradients -/

section Grad

variable [DecidableEq W]

/-- The counters of the loops over a grid of `T` threads. -/
theorem stride_steps {T total : Nat} (h : total + T ≤ 2 ^ 32) :
    (∀ t, t < T → u32 t = t) ∧ ∀ i, i < total → u32 (i + u32 T) = i + T := by
  refine ⟨fun t ht => u32_of_lt (by omega), fun i hi => ?_⟩
  rw [u32_of_lt (n := T) (by omega), u32_of_lt (by omega)]

/-- C129, weight gradient of the convolution.  For every update of cells in memory, all sizes and contents of the pooled
buffer: the launch adds to what is in the buffer the products of the weight gradient, each once.  Missing: the buffer is
not initialised (`C129_garbage`, `C129_grad_false`), other element types (`C129_grad_types`), more than `2 ^ 32` elements. -/
theorem C129_grad_partial [Inhabited A] {ty : DType} (hty : ty ∈ convTypes) {nsp : Nat} (h3 : nsp = 1 ∨ nsp = 2 ∨ nsp = 3)
    {x g : Tensor α} {X G : List Nat → α} (mul : A → A → A) (ld : α → A) (st : A → V) {s p d B Ci Co : Nat}
    {ns ks os : List Nat} (hx : Reads x X) (hg : Reads g G) (px : Packed x) (hxs : x.layout.strides.length = x.dims.length)
    (hgs : g.layout.strides.length = g.dims.length) (dx : x.dims = B :: Ci :: ns) (dg : g.dims = B :: Co :: os)
    (hn : ns.length = nsp) (hk : ks.length = nsp) (ho : os.length = nsp) (hp : p < 2 ^ 31)
    (hf : Hodu.Fits s d os ks ns) {maxT : Nat} (hm : GroupSize maxT) (h0 : 0 < numel (Co :: Ci :: ks))
    (hsz : numel (B :: Co :: os) + numel (Co :: Ci :: ks) + 1023 ≤ 2 ^ 32)
    {word : Nat → Nat} {upd : Nat → W → V → W} (way : Way) {op : V → V → V} {view : List W → Nat → Option V}
    {P : List W → Prop} {Q : V → Prop} (hC : Cells word upd op view P Q) (hQ : ∀ a, Q (st a)) :
    ∃ k, convGradWMetal maxT ty (gradJobCuda mul ld st x.storage g.storage) word upd way nsp x.layout g.layout
        (Co :: Ci :: ks) s p d = .ok ⟨k, numel (Co :: Ci :: ks), Co :: Ci :: ks⟩ ∧
      ∀ mem : List W, P mem → (∀ c, c < numel (Co :: Ci :: ks) → (view mem c).isSome) →
        Accumulates k mem view op (Co :: Ci :: ks) fun idx => (gradWTerms mul s p d B ns os (fun i => ld (X i))
          (fun i => ld (G i)) (idx.getD 0 0) (idx.getD 1 0) (idx.drop 2)).map st := by
  obtain ⟨T, hT, hT1, hT2⟩ := linearSplit_le hm h0
  have hst := stride_steps (T := T) (total := numel (B :: Co :: os)) (by omega)
  refine ⟨_, ?_, fun mem hP hin => convGrad_accumulates (N := numel (Co :: Ci :: ks)) mul ld st hx hg px dx dg
    (by omega) (by omega) hp hf hst.1 hst.2 (by omega) hC (way := way) hP hQ hin⟩
  unfold convGradWMetal gradLoopMetal
  rw [if_neg (by
      rw [show x.layout.dims = B :: Ci :: ns from dx, show g.layout.dims = B :: Co :: os from dg]; simp; omega),
    if_neg (by simpa using hty), decodeConvGrad_metadata h3 (show x.layout.dims = B :: Ci :: ns from dx)
      (show g.layout.dims = B :: Co :: os from dg) (ks := ks) rfl (by simp; omega) hxs hgs hn ho, Res.ok_bind]
  dsimp only
  rw [mkAxes_o (by omega) (by omega), mkAxes_k (by omega) (by omega), loops_eq, indices_length, shapeSize_eq, shapeSize_eq,
    hT, Res.ok_bind, Res.ok_bind]
  rfl

/-- C129, weight gradient of the transposed convolution, as `C129_grad_partial`; the products are those the CPU adds up,
although the kernel runs over the output gradient. -/
theorem C129_gradT_partial [Inhabited A] {ty : DType} (hty : ty ∈ convTypes) {nsp : Nat}
    (h3 : nsp = 1 ∨ nsp = 2 ∨ nsp = 3) {x g : Tensor α} {X G : List Nat → α} (mul : A → A → A) (ld : α → A) (st : A → V)
    {s p d B Ci Co : Nat} {ns ks os : List Nat} (hx : Reads x X) (hg : Reads g G) (px : Packed x)
    (hxs : x.layout.strides.length = x.dims.length) (hgs : g.layout.strides.length = g.dims.length)
    (dx : x.dims = B :: Ci :: ns) (dg : g.dims = B :: Co :: os) (hn : ns.length = nsp) (hk : ks.length = nsp)
    (ho : os.length = nsp) (hs : 0 < s) (hs' : s < 2 ^ 31) (hf : BackFits p d ns ks os) {maxT : Nat} (hm : GroupSize maxT)
    (h0 : 0 < numel (Ci :: Co :: ks)) (hsz : numel (B :: Co :: os) + numel (Ci :: Co :: ks) + 1023 ≤ 2 ^ 32)
    {word : Nat → Nat} {upd : Nat → W → V → W} (way : Way) {op : V → V → V} {view : List W → Nat → Option V}
    {P : List W → Prop} {Q : V → Prop} (hC : Cells word upd op view P Q) (hQ : ∀ a, Q (st a)) :
    ∃ k, convGradWMetal maxT ty (gradTJobCuda mul ld st x.storage g.storage) word upd way nsp x.layout g.layout
        (Ci :: Co :: ks) s p d = .ok ⟨k, numel (Ci :: Co :: ks), Ci :: Co :: ks⟩ ∧
      ∀ mem : List W, P mem → (∀ c, c < numel (Ci :: Co :: ks) → (view mem c).isSome) →
        Accumulates k mem view op (Ci :: Co :: ks) fun idx => (gradWTTerms mul s p d B ns os (fun i => ld (X i))
          (fun i => ld (G i)) (idx.getD 0 0) (idx.getD 1 0) (idx.drop 2)).map st := by
  obtain ⟨T, hT, hT1, hT2⟩ := linearSplit_le hm h0
  have hst := stride_steps (T := T) (total := numel (B :: Co :: os)) (by omega)
  refine ⟨_, ?_, fun mem hP hin => convTGrad_accumulates (N := numel (Ci :: Co :: ks)) mul ld st hx hg px dx dg
    (by omega) (by omega) hs hs' hf hst.1 hst.2 (by omega) hC (way := way) hP hQ hin⟩
  unfold convGradWMetal gradLoopMetal
  rw [if_neg (by
      rw [show x.layout.dims = B :: Ci :: ns from dx, show g.layout.dims = B :: Co :: os from dg]; simp; omega),
    if_neg (by simpa using hty), decodeConvGrad_metadata h3 (show x.layout.dims = B :: Ci :: ns from dx)
      (show g.layout.dims = B :: Co :: os from dg) (ks := ks) rfl (by simp; omega) hxs hgs hn ho, Res.ok_bind]
  dsimp only
  rw [mkAxes_o (by omega) (by omega), mkAxes_k (by omega) (by omega), loops_eq, indices_length, shapeSize_eq, shapeSize_eq,
    hT, Res.ok_bind, Res.ok_bind]
  rfl

end Grad

/-- The weight gradient of the convolution on Metal, for a commutative semiring: the buffer plus what the CPU computes. -/
theorem C129_grad_adds [CommSemiring A] [DecidableEq A] {ty : DType} (hty : ty ∈ convTypes) {nsp : Nat}
    (h3 : nsp = 1 ∨ nsp = 2 ∨ nsp = 3) {x g : Tensor A} {X G : List Nat → A} {s p d B Ci Co : Nat} {ns ks os : List Nat}
    (hx : Reads x X) (hg : Reads g G) (px : Packed x) (hxs : x.layout.strides.length = x.dims.length)
    (hgs : g.layout.strides.length = g.dims.length) (dx : x.dims = B :: Ci :: ns) (dg : g.dims = B :: Co :: os)
    (hn : ns.length = nsp) (hk : ks.length = nsp) (ho : os.length = nsp) (hp : p < 2 ^ 31)
    (hf : Hodu.Fits s d os ks ns) {maxT : Nat} (hm : GroupSize maxT) (h0 : 0 < numel (Co :: Ci :: ks))
    (hsz : numel (B :: Co :: os) + numel (Co :: Ci :: ks) + 1023 ≤ 2 ^ 32) (way : Way) :
    ∃ k r, convGradWMetal maxT ty (gradJobCuda (· * ·) id id x.storage g.storage) (fun c => c) (fun _ => (· + ·)) way nsp
        x.layout g.layout (Co :: Ci :: ks) s p d = .ok ⟨k, numel (Co :: Ci :: ks), Co :: Ci :: ks⟩ ∧
      x.convGradW 0 (· + ·) (· * ·) nsp g (Co :: Ci :: ks) s p d = .ok r ∧ r.dims = Co :: Ci :: ks ∧
      AddsTo k r := by
  have : Inhabited A := ⟨0⟩
  obtain ⟨k, e1, e2⟩ := C129_grad_partial (A := A) (V := A) (W := A) hty h3 (· * ·) id id hx hg px hxs hgs dx dg hn hk ho
    hp hf hm h0 hsz way (C105_words (· + ·)) (fun _ => trivial)
  obtain ⟨out, g1, g2, g3⟩ := convGradKernel_ok (0 : A) (· + ·) (· * ·) hx hg px dx dg (by omega) (by omega) hp hf
    (decodeConvGrad_metadata h3 (show x.layout.dims = B :: Ci :: ns from dx)
      (show g.layout.dims = B :: Co :: os from dg) (ks := ks) (wd := Co :: Ci :: ks) (s := s) (p := p) (d := d) rfl
      (by simp; omega) hxs hgs hn ho)
  refine ⟨k, ⟨out, Layout.fromShape (Co :: Ci :: ks)⟩, e1, ?_, rfl, accumulates_adds (e2 · trivial) ?_⟩
  · unfold Tensor.convGradW
    rw [if_neg (by rw [dx, dg]; simp; omega), g1]
    rfl
  · intro idx hi
    obtain ⟨oc, ic, k', rfl, h1, h2, h4⟩ := inRange_cons2 (show InRange idx (Co :: Ci :: ks) from hi)
    unfold Layout.fromShape
    rw [elem_rowMajor, Nat.zero_add, g3 oc ic k' h1 h2 h4]
    simp

/-- The same for the transposed convolution. -/
theorem C129_gradT_adds [CommSemiring A] [DecidableEq A] {ty : DType} (hty : ty ∈ convTypes) {nsp : Nat}
    (h3 : nsp = 1 ∨ nsp = 2 ∨ nsp = 3) {x g : Tensor A} {X G : List Nat → A} {s p d B Ci Co : Nat} {ns ks os : List Nat}
    (hx : Reads x X) (hg : Reads g G) (px : Packed x) (hxs : x.layout.strides.length = x.dims.length)
    (hgs : g.layout.strides.length = g.dims.length) (dx : x.dims = B :: Ci :: ns) (dg : g.dims = B :: Co :: os)
    (hn : ns.length = nsp) (hk : ks.length = nsp) (ho : os.length = nsp) (hs : 0 < s) (hs' : s < 2 ^ 31) (hp : p < 2 ^ 31)
    (hf : Hodu.Fits s d ns ks os) (hb : BackFits p d ns ks os) {maxT : Nat} (hm : GroupSize maxT)
    (h0 : 0 < numel (Ci :: Co :: ks)) (hsz : numel (B :: Co :: os) + numel (Ci :: Co :: ks) + 1023 ≤ 2 ^ 32) (way : Way) :
    ∃ k r, convGradWMetal maxT ty (gradTJobCuda (· * ·) id id x.storage g.storage) (fun c => c) (fun _ => (· + ·)) way nsp
        x.layout g.layout (Ci :: Co :: ks) s p d = .ok ⟨k, numel (Ci :: Co :: ks), Ci :: Co :: ks⟩ ∧
      x.convTGradW 0 (· + ·) (· * ·) nsp g (Ci :: Co :: ks) s p d = .ok r ∧ r.dims = Ci :: Co :: ks ∧
      AddsTo k r := by
  have : Inhabited A := ⟨0⟩
  obtain ⟨k, e1, e2⟩ := C129_gradT_partial (A := A) (V := A) (W := A) hty h3 (· * ·) id id hx hg px hxs hgs dx dg hn hk ho
    hs hs' hb hm h0 hsz way (C105_words (· + ·)) (fun _ => trivial)
  obtain ⟨out, g1, g2, g3⟩ := convTGradKernel_ok (0 : A) (· + ·) (· * ·) hx hg px dx dg (by omega) (by omega) hp hf
    (decodeConvGrad_metadata h3 (show x.layout.dims = B :: Ci :: ns from dx)
      (show g.layout.dims = B :: Co :: os from dg) (ks := ks) (wd := Ci :: Co :: ks) (s := s) (p := p) (d := d) rfl
      (by simp; omega) hxs hgs hn ho)
  refine ⟨k, ⟨out, Layout.fromShape (Ci :: Co :: ks)⟩, e1, ?_, rfl, accumulates_adds (e2 · trivial) ?_⟩
  · unfold Tensor.convTGradW
    rw [if_neg (by rw [dx, dg]; simp; omega), g1]
    rfl
  · intro idx hi
    obtain ⟨ic, oc, k', rfl, h1, h2, h4⟩ := inRange_cons2 (show InRange idx (Ci :: Co :: ks) from hi)
    unfold Layout.fromShape
    rw [elem_rowMajor, Nat.zero_add, g3 ic oc k' h1 h2 h4]
    simp

/-- Such a kernel gives the tensor of the CPU exactly if the pooled buffer it finds begins with zeros. -/
theorem C129_garbage [CommRing A] [DecidableEq A] {k : Rmw A A} {r : Tensor A} (h : AddsTo k r) {mem : List A}
    (hl : numel r.dims ≤ mem.length) {sched : List Nat} {s : RSt A A} (he : k.exec mem sched = .ok s) (hf : s.finished) :
    (∀ idx, InRange idx r.dims → s.mem[rowMajor r.dims idx]? = r.elem idx) ↔
      ∀ i, i < numel r.dims → mem[i]? = some 0 := by
  obtain ⟨s', e1, e2⟩ := (h mem hl).1 sched
  rw [he] at e1
  injection e1 with e1
  subst e1
  constructor
  · intro hall i hi
    obtain ⟨a, e, a1, a2, a3⟩ := e2 hf (unravel r.dims i) (unravel_inRange hi)
    rw [hall _ (unravel_inRange hi), a2] at a3
    injection a3 with a3
    rw [rowMajor_unravel hi] at a1
    rw [a1]
    exact congrArg some (left_eq_add.mp (by rw [add_comm]; exact a3))
  · intro hz idx hi
    obtain ⟨a, e, a1, a2, a3⟩ := e2 hf idx hi
    rw [hz _ (rowMajor_lt hi)] at a1
    injection a1 with a1
    rw [a3, a2, ← a1, zero_add]

/-- The claim: whatever a former tensor left in the pooled buffer, a finished execution leaves the gradient of the CPU at
its front. -/
def Spec.GradWMetalCorrect : Prop :=
  ∀ (x g r : Tensor Int) (wdims : List Nat) (s p d : Nat) (l : GradLaunch Int Int),
    convGradWMetal 1024 .f32 (gradJobCuda (· * ·) id id x.storage g.storage) (fun c => c) (fun _ => (· + ·)) .single 1
      x.layout g.layout wdims s p d = .ok l →
    x.convGradW 0 (· + ·) (· * ·) 1 g wdims s p d = .ok r →
    ∀ mem, l.len ≤ mem.length → ∀ sched s, l.kernel.exec mem sched = .ok s → s.finished →
      s.mem.take l.len = r.storage

/-- One element everywhere: the gradient of the weight is 3, the launch leaves 10 in a buffer that held 7. -/
theorem C129_grad_false : ¬ Spec.GradWMetalCorrect := by
  intro h
  have hs : Hodu.Fits 1 1 [1] [1] [1] := ⟨fun x j h1 h2 => by omega, by decide, trivial⟩
  obtain ⟨k, r, e1, e2, e3, e4⟩ := C129_grad_adds (ty := .f32) (by decide) (Or.inl rfl) (ks := [1])
    (reads_mapped Int.ofNat (countUp_reads [1, 1, 1] 3)) (reads_mapped Int.ofNat (countUp_reads [1, 1, 1] 1))
    (packed_mapped _ (countUp_packed _ _)) rfl rfl (B := 1) (Ci := 1) (Co := 1) (ns := [1]) (os := [1]) rfl rfl rfl rfl rfl
    (p := 0) (by decide) hs (maxT := 1024) (by unfold GroupSize; decide) (by decide) (by decide) .single
  have hr : (Cuda.Spec.mapped Int.ofNat (countUp [1, 1, 1] 3)).convGradW 0 (· + ·) (· * ·) 1
      (Cuda.Spec.mapped Int.ofNat (countUp [1, 1, 1] 1)) [1, 1, 1] 1 0 1 = .ok ⟨[3], Layout.fromShape [1, 1, 1]⟩ := by
    decide +kernel
  rw [hr] at e2
  injection e2 with e2
  subst e2
  obtain ⟨h1, B, h2⟩ := e4 [7] (by decide)
  obtain ⟨sched, hf⟩ := exists_fair B k.threads
  obtain ⟨st, a1, a2⟩ := h1 sched
  have hfin := h2 sched st hf a1
  have hm := h _ _ _ _ _ _ _ _ e1 hr [7] (Nat.le_refl 1) sched st a1 hfin
  obtain ⟨a, e, b1, b2, b3⟩ := a2 hfin [0, 0, 0] (by decide)
  have c1 : a = 7 := by injection b1 with b1; exact b1.symm
  have c2 : e = 3 := by injection b2 with b2; exact b2.symm
  subst c1 c2
  have b4 : (st.mem.take 1)[0]? = some (7 + 3) := by
    rw [List.getElem?_take, if_pos (by decide)]
    exact b3
  have hm' : st.mem.take 1 = [3] := hm
  rw [hm'] at b4
  revert b4
  decide

/-- For other element types there is no kernel. -/
theorem C129_grad_types {ty : DType} (hty : ty ∉ convTypes) (maxT : Nat)
    (job : ConvGradMeta → Nat → Nat → Res (Option (Nat × V)))
    (word : Nat → Nat) (upd : Nat → W → V → W) (way : Way) (nsp : Nat) (x g : Layout) (wdims : List Nat) (s p d : Nat) :
    convGradWMetal maxT ty job word upd way nsp x g wdims s p d = .err := by
  unfold convGradWMetal
  split_ifs <;> rfl

/-- A weight of one 16-bit element: the pool makes a buffer of one byte for its two, and the addition to the element
compares and swaps the four bytes of the word around it (headers/atomic.metal:20-24, 38-42). -/
theorem C129_grad_short : bufSize (DType.f16.sizeInBytes * numel [1, 1, 1]) = 1 ∧ DType.f16 ∈ convTypes ∧
    DType.bf16 ∈ convTypes ∧ DType.bf16.sizeInBytes = DType.f16.sizeInBytes := by decide

/-! ## Concrete cases -/

/-- The hypotheses of `C129_conv_partial` and of `C129_conv_like_cpu` hold for a case with stride 2, padding 1 and
dilation 2. -/
example : KernelFits 1 2 [4, 5] [2, 2] ∧ (∀ n ∈ [4, 5], n + 2 * 1 < 2 ^ 31) ∧
    0 < numel (2 :: 2 :: convOuts 2 1 2 [4, 5] [2, 2]) ∧
    numel (2 :: 2 :: convOuts 2 1 2 [4, 5] [2, 2]) ≤ 2 ^ 32 - 1024 ∧ DType.bf16 ∈ convTypes ∧ GroupSize 512 ∧
    ((countUp [2, 3, 4, 5] 7).conv 0 (· + ·) (· * ·) 2 (countUp [2, 3, 2, 2] 1) 2 1 2).map (·.storage.length) =
      .ok 24 :=
  ⟨.cons (by decide) (.cons (by decide) .nil), by decide, by decide, by decide, by decide, by unfold GroupSize; decide,
    by decide +kernel⟩

/-- The hypothesis of `C129_empty` holds for an empty batch. -/
example : ((countUp [0, 1, 3] 1).conv 0 (· + ·) (· * ·) 1 (countUp [1, 1, 2] 1) 1 0 1).map (·.storage) = .ok [] := by
  decide +kernel

/-- The hypotheses of the theorems on the transposed convolution hold for a kernel of 3 with padding 1. -/
example : KernelFits 1 1 [4] [3] ∧ TransposeFits 1 1 [4] [3] ∧ convOuts 1 1 1 [4] [3] = convTOuts 1 1 0 1 [4] [3] ∧
    0 < numel (2 :: 3 :: convOuts 1 1 1 [4] [3]) :=
  ⟨.cons (by decide) .nil, .cons (by decide) .nil, by decide, by decide⟩

/-- The hypotheses of the theorems on the weight gradients hold; more elements of the gradient than threads: 600 elements
and one weight. -/
example : Hodu.Fits 2 2 [2, 3] [2, 2] [4, 6] ∧ numel [2, 3, 2, 3] + numel [3, 1, 2, 2] + 1023 ≤ 2 ^ 32 ∧
    convOuts 2 1 2 [4, 6] [2, 2] = [2, 3] ∧ Hodu.Fits 2 1 [3] [3] [5] ∧ BackFits 1 1 [3] [3] [5] ∧
    linearSplit 1024 (numel [1, 1, 1]) = .ok 1 ∧ numel [1, 1, 600] + numel [1, 1, 1] + 1023 ≤ 2 ^ 32 ∧
    shareOf 1 600 0 = 600 := by
  refine ⟨⟨?_, by decide, ?_, by decide, trivial⟩, by decide, by decide, ⟨?_, by decide, trivial⟩,
    ⟨by decide, ?_, ?_, trivial⟩, by decide, by decide, by decide⟩
  · intro x j h1 h2; omega
  · intro x j h1 h2; omega
  · intro x j h1 h2; omega
  · intro j h; omega
  · intro x h; omega

end Hodu.Metal
