import Verif.Model.CudaConv
import Verif.Props.CudaMove
import Verif.Props.ConvAdjoint

/-!
# C114: convolutions on CUDA

A convolution on CUDA computes what the convolution of the CPU computes, under every interleaving of the threads.
-/

namespace Hodu.Cuda

open _root_.Hodu _root_.Hodu.Spec

variable {α β A : Type}

/-! ## Specification -/

/-- The input position that output position `o` of a transposed convolution receives through kernel position `k`:
`(o + p - k * d) / s` in every spatial dimension, if that is a position. -/
def Spec.backIndex (s p d : Nat) : List Nat → List Nat → List Nat → Option (List Nat)
  | n :: ns, x :: xs, k :: ks =>
    if k * d ≤ x + p ∧ s ∣ x + p - k * d ∧ (x + p - k * d) / s < n then
      (backIndex s p d ns xs ks).map ((x + p - k * d) / s :: ·)
    else none
  | [], [], [] => some []
  | _, _, _ => none

open Cuda.Spec

/-- The products that make up element `(b, oc, o)` of a transposed convolution, in the order channel, kernel position. -/
def Spec.backTerms (mul : A → A → A) (s p d Ci : Nat) (ns ks : List Nat) (X W : List Nat → A)
    (b oc : Nat) (o : List Nat) : List A :=
  (List.range Ci).flatMap fun ic => (indices ks).filterMap fun k =>
    (backIndex s p d ns o k).map fun i => mul (X (b :: ic :: i)) (W (oc :: ic :: k))

/-- What `backIndex` computes, without subtraction and division: `o + p = i * s + k * d` in every dimension. -/
theorem backIndex_eq_some {s p d : Nat} (hs : 0 < s) {ns xs ks i : List Nat} (hx : xs.length = ns.length)
    (hk : ks.length = ns.length) :
    backIndex s p d ns xs ks = some i ↔ InRange i ns ∧
      ∀ j, j < ns.length → xs.getD j 0 + p = i.getD j 0 * s + ks.getD j 0 * d := by
  induction ns generalizing xs ks i with
  | nil =>
    cases xs <;> cases ks <;> simp at hx hk
    cases i <;> simp [backIndex, InRange]
  | cons n ns ih =>
    cases xs <;> cases ks <;> simp at hx hk
    rename_i x xs k ks
    cases i with
    | nil =>
      constructor
      · intro h
        unfold backIndex at h
        split at h
        · obtain ⟨r, _, hr⟩ := Option.map_eq_some_iff.mp h
          cases hr
        · cases h
      · intro h; exact h.1.elim
    | cons a i =>
      have ih' := ih (i := i) hx hk
      unfold backIndex
      constructor
      · intro h
        split at h
        · rename_i hc
          obtain ⟨h1, h2, h3⟩ := hc
          obtain ⟨r, hr, he⟩ := Option.map_eq_some_iff.mp h
          injection he with e1 e2
          subst e1 e2
          obtain ⟨g1, g2⟩ := ih'.mp hr
          refine ⟨⟨h3, g1⟩, fun j hj => ?_⟩
          cases j with
          | zero =>
            simp only [List.getD_cons_zero]
            rw [Nat.div_mul_cancel h2]; omega
          | succ j =>
            simp only [List.getD_cons_succ]
            exact g2 j (by simpa using hj)
        · cases h
      · rintro ⟨⟨h1, h2⟩, h3⟩
        have h0 := h3 0 (by simp)
        simp only [List.getD_cons_zero] at h0
        have hsub : x + p - k * d = a * s := by omega
        rw [if_pos ⟨by omega, by rw [hsub]; exact Nat.dvd_mul_left _ _, by
          rw [hsub, Nat.mul_div_cancel _ hs]; exact h1⟩,
          ih'.mpr ⟨h2, fun j hj => by
            have := h3 (j + 1) (by simpa using hj)
            simpa using this⟩, hsub, Nat.mul_div_cancel _ hs]
        rfl

theorem backIndex_inRange {s p d : Nat} {ns xs ks i : List Nat} (h : backIndex s p d ns xs ks = some i) :
    InRange i ns := by
  induction ns generalizing xs ks i with
  | nil =>
    cases xs <;> cases ks <;> simp [backIndex] at h
    subst h; trivial
  | cons n ns ih =>
    cases xs with
    | nil => simp [backIndex] at h
    | cons x xs =>
      cases ks with
      | nil => simp [backIndex] at h
      | cons k ks =>
        unfold backIndex at h
        split at h
        · rename_i hc
          obtain ⟨r, hr, rfl⟩ := Option.map_eq_some_iff.mp h
          exact ⟨hc.2.2, ih hr⟩
        · cases h

/-- The terms of the CPU's order and of the order of CUDA have the same sum. -/
theorem backTerms_sum [CommSemiring A] {s p d Ci : Nat} (hs : 0 < s) {ns ks os o : List Nat} (X W : List Nat → A)
    (b oc : Nat) (ho : InRange o os) (hn : ns.length = os.length) (hk : ks.length = os.length) :
    (backTerms (· * ·) s p d Ci ns ks X W b oc o).foldl (· + ·) 0 =
      (convTTerms (· * ·) s p d Ci ns ks os X W b oc o).foldl (· + ·) 0 := by
  rw [convTTerms_sum X W b oc ho hn hk, foldl_sum, zero_add]
  unfold Spec.backTerms
  rw [sum_flatMap']
  apply lsum_congr
  intro ic _
  rw [sum_filterMap', lsum_comm]
  apply lsum_congr
  intro k hki
  have hkl := (mem_indices.mp hki).length
  have hol := ho.length
  have hiff : ∀ i, InRange i ns → (IsTap s p d o i k ↔ backIndex s p d ns o k = some i) := by
    intro i hi
    rw [backIndex_eq_some hs (by omega) (by omega)]
    unfold IsTap
    rw [hol, hn]
    exact ⟨fun h => ⟨hi, h⟩, fun h => h.2⟩
  show _ = lsum (indices ns) _
  cases ht : backIndex s p d ns o k with
  | none =>
    symm
    apply List.sum_eq_zero
    intro v hv
    obtain ⟨i, hi, rfl⟩ := List.mem_map.mp hv
    rw [if_neg]
    rw [hiff i (mem_indices.mp hi), ht]
    simp
  | some i =>
    have hi := backIndex_inRange ht
    unfold lsum
    rw [sum_map_unique (indices_nodup ns) (mem_indices.mpr hi)]
    · rw [if_pos ((hiff i hi).mpr ht)]
      rfl
    · intro j hj hne
      rw [if_neg]
      rw [hiff j (mem_indices.mp hj), ht]
      simpa using fun h => hne h.symm

/-! ## Conversions -/

/-- The tensor with every element of its storage converted. -/
def Spec.mapped (f : α → A) (t : Tensor α) : Tensor A := ⟨t.storage.map f, t.layout⟩

theorem mapped_elem (f : α → A) (t : Tensor α) (i : List Nat) : (Spec.mapped f t).elem i = (t.elem i).map f := by
  simp [Spec.mapped, Tensor.elem]

theorem reads_mapped {t : Tensor α} {X : List Nat → α} (f : α → A) (h : Reads t X) :
    Reads (Spec.mapped f t) fun i => f (X i) := by
  intro i hi
  rw [mapped_elem, h i hi]
  rfl

theorem packed_mapped {t : Tensor α} (f : α → A) (h : Packed t) : Packed (Spec.mapped f t) := h

theorem runLoop_map {n : Nat} {val : Nat → Res A} {zs : List A} (st : A → β) (h : runLoop n val = .ok zs) :
    runLoop n (fun k => (val k).map st) = .ok (zs.map st) := by
  unfold runLoop at h ⊢
  generalize List.range n = l at h ⊢
  induction l generalizing zs with
  | nil =>
    simp only [Res.mapL] at h ⊢
    injection h with h
    rw [← h]; rfl
  | cons a l ih =>
    simp only [Res.mapL] at h ⊢
    obtain ⟨v, hv, h⟩ := Res.bind_eq_ok.mp h
    obtain ⟨r, hr, h⟩ := Res.bind_eq_ok.mp h
    injection h with h
    subst h
    rw [hv, show Res.map st (Res.ok v) = Res.ok (st v) from rfl, Res.ok_bind, ih hr]
    rfl

theorem decodeConv_numEls {nsp : Nat} {md : List Nat} {m : ConvMeta} (h : decodeConv nsp md = .ok m) :
    md[0]? = some m.numEls := by
  unfold decodeConv at h
  split at h
  · unfold decodeConv1 at h
    obtain ⟨n, h0, h⟩ := Res.bind_eq_ok.mp h
    iterate 11 (obtain ⟨_, _, h⟩ := Res.bind_eq_ok.mp h)
    injection h with h
    rw [readC_eq_ok.mp h0, ← h]
  split at h
  · unfold decodeConv2 at h
    obtain ⟨n, h0, h⟩ := Res.bind_eq_ok.mp h
    iterate 17 (obtain ⟨_, _, h⟩ := Res.bind_eq_ok.mp h)
    injection h with h
    rw [readC_eq_ok.mp h0, ← h]
  · unfold decodeConv3 at h
    obtain ⟨n, h0, h⟩ := Res.bind_eq_ok.mp h
    iterate 23 (obtain ⟨_, _, h⟩ := Res.bind_eq_ok.mp h)
    injection h with h
    rw [readC_eq_ok.mp h0, ← h]

/-! ## Convolution -/

theorem convLoop_of_kernel {zero : A} {add mul : A → A → A} {ld : α → A} {st : A → β} {nsp : Nat} {inp w : List α}
    {md : List Nat} {zs : List A} (h : convKernel zero add mul nsp (inp.map ld) (w.map ld) md = .ok zs)
    (hn : zs.length ≤ 2 ^ 32 - 256) :
    md[0]? = some zs.length ∧ ∃ k, convLoop zero add mul ld st nsp inp w md = .ok k ∧
      ∀ buf, buf.length = zs.length → Computes k buf (zs.map st) := by
  unfold convKernel at h
  obtain ⟨m, hm, h⟩ := Res.bind_eq_ok.mp h
  have hl : zs.length = m.numEls := by simpa using (Res.mapL_ok_inv h).1
  refine ⟨by rw [decodeConv_numEls hm, hl], _, by rw [convLoop, hm, Res.ok_bind], fun buf hb => ?_⟩
  exact gridLoop_of_runLoop (by omega) (runLoop_map st h) (by omega)

/-- C114, convolution (fewer than `2 ^ 32 - 256` elements, a type with a kernel): every interleaving of the threads ends
with what the CPU computes from the converted operands, converted back. -/
theorem C114_conv_like_cpu {ty : DType} (hty : ty ∈ convTypes) {zero : A} {add mul : A → A → A} {ld : α → A} {st : A → β}
    {nsp : Nat} {x w : Tensor α} {s p d : Nat} {r : Tensor A}
    (h : (Spec.mapped ld x).conv zero add mul nsp (Spec.mapped ld w) s p d = .ok r)
    (hn : r.storage.length ≤ 2 ^ 32 - 256) :
    Yields (convCuda ty zero add mul ld st nsp x w s p d) (Spec.mapped st r) := by
  unfold Tensor.conv at h
  split at h
  · cases h
  split at h
  · cases h
  rename_i h1 h2
  have h1' : ¬ (x.dims.length ≠ 2 + nsp ∨ w.dims.length ≠ 2 + nsp) := h1
  have h2' : ¬ x.dims.getD 1 0 ≠ w.dims.getD 1 0 := h2
  obtain ⟨outs, ho, h⟩ := Res.bind_eq_ok.mp h
  obtain ⟨zs, hz, h⟩ := Res.bind_eq_ok.mp h
  injection h with h
  subst h
  unfold callOpsConv at hz
  rw [if_neg h1] at hz
  split at hz
  · cases hz
  obtain ⟨outs', ho', hz⟩ := Res.bind_eq_ok.mp hz
  rw [ho] at ho'
  injection ho' with ho'
  subst ho'
  have ho2 : convSizes (convOutSize · · s p d) (x.dims.drop 2) (w.dims.drop 2) = .ok outs := ho
  have hnsp : x.layout.dims.length - 2 = nsp := by
    simp only [not_or, not_not] at h1'
    have := h1'.1
    unfold Tensor.dims at this
    omega
  obtain ⟨e0, k, hk, hc⟩ := convLoop_of_kernel (st := st) (inp := x.storage) (w := w.storage) hz hn
  refine ⟨rfl, k, ?_, fun buf hb => hc buf (by simpa [Spec.mapped] using hb)⟩
  unfold convCuda
  rw [if_neg h1', if_neg h2', ho2, Res.ok_bind]
  unfold callConvCuda
  rw [show convSizes (convOutSize · · s p d) (x.layout.dims.drop 2) (w.layout.dims.drop 2) = .ok outs from ho,
    Res.ok_bind, if_neg (by simpa using hty), hnsp]
  have hk' : convLoop zero add mul ld st nsp x.storage w.storage (convMetadata x.layout w.layout
      (List.replicate nsp s) (List.replicate nsp p) (List.replicate nsp d)
      ([x.layout.dims.getD 0 0, w.layout.dims.getD 0 0] ++ outs)) = .ok k := hk
  rw [hk', Res.ok_bind, Res.ok_bind]
  have hlen : shapeSize ([x.layout.dims.getD 0 0, w.layout.dims.getD 0 0] ++ outs) = zs.length := by
    have : some (shapeSize ([x.layout.dims.getD 0 0, w.layout.dims.getD 0 0] ++ outs)) = some zs.length := e0
    injection this
  show Res.ok _ = Res.ok _
  simp only [Spec.mapped, List.length_map]
  rw [hlen]
  rfl

theorem conv_storage_length {zero : A} {add mul : A → A → A} {nsp : Nat} {x w y : Tensor A} {s p d : Nat}
    (h : x.conv zero add mul nsp w s p d = .ok y) : y.storage.length = numel y.dims := by
  unfold Tensor.conv at h
  split at h
  · cases h
  split at h
  · cases h
  obtain ⟨outs, ho, h⟩ := Res.bind_eq_ok.mp h
  obtain ⟨zs, hz, h⟩ := Res.bind_eq_ok.mp h
  injection h with h
  subst h
  unfold callOpsConv at hz
  split at hz
  · cases hz
  split at hz
  · cases hz
  obtain ⟨outs', ho', hz⟩ := Res.bind_eq_ok.mp hz
  rw [ho] at ho'
  injection ho' with ho'
  subst ho'
  unfold convKernel at hz
  obtain ⟨m, hm, hz⟩ := Res.bind_eq_ok.mp hz
  have hl : zs.length = m.numEls := by simpa using (Res.mapL_ok_inv hz).1
  have := decodeConv_numEls hm
  have e : some (shapeSize ([x.dims.getD 0 0, w.dims.getD 0 0] ++ outs)) = some m.numEls := this
  injection e with e
  show zs.length = numel ([x.dims.getD 0 0, w.dims.getD 0 0] ++ outs)
  rw [hl, ← e, shapeSize_eq]

/-- C114, convolution by the elements, for operands stored in row-major order: the cross-correlation with zero padding of
the converted elements, summed in the order channel, kernel position, and converted back.  Missing: strided views
(`C114_view_wrong`), `int` overflow, results of at least `2 ^ 32 - 255` elements, the types without a kernel
(`C114_types`). -/
theorem C114_conv_partial {ty : DType} (hty : ty ∈ convTypes) {nsp : Nat} (h3 : nsp = 1 ∨ nsp = 2 ∨ nsp = 3)
    {x w : Tensor α} {X W : List Nat → α} (zero : A) (add mul : A → A → A) (ld : α → A) (st : A → β)
    {s p d B Ci Co : Nat} {ns ks : List Nat}
    (hx : Reads x X) (hw : Reads w W) (px : Packed x) (pw : Packed w) (dx : x.dims = B :: Ci :: ns)
    (dw : w.dims = Co :: Ci :: ks) (hn : ns.length = nsp) (hk : ks.length = nsp) (hs : 0 < s)
    (hv : KernelFits p d ns ks) (hb : ∀ n ∈ ns, n + 2 * p < 2 ^ 31)
    (hsz : numel (B :: Co :: convOuts s p d ns ks) ≤ 2 ^ 32 - 256) :
    ∃ y : Tensor β, Yields (convCuda ty zero add mul ld st nsp x w s p d) y ∧ y.WF ∧
      y.dims = B :: Co :: convOuts s p d ns ks ∧
      ∀ b oc o, b < B → oc < Co → InRange o (convOuts s p d ns ks) → y.elem (b :: oc :: o) =
        some (st ((convTerms mul s p d Ci ns ks (fun i => ld (X i)) (fun i => ld (W i)) b oc o).foldl add zero)) := by
  obtain ⟨y, h1, h2, h4, h5, h6⟩ := C59_conv_partial h3 (x := Spec.mapped ld x) (w := Spec.mapped ld w) zero add mul
    (reads_mapped ld hx) (reads_mapped ld hw) (packed_mapped ld px) (packed_mapped ld pw) dx dw hn hk hs hv hb
  have hlen : y.storage.length = numel y.dims := conv_storage_length h1
  refine ⟨_, C114_conv_like_cpu hty h1 (by rw [hlen, h5]; exact hsz), ⟨h2.1, ?_⟩, h5, ?_⟩
  · intro i hi
    have := h2.2 i hi
    rw [mapped_elem]
    simpa using this
  · intro b oc o hb' hoc ho
    rw [mapped_elem, h6 b oc o hb' hoc ho]
    rfl

/-- C114 is false of the types without a kernel: where the CPU convolves, CUDA reports an error. -/
theorem C114_types {ty : DType} (hty : ty ∉ convTypes) (zero : A) (add mul : A → A → A) (ld : α → A) (st : A → β)
    {nsp : Nat} {x w : Tensor α} {s p d : Nat}
    (h : ∃ r, (Spec.mapped ld x).conv zero add mul nsp (Spec.mapped ld w) s p d = .ok r) :
    convCuda ty zero add mul ld st nsp x w s p d = .err := by
  obtain ⟨r, h⟩ := h
  unfold Tensor.conv at h
  split at h
  · cases h
  split at h
  · cases h
  rename_i h1 h2
  obtain ⟨outs, ho, h⟩ := Res.bind_eq_ok.mp h
  have ho2 : convSizes (convOutSize · · s p d) (x.dims.drop 2) (w.dims.drop 2) = .ok outs := ho
  unfold convCuda
  rw [if_neg (show ¬ (x.dims.length ≠ 2 + nsp ∨ w.dims.length ≠ 2 + nsp) from h1),
    if_neg (show ¬ x.dims.getD 1 0 ≠ w.dims.getD 1 0 from h2), ho2, Res.ok_bind]
  unfold callConvCuda
  rw [show convSizes (convOutSize · · s p d) (x.layout.dims.drop 2) (w.layout.dims.drop 2) = .ok outs from ho,
    Res.ok_bind, if_pos hty]
  rfl

/-- C114 is false of strided views, on CUDA as on the CPU: the view whose first channel is `1, 3` convolved with the
kernel that selects the first channel gives `1, 2`. -/
theorem C114_view_wrong : transposedInput.WF ∧
    transposedInput.elem [0, 0, 0] = some 1 ∧ transposedInput.elem [0, 0, 1] = some 3 ∧
    Yields (convCuda .f32 0 (· + ·) (· * ·) id id 1 transposedInput ⟨[1, 0], Layout.fromShape [1, 2, 1]⟩ 1 0 1)
      ⟨[1, 2], Layout.fromShape [1, 1, 2]⟩ :=
  ⟨C59_view_wrong.1, C59_view_wrong.2.1, C59_view_wrong.2.2.1,
    C114_conv_like_cpu (r := ⟨[1, 2], Layout.fromShape [1, 1, 2]⟩) (by decide) (by decide) (by decide)⟩

/-- C114 is false of `double`s: the product of the double next to 1 and 1 is 1. -/
theorem C114_double_false :
    Yields (convDouble 1 ⟨[0x3FF0000000000001], Layout.fromShape [1, 1, 1]⟩
      ⟨[0x3FF0000000000000], Layout.fromShape [1, 1, 1]⟩ 1 0 1)
      ⟨[0x3FF0000000000000], Layout.fromShape [1, 1, 1]⟩ := by
  have h : (Spec.mapped Cast.doubleToFloat ⟨[0x3FF0000000000001], Layout.fromShape [1, 1, 1]⟩).conv 0 Creation.fadd
      Creation.fmul 1 (Spec.mapped Cast.doubleToFloat ⟨[0x3FF0000000000000], Layout.fromShape [1, 1, 1]⟩) 1 0 1 =
      .ok ⟨[0x3F800000], Layout.fromShape [1, 1, 1]⟩ := by decide +kernel
  have := C114_conv_like_cpu (ty := .f64) (by decide) (st := Cast.floatToDouble) h (by decide)
  have e : Spec.mapped Cast.floatToDouble ⟨[0x3F800000], Layout.fromShape [1, 1, 1]⟩ =
      (⟨[0x3FF0000000000000], Layout.fromShape [1, 1, 1]⟩ : Tensor Nat) := by
    unfold Spec.mapped
    rw [show List.map Cast.floatToDouble [0x3F800000] = [0x3FF0000000000000] by decide +kernel]
  rw [e] at this
  exact this

/-! ## Transposed convolution -/

theorem backTmp_eq {a : ConvAxis} {o k : Nat} (h : o + a.p < 2 ^ 31) (hk : k * a.d < 2 ^ 31) :
    backTmp a o k = .ok ((o + a.p : Nat) - (k * a.d : Nat) : Int) := by
  unfold backTmp cInt
  rw [castI32_small (by omega), castI32_small (by omega), castI32_small hk, if_pos (by omega), Res.ok_bind,
    if_pos (by omega)]
  congr 1

theorem back_cond {a b s n : Nat} (hs : 0 < s) :
    (((a : Int) - (b : Int)).tmod s = 0 ∧ 0 ≤ ((a : Int) - (b : Int)).tdiv s ∧ ((a : Int) - (b : Int)).tdiv s < n) ↔
      (b ≤ a ∧ s ∣ a - b ∧ (a - b) / s < n) := by
  constructor
  · rintro ⟨h1, h2, h3⟩
    have hd : (s : Int) ∣ (a : Int) - b := Int.dvd_of_tmod_eq_zero h1
    obtain ⟨c, hc⟩ := hd
    have hs' : (s : Int) ≠ 0 := by omega
    rw [hc, Int.mul_tdiv_cancel_left _ hs'] at h2 h3
    obtain ⟨c, rfl⟩ := Int.eq_ofNat_of_zero_le h2
    have hc' : (a : Int) - b = ((s * c : Nat) : Int) := by rw [hc]; simp
    have hba : b ≤ a := by omega
    have hab : a - b = s * c := by omega
    refine ⟨hba, ⟨c, hab⟩, ?_⟩
    rw [hab, Nat.mul_div_cancel_left _ hs]
    simpa using h3
  · rintro ⟨h1, ⟨c, hc⟩, h3⟩
    have hc' : (a : Int) - b = (s : Int) * (c : Int) := by
      have : (a : Int) - b = ((s * c : Nat) : Int) := by omega
      rw [this]; simp
    have hs' : (s : Int) ≠ 0 := by omega
    rw [hc', Int.mul_tdiv_cancel_left _ hs', Int.mul_tmod_right]
    rw [hc, Nat.mul_div_cancel_left _ hs] at h3
    exact ⟨rfl, by omega, by omega⟩

theorem back_val {a b s : Nat} (h : b ≤ a) : (((a : Int) - (b : Int)).tdiv s).toNat = (a - b) / s := by
  rw [show (a : Int) - b = ((a - b : Nat) : Int) by omega]
  rfl

/-- The `int` computations of the transposed kernels stay in range. -/
def Spec.BackFits (p d : Nat) : List Nat → List Nat → List Nat → Prop
  | n :: ns, k :: ks, o :: os => n < 2 ^ 31 ∧ (∀ j, j < k → j * d < 2 ^ 31) ∧ (∀ x, x < o → x + p < 2 ^ 31) ∧
      BackFits p d ns ks os
  | _, _, _ => True

theorem backTaps_eq {s p d : Nat} (hs : 0 < s) (hs' : s < 2 ^ 31) {ns ks os o k : List Nat} (hf : BackFits p d ns ks os)
    (hn : ns.length = os.length) (ho : InRange o os) (hk : InRange k ks) (hl : ks.length = os.length) :
    backTaps (mkAxes s p d ns ks os) o k = .ok (backIndex s p d ns o k) := by
  induction ns generalizing ks os o k with
  | nil =>
    cases os <;> cases ks <;> simp at hn hl
    cases o <;> cases k <;> simp [InRange] at ho hk
    rfl
  | cons n ns ih =>
    cases os <;> cases ks <;> simp at hn hl
    cases o <;> cases k <;> simp only [InRange] at ho hk
    rename_i o' os k' ks x xs j js
    obtain ⟨h1, h2, h3, h4⟩ := hf
    simp only [mkAxes, backTaps]
    rw [backTmp_eq (h3 _ ho.1) (h2 _ hk.1), Res.ok_bind, ih h4 hn ho.2 hk.2 hl, Res.ok_bind, castI32_small h1,
      castI32_small hs', if_neg (by omega), backIndex]
    simp only [back_cond hs]
    by_cases hc : j * d ≤ x + p ∧ s ∣ x + p - j * d ∧ (x + p - j * d) / s < n
    · rw [if_pos hc, if_pos hc, back_val hc.1]
    · rw [if_neg hc, if_neg hc]

/-- The term of one kernel position, as a function of the loop variables. -/
def backTerm (mul : A → A → A) (s p d : Nat) (ns : List Nat) (X W : List Nat → A) (b oc : Nat)
    (o : List Nat) : List Nat → Option A
  | ic :: k => (backIndex s p d ns o k).map fun i => mul (X (b :: ic :: i)) (W (oc :: ic :: k))
  | [] => none

theorem convTVal_ok {x w : Tensor α} {X W : List Nat → A} {zero : A} {add mul : A → A → A} {ld : α → A} {st : A → β}
    {s p d B Ci Co N : Nat} {ns ks os : List Nat} (hx : Reads (Spec.mapped ld x) X) (hw : Reads (Spec.mapped ld w) W)
    (px : Packed x) (pw : InputMajor w Ci Co ks) (dx : x.dims = B :: Ci :: ns) (dw : w.dims = Co :: Ci :: ks)
    (hk : ks.length = ns.length) (ho : os.length = ns.length) (hs : 0 < s) (hs' : s < 2 ^ 31)
    (hf : BackFits p d ns ks os) {b oc : Nat} {o : List Nat} (hb : b < B) (hoc : oc < Co)
    (hoi : InRange o os) :
    convTVal zero add mul ld st x.storage w.storage
      ⟨N, B, Ci, Co, mkAxes s p d ns ks os, x.layout.offset, w.layout.offset⟩
      (rowMajor (B :: Co :: os) (b :: oc :: o)) =
      .ok (st ((backTerms mul s p d Ci ns ks X W b oc o).foldl add zero)) := by
  have hr : InRange (oc :: o) (Co :: os) := ⟨hoc, hoi⟩
  have hu : cUnravel (Co :: os) (rowMajor (B :: Co :: os) (b :: oc :: o)) = (oc :: o, b) := by
    rw [cUnravel_eq, rowMajor]
    have hlt := rowMajor_lt hr
    rw [Nat.add_comm, Nat.add_mul_mod_self_right, Nat.mod_eq_of_lt hlt,
      Nat.add_mul_div_right _ _ (by omega), Nat.div_eq_of_lt hlt, unravel_rowMajor hr]
    simp
  unfold convTVal
  dsimp only
  rw [mkAxes_o hk ho, hu]
  dsimp only
  rw [mkAxes_k hk ho, loops_eq, foldL_skip (add := add) (g := backTerm mul s p d ns X W b oc o)]
  · rw [filterMap_indices_cons]
    rfl
  · intro a ick hm
    have hm := mem_indices.mp hm
    cases ick with
    | nil => exact hm.elim
    | cons ic k =>
      obtain ⟨hic, hki⟩ := hm
      simp only [convTStepCuda, backTerm]
      rw [backTaps_eq hs hs' hf ho.symm hoi hki (by omega), Res.ok_bind]
      cases ht : backIndex s p d ns o k with
      | none => rfl
      | some i =>
        have hi := backIndex_inRange ht
        simp only [Option.map_some]
        rw [mkAxes_n hk ho, mkAxes_k hk ho]
        unfold readBoth
        have h1 := packed_read (t := Spec.mapped ld x) hx (packed_mapped ld px) dx
          (show InRange (b :: ic :: i) (Spec.mapped ld x).dims by
            show InRange _ x.dims; rw [dx]; exact ⟨hb, hic, hi⟩)
        have h2 := inputMajor_read (w := Spec.mapped ld w) hw pw dw hoc hic hki
        have h1' : readC (x.storage.map ld) (x.layout.offset + cOffset (Ci :: ns) (b :: ic :: i)) = _ := h1
        have h2' : readC (w.storage.map ld) (w.layout.offset + cOffset (Co :: ks) (ic :: oc :: k)) = _ := h2
        rw [h1', Res.ok_bind, h2']
        rfl

theorem backFits_conv {s p d : Nat} {ns ks : List Nat} (h : KernelFits p d ns ks)
    (hb : ∀ n ∈ ns, n + 3 * p < 2 ^ 31) : BackFits p d ns ks (convOuts s p d ns ks) := by
  induction h with
  | nil => trivial
  | @cons n k ns ks hd _ ih =>
    have hn := hb n (by simp)
    refine ⟨by omega, ?_, ?_, ih fun n hn => hb n (by simp [hn])⟩
    · intro j hj
      have h2 : j * d ≤ d * (k - 1) := by
        rw [Nat.mul_comm]; exact Nat.mul_le_mul_left d (by omega)
      have := hd.2
      omega
    · intro x hx
      have h1 : x ≤ (n + 2 * p - d * (k - 1) - 1) / s := Nat.le_of_lt_succ hx
      have h2 := Nat.div_le_self (n + 2 * p - d * (k - 1) - 1) s
      have := hd.2
      omega

/-- What a transposed convolution does on CUDA, for an input stored in row-major order and a weight stored with the input
channel outermost: the result has the shape of a transposed convolution, but its buffer has the size of a convolution, and
every interleaving of the threads ends with the elements of a transposed convolution whose shape is that of a
convolution. -/
theorem C114_convT_computes {ty : DType} (hty : ty ∈ convTypes) {nsp : Nat} (h3 : nsp = 1 ∨ nsp = 2 ∨ nsp = 3)
    {x w : Tensor α} {X W : List Nat → α} (zero : A) (add mul : A → A → A) (ld : α → A) (st : A → β)
    {s p op d B Ci Co : Nat} {ns ks : List Nat}
    (hx : Reads x X) (hw : Reads w W) (px : Packed x) (pw : InputMajor w Ci Co ks) (dx : x.dims = B :: Ci :: ns)
    (dw : w.dims = Co :: Ci :: ks) (hn : ns.length = nsp) (hk : ks.length = nsp) (hs : 0 < s) (hs' : s < 2 ^ 31)
    (hv : KernelFits p d ns ks) (hvT : TransposeFits s p ns ks) (hb : ∀ n ∈ ns, n + 3 * p < 2 ^ 31)
    (hsz : numel (B :: Co :: convOuts s p d ns ks) ≤ 2 ^ 32 - 256) :
    ∃ k zs, convTCuda ty zero add mul ld st nsp x w s p op d =
        .ok ⟨k, numel (B :: Co :: convOuts s p d ns ks), B :: Co :: convTOuts s p op d ns ks⟩ ∧
      zs.length = numel (B :: Co :: convOuts s p d ns ks) ∧ (∀ buf, buf.length = zs.length → Computes k buf zs) ∧
      ∀ b oc o, b < B → oc < Co → InRange o (convOuts s p d ns ks) →
        zs[rowMajor (B :: Co :: convOuts s p d ns ks) (b :: oc :: o)]? =
        some (st ((backTerms mul s p d Ci ns ks (fun i => ld (X i)) (fun i => ld (W i)) b oc o).foldl add zero)) := by
  have hol := convOuts_length (s := s) hv
  have hf := backFits_conv (s := s) hv hb
  have hcell : ∀ b oc o, b < B → oc < Co → InRange o (convOuts s p d ns ks) → _ := fun b oc o h1 h2 h3 =>
    convTVal_ok (zero := zero) (add := add) (mul := mul) (ld := ld) (st := st)
      (N := numel (B :: Co :: convOuts s p d ns ks)) (reads_mapped ld hx) (reads_mapped ld hw)
      px pw dx dw (by omega) hol hs hs' hf h1 h2 h3
  obtain ⟨zs, e1, e2, e3⟩ := runLoop_elem (out := B :: Co :: convOuts s p d ns ks)
    (val := convTVal zero add mul ld st x.storage w.storage
      ⟨numel (B :: Co :: convOuts s p d ns ks), B, Ci, Co, mkAxes s p d ns ks (convOuts s p d ns ks),
        x.layout.offset, w.layout.offset⟩) (by
      intro idx hi
      obtain ⟨b, oc, o, rfl, h1, h2, h3⟩ := inRange_cons2 hi
      exact ⟨_, hcell b oc o h1 h2 h3⟩)
  refine ⟨gridLoop (numel (B :: Co :: convOuts s p d ns ks)) (convTVal zero add mul ld st x.storage w.storage
      ⟨numel (B :: Co :: convOuts s p d ns ks), B, Ci, Co, mkAxes s p d ns ks (convOuts s p d ns ks),
        x.layout.offset, w.layout.offset⟩) fun i => i, zs, ?_, e2, fun buf hbuf => ?_, fun b oc o h1 h2 h4 => ?_⟩
  · unfold convTCuda callConvCuda
    rw [if_neg (by rw [dx, dw]; simp; omega), if_neg (by rw [dx, dw]; simp),
      show x.dims.drop 2 = ns by rw [dx]; rfl, show w.dims.drop 2 = ks by rw [dw]; rfl, convTSizes_eq hvT, Res.ok_bind,
      show x.layout.dims = B :: Ci :: ns from dx, show w.layout.dims = Co :: Ci :: ks from dw,
      convSizes_eq hs hv, Res.ok_bind, if_neg (by simpa using hty), dx, dw]
    simp only [List.getD_cons_zero, List.cons_append, List.nil_append, List.length_cons]
    unfold convTLoop
    rw [hn, show nsp + 1 + 1 - 2 = nsp by omega, decodeConv_convMetadata h3 (show x.layout.dims = B :: Ci :: ns from dx)
        (by rw [show w.layout.dims = Co :: Ci :: ks from dw]; rfl) hn hk (by omega), Res.ok_bind, Res.ok_bind,
        Res.ok_bind, shapeSize_eq]
  · exact gridLoop_of_runLoop hsz e1 (by omega)
  · have := e3 (b :: oc :: o) ⟨h1, h2, h4⟩ _ (hcell b oc o h1 h2 h4)
    unfold Layout.fromShape at this
    rw [elem_rowMajor, Nat.zero_add] at this
    exact this

/-- C114, transposed convolution, for the sizes for which the convolution has as many elements: every element is the sum
over channels and kernel positions.  Missing: all other sizes (`C114_convT_false`), strided inputs and weights in the
documented order (as on the CPU), output padding, `int` overflow. -/
theorem C114_convT_partial {ty : DType} (hty : ty ∈ convTypes) {nsp : Nat} (h3 : nsp = 1 ∨ nsp = 2 ∨ nsp = 3)
    {x w : Tensor α} {X W : List Nat → α} (zero : A) (add mul : A → A → A) (ld : α → A) (st : A → β)
    {s p d B Ci Co : Nat} {ns ks : List Nat}
    (hx : Reads x X) (hw : Reads w W) (px : Packed x) (pw : InputMajor w Ci Co ks) (dx : x.dims = B :: Ci :: ns)
    (dw : w.dims = Co :: Ci :: ks) (hn : ns.length = nsp) (hk : ks.length = nsp) (hs : 0 < s) (hs' : s < 2 ^ 31)
    (hv : KernelFits p d ns ks) (hvT : TransposeFits s p ns ks) (hb : ∀ n ∈ ns, n + 3 * p < 2 ^ 31)
    (hsz : numel (B :: Co :: convOuts s p d ns ks) ≤ 2 ^ 32 - 256)
    (hsame : convOuts s p d ns ks = convTOuts s p 0 d ns ks) :
    ∃ y : Tensor β, Yields (convTCuda ty zero add mul ld st nsp x w s p 0 d) y ∧
      y.dims = B :: Co :: convTOuts s p 0 d ns ks ∧
      ∀ b oc o, b < B → oc < Co → InRange o (convTOuts s p 0 d ns ks) → y.elem (b :: oc :: o) =
        some (st ((backTerms mul s p d Ci ns ks (fun i => ld (X i)) (fun i => ld (W i)) b oc o).foldl add zero)) := by
  obtain ⟨k, zs, h1, h2, h4, h5⟩ := C114_convT_computes hty h3 zero add mul ld st (op := 0) hx hw px pw dx dw hn hk hs hs'
    hv hvT hb hsz
  rw [hsame] at h1 h2 h5
  refine ⟨⟨zs, Layout.fromShape (B :: Co :: convTOuts s p 0 d ns ks)⟩, ⟨rfl, k, ?_, h4⟩, rfl, fun b oc o hb' hoc ho => ?_⟩
  · rw [h1, h2]
    rfl
  · unfold Layout.fromShape
    rw [elem_rowMajor, Nat.zero_add]
    exact h5 b oc o hb' hoc ho

/-- For these sizes and a commutative and associative addition the result is that of the CPU. -/
theorem C114_convT_like_cpu [CommSemiring A] {ty : DType} (hty : ty ∈ convTypes) {nsp : Nat}
    (h3 : nsp = 1 ∨ nsp = 2 ∨ nsp = 3) {x w r : Tensor A} {X W : List Nat → A} {s p d B Ci Co : Nat} {ns ks : List Nat}
    (hx : Reads x X) (hw : Reads w W) (px : Packed x) (pw : InputMajor w Ci Co ks) (dx : x.dims = B :: Ci :: ns)
    (dw : w.dims = Co :: Ci :: ks) (hn : ns.length = nsp) (hk : ks.length = nsp) (hs : 0 < s) (hs' : s < 2 ^ 31)
    (hv : KernelFits p d ns ks) (hvT : TransposeFits s p ns ks) (hb : ∀ n ∈ ns, n + 3 * p < 2 ^ 31)
    (hsz : numel (B :: Co :: convOuts s p d ns ks) ≤ 2 ^ 32 - 256)
    (hsame : convOuts s p d ns ks = convTOuts s p 0 d ns ks)
    (hbT : ∀ o ∈ convTOuts s p 0 d ns ks, o + 2 * p < 2 ^ 31) (hr : x.convT 0 (· + ·) (· * ·) nsp w s p 0 d = .ok r) :
    ∃ y, Yields (convTCuda ty 0 (· + ·) (· * ·) id id nsp x w s p 0 d) y ∧ y.dims = r.dims ∧
      ∀ i, InRange i r.dims → y.elem i = r.elem i := by
  obtain ⟨y, h1, h2, h4⟩ := C114_convT_partial (A := A) (β := A) hty h3 0 (· + ·) (· * ·) id id hx hw px pw dx dw hn hk hs hs' hv
    hvT hb hsz hsame
  obtain ⟨r', g1, _, _, g2, g3⟩ := C60_convT_partial h3 (0 : A) (· + ·) (· * ·) hx hw px pw dx dw hn hk hvT hbT
  rw [hr] at g1
  injection g1 with g1
  subst g1
  refine ⟨y, h1, by rw [h2, g2], fun i hi => ?_⟩
  rw [g2] at hi
  obtain ⟨b, oc, o, rfl, hb', hoc, ho⟩ := inRange_cons2 hi
  rw [h4 b oc o hb' hoc ho, g3 b oc o hb' hoc ho]
  have hl := convTOuts_length (op := 0) (d := d) hvT
  have := backTerms_sum (p := p) (d := d) (Ci := Ci) (ks := ks) (ns := ns) hs X W b oc ho (by omega) (by omega)
  exact congrArg some this

/-- With stride 1 the sizes agree when the padding is half of the dilated kernel. -/
theorem convOuts_same {p d : Nat} {ns ks : List Nat} (h : KernelFits p d ns ks) (hn : TransposeFits 1 p ns ks)
    (hp : ∀ k ∈ ks, 2 * p = d * (k - 1)) : convOuts 1 p d ns ks = convTOuts 1 p 0 d ns ks := by
  induction h with
  | nil => rfl
  | @cons n k ns ks hd _ ih =>
    cases hn with
    | cons h1 h2 =>
      have := hp k (by simp)
      have h3 := ih h2 fun k hk => hp k (by simp [hk])
      unfold convOuts convTOuts at h3 ⊢
      rw [List.zipWith_cons_cons, List.zipWith_cons_cons, h3]
      congr 1
      rw [Nat.div_one]
      omega

/-- The claim for transposed convolutions without output padding: the launch computes a tensor of the shape of a
transposed convolution with the sums over channels and kernel positions as elements. -/
def Spec.ConvTCudaCorrect (α : Type) : Prop :=
  ∀ (nsp : Nat) (x w : Tensor α) (X W : List Nat → α) (zero : α) (add mul : α → α → α)
    (s p d B Ci Co : Nat) (ns ks : List Nat), nsp = 1 ∨ nsp = 2 ∨ nsp = 3 →
    Reads x X → Reads w W → Packed x → InputMajor w Ci Co ks → x.dims = B :: Ci :: ns → w.dims = Co :: Ci :: ks →
    ns.length = nsp → ks.length = nsp → 0 < s → s < 2 ^ 31 → KernelFits p d ns ks → TransposeFits s p ns ks →
    (∀ n ∈ ns, n + 3 * p < 2 ^ 31) → numel (B :: Co :: convTOuts s p 0 d ns ks) ≤ 2 ^ 32 - 256 →
    ∃ y : Tensor α, Yields (convTCuda .f32 zero add mul id id nsp x w s p 0 d) y ∧
      y.dims = B :: Co :: convTOuts s p 0 d ns ks ∧
      ∀ b oc o, b < B → oc < Co → InRange o (convTOuts s p 0 d ns ks) → y.elem (b :: oc :: o) =
        some ((backTerms mul s p d Ci ns ks X W b oc o).foldl add zero)

/-- C114 is false of the transposed convolution: `[1, 2]` and the kernel `[1, 1]` give the shape `[1, 1, 3]` and a buffer
of one element; the CPU computes `1, 3, 2`. -/
theorem C114_convT_false :
    (∃ k, convTCuda .f32 0 (· + ·) (· * ·) id id 1 (⟨[1, 2], Layout.fromShape [1, 1, 2]⟩ : Tensor Nat)
        ⟨[1, 1], Layout.fromShape [1, 1, 2]⟩ 1 0 0 1 = .ok ⟨k, 1, [1, 1, 3]⟩ ∧
      ∀ buf, buf.length = 1 → Computes k buf [1]) ∧
    (⟨[1, 2], Layout.fromShape [1, 1, 2]⟩ : Tensor Nat).convT 0 (· + ·) (· * ·) 1
      ⟨[1, 1], Layout.fromShape [1, 1, 2]⟩ 1 0 0 1 = .ok ⟨[1, 3, 2], Layout.fromShape [1, 1, 3]⟩ := by
  refine ⟨⟨_, rfl, fun buf hb => ?_⟩, by decide +kernel⟩
  refine gridLoop_list (by decide) hb rfl ?_
  decide +kernel

theorem C114_convT_full_false : ¬ Spec.ConvTCudaCorrect Nat := by
  intro h
  obtain ⟨y, ⟨_, k, h1, _⟩, h2, h3⟩ := h 1 (countUp [1, 1, 2] 1) (countUp [1, 1, 2] 1) _ _ 0 (· + ·) (· * ·)
    1 0 1 1 1 1 [2] [2] (Or.inl rfl) (countUp_reads _ _) (countUp_reads _ _) (countUp_packed _ _)
    (inputMajor_single (countUp_packed _ _) rfl (Or.inl rfl)) rfl rfl rfl rfl (by decide) (by decide)
    (.cons (by decide) .nil) (.cons (by decide) .nil) (by decide) (by decide)
  obtain ⟨k', zs, g1, _⟩ := C114_convT_computes (ty := .f32) (by decide) (Or.inl rfl) (0 : Nat) (· + ·) (· * ·) id (id : Nat → Nat)
    (op := 0) (countUp_reads [1, 1, 2] 1) (countUp_reads [1, 1, 2] 1) (countUp_packed _ _)
    (inputMajor_single (Ci := 1) (Co := 1) (ks := [2]) (countUp_packed _ _) rfl (Or.inl rfl)) (B := 1) (ns := [2]) rfl rfl
    rfl rfl (s := 1) (p := 0) (d := 1) (by decide) (by decide) (.cons (by decide) .nil) (.cons (by decide) .nil) (by decide)
    (by decide)
  rw [g1] at h1
  injection h1 with h1
  injection h1 with e1 e2 e3
  have hl : y.storage.length = 1 := e2.symm
  have h4 := h3 0 0 [2] (by decide) (by decide) (by decide)
  have hlay : y.layout = Layout.fromShape [1, 1, 3] := by
    have : y.dims = [1, 1, 3] := h2
    rw [← this]
    assumption
  unfold Tensor.elem at h4
  rw [hlay, List.getElem?_eq_none (by rw [hl]; decide)] at h4
  cases h4

/-- A kernel longer than the input: the CPU computes the five elements, the host of CUDA panics. -/
theorem C114_convT_panics :
    convTCuda .f32 0 (· + ·) (· * ·) id (id : Nat → Nat) 1 (countUp [1, 1, 2] 1) (countUp [1, 1, 4] 1) 1 0 0 1 = .panic ∧
    ((countUp [1, 1, 2] 1).convT 0 (· + ·) (· * ·) 1 (countUp [1, 1, 4] 1) 1 0 0 1).map (·.storage) =
      .ok [1 * 1, 1 * 2 + 2 * 1, 1 * 3 + 2 * 2, 1 * 4 + 2 * 3, 2 * 4] :=
  ⟨rfl, by decide +kernel⟩

/-! ## Concrete cases -/

/-- The hypotheses of `C114_conv_partial` and of `C114_conv_like_cpu` hold for a case with stride 2, padding 1 and
dilation 2. -/
example : KernelFits 1 2 [4, 5] [2, 2] ∧ (∀ n ∈ [4, 5], n + 2 * 1 < 2 ^ 31) ∧
    numel (2 :: 2 :: convOuts 2 1 2 [4, 5] [2, 2]) ≤ 2 ^ 32 - 256 ∧ DType.bf16 ∈ convTypes ∧
    ∃ r, (Spec.mapped id (countUp [2, 3, 4, 5] 7)).conv 0 (· + ·) (· * ·) 2
      (Spec.mapped id (countUp [2, 3, 2, 2] 1)) 2 1 2 = .ok r ∧ r.storage.length = 24 := by
  refine ⟨.cons (by decide) (.cons (by decide) .nil), by decide, by decide, by decide, ?_⟩
  have h : ((Spec.mapped id (countUp [2, 3, 4, 5] 7)).conv 0 (· + ·) (· * ·) 2
      (Spec.mapped id (countUp [2, 3, 2, 2] 1)) 2 1 2).map (·.storage.length) = .ok 24 := by
    decide +kernel
  revert h
  generalize (Spec.mapped id (countUp [2, 3, 4, 5] 7)).conv 0 (· + ·) (· * ·) 2
      (Spec.mapped id (countUp [2, 3, 2, 2] 1)) 2 1 2 = w
  cases w with
  | ok r => intro h; exact ⟨r, rfl, by injection h⟩
  | _ => intro h; cases h

/-- The hypotheses of the theorems on transposed convolutions hold for a kernel of 3 with padding 1, and the sizes
agree. -/
example : KernelFits 1 1 [4] [3] ∧ TransposeFits 1 1 [4] [3] ∧ convOuts 1 1 1 [4] [3] = convTOuts 1 1 0 1 [4] [3] ∧
    InputMajor (⟨List.range 18, ⟨[3, 2, 3], [3, 9, 1], 0⟩⟩ : Tensor Nat) 2 3 [3] ∧
    (∀ n ∈ [4], n + 3 * 1 < 2 ^ 31) ∧
    (backTerms (· * ·) 1 1 1 1 [4] [3] (fun i => i.getD 2 0) (fun i => 10 + i.getD 2 0) 0 0 [1]) =
      [2 * 10, 1 * 11, 0 * 12] :=
  ⟨.cons (by decide) .nil, .cons (by decide) .nil, by decide, inputMajor_swapped, by decide, by decide⟩

/-- The hypotheses of `C114_types` hold for integers. -/
example : DType.i32 ∉ convTypes ∧ ∃ r, (Spec.mapped id (countUp [1, 1, 2] 1)).conv 0 (· + ·) (· * ·) 1
    (Spec.mapped id (countUp [1, 1, 1] 1)) 1 0 1 = .ok r := ⟨by decide, _, rfl⟩

end Hodu.Cuda
