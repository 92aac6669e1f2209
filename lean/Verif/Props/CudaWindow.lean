import Verif.Model.CudaWindow
import Verif.Props.CudaMove
import Verif.Props.CudaIndex
import Verif.Props.Window
import Verif.Props.Einsum
import Verif.Props.Resize

/-! # Property C113: reduce_window, einsum and resize on CUDA -/

namespace Hodu.Cuda
open _root_.Hodu _root_.Hodu.Spec Cuda.Spec

variable {α β A : Type}

/-! ## reduce_window -/

theorem windowLoop_of_kernel {init : A} {step : A → Option α → A} {fin : A → Nat → β} {inp : List α} {md : List Nat}
    {zs : List β} (h : windowKernel init step fin inp md = .ok zs) (hn : zs.length ≤ 2 ^ 32 - 256) :
    ∃ k, windowLoop init step fin inp md = .ok k ∧ md[0]? = some zs.length ∧
      ∀ buf, buf.length = zs.length → Computes k buf zs := by
  unfold windowKernel at h
  obtain ⟨n, h0, h⟩ := Res.bind_eq_ok.mp h
  obtain ⟨nd, h1, h⟩ := Res.bind_eq_ok.mp h
  obtain ⟨dims, h2, h⟩ := Res.bind_eq_ok.mp h
  obtain ⟨ist, h3, h⟩ := Res.bind_eq_ok.mp h
  obtain ⟨off, h4, h⟩ := Res.bind_eq_ok.mp h
  obtain ⟨window, h5, h⟩ := Res.bind_eq_ok.mp h
  obtain ⟨strides, h6, h⟩ := Res.bind_eq_ok.mp h
  obtain ⟨pad, h7, h⟩ := Res.bind_eq_ok.mp h
  obtain ⟨out, h8, h⟩ := Res.bind_eq_ok.mp h
  have hdl : dims.length = nd := (sliceC_len h2).1
  split at h
  · cases h
  rename_i hg
  have hl : zs.length = n := by simpa using (Res.mapL_ok_inv h).1
  refine ⟨_, by
    rw [windowLoop, h0, Res.ok_bind, h1, Res.ok_bind, h2, Res.ok_bind, h3, Res.ok_bind, h4, Res.ok_bind, h5, Res.ok_bind,
      h6, Res.ok_bind, h7, Res.ok_bind, h8, Res.ok_bind], by rw [readC_eq_ok.mp h0, hl], fun buf hb => ?_⟩
  apply gridLoop_of_runLoop (by omega) _ (by omega)
  by_cases h16 : 16 < nd
  · have : n = 0 := by omega
    subst this
    rw [← h]; rfl
  · rw [← h]
    congr 1
    funext k
    unfold windowVal guard16
    rw [if_neg (by omega)]

/-- C113, windows: for the types with a kernel call (`f32`, `f64`, `f16`), whatever the accumulation in `float` is, every
interleaving of the threads ends with the elements the CPU loop computes with that accumulation. -/
theorem C113_window_like_cpu {ty : DType} {init : A} {step : A → Option α → A} {fin : A → Nat → β} {t : Tensor α}
    {window strides : List Nat} {pad : List (Nat × Nat)} {r : Tensor β} (hty : ty ∈ windowArms)
    (h : t.reduceWindow init step fin window strides pad = .ok r) (hn : r.storage.length ≤ 2 ^ 32 - 256) :
    Yields (reduceWindowCuda ty init step fin t window strides pad) r := by
  unfold Tensor.reduceWindow at h
  split at h
  · cases h
  rename_i g1
  split at h
  · cases h
  rename_i g2
  split at h
  · cases h
  rename_i g3
  obtain ⟨out, ho, h⟩ := Res.bind_eq_ok.mp h
  obtain ⟨s, hs, h⟩ := Res.bind_eq_ok.mp h
  injection h with h
  subst h
  obtain ⟨k, hk, hm, hc⟩ := windowLoop_of_kernel hs hn
  have hsz : s.length = shapeSize out := by
    have : (windowMetadata t.layout window strides (flatPad pad) out)[0]? = some (shapeSize out) := by
      simp [windowMetadata]
    rw [this] at hm
    injection hm with hm
    exact hm.symm
  refine ⟨rfl, k, ?_, hc⟩
  unfold reduceWindowCuda
  rw [if_neg g1, if_neg g2, if_neg g3, ho, Res.ok_bind, if_neg (by simpa using hty), hk, Res.ok_bind]
  show Res.ok (Launched.mk k (shapeSize out) out) = _
  rw [← hsz]
  rfl

/-- C113, windows, by the elements (rank at most 16, at most `2 ^ 32 - 256` outputs): for every layout, one element per
position at which the window fits, the accumulation in row-major order of the elements of the padded input. -/
theorem C113_window_partial {ty : DType} {t : Tensor α} {window strides : List Nat} {pad : List (Nat × Nat)} (init : A)
    (step : A → Option α → A) (fin : A → Nat → β) (hty : ty ∈ windowArms) (ht : t.WF) (hr : t.dims.length ≤ 16)
    (hw : window.length = t.dims.length) (hs : strides.length = t.dims.length) (hp : pad.length = t.dims.length)
    (hf : WindowFits t.dims pad window strides)
    (hn : ∀ d, WindowCount t.dims pad window strides d → numel d ≤ 2 ^ 32 - 256) :
    ∃ r : Tensor β, Yields (reduceWindowCuda ty init step fin t window strides pad) r ∧ r.WF ∧
      WindowCount t.dims pad window strides r.dims ∧
      ∀ o, InRange o r.dims → r.elem o = some (fin ((indices window).foldl (fun acc w =>
        step acc ((unpad t.dims pad (windowAt strides o w)).bind t.elem)) init) (numel window)) := by
  obtain ⟨r, h1, h2, h3, h4, h5⟩ := C83_fold_partial init step fin ht hr hw hs hp hf
  refine ⟨r, C113_window_like_cpu hty h1 ?_, h2, h4, h5⟩
  have hlen : r.storage.length = numel r.dims := by
    unfold Tensor.reduceWindow at h1
    rw [if_neg (by simpa using hw), if_neg (by simpa using hs), if_neg (by simpa using hp)] at h1
    obtain ⟨out, ho, h1⟩ := Res.bind_eq_ok.mp h1
    obtain ⟨s, hs', h1⟩ := Res.bind_eq_ok.mp h1
    injection h1 with h1
    subst h1
    unfold windowKernel at hs'
    obtain ⟨n, h0, hs'⟩ := Res.bind_eq_ok.mp hs'
    obtain ⟨_, _, hs'⟩ := Res.bind_eq_ok.mp hs'
    obtain ⟨_, _, hs'⟩ := Res.bind_eq_ok.mp hs'
    obtain ⟨_, _, hs'⟩ := Res.bind_eq_ok.mp hs'
    obtain ⟨_, _, hs'⟩ := Res.bind_eq_ok.mp hs'
    obtain ⟨_, _, hs'⟩ := Res.bind_eq_ok.mp hs'
    obtain ⟨_, _, hs'⟩ := Res.bind_eq_ok.mp hs'
    obtain ⟨_, _, hs'⟩ := Res.bind_eq_ok.mp hs'
    obtain ⟨_, _, hs'⟩ := Res.bind_eq_ok.mp hs'
    split at hs'
    · cases hs'
    have hl : s.length = n := by simpa using (Res.mapL_ok_inv hs').1
    have hm : n = shapeSize out := by
      have := readC_eq_ok.mp h0
      simpa [windowMetadata] using this.symm
    show s.length = numel out
    rw [hl, hm, shapeSize_eq]
  rw [hlen]
  exact hn _ h4

/-- C113 is false of the other types: the CPU sums integers in windows, CUDA refuses every window of every type without an
arm. -/
theorem C113_window_types {ty : DType} (init : A) (step : A → Option α → A) (fin : A → Nat → β) {t : Tensor α}
    {window strides : List Nat} {pad : List (Nat × Nat)} (hty : ty ∉ windowArms)
    (h : ∃ r, t.reduceWindow init step fin window strides pad = .ok r) :
    reduceWindowCuda ty init step fin t window strides pad = .err := by
  obtain ⟨r, h⟩ := h
  unfold Tensor.reduceWindow at h
  unfold reduceWindowCuda
  split at h
  · rw [if_pos (by assumption)]
  split at h
  · cases h
  split at h
  · cases h
  obtain ⟨out, ho, h⟩ := Res.bind_eq_ok.mp h
  rw [if_neg (by assumption), if_neg (by assumption), if_neg (by assumption), ho, Res.ok_bind, if_pos hty]

/-- More than 16 dimensions overrun the coordinate arrays. -/
theorem C113_window_rank_ub {ty : DType} (init : A) (step : A → Option α → A) (fin : A → Nat → β) {t : Tensor α}
    {window strides out : List Nat} {pad : List (Nat × Nat)} (hty : ty ∈ windowArms) (hr : 16 < t.dims.length)
    (hl : t.layout.strides.length = t.dims.length)
    (hw : window.length = t.dims.length) (hs : strides.length = t.dims.length) (hp : pad.length = t.dims.length)
    (ho : windowOut t.dims pad window strides = .ok out) (hol : out.length = t.dims.length)
    (hn : numel out ≤ 2 ^ 32 - 256) (hpos : 0 < numel out) :
    ∃ l, reduceWindowCuda ty init step fin t window strides pad = .ok l ∧ ∀ buf : List β, l.kernel.exec buf [0] = .ub := by
  have hpl : (flatPad pad).length = 2 * t.dims.length := by rw [flatPad_length, hp]
  generalize hmd : (shapeSize out :: t.dims.length :: (t.dims ++ (t.layout.strides ++ (t.layout.offset ::
    (window ++ (strides ++ (flatPad pad ++ (out ++ [])))))))) = md
  have hmeta : windowMetadata t.layout window strides (flatPad pad) out = md := by
    rw [← hmd]; simp [windowMetadata, Layout.ndim]
  have a0 : At md 0 (shapeSize out :: t.dims.length :: (t.dims ++ (t.layout.strides ++ (t.layout.offset ::
    (window ++ (strides ++ (flatPad pad ++ (out ++ [])))))))) := by rw [hmd]; exact At.start md
  have a1 := a0.next 1 rfl
  have a2 := a1.next 2 rfl
  have a3 := a2.skip rfl (2 + t.dims.length) rfl
  have a4 := a3.skip hl (2 + 2 * t.dims.length) (by omega)
  have a5 := a4.next (2 + 2 * t.dims.length + 1) (by omega)
  have a6 := a5.skip hw (2 + 3 * t.dims.length + 1) (by omega)
  have a7 := a6.skip hs (2 + 4 * t.dims.length + 1) (by omega)
  have a8 := a7.skip hpl (2 + 6 * t.dims.length + 1) (by omega)
  refine ⟨⟨gridLoop (shapeSize out) (windowVal init step fin t.storage t.dims t.layout.strides window strides (flatPad pad)
    out t.layout.offset) fun i => i, shapeSize out, out⟩, ?_, fun buf => ?_⟩
  · unfold reduceWindowCuda
    rw [if_neg (by simpa using hw), if_neg (by simpa using hs), if_neg (by simpa using hp), ho, Res.ok_bind,
      if_neg (by simpa using hty), hmeta]
    unfold windowLoop
    rw [a0.read, Res.ok_bind, a1.read, Res.ok_bind, a2.slice rfl, Res.ok_bind, a3.slice hl, Res.ok_bind, a4.read,
      Res.ok_bind, a5.slice hw, Res.ok_bind, a6.slice hs, Res.ok_bind, a7.slice hpl, Res.ok_bind, a8.slice hol,
      Res.ok_bind, Res.ok_bind]
  · show (gridLoop (shapeSize out) _ _).exec buf [0] = .ub
    rw [shapeSize_eq]
    apply gridLoop_ub hn hpos
    unfold windowVal guard16
    rw [if_pos hr]

/-- Means of `f16` are right on CUDA where the CPU adds bit patterns (`C83_f16_mean_wrong`): of 1 (0x3C00) and 4 (0x4400)
the CPU makes 2 (0x4000), CUDA 2.5 (0x4100). -/
theorem C113_f16_mean :
    Yields (reduceWindowCuda .f16 0 halfSumStep halfMean ⟨[0x3C00, 0x4400], Layout.fromShape [2]⟩ [2] [2] [(0, 0)])
      ⟨[0x4100], Layout.fromShape [1]⟩ :=
  C113_window_like_cpu (by decide) (by decide +kernel) (by decide)

/-- C113 is false of `double`: the largest of a window goes through `float`.  Of `1 + 2^-52` it is 1, and of `2 ^ 128` it
is infinity. -/
theorem C113_double_false :
    Yields (reduceWindowCuda .f64 0xFF800000 doubleMaxStep (fun a _ => Cast.floatToDouble a)
        ⟨[0x3FF0000000000001], Layout.fromShape [1]⟩ [1] [1] [(0, 0)])
      ⟨[0x3FF0000000000000], Layout.fromShape [1]⟩ ∧
    Yields (reduceWindowCuda .f64 0xFF800000 doubleMaxStep (fun a _ => Cast.floatToDouble a)
        ⟨[0x47F0000000000000], Layout.fromShape [1]⟩ [1] [1] [(0, 0)])
      ⟨[0x7FF0000000000000], Layout.fromShape [1]⟩ :=
  ⟨C113_window_like_cpu (by decide) (by decide +kernel) (by decide),
    C113_window_like_cpu (by decide) (by decide +kernel) (by decide)⟩

/-- The hypotheses of `C113_window_partial` hold for a 2x3 input (transposed), windows of 2x2 with strides 1 and 2 and
padding. -/
example : exSel.WF ∧ (DType.f16 ∈ windowArms) ∧
    WindowFits exSel.dims [(0, 1), (1, 1)] [2, 2] [1, 2] ∧
    (∃ r, exSel.reduceWindow 0 (accStep (· + ·) 0) (fun a _ => a) [2, 2] [1, 2] [(0, 1), (1, 1)] = .ok r ∧
      r.storage.length ≤ 2 ^ 32 - 256) :=
  ⟨exSel_wf, by decide, ⟨by decide, by decide, trivial⟩, _, rfl, by decide⟩

/-! ## einsum -/

theorem einsumLoop_of_kernel {zero one : A} {add mul : A → A → A} {ld : α → A} {st : A → β} {bufs : List (List α)}
    {outLen : Nat} {md : List Nat} {zs : List β} (h : einsumKernel zero one add mul ld st bufs outLen md = .ok zs)
    (hn : zs.length ≤ 2 ^ 32 - 1) (hz : outLen = zs.length) :
    ∃ k, einsumLoop zero one add mul ld st bufs md = .ok k ∧ ∀ buf, buf.length = zs.length → Computes k buf zs := by
  unfold einsumKernel at h
  obtain ⟨m, hm, h⟩ := Res.bind_eq_ok.mp h
  obtain ⟨cs, hc, h⟩ := Res.bind_eq_ok.mp h
  simp only at h
  split at h
  · cases h
  have hl : zs.length = m.numOut := by simpa using (Res.mapL_ok_inv h).1
  refine ⟨_, by rw [einsumLoop, hm, Res.ok_bind, hc, Res.ok_bind], fun buf hb => ?_⟩
  exact onceLoop_all (by omega) h (by omega)

theorem einsumParse_numOut {md : List Nat} {m : EinsumMeta} (h : einsumParse md = .ok m) : md[0]? = some m.numOut := by
  unfold einsumParse at h
  obtain ⟨n, h0, h⟩ := Res.bind_eq_ok.mp h
  have : m.numOut = n := by
    obtain ⟨_, _, h⟩ := Res.bind_eq_ok.mp h
    obtain ⟨_, _, h⟩ := Res.bind_eq_ok.mp h
    obtain ⟨_, _, h⟩ := Res.bind_eq_ok.mp h
    obtain ⟨_, _, h⟩ := Res.bind_eq_ok.mp h
    obtain ⟨_, _, h⟩ := Res.bind_eq_ok.mp h
    split at h
    · cases h
    obtain ⟨_, _, h⟩ := Res.bind_eq_ok.mp h
    obtain ⟨_, _, h⟩ := Res.bind_eq_ok.mp h
    obtain ⟨_, _, h⟩ := Res.bind_eq_ok.mp h
    obtain ⟨_, _, h⟩ := Res.bind_eq_ok.mp h
    injection h with h
    rw [← h]
  rw [readC_eq_ok.mp h0, this]

theorem einsumKernel_length {zero one : A} {add mul : A → A → A} {ld : α → A} {st : A → β} {bufs : List (List α)}
    {n : Nat} {md : List Nat} {zs : List β} (h : einsumKernel zero one add mul ld st bufs n md = .ok zs)
    (hm : md[0]? = some (max n 1)) : n = zs.length := by
  unfold einsumKernel at h
  obtain ⟨m, hp, h⟩ := Res.bind_eq_ok.mp h
  obtain ⟨cs, hc, h⟩ := Res.bind_eq_ok.mp h
  simp only at h
  split at h
  · cases h
  have hl : zs.length = m.numOut := by simpa using (Res.mapL_ok_inv h).1
  have := einsumParse_numOut hp
  rw [hm] at this
  injection this with this
  omega

theorem callEinsumCuda_of_cpu {zero one : A} {add mul : A → A → A} {ld : α → A} {st : A → β} {bufs : List (List α)}
    {layouts : List Layout} {p : ParsedEinsum} {r : Tensor β}
    (h : callEinsum zero one add mul ld st bufs layouts p = .ok r) (hn : r.storage.length ≤ 2 ^ 32 - 1) :
    Yields (callEinsumCuda zero one add mul ld st bufs layouts p) r := by
  unfold callEinsum at h
  obtain ⟨out, ho, h⟩ := Res.bind_eq_ok.mp h
  obtain ⟨md, hm, h⟩ := Res.bind_eq_ok.mp h
  obtain ⟨zs, hz, h⟩ := Res.bind_eq_ok.mp h
  injection h with h
  subst h
  have hm0 : md[0]? = some (max (shapeSize out) 1) := by
    unfold einsumMetadata at hm
    obtain ⟨_, _, hm⟩ := Res.bind_eq_ok.mp hm
    obtain ⟨_, _, hm⟩ := Res.bind_eq_ok.mp hm
    obtain ⟨_, _, hm⟩ := Res.bind_eq_ok.mp hm
    obtain ⟨_, _, hm⟩ := Res.bind_eq_ok.mp hm
    injection hm with hm
    rw [← hm]; rfl
  have hl := einsumKernel_length hz hm0
  obtain ⟨k, hk, hc⟩ := einsumLoop_of_kernel hz hn hl
  refine ⟨rfl, k, ?_, hc⟩
  unfold callEinsumCuda
  rw [ho, Res.ok_bind, hm, Res.ok_bind, hk, Res.ok_bind, hl]
  rfl

/-- C113, einsum (fewer than `2 ^ 32` elements): every interleaving of the threads ends with what the CPU computes. -/
theorem C113_einsum_like_cpu {zero one : A} {add mul : A → A → A} {ld : α → A} {st : A → β} {eq : List Char}
    {ts : List (Tensor α)} {r : Tensor β} (h : Tensor.einsum zero one add mul ld st eq ts = .ok r)
    (hn : r.storage.length ≤ 2 ^ 32 - 1) : Yields (einsumCuda zero one add mul ld st eq ts) r := by
  unfold Tensor.einsum at h
  split at h
  · cases h
  split at h
  · cases h
  obtain ⟨p, hp, h⟩ := Res.bind_eq_ok.mp h
  have := callEinsumCuda_of_cpu h hn
  unfold einsumCuda
  rw [if_neg (by assumption), if_neg (by assumption), hp, Res.ok_bind]
  exact this

/-- C113, einsum, by the elements, for a call with the layouts of all operands (at most 4 operands, rank and labels at
most 16, no empty output): the sum over the summed labels of the products.  Missing: `Tensor::einsum` itself, which hands
over the wrong layouts (`C113_einsum_false`). -/
theorem C113_einsum_partial (zero one : A) (add mul : A → A → A) (ld : α → A) (st : A → β)
    {eq : List Char} {ts : List (Tensor α)} {p : ParsedEinsum}
    (hp : ParsedEinsum.parse eq (ts.map (·.dims)) = .ok p) (hw : ∀ t ∈ ts, t.WF) (h4 : ts.length ≤ 4)
    (hrank : ∀ t ∈ ts, t.dims.length ≤ 16) (hall : p.all.length ≤ 16) (hout : p.output.length ≤ 16)
    (hne : ∀ c ∈ p.output, ¬ LabelSize p.inputs (ts.map (·.dims)) c 0)
    (hn : ∀ out, p.outputShape = .ok out → numel out ≤ 2 ^ 32 - 1) :
    ∃ (r : Tensor β) (cdims : List Nat),
      Yields (callEinsumCuda zero one add mul ld st (ts.map (·.storage)) (ts.map (·.layout)) p) r ∧ r.WF ∧
      p.outputShape = .ok r.dims ∧ cdims.length = p.contraction.length ∧
      (∀ (j : Nat) (c : Char), p.contraction[j]? = some c →
        ∃ n, cdims[j]? = some n ∧ LabelSize p.inputs (ts.map (·.dims)) c n) ∧
      ∀ o, InRange o r.dims → ∃ X : List Nat → List α,
        (∀ c, InRange c cdims → (ts.zip p.inputs).map (fun q =>
          q.1.elem (q.2.map (labelValue p.output o p.contraction c))) = (X c).map some) ∧
        r.elem o = some (st (((allIndices cdims).map fun c =>
          (X c).foldl (fun a x => mul a (ld x)) one).foldl add zero)) := by
  obtain ⟨r, cdims, h1, h2, h3, h5⟩ := C27_kernel_partial zero one add mul ld st hp hw h4 hrank hall hout hne
  refine ⟨r, cdims, callEinsumCuda_of_cpu h1 ?_, h2, h3, h5⟩
  have hlen : r.storage.length = numel r.dims := by
    have h1' := h1
    unfold callEinsum at h1'
    obtain ⟨out, ho, h1'⟩ := Res.bind_eq_ok.mp h1'
    obtain ⟨md, hm, h1'⟩ := Res.bind_eq_ok.mp h1'
    obtain ⟨zs, hz, h1'⟩ := Res.bind_eq_ok.mp h1'
    injection h1' with h1'
    subst h1'
    have hm0 : md[0]? = some (max (shapeSize out) 1) := by
      unfold einsumMetadata at hm
      obtain ⟨_, _, hm⟩ := Res.bind_eq_ok.mp hm
      obtain ⟨_, _, hm⟩ := Res.bind_eq_ok.mp hm
      obtain ⟨_, _, hm⟩ := Res.bind_eq_ok.mp hm
      obtain ⟨_, _, hm⟩ := Res.bind_eq_ok.mp hm
      injection hm with hm
      rw [← hm]; rfl
    show zs.length = numel out
    rw [← einsumKernel_length hz hm0, shapeSize_eq]
  rw [hlen]
  exact hn _ h3

/-- C113 is false of `Tensor::einsum` on CUDA as on the CPU: the dot product of `[1, 2]` and `[3, 4]` comes out as 3. -/
theorem C113_einsum_false :
    Yields (einsumCuda (0 : Int) 1 (· + ·) (· * ·) id id "i,i->".toList
      [⟨[1, 2], Layout.fromShape [2]⟩, ⟨[3, 4], Layout.fromShape [2]⟩]) ⟨[3], Layout.fromShape []⟩ :=
  C113_einsum_like_cpu C27_dot_wrong (by decide)

/-- An output without elements: the first thread divides by the size 0 (the metadata says one element). -/
theorem C113_einsum_empty_ub :
    ∃ l, callEinsumCuda (0 : Int) 1 (· + ·) (· * ·) id id [[]] [Layout.fromShape [0]]
        ⟨[['i']], ['i'], [], ['i'], [('i', 0)]⟩ = .ok l ∧ l.len = 0 ∧ l.kernel.exec [] [0] = .ub ∧
      ParsedEinsum.parse "i->i".toList [[0]] = .ok ⟨[['i']], ['i'], [], ['i'], [('i', 0)]⟩ := by
  refine ⟨_, rfl, rfl, rfl, by decide +kernel⟩

/-- The hypotheses of `C113_einsum_like_cpu` hold for two matrices. -/
example : ∃ r, Tensor.einsum (0 : Int) 1 (· + ·) (· * ·) id id "ij,jk->ik".toList
    [⟨[1, 2, 3, 4], Layout.fromShape [2, 2]⟩, ⟨[5, 6, 7, 8], Layout.fromShape [2, 2]⟩] = .ok r ∧
      r.storage.length ≤ 2 ^ 32 - 1 := ⟨_, rfl, by decide⟩

/-! ## resize -/

theorem fusedCoord_exact (co n m o : Nat) : fusedCoord id co n m o = transformCoord id co n m o := rfl

theorem fusedAxes_exact (co : Nat) (ns ss ms os : List Nat) : fusedAxes id co ns ss ms os = resizeAxes id co ns ss ms os := by
  induction ns generalizing ss ms os with
  | nil => rfl
  | cons n ns ih =>
    match ss, ms, os with
    | s :: ss, m :: ms, o :: os => rw [fusedAxes, resizeAxes, ih, fusedCoord_exact]
    | [], _, _ => rfl
    | _ :: _, [], _ => rfl
    | _ :: _, _ :: _, [] => rfl

theorem fusedAxes_same (fl : ℚ → ℚ) (co : Nat) (ns ss os : List Nat) :
    fusedAxes fl co ns ss ns os = resizeAxes fl co ns ss ns os := by
  induction ns generalizing ss os with
  | nil => rfl
  | cons n ns ih =>
    match ss, os with
    | s :: ss, o :: os =>
      rw [fusedAxes, resizeAxes, ih]
      simp [fusedCoord, transformCoord]
    | [], _ => rfl
    | _ :: _, [] => rfl

theorem fusedAxes_size (fl : ℚ → ℚ) (code : Nat) {ns ss ms os : List Nat} (h1 : ss.length = ns.length)
    (h2 : ms.length = ns.length) (h3 : os.length = ns.length) :
    (fusedAxes fl code ns ss ms os).map (·.size) = ns ∧ (fusedAxes fl code ns ss ms os).map (·.stride) = ss := by
  induction ns generalizing ss ms os with
  | nil =>
    have : ss = [] := List.eq_nil_of_length_eq_zero h1
    subst this; simp [fusedAxes]
  | cons n ns ih =>
    match ss, ms, os, h1, h2, h3 with
    | s :: ss, m :: ms, o :: os, h1, h2, h3 =>
      have := ih (ss := ss) (ms := ms) (os := os) (by simpa using h1) (by simpa using h2) (by simpa using h3)
      simp [fusedAxes, this.1, this.2]

theorem resizeLoop_meta (lin cub : ℚ → List A → A) (fl : ℚ → ℚ) (ld : α → A) (st : A → α) (inp : List α) {l : Layout}
    (hl : l.strides.length = l.dims.length) {out : List Nat} (ho : out.length = l.dims.length) (mode coord nearest : Nat) :
    resizeLoop lin cub fl ld st inp (resizeMetadata l out mode coord nearest) =
      .ok (gridLoop (numel out) (resizeVal lin cub fl ld st inp l.dims l.strides out l.offset mode coord nearest)
        fun i => i) := by
  have e : resizeMetadata l out mode coord nearest = numel out :: l.dims.length :: (l.dims ++ (l.strides ++ (l.offset ::
      (out ++ [mode, coord, nearest])))) := by
    simp [resizeMetadata, Layout.ndim, shapeSize_eq]
  rw [e]
  generalize hmd : (numel out :: l.dims.length :: (l.dims ++ (l.strides ++ (l.offset :: (out ++
    [mode, coord, nearest]))))) = md
  have a0 : At md 0 (numel out :: l.dims.length :: (l.dims ++ (l.strides ++ (l.offset :: (out ++
    [mode, coord, nearest]))))) := by rw [hmd]; exact At.start md
  have a1 := a0.next 1 rfl
  have a2 := a1.next 2 rfl
  have a3 := a2.skip rfl (2 + l.dims.length) rfl
  have a4 := a3.skip hl (2 + 2 * l.dims.length) (by omega)
  have a5 := a4.next (3 + 2 * l.dims.length) (by omega)
  have a6 := a5.skip ho (3 + 3 * l.dims.length) (by omega)
  have a7 := a6.next (4 + 3 * l.dims.length) (by omega)
  have a8 := a7.next (5 + 3 * l.dims.length) (by omega)
  unfold resizeLoop
  rw [a0.read, Res.ok_bind, a1.read, Res.ok_bind, a2.slice rfl, Res.ok_bind, a3.slice hl, Res.ok_bind, a4.read,
    Res.ok_bind, a5.slice ho, Res.ok_bind, a6.read, Res.ok_bind, a7.read, Res.ok_bind, a8.read, Res.ok_bind]

/-- From the elements to the launch. -/
theorem resizeCuda_of_loop {lin cub : ℚ → List A → A} {fl : ℚ → ℚ} {ld : α → A} {st : A → α} {t : Tensor α} {B C : Nat}
    {ns ms : List Nat} {mo : ResizeMode} {co : ResizeCoord} {ne : ResizeNearest} (ht : t.WF) (hd : t.dims = B :: C :: ns)
    (hr : ns.length = 2 ∨ ns.length = 3) (hm : ms.length = ns.length) {zs : List α}
    (h : runLoop (numel (B :: C :: ms)) (resizeVal lin cub fl ld st t.storage t.dims t.layout.strides (B :: C :: ms)
      t.layout.offset mo.code co.code ne.code) = .ok zs) (hn : zs.length ≤ 2 ^ 32 - 256) :
    Yields (resizeCuda lin cub fl ld st t ms mo co ne) ⟨zs, Layout.fromShape (B :: C :: ms)⟩ := by
  have hl : zs.length = numel (B :: C :: ms) := by simpa using (Res.mapL_ok_inv h).1
  refine ⟨rfl, gridLoop (numel (B :: C :: ms)) (resizeVal lin cub fl ld st t.storage t.dims t.layout.strides (B :: C :: ms)
      t.layout.offset mo.code co.code ne.code) fun i => i, ?_, fun buf hb => gridLoop_of_runLoop (by omega) h ?_⟩
  · unfold resizeCuda
    rw [if_neg (by rw [hd]; simp; omega), if_neg (by rw [hd]; simp; omega)]
    simp only [hd, List.getD_cons_zero, List.getD_cons_succ]
    rw [resizeLoop_meta lin cub fl ld st t.storage ht.1 (by show _ = t.dims.length; rw [hd]; simp [hm]), Res.ok_bind,
      shapeSize_eq, ← hl]
    have : t.layout.dims = B :: C :: ns := hd
    rw [this]
    rfl
  · rw [← hl]; exact hb

/-- Where the coordinates agree, CUDA computes what the CPU computes. -/
theorem resizeCuda_of_cpu {R : ResizeArith A} {fl : ℚ → ℚ} {ld : α → A} {st : A → α} {t r : Tensor α} {B C : Nat}
    {ns ms : List Nat} {mo : ResizeMode} {co : ResizeCoord} {ne : ResizeNearest} (ht : t.WF) (hd : t.dims = B :: C :: ns)
    (hr : ns.length = 2 ∨ ns.length = 3) (hm : ms.length = ns.length)
    (h : t.resize R fl ld st ms mo co ne = .ok r)
    (hax : ∀ ss os, fusedAxes fl co.code ns ss ms os = resizeAxes fl co.code ns ss ms os)
    (hn : numel r.dims ≤ 2 ^ 32 - 256) :
    Yields (resizeCuda (R.lerp fl) R.cubic fl ld st t ms mo co ne) r := by
  unfold Tensor.resize at h
  rw [if_neg (by rw [hd]; simp; omega), if_neg (by rw [hd]; simp; omega)] at h
  simp only [hd, List.getD_cons_zero, List.getD_cons_succ] at h
  obtain ⟨zs, hz, h⟩ := Res.bind_eq_ok.mp h
  injection h with h
  subst h
  rw [C55_resize R fl ld st t.storage ht.1 (by show _ = t.dims.length; rw [hd]; simp [hm])] at hz
  have hl : zs.length = numel (B :: C :: ms) := by simpa using (Res.mapL_ok_inv hz).1
  have hn' : numel (B :: C :: ms) ≤ 2 ^ 32 - 256 := hn
  apply resizeCuda_of_loop ht hd hr hm _ (by omega)
  rw [← hz]
  congr 1
  funext k
  unfold resizeVal resizeCell
  have e : t.layout.dims = t.dims := rfl
  rw [e, if_neg (by rw [hd]; simp; omega)]
  simp only [hd, List.drop_succ_cons, List.drop_zero, hax]

/-- C113, resize with exact coordinates: what the CPU computes, whatever the interpolation arithmetic. -/
theorem C113_resize_exact {R : ResizeArith A} {ld : α → A} {st : A → α} {t r : Tensor α} {B C : Nat}
    {ns ms : List Nat} {mo : ResizeMode} {co : ResizeCoord} {ne : ResizeNearest} (ht : t.WF) (hd : t.dims = B :: C :: ns)
    (hr : ns.length = 2 ∨ ns.length = 3) (hm : ms.length = ns.length)
    (h : t.resize R id ld st ms mo co ne = .ok r) (hn : numel r.dims ≤ 2 ^ 32 - 256) :
    Yields (resizeCuda (R.lerp id) R.cubic id ld st t ms mo co ne) r :=
  resizeCuda_of_cpu ht hd hr hm h (fun _ _ => fusedAxes_exact _ _ _ _ _) hn

/-- C113, nearest neighbour (exact coordinates): the element at the documented position, for every layout. -/
theorem C113_nearest_partial (R : ResizeArith A) (ld : α → A) (st : A → α) {t : Tensor α} {B C : Nat} {ns ms : List Nat}
    (co : ResizeCoord) (ne : ResizeNearest) (ht : t.WF) (hd : t.dims = B :: C :: ns)
    (hr : ns.length = 2 ∨ ns.length = 3) (hm : ms.length = ns.length) (hn : ∀ n ∈ ns, 0 < n)
    (hsz : numel (B :: C :: ms) ≤ 2 ^ 32 - 256) :
    ∃ r, Yields (resizeCuda (R.lerp id) R.cubic id ld st t ms .nearest co ne) r ∧ r.WF ∧ r.dims = B :: C :: ms ∧
      ∀ b c os, b < B → c < C → InRange os ms →
        ∃ ks, NearestSrc co ne ns ms os ks ∧ r.elem (b :: c :: os) = t.elem (b :: c :: ks) := by
  obtain ⟨r, h1, h2, h3, h4⟩ := C93_nearest_partial R ld st co ne ht hd hr hm hn
  exact ⟨r, C113_resize_exact ht hd hr hm h1 (by rw [h3]; exact hsz), h2, h3, h4⟩

/-- C113, linear interpolation (exact arithmetic). -/
theorem C113_linear_partial (ld : α → ℝ) (st : ℝ → α) {t : Tensor α} {B C : Nat} {ns ms : List Nat}
    (co : ResizeCoord) (ne : ResizeNearest) (ht : t.WF) (hd : t.dims = B :: C :: ns)
    (hr : ns.length = 2 ∨ ns.length = 3) (hm : ms.length = ns.length) (hn : ∀ n ∈ ns, 0 < n)
    (hsz : numel (B :: C :: ms) ≤ 2 ^ 32 - 256)
    (G : List Nat → α) (hG : ∀ idx, InRange idx t.dims → t.elem idx = some (G idx)) :
    ∃ r, Yields (resizeCuda (realArith.lerp id) realArith.cubic id ld st t ms .linear co ne) r ∧ r.WF ∧
      r.dims = B :: C :: ms ∧
      ∀ b c os, b < B → c < C → InRange os ms → ∃ v, r.elem (b :: c :: os) = some (st v) ∧
        Interp OnLine (srcCoords co ns ms os) (fun ks => ld (G (b :: c :: clampAll ns ks))) v := by
  obtain ⟨r, h1, h2, h3, h4⟩ := C93_linear_partial ld st co ne ht hd hr hm hn G hG
  exact ⟨r, C113_resize_exact ht hd hr hm h1 (by rw [h3]; exact hsz), h2, h3, h4⟩

/-- C113, cubic interpolation of images (exact arithmetic). -/
theorem C113_cubic_partial (ld : α → ℝ) (st : ℝ → α) {t : Tensor α} {B C H W : Nat} {ms : List Nat}
    (co : ResizeCoord) (ne : ResizeNearest) (ht : t.WF) (hd : t.dims = [B, C, H, W]) (hm : ms.length = 2)
    (hH : 0 < H) (hW : 0 < W) (hsz : numel (B :: C :: ms) ≤ 2 ^ 32 - 256)
    (G : List Nat → α) (hG : ∀ idx, InRange idx t.dims → t.elem idx = some (G idx)) :
    ∃ r, Yields (resizeCuda (realArith.lerp id) realArith.cubic id ld st t ms .cubic co ne) r ∧ r.WF ∧
      r.dims = B :: C :: ms ∧
      ∀ b c os, b < B → c < C → InRange os ms → ∃ v, r.elem (b :: c :: os) = some (st v) ∧
        Interp OnSpline (srcCoords co [H, W] ms os) (fun ks => ld (G (b :: c :: clampAll [H, W] ks))) v := by
  obtain ⟨r, h1, h2, h3, h4⟩ := C93_cubic_partial ld st co ne ht hd hm hH hW G hG
  exact ⟨r, C113_resize_exact ht hd (Or.inl rfl) hm h1 (by rw [h3]; exact hsz), h2, h3, h4⟩

/-- Resizing to the same size with the nearest neighbour is the identity, with any rounding. -/
theorem C113_same_nearest (R : ResizeArith A) {fl : ℚ → ℚ} (hfl : ∀ k : Nat, k < 2 ^ 24 → fl k = k) (ld : α → A)
    (st : A → α) {t : Tensor α} {B C : Nat} {ns : List Nat} (co : ResizeCoord) (ne : ResizeNearest) (ht : t.WF)
    (hd : t.dims = B :: C :: ns) (hr : ns.length = 2 ∨ ns.length = 3) (hn : ∀ n ∈ ns, 0 < n ∧ n ≤ 2 ^ 24)
    (hsz : numel t.dims ≤ 2 ^ 32 - 256) :
    ∃ r, Yields (resizeCuda (R.lerp fl) R.cubic fl ld st t ns .nearest co ne) r ∧ r.WF ∧ r.dims = t.dims ∧
      ∀ idx, InRange idx t.dims → r.elem idx = t.elem idx := by
  obtain ⟨r, h1, h2, h3, h4⟩ := C93_same_nearest R hfl ld st co ne ht hd hr hn
  exact ⟨r, resizeCuda_of_cpu ht hd hr rfl h1 (fun _ _ => fusedAxes_same _ _ _ _ _) (by rw [h3]; exact hsz), h2, h3, h4⟩

theorem nearest_inRange {fl : ℚ → ℚ} (hfl : ∀ k : Nat, k < 2 ^ 24 → fl k = k) (ne : Nat) (axes : List ResizeAxis)
    (h : ∀ a ∈ axes, 0 < a.size ∧ a.size ≤ 2 ^ 24) :
    InRange (axes.map fun a => roundNearest fl ne a.size a.coord) (axes.map (·.size)) := by
  induction axes with
  | nil => trivial
  | cons a axes ih =>
    have := h a (by simp)
    exact ⟨roundNearest_lt fl hfl ne this.1 this.2 _, ih fun b hb => h b (by simp [hb])⟩

/-- C113, resize: whatever the arithmetic does and however it is contracted, no access leaves the input, the shape is the
documented one and the result does not depend on the interleaving, if the input is not empty in a spatial dimension and
these are small enough for a `float`. -/
theorem C113_resize_safe (lin cub : ℚ → List A → A) {fl : ℚ → ℚ} (hfl : ∀ k : Nat, k < 2 ^ 24 → fl k = k) (ld : α → A)
    (st : A → α) {t : Tensor α} {B C : Nat} {ns ms : List Nat} (mo : ResizeMode) (co : ResizeCoord) (ne : ResizeNearest)
    (ht : t.WF) (hd : t.dims = B :: C :: ns) (hr : ns.length = 2 ∨ ns.length = 3) (hm : ms.length = ns.length)
    (hn : ∀ n ∈ ns, 0 < n ∧ n ≤ 2 ^ 24) (hsz : numel (B :: C :: ms) ≤ 2 ^ 32 - 256) :
    ∃ r, Yields (resizeCuda lin cub fl ld st t ms mo co ne) r ∧ r.WF ∧ r.dims = B :: C :: ms := by
  obtain ⟨sB, sC, ss, hs, hsl⟩ := strides_split ht hd
  obtain ⟨zs, hz, hzl, _⟩ := runLoop_elem (out := B :: C :: ms)
    (val := resizeVal lin cub fl ld st t.storage t.dims t.layout.strides (B :: C :: ms) t.layout.offset mo.code co.code
      ne.code) (by
      intro idx hi
      match idx, hi with
      | b :: c :: os, hi =>
        obtain ⟨hb, hc, ho⟩ := hi
        have hsz := fusedAxes_size fl co.code hsl hm ((inRange_length' ho).trans hm)
        generalize hax : fusedAxes fl co.code ns ss ms os = axes at hsz
        have hmem : ∀ a ∈ axes, 0 < a.size ∧ a.size ≤ 2 ^ 24 := by
          intro a ha
          apply hn
          rw [← hsz.1]
          exact List.mem_map_of_mem ha
        have hint : ∀ (comb : ℚ → List A → A) (offs : List Int), ∃ a, interpAt fl ld comb offs t.storage
            axes (t.layout.offset + b * sB + c * sC) = .ok a := by
          intro comb offs
          have hk0 : InRange (axes.map fun a => roundNearest fl 0 a.size a.coord) ns := by
            have := nearest_inRange hfl 0 axes hmem
            rwa [hsz.1] at this
          obtain ⟨v0, _, _⟩ := read_source ht hd hs hb hc hk0
          refine ⟨_, interpAt_ok fl ld comb offs t.storage _ _ (fun ks => (t.elem (b :: c :: ks)).getD v0)
            (fun a ha => (hmem a ha).1) ?_⟩
          intro ks hk
          rw [hsz.1] at hk
          rw [hsz.2]
          obtain ⟨v, hv, hv'⟩ := read_source ht hd hs hb hc hk
          rw [hv', hv]; rfl
        unfold resizeVal
        have hu : (cUnravel (B :: C :: ms) (rowMajor (B :: C :: ms) (b :: c :: os))).1 = b :: c :: os :=
          cUnravel_rowMajor ⟨hb, hc, ho⟩
        rw [hu, hd, hs, if_neg (by simp; omega)]
        simp only [List.getD_cons_zero, List.getD_cons_succ, List.drop_succ_cons, List.drop_zero, hax]
        split
        · exact Res.map_ok_exists (hint _ _)
        · split
          · exact Res.map_ok_exists (hint _ _)
          · have hk := nearest_inRange hfl ne.code axes hmem
            rw [hsz.1] at hk
            obtain ⟨v, _, hv⟩ := read_source ht hd hs hb hc hk
            refine ⟨v, ?_⟩
            rw [nearestAt_dot, hsz.2]
            exact hv)
  refine ⟨⟨zs, Layout.fromShape (B :: C :: ms)⟩, resizeCuda_of_loop ht hd hr hm hz (by rw [hzl]; exact hsz),
    fresh_wf hzl.symm, rfl⟩

/-- C113 is false of rounded coordinates: from 2 to 6 pixels with half-pixel coordinates and rounding up, position 1 is
exactly at coordinate 0.  The CPU copies pixel 0; the fused operation ends above 0 and CUDA copies pixel 1. -/
theorem C113_fused_false :
    srcCoord .halfPixel 2 6 1 = 0 ∧
    roundNearest fl32 ResizeNearest.ceil.code 2 (transformCoord fl32 ResizeCoord.halfPixel.code 2 6 1) = 0 ∧
    roundNearest fl32 ResizeNearest.ceil.code 2 (fusedCoord fl32 ResizeCoord.halfPixel.code 2 6 1) = 1 := by
  refine ⟨by norm_num [srcCoord], by decide +kernel, by decide +kernel⟩

/-- Exact arithmetic on natural numbers, for the example (the nearest neighbour does not use it). -/
def natArith : ResizeArith Nat := ⟨(· + ·), (· - ·), (· * ·), fun _ => 0⟩

/-- The image of the example. -/
def exRow : Tensor Nat := ⟨[10, 20], Layout.fromShape [1, 1, 1, 2]⟩

/-- The same on tensors: the second of the six pixels differs. -/
theorem C113_fused_tensor :
    exRow.WF ∧
    exRow.resize natArith fl32 id id [1, 6] .nearest .halfPixel .ceil =
      .ok ⟨[10, 10, 20, 20, 20, 20], Layout.fromShape [1, 1, 1, 6]⟩ ∧
    Yields (resizeCuda (natArith.lerp fl32) natArith.cubic fl32 id id exRow [1, 6] .nearest .halfPixel .ceil)
      ⟨[10, 20, 20, 20, 20, 20], Layout.fromShape [1, 1, 1, 6]⟩ := by
  have hw : exRow.WF := fresh_wf (by decide)
  refine ⟨hw, by decide +kernel, ?_⟩
  have h : runLoop (numel (1 :: 1 :: [1, 6])) (resizeVal (natArith.lerp fl32) natArith.cubic fl32 id id exRow.storage
      exRow.dims exRow.layout.strides (1 :: 1 :: [1, 6]) exRow.layout.offset ResizeMode.nearest.code
      ResizeCoord.halfPixel.code ResizeNearest.ceil.code) = .ok [10, 20, 20, 20, 20, 20] := by decide +kernel
  exact resizeCuda_of_loop (ns := [1, 2]) (ms := [1, 6]) hw rfl (Or.inl rfl) rfl h (by decide)

/-- The hypotheses of the theorems on resizing hold for this image and its enlargement. -/
example : exRow.WF ∧ exRow.dims = 1 :: 1 :: [1, 2] ∧ (∀ n ∈ [1, 2], 0 < n ∧ n ≤ 2 ^ 24) ∧
    numel (1 :: 1 :: [1, 6]) ≤ 2 ^ 32 - 256 ∧ (∀ k : Nat, k < 2 ^ 24 → fl32 k = k) :=
  ⟨fresh_wf (by decide), rfl, by decide, by decide, fl32_nat⟩

/-- The hypotheses of `C113_window_rank_ub` hold for a tensor with 17 dimensions, those of `C113_window_types` for an
integer row. -/
example : 16 < (List.replicate 17 1).length ∧
    windowOut (List.replicate 17 1) (List.replicate 17 (0, 0)) (List.replicate 17 1) (List.replicate 17 1) =
      .ok (List.replicate 17 1) ∧ 0 < numel (List.replicate 17 1) ∧ DType.i32 ∉ windowArms ∧
    ∃ r, Tensor.windowFold (· + ·) 0 (⟨[1, 2, 3], Layout.fromShape [3]⟩ : Tensor Int) [2] [1] [(0, 0)] = .ok r :=
  ⟨by decide, by decide, by decide, by decide, _, rfl⟩

end Hodu.Cuda
