import Verif.Lemmas.CudaGrid
import Verif.Props.Concat
import Verif.Props.FlipPad
import Verif.Props.CudaUnique

/-! # Property C110: concat, split, flip and pad on CUDA -/

namespace Hodu.Cuda
open _root_.Hodu.Spec
open Cuda.Spec

variable {α : Type}

/-- The launch computes the contiguous tensor `r`: it gets a buffer of its size, and from any content of the buffer
every interleaving of the threads ends with the elements of `r`. -/
def Spec.Yields (l : Res (Launched α)) (r : Tensor α) : Prop :=
  r.layout = Layout.fromShape r.dims ∧
    ∃ k, l = .ok ⟨k, r.storage.length, r.dims⟩ ∧ ∀ buf, buf.length = r.storage.length → Computes k buf r.storage

open Cuda.Spec

/-- A launch computes one tensor only. -/
theorem yields_unique {l : Res (Launched α)} {r r' : Tensor α} (h : Yields l r) (h' : Yields l r') : r = r' := by
  obtain ⟨a, k, e, c⟩ := h
  obtain ⟨a', k', e', c'⟩ := h'
  rw [e] at e'
  injection e' with e'
  injection e' with h1 h2 h3
  subst h1
  have hs : r.storage = r'.storage :=
    Computes.unique (c r.storage rfl) (c' r.storage h2) fun B => exists_fair B k.threads
  cases r
  cases r'
  simp only at hs a a' h3
  subst hs
  rw [a, a', h3]

/-! ## Against the CPU kernels -/

theorem concatLoop_of_kernel {inp : List α} {md : List Nat} {zs : List α} (h : concatKernel inp md = .ok zs)
    (hn : zs.length ≤ 2 ^ 32 - 256) :
    ∃ k, concatLoop inp md = .ok k ∧ md[0]? = some zs.length ∧ ∀ buf, buf.length = zs.length → Computes k buf zs := by
  unfold concatKernel at h
  obtain ⟨m, hm, h⟩ := Res.bind_eq_ok.mp h
  have hl : zs.length = m.numEls := by simpa using (Res.mapL_ok_inv h).1
  refine ⟨_, by rw [concatLoop, hm]; rfl, ?_, fun buf hb => gridLoop_of_runLoop (by omega) h (by omega)⟩
  unfold decodeConcat at hm
  obtain ⟨n, h0, hm⟩ := Res.bind_eq_ok.mp hm
  obtain ⟨_, _, hm⟩ := Res.bind_eq_ok.mp hm
  obtain ⟨_, _, hm⟩ := Res.bind_eq_ok.mp hm
  obtain ⟨_, _, hm⟩ := Res.bind_eq_ok.mp hm
  obtain ⟨_, _, hm⟩ := Res.bind_eq_ok.mp hm
  obtain ⟨_, _, hm⟩ := Res.bind_eq_ok.mp hm
  obtain ⟨_, _, hm⟩ := Res.bind_eq_ok.mp hm
  obtain ⟨_, _, hm⟩ := Res.bind_eq_ok.mp hm
  obtain ⟨_, _, hm⟩ := Res.bind_eq_ok.mp hm
  injection hm with hm
  rw [readC_eq_ok.mp h0, hl, ← hm]

theorem splitLoop_of_kernel {inp : List α} {md : List Nat} {zs : List α} (h : splitKernel inp md = .ok zs)
    (hn : zs.length ≤ 2 ^ 32 - 256) :
    ∃ k, splitLoop inp md = .ok k ∧ md[0]? = some zs.length ∧ ∀ buf, buf.length = zs.length → Computes k buf zs := by
  unfold splitKernel at h
  obtain ⟨m, hm, h⟩ := Res.bind_eq_ok.mp h
  have hg : ∀ {γ : Type} (x : Res γ), guard16 m.nd x = x := by
    intro γ x
    unfold guard16 at h ⊢
    split at h
    · cases h
    · rw [if_neg (by assumption)]
  rw [hg] at h
  have hl : zs.length = m.numEls := by simpa using (Res.mapL_ok_inv h).1
  refine ⟨_, by rw [splitLoop, hm]; rfl, ?_, fun buf hb => ?_⟩
  · unfold decodeSplit at hm
    obtain ⟨n, h0, hm⟩ := Res.bind_eq_ok.mp hm
    obtain ⟨_, _, hm⟩ := Res.bind_eq_ok.mp hm
    obtain ⟨_, _, hm⟩ := Res.bind_eq_ok.mp hm
    obtain ⟨_, _, hm⟩ := Res.bind_eq_ok.mp hm
    obtain ⟨_, _, hm⟩ := Res.bind_eq_ok.mp hm
    obtain ⟨_, _, hm⟩ := Res.bind_eq_ok.mp hm
    obtain ⟨_, _, hm⟩ := Res.bind_eq_ok.mp hm
    obtain ⟨_, _, hm⟩ := Res.bind_eq_ok.mp hm
    injection hm with hm
    rw [readC_eq_ok.mp h0, hl, ← hm]
  · simp only [hg]
    exact gridLoop_of_runLoop (by omega) h (by omega)

/-- Also beyond `2 ^ 32` elements: exactly the positions with a thread are written. -/
theorem flipLoop_of_kernel {inp : List α} {md : List Nat} {zs : List α} (h : flipKernel inp md = .ok zs) :
    ∃ k, flipLoop inp md = .ok k ∧ md[0]? = some zs.length ∧ ∀ buf, buf.length = zs.length →
      Computes k buf (zs.take (256 * gridSize zs.length) ++ buf.drop (256 * gridSize zs.length)) := by
  unfold flipKernel at h
  obtain ⟨n, h0, h⟩ := Res.bind_eq_ok.mp h
  obtain ⟨nd, h1, h⟩ := Res.bind_eq_ok.mp h
  obtain ⟨shape, h2, h⟩ := Res.bind_eq_ok.mp h
  obtain ⟨mask, h3, h⟩ := Res.bind_eq_ok.mp h
  have hl : zs.length = n := by simpa using (Res.mapL_ok_inv h).1
  refine ⟨_, by rw [flipLoop, h0, Res.ok_bind, h1, Res.ok_bind, h2, Res.ok_bind, h3, Res.ok_bind],
    by rw [readC_eq_ok.mp h0, hl], fun buf hb => ?_⟩
  rw [hl]
  exact onceLoop_of_runLoop h (by omega)

theorem padLoop_of_kernel {mode : PadMode} {pv : α} {inp : List α} {md : List Nat} {zs : List α}
    (h : padKernel mode pv inp md = .ok zs) (hn : zs.length ≤ 2 ^ 32 - 256) :
    ∃ k, padLoop mode pv inp md = .ok k ∧ md[0]? = some zs.length ∧
      ∀ buf, buf.length = zs.length → Computes k buf zs := by
  unfold padKernel at h
  obtain ⟨n, h0, h⟩ := Res.bind_eq_ok.mp h
  obtain ⟨nd, h1, h⟩ := Res.bind_eq_ok.mp h
  obtain ⟨shape, h2, h⟩ := Res.bind_eq_ok.mp h
  obtain ⟨out, h3, h⟩ := Res.bind_eq_ok.mp h
  obtain ⟨before, h4, h⟩ := Res.bind_eq_ok.mp h
  have hl : zs.length = n := by
    cases mode <;> simpa using (Res.mapL_ok_inv h).1
  cases mode <;>
    exact ⟨_, by rw [padLoop, h0, Res.ok_bind, h1, Res.ok_bind, h2, Res.ok_bind, h3, Res.ok_bind, h4, Res.ok_bind],
      by rw [readC_eq_ok.mp h0, hl], fun buf hb => gridLoop_of_runLoop (by omega) h (by omega)⟩

/-- **C110, against the CPU kernels**: whenever the sequential kernel succeeds on some metadata (with at most
`2 ^ 32 - 256` results; flip: below `2 ^ 32`), every interleaving of the threads ends with the same results. -/
theorem C110_like_cpu {inp : List α} {md : List Nat} {zs : List α} :
    (concatKernel inp md = .ok zs → zs.length ≤ 2 ^ 32 - 256 →
      ∃ k, concatLoop inp md = .ok k ∧ ∀ buf, buf.length = zs.length → Computes k buf zs) ∧
    (splitKernel inp md = .ok zs → zs.length ≤ 2 ^ 32 - 256 →
      ∃ k, splitLoop inp md = .ok k ∧ ∀ buf, buf.length = zs.length → Computes k buf zs) ∧
    (flipKernel inp md = .ok zs → zs.length < 2 ^ 32 →
      ∃ k, flipLoop inp md = .ok k ∧ ∀ buf, buf.length = zs.length → Computes k buf zs) ∧
    (∀ mode pv, padKernel mode pv inp md = .ok zs → zs.length ≤ 2 ^ 32 - 256 →
      ∃ k, padLoop mode pv inp md = .ok k ∧ ∀ buf, buf.length = zs.length → Computes k buf zs) := by
  refine ⟨fun h hn => ?_, fun h hn => ?_, fun h hn => ?_, fun mode pv h hn => ?_⟩
  · obtain ⟨k, a, _, b⟩ := concatLoop_of_kernel h hn
    exact ⟨k, a, b⟩
  · obtain ⟨k, a, _, b⟩ := splitLoop_of_kernel h hn
    exact ⟨k, a, b⟩
  · obtain ⟨k, a, _, b⟩ := flipLoop_of_kernel h
    refine ⟨k, a, fun buf hb => ?_⟩
    have := b buf hb
    have hc := grid_covers (n := zs.length) (by omega)
    rwa [List.take_of_length_le hc, List.drop_eq_nil_of_le (by omega), List.append_nil] at this
  · obtain ⟨k, a, _, b⟩ := padLoop_of_kernel h hn
    exact ⟨k, a, b⟩

/-! ## The operations -/

/-- The launch of `Tensor::concat` yields what the CPU gives. -/
theorem concatCuda_of_cpu {dt : DType} (hdt : dt ∈ moveArms) {ts : List (Tensor α)} {d : Int} {r : Tensor α}
    (h : Tensor.concat ts d = .ok r) (hn : r.storage.length ≤ 2 ^ 32 - 256) : Yields (concatCuda dt ts d) r := by
  cases ts with
  | nil => cases h
  | cons t rest =>
    simp only [Tensor.concat] at h
    obtain ⟨out, ho, h⟩ := Res.bind_eq_ok.mp h
    obtain ⟨s, hs, h⟩ := Res.bind_eq_ok.mp h
    injection h with h
    subst h
    simp only [callOpsConcat] at hs
    split at hs
    · cases hs
    · rename_i hc
      obtain ⟨k, hk, h0, hcomp⟩ := concatLoop_of_kernel hs hn
      refine ⟨rfl, k, ?_, hcomp⟩
      simp only [concatCuda]
      rw [ho, Res.ok_bind, if_neg hc, if_neg (by simpa using hdt), hk, Res.ok_bind]
      have : shapeSize (concatBackendDims (axisUsize t.dims.length d) t.dims
          ((t :: rest).map (·.layout))) = s.length := by
        simpa [concatMetadata] using h0
      rw [this]
      rfl

/-- **C110, concat**: under every interleaving concat yields the concatenation.  Missing: operands (except the last)
whose storage is larger than their shape, rank above 16, types without an arm. -/
theorem C110_concat_partial {dt : DType} (hdt : dt ∈ moveArms) {ts : List (Tensor α)} {t : Tensor α} {d : Int} {k : Nat}
    (ht : ts.head? = some t) (hw : ∀ u ∈ ts, u.WF) (hax : IsAxis t.dims.length d k)
    (hr : t.dims.length ≤ 16) (hj : ∀ u ∈ ts, Joinable k t.dims u.dims)
    (hs : ∀ i (hi : i < ts.length), i + 1 < ts.length → ts[i].storage.length = numel ts[i].dims)
    (hn : numel (t.dims.set k (startOf k (ts.map (·.dims)) ts.length)) ≤ 2 ^ 32 - 256) :
    ∃ r, Yields (concatCuda dt ts d) r ∧ r.WF ∧ IsConcat k ts r := by
  obtain ⟨r, h1, h2, h3, _, h5⟩ := C16_concat_partial ht hw hax hr hj hs
  refine ⟨r, concatCuda_of_cpu hdt h1 ?_, h2, h5⟩
  rw [h3, h5.1 t ht]
  exact hn

theorem numel_set_le {ds : List Nat} {k d c : Nat} (hd : ds[k]? = some d) (hc : c ≤ d) :
    numel (ds.set k c) ≤ numel ds := by
  induction ds generalizing k with
  | nil => simp at hd
  | cons a as ih =>
    cases k with
    | zero =>
      simp only [List.getElem?_cons_zero, Option.some.injEq] at hd
      subst hd
      simpa [numel] using Nat.mul_le_mul_right _ hc
    | succ k =>
      simpa [numel] using Nat.mul_le_mul_left a (ih (by simpa using hd))

theorem splitCudaFrom_ok {dt : DType} (hdt : dt ∈ moveArms) {t : Tensor α} {k d : Nat} (ht : t.WF)
    (hr : t.dims.length ≤ 16) (hd : t.dims[k]? = some d) (hn : numel t.dims ≤ 2 ^ 32 - 256) (sizes : List Nat)
    (start : Nat) (hsum : start + sizes.sum ≤ d) :
    ∃ ls ps, splitCudaFrom dt t k start sizes = .ok ls ∧ List.Forall₂ (fun l r => Yields (.ok l) r) ls ps ∧
      IsSplit k t start sizes ps ∧ ∀ p ∈ ps, p.storage.length = numel p.dims := by
  induction sizes generalizing start with
  | nil => exact ⟨[], [], rfl, .nil, ⟨rfl, fun j hj => by simp at hj⟩, by simp⟩
  | cons size sizes ih =>
    simp only [List.sum_cons] at hsum
    obtain ⟨s, h1, h2, h3⟩ := splitKernel_ok (start := start) (size := size) ht hr hd (by omega)
    obtain ⟨ls, ps, h4, h5, h6, h7⟩ := ih (start + size) (by omega)
    have hle : numel (t.dims.set k size) ≤ numel t.dims := numel_set_le hd (by omega)
    obtain ⟨K, hK, h0, hcomp⟩ := splitLoop_of_kernel h1 (by omega)
    have hsz : shapeSize (t.dims.set k size) = s.length := by rw [shapeSize_eq, h2]
    refine ⟨⟨K, s.length, t.dims.set k size⟩ :: ls, ⟨s, Layout.fromShape (t.dims.set k size)⟩ :: ps, ?_,
      .cons ⟨rfl, K, rfl, hcomp⟩ h5, ?_, ?_⟩
    · rw [splitCudaFrom, callSplitCuda, hd]
      simp only
      rw [if_neg (by omega), if_neg (by simpa using hdt)]
      rw [show splitLoop t.storage (splitMetadata t.layout k size start (shapeSize (t.dims.set k size))) = .ok K from hK,
        Res.ok_bind, hsz, Res.ok_bind, h4]
      rfl
    · refine ⟨by simp [h6.1], ?_⟩
      intro j hj hs
      cases j with
      | zero => exact ⟨fresh_wf h2.symm, rfl, fun idx hi => by simpa using h3 idx hi⟩
      | succ j =>
        obtain ⟨h7, h8, h9⟩ := h6.2 j (by simpa using hj) (by simpa using hs)
        refine ⟨h7, h8, fun idx hi => ?_⟩
        rw [List.take_succ_cons, List.sum_cons, ← Nat.add_assoc]
        exact h9 idx hi
    · intro p hp
      rcases List.mem_cons.mp hp with rfl | hp
      · exact h2
      · exact h7 p hp

/-- **C110, split**: for any sizes adding up to at most the dimension (also with zeros at the end, which the CPU
refuses) the launches yield, under every interleaving, the consecutive ranges; if the sizes add up to the dimension,
the launch of concat yields the tensor again.  Missing: sizes adding up to less are accepted; rank above 16; types
without an arm. -/
theorem C110_split_partial {dt : DType} (hdt : dt ∈ moveArms) {t : Tensor α} {sizes : List Nat} {dim : Int} {k d : Nat}
    (ht : t.WF) (hax : IsAxis t.dims.length dim k) (hr : t.dims.length ≤ 16) (hd : t.dims[k]? = some d)
    (hn : numel t.dims ≤ 2 ^ 32 - 256) (hsum : sizes.sum ≤ d) :
    ∃ ls ps, splitCuda dt t sizes dim = .ok ls ∧ List.Forall₂ (fun l r => Yields (.ok l) r) ls ps ∧
      IsSplit k t 0 sizes ps ∧
      (sizes.sum = d → sizes ≠ [] → ∃ u, Yields (concatCuda dt ps dim) u ∧ u.WF ∧ u.SameValues t) := by
  obtain ⟨ls, ps, h1, h2, h3, h4⟩ := splitCudaFrom_ok hdt ht hr hd hn sizes 0 (by omega)
  refine ⟨ls, ps, by rw [splitCuda, axisUsize_eq hax (by omega)]; exact h1, h2, h3, fun hs hne => ?_⟩
  obtain ⟨u, h5, h6, h8, h7⟩ := concat_split hax hr hd h3 h4 hs hne
  refine ⟨u, concatCuda_of_cpu hdt h5 ?_, h6, h7⟩
  rw [h8, h7.1]
  exact hn

/-- **C110, split, rejection**: sizes adding up to more than the dimension give an error. -/
theorem C110_split_rejects {dt : DType} (hdt : dt ∈ moveArms) {t : Tensor α} {sizes : List Nat} {dim : Int} {k d : Nat}
    (ht : t.WF) (hax : IsAxis t.dims.length dim k) (hr : t.dims.length ≤ 16) (hd : t.dims[k]? = some d)
    (hn : numel t.dims ≤ 2 ^ 32 - 256) (hsum : d < sizes.sum) : splitCuda dt t sizes dim = .err := by
  rw [splitCuda, axisUsize_eq hax (by omega)]
  have : ∀ start, d < start + sizes.sum → start ≤ d → splitCudaFrom dt t k start sizes = .err := by
    clear hsum
    induction sizes with
    | nil => intro start h1 h2; simp at h1; omega
    | cons size sizes ih =>
      intro start h1 h2
      simp only [List.sum_cons] at h1
      rcases Nat.lt_or_ge d (start + size) with h | h
      · rw [splitCudaFrom, callSplitCuda, hd]
        simp only
        rw [if_pos h]
        rfl
      · obtain ⟨ls, ps, h4, h5, _⟩ := splitCudaFrom_ok hdt ht hr hd hn [size] start (by simpa using h)
        rw [splitCudaFrom] at h4
        obtain ⟨l, h6, _⟩ := Res.bind_eq_ok.mp h4
        rw [splitCudaFrom, h6, Res.ok_bind, ih (start + size) (by omega) h]
        rfl
  exact this 0 (by omega) (by omega)

theorem flip_len {t r : Tensor α} {ds : List Int} (h : t.flip ds = .ok r) : r.storage.length = numel t.dims := by
  unfold Tensor.flip at h
  obtain ⟨s, hs, h⟩ := Res.bind_eq_ok.mp h
  injection h with h
  subst h
  obtain ⟨k, hk, h0, _⟩ := flipLoop_of_kernel hs
  rw [← shapeSize_eq]
  simpa [flipMetadata, Layout.size, Tensor.dims] using h0.symm

/-- The launch of `Tensor::flip` yields what the CPU gives. -/
theorem flipCuda_of_cpu {t : Tensor α} {ds : List Int} {r : Tensor α} (h : t.flip ds = .ok r)
    (hn : r.storage.length < 2 ^ 32) : Yields (flipCuda t ds) r := by
  unfold Tensor.flip at h
  obtain ⟨s, hs, h⟩ := Res.bind_eq_ok.mp h
  injection h with h
  subst h
  obtain ⟨k, hk, h0, _⟩ := flipLoop_of_kernel hs
  obtain ⟨k', hk', hcomp⟩ := (C110_like_cpu (zs := s)).2.2.1 hs hn
  rw [hk] at hk'
  cases hk'
  refine ⟨rfl, k, ?_, hcomp⟩
  rw [flipCuda, hk, Res.ok_bind]
  have : shapeSize t.dims = s.length := by simpa [flipMetadata, Layout.size, Tensor.dims] using h0
  rw [this]
  rfl

/-- **C110, flip**: for a contiguous tensor with fewer than `2 ^ 32` elements, under every interleaving flip yields the
tensor with the axes reversed.  Missing: other strides, an offset, larger tensors (`C110_flip_large`). -/
theorem C110_flip_partial {t : Tensor α} {ds : List Int} {K : List Nat} (ht : t.WF)
    (hn : t.dims.length < 2 ^ 31) (hax : List.Forall₂ (IsAxis t.dims.length) ds K)
    (hc : t.layout.strides = Layout.computeStrides t.dims) (ho : t.layout.offset = 0) (hsz : numel t.dims < 2 ^ 32) :
    ∃ r, Yields (flipCuda t ds) r ∧ r.WF ∧ r.dims = t.dims ∧
      ∀ idx, InRange idx t.dims → r.elem idx = t.elem (flipAxes K t.dims idx) := by
  obtain ⟨r, h1, h2, h3, h4⟩ := C19_flip_partial ht hn hax hc ho
  refine ⟨r, flipCuda_of_cpu h1 ?_, h2, by rw [Tensor.dims, h3]; rfl, h4⟩
  rw [flip_len h1]
  exact hsz

/-- **C110, large flips**: with `2 ^ 32` elements or more the size of the grid wraps around and the elements from
position `2 ^ 32` on keep the content of the new buffer. -/
theorem C110_flip_large {t : Tensor α} {ds : List Int} {r : Tensor α} (h : t.flip ds = .ok r) :
    ∃ k, flipCuda t ds = .ok ⟨k, r.storage.length, r.dims⟩ ∧ ∀ buf, buf.length = r.storage.length →
      ∃ out, Computes k buf out ∧ ∀ i : Nat, 2 ^ 32 ≤ i → out[i]? = buf[i]? := by
  unfold Tensor.flip at h
  obtain ⟨s, hs, h⟩ := Res.bind_eq_ok.mp h
  injection h with h
  subst h
  obtain ⟨k, hk, h0, hcomp⟩ := flipLoop_of_kernel hs
  refine ⟨k, ?_, fun buf hb => ⟨_, hcomp buf hb, fun i hi => ?_⟩⟩
  · rw [flipCuda, hk, Res.ok_bind]
    have : shapeSize t.dims = s.length := by simpa [flipMetadata, Layout.size, Tensor.dims] using h0
    rw [this]
    rfl
  · simp only at hb
    have := grid_le s.length
    rcases Nat.lt_or_ge i s.length with hl | hl
    · rw [List.getElem?_append_right (by simp; omega), List.getElem?_drop]
      congr 1
      simp
      omega
    · rw [List.getElem?_eq_none (by simp; omega), List.getElem?_eq_none (by omega)]

theorem pad_len {t r : Tensor α} {padding : List (Nat × Nat)} {mode : PadMode} {v : α}
    (h : t.pad padding mode v = .ok r) : r.storage.length = numel r.dims := by
  unfold Tensor.pad at h
  split at h
  · cases h
  · simp only at h
    obtain ⟨s, hs, h⟩ := Res.bind_eq_ok.mp h
    injection h with h
    subst h
    show s.length = numel (List.zipWith (fun d (p : Nat × Nat) => d + p.1 + p.2) t.dims padding)
    unfold padKernel at hs
    obtain ⟨n, h0, hs⟩ := Res.bind_eq_ok.mp hs
    obtain ⟨_, _, hs⟩ := Res.bind_eq_ok.mp hs
    obtain ⟨_, _, hs⟩ := Res.bind_eq_ok.mp hs
    obtain ⟨_, _, hs⟩ := Res.bind_eq_ok.mp hs
    obtain ⟨_, _, hs⟩ := Res.bind_eq_ok.mp hs
    have hl : s.length = n := by cases mode <;> simpa using (Res.mapL_ok_inv hs).1
    rw [hl, ← shapeSize_eq]
    simpa [paddingMetadata] using (readC_eq_ok.mp h0).symm

/-- The launch of `Tensor::pad` yields what the CPU gives. -/
theorem padCuda_of_cpu {t : Tensor α} {padding : List (Nat × Nat)} {mode : PadMode} {v : α} {r : Tensor α}
    (h : t.pad padding mode v = .ok r) (hn : r.storage.length ≤ 2 ^ 32 - 256) : Yields (padCuda t padding mode v) r := by
  unfold Tensor.pad at h
  split at h
  · cases h
  · rename_i hp
    simp only at h
    obtain ⟨s, hs, h⟩ := Res.bind_eq_ok.mp h
    injection h with h
    subst h
    obtain ⟨k, hk, h0, hcomp⟩ := padLoop_of_kernel hs hn
    refine ⟨rfl, k, ?_, hcomp⟩
    rw [padCuda, if_neg hp]
    simp only
    rw [hk, Res.ok_bind]
    have : shapeSize (List.zipWith (fun d (p : Nat × Nat) => d + p.1 + p.2) t.dims padding) = s.length := by
      simpa [paddingMetadata] using h0
    rw [this]
    rfl

/-- **C110, pad**: for a contiguous tensor, in all four modes and under every interleaving pad yields the padded tensor.
Missing: other strides, an offset, empty dimensions (except in constant mode), larger results. -/
theorem C110_pad_partial {t : Tensor α} {padding : List (Nat × Nat)} {mode : PadMode} {v : α} (ht : t.WF)
    (hp : padding.length = t.dims.length) (hz : mode ≠ .constant → ∀ d ∈ t.dims, 0 < d)
    (hc : t.layout.strides = Layout.computeStrides t.dims) (ho : t.layout.offset = 0)
    (hn : numel (List.zipWith (fun d p => d + p.1 + p.2) t.dims padding) ≤ 2 ^ 32 - 256) :
    ∃ r, Yields (padCuda t padding mode v) r ∧ r.WF ∧ IsPad mode t padding v r := by
  obtain ⟨r, h1, h2, h3⟩ := C20_pad_partial (mode := mode) (v := v) ht hp hz hc ho
  refine ⟨r, padCuda_of_cpu h1 ?_, h2, h3⟩
  rw [pad_len h1, h3.1]
  exact hn

/-! ## What is missing -/

/-- **C110, types**: although their kernels are compiled for every type, concat and split are refused for nine of the
fifteen types, whatever the tensors; the CPU runs them. -/
theorem C110_types {dt : DType} (hdt : dt ∉ moveArms) :
    (∀ (ts : List (Tensor α)) d l, concatCuda dt ts d ≠ .ok l) ∧
    (∀ (t : Tensor α) sizes dim ls, sizes ≠ [] → splitCuda dt t sizes dim ≠ .ok ls) := by
  constructor
  · intro ts d l h
    cases ts with
    | nil => cases h
    | cons t rest =>
      simp only [concatCuda] at h
      obtain ⟨out, _, h⟩ := Res.bind_eq_ok.mp h
      split at h
      · cases h
      · rw [if_pos (by simpa using hdt)] at h
        cases h
  · intro t sizes dim ls hne h
    cases sizes with
    | nil => exact hne rfl
    | cons size sizes =>
      rw [splitCuda, splitCudaFrom] at h
      obtain ⟨l, h, _⟩ := Res.bind_eq_ok.mp h
      unfold callSplitCuda at h
      split at h
      · cases h
      · split at h
        · cases h
        · rw [if_pos (by simpa using hdt)] at h
          cases h

/-- The types that are refused. -/
example : (Dispatch.allTypes.filter fun dt => !moveArms.contains dt) =
    [.bool, .f8e4m3, .f8e5m2, .u8, .u16, .u64, .i8, .i16, .i64] := by decide

/-- The full claim: on this device the operations yield the concatenation, the reversed and the padded tensor, for
every type and every layout. -/
def C110_full : Prop :=
  (∀ (dt : DType) (ts : List (Tensor Nat)) (t : Tensor Nat) (d : Int) (k : Nat), ts.head? = some t →
    (∀ u ∈ ts, u.WF) → IsAxis t.dims.length d k → t.dims.length ≤ 16 → (∀ u ∈ ts, Joinable k t.dims u.dims) →
    ∃ r, Yields (concatCuda dt ts d) r ∧ IsConcat k ts r) ∧
  (∀ (t : Tensor Nat) (ds : List Int) (K : List Nat), t.WF → List.Forall₂ (IsAxis t.dims.length) ds K →
    ∃ r, Yields (flipCuda t ds) r ∧ ∀ idx, InRange idx t.dims → r.elem idx = t.elem (flipAxes K t.dims idx)) ∧
  (∀ (t : Tensor Nat) (padding : List (Nat × Nat)) (mode : PadMode) (v : Nat), t.WF →
    padding.length = t.dims.length → (∀ d ∈ t.dims, 0 < d) →
    ∃ r, Yields (padCuda t padding mode v) r ∧ IsPad mode t padding v r)

/-- **C110 is false of the code** in every part: bytes cannot be joined; the joined slice `[0,1,2,3][2:4]` with `[9]` is
`[2,3,2]`; flip and pad read a transposed matrix in the order of its storage. -/
theorem C110_full_false : ¬ C110_full ∧
    concatCuda .u8 [⟨[1], Layout.fromShape [1]⟩, (⟨[2], Layout.fromShape [1]⟩ : Tensor Nat)] 0 = .err ∧
    Yields (concatCuda .f32 [⟨[0, 1, 2, 3], ⟨[2], [1], 2⟩⟩, (⟨[9], Layout.fromShape [1]⟩ : Tensor Nat)] 0)
      ⟨[2, 3, 2], Layout.fromShape [3]⟩ ∧
    (let t : Tensor Nat := ⟨[1, 2, 3, 4, 5, 6], ⟨[3, 2], [1, 3], 0⟩⟩
     Yields (flipCuda t [0]) ⟨[5, 6, 3, 4, 1, 2], Layout.fromShape [3, 2]⟩ ∧ t.elem [2, 0] = some 3) ∧
    (let t : Tensor Nat := ⟨[1, 2, 3, 4, 5, 6], ⟨[3, 2], [1, 3], 0⟩⟩
     Yields (padCuda t [(0, 0), (1, 0)] .constant 0) ⟨[0, 1, 2, 0, 3, 4, 0, 5, 6], Layout.fromShape [3, 3]⟩ ∧
       t.elem [0, 1] = some 4) := by
  refine ⟨?_, rfl, concatCuda_of_cpu (by decide) (by decide +kernel) (by decide), ?_, ?_⟩
  · intro h
    obtain ⟨r, h1, _⟩ := h.1 .u8 [⟨[1], Layout.fromShape [1]⟩, ⟨[2], Layout.fromShape [1]⟩]
      ⟨[1], Layout.fromShape [1]⟩ 0 0 rfl
      (by
        intro u hu
        simp only [List.mem_cons, List.not_mem_nil, or_false] at hu
        rcases hu with rfl | rfl <;> exact fresh_wf (by decide))
      ⟨by decide, Or.inl rfl⟩ (by decide)
      (by
        intro u hu
        simp only [List.mem_cons, List.not_mem_nil, or_false] at hu
        rcases hu with rfl | rfl <;> exact ⟨rfl, fun _ _ => rfl⟩)
    obtain ⟨_, k, h2, _⟩ := h1
    exact (C110_types (by decide)).1 _ _ _ h2
  · exact ⟨flipCuda_of_cpu C19_full_false.2.1 (by decide), C19_full_false.2.2⟩
  · exact ⟨padCuda_of_cpu C20_full_false.2.1 (by decide), C20_full_false.2.2⟩

/-- The parts about flip and pad are false by themselves. -/
theorem C110_views_false :
    (¬ ∀ (t : Tensor Nat) (ds : List Int) (K : List Nat), t.WF → List.Forall₂ (IsAxis t.dims.length) ds K →
      ∃ r, Yields (flipCuda t ds) r ∧ ∀ idx, InRange idx t.dims → r.elem idx = t.elem (flipAxes K t.dims idx)) ∧
    (¬ ∀ (ts : List (Tensor Nat)) (t : Tensor Nat) (d : Int) (k : Nat), ts.head? = some t →
      (∀ u ∈ ts, u.WF) → IsAxis t.dims.length d k → (∀ u ∈ ts, Joinable k t.dims u.dims) →
      ∃ r, Yields (concatCuda .f32 ts d) r ∧ IsConcat k ts r) := by
  constructor
  · intro h
    obtain ⟨r, h1, h2⟩ := h ⟨[1, 2, 3, 4, 5, 6], ⟨[3, 2], [1, 3], 0⟩⟩ [0] [0]
      ⟨rfl, by
        intro idx hi
        obtain ⟨a, b, rfl⟩ : ∃ a b, idx = [a, b] := by
          have := hi.length
          match idx, this with
          | [a, b], _ => exact ⟨a, b, rfl⟩
        simp only [InRange] at hi
        obtain ⟨ha, hb, _⟩ := hi
        interval_cases a <;> interval_cases b <;> decide⟩
      (.cons ⟨by decide, Or.inl rfl⟩ .nil)
    have := yields_unique h1 C110_full_false.2.2.2.1.1
    subst this
    have := h2 [0, 0] (by decide)
    revert this
    decide
  · intro h
    obtain ⟨r, h1, h2⟩ := h [⟨[0, 1, 2, 3], ⟨[2], [1], 2⟩⟩, ⟨[9], Layout.fromShape [1]⟩]
      ⟨[0, 1, 2, 3], ⟨[2], [1], 2⟩⟩ 0 0 rfl
      (by
        intro u hu
        simp only [List.mem_cons, List.not_mem_nil, or_false] at hu
        rcases hu with rfl | rfl
        · refine ⟨rfl, ?_⟩
          intro idx hi
          obtain ⟨a, rfl⟩ : ∃ a, idx = [a] := by
            have := hi.length
            match idx, this with
            | [a], _ => exact ⟨a, rfl⟩
          simp only [InRange] at hi
          obtain ⟨ha, _⟩ := hi
          interval_cases a <;> decide
        · exact fresh_wf (by decide))
      ⟨by decide, Or.inl rfl⟩
      (by
        intro u hu
        simp only [List.mem_cons, List.not_mem_nil, or_false] at hu
        rcases hu with rfl | rfl
        · exact ⟨rfl, fun _ _ => rfl⟩
        · refine ⟨rfl, fun i hi => ?_⟩
          cases i with
          | zero => exact absurd rfl hi
          | succ i => rfl)
    have := yields_unique h1 C110_full_false.2.2.1
    subst this
    have := h2.2 1 (by decide) [0] (by decide)
    revert this
    decide

/-! ## Concrete cases -/

/-- Two matrices are joined, and the result is split again with a zero at the end, which the CPU refuses. -/
example : ∃ r, Yields (concatCuda .f32 [⟨[1, 2], Layout.fromShape [1, 2]⟩,
      (⟨[3, 4, 5, 6], Layout.fromShape [2, 2]⟩ : Tensor Nat)] 0) r ∧ r = ⟨[1, 2, 3, 4, 5, 6], Layout.fromShape [3, 2]⟩ :=
  ⟨_, concatCuda_of_cpu (by decide) (by decide +kernel) (by decide), rfl⟩

example : ∃ ls, splitCuda .f32 (⟨[0, 1, 2, 3], Layout.fromShape [4]⟩ : Tensor Nat) [4, 0] 0 = .ok ls ∧ ls.length = 2 ∧
    (⟨[0, 1, 2, 3], Layout.fromShape [4]⟩ : Tensor Nat).split [4, 0] 0 = .err := by
  obtain ⟨ls, ps, h1, h2, h3, _⟩ := C110_split_partial (dt := .f32) (by decide) (sizes := [4, 0]) (dim := 0) (k := 0) (d := 4)
    (fresh_wf (data := [0, 1, 2, 3]) (dims := [4]) (by decide)) ⟨by decide, Or.inl rfl⟩ (by decide) rfl (by decide) (by decide)
  exact ⟨ls, h1, by rw [h2.length_eq, h3.1]; rfl, C17_full_false.2.2⟩

/-- Reflection by more than the size. -/
example : Yields (padCuda (⟨[1, 2, 3], Layout.fromShape [3]⟩ : Tensor Nat) [(3, 4)] .reflect 0)
    ⟨[2, 3, 2, 1, 2, 3, 2, 1, 2, 3], Layout.fromShape [10]⟩ := padCuda_of_cpu (by decide +kernel) (by decide)

/-- A flip of both axes. -/
example : Yields (flipCuda (⟨[1, 2, 3, 4, 5, 6], Layout.fromShape [2, 3]⟩ : Tensor Nat) [0, -1])
    ⟨[6, 5, 4, 3, 2, 1], Layout.fromShape [2, 3]⟩ := flipCuda_of_cpu (by decide +kernel) (by decide)

end Hodu.Cuda
