import Verif.Model.MetalMove
import Verif.Props.MetalGrid
import Verif.Props.MetalQueue
import Verif.Props.CudaMove

/-! # Property C123: concat, split, flip and pad on Metal -/

namespace Hodu.Metal
open _root_.Hodu _root_.Hodu.Spec Cuda Cuda.Spec

variable {α β : Type}

/-- A group size the device can have. -/
def Spec.GroupSize (maxT : Nat) : Prop := 0 < maxT ∧ maxT ≤ 1024

/-- The launch fills a buffer with the elements of the contiguous tensor `r`: whatever buffer of at least
that size the pool gives, every interleaving of the threads ends with the elements of `r` at its start and
the rest as it was. -/
def Spec.Delivers (l : Res (Launched α)) (r : Tensor α) : Prop :=
  r.layout = Layout.fromShape r.dims ∧
    ∃ k, l = .ok ⟨k, r.storage.length, r.dims⟩ ∧
      ∀ buf, r.storage.length ≤ buf.length → Computes k buf (r.storage ++ buf.drop r.storage.length)

open Metal.Spec

/-- A launch fills in one tensor only. -/
theorem delivers_unique {l : Res (Launched α)} {r r' : Tensor α} (h : Delivers l r) (h' : Delivers l r') : r = r' := by
  obtain ⟨a, k, e, c⟩ := h
  obtain ⟨a', k', e', c'⟩ := h'
  rw [e] at e'
  injection e' with e'
  injection e' with h1 h2 h3
  subst h1
  have hs : r.storage = r'.storage := by
    have := Computes.unique (c r.storage (le_refl _)) (c' r.storage (by omega)) fun B => exists_fair B k.threads
    rw [List.drop_eq_nil_of_le (le_refl _), List.drop_eq_nil_of_le (by omega), List.append_nil,
      List.append_nil] at this
    exact this
  cases r
  cases r'
  simp only at hs a a' h3
  subst hs
  rw [a, a', h3]

/-- Reading the filled buffer is reading the tensor. -/
theorem delivers_elem {r : Tensor α} (hr : r.WF) (tail : List α) {idx : List Nat} (hi : InRange idx r.dims) :
    (⟨r.storage ++ tail, r.layout⟩ : Tensor α).elem idx = r.elem idx := by
  have h := hr.2 idx hi
  obtain ⟨x, hx⟩ := Option.isSome_iff_exists.mp h
  have hx' : r.storage[r.layout.offset + dot idx r.layout.strides]? = some x := hx
  rw [hx]
  show (r.storage ++ tail)[r.layout.offset + dot idx r.layout.strides]? = some x
  rw [List.getElem?_append_left (by
    by_contra hc
    rw [List.getElem?_eq_none (by omega)] at hx'
    cases hx')]
  exact hx'

/-! ## Launches -/

theorem launch_cells {n : Nat} {val : Nat → Res β} {zs buf : List β} (h : runLoop n val = .ok zs)
    (hb : n ≤ buf.length) :
    zs.length = n ∧ (zs ++ buf.drop n).length = buf.length ∧
    (∀ i, i < n → i < buf.length ∧ ∃ v, val i = .ok v ∧ (zs ++ buf.drop n)[i]? = some v) ∧
    ∀ a : Nat, (∀ i, i < n → i ≠ a) → (zs ++ buf.drop n)[a]? = buf[a]? := by
  obtain ⟨hl, hv⟩ := Res.mapL_ok_inv h
  have hl' : zs.length = n := by simpa using hl
  refine ⟨hl', by simp; omega, fun i hi => ⟨by omega, zs[i]'(by omega), ?_, ?_⟩, fun a ha => ?_⟩
  · have := hv i (by simpa using hi) (by omega)
    simpa using this
  · rw [List.getElem?_append_left (by omega)]
    simp
  · have : n ≤ a := by
      by_contra hc
      exact ha a (by omega) rfl
    rw [List.getElem?_append_right (by omega), List.getElem?_drop]
    congr 1
    omega

/-- What a sequential loop computes, the grid-stride launch computes under every schedule. -/
theorem stride_of_runLoop {n : Nat} {val : Nat → Res β} {zs : List β} (h : runLoop n val = .ok zs)
    {maxT : Nat} (hm : GroupSize maxT) (h0 : 0 < n) (hn : n ≤ 2 ^ 32 - 1024) :
    ∃ k, launchStride maxT n val = .ok k ∧
      ∀ buf, zs.length ≤ buf.length → Computes k buf (zs ++ buf.drop zs.length) := by
  obtain ⟨T, hT, h1, h2⟩ := linearSplit_ok hm.1 hm.2 h0 hn
  refine ⟨_, by rw [launchStride, hT, Res.ok_bind], fun buf hb => ?_⟩
  have hl : zs.length = n := by simpa using (Res.mapL_ok_inv h).1
  rw [hl] at hb ⊢
  obtain ⟨_, a, b, c⟩ := launch_cells h hb
  exact strideGrid_computes h1 h2 a b c

theorem once_of_runLoop {n : Nat} {val : Nat → Res β} {zs : List β} (h : runLoop n val = .ok zs)
    {maxT : Nat} (hm : GroupSize maxT) (h0 : 0 < n) (hn : n ≤ 2 ^ 32 - 1024) :
    ∃ k, launchOnce maxT n val = .ok k ∧
      ∀ buf, zs.length ≤ buf.length → Computes k buf (zs ++ buf.drop zs.length) := by
  obtain ⟨T, hT, h1, h2⟩ := linearSplit_ok hm.1 hm.2 h0 hn
  refine ⟨_, by rw [launchOnce, hT, Res.ok_bind], fun buf hb => ?_⟩
  have hl : zs.length = n := by simpa using (Res.mapL_ok_inv h).1
  rw [hl] at hb ⊢
  obtain ⟨_, a, b, c⟩ := launch_cells h hb
  exact onceGrid_computes h1 h2 a b c

/-- The two launches fail without elements. -/
theorem launch_empty (maxT : Nat) (val : Nat → Res β) :
    launchStride maxT 0 val = .panic ∧ launchOnce maxT 0 val = .panic := by
  constructor
  · rw [launchStride, linearSplit_zero]; rfl
  · rw [launchOnce, linearSplit_zero]; rfl

/-! ## Against the CPU kernels -/

theorem concatLoop_of_kernel {inp : List α} {md : List Nat} {zs : List α} (h : concatKernel inp md = .ok zs)
    {maxT : Nat} (hm : GroupSize maxT) (h0 : 0 < zs.length) (hn : zs.length ≤ 2 ^ 32 - 1024) :
    ∃ k, concatLoop maxT inp md = .ok k ∧
      ∀ buf, zs.length ≤ buf.length → Computes k buf (zs ++ buf.drop zs.length) := by
  unfold concatKernel at h
  obtain ⟨m, hm', h⟩ := Res.bind_eq_ok.mp h
  have hl : zs.length = m.numEls := by simpa using (Res.mapL_ok_inv h).1
  obtain ⟨k, hk, hc⟩ := stride_of_runLoop h hm (by omega) (by omega)
  exact ⟨k, by rw [concatLoop, hm', Res.ok_bind, hk], hc⟩

theorem splitLoop_of_kernel {inp : List α} {md : List Nat} {zs : List α} (h : splitKernel inp md = .ok zs)
    {maxT : Nat} (hm : GroupSize maxT) (h0 : 0 < zs.length) (hn : zs.length ≤ 2 ^ 32 - 1024) :
    ∃ k, splitLoop maxT inp md = .ok k ∧
      ∀ buf, zs.length ≤ buf.length → Computes k buf (zs ++ buf.drop zs.length) := by
  unfold splitKernel at h
  obtain ⟨m, hm', h⟩ := Res.bind_eq_ok.mp h
  have hg : ∀ {γ : Type} (x : Res γ), guard16 m.nd x = x := by
    intro γ x
    unfold guard16 at h ⊢
    split at h
    · cases h
    · rw [if_neg (by assumption)]
  rw [hg] at h
  have hl : zs.length = m.numEls := by simpa using (Res.mapL_ok_inv h).1
  obtain ⟨k, hk, hc⟩ := stride_of_runLoop h hm (by omega) (by omega)
  refine ⟨k, ?_, hc⟩
  rw [splitLoop, hm', Res.ok_bind]
  simp only [hg]
  exact hk

theorem flipLoop_of_kernel {inp : List α} {md : List Nat} {zs : List α} (h : flipKernel inp md = .ok zs)
    {maxT : Nat} (hm : GroupSize maxT) (hp : 0 < zs.length) (hn : zs.length ≤ 2 ^ 32 - 1024) :
    ∃ k, flipLoop maxT inp md = .ok k ∧
      ∀ buf, zs.length ≤ buf.length → Computes k buf (zs ++ buf.drop zs.length) := by
  unfold flipKernel at h
  obtain ⟨n, h0, h⟩ := Res.bind_eq_ok.mp h
  obtain ⟨nd, h1, h⟩ := Res.bind_eq_ok.mp h
  obtain ⟨shape, h2, h⟩ := Res.bind_eq_ok.mp h
  obtain ⟨mask, h3, h⟩ := Res.bind_eq_ok.mp h
  have hl : zs.length = n := by simpa using (Res.mapL_ok_inv h).1
  obtain ⟨k, hk, hc⟩ := once_of_runLoop h hm (by omega) (by omega)
  exact ⟨k, by rw [flipLoop, h0, Res.ok_bind, h1, Res.ok_bind, h2, Res.ok_bind, h3, Res.ok_bind, hk], hc⟩

theorem padLoop_of_kernel {mode : PadMode} {pv : α} {inp : List α} {md : List Nat} {zs : List α}
    (h : padKernel mode pv inp md = .ok zs) {maxT : Nat} (hm : GroupSize maxT) (hp : 0 < zs.length)
    (hn : zs.length ≤ 2 ^ 32 - 1024) :
    ∃ k, padLoop maxT mode pv inp md = .ok k ∧
      ∀ buf, zs.length ≤ buf.length → Computes k buf (zs ++ buf.drop zs.length) := by
  unfold padKernel at h
  obtain ⟨n, h0, h⟩ := Res.bind_eq_ok.mp h
  obtain ⟨nd, h1, h⟩ := Res.bind_eq_ok.mp h
  obtain ⟨shape, h2, h⟩ := Res.bind_eq_ok.mp h
  obtain ⟨out, h3, h⟩ := Res.bind_eq_ok.mp h
  obtain ⟨before, h4, h⟩ := Res.bind_eq_ok.mp h
  have hl : zs.length = n := by
    cases mode <;> simpa using (Res.mapL_ok_inv h).1
  cases mode <;>
  · obtain ⟨k, hk, hc⟩ := once_of_runLoop h hm (by omega) (by omega)
    refine ⟨k, ?_, hc⟩
    rw [padLoop, h0, Res.ok_bind, h1, Res.ok_bind, h2, Res.ok_bind, h3, Res.ok_bind, h4, Res.ok_bind]
    exact hk

/-- **C123, against the CPU kernels**: whenever the sequential kernel gives 1 to `2 ^ 32 - 1024` results,
every interleaving of the threads, with every group size, ends with the same results at the start of the buffer. -/
theorem C123_like_cpu {inp : List α} {md : List Nat} {zs : List α} {maxT : Nat} (hm : GroupSize maxT)
    (h0 : 0 < zs.length) (hn : zs.length ≤ 2 ^ 32 - 1024) :
    (concatKernel inp md = .ok zs → ∃ k, concatLoop maxT inp md = .ok k ∧
      ∀ buf, zs.length ≤ buf.length → Computes k buf (zs ++ buf.drop zs.length)) ∧
    (splitKernel inp md = .ok zs → ∃ k, splitLoop maxT inp md = .ok k ∧
      ∀ buf, zs.length ≤ buf.length → Computes k buf (zs ++ buf.drop zs.length)) ∧
    (flipKernel inp md = .ok zs → ∃ k, flipLoop maxT inp md = .ok k ∧
      ∀ buf, zs.length ≤ buf.length → Computes k buf (zs ++ buf.drop zs.length)) ∧
    (∀ mode pv, padKernel mode pv inp md = .ok zs → ∃ k, padLoop maxT mode pv inp md = .ok k ∧
      ∀ buf, zs.length ≤ buf.length → Computes k buf (zs ++ buf.drop zs.length)) :=
  ⟨fun h => concatLoop_of_kernel h hm h0 hn, fun h => splitLoop_of_kernel h hm h0 hn,
    fun h => flipLoop_of_kernel h hm h0 hn, fun _ _ h => padLoop_of_kernel h hm h0 hn⟩

/-! ## The operations -/

theorem concatMetal_of_cpu {maxT : Nat} (hm : GroupSize maxT) {dt : DType} (hdt : dt ∈ kernelTypes)
    {ts : List (Tensor α)} {d : Int} {r : Tensor α} (h : Tensor.concat ts d = .ok r)
    (h0 : 0 < r.storage.length) (hn : r.storage.length ≤ 2 ^ 32 - 1024) :
    Delivers (concatMetal maxT dt ts d) r := by
  cases ts with
  | nil => cases h
  | cons t rest =>
    simp only [Tensor.concat] at h
    obtain ⟨out, ho, h⟩ := Res.bind_eq_ok.mp h
    obtain ⟨s, hs, h⟩ := Res.bind_eq_ok.mp h
    injection h with h
    subst h
    simp only [callOpsConcat] at hs
    split at hs
    · cases hs
    · rename_i hc
      obtain ⟨k, hk, hcomp⟩ := concatLoop_of_kernel hs hm h0 hn
      obtain ⟨_, _, hz, _⟩ := Cuda.concatLoop_of_kernel hs (by simp only at hn; omega)
      refine ⟨rfl, k, ?_, hcomp⟩
      simp only [concatMetal]
      rw [ho, Res.ok_bind, if_neg hc, if_neg (by simpa using hdt), hk, Res.ok_bind]
      have : shapeSize (concatBackendDims (axisUsize t.dims.length d) t.dims
          ((t :: rest).map (·.layout))) = s.length := by
        simpa [concatMetadata] using hz
      rw [this]
      rfl

/-- **C123, concat**: under every interleaving concat yields the concatenation, provided every operand but the last is
in a buffer of exactly its size.  Missing: operands in larger buffers (`C123_concat_padding`), rank above 16,
empty results, types without kernels. -/
theorem C123_concat_partial {maxT : Nat} (hm : GroupSize maxT) {dt : DType} (hdt : dt ∈ kernelTypes)
    {ts : List (Tensor α)} {t : Tensor α} {d : Int} {k : Nat}
    (ht : ts.head? = some t) (hw : ∀ u ∈ ts, u.WF) (hax : IsAxis t.dims.length d k)
    (hr : t.dims.length ≤ 16) (hj : ∀ u ∈ ts, Joinable k t.dims u.dims)
    (hs : ∀ i (hi : i < ts.length), i + 1 < ts.length → ts[i].storage.length = numel ts[i].dims)
    (h0 : 0 < numel (t.dims.set k (startOf k (ts.map (·.dims)) ts.length)))
    (hn : numel (t.dims.set k (startOf k (ts.map (·.dims)) ts.length)) ≤ 2 ^ 32 - 1024) :
    ∃ r, Delivers (concatMetal maxT dt ts d) r ∧ r.WF ∧ IsConcat k ts r := by
  obtain ⟨r, h1, h2, h3, _, h5⟩ := C16_concat_partial ht hw hax hr hj hs
  have e := h5.1 t ht
  exact ⟨r, concatMetal_of_cpu hm hdt h1 (by rw [h3, e]; exact h0) (by rw [h3, e]; exact hn), h2, h5⟩

/-! ### Pooled buffers -/

/-- A new pooled buffer is larger than asked for unless the size is a power of two (or odd). -/
theorem bufSize_gt {s : Nat} (he : s % 2 = 0) (h0 : 0 < s) (hp : ∀ k, s ≠ 2 ^ k) : s < bufSize s := by
  have h1 : s ≤ bufSize s := by
    by_contra hc
    obtain ⟨k, hk⟩ := bufSize_lt s (by omega)
    cases k with
    | zero => exact hp 1 (by simpa using hk)
    | succ k => rw [Nat.pow_succ] at hk; omega
  have h2 : ∃ k, bufSize s = 2 ^ k := by
    unfold bufSize nextPow2
    split
    · exact ⟨0, rfl⟩
    · exact ⟨_, rfl⟩
  obtain ⟨k, hk⟩ := h2
  have := hp k
  omega

/-- **C123, what concat does with larger buffers**: two vectors of `n` and `m` elements in buffers `A` and `B` give
the first `n + m` elements of `A` followed by `B`. -/
theorem C123_concat_buffers {maxT : Nat} (hm : GroupSize maxT) {dt : DType} (hdt : dt ∈ kernelTypes)
    {A B : List α} {n m : Nat} (hA : n ≤ A.length) (hB : m ≤ B.length) (h0 : 0 < n + m)
    (hn : n + m ≤ 2 ^ 32 - 1024) :
    Delivers (concatMetal maxT dt [⟨A, Layout.fromShape [n]⟩, ⟨B, Layout.fromShape [m]⟩] 0)
      ⟨(A ++ B).take (n + m), Layout.fromShape [n + m]⟩ := by
  have hlen : ∀ {C : List α} {c : Nat}, c ≤ C.length → (⟨C, Layout.fromShape [c]⟩ : Tensor α).WF := by
    intro C c hc
    refine ⟨rfl, fun idx hi => ?_⟩
    match idx, hi with
    | [a], hi =>
      have ha : a < c := hi.1
      have : (⟨C, Layout.fromShape [c]⟩ : Tensor α).elem [a] = C[a]? := by
        show C[0 + (a * 1 + 0)]? = _
        simp
      rw [this, List.getElem?_eq_getElem (by omega)]
      rfl
  have hel : ∀ (C : List α) (c a : Nat), (⟨C, Layout.fromShape [c]⟩ : Tensor α).elem [a] = C[a]? := by
    intro C c a
    show C[0 + (a * 1 + 0)]? = _
    simp
  let t' : Tensor α := ⟨(A ++ B).take n, Layout.fromShape [n]⟩
  let u' : Tensor α := ⟨(A ++ B).drop n, Layout.fromShape [m]⟩
  have hwt : t'.WF := hlen (by simp; omega)
  have hwu : u'.WF := hlen (by simp; omega)
  obtain ⟨r, h1, h2, h3, h4, h5⟩ := C16_concat_partial (ts := [t', u']) (t := t') (d := 0) (k := 0) rfl
    (by
      intro u hu
      simp only [List.mem_cons, List.not_mem_nil, or_false] at hu
      rcases hu with rfl | rfl
      · exact hwt
      · exact hwu)
    ⟨by show 0 < [n].length; simp, Or.inl rfl⟩ (by show [n].length ≤ 16; simp)
    (by
      intro u hu
      simp only [List.mem_cons, List.not_mem_nil, or_false] at hu
      rcases hu with rfl | rfl
      · exact ⟨rfl, fun _ _ => rfl⟩
      · refine ⟨rfl, fun i hi => ?_⟩
        cases i with
        | zero => exact absurd rfl hi
        | succ i => rfl)
    (by
      intro i hi hlt
      simp only [List.length_cons, List.length_nil] at hlt
      have : i = 0 := by omega
      subst this
      show ((A ++ B).take n).length = numel [n]
      simp [numel]
      omega)
  have hd : r.dims = [n + m] := by
    rw [h5.1 t' rfl]
    simp [startOf, t', u', Tensor.dims, Layout.fromShape]
  have hrl : r.layout = Layout.fromShape [n + m] := by rw [h4, hd]
  have hlenr : r.storage.length = n + m := by rw [h3, hd]; simp [numel]
  have hre : ∀ a : Nat, r.elem [a] = r.storage[a]? := by
    intro a
    obtain ⟨S, L⟩ := r
    simp only at hrl
    subst hrl
    exact hel S (n + m) a
  have hst : r.storage = (A ++ B).take (n + m) := by
    apply List.ext_getElem?
    intro a
    rcases Nat.lt_or_ge a (n + m) with ha | ha
    · rw [← hre, List.getElem?_take_of_lt ha]
      rcases Nat.lt_or_ge a n with hlt | hge
      · have := h5.2 0 (by simp) [a] (by exact ⟨hlt, trivial⟩)
        have e : addAt 0 (startOf 0 ([t', u'].map (·.dims)) 0) [a] = [a] := by
          simp [addAt, startOf]
        rw [e] at this
        rw [this]
        show t'.elem [a] = _
        rw [hel, List.getElem?_take_of_lt hlt]
      · have := h5.2 1 (by simp) [a - n] (by exact ⟨by show a - n < m; omega, trivial⟩)
        have e : addAt 0 (startOf 0 ([t', u'].map (·.dims)) 1) [a - n] = [a] := by
          simp [addAt, startOf, t', Tensor.dims, Layout.fromShape]
          omega
        rw [e] at this
        rw [this]
        show u'.elem [a - n] = _
        rw [hel, List.getElem?_drop]
        congr 1
        omega
    · rw [List.getElem?_eq_none (by omega), List.getElem?_eq_none (by simp; omega)]
  have heq : Tensor.concat [⟨A, Layout.fromShape [n]⟩, ⟨B, Layout.fromShape [m]⟩] 0 = Tensor.concat [t', u'] 0 := by
    simp only [Tensor.concat, callOpsConcat, List.flatMap_cons, List.flatMap_nil, List.append_nil, t', u',
      List.take_append_drop]
    rfl
  have hr : r = ⟨(A ++ B).take (n + m), Layout.fromShape [n + m]⟩ := by
    obtain ⟨S, L⟩ := r
    simp only at hst hrl
    rw [hst, hrl]
  rw [← hr]
  exact concatMetal_of_cpu hm hdt (by rw [heq, h1]) (by omega) (by omega)

/-- **C123, concat is false of the code**: if the first vector was computed into a new pooled buffer (element size
`e`, even; total size not a power of two), the element where the second operand should start is an unused element of
that buffer, whatever the second operand is. -/
theorem C123_concat_padding {maxT : Nat} (hm : GroupSize maxT) {dt : DType} (hdt : dt ∈ kernelTypes)
    {A : List α} {n m e : Nat} (he : e % 2 = 0) (h0 : 0 < n * e) (hp : ∀ k, n * e ≠ 2 ^ k)
    (hA : A.length * e = bufSize (n * e)) (h1 : 0 < m) (hn : n + m ≤ 2 ^ 32 - 1024) :
    ∃ x, A[n]? = some x ∧ ∀ B : List α, m ≤ B.length →
      ∃ r, Delivers (concatMetal maxT dt [⟨A, Layout.fromShape [n]⟩, ⟨B, Layout.fromShape [m]⟩] 0) r ∧
        r.elem [n] = some x := by
  have hgt := bufSize_gt (s := n * e) (by rw [Nat.mul_mod, he]; simp) h0 hp
  have hlt : n < A.length := by
    by_contra hc
    have := Nat.mul_le_mul_right e (Nat.le_of_not_lt hc)
    omega
  refine ⟨A[n], by simp, fun B hB => ⟨_, C123_concat_buffers hm hdt (by omega) hB (by omega) hn, ?_⟩⟩
  show ((A ++ B).take (n + m))[0 + (n * 1 + 0)]? = _
  rw [show 0 + (n * 1 + 0) = n by omega, List.getElem?_take_of_lt (by omega), List.getElem?_append_left hlt]
  simp

/-- Three floats are in a buffer of four: the joined vector is `[1, 2, 3, 9, 4]`. -/
example : bufSize (3 * 4) = 4 * 4 ∧
    Delivers (concatMetal 256 .f32 [⟨[1, 2, 3, 9], Layout.fromShape [3]⟩, (⟨[4, 5], Layout.fromShape [2]⟩ : Tensor Nat)] 0)
      ⟨[1, 2, 3, 9, 4], Layout.fromShape [5]⟩ :=
  ⟨by decide, C123_concat_buffers ⟨by decide, by decide⟩ (by decide) (by decide) (by decide) (by decide) (by decide)⟩

/-- The hypotheses of `C123_concat_padding` with three floats. -/
example : ∃ x, [1, 2, 3, 9][3]? = some x ∧ ∀ B : List Nat, 2 ≤ B.length →
    ∃ r, Delivers (concatMetal 256 .f32 [⟨[1, 2, 3, 9], Layout.fromShape [3]⟩, ⟨B, Layout.fromShape [2]⟩] 0) r ∧
      r.elem [3] = some x := by
  refine C123_concat_padding (e := 4) ⟨by decide, by decide⟩ (by decide) (by decide) (by decide) ?_ (by decide) (by decide)
    (by decide)
  intro k h
  have h2 : k < 4 := by
    by_contra hc
    have := Nat.pow_le_pow_right (n := 2) (by decide) (Nat.le_of_not_lt hc)
    omega
  interval_cases k <;> omega

/-! ### Split -/

theorem numel_set_pos {ds : List Nat} {k d c : Nat} (hd : ds[k]? = some d) (hc : 0 < c) (h : 0 < numel ds) :
    0 < numel (ds.set k c) := by
  induction ds generalizing k with
  | nil => simp at hd
  | cons a as ih =>
    have h' : 0 < a * numel as := h
    have ha : 0 < a := Nat.pos_of_mul_pos_right h'
    have has : 0 < numel as := Nat.pos_of_mul_pos_left h'
    cases k with
    | zero => exact Nat.mul_pos hc has
    | succ k => exact Nat.mul_pos ha (ih (by simpa using hd) has)

theorem splitMetalFrom_ok {maxT : Nat} (hm : GroupSize maxT) {dt : DType} (hdt : dt ∈ kernelTypes) {t : Tensor α}
    {k d : Nat} (ht : t.WF) (hr : t.dims.length ≤ 16) (hd : t.dims[k]? = some d)
    (hn : numel t.dims ≤ 2 ^ 32 - 1024) (hz : 0 < numel t.dims) (sizes : List Nat) (hpos : ∀ s ∈ sizes, 0 < s)
    (start : Nat) (hsum : start + sizes.sum ≤ d) :
    ∃ ls ps, splitMetalFrom maxT dt t k start sizes = .ok ls ∧ List.Forall₂ (fun l r => Delivers (.ok l) r) ls ps ∧
      IsSplit k t start sizes ps ∧ ∀ p ∈ ps, p.storage.length = numel p.dims := by
  induction sizes generalizing start with
  | nil => exact ⟨[], [], rfl, .nil, ⟨rfl, fun j hj => by simp at hj⟩, by simp⟩
  | cons size sizes ih =>
    simp only [List.sum_cons] at hsum
    obtain ⟨s, h1, h2, h3⟩ := splitKernel_ok (start := start) (size := size) ht hr hd (by omega)
    obtain ⟨ls, ps, h4, h5, h6, h7⟩ := ih (fun s hs => hpos s (by simp [hs])) (start + size) (by omega)
    have hle : numel (t.dims.set k size) ≤ numel t.dims := numel_set_le hd (by omega)
    have hgt : 0 < numel (t.dims.set k size) := numel_set_pos hd (hpos size (by simp)) hz
    obtain ⟨K, hK, hcomp⟩ := splitLoop_of_kernel h1 hm (by omega) (by omega)
    have hsz : shapeSize (t.dims.set k size) = s.length := by rw [shapeSize_eq, h2]
    refine ⟨⟨K, s.length, t.dims.set k size⟩ :: ls, ⟨s, Layout.fromShape (t.dims.set k size)⟩ :: ps, ?_,
      .cons ⟨rfl, K, rfl, hcomp⟩ h5, ?_, ?_⟩
    · rw [splitMetalFrom, callSplitMetal, hd]
      simp only
      rw [if_neg (by omega), if_neg (by simpa using hdt)]
      rw [show splitLoop maxT t.storage (splitMetadata t.layout k size start (shapeSize (t.dims.set k size))) = .ok K
        from hK, Res.ok_bind, hsz, Res.ok_bind, h4]
      rfl
    · refine ⟨by simp [h6.1], ?_⟩
      intro j hj hs
      cases j with
      | zero => exact ⟨fresh_wf h2.symm, rfl, fun idx hi => by simpa using h3 idx hi⟩
      | succ j =>
        obtain ⟨h7, h8, h9⟩ := h6.2 j (by simpa using hj) (by simpa using hs)
        refine ⟨h7, h8, fun idx hi => ?_⟩
        rw [List.take_succ_cons, List.sum_cons, ← Nat.add_assoc]
        exact h9 idx hi
    · intro p hp
      rcases List.mem_cons.mp hp with rfl | hp
      · exact h2
      · exact h7 p hp

/-- **C123, split**: for a tensor with elements and any positive sizes adding up to at most the dimension the launches
deliver, under every interleaving, the consecutive ranges.  Missing: empty parts (`C123_split_empty`), sizes adding up
to less are accepted; rank above 16; types without kernels. -/
theorem C123_split_partial {maxT : Nat} (hm : GroupSize maxT) {dt : DType} (hdt : dt ∈ kernelTypes) {t : Tensor α}
    {sizes : List Nat} {dim : Int} {k d : Nat} (ht : t.WF) (hax : IsAxis t.dims.length dim k)
    (hr : t.dims.length ≤ 16) (hd : t.dims[k]? = some d) (hz : 0 < numel t.dims) (hn : numel t.dims ≤ 2 ^ 32 - 1024)
    (hpos : ∀ s ∈ sizes, 0 < s) (hsum : sizes.sum ≤ d) :
    ∃ ls ps, splitMetal maxT dt t sizes dim = .ok ls ∧ List.Forall₂ (fun l r => Delivers (.ok l) r) ls ps ∧
      IsSplit k t 0 sizes ps := by
  obtain ⟨ls, ps, h1, h2, h3, _⟩ := splitMetalFrom_ok hm hdt ht hr hd hn hz sizes hpos 0 (by omega)
  exact ⟨ls, ps, by rw [splitMetal, axisUsize_eq hax (by omega)]; exact h1, h2, h3⟩

theorem splitLoop_empty {t : Tensor α} {k d start : Nat} (ht : t.WF) (hr : t.dims.length ≤ 16)
    (hd : t.dims[k]? = some d) (hs : start ≤ d) {size : Nat} (hsz : start + size ≤ d)
    (h0 : numel (t.dims.set k size) = 0) (maxT : Nat) :
    splitLoop maxT t.storage (splitMetadata t.layout k size start (shapeSize (t.dims.set k size))) = .panic := by
  obtain ⟨s, h1, h2, _⟩ := splitKernel_ok (start := start) (size := size) ht hr hd hsz
  unfold splitKernel at h1
  obtain ⟨m, hm', h⟩ := Res.bind_eq_ok.mp h1
  have hg : guard16 m.nd = fun (x : Res (List α)) => x := by
    funext x
    unfold guard16 at h ⊢
    split at h
    · cases h
    · rw [if_neg (by assumption)]
  rw [hg] at h
  have hl : s.length = m.numEls := by simpa using (Res.mapL_ok_inv h).1
  have he : m.numEls = 0 := by rw [← hl, h2, h0]
  rw [splitLoop]
  rw [show decodeSplit (splitMetadata t.layout k size start (shapeSize (t.dims.set k size))) = .ok m from hm',
    Res.ok_bind, he]
  exact (launch_empty maxT _).1

/-- **C123, refuted for empty parts**: an empty part makes the launch divide by zero; CUDA returns an empty tensor. -/
theorem C123_split_empty (maxT : Nat) {dt : DType} (hdt : dt ∈ kernelTypes) {t : Tensor α} {sizes : List Nat}
    {dim : Int} {k d : Nat} (ht : t.WF) (hax : IsAxis t.dims.length dim k) (hr : t.dims.length ≤ 16)
    (hd : t.dims[k]? = some d) : splitMetal maxT dt t (0 :: sizes) dim = .panic := by
  have h0 : numel (t.dims.set k 0) = 0 := by
    have : ∀ (ds : List Nat) (k : Nat), k < ds.length → numel (ds.set k 0) = 0 := by
      intro ds
      induction ds with
      | nil => intro k hk; simp at hk
      | cons a as ih =>
        intro k hk
        cases k with
        | zero => show 0 * numel as = 0; simp
        | succ k =>
          show a * numel (as.set k 0) = 0
          rw [ih k (by simpa using hk), Nat.mul_zero]
    exact this _ _ hax.1
  rw [splitMetal, axisUsize_eq hax (by omega), splitMetalFrom, callSplitMetal, hd]
  simp only
  rw [if_neg (by omega), if_neg (by simpa using hdt), splitLoop_empty ht hr hd (by omega) (by omega) h0]
  rfl

/-! ### Flip and pad -/

theorem flipMetal_of_cpu {maxT : Nat} (hm : GroupSize maxT) {dt : DType} (hdt : dt ∈ kernelTypes) {t : Tensor α}
    {ds : List Int} {r : Tensor α} (h : t.flip ds = .ok r) (hp : 0 < r.storage.length)
    (hn : r.storage.length ≤ 2 ^ 32 - 1024) : Delivers (flipMetal maxT dt t ds) r := by
  have hl := flip_len h
  unfold Tensor.flip at h
  obtain ⟨s, hs, h⟩ := Res.bind_eq_ok.mp h
  injection h with h
  subst h
  obtain ⟨k, hk, hcomp⟩ := flipLoop_of_kernel hs hm hp hn
  refine ⟨rfl, k, ?_, hcomp⟩
  rw [flipMetal, if_neg (by simpa using hdt), hk, Res.ok_bind, shapeSize_eq, ← hl]
  rfl

/-- **C123, flip**: for a contiguous tensor, under every interleaving flip delivers the tensor with the axes reversed.
Missing: other strides, an offset, empty tensors, types without kernels. -/
theorem C123_flip_partial {maxT : Nat} (hm : GroupSize maxT) {dt : DType} (hdt : dt ∈ kernelTypes) {t : Tensor α}
    {ds : List Int} {K : List Nat} (ht : t.WF) (hax : List.Forall₂ (IsAxis t.dims.length) ds K)
    (hlen : t.dims.length < 2 ^ 31)
    (hc : t.layout.strides = Layout.computeStrides t.dims) (ho : t.layout.offset = 0) (h0 : 0 < numel t.dims)
    (hn : numel t.dims ≤ 2 ^ 32 - 1024) :
    ∃ r, Delivers (flipMetal maxT dt t ds) r ∧ r.WF ∧ r.dims = t.dims ∧
      ∀ idx, InRange idx t.dims → r.elem idx = t.elem (flipAxes K t.dims idx) := by
  obtain ⟨r, h1, h2, h3, h4⟩ := C19_flip_partial ht hlen hax hc ho
  have hl := flip_len h1
  exact ⟨r, flipMetal_of_cpu hm hdt h1 (by omega) (by omega), h2, by rw [Tensor.dims, h3]; rfl, h4⟩

theorem padMetal_of_cpu {maxT : Nat} (hm : GroupSize maxT) {dt : DType} (hdt : dt ∈ kernelTypes) {t : Tensor α}
    {padding : List (Nat × Nat)} {mode : PadMode} {v : α} {r : Tensor α} (h : t.pad padding mode v = .ok r)
    (h0 : 0 < r.storage.length) (hn : r.storage.length ≤ 2 ^ 32 - 1024) :
    Delivers (padMetal maxT dt t padding mode v) r := by
  have hl := pad_len h
  unfold Tensor.pad at h
  split at h
  · cases h
  · rename_i hp
    simp only at h
    obtain ⟨s, hs, h⟩ := Res.bind_eq_ok.mp h
    injection h with h
    subst h
    obtain ⟨k, hk, hcomp⟩ := padLoop_of_kernel hs hm h0 hn
    refine ⟨rfl, k, ?_, hcomp⟩
    rw [padMetal, if_neg hp, if_neg (by simpa using hdt)]
    simp only
    rw [hk, Res.ok_bind, shapeSize_eq]
    have hl' : s.length = numel (List.zipWith (fun d (p : Nat × Nat) => d + p.1 + p.2) t.dims padding) := hl
    rw [← hl']
    rfl

/-- **C123, pad**: for a contiguous tensor, in all four modes and under every interleaving pad delivers the padded
tensor.  Missing: other strides, an offset, empty dimensions (except in constant mode), empty results, types without
kernels. -/
theorem C123_pad_partial {maxT : Nat} (hm : GroupSize maxT) {dt : DType} (hdt : dt ∈ kernelTypes) {t : Tensor α}
    {padding : List (Nat × Nat)} {mode : PadMode} {v : α} (ht : t.WF)
    (hp : padding.length = t.dims.length) (hz : mode ≠ .constant → ∀ d ∈ t.dims, 0 < d)
    (hc : t.layout.strides = Layout.computeStrides t.dims) (ho : t.layout.offset = 0)
    (h0 : 0 < numel (List.zipWith (fun d p => d + p.1 + p.2) t.dims padding))
    (hn : numel (List.zipWith (fun d p => d + p.1 + p.2) t.dims padding) ≤ 2 ^ 32 - 1024) :
    ∃ r, Delivers (padMetal maxT dt t padding mode v) r ∧ r.WF ∧ IsPad mode t padding v r := by
  obtain ⟨r, h1, h2, h3⟩ := C20_pad_partial (mode := mode) (v := v) ht hp hz hc ho
  have hl := pad_len h1
  rw [h3.1] at hl
  exact ⟨r, padMetal_of_cpu hm hdt h1 (by omega) (by omega), h2, h3⟩

/-! ## What is missing -/

/-- **C123, refuted for three types**: there are no kernels for the 8-bit floats and `f64`. -/
theorem C123_types {dt : DType} (hdt : dt ∉ kernelTypes) (maxT : Nat) :
    (∀ (ts : List (Tensor α)) d l, concatMetal maxT dt ts d ≠ .ok l) ∧
    (∀ (t : Tensor α) sizes dim ls, sizes ≠ [] → splitMetal maxT dt t sizes dim ≠ .ok ls) ∧
    (∀ (t : Tensor α) ds, flipMetal maxT dt t ds = .err) ∧
    (∀ (t : Tensor α) p mode v, padMetal maxT dt t p mode v = .err) := by
  refine ⟨?_, ?_, fun t ds => ?_, fun t p mode v => ?_⟩
  · intro ts d l h
    cases ts with
    | nil => cases h
    | cons t rest =>
      simp only [concatMetal] at h
      obtain ⟨out, _, h⟩ := Res.bind_eq_ok.mp h
      split at h
      · cases h
      · rw [if_pos (by simpa using hdt)] at h
        cases h
  · intro t sizes dim ls hne h
    cases sizes with
    | nil => exact hne rfl
    | cons size sizes =>
      rw [splitMetal, splitMetalFrom] at h
      obtain ⟨l, h, _⟩ := Res.bind_eq_ok.mp h
      unfold callSplitMetal at h
      split at h
      · cases h
      · split at h
        · cases h
        · rw [if_pos (by simpa using hdt)] at h
          cases h
  · rw [flipMetal, if_pos (by simpa using hdt)]
  · unfold padMetal
    split
    · rfl
    · rw [if_pos (by simpa using hdt)]

/-- The types without kernels. -/
example : (Dispatch.allTypes.filter fun dt => !kernelTypes.contains dt) = [.f8e4m3, .f8e5m2, .f64] := by decide

/-- **C123, refuted for views and empty tensors**: flip and pad read a transposed matrix in the order of its storage;
flipping a tensor without elements divides by zero. -/
theorem C123_views_false {maxT : Nat} (hm : GroupSize maxT) :
    (let t : Tensor Nat := ⟨[1, 2, 3, 4, 5, 6], ⟨[3, 2], [1, 3], 0⟩⟩
     Delivers (flipMetal maxT .f32 t [0]) ⟨[5, 6, 3, 4, 1, 2], Layout.fromShape [3, 2]⟩ ∧ t.elem [2, 0] = some 3) ∧
    (let t : Tensor Nat := ⟨[1, 2, 3, 4, 5, 6], ⟨[3, 2], [1, 3], 0⟩⟩
     Delivers (padMetal maxT .f32 t [(0, 0), (1, 0)] .constant 0) ⟨[0, 1, 2, 0, 3, 4, 0, 5, 6], Layout.fromShape [3, 3]⟩ ∧
       t.elem [0, 1] = some 4) ∧
    flipMetal maxT .f32 (⟨[], Layout.fromShape [0]⟩ : Tensor Nat) [0] = .panic ∧
    Tensor.flip (⟨[], Layout.fromShape [0]⟩ : Tensor Nat) [0] = .ok ⟨[], Layout.fromShape [0]⟩ := by
  refine ⟨⟨flipMetal_of_cpu hm (by decide) C19_full_false.2.1 (by decide) (by decide), C19_full_false.2.2⟩,
    ⟨padMetal_of_cpu hm (by decide) C20_full_false.2.1 (by decide) (by decide), C20_full_false.2.2⟩, ?_, by decide +kernel⟩
  show (launchOnce maxT 0 _).bind _ = _
  rw [(launch_empty maxT _).2]
  rfl

/-! ## Concrete cases -/

/-- Two matrices are joined. -/
example : ∃ r, Delivers (concatMetal 1024 .u8 [⟨[1, 2], Layout.fromShape [1, 2]⟩,
      (⟨[3, 4, 5, 6], Layout.fromShape [2, 2]⟩ : Tensor Nat)] 0) r ∧ r = ⟨[1, 2, 3, 4, 5, 6], Layout.fromShape [3, 2]⟩ :=
  ⟨_, concatMetal_of_cpu ⟨by decide, by decide⟩ (by decide) (by decide +kernel) (by decide) (by decide), rfl⟩

/-- A vector is split. -/
example : ∃ ls, splitMetal 32 .f32 (⟨[0, 1, 2, 3], Layout.fromShape [4]⟩ : Tensor Nat) [1, 3] 0 = .ok ls ∧ ls.length = 2 := by
  obtain ⟨ls, ps, h1, h2, h3⟩ := C123_split_partial (maxT := 32) ⟨by decide, by decide⟩ (dt := .f32) (by decide)
    (sizes := [1, 3]) (dim := 0) (k := 0) (d := 4)
    (fresh_wf (data := [0, 1, 2, 3]) (dims := [4]) (by decide)) ⟨by decide, Or.inl rfl⟩ (by decide) rfl (by decide)
    (by decide) (by decide) (by decide)
  exact ⟨ls, h1, by rw [h2.length_eq, h3.1]; rfl⟩

/-- Reflection by more than the size. -/
example : Delivers (padMetal 256 .i64 (⟨[1, 2, 3], Layout.fromShape [3]⟩ : Tensor Nat) [(3, 4)] .reflect 0)
    ⟨[2, 3, 2, 1, 2, 3, 2, 1, 2, 3], Layout.fromShape [10]⟩ :=
  padMetal_of_cpu ⟨by decide, by decide⟩ (by decide) (by decide +kernel) (by decide) (by decide)

/-- A flip of both axes. -/
example : Delivers (flipMetal 256 .f16 (⟨[1, 2, 3, 4, 5, 6], Layout.fromShape [2, 3]⟩ : Tensor Nat) [0, -1])
    ⟨[6, 5, 4, 3, 2, 1], Layout.fromShape [2, 3]⟩ :=
  flipMetal_of_cpu ⟨by decide, by decide⟩ (by decide) (by decide +kernel) (by decide) (by decide)

end Hodu.Metal
