import Verif.Model.MetalWindow
import Verif.Props.MetalReduce
import Verif.Props.CudaWindow

/-! # Property C128: reduce_window, einsum and resize on Metal -/

namespace Hodu.Metal
open _root_.Hodu _root_.Hodu.Spec Cuda Cuda.Spec Metal.Spec

variable {α β A : Type}

/-! ## Launches with a 64-bit counter -/

theorem stride64_of_runLoop {n : Nat} {val : Nat → Res β} {zs : List β} (h : runLoop n val = .ok zs)
    {maxT : Nat} (hm : GroupSize maxT) (h0 : 0 < n) (hn : n ≤ 2 ^ 32 - 1024) :
    ∃ k, launchStride64 maxT n val = .ok k ∧
      ∀ buf, zs.length ≤ buf.length → Computes k buf (zs ++ buf.drop zs.length) := by
  obtain ⟨T, hT, h1, h2⟩ := linearSplit_ok hm.1 hm.2 h0 hn
  refine ⟨_, by rw [launchStride64, hT, Res.ok_bind], fun buf hb => ?_⟩
  have hl : zs.length = n := by simpa using (Res.mapL_ok_inv h).1
  rw [hl] at hb ⊢
  obtain ⟨_, a, b, c⟩ := launch_cells h hb
  refine computes_of a b c ?_ ⟨1, ?_⟩
  · intro i hi
    have hi' : i < n := hi
    exact ⟨i, show i < T by omega, u32_of_lt (by omega)⟩
  · intro t _
    refine ⟨1, Nat.le_refl 1, ?_⟩
    show ¬ u32 t + u32 T < n
    rw [u32_of_lt h2]
    omega

/-! ## reduce_window -/

/-- Where the accumulation is defined, the fold over the window is that of the CPU. -/
theorem window_fold {P : A → Prop} {Q : α → Prop} {step : A → Option α → Res A} {s : A → Option α → A} {inp : List α}
    {dims inStrides strides pad : List Nat} {off : Nat} {oc : List Nat} (hQ : ∀ x ∈ inp, Q x)
    (hs : ∀ a v, P a → (∀ x, v = some x → Q x) → step a v = .ok (s a v) ∧ P (s a v)) (g : Nat → List Nat) :
    ∀ (ws : List Nat) (a r : A), P a →
      Res.foldL (fun acc w => windowStep s inp dims inStrides strides pad off oc acc (g w)) a ws = .ok r →
      Res.foldL (fun acc w => windowAcc step inp dims inStrides strides pad off oc acc (g w)) a ws = .ok r
  | [], a, r, _, h => h
  | w :: ws, a, r, ha, h => by
    simp only [Res.foldL] at h ⊢
    obtain ⟨b, hb, h⟩ := Res.bind_eq_ok.mp h
    have key : windowAcc step inp dims inStrides strides pad off oc a (g w) = .ok b ∧ P b := by
      unfold windowStep at hb
      unfold windowAcc
      cases hc : cWindowPos pad 0 dims strides oc (g w) with
      | none =>
        rw [hc] at hb
        have hb' : s a none = b := Res.ok.inj hb
        rw [← hb']
        exact hs a none ha (by simp)
      | some ic =>
        rw [hc] at hb
        simp only at hb ⊢
        obtain ⟨v, hv, hb⟩ := Res.bind_eq_ok.mp (show (readC inp (cFlat off ic inStrides)).bind
          (fun v => .ok (s a (some v))) = _ from hb)
        have hb' : s a (some v) = b := Res.ok.inj hb
        rw [hv, Res.ok_bind, ← hb']
        exact hs a (some v) ha fun x hx => by
          cases hx
          exact hQ v (List.mem_of_getElem? (readC_eq_ok.mp hv))
    rw [key.1, Res.ok_bind]
    exact window_fold hQ hs g ws b r key.2 h

theorem windowLoop_of_kernel {P : A → Prop} {Q : α → Prop} {init : A} {step : A → Option α → Res A}
    {s : A → Option α → A} {fin : A → Nat → β} {inp : List α} {md : List Nat} {zs : List β}
    (hQ : ∀ x ∈ inp, Q x) (hP : P init)
    (hs : ∀ a v, P a → (∀ x, v = some x → Q x) → step a v = .ok (s a v) ∧ P (s a v))
    (h : windowKernel init s fin inp md = .ok zs) {maxT : Nat} (hm : GroupSize maxT) (h0 : 0 < zs.length)
    (hn : zs.length ≤ 2 ^ 32 - 1024) :
    ∃ k, windowLoop maxT init step fin inp md = .ok k ∧ md[0]? = some zs.length ∧
      ∀ buf, zs.length ≤ buf.length → Computes k buf (zs ++ buf.drop zs.length) := by
  unfold windowKernel at h
  obtain ⟨n, h0', h⟩ := Res.bind_eq_ok.mp h
  obtain ⟨nd, h1, h⟩ := Res.bind_eq_ok.mp h
  obtain ⟨dims, h2, h⟩ := Res.bind_eq_ok.mp h
  obtain ⟨ist, h3, h⟩ := Res.bind_eq_ok.mp h
  obtain ⟨off, h4, h⟩ := Res.bind_eq_ok.mp h
  obtain ⟨window, h5, h⟩ := Res.bind_eq_ok.mp h
  obtain ⟨strides, h6, h⟩ := Res.bind_eq_ok.mp h
  obtain ⟨pad, h7, h⟩ := Res.bind_eq_ok.mp h
  obtain ⟨out, h8, h⟩ := Res.bind_eq_ok.mp h
  have hdl : dims.length = nd := (sliceC_len h2).1
  split at h
  · cases h
  rename_i hg
  have hl : zs.length = n := by simpa using (Res.mapL_ok_inv h).1
  have hrun : runLoop n (windowVal init step fin inp dims ist window strides pad out off) = .ok zs := by
    refine runLoop_list hl fun i hi => ?_
    have := (Res.mapL_ok_inv h).2 i (by simpa using by omega) hi
    rw [List.getElem_range] at this
    unfold windowVal guard16
    rw [if_neg (by omega)]
    obtain ⟨r, hr, he⟩ := Res.bind_eq_ok.mp (show Res.bind _ (fun acc => .ok (fin acc (shapeSize window))) = _ from this)
    rw [window_fold hQ hs _ _ _ _ hP hr]
    exact he
  obtain ⟨k, hk, hc⟩ := stride_of_runLoop hrun hm (by omega) (by omega)
  refine ⟨k, ?_, by rw [readC_eq_ok.mp h0', hl], hc⟩
  rw [windowLoop, h0', Res.ok_bind, h1, Res.ok_bind, h2, Res.ok_bind, h3, Res.ok_bind, h4, Res.ok_bind,
    show 3 + 2 * nd = 2 + 2 * nd + 1 by omega, h5, Res.ok_bind, show 3 + 3 * nd = 2 + 3 * nd + 1 by omega, h6, Res.ok_bind,
    show 3 + 4 * nd = 2 + 4 * nd + 1 by omega, h7, Res.ok_bind, show 3 + 6 * nd = 2 + 6 * nd + 1 by omega, h8, Res.ok_bind,
    hk]

/-- There is always a first window. -/
theorem windowOut_pos {ds : List Nat} : ∀ {ps : List (Nat × Nat)} {ws ss out : List Nat},
    windowOut ds ps ws ss = .ok out → 0 < numel out := by
  induction ds with
  | nil =>
    intro ps ws ss out h
    have : [] = out := Res.ok.inj h
    rw [← this]; decide
  | cons d ds ih =>
    intro ps ws ss out h
    match ps, ws, ss, h with
    | (lo, hi) :: ps, w :: ws, s :: ss, h =>
      rw [windowOut] at h
      split at h
      · cases h
      split at h
      · cases h
      obtain ⟨o, ho, he⟩ := Res.bind_eq_ok.mp (show (windowOut ds ps ws ss).bind (fun o => .ok (_ :: o)) = _ from h)
      have : _ :: o = out := Res.ok.inj he
      rw [← this]
      exact Nat.mul_pos (Nat.succ_pos _) (ih ho)
    | [], _, _, h => rw [← show [] = out from Res.ok.inj h]; decide
    | _ :: _, [], _, h => rw [← show [] = out from Res.ok.inj h]; decide
    | _ :: _, _ :: _, [], h => rw [← show [] = out from Res.ok.inj h]; decide

theorem reduceWindow_storage {init : A} {s : A → Option α → A} {fin : A → Nat → β} {t : Tensor α}
    {window strides : List Nat} {pad : List (Nat × Nat)} {r : Tensor β}
    (h1 : t.reduceWindow init s fin window strides pad = .ok r) : r.storage.length = numel r.dims ∧ 0 < numel r.dims := by
  unfold Tensor.reduceWindow at h1
  split at h1
  · cases h1
  split at h1
  · cases h1
  split at h1
  · cases h1
  obtain ⟨out, ho, h1⟩ := Res.bind_eq_ok.mp h1
  obtain ⟨s, hs', h1⟩ := Res.bind_eq_ok.mp h1
  injection h1 with h1
  subst h1
  unfold windowKernel at hs'
  obtain ⟨n, h0, hs'⟩ := Res.bind_eq_ok.mp hs'
  iterate 8 obtain ⟨_, _, hs'⟩ := Res.bind_eq_ok.mp hs'
  split at hs'
  · cases hs'
  have hl : s.length = n := by simpa using (Res.mapL_ok_inv hs').1
  have hm : n = shapeSize out := by
    have := readC_eq_ok.mp h0
    simpa [windowMetadata] using this.symm
  refine ⟨?_, windowOut_pos ho⟩
  show s.length = numel out
  rw [hl, hm, shapeSize_eq]

/-- **C128, windows**: for the types with a kernel, wherever the accumulation in the element type is defined (an
invariant `P` of the accumulator, elements in `Q`), every interleaving of the threads ends with the elements the CPU loop
computes with that accumulation, whatever buffer the pool gives. -/
theorem C128_window_like_cpu {P : A → Prop} {Q : α → Prop} {op : WindowOp} {ty : DType} {init : A}
    {step : A → Option α → Res A} {s : A → Option α → A} {fin : A → Nat → β} {t : Tensor α}
    {window strides : List Nat} {pad : List (Nat × Nat)} {r : Tensor β} (hty : ty ∈ windowTypes op)
    (hQ : ∀ x ∈ t.storage, Q x) (hP : P init)
    (hs : ∀ a v, P a → (∀ x, v = some x → Q x) → step a v = .ok (s a v) ∧ P (s a v))
    (h : t.reduceWindow init s fin window strides pad = .ok r) {maxT : Nat} (hm : GroupSize maxT)
    (hn : numel r.dims ≤ 2 ^ 32 - 1024) :
    Delivers (reduceWindowMetal maxT op ty init step fin t window strides pad) r := by
  obtain ⟨hst, h0⟩ := reduceWindow_storage h
  rw [← hst] at h0 hn
  unfold Tensor.reduceWindow at h
  split at h
  · cases h
  rename_i g1
  split at h
  · cases h
  rename_i g2
  split at h
  · cases h
  rename_i g3
  obtain ⟨out, ho, h⟩ := Res.bind_eq_ok.mp h
  obtain ⟨z, hz, h⟩ := Res.bind_eq_ok.mp h
  injection h with h
  subst h
  obtain ⟨k, hk, hm', hc⟩ := windowLoop_of_kernel hQ hP hs hz hm h0 hn
  have hsz : z.length = shapeSize out := by
    have : (windowMetadata t.layout window strides (flatPad pad) out)[0]? = some (shapeSize out) := by
      simp [windowMetadata]
    rw [this] at hm'
    injection hm' with hm'
    exact hm'.symm
  refine ⟨rfl, k, ?_, hc⟩
  unfold reduceWindowMetal
  rw [if_neg g1, if_neg g2, if_neg g3, ho, Res.ok_bind, if_neg (by simpa using hty), hk, Res.ok_bind]
  show Res.ok (Launched.mk k (shapeSize out) out) = _
  rw [← hsz]
  rfl

/-- **C128, windows, by the elements** (rank at most 16, at most `2 ^ 32 - 1024` outputs): for every layout and every
accumulation that is defined, one element per position at which the window fits, the accumulation in row-major order of
the elements of the padded input. -/
theorem C128_window_partial {op : WindowOp} {ty : DType} {t : Tensor α} {window strides : List Nat}
    {pad : List (Nat × Nat)} (init : A) (s : A → Option α → A) (fin : A → Nat → β) (hty : ty ∈ windowTypes op)
    (ht : t.WF) (hr : t.dims.length ≤ 16) (hw : window.length = t.dims.length) (hs : strides.length = t.dims.length)
    (hp : pad.length = t.dims.length) (hf : WindowFits t.dims pad window strides) {maxT : Nat} (hm : GroupSize maxT)
    (hn : ∀ d, WindowCount t.dims pad window strides d → numel d ≤ 2 ^ 32 - 1024) :
    ∃ r : Tensor β, Delivers (reduceWindowMetal maxT op ty init (fun a v => .ok (s a v)) fin t window strides pad) r ∧
      r.WF ∧ WindowCount t.dims pad window strides r.dims ∧
      ∀ o, InRange o r.dims → r.elem o = some (fin ((indices window).foldl (fun acc w =>
        s acc ((unpad t.dims pad (windowAt strides o w)).bind t.elem)) init) (numel window)) := by
  obtain ⟨r, h1, h2, h3, h4, h5⟩ := C83_fold_partial init s fin ht hr hw hs hp hf
  exact ⟨r, C128_window_like_cpu (P := fun _ => True) (Q := fun _ => True) hty (fun _ _ => trivial) trivial
    (fun _ _ _ _ => ⟨rfl, trivial⟩) h1 hm (hn _ h4), h2, h4, h5⟩

/-! ### Integers -/

open IntOps in
theorem foldl_conv_add {γ : Type} {ty : Ty} (ht : ty.Std) (g : γ → Option Int) : ∀ (L : List γ) (a : Int), ty.Holds a →
    L.foldl (fun acc x => accStep (fun p q => ty.conv (p + q)) 0 acc (g x)) a =
      ty.conv (a + lsum L fun x => (g x).getD 0)
  | [], a, ha => by simp [lsum, conv_of_holds ht ha]
  | x :: L, a, ha => by
    rw [List.foldl_cons, foldl_conv_add ht g L (accStep (fun p q => ty.conv (p + q)) 0 a (g x)) (conv_holds ht _)]
    simp only [accStep, lsum, List.map_cons, List.sum_cons, ← Int.add_assoc]
    exact conv_congr ((conv_modEq ty _).add_right _)

open IntOps in
/-- **C128, integer sums** (types without undefined overflow; rank at most 16, at most `2 ^ 32 - 1024` outputs): every
element is the sum of the input elements in its window, reduced to the type. -/
theorem C128_int_sum_partial {ity : Ty} (hstd : ity.Std) (hov : ity.signed = false ∨ ity.bits < 32) {ty : DType}
    (hty : ty ∈ windowTypes .sum) {t : Tensor Int} {X : List Nat → Int} {window strides : List Nat}
    {pad : List (Nat × Nat)} (ht : t.WF) (hv : ∀ x ∈ t.storage, ity.Holds x) (hx : Reads t X)
    (hr : t.dims.length ≤ 16) (hw : window.length = t.dims.length) (hs : strides.length = t.dims.length)
    (hp : pad.length = t.dims.length) (hf : WindowFits t.dims pad window strides) {maxT : Nat} (hm : GroupSize maxT)
    (hn : ∀ d, WindowCount t.dims pad window strides d → numel d ≤ 2 ^ 32 - 1024) :
    ∃ r, Delivers (reduceWindowMetal maxT .sum ty (windowInit ity .sum) (windowIntStep ity .sum) (fun a _ => a) t window
        strides pad) r ∧ r.WF ∧ WindowCount t.dims pad window strides r.dims ∧
      ∀ o, InRange o r.dims → r.elem o = some (ity.conv (lsum (indices t.dims) fun idx =>
        if InWindow pad strides window o idx then X idx else 0)) := by
  have hz : ity.Holds 0 := by
    obtain ⟨s, b⟩ := ity
    rcases hstd with h1 | h1 | h1 | h1 <;> simp only at h1 <;> subst h1 <;> cases s <;> decide
  obtain ⟨r, h1, h2, h3, h4, h5⟩ := C83_fold_partial (0 : Int) (accStep (fun p q => ity.conv (p + q)) 0) (fun a _ => a)
    ht hr hw hs hp hf
  refine ⟨r, C128_window_like_cpu (P := ity.Holds) (Q := ity.Holds) hty hv hz (fun a v ha hq => ?_) h1 hm (hn _ h4), h2, h4, fun o ho => ?_⟩
  · have hq' : ity.Holds (v.getD 0) := by
      cases v with
      | none => exact hz
      | some x => exact hq x rfl
    exact ⟨(C122_reduced_partial hstd ha hq' hov).1, conv_holds hstd _⟩
  · have hol : o.length = t.dims.length := by rw [ho.length, h4.length hs]
    rw [h5 o ho, foldl_conv_add hstd _ _ _ hz, zero_add, ← sum_window hp hs hw hol X]
    congr 2
    exact sum_congr' fun w _ => unpad_getD hx pad _

open IntOps in
/-- **C128, integer maxima** (rank at most 16, at most `2 ^ 32 - 1024` outputs): every element is the largest input element
in its window, the smallest value of the type for a window in the padding. -/
theorem C128_int_max_partial {ity : Ty} {ty : DType} (hty : ty ∈ windowTypes .max) {t : Tensor Int}
    {X : List Nat → Int} {window strides : List Nat} {pad : List (Nat × Nat)} (ht : t.WF)
    (hx : Reads t X) (hv : ∀ idx, InRange idx t.dims → ity.lo ≤ X idx) (hr : t.dims.length ≤ 16)
    (hw : window.length = t.dims.length) (hs : strides.length = t.dims.length) (hp : pad.length = t.dims.length)
    (hf : WindowFits t.dims pad window strides) {maxT : Nat} (hm : GroupSize maxT)
    (hn : ∀ d, WindowCount t.dims pad window strides d → numel d ≤ 2 ^ 32 - 1024) :
    ∃ r, Delivers (reduceWindowMetal maxT .max ty (windowInit ity .max) (windowIntStep ity .max) (fun a _ => a) t window
        strides pad) r ∧ r.WF ∧ WindowCount t.dims pad window strides r.dims ∧
      ∀ o, InRange o r.dims → ∃ v, r.elem o = some v ∧
        (∀ idx, InRange idx t.dims → InWindow pad strides window o idx → X idx ≤ v) ∧
        ((∃ idx, InRange idx t.dims ∧ InWindow pad strides window o idx) →
          ∃ idx, InRange idx t.dims ∧ InWindow pad strides window o idx ∧ X idx = v) ∧
        ((¬ ∃ idx, InRange idx t.dims ∧ InWindow pad strides window o idx) → v = ity.lo) := by
  obtain ⟨r, h1, h2, h4, h5⟩ := C83_max_partial ity.lo ht hx hv hr hw hs hp hf
  refine ⟨r, C128_window_like_cpu (P := fun _ => True) (Q := fun _ => True) hty (fun _ _ => trivial) trivial
    (fun a v _ _ => ⟨?_, trivial⟩) h1 hm (hn _ h4), h2, h4, h5⟩
  simp only [windowIntStep, windowInit, metal, cpu, accStep, cMax, gt_iff_lt, decide_eq_true_eq]

open IntOps in
/-- **C128, integer minima**. -/
theorem C128_int_min_partial {ity : Ty} {ty : DType} (hty : ty ∈ windowTypes .min) {t : Tensor Int}
    {X : List Nat → Int} {window strides : List Nat} {pad : List (Nat × Nat)} (ht : t.WF)
    (hx : Reads t X) (hv : ∀ idx, InRange idx t.dims → X idx ≤ ity.hi) (hr : t.dims.length ≤ 16)
    (hw : window.length = t.dims.length) (hs : strides.length = t.dims.length) (hp : pad.length = t.dims.length)
    (hf : WindowFits t.dims pad window strides) {maxT : Nat} (hm : GroupSize maxT)
    (hn : ∀ d, WindowCount t.dims pad window strides d → numel d ≤ 2 ^ 32 - 1024) :
    ∃ r, Delivers (reduceWindowMetal maxT .min ty (windowInit ity .min) (windowIntStep ity .min) (fun a _ => a) t window
        strides pad) r ∧ r.WF ∧ WindowCount t.dims pad window strides r.dims ∧
      ∀ o, InRange o r.dims → ∃ v, r.elem o = some v ∧
        (∀ idx, InRange idx t.dims → InWindow pad strides window o idx → v ≤ X idx) ∧
        ((∃ idx, InRange idx t.dims ∧ InWindow pad strides window o idx) →
          ∃ idx, InRange idx t.dims ∧ InWindow pad strides window o idx ∧ X idx = v) ∧
        ((¬ ∃ idx, InRange idx t.dims ∧ InWindow pad strides window o idx) → v = ity.hi) := by
  obtain ⟨r, h1, h2, h4, h5⟩ := C83_min_partial ity.hi ht hx hv hr hw hs hp hf
  refine ⟨r, C128_window_like_cpu (P := fun _ => True) (Q := fun _ => True) hty (fun _ _ => trivial) trivial
    (fun a v _ _ => ⟨?_, trivial⟩) h1 hm (hn _ h4), h2, h4, h5⟩
  simp only [windowIntStep, windowInit, metal, cpu, accStep, cMax, decide_eq_true_eq]
  congr

/-- The hypotheses hold for a 2x3 input (transposed) and windows of 2x2 with strides 1 and 2 and padding. -/
example : exSel.WF ∧ (DType.u8 ∈ windowTypes .sum) ∧ WindowFits exSel.dims [(0, 1), (1, 1)] [2, 2] [1, 2] ∧
    (∃ r, exSel.reduceWindow 0 (accStep (· + ·) 0) (fun a _ => a) [2, 2] [1, 2] [(0, 1), (1, 1)] = .ok r ∧
      numel r.dims ≤ 2 ^ 32 - 1024) ∧ GroupSize 1024 :=
  ⟨exSel_wf, by decide, ⟨by decide, by decide, trivial⟩, ⟨_, rfl, by decide⟩, by unfold GroupSize; decide⟩

/-- Sums of bytes on Metal: 200 + 100 is 44. -/
example : Delivers (reduceWindowMetal 1024 .sum .u8 (windowInit ⟨false, 8⟩ .sum) (windowIntStep ⟨false, 8⟩ .sum)
    (fun a _ => a) ⟨[200, 100, 5], Layout.fromShape [3]⟩ [2] [1] [(0, 0)]) ⟨[44, 105], Layout.fromShape [2]⟩ :=
  C128_window_like_cpu (P := IntOps.Ty.Holds ⟨false, 8⟩) (Q := IntOps.Ty.Holds ⟨false, 8⟩)
    (s := accStep (fun p q => IntOps.Ty.conv ⟨false, 8⟩ (p + q)) 0) (by decide) (by decide) (by decide)
    (fun a v ha hq => ⟨(IntOps.C122_reduced_partial (.inl rfl) ha (by
      cases v with
      | none => show IntOps.Ty.Holds _ 0; decide
      | some x => exact hq x rfl) (.inl rfl)).1, IntOps.conv_holds (.inl rfl) _⟩)
    (by decide +kernel) (by unfold GroupSize; decide) (by decide)

/-! ### Where windows fail -/

/-- **C128 is false of the types without a kernel** (`f64`, `f8`; integer means): the pipeline is not found. -/
theorem C128_window_types {op : WindowOp} {ty : DType} (maxT : Nat) (init : A) (step : A → Option α → Res A)
    (fin : A → Nat → β) {t : Tensor α} {window strides : List Nat} {pad : List (Nat × Nat)} (hty : ty ∉ windowTypes op)
    (s : A → Option α → A) (h : ∃ r, t.reduceWindow init s fin window strides pad = .ok r) :
    reduceWindowMetal maxT op ty init step fin t window strides pad = .err := by
  obtain ⟨r, h⟩ := h
  unfold Tensor.reduceWindow at h
  unfold reduceWindowMetal
  split at h
  · cases h
  split at h
  · cases h
  split at h
  · cases h
  obtain ⟨out, ho, h⟩ := Res.bind_eq_ok.mp h
  rw [if_neg (by assumption), if_neg (by assumption), if_neg (by assumption), ho, Res.ok_bind, if_pos hty]

example : DType.f64 ∉ windowTypes .max ∧ DType.i32 ∉ windowTypes .mean ∧ DType.f8e4m3 ∉ windowTypes .sum := by decide

/-- More than 16 dimensions overrun the coordinate arrays. -/
theorem C128_window_rank_ub {op : WindowOp} {ty : DType} (init : A) (step : A → Option α → Res A) (fin : A → Nat → β)
    {t : Tensor α} {window strides out : List Nat} {pad : List (Nat × Nat)} (hty : ty ∈ windowTypes op)
    (hr : 16 < t.dims.length) (hl : t.layout.strides.length = t.dims.length)
    (hw : window.length = t.dims.length) (hs : strides.length = t.dims.length) (hp : pad.length = t.dims.length)
    (ho : windowOut t.dims pad window strides = .ok out) (hol : out.length = t.dims.length) {maxT : Nat}
    (hm : GroupSize maxT) (hn : numel out ≤ 2 ^ 32 - 1024) :
    ∃ l, reduceWindowMetal maxT op ty init step fin t window strides pad = .ok l ∧
      ∀ buf : List β, l.kernel.exec buf [0] = .ub := by
  have hpl : (flatPad pad).length = 2 * t.dims.length := by rw [flatPad_length, hp]
  generalize hmd : (shapeSize out :: t.dims.length :: (t.dims ++ (t.layout.strides ++ (t.layout.offset ::
    (window ++ (strides ++ (flatPad pad ++ (out ++ [])))))))) = md
  have hmeta : windowMetadata t.layout window strides (flatPad pad) out = md := by
    rw [← hmd]; simp [windowMetadata, Layout.ndim]
  have a0 : At md 0 (shapeSize out :: t.dims.length :: (t.dims ++ (t.layout.strides ++ (t.layout.offset ::
    (window ++ (strides ++ (flatPad pad ++ (out ++ [])))))))) := by rw [hmd]; exact At.start md
  have a1 := a0.next 1 rfl
  have a2 := a1.next 2 rfl
  have a3 := a2.skip rfl (2 + t.dims.length) rfl
  have a4 := a3.skip hl (2 + 2 * t.dims.length) (by omega)
  have a5 := a4.next (3 + 2 * t.dims.length) (by omega)
  have a6 := a5.skip hw (3 + 3 * t.dims.length) (by omega)
  have a7 := a6.skip hs (3 + 4 * t.dims.length) (by omega)
  have a8 := a7.skip hpl (3 + 6 * t.dims.length) (by omega)
  have hpos := windowOut_pos ho
  obtain ⟨T, hT, h1, h2⟩ := linearSplit_ok hm.1 hm.2 (by rwa [shapeSize_eq]) (by rwa [shapeSize_eq] : shapeSize out ≤ _)
  refine ⟨⟨strideGrid T (shapeSize out) (windowVal init step fin t.storage t.dims t.layout.strides window strides
    (flatPad pad) out t.layout.offset) fun i => i, shapeSize out, out⟩, ?_, fun buf => ?_⟩
  · unfold reduceWindowMetal
    rw [if_neg (by simpa using hw), if_neg (by simpa using hs), if_neg (by simpa using hp), ho, Res.ok_bind,
      if_neg (by simpa using hty), hmeta]
    unfold windowLoop
    rw [a0.read, Res.ok_bind, a1.read, Res.ok_bind, a2.slice rfl, Res.ok_bind, a3.slice hl, Res.ok_bind, a4.read,
      Res.ok_bind, a5.slice hw, Res.ok_bind, a6.slice hs, Res.ok_bind, a7.slice hpl, Res.ok_bind, a8.slice hol,
      Res.ok_bind, launchStride, hT, Res.ok_bind, Res.ok_bind]
  · apply strideGrid_ub h1 h2 (by rwa [shapeSize_eq])
    unfold windowVal guard16
    rw [if_pos hr]

example : 16 < (List.replicate 17 1).length ∧
    windowOut (List.replicate 17 1) (List.replicate 17 (0, 0)) (List.replicate 17 1) (List.replicate 17 1) =
      .ok (List.replicate 17 1) ∧ 0 < numel (List.replicate 17 1) := by decide

/-! ## einsum -/

theorem callEinsumMetal_of_cpu {ty : DType} (hty : ty ∈ einsumTypes) {zero one : A} {add mul : A → A → A} {ld : α → A}
    {st : A → β} {bufs : List (List α)} {layouts : List Layout} {p : ParsedEinsum} {r : Tensor β}
    (h : callEinsum zero one add mul ld st bufs layouts p = .ok r) {maxT : Nat} (hm : GroupSize maxT)
    (hn : r.storage.length ≤ 2 ^ 32 - 1024) :
    Delivers (callEinsumMetal maxT ty zero one add mul ld st bufs layouts p) r := by
  unfold callEinsum at h
  obtain ⟨out, ho, h⟩ := Res.bind_eq_ok.mp h
  obtain ⟨md, hmd, h⟩ := Res.bind_eq_ok.mp h
  obtain ⟨zs, hz, h⟩ := Res.bind_eq_ok.mp h
  injection h with h
  subst h
  have hm0 : md[0]? = some (max (shapeSize out) 1) := by
    have hm' := hmd
    unfold einsumMetadata at hm'
    iterate 4 obtain ⟨_, _, hm'⟩ := Res.bind_eq_ok.mp hm'
    injection hm' with hm'
    rw [← hm']; rfl
  have hl := einsumKernel_length hz hm0
  have hz' := hz
  unfold einsumKernel at hz'
  obtain ⟨m, hp, hz'⟩ := Res.bind_eq_ok.mp hz'
  obtain ⟨cs, hc, hz'⟩ := Res.bind_eq_ok.mp hz'
  simp only at hz'
  split at hz'
  · cases hz'
  have hlz : zs.length = m.numOut := by simpa using (Res.mapL_ok_inv hz').1
  have hpos : 0 < m.numOut := by
    have := einsumParse_numOut hp
    rw [hm0] at this
    injection this with this
    omega
  obtain ⟨k, hk, hck⟩ := once_of_runLoop hz' hm hpos (by have hn' : zs.length ≤ 2 ^ 32 - 1024 := hn; omega)
  refine ⟨rfl, k, ?_, hck⟩
  unfold callEinsumMetal einsumLoop
  rw [ho, Res.ok_bind, hmd, Res.ok_bind, if_neg (by simpa using hty), hp, Res.ok_bind, hc, Res.ok_bind]
  show (launchOnce maxT m.numOut (einsumVal zero one add mul ld st bufs m cs)).bind _ = _
  have hk' : launchOnce maxT m.numOut (einsumVal zero one add mul ld st bufs m cs) = .ok k := hk
  rw [hk', Res.ok_bind, hl]
  rfl

/-- **C128, einsum**: every interleaving of the threads ends with what the CPU computes with the arithmetic of the
element type. -/
theorem C128_einsum_like_cpu {ty : DType} (hty : ty ∈ einsumTypes) {zero one : A} {add mul : A → A → A} {ld : α → A}
    {st : A → β} {eq : List Char} {ts : List (Tensor α)} {r : Tensor β}
    (h : Tensor.einsum zero one add mul ld st eq ts = .ok r) {maxT : Nat} (hm : GroupSize maxT)
    (hn : r.storage.length ≤ 2 ^ 32 - 1024) : Delivers (einsumMetal maxT ty zero one add mul ld st eq ts) r := by
  unfold Tensor.einsum at h
  split at h
  · cases h
  split at h
  · cases h
  obtain ⟨p, hp, h⟩ := Res.bind_eq_ok.mp h
  have := callEinsumMetal_of_cpu hty h hm hn
  unfold einsumMetal
  rw [if_neg (by assumption), if_neg (by assumption), hp, Res.ok_bind]
  exact this

/-- **C128, einsum, by the elements**, for a call with the layouts of all operands (at most 4 operands, rank and labels
at most 16, no empty output): the sum over the summed labels of the products.  Missing: `Tensor::einsum` itself, which
hands over the wrong layouts (`C128_einsum_false`). -/
theorem C128_einsum_partial {ty : DType} (hty : ty ∈ einsumTypes) (zero one : A) (add mul : A → A → A) (ld : α → A)
    (st : A → β) {eq : List Char} {ts : List (Tensor α)} {p : ParsedEinsum}
    (hp : ParsedEinsum.parse eq (ts.map (·.dims)) = .ok p) (hw : ∀ t ∈ ts, t.WF) (h4 : ts.length ≤ 4)
    (hrank : ∀ t ∈ ts, t.dims.length ≤ 16) (hall : p.all.length ≤ 16) (hout : p.output.length ≤ 16)
    (hne : ∀ c ∈ p.output, ¬ LabelSize p.inputs (ts.map (·.dims)) c 0) {maxT : Nat} (hm : GroupSize maxT)
    (hn : ∀ out, p.outputShape = .ok out → numel out ≤ 2 ^ 32 - 1024) :
    ∃ (r : Tensor β) (cdims : List Nat),
      Delivers (callEinsumMetal maxT ty zero one add mul ld st (ts.map (·.storage)) (ts.map (·.layout)) p) r ∧ r.WF ∧
      p.outputShape = .ok r.dims ∧ cdims.length = p.contraction.length ∧
      (∀ (j : Nat) (c : Char), p.contraction[j]? = some c →
        ∃ n, cdims[j]? = some n ∧ LabelSize p.inputs (ts.map (·.dims)) c n) ∧
      ∀ o, InRange o r.dims → ∃ X : List Nat → List α,
        (∀ c, InRange c cdims → (ts.zip p.inputs).map (fun q =>
          q.1.elem (q.2.map (labelValue p.output o p.contraction c))) = (X c).map some) ∧
        r.elem o = some (st (((allIndices cdims).map fun c =>
          (X c).foldl (fun a x => mul a (ld x)) one).foldl add zero)) := by
  obtain ⟨r, cdims, h1, h2, h3, h5⟩ := C27_kernel_partial zero one add mul ld st hp hw h4 hrank hall hout hne
  refine ⟨r, cdims, callEinsumMetal_of_cpu hty h1 hm ?_, h2, h3, h5⟩
  have hlen : r.storage.length = numel r.dims := by
    have h1' := h1
    unfold callEinsum at h1'
    obtain ⟨out, ho, h1'⟩ := Res.bind_eq_ok.mp h1'
    obtain ⟨md, hm, h1'⟩ := Res.bind_eq_ok.mp h1'
    obtain ⟨zs, hz, h1'⟩ := Res.bind_eq_ok.mp h1'
    injection h1' with h1'
    subst h1'
    have hm0 : md[0]? = some (max (shapeSize out) 1) := by
      unfold einsumMetadata at hm
      iterate 4 obtain ⟨_, _, hm⟩ := Res.bind_eq_ok.mp hm
      injection hm with hm
      rw [← hm]; rfl
    show zs.length = numel out
    rw [← einsumKernel_length hz hm0, shapeSize_eq]
  rw [hlen]
  exact hn _ h3

/-- **C128 is false of `Tensor::einsum`** as on the CPU: the dot product of `[1, 2]` and `[3, 4]` comes out as 3. -/
theorem C128_einsum_false :
    Delivers (einsumMetal 1024 .i32 (0 : Int) 1 (· + ·) (· * ·) id id "i,i->".toList
      [⟨[1, 2], Layout.fromShape [2]⟩, ⟨[3, 4], Layout.fromShape [2]⟩]) ⟨[3], Layout.fromShape []⟩ :=
  C128_einsum_like_cpu (by decide) C27_dot_wrong (by unfold GroupSize; decide) (by decide)

/-- An output without elements: the metadata says one element, whose thread divides by the size 0. -/
theorem C128_einsum_empty_ub :
    ∃ l, callEinsumMetal 1024 .f32 (0 : Int) 1 (· + ·) (· * ·) id id [[]] [Layout.fromShape [0]]
        ⟨[['i']], ['i'], [], ['i'], [('i', 0)]⟩ = .ok l ∧ l.len = 0 ∧ l.kernel.exec [] [0] = .ub ∧
      ParsedEinsum.parse "i->i".toList [[0]] = .ok ⟨[['i']], ['i'], [], ['i'], [('i', 0)]⟩ := by
  refine ⟨_, rfl, rfl, rfl, by decide +kernel⟩

/-- Products of matrices of booleans or doubles have no kernel. -/
theorem C128_einsum_types {ty : DType} (hty : ty ∉ einsumTypes) (maxT : Nat) (zero one : A) (add mul : A → A → A)
    (ld : α → A) (st : A → β) (eq : List Char) (ts : List (Tensor α))
    (h : ∃ r, Tensor.einsum zero one add mul ld st eq ts = .ok r) :
    einsumMetal maxT ty zero one add mul ld st eq ts = .err := by
  obtain ⟨r, h⟩ := h
  unfold Tensor.einsum at h
  unfold einsumMetal
  split at h
  · cases h
  split at h
  · cases h
  obtain ⟨p, hp, h⟩ := Res.bind_eq_ok.mp h
  unfold callEinsum at h
  obtain ⟨out, ho, h⟩ := Res.bind_eq_ok.mp h
  obtain ⟨md, hmd, h⟩ := Res.bind_eq_ok.mp h
  rw [if_neg (by assumption), if_neg (by assumption), hp, Res.ok_bind]
  unfold callEinsumMetal
  rw [ho, Res.ok_bind, hmd, Res.ok_bind, if_pos hty]

/-- The hypotheses of `C128_einsum_like_cpu` hold for two matrices. -/
example : DType.u8 ∈ einsumTypes ∧ DType.f64 ∉ einsumTypes ∧ ∃ r, Tensor.einsum (0 : Int) 1 (· + ·) (· * ·) id id
    "ij,jk->ik".toList [⟨[1, 2, 3, 4], Layout.fromShape [2, 2]⟩, ⟨[5, 6, 7, 8], Layout.fromShape [2, 2]⟩] = .ok r ∧
      r.storage.length ≤ 2 ^ 32 - 1024 := ⟨by decide, by decide, _, rfl, by decide⟩

/-! ## resize -/

theorem coordAxes_cpu (fl : ℚ → ℚ) (co : Nat) (ns ss ms os : List Nat) :
    coordAxes (transformCoord fl) co ns ss ms os = resizeAxes fl co ns ss ms os := by
  induction ns generalizing ss ms os with
  | nil => rfl
  | cons n ns ih =>
    match ss, ms, os with
    | s :: ss, m :: ms, o :: os => rw [coordAxes, resizeAxes, ih]
    | [], _, _ => rfl
    | _ :: _, [], _ => rfl
    | _ :: _, _ :: _, [] => rfl

theorem coordAxes_same {tc : Nat → Nat → Nat → Nat → ℚ} {fl : ℚ → ℚ} (htc : ∀ co n o, tc co n n o = fl o) (co : Nat)
    (ns ss os : List Nat) : coordAxes tc co ns ss ns os = resizeAxes fl co ns ss ns os := by
  induction ns generalizing ss os with
  | nil => rfl
  | cons n ns ih =>
    match ss, os with
    | s :: ss, o :: os =>
      rw [coordAxes, resizeAxes, ih, htc]
      simp [transformCoord]
    | [], _ => rfl
    | _ :: _, [] => rfl

theorem coordAxes_size (tc : Nat → Nat → Nat → Nat → ℚ) (code : Nat) {ns ss ms os : List Nat}
    (h1 : ss.length = ns.length) (h2 : ms.length = ns.length) (h3 : os.length = ns.length) :
    (coordAxes tc code ns ss ms os).map (·.size) = ns ∧ (coordAxes tc code ns ss ms os).map (·.stride) = ss := by
  induction ns generalizing ss ms os with
  | nil =>
    have : ss = [] := List.eq_nil_of_length_eq_zero h1
    subst this; simp [coordAxes]
  | cons n ns ih =>
    match ss, ms, os, h1, h2, h3 with
    | s :: ss, m :: ms, o :: os, h1, h2, h3 =>
      have := ih (ss := ss) (ms := ms) (os := os) (by simpa using h1) (by simpa using h2) (by simpa using h3)
      simp [coordAxes, this.1, this.2]

theorem resizeLoop_meta (maxT : Nat) (tc : Nat → Nat → Nat → Nat → ℚ) (lin cub : ℚ → List A → A) (fl : ℚ → ℚ)
    (ld : α → A) (st : A → α) (inp : List α) {l : Layout} (hl : l.strides.length = l.dims.length) {out : List Nat}
    (ho : out.length = l.dims.length) (mode coord nearest : Nat) :
    resizeLoop maxT tc lin cub fl ld st inp (resizeMetadata l out mode coord nearest) =
      launchStride64 maxT (numel out) (resizeVal tc lin cub fl ld st inp l.dims l.strides out l.offset mode coord
        nearest) := by
  have e : resizeMetadata l out mode coord nearest = numel out :: l.dims.length :: (l.dims ++ (l.strides ++ (l.offset ::
      (out ++ [mode, coord, nearest])))) := by
    simp [resizeMetadata, Layout.ndim, shapeSize_eq]
  rw [e]
  generalize hmd : (numel out :: l.dims.length :: (l.dims ++ (l.strides ++ (l.offset :: (out ++
    [mode, coord, nearest]))))) = md
  have a0 : At md 0 (numel out :: l.dims.length :: (l.dims ++ (l.strides ++ (l.offset :: (out ++
    [mode, coord, nearest]))))) := by rw [hmd]; exact At.start md
  have a1 := a0.next 1 rfl
  have a2 := a1.next 2 rfl
  have a3 := a2.skip rfl (2 + l.dims.length) rfl
  have a4 := a3.skip hl (2 + 2 * l.dims.length) (by omega)
  have a5 := a4.next (3 + 2 * l.dims.length) (by omega)
  have a6 := a5.skip ho (3 + 3 * l.dims.length) (by omega)
  have a7 := a6.next (4 + 3 * l.dims.length) (by omega)
  have a8 := a7.next (5 + 3 * l.dims.length) (by omega)
  unfold resizeLoop
  rw [a0.read, Res.ok_bind, a1.read, Res.ok_bind, a2.slice rfl, Res.ok_bind, a3.slice hl, Res.ok_bind, a4.read,
    Res.ok_bind, a5.slice ho, Res.ok_bind, a6.read, Res.ok_bind, a7.read, Res.ok_bind, a8.read, Res.ok_bind]

/-- From the elements to the launch. -/
theorem resizeMetal_of_loop {ty : DType} (hty : ty ∈ resizeTypes) {tc : Nat → Nat → Nat → Nat → ℚ}
    {lin cub : ℚ → List A → A} {fl : ℚ → ℚ} {ld : α → A} {st : A → α} {t : Tensor α} {B C : Nat}
    {ns ms : List Nat} {mo : ResizeMode} {co : ResizeCoord} {ne : ResizeNearest} (ht : t.WF) (hd : t.dims = B :: C :: ns)
    (hr : ns.length = 2 ∨ ns.length = 3) (hms : ms.length = ns.length) {zs : List α}
    (h : runLoop (numel (B :: C :: ms)) (resizeVal tc lin cub fl ld st t.storage t.dims t.layout.strides (B :: C :: ms)
      t.layout.offset mo.code co.code ne.code) = .ok zs) {maxT : Nat} (hm : GroupSize maxT) (h0 : 0 < zs.length)
    (hn : zs.length ≤ 2 ^ 32 - 1024) :
    Delivers (resizeMetal maxT ty tc lin cub fl ld st t ms mo co ne) ⟨zs, Layout.fromShape (B :: C :: ms)⟩ := by
  have hl : zs.length = numel (B :: C :: ms) := by simpa using (Res.mapL_ok_inv h).1
  obtain ⟨k, hk, hc⟩ := stride64_of_runLoop h hm (by omega) (by omega)
  refine ⟨rfl, k, ?_, hc⟩
  unfold resizeMetal
  rw [if_neg (by rw [hd]; simp; omega), if_neg (by rw [hd]; simp; omega), if_neg (by simpa using hty)]
  simp only [hd, List.getD_cons_zero, List.getD_cons_succ]
  rw [resizeLoop_meta maxT tc lin cub fl ld st t.storage ht.1 (by show _ = t.dims.length; rw [hd]; simp [hms]),
    show t.layout.dims = t.dims from rfl, hk, Res.ok_bind, shapeSize_eq, ← hl]
  rfl

/-- Where the coordinates agree, Metal computes what the CPU computes. -/
theorem resizeMetal_of_cpu {ty : DType} (hty : ty ∈ resizeTypes) {tc : Nat → Nat → Nat → Nat → ℚ} {R : ResizeArith A}
    {fl : ℚ → ℚ} {ld : α → A} {st : A → α} {t r : Tensor α} {B C : Nat} {ns ms : List Nat} {mo : ResizeMode}
    {co : ResizeCoord} {ne : ResizeNearest} (ht : t.WF) (hd : t.dims = B :: C :: ns)
    (hr : ns.length = 2 ∨ ns.length = 3) (hms : ms.length = ns.length)
    (h : t.resize R fl ld st ms mo co ne = .ok r)
    (hax : ∀ ss os, coordAxes tc co.code ns ss ms os = resizeAxes fl co.code ns ss ms os) {maxT : Nat}
    (hm : GroupSize maxT) (h0 : 0 < numel r.dims) (hn : numel r.dims ≤ 2 ^ 32 - 1024) :
    Delivers (resizeMetal maxT ty tc (R.lerp fl) R.cubic fl ld st t ms mo co ne) r := by
  unfold Tensor.resize at h
  rw [if_neg (by rw [hd]; simp; omega), if_neg (by rw [hd]; simp; omega)] at h
  simp only [hd, List.getD_cons_zero, List.getD_cons_succ] at h
  obtain ⟨zs, hz, h⟩ := Res.bind_eq_ok.mp h
  injection h with h
  subst h
  rw [C55_resize R fl ld st t.storage ht.1 (by show _ = t.dims.length; rw [hd]; simp [hms])] at hz
  have hl : zs.length = numel (B :: C :: ms) := by simpa using (Res.mapL_ok_inv hz).1
  have hn' : numel (B :: C :: ms) ≤ 2 ^ 32 - 1024 := hn
  have h0' : 0 < numel (B :: C :: ms) := h0
  apply resizeMetal_of_loop hty ht hd hr hms _ hm (by omega) (by omega)
  rw [← hz]
  congr 1
  funext k
  unfold resizeVal resizeCell
  have e : t.layout.dims = t.dims := rfl
  rw [e, if_neg (by rw [hd]; simp; omega)]
  simp only [hd, List.drop_succ_cons, List.drop_zero, hax]

/-- **C128, resize** with the coordinates of the CPU (which fast math does not promise): what the CPU computes, whatever
the rounding and the interpolation. -/
theorem C128_resize_like_cpu {ty : DType} (hty : ty ∈ resizeTypes) {R : ResizeArith A} {fl : ℚ → ℚ} {ld : α → A}
    {st : A → α} {t r : Tensor α} {B C : Nat} {ns ms : List Nat} {mo : ResizeMode} {co : ResizeCoord}
    {ne : ResizeNearest} (ht : t.WF) (hd : t.dims = B :: C :: ns) (hr : ns.length = 2 ∨ ns.length = 3)
    (hms : ms.length = ns.length) (h : t.resize R fl ld st ms mo co ne = .ok r) {maxT : Nat} (hm : GroupSize maxT)
    (h0 : 0 < numel r.dims) (hn : numel r.dims ≤ 2 ^ 32 - 1024) :
    Delivers (resizeMetal maxT ty (transformCoord fl) (R.lerp fl) R.cubic fl ld st t ms mo co ne) r :=
  resizeMetal_of_cpu hty ht hd hr hms h (fun _ _ => coordAxes_cpu _ _ _ _ _ _) hm h0 hn

/-- **C128, nearest neighbour** (exact coordinates): the element at the documented position, for every layout. -/
theorem C128_nearest_partial {ty : DType} (hty : ty ∈ resizeTypes) (R : ResizeArith A) (ld : α → A) (st : A → α)
    {t : Tensor α} {B C : Nat} {ns ms : List Nat} (co : ResizeCoord) (ne : ResizeNearest) (ht : t.WF)
    (hd : t.dims = B :: C :: ns) (hr : ns.length = 2 ∨ ns.length = 3) (hms : ms.length = ns.length)
    (hns : ∀ n ∈ ns, 0 < n) {maxT : Nat} (hm : GroupSize maxT) (h0 : 0 < numel (B :: C :: ms))
    (hsz : numel (B :: C :: ms) ≤ 2 ^ 32 - 1024) :
    ∃ r, Delivers (resizeMetal maxT ty (transformCoord id) (R.lerp id) R.cubic id ld st t ms .nearest co ne) r ∧ r.WF ∧
      r.dims = B :: C :: ms ∧
      ∀ b c os, b < B → c < C → InRange os ms →
        ∃ ks, NearestSrc co ne ns ms os ks ∧ r.elem (b :: c :: os) = t.elem (b :: c :: ks) := by
  obtain ⟨r, h1, h2, h3, h4⟩ := C93_nearest_partial R ld st co ne ht hd hr hms hns
  exact ⟨r, C128_resize_like_cpu hty ht hd hr hms h1 hm (by rw [h3]; exact h0) (by rw [h3]; exact hsz), h2, h3, h4⟩

/-- **C128, linear interpolation** (exact arithmetic). -/
theorem C128_linear_partial {ty : DType} (hty : ty ∈ resizeTypes) (ld : α → ℝ) (st : ℝ → α) {t : Tensor α} {B C : Nat}
    {ns ms : List Nat} (co : ResizeCoord) (ne : ResizeNearest) (ht : t.WF) (hd : t.dims = B :: C :: ns)
    (hr : ns.length = 2 ∨ ns.length = 3) (hms : ms.length = ns.length) (hns : ∀ n ∈ ns, 0 < n) {maxT : Nat}
    (hm : GroupSize maxT) (h0 : 0 < numel (B :: C :: ms)) (hsz : numel (B :: C :: ms) ≤ 2 ^ 32 - 1024)
    (G : List Nat → α) (hG : ∀ idx, InRange idx t.dims → t.elem idx = some (G idx)) :
    ∃ r, Delivers (resizeMetal maxT ty (transformCoord id) (realArith.lerp id) realArith.cubic id ld st t ms .linear co ne)
        r ∧ r.WF ∧ r.dims = B :: C :: ms ∧
      ∀ b c os, b < B → c < C → InRange os ms → ∃ v, r.elem (b :: c :: os) = some (st v) ∧
        Interp OnLine (srcCoords co ns ms os) (fun ks => ld (G (b :: c :: clampAll ns ks))) v := by
  obtain ⟨r, h1, h2, h3, h4⟩ := C93_linear_partial ld st co ne ht hd hr hms hns G hG
  exact ⟨r, C128_resize_like_cpu hty ht hd hr hms h1 hm (by rw [h3]; exact h0) (by rw [h3]; exact hsz), h2, h3, h4⟩

/-- **C128, cubic interpolation** of images (exact arithmetic). -/
theorem C128_cubic_partial {ty : DType} (hty : ty ∈ resizeTypes) (ld : α → ℝ) (st : ℝ → α) {t : Tensor α}
    {B C H W : Nat} {ms : List Nat} (co : ResizeCoord) (ne : ResizeNearest) (ht : t.WF) (hd : t.dims = [B, C, H, W])
    (hms : ms.length = 2) (hH : 0 < H) (hW : 0 < W) {maxT : Nat} (hm : GroupSize maxT)
    (h0 : 0 < numel (B :: C :: ms)) (hsz : numel (B :: C :: ms) ≤ 2 ^ 32 - 1024)
    (G : List Nat → α) (hG : ∀ idx, InRange idx t.dims → t.elem idx = some (G idx)) :
    ∃ r, Delivers (resizeMetal maxT ty (transformCoord id) (realArith.lerp id) realArith.cubic id ld st t ms .cubic co ne)
        r ∧ r.WF ∧ r.dims = B :: C :: ms ∧
      ∀ b c os, b < B → c < C → InRange os ms → ∃ v, r.elem (b :: c :: os) = some (st v) ∧
        Interp OnSpline (srcCoords co [H, W] ms os) (fun ks => ld (G (b :: c :: clampAll [H, W] ks))) v := by
  obtain ⟨r, h1, h2, h3, h4⟩ := C93_cubic_partial ld st co ne ht hd hms hH hW G hG
  exact ⟨r, C128_resize_like_cpu hty ht hd (Or.inl rfl) hms h1 hm (by rw [h3]; exact h0) (by rw [h3]; exact hsz), h2, h3,
    h4⟩

/-- **C128, the same size**: resizing to the same size with the nearest neighbour is the identity, whatever fast math
makes of the other coordinates. -/
theorem C128_same_nearest {ty : DType} (hty : ty ∈ resizeTypes) (R : ResizeArith A) {fl : ℚ → ℚ}
    (hfl : ∀ k : Nat, k < 2 ^ 24 → fl k = k) {tc : Nat → Nat → Nat → Nat → ℚ} (htc : ∀ co n o, tc co n n o = fl o)
    (ld : α → A) (st : A → α) {t : Tensor α} {B C : Nat} {ns : List Nat} (co : ResizeCoord) (ne : ResizeNearest)
    (ht : t.WF) (hd : t.dims = B :: C :: ns) (hr : ns.length = 2 ∨ ns.length = 3)
    (hns : ∀ n ∈ ns, 0 < n ∧ n ≤ 2 ^ 24) {maxT : Nat} (hm : GroupSize maxT) (h0 : 0 < numel t.dims)
    (hsz : numel t.dims ≤ 2 ^ 32 - 1024) :
    ∃ r, Delivers (resizeMetal maxT ty tc (R.lerp fl) R.cubic fl ld st t ns .nearest co ne) r ∧ r.WF ∧
      r.dims = t.dims ∧ ∀ idx, InRange idx t.dims → r.elem idx = t.elem idx := by
  obtain ⟨r, h1, h2, h3, h4⟩ := C93_same_nearest R hfl ld st co ne ht hd hr hns
  exact ⟨r, resizeMetal_of_cpu hty ht hd hr rfl h1 (fun _ _ => coordAxes_same htc _ _ _ _) hm (by rw [h3]; exact h0)
    (by rw [h3]; exact hsz), h2, h3, h4⟩

/-- **C128, resize is safe**: whatever fast math makes of the coordinates and of the interpolation, no access leaves the
input, the shape is the documented one and the result does not depend on the interleaving, if the input is not empty in a
spatial dimension and these are small enough for a `float`. -/
theorem C128_resize_safe {ty : DType} (hty : ty ∈ resizeTypes) (tc : Nat → Nat → Nat → Nat → ℚ)
    (lin cub : ℚ → List A → A) {fl : ℚ → ℚ} (hfl : ∀ k : Nat, k < 2 ^ 24 → fl k = k) (ld : α → A)
    (st : A → α) {t : Tensor α} {B C : Nat} {ns ms : List Nat} (mo : ResizeMode) (co : ResizeCoord) (ne : ResizeNearest)
    (ht : t.WF) (hd : t.dims = B :: C :: ns) (hr : ns.length = 2 ∨ ns.length = 3) (hms : ms.length = ns.length)
    (hns : ∀ n ∈ ns, 0 < n ∧ n ≤ 2 ^ 24) {maxT : Nat} (hm : GroupSize maxT) (h0 : 0 < numel (B :: C :: ms))
    (hsz : numel (B :: C :: ms) ≤ 2 ^ 32 - 1024) :
    ∃ r, Delivers (resizeMetal maxT ty tc lin cub fl ld st t ms mo co ne) r ∧ r.WF ∧ r.dims = B :: C :: ms := by
  obtain ⟨sB, sC, ss, hs, hsl⟩ := strides_split ht hd
  obtain ⟨zs, hz, hzl, _⟩ := runLoop_elem (out := B :: C :: ms)
    (val := resizeVal tc lin cub fl ld st t.storage t.dims t.layout.strides (B :: C :: ms) t.layout.offset mo.code co.code
      ne.code) (by
      intro idx hi
      match idx, hi with
      | b :: c :: os, hi =>
        obtain ⟨hb, hc, ho⟩ := hi
        have hsz := coordAxes_size tc co.code hsl hms ((inRange_length' ho).trans hms)
        generalize hax : coordAxes tc co.code ns ss ms os = axes at hsz
        have hmem : ∀ a ∈ axes, 0 < a.size ∧ a.size ≤ 2 ^ 24 := by
          intro a ha
          apply hns
          rw [← hsz.1]
          exact List.mem_map_of_mem ha
        have hint : ∀ (comb : ℚ → List A → A) (offs : List Int), ∃ a, interpAt fl ld comb offs t.storage
            axes (t.layout.offset + b * sB + c * sC) = .ok a := by
          intro comb offs
          have hk0 : InRange (axes.map fun a => roundNearest fl 0 a.size a.coord) ns := by
            have := nearest_inRange hfl 0 axes hmem
            rwa [hsz.1] at this
          obtain ⟨v0, _, _⟩ := read_source ht hd hs hb hc hk0
          refine ⟨_, interpAt_ok fl ld comb offs t.storage _ _ (fun ks => (t.elem (b :: c :: ks)).getD v0)
            (fun a ha => (hmem a ha).1) ?_⟩
          intro ks hk
          rw [hsz.1] at hk
          rw [hsz.2]
          obtain ⟨v, hv, hv'⟩ := read_source ht hd hs hb hc hk
          rw [hv', hv]; rfl
        unfold resizeVal
        have hu : (cUnravel (B :: C :: ms) (rowMajor (B :: C :: ms) (b :: c :: os))).1 = b :: c :: os :=
          cUnravel_rowMajor ⟨hb, hc, ho⟩
        rw [hu, hd, hs, if_neg (by simp; omega)]
        simp only [List.getD_cons_zero, List.getD_cons_succ, List.drop_succ_cons, List.drop_zero, hax]
        split
        · exact Res.map_ok_exists (hint _ _)
        · split
          · exact Res.map_ok_exists (hint _ _)
          · have hk := nearest_inRange hfl ne.code axes hmem
            rw [hsz.1] at hk
            obtain ⟨v, _, hv⟩ := read_source ht hd hs hb hc hk
            refine ⟨v, ?_⟩
            rw [nearestAt_dot, hsz.2]
            exact hv)
  refine ⟨⟨zs, Layout.fromShape (B :: C :: ms)⟩, resizeMetal_of_loop hty ht hd hr hms hz hm (by omega)
    (by rw [hzl]; exact hsz), fresh_wf hzl.symm, rfl⟩

/-- **C128 is false of an empty result**: the CPU returns an empty image, the launch on Metal divides by zero. -/
theorem C128_resize_empty (tc : Nat → Nat → Nat → Nat → ℚ) (maxT : Nat) :
    exRow.resize natArith id id id [0, 2] .nearest .halfPixel .floor = .ok ⟨[], Layout.fromShape [1, 1, 0, 2]⟩ ∧
    resizeMetal maxT .f32 tc (natArith.lerp id) natArith.cubic id id id exRow [0, 2] .nearest .halfPixel .floor =
      .panic := by
  refine ⟨by decide +kernel, ?_⟩
  unfold resizeMetal
  rw [if_neg (by decide), if_neg (by decide), if_neg (by decide)]
  show (resizeLoop maxT tc (natArith.lerp id) natArith.cubic id id id exRow.storage
    (resizeMetadata exRow.layout [1, 1, 0, 2] _ _ _)).bind _ = _
  rw [resizeLoop_meta _ _ _ _ _ _ _ _ (by decide) (by decide), launchStride64,
    show numel [1, 1, 0, 2] = 0 from by decide, linearSplit_zero]
  rfl

/-- The CPU resizes `f64`, Metal has no kernel for it. -/
theorem C128_resize_types {ty : DType} (hty : ty ∉ resizeTypes) (maxT : Nat) (tc : Nat → Nat → Nat → Nat → ℚ)
    (lin cub : ℚ → List A → A) (fl : ℚ → ℚ) (ld : α → A) (st : A → α) (t : Tensor α) (outs : List Nat)
    (mo : ResizeMode) (co : ResizeCoord) (ne : ResizeNearest) :
    resizeMetal maxT ty tc lin cub fl ld st t outs mo co ne = .err := by
  unfold resizeMetal
  split
  · rfl
  split
  · rfl
  · rfl

/-- The hypotheses of the theorems on resizing hold for the image of C113 and its enlargement. -/
example : exRow.WF ∧ exRow.dims = 1 :: 1 :: [1, 2] ∧ (∀ n ∈ [1, 2], 0 < n ∧ n ≤ 2 ^ 24) ∧
    0 < numel (1 :: 1 :: [1, 6]) ∧ numel (1 :: 1 :: [1, 6]) ≤ 2 ^ 32 - 1024 ∧ (∀ k : Nat, k < 2 ^ 24 → fl32 k = k) ∧
    DType.f16 ∈ resizeTypes ∧ DType.f64 ∉ resizeTypes ∧ (∀ co n o, transformCoord fl32 co n n o = fl32 o) :=
  ⟨fresh_wf (by decide), rfl, by decide, by decide, by decide, fl32_nat, by decide, by decide,
    fun _ _ _ => by simp [transformCoord]⟩

end Hodu.Metal
