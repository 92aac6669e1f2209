import Verif.Model.MetalScan
import Verif.Props.CudaScan
import Verif.Props.MetalSelect

/-!
# C130: cumsum and topk on Metal

The kernels start a thread per element (`cumsum`) or per row (`topk`), each of which owns the cells it stores.  So the results
do not depend on the schedule, on the width of a group or on what the pooled buffers held — except where `topk` leaves cells
unwritten.
-/

namespace Hodu.Metal

open _root_.Hodu _root_.Hodu.Spec Cuda Cuda.Spec Metal.Spec

variable {α : Type}

theorem progThreads_runs {V : Type} {T n : Nat} (h1 : n ≤ T) (h2 : T < 2 ^ 32) (prog : Nat → Prog V) :
    RunsOnce (progThreads T n prog) n prog :=
  ⟨rfl, fun _ => rfl, rfl, fun t ht => by
    have : t < T := ht
    exact u32_of_lt (by omega), h1⟩

theorem cells_ge (g : Given α) {w size : Nat} (hw : 0 < w) (hs : ∀ j, w * size ≠ 2 ^ j + 1) : size ≤ g.cells w size := by
  have h1 : w * size ≤ bufSize (w * size) := by
    by_contra hc
    obtain ⟨j, hj⟩ := bufSize_lt _ (by omega : bufSize (w * size) < w * size)
    exact hs j hj
  have h2 : size ≤ bufSize (w * size) / w := by
    rw [Nat.le_div_iff_mul_le hw, Nat.mul_comm]
    exact h1
  unfold Given.cells
  omega

/-- A number of words of four bytes is never one more than a power of two. -/
theorem words4 (size j : Nat) : 4 * size ≠ 2 ^ j + 1 := by
  rcases j with _ | j
  · omega
  · rw [Nat.pow_succ]; omega

/-- C130, cumulative sums (rank at most 16, some elements, no more than a grid can count, and a buffer that is not one
byte short): for every layout, width of a group, content of the pool and schedule, the element at an index is the sum,
taken in the element type, of the source elements with the same other coordinates and a coordinate on the axis from 0 up to
the index's own. -/
theorem C130_cumsum_partial {maxT : Nat} {t : Tensor α} {dim : Int} {k n : Nat} (zero : α) (add : α → α → α)
    {dt : DType} (g : Given α) (hm : GroupSize maxT) (ht : t.WF) (hr : t.dims.length ≤ 16)
    (hk : IsAxis t.dims.length dim k) (hn : t.dims[k]? = some n) (hdt : dt ∈ scanTypes) (h0 : 0 < numel t.dims)
    (hgrid : numel t.dims ≤ 2 ^ 32 - 1024) (hbuf : ∀ j, dt.sizeInBytes * numel t.dims ≠ 2 ^ j + 1) :
    ∃ L M r, cumsumMetal maxT zero add dt g t dim = .ok L ∧ Ends L.kernel L.mem M ∧
      r = (⟨M.read bOut L.len, Layout.fromShape L.dims⟩ : Tensor α) ∧ r.dims = t.dims ∧ r.WF ∧
      ∀ idx, InRange idx t.dims → ∀ c, idx[k]? = some c → ∃ xs : List α,
        (List.range (c + 1)).map (fun s => t.elem (idx.set k s)) = xs.map some ∧
        r.elem idx = some (xs.foldl add zero) := by
  have hax : axisUsize t.dims.length dim = k := axisUsize_eq hk (by omega)
  have hkl : k < t.dims.length := hk.1
  have hsl : t.layout.strides.length = t.dims.length := ht.1
  have hsz : t.layout.size = numel t.dims := shapeSize_eq _
  obtain ⟨st, hst⟩ : ∃ st, t.layout.strides[k]? = some st :=
    ⟨_, List.getElem?_eq_getElem (by omega)⟩
  obtain ⟨T, hT, hT1, hT2⟩ := linearSplit_ok hm.1 hm.2 h0 hgrid
  generalize hmd : (t.layout.size :: t.dims.length :: (t.dims ++ (t.layout.strides ++
    [t.layout.offset, k]))) = md
  have hmeta : scanMetadata t.layout k = md := by
    rw [← hmd]; simp [scanMetadata, Layout.ndim]
  have a0 : At md 0 (t.layout.size :: t.dims.length :: (t.dims ++ (t.layout.strides ++
    [t.layout.offset, k]))) := by rw [hmd]; exact At.start md
  have a1 := a0.next 1 rfl
  have a2 := a1.next 2 rfl
  have a3 := a2.skip rfl (2 + t.dims.length) rfl
  have a4 := a3.skip hsl (2 + 2 * t.dims.length) (by omega)
  have a5 := a4.next (3 + 2 * t.dims.length) (by omega)
  have b2 : At md 2 (t.dims.take k ++ (n :: (t.dims.drop (k + 1) ++ (t.layout.strides ++
      [t.layout.offset, k])))) := by
    rw [show t.dims.take k ++ (n :: (t.dims.drop (k + 1) ++ (t.layout.strides ++ [t.layout.offset, k]))) =
      (t.dims.take k ++ n :: t.dims.drop (k + 1)) ++ (t.layout.strides ++ [t.layout.offset, k]) by simp,
      ← split_at hn]
    exact a2
  have hpl : (t.dims.take k).length = k := by simp; omega
  have b3 := b2.skip hpl (2 + k) rfl
  have c3 : At md (2 + t.dims.length) (t.layout.strides.take k ++ (st :: (t.layout.strides.drop (k + 1) ++
      [t.layout.offset, k]))) := by
    rw [show t.layout.strides.take k ++ (st :: (t.layout.strides.drop (k + 1) ++ [t.layout.offset, k])) =
      (t.layout.strides.take k ++ st :: t.layout.strides.drop (k + 1)) ++ [t.layout.offset, k] by simp,
      ← split_at hst]
    exact a3
  have hsp : (t.layout.strides.take k).length = k := by simp; omega
  have c4 := c3.skip hsp (2 + t.dims.length + k) rfl
  obtain ⟨f, hE, hf⟩ := scan_ends zero add id (g.old 0) ht hkl hn hst
  have hlines : numel (t.dims.take k) * numel (t.dims.drop (k + 1)) ≤ numel t.dims := by
    have e : numel t.dims = numel (t.dims.take k) * (n * numel (t.dims.drop (k + 1))) := by
      conv => lhs; rw [split_at hn, numel_append]
      rfl
    rw [e]
    refine Nat.mul_le_mul_left _ (Nat.le_mul_of_pos_left _ ?_)
    rw [e] at h0
    exact Nat.pos_of_mul_pos_right (Nat.pos_of_mul_pos_left h0)
  let m0 : Mem α := pooled Mem.empty bOut (g.cells dt.sizeInBytes t.layout.size) g.old
  have hw : 0 < dt.sizeInBytes := by cases dt <;> decide
  have hm0 : ∀ a, a < numel t.dims → (m0 (bOut, a)).isSome = true := by
    intro a ha
    have := cells_ge g hw hbuf
    simp only [m0, pooled, hsz, if_true, if_pos (show a < g.cells dt.sizeInBytes (numel t.dims) by omega)]
    rfl
  let L : PLaunched α :=
    { kernel := progThreads T (numel (t.dims.take k) * numel (t.dims.drop (k + 1))) (scanProg zero add id t k n st),
      mem := m0, len := t.layout.size, dims := t.dims }
  refine ⟨L, m0.out (numel t.dims) f, ⟨(List.range (numel t.dims)).map f, Layout.fromShape t.dims⟩, ?_,
    hE L.kernel m0 (progThreads_runs (by omega) hT2 _) hm0, ?_, rfl, fresh_wf (by simp), ?_⟩
  · unfold cumsumMetal cumsumKernelMetal
    rw [if_neg (by simpa using hdt), hax, hmeta, a0.read, Res.ok_bind, hsz, hT, Res.ok_bind, a1.read, Res.ok_bind,
      a2.slice rfl, Res.ok_bind, a3.slice hsl, Res.ok_bind, a4.read,
      Res.ok_bind, a5.read, Res.ok_bind, if_neg (by omega), if_neg (by omega), b2.slice hpl]
    simp only [b3.read, Res.ok_bind, c4.read, shapeSize_eq]
    simp only [L, m0, hsz, ← hmeta]
    rfl
  · show _ = (⟨(m0.out (numel t.dims) f).read bOut t.layout.size, _⟩ : Tensor α)
    rw [hsz, read_out]
  · intro idx hi c hc
    obtain ⟨xs, h1, h2⟩ := hf idx hi c hc
    refine ⟨xs, h1, ?_⟩
    rw [Layout.fromShape, elem_rowMajor, Nat.zero_add, List.getElem?_map, List.getElem?_range (rowMajor_lt hi),
      Option.map_some, h2]
    rfl

/-- A transposed 2×3 matrix along its last axis. -/
example : ∃ L M r, cumsumMetal 32 (0 : Int) (· + ·) .i32 ⟨fun _ => 77, 3⟩ exSel (-1) = .ok L ∧
    Ends L.kernel L.mem M ∧ r = (⟨M.read bOut L.len, Layout.fromShape L.dims⟩ : Tensor Int) ∧ r.elem [2, 1] = some 9 := by
  obtain ⟨L, M, r, h1, h2, h3, _, _, h4⟩ := C130_cumsum_partial (maxT := 32) (t := exSel) (dim := -1) (k := 1) (n := 2)
    (0 : Int) (· + ·) (dt := .i32) ⟨fun _ => 77, 3⟩ (by unfold GroupSize; decide)
    exSel_wf (by decide) (by unfold IsAxis; decide) rfl (by decide) (by decide) (by decide) (fun j => words4 6 j)
  obtain ⟨xs, h5, h6⟩ := h4 [2, 1] (by decide) 1 rfl
  refine ⟨L, M, r, h1, h2, h3, ?_⟩
  have : xs = [3, 6] := by
    have h7 : [some (3 : Int), some 6] = xs.map some := h5
    match xs, h7 with
    | [x, y], h7 => simp at h7; simp [h7]
  rw [h6, this]
  rfl

/-- A scalar is copied, unless its type has two bytes (see `C130_cumsum_short_false`). -/
theorem C130_cumsum_scalar {maxT : Nat} {t : Tensor α} {dt : DType} {v : α} (zero : α) (add : α → α → α) (g : Given α)
    (hm : GroupSize maxT) (hd : t.dims = []) (hsl : t.layout.strides = []) (hv : t.elem [] = some v)
    (hdt : dt ∈ scanTypes) (hw2 : dt.sizeInBytes ≠ 2) :
    ∃ L M, cumsumMetal maxT zero add dt g t 0 = .ok L ∧ Ends L.kernel L.mem M ∧ L.dims = [] ∧
      M.read bOut L.len = [v] := by
  obtain ⟨s, ⟨d, st, o⟩⟩ := t
  have hd : d = [] := hd
  have hsl : st = [] := hsl
  subst hd
  subst hsl
  have hv : s[o]? = some v := by simpa [Tensor.elem, dot] using hv
  have e : readC s o = .ok v := readC_eq_ok.mpr hv
  obtain ⟨T, hT, hT1, hT2⟩ := linearSplit_ok hm.1 hm.2 (n := 1) (by decide) (by decide)
  have hw : 0 < g.cells dt.sizeInBytes 1 := by
    have : 0 < bufSize (dt.sizeInBytes * 1) / dt.sizeInBytes := by
      revert hdt hw2; cases dt <;> decide
    unfold Given.cells
    omega
  let m0 : Mem α := pooled Mem.empty bOut (g.cells dt.sizeInBytes 1) g.old
  let L : PLaunched α :=
    { kernel := progThreads T 1 fun _ => ofWrites ((readC s o).map fun v => [((bOut, 0), v)]),
      mem := m0, len := 1, dims := [] }
  refine ⟨L, m0.out 1 fun _ => v, ?_,
    stores_once (n := 1) (cells := fun _ => [((bOut, 0), v)]) (G := fun _ => v) (m0 := m0)
      (progThreads_runs hT1 hT2 fun _ => ofWrites ((readC s o).map fun v => [((bOut, 0), v)])) ?_ ?_ ?_ ?_, rfl, ?_⟩
  · unfold cumsumMetal cumsumKernelMetal
    rw [if_neg (by simpa using hdt)]
    show ((linearSplit maxT 1).bind _).bind _ = _
    rw [hT]
    rfl
  · intro i _
    rw [e]
    rfl
  · intro i _ c hc
    rw [List.mem_singleton] at hc
    subst hc
    refine ⟨?_, rfl⟩
    simp only [m0, pooled, if_true, if_pos hw]
    rfl
  · intro i _ c hc
    rw [List.mem_singleton] at hc
    subst hc
    rfl
  · intro a ha
    obtain ⟨b, p⟩ := a
    have hne := ha 0 (by omega) _ (List.mem_singleton.mpr rfl)
    unfold Mem.out
    dsimp only
    split_ifs with h1
    · obtain ⟨rfl, h2⟩ := h1
      refine absurd ?_ hne
      rw [show p = 0 by omega]
    · rfl
  · exact read_out _ 1 _

example : ∃ L M, cumsumMetal 64 0 (· + ·) .u8 ⟨fun _ => 9, 0⟩ (⟨[4, 7], ⟨[], [], 1⟩⟩ : Tensor Int) 0 = .ok L ∧
    Ends L.kernel L.mem M ∧ L.dims = [] ∧ M.read bOut L.len = [7] :=
  C130_cumsum_scalar 0 (· + ·) ⟨fun _ => 9, 0⟩ (by unfold GroupSize; decide) rfl rfl rfl (by decide) (by decide)

/-- `bool`, `f64` and the eight-bit floats are refused, with an error; tensors without elements abort the process
instead of giving an empty result; from 17 dimensions on an array of the kernel overflows. -/
theorem C130_cumsum_fails {maxT : Nat} (zero : α) (add : α → α → α) (g : Given α) {t : Tensor α} {dim : Int}
    {dt : DType} (hsl : t.layout.strides.length = t.dims.length) :
    (dt ∉ scanTypes → cumsumMetal maxT zero add dt g t dim = .err) ∧
    (dt ∈ scanTypes → numel t.dims = 0 → cumsumMetal maxT zero add dt g t dim = .panic) ∧
    (dt ∈ scanTypes → GroupSize maxT → 0 < numel t.dims → numel t.dims ≤ 2 ^ 32 - 1024 → 16 < t.dims.length →
      cumsumMetal maxT zero add dt g t dim = .ub) := by
  have hsz : t.layout.size = numel t.dims := shapeSize_eq _
  generalize hk : axisUsize t.dims.length dim = k
  generalize hmd : (t.layout.size :: t.dims.length :: (t.dims ++ (t.layout.strides ++
    [t.layout.offset, k]))) = md
  have hmeta : scanMetadata t.layout k = md := by
    rw [← hmd]; simp [scanMetadata, Layout.ndim]
  have a0 : At md 0 (t.layout.size :: t.dims.length :: (t.dims ++ (t.layout.strides ++
    [t.layout.offset, k]))) := by rw [hmd]; exact At.start md
  have a1 := a0.next 1 rfl
  have a2 := a1.next 2 rfl
  have a3 := a2.skip rfl (2 + t.dims.length) rfl
  have a4 := a3.skip hsl (2 + 2 * t.dims.length) (by omega)
  have a5 := a4.next (3 + 2 * t.dims.length) (by omega)
  refine ⟨fun hdt => ?_, fun hdt h => ?_, fun hdt hm h0 hg h16 => ?_⟩
  · unfold cumsumMetal
    rw [if_pos (by simpa using hdt)]
  · unfold cumsumMetal cumsumKernelMetal
    rw [if_neg (by simpa using hdt), hk, hmeta, a0.read, Res.ok_bind, hsz, h, linearSplit_zero]
    rfl
  · obtain ⟨T, hT, _, _⟩ := linearSplit_ok hm.1 hm.2 h0 hg
    unfold cumsumMetal cumsumKernelMetal
    rw [if_neg (by simpa using hdt), hk, hmeta, a0.read, Res.ok_bind, hsz, hT, Res.ok_bind, a1.read, Res.ok_bind,
      a2.slice rfl, Res.ok_bind, a3.slice hsl, Res.ok_bind, a4.read,
      Res.ok_bind, a5.read, Res.ok_bind, if_neg (by omega), if_pos h16]
    rfl

example : cumsumMetal 64 0 (· + ·) .f64 ⟨fun _ => 9, 0⟩ (⟨[4, 7], Layout.fromShape [2]⟩ : Tensor Int) 0 = .err :=
  (C130_cumsum_fails 0 (· + ·) ⟨fun _ => 9, 0⟩ (t := (⟨[4, 7], Layout.fromShape [2]⟩ : Tensor Int)) rfl).1 (by decide)

example : cumsumMetal 64 0 (· + ·) .f32 ⟨fun _ => 9, 0⟩ (⟨[], Layout.fromShape [2, 0]⟩ : Tensor Int) 0 = .panic :=
  (C130_cumsum_fails 0 (· + ·) ⟨fun _ => 9, 0⟩ (t := (⟨[], Layout.fromShape [2, 0]⟩ : Tensor Int)) rfl).2.1 (by decide)
    (by decide)

/-- C130 is false for results of 2^j + 1 bytes: the buffer is a byte too short, and a thread stores behind its end.
Among these are three elements of `u8` and a single element of `f16`. -/
theorem C130_cumsum_short_false :
    (∃ (t : Tensor Int) (L : PLaunched Int), t.WF ∧ t.dims = [3] ∧
      cumsumMetal 32 0 (· + ·) .u8 ⟨fun _ => 77, 0⟩ t 0 = .ok L ∧ ∃ sched, L.kernel.exec L.mem sched = .ub) ∧
    ∃ (t : Tensor Int) (L : PLaunched Int), t.WF ∧ t.dims = [1] ∧
      cumsumMetal 32 0 (· + ·) .f16 ⟨fun _ => 77, 0⟩ t 0 = .ok L ∧ ∃ sched, L.kernel.exec L.mem sched = .ub := by
  let t : Tensor Int := ⟨[1, 2, 3], Layout.fromShape [3]⟩
  let u : Tensor Int := ⟨[1], Layout.fromShape [1]⟩
  have ht : t.WF := fresh_wf (by simp [numel])
  have hu : u.WF := fresh_wf (by simp [numel])
  exact ⟨⟨t, _, ht, rfl, rfl, [0, 0, 0, 0], by with_unfolding_all rfl⟩, ⟨u, _, hu, rfl, rfl, [0, 0], by with_unfolding_all rfl⟩⟩

/-- An axis equal to the rank is not refused: the kernel takes the stride for a size and uses an entry of its array that
nobody filled. -/
theorem C130_cumsum_axis_false : ∃ (t : Tensor Int) (L : PLaunched Int), t.WF ∧ t.dims = [2] ∧
    cumsumMetal 32 0 (· + ·) .i32 ⟨fun _ => 77, 0⟩ t 1 = .ok L ∧ ∃ sched, L.kernel.exec L.mem sched = .ub := by
  let t : Tensor Int := ⟨[1, 2], Layout.fromShape [2]⟩
  have ht : t.WF := fresh_wf (by simp [numel])
  exact ⟨t, _, ht, rfl, rfl, [0, 0], by with_unfolding_all rfl⟩

/-! ## topk -/

/-- What the kernel computes for contiguous tensors and the last dimension, for every width of a group, content of the pool and
schedule: the best among the first 64 elements of a row, best first whether or not sorting was asked for, as they are after
conversion to `float` and back; the outputs from the 64th on keep what an earlier tensor left in the buffers. -/
theorem C130_topk_rows {K : Type} [LinearOrder K] {maxT : Nat} {key : α → K} {back : K → Res α} {dt : DType} {t : Tensor α}
    {ds : List Nat} {n k : Nat} {dim : Int} {largest : Bool} (gv : Given α) (gi : Given Nat) (hm : GroupSize maxT)
    (ht : t.WF) (hd : t.dims = ds ++ [n]) (hr : t.dims.length < 2 ^ 31) (hk : IsAxis t.dims.length dim ds.length)
    (hc : t.layout.strides = Layout.computeStrides t.dims) (hk0 : 0 < k) (hkn : k ≤ n) (hdt : dt ∈ scanTypes)
    (h0 : 0 < numel ds) (hgrid : numel ds ≤ 2 ^ 32 - 1024)
    (hbuf : ∀ j, dt.sizeInBytes * (k * numel ds) ≠ 2 ^ j + 1) {rd : α → α}
    (hb : ∀ idx x, InRange idx t.dims → t.elem idx = some x → back (key x) = .ok (rd x)) (sorted : Bool) :
    ∃ run M v i, topkMetal maxT key back dt gv gi t k dim largest sorted = .ok (some run) ∧ Ends run.kernel run.mem M ∧
      run.result M = .ok (v, i) ∧ v.WF ∧ i.WF ∧ v.dims = ds ++ [k] ∧ i.dims = ds ++ [k] ∧
      ∀ p, InRange p ds → ∃ xs vals is, xs.length = min n 64 ∧ (∀ c, c < min n 64 → xs[c]? = t.elem (p ++ [c])) ∧
        (∀ c, c < min k 64 → v.elem (p ++ [c]) = vals[c]?.map rd ∧ i.elem (p ++ [c]) = is[c]?) ∧
        (∀ c, 64 ≤ c → c < k → v.elem (p ++ [c]) = some (gv.old (rowMajor ds p * k + c)) ∧
          i.elem (p ++ [c]) = some (gi.old (rowMajor ds p * k + c))) ∧
        IsTopK key largest xs (min k 64) vals is ∧ InOrder key largest vals := by
  have hax : axisUsize t.dims.length dim = ds.length := axisUsize_eq hk hr
  have hnd : t.dims.length = ds.length + 1 := by rw [hd]; simp
  have hlast : t.dims.getD ds.length 0 = n := by rw [hd]; simp
  have hsetd : ∀ m, t.dims.set ds.length m = ds ++ [m] := by
    intro m; rw [hd, List.set_append_right _ _ (Nat.le_refl _)]; simp
  have hcont := contiguous_self ht hc
  obtain ⟨T, hT, hT1, hT2⟩ := linearSplit_ok hm.1 hm.2 h0 hgrid
  have hw : 0 < dt.sizeInBytes := by cases dt <;> decide
  obtain ⟨M, v, i, hE, ev, ei, wv, wi, h⟩ := topk_core (largest := largest) gv.old gi.old ht hd hc hk0 hkn
    (progThreads_runs hT1 hT2 _) (cells_ge gv hw hbuf) (cells_ge gi (w := 4) (by decide) (fun j => words4 _ j)) hb
  have e2 : shapeSize (t.dims.take ds.length) = numel ds := by rw [shapeSize_eq, hd]; simp
  let run : TopkRun α :=
    { kernel := progThreads T (numel ds) fun tid =>
        ofWrites (topkThread key back t.storage t.layout.offset n k largest tid),
      mem := topkMem (gv.cells dt.sizeInBytes (k * numel ds)) (gi.cells 4 (k * numel ds)) gv.old gi.old,
      len := k * numel ds, outShape := ds ++ [k], perm := none }
  refine ⟨run, M, v, i, ?_, hE, ?_, wv, wi, by rw [ev]; rfl, by rw [ei]; rfl, h⟩
  · unfold topkMetal
    simp only [hax, hlast]
    have e1 : t.dims.length - 1 = ds.length := by omega
    rw [if_neg (by omega), if_neg (by omega), if_neg (by omega), if_neg (by omega)]
    simp only [e1]
    rw [if_neg (by simp), Res.ok_bind, hcont, Res.ok_bind, if_neg (by simpa using hdt), if_neg (by simp)]
    simp only [hlast, e2, hsetd, hT, Res.ok_bind]
    rfl
  · rw [ev, ei]
    rfl

/-- C130, `topk` (contiguous tensors with rows, the last dimension, at most 64 elements in a row, values that survive the
conversion to `float` and back, a buffer that is not a byte short): as on the CPU, and always in order. -/
theorem C130_topk_partial {K : Type} [LinearOrder K] {maxT : Nat} {key : α → K} {back : K → Res α} {dt : DType} {t : Tensor α}
    {ds : List Nat} {n k : Nat} {dim : Int} {largest : Bool} (gv : Given α) (gi : Given Nat) (hm : GroupSize maxT)
    (ht : t.WF) (hd : t.dims = ds ++ [n]) (hr : t.dims.length < 2 ^ 31) (hk : IsAxis t.dims.length dim ds.length)
    (hc : t.layout.strides = Layout.computeStrides t.dims) (hk0 : 0 < k) (hkn : k ≤ n) (hdt : dt ∈ scanTypes)
    (h0 : 0 < numel ds) (hgrid : numel ds ≤ 2 ^ 32 - 1024)
    (hbuf : ∀ j, dt.sizeInBytes * (k * numel ds) ≠ 2 ^ j + 1) (h64 : n ≤ 64)
    (hex : ∀ idx x, InRange idx t.dims → t.elem idx = some x → back (key x) = .ok x) (sorted : Bool) :
    ∃ run M v i, topkMetal maxT key back dt gv gi t k dim largest sorted = .ok (some run) ∧ Ends run.kernel run.mem M ∧
      run.result M = .ok (v, i) ∧ v.WF ∧ i.WF ∧ v.dims = ds ++ [k] ∧ i.dims = ds ++ [k] ∧
      ∀ p, InRange p ds → ∃ xs vals is, xs.length = n ∧ (∀ c, c < n → xs[c]? = t.elem (p ++ [c])) ∧
        (∀ c, c < k → vals[c]? = v.elem (p ++ [c]) ∧ is[c]? = i.elem (p ++ [c])) ∧
        IsTopK key largest xs k vals is ∧ InOrder key largest vals := by
  obtain ⟨run, M, v, i, h1, h2, h3, h4, h5, h6, h7, h8⟩ := C130_topk_rows (key := key) (back := back) (largest := largest)
    gv gi hm ht hd hr hk hc hk0 hkn hdt h0 hgrid hbuf (rd := fun x => x) hex sorted
  refine ⟨run, M, v, i, h1, h2, h3, h4, h5, h6, h7, fun p hp => ?_⟩
  obtain ⟨xs, vals, is, g1, g2, g3, _, g5, g6⟩ := h8 p hp
  rw [Nat.min_eq_left h64] at g1 g2
  rw [Nat.min_eq_left (by omega)] at g3 g5
  refine ⟨xs, vals, is, g1, g2, fun c hc => ⟨?_, (g3 c hc).2.symm⟩, g5, g6⟩
  rw [(g3 c hc).1]
  simp

/-- Rows of a 2×3 matrix that starts inside of its buffer. -/
example : ∃ run M v i, topkMetal 32 id .ok .i32 ⟨fun _ => 77, 1⟩ ⟨fun _ => 88, 0⟩
    (⟨[0, 3, 1, 4, 1, 5, 9], ⟨[2, 3], [3, 1], 1⟩⟩ : Tensor Int) 2 (-1) true
    false = .ok (some run) ∧ Ends run.kernel run.mem M ∧ run.result M = .ok (v, i) ∧ v.dims = [2, 2] := by
  obtain ⟨run, M, v, i, h1, h2, h3, _, _, h4, _⟩ := C130_topk_partial (maxT := 32)
    (t := (⟨[0, 3, 1, 4, 1, 5, 9], ⟨[2, 3], [3, 1], 1⟩⟩ : Tensor Int))
    (ds := [2]) (n := 3) (k := 2) (dim := -1) (key := id) (back := .ok) (dt := .i32) (largest := true) ⟨fun _ => 77, 1⟩
    ⟨fun _ => 88, 0⟩ (by unfold GroupSize; decide)
    ⟨rfl, fun idx hi => by
      match idx, hi with
      | [a, b], ⟨ha, hb, _⟩ =>
        have : a < 2 := ha
        have : b < 3 := hb
        interval_cases a <;> interval_cases b <;> decide⟩ rfl (by decide) (by unfold IsAxis; decide) rfl (by decide) (by decide)
    (by decide) (by decide) (by decide) (fun j => words4 4 j) (by decide) (fun _ _ _ _ => rfl) false
  exact ⟨run, M, v, i, h1, h2, h3, h4⟩

/-- C130 is false for more than 64 results: the 65th is what an earlier tensor left in the pooled buffers, value and
index. -/
theorem C130_topk_many_false (gv : Given Int) (gi : Given Nat) : ∃ (t v : Tensor Int) (i : Tensor Nat) (run : TopkRun Int)
    (M : Mem (Int ⊕ Nat)), t.WF ∧ t.dims = [65] ∧
    topkMetal 32 id .ok .i32 gv gi t 65 0 true true = .ok (some run) ∧ Ends run.kernel run.mem M ∧
    run.result M = .ok (v, i) ∧ v.elem [64] = some (gv.old 64) ∧ i.elem [64] = some (gi.old 64) := by
  have ht : (⟨List.replicate 65 0, Layout.fromShape [65]⟩ : Tensor Int).WF := fresh_wf (by simp [numel])
  obtain ⟨run, M, v, i, h1, h2, h3, _, _, _, _, h8⟩ := C130_topk_rows (maxT := 32) (key := id) (back := .ok) (dt := .i32)
    (largest := true)
    (t := (⟨List.replicate 65 0, Layout.fromShape [65]⟩ : Tensor Int)) (ds := []) (n := 65) (k := 65) (dim := 0) gv
    gi (by unfold GroupSize; decide) ht rfl (by decide) ⟨by decide, Or.inl rfl⟩ rfl (by decide) (by decide) (by decide)
    (by decide) (by decide) (fun j => words4 65 j) (rd := fun x => x) (fun _ _ _ _ => rfl) true
  obtain ⟨xs, vals, is, _, _, _, g4, _⟩ := h8 [] trivial
  obtain ⟨e1, e2⟩ := g4 64 (by decide) (by decide)
  exact ⟨_, v, i, run, M, ht, rfl, h1, h2, h3, e1, e2⟩

/-- What a row of the kernel holds in its first place, when all the elements it looks at have the same converted value. -/
theorem topk_first {K : Type} [LinearOrder K] {key : α → K} {back : K → Res α} {dt : DType} {t : Tensor α}
    {n : Nat} (gv : Given α) (gi : Given Nat) (ht : t.WF) (hd : t.dims = [n])
    (hc : t.layout.strides = Layout.computeStrides t.dims) (hn : 0 < n) (hdt : dt ∈ scanTypes)
    (hbuf : ∀ j, dt.sizeInBytes ≠ 2 ^ j + 1) {y : α} {rd : α → α}
    (hb : ∀ idx x, InRange idx t.dims → t.elem idx = some x → back (key x) = .ok (rd x))
    (hy : ∀ c x, c < min n 64 → t.elem [c] = some x → rd x = y) :
    ∃ run M v i, topkMetal 32 key back dt gv gi t 1 0 true true = .ok (some run) ∧ Ends run.kernel run.mem M ∧
      run.result M = .ok (v, i) ∧ v.elem [0] = some y := by
  obtain ⟨run, M, v, i, h1, h2, h3, _, _, _, _, h8⟩ := C130_topk_rows (maxT := 32) (key := key) (back := back) (dt := dt)
    (largest := true) (t := t) (ds := []) (n := n) (k := 1) (dim := 0) gv gi (by unfold GroupSize; decide) ht hd
    (by rw [hd]; exact (by decide : 1 < 2 ^ 31)) ⟨by rw [hd]; exact Nat.one_pos, Or.inl rfl⟩ hc (by decide) hn hdt (by decide) (by decide)
    (by simpa [numel] using hbuf) hb true
  refine ⟨run, M, v, i, h1, h2, h3, ?_⟩
  obtain ⟨xs, vals, is, g1, g2, g3, _, g5, _⟩ := h8 [] trivial
  have e := (g3 0 (by decide)).1
  rw [List.nil_append] at e
  rw [e]
  have hl : 0 < is.length := by rw [g5.length]; decide
  have hvs := congrArg (fun l => l[0]?) g5.values
  simp only [List.getElem?_map] at hvs
  rw [List.getElem?_eq_getElem hl] at hvs
  have hin := g5.inside _ (List.getElem_mem hl)
  rw [g1] at hin
  rw [Option.map_some, g2 _ hin] at hvs
  cases hv : vals[0]? with
  | none =>
    exfalso
    have h5 := congrArg List.length g5.values
    simp only [List.length_map] at h5
    rw [List.getElem?_eq_none_iff] at hv
    omega
  | some x =>
    rw [hv, List.nil_append] at hvs
    rw [Option.map_some, hy _ x hin (Option.some.inj hvs)]

/-- C130 is false for rows of more than 64 elements: the largest of 64 zeros and a one is said to be zero. -/
theorem C130_topk_long_false : ∃ (t v : Tensor Int) (i : Tensor Nat) (run : TopkRun Int) (M : Mem (Int ⊕ Nat)), t.WF ∧ t.dims = [65] ∧
    topkMetal 32 id .ok .i32 ⟨fun _ => 77, 0⟩ ⟨fun _ => 88, 0⟩ t 1 0 true true = .ok (some run) ∧
    Ends run.kernel run.mem M ∧ run.result M = .ok (v, i) ∧ t.elem [64] = some 1 ∧ v.elem [0] = some 0 := by
  have ht : (⟨List.replicate 64 0 ++ [1], Layout.fromShape [65]⟩ : Tensor Int).WF := fresh_wf (by simp [numel])
  obtain ⟨run, M, v, i, h1, h2, h3, h4⟩ := topk_first (key := id) (back := .ok) (dt := .i32)
    (t := (⟨List.replicate 64 0 ++ [1], Layout.fromShape [65]⟩ : Tensor Int)) (n := 65) ⟨fun _ => 77, 0⟩ ⟨fun _ => 88, 0⟩ ht rfl rfl
    (by decide) (by decide) (fun j => words4 1 j) (y := 0) (rd := fun x => x) (fun _ _ _ _ => rfl) (by
      intro c x hc hx
      have hc : c < 64 := by omega
      have : (List.replicate 64 (0 : Int) ++ [1])[0 + (c * 1 + 0)]? = some x := hx
      rw [List.getElem?_append_left (by simp; omega), List.getElem?_replicate, if_pos (by omega)] at this
      cases this
      rfl)
  exact ⟨_, v, i, run, M, ht, rfl, h1, h2, h3, rfl, h4⟩

/-- C130 is false for integers beyond 2^24: what is returned need not be an element at all. -/
theorem C130_topk_value_false : ∃ (t v : Tensor Int) (i : Tensor Nat) (run : TopkRun Int) (M : Mem (Int ⊕ Nat)), t.WF ∧ t.dims = [1] ∧
    topkMetal 32 Flt.flInt (toIntC (-2 ^ 31) (2 ^ 31 - 1)) .i32 ⟨fun _ => 77, 0⟩ ⟨fun _ => 88, 0⟩ t 1 0 true true =
      .ok (some run) ∧
    Ends run.kernel run.mem M ∧ run.result M = .ok (v, i) ∧ t.elem [0] = some 16777217 ∧ v.elem [0] = some 16777216 := by
  have ht : (⟨[16777217], Layout.fromShape [1]⟩ : Tensor Int).WF := fresh_wf (by simp [numel])
  obtain ⟨run, M, v, i, h1, h2, h3, h4⟩ := topk_first (key := Flt.flInt) (back := toIntC (-2 ^ 31) (2 ^ 31 - 1))
    (dt := .i32) (t := (⟨[16777217], Layout.fromShape [1]⟩ : Tensor Int)) (n := 1) ⟨fun _ => 77, 0⟩
    ⟨fun _ => 88, 0⟩ ht rfl rfl (by decide) (by decide) (fun j => words4 1 j) (y := 16777216)
    (rd := fun _ => 16777216) (by
      intro idx x hi hx
      match idx, hi with
      | [a], ⟨ha, _⟩ =>
        have ha : a < 1 := ha
        have : a = 0 := by omega
        subst this
        have : x = 16777217 := by
          have : some (16777217 : Int) = some x := hx
          cases this
          rfl
        subst this
        decide +kernel) (fun _ _ _ _ => rfl)
  exact ⟨_, v, i, run, M, ht, rfl, h1, h2, h3, rfl, h4⟩

/-- C130 is false for views, as C24: on the last dimension of a transposed matrix the untransposed rows are searched. -/
theorem C130_topk_view_false : ∃ (t : Tensor Int) (run : TopkRun Int),
    topkMetal 32 id .ok .i32 ⟨fun _ => 77, 0⟩ ⟨fun _ => 88, 0⟩ t 1 1 true true = .ok (some run) ∧
    t.dims = [2, 2] ∧ t.elem [0, 0] = some 1 ∧ t.elem [0, 1] = some 2 ∧
    ∃ M v i, Ends run.kernel run.mem M ∧ run.result M = .ok (v, i) ∧ v.elem [0, 0] = some 9 := by
  let t : Tensor Int := ⟨[1, 9, 2, 8], ⟨[2, 2], [1, 2], 0⟩⟩
  let rows : Nat → List (Int × Nat) := fun o => if o = 0 then [(9, 1)] else [(8, 1)]
  let gv : Given Int := ⟨fun _ => 77, 0⟩
  let gi : Given Nat := ⟨fun _ => 88, 0⟩
  obtain ⟨M, hE, ⟨vs, ev, lv, gv'⟩, is, ei, li, gi'⟩ := topk_ends (key := (id : Int → Int)) (back := .ok) (inp := t.storage) (off := 0)
    (n := 2) (k := 1) (outer := 2) (largest := true) (rows := rows) (lv := gv.cells 4 2) (li := gi.cells 4 2)
    (fun _ => 77) (fun _ => 88) (by decide)
    (progThreads_runs (T := 2) (by decide) (by decide) _) (by decide) (by decide) (by decide +kernel) (by decide)
  let run : TopkRun Int :=
    { kernel := progThreads 2 2 fun tid => ofWrites (topkThread id .ok t.storage 0 2 1 true tid),
      mem := topkMem (gv.cells 4 2) (gi.cells 4 2) (fun _ => 77) (fun _ => 88), len := 2, outShape := [2, 1], perm := none }
  refine ⟨t, run, by with_unfolding_all rfl, rfl, rfl, rfl, M, ⟨vs, Layout.fromShape [2, 1]⟩, ⟨is, Layout.fromShape [2, 1]⟩, hE, ?_, ?_⟩
  · show Res.ok (_, _) = _
    rw [← ev, ← ei]
  · have := gv' 0 0 (by decide) (by decide)
    show vs[0 + (0 * 1 + (0 * 1 + 0))]? = some 9
    simpa [rows] using this

/-- Types without a kernel are refused with an error; a tensor without rows aborts the process instead of giving an
empty result. -/
theorem C130_topk_fails {K : Type} [LinearOrder K] {maxT : Nat} {key : α → K} {back : K → Res α} {dt : DType} {t : Tensor α}
    {ds : List Nat} {n k : Nat} {dim : Int} {largest sorted : Bool} (gv : Given α) (gi : Given Nat)
    (ht : t.WF) (hd : t.dims = ds ++ [n]) (hr : t.dims.length < 2 ^ 31) (hk : IsAxis t.dims.length dim ds.length)
    (hc : t.layout.strides = Layout.computeStrides t.dims) (hk0 : 0 < k) (hkn : k ≤ n) :
    (dt ∉ scanTypes → topkMetal maxT key back dt gv gi t k dim largest sorted = .err) ∧
    (dt ∈ scanTypes → numel ds = 0 → topkMetal maxT key back dt gv gi t k dim largest sorted = .panic) := by
  have hax : axisUsize t.dims.length dim = ds.length := axisUsize_eq hk hr
  have hnd : t.dims.length = ds.length + 1 := by rw [hd]; simp
  have hlast : t.dims.getD ds.length 0 = n := by rw [hd]; simp
  have hcont := contiguous_self ht hc
  have e2 : shapeSize (t.dims.take ds.length) = numel ds := by rw [shapeSize_eq, hd]; simp
  have e1 : t.dims.length - 1 = ds.length := by omega
  constructor
  · intro hdt
    unfold topkMetal
    simp only [hax, hlast]
    rw [if_neg (by omega), if_neg (by omega), if_neg (by omega), if_neg (by omega)]
    simp only [e1]
    rw [if_neg (by simp), Res.ok_bind, hcont, Res.ok_bind, if_pos (by simpa using hdt)]
  · intro hdt h
    unfold topkMetal
    simp only [hax, hlast]
    rw [if_neg (by omega), if_neg (by omega), if_neg (by omega), if_neg (by omega)]
    simp only [e1]
    rw [if_neg (by simp), Res.ok_bind, hcont, Res.ok_bind, if_neg (by simpa using hdt), e2, h, linearSplit_zero]
    rfl

example : topkMetal 32 id .ok .i32 ⟨fun _ => 77, 0⟩ ⟨fun _ => 88, 0⟩ (⟨[], Layout.fromShape [0, 3]⟩ : Tensor Int) 2 1 true true =
    .panic :=
  (C130_topk_fails (t := (⟨[], Layout.fromShape [0, 3]⟩ : Tensor Int)) (ds := [0]) (n := 3) (k := 2) (dim := 1) _ _
    (fresh_wf rfl) rfl (by decide) ⟨by decide, Or.inl rfl⟩ rfl (by decide) (by decide)).2 (by decide) rfl

end Hodu.Metal
