import Verif.Model.MetalIndex
import Verif.Props.MetalReduce
import Verif.Props.CudaIndex
import Verif.Props.CudaAtomic

/-! # Property C125: index_select, index_put, gather, scatter and onehot on Metal -/

namespace Hodu.Metal
open _root_.Hodu _root_.Hodu.Spec Cuda Cuda.Spec Metal.Spec

variable {α β : Type}

/-! ## Index buffers -/

theorem word32_of {v : Int} (h : I32 v) :
    let x := (v % 2 ^ 32).toNat
    word32 (x % 256) (x / 256 % 256) (x / 256 / 256 % 256) (x / 256 / 256 / 256 % 256) = v := by
  obtain ⟨h1, h2⟩ := h
  intro x
  have hx : x + 0 = (v % 2 ^ 32).toNat := rfl
  simp only [word32]
  split <;> omega

/-- `i32` indices are seen as they are. -/
theorem asI32_i32 {vs : List Int} (h : ∀ v ∈ vs, I32 v) : asI32 .i32 vs = vs := by
  unfold asI32 indexBytes
  show words32 (vs.flatMap fun v => leBytes 4 (v % 2 ^ 32).toNat) = vs
  induction vs with
  | nil => rfl
  | cons v vs ih =>
    have ih := ih fun w hw => h w (List.mem_cons_of_mem _ hw)
    rw [List.flatMap_cons]
    simp only [leBytes, List.cons_append, List.nil_append, words32] at ih ⊢
    rw [ih, word32_of (h v (List.mem_cons_self ..))]

/-- `u32` indices below `2 ^ 31` too. -/
theorem asI32_u32 {vs : List Int} (h : ∀ v ∈ vs, I32 v) : asI32 .u32 vs = vs := asI32_i32 h

/-- `i64` indices are seen as twice as many: each is followed by its sign. -/
theorem asI32_i64 {vs : List Int} (h : ∀ v ∈ vs, I32 v) :
    asI32 .i64 vs = vs.flatMap fun v => [v, if v < 0 then -1 else 0] := by
  unfold asI32 indexBytes
  show words32 (vs.flatMap fun v => leBytes 8 (v % 2 ^ 64).toNat) = _
  induction vs with
  | nil => rfl
  | cons v vs ih =>
    have ih := ih fun w hw => h w (List.mem_cons_of_mem _ hw)
    rw [List.flatMap_cons, List.flatMap_cons]
    simp only [leBytes, List.cons_append, List.nil_append, words32] at ih ⊢
    rw [ih]
    obtain ⟨h1, h2⟩ := h v (List.mem_cons_self ..)
    generalize hx : (v % 2 ^ 64).toNat = x
    have e1 : word32 (x % 256) (x / 256 % 256) (x / 256 / 256 % 256) (x / 256 / 256 / 256 % 256) = v := by
      have hx' : x % 2 ^ 32 = (v % 2 ^ 32).toNat := by omega
      have := word32_of (v := v) ⟨h1, h2⟩
      simp only [← hx'] at this
      rw [← this]
      congr 1 <;> omega
    have e2 : word32 (x / 256 / 256 / 256 / 256 % 256) (x / 256 / 256 / 256 / 256 / 256 % 256)
        (x / 256 / 256 / 256 / 256 / 256 / 256 % 256) (x / 256 / 256 / 256 / 256 / 256 / 256 / 256 % 256) =
        if v < 0 then -1 else 0 := by
      have hy : x / 256 / 256 / 256 / 256 = if v < 0 then 2 ^ 32 - 1 else 0 := by
        split <;> omega
      rw [hy]
      split <;> rfl
    rw [e1, e2]

example : asI32 .i32 [5, -2, 2147483647] = [5, -2, 2147483647] ∧ asI32 .i64 [5, -2] = [5, 0, -2, -1] ∧
    asI32 .u8 [1, 0, 2, 0, 3] = [131073] := by decide

/-! ## From CUDA to Metal -/

/-- A loop that computes something under every schedule can compute the value of every position a thread starts at. -/
theorem val_of_computes {k : Loop β} {buf zs : List β} {t : Nat} (h : Computes k buf zs) (ht : t < k.threads)
    (hb : k.start t < k.bound) : ∃ v, k.val (k.start t) = .ok v := by
  obtain ⟨s, hs, _⟩ := h.1 [t]
  have hi : (k.init buf).pc t = .head (k.start t) := by
    show (if t < k.threads then Pc.head (k.start t) else Pc.done) = _
    rw [if_pos ht]
  unfold Loop.exec at hs
  simp only [Res.foldL] at hs
  unfold Loop.step at hs
  rw [hi] at hs
  simp only at hs
  rw [if_pos hb] at hs
  cases hv : k.val (k.start t) with
  | ok v => exact ⟨v, rfl⟩
  | _ => rw [hv] at hs; cases hs

theorem runLoop_of_vals {n : Nat} {val : Nat → Res β} (h : ∀ i, i < n → ∃ v, val i = .ok v) :
    ∃ vs, runLoop n val = .ok vs ∧ vs.length = n ∧ ∀ i (hi : i < vs.length), val i = .ok vs[i] := by
  have key : ∀ l : List Nat, (∀ i ∈ l, i < n) → ∃ vs, Res.mapL val l = .ok vs := by
    intro l
    induction l with
    | nil => intro _; exact ⟨[], rfl⟩
    | cons i l ih =>
      intro hi
      obtain ⟨v, hv⟩ := h i (hi i (List.mem_cons_self ..))
      obtain ⟨vs, hvs⟩ := ih fun j hj => hi j (List.mem_cons_of_mem _ hj)
      exact ⟨v :: vs, by simp only [Res.mapL, hv, hvs, Res.ok_bind]⟩
  obtain ⟨vs, h1⟩ := key (List.range n) fun i hi => List.mem_range.mp hi
  have hl := (Res.mapL_ok_inv h1)
  refine ⟨vs, h1, by simpa using hl.1, fun i hi => ?_⟩
  have := hl.2 i (by have := hl.1; omega) hi
  rwa [List.getElem_range] at this

/-- The values of a grid-stride loop of CUDA are those of the sequential loop. -/
theorem runLoop_of_gridLoop {n : Nat} {val : Nat → Res β} {zs : List β} (hn : n ≤ 2 ^ 32 - 256) (hl : zs.length = n)
    (h : ∀ buf, buf.length = n → Computes (gridLoop n val fun i => i) buf zs) : runLoop n val = .ok zs := by
  obtain ⟨h1, h2⟩ := grid_bounds hn
  obtain ⟨vs, e1, e2, e3⟩ := runLoop_of_vals (n := n) (val := val) fun i hi => by
    have hs : (gridLoop n val fun i => i).start i = i := threadStart_eq (by omega)
    have := val_of_computes (t := i) (h zs hl) (by show i < 256 * gridSize n; omega) (by rw [hs]; exact hi)
    rw [hs] at this
    exact this
  rw [e1, Computes.unique (gridLoop_list hn hl e2 e3) (h zs hl) fun B => exists_fair B _]

theorem runLoop_of_gridLoop64 {n : Nat} {val : Nat → Res β} {zs : List β} (hn : n ≤ 2 ^ 32 - 256) (hl : zs.length = n)
    (h : ∀ buf, buf.length = n → Computes (gridLoop64 n val) buf zs) : runLoop n val = .ok zs := by
  obtain ⟨h1, h2⟩ := grid_bounds hn
  obtain ⟨vs, e1, e2, e3⟩ := runLoop_of_vals (n := n) (val := val) fun i hi => by
    have hs : (gridLoop64 n val).start i = i := threadStart_eq (by omega)
    have := val_of_computes (t := i) (h zs hl) (by show i < 256 * gridSize n; omega) (by rw [hs]; exact hi)
    rw [hs] at this
    exact this
  rw [e1, Computes.unique (gridLoop64_list hn hl e2 e3) (h zs hl) fun B => exists_fair B _]

/-- **C125, index_select**: what CUDA computes from the indices read as `i32`, Metal computes for every group size. -/
theorem C125_select_like_cuda {t : Tensor α} {ix : Tensor Int} {dim : Int} {r : Tensor α} {dt ixTy : DType} {maxT : Nat}
    (hm : GroupSize maxT) (hty : dt ∈ kernelTypes) (h0 : 0 < r.storage.length) (hn : r.storage.length ≤ 2 ^ 32 - 1024)
    (h : Yields (indexSelectCuda .i32 t dim ⟨asI32 ixTy ix.storage, ix.layout⟩) r) :
    Delivers (indexSelectMetal maxT dt ixTy t dim ix) r := by
  obtain ⟨hl, k, hk, hc⟩ := h
  refine ⟨hl, ?_⟩
  unfold indexSelectCuda at hk
  unfold indexSelectMetal
  simp only at hk ⊢
  split at hk
  · cases hk
  rename_i hax
  rw [if_neg (by decide)] at hk
  rw [if_neg hax, if_neg (by simpa using hty)]
  obtain ⟨l, hk1, hk2⟩ := Res.bind_eq_ok.mp hk
  unfold Cuda.indexSelectLoop at hk1
  obtain ⟨m, hm1, hm2⟩ := Res.bind_eq_ok.mp hk1
  injection hm2 with hm2
  injection hk2 with hk2
  injection hk2 with g1 g2 g3
  have hnum : m.numEls = r.storage.length := by
    rw [← g2]
    unfold decodeIndexSelect at hm1
    have : readC (indexSelectMetadata t.layout (axisUsize t.dims.length dim) ix.layout.size
      (shapeSize (t.dims.set (axisUsize t.dims.length dim) ix.layout.size))) 0 =
        .ok (shapeSize (t.dims.set (axisUsize t.dims.length dim) ix.layout.size)) := rfl
    rw [this, Res.ok_bind] at hm1
    obtain ⟨_, _, hm1⟩ := Res.bind_eq_ok.mp hm1
    obtain ⟨_, _, hm1⟩ := Res.bind_eq_ok.mp hm1
    obtain ⟨_, _, hm1⟩ := Res.bind_eq_ok.mp hm1
    obtain ⟨_, _, hm1⟩ := Res.bind_eq_ok.mp hm1
    obtain ⟨_, _, hm1⟩ := Res.bind_eq_ok.mp hm1
    obtain ⟨_, _, hm1⟩ := Res.bind_eq_ok.mp hm1
    injection hm1 with hm1
    rw [← hm1]
  rw [← g1, ← hm2, hnum] at hc
  have hrun := runLoop_of_gridLoop (by omega) rfl hc
  obtain ⟨K, hK, hcK⟩ := stride_of_runLoop hrun hm h0 hn
  refine ⟨K, ?_, hcK⟩
  unfold indexSelectLoop
  rw [hm1, Res.ok_bind, hnum, hK, Res.ok_bind, g2, g3]

/-- **C125, index_select**: for every layout of the input, `i32` indices in row-major order at the start of their
buffer that all name an element, and every group size.  Missing: indices of other types (`C125_index_types`), indices
that name nothing (`C125_select_out_of_range`), empty results (`C125_empty`), other layouts of the indices, rank above
16, types without a kernel. -/
theorem C125_select_partial {t : Tensor α} {ix : Tensor Int} {dim : Int} {k n : Nat} [Inhabited α] {dt : DType}
    {maxT : Nat} (hm : GroupSize maxT) (hty : dt ∈ kernelTypes)
    (ht : t.WF) (hr : t.dims.length ≤ 16) (hk : IsAxis t.dims.length dim k)
    (hn : t.dims[k]? = some n) (hns : n < 2 ^ 31) (hix : ix.WF)
    (hc : ix.layout.strides = Layout.computeStrides ix.dims) (ho : ix.layout.offset = 0)
    (hv : ∀ v ∈ ix.storage, ∃ c, IsAxis n v c) (hl : t.storage.length ≤ 2 ^ 64)
    (h0 : 0 < numel (t.dims.set k (numel ix.dims)))
    (hsz : numel (t.dims.set k (numel ix.dims)) ≤ 2 ^ 32 - 1024) :
    ∃ r, Delivers (indexSelectMetal maxT dt .i32 t dim ix) r ∧ r.dims = t.dims.set k (numel ix.dims) ∧ r.WF ∧
      ∀ idx, InRange idx r.dims → ∀ p v c, InRange p ix.dims → idx[k]? = some (rowMajor ix.dims p) →
        ix.elem p = some v → IsAxis n v c → r.elem idx = t.elem (idx.set k c) := by
  obtain ⟨r, h1, h2, h3, h4⟩ := C112_select_partial ht hr hk hn hns hix hc ho hv hl (by omega)
  have hI : ∀ v ∈ ix.storage, I32 v := fun v hm => by
    obtain ⟨c, h5, h6⟩ := hv v hm
    unfold I32
    omega
  have hlen : r.storage.length = numel r.dims := by
    obtain ⟨_, K, hK, _⟩ := h1
    unfold indexSelectCuda at hK
    simp only [axisUsize_eq hk (by omega)] at hK
    rw [if_neg (by have := hk.1; omega), if_neg (by decide)] at hK
    obtain ⟨l, _, hK⟩ := Res.bind_eq_ok.mp hK
    injection hK with hK
    injection hK with g1 g2 g3
    rw [← g2, ← g3, shapeSize_eq]
  refine ⟨r, C125_select_like_cuda hm hty (by rw [hlen, h2]; exact h0) (by rw [hlen, h2]; exact hsz) ?_, h2, h3, h4⟩
  rw [asI32_i32 hI]
  exact h1

/-- A transposed matrix, indices from the end and twice the same. -/
example : ∃ r, Delivers (indexSelectMetal 1024 .f32 .i32 exSel 0 ⟨[2, -3, 2], Layout.fromShape [3]⟩) r ∧
      r.dims = [3, 2] ∧ r.WF ∧
      ∀ idx, InRange idx r.dims → ∀ p v c, InRange p [3] → idx[0]? = some (rowMajor [3] p) →
        (⟨[2, -3, 2], Layout.fromShape [3]⟩ : Tensor Int).elem p = some v → IsAxis 3 v c →
        r.elem idx = exSel.elem (idx.set 0 c) :=
  C125_select_partial (k := 0) (n := 3) ⟨by decide, by decide⟩ (by decide) exSel_wf (by decide)
    (by unfold IsAxis; decide) rfl (by decide) (fresh_wf (by decide)) rfl rfl (by
      intro v hv
      have hv : v ∈ [(2 : Int), -3, 2] := hv
      simp only [List.mem_cons, List.not_mem_nil, or_false] at hv
      rcases hv with rfl | rfl | rfl
      · exact ⟨2, by unfold IsAxis; decide⟩
      · exact ⟨0, by unfold IsAxis; decide⟩
      · exact ⟨2, by unfold IsAxis; decide⟩) (by decide) (by decide) (by decide)

/-- **C125, index_select, out of range**: an index that names no element of a one-dimensional tensor makes the first
thread read outside the buffer, if the tensor fills it; the CPU gives zero. -/
theorem C125_select_out_of_range {t : List α} {v : Int} {dt : DType} {maxT : Nat} (hm : GroupSize maxT)
    (hty : dt ∈ kernelTypes) (hl : t.length < 2 ^ 31) (hv : I32 v) (h : ∀ c, ¬ IsAxis t.length v c) (zero : α) :
    (∃ L, indexSelectMetal maxT dt .i32 ⟨t, Layout.fromShape [t.length]⟩ 0 ⟨[v], Layout.fromShape [1]⟩ = .ok L ∧
      ∀ buf, L.kernel.exec buf [0] = .ub) ∧
    (⟨t, Layout.fromShape [t.length]⟩ : Tensor α).indexSelect zero 0 ⟨[v], Layout.fromShape [1]⟩ =
      .ok ⟨[zero], Layout.fromShape [1]⟩ := by
  obtain ⟨⟨L, hL, hub⟩, hcpu⟩ := C112_select_out_of_range hl hv h zero
  refine ⟨?_, hcpu⟩
  have hval : indexSelectVal t [v] ⟨1, [t.length], [1], 0, 0, 1⟩ 0 = .ub := by
    have e : indexSelectCuda .i32 ⟨t, Layout.fromShape [t.length]⟩ 0 ⟨[v], Layout.fromShape [1]⟩ =
      .ok ⟨gridLoop 1 (indexSelectVal t [v] ⟨1, [t.length], [1], 0, 0, 1⟩) fun i => i, 1, [1]⟩ := rfl
    rw [e] at hL
    injection hL with hL
    subst hL
    have := hub []
    generalize indexSelectVal t [v] ⟨1, [t.length], [1], 0, 0, 1⟩ = val at this
    unfold Loop.exec at this
    simp only [Res.foldL] at this
    unfold Loop.step at this
    have hpc : ((gridLoop 1 val fun i => i).init ([] : List α)).pc 0 = .head 0 := rfl
    rw [hpc] at this
    simp only at this
    rw [if_pos (show 0 < (gridLoop 1 val fun i => i).bound from Nat.one_pos)] at this
    have e3 : (gridLoop 1 val fun i => i).val 0 = val 0 := rfl
    rw [e3] at this
    cases hv0 : val 0 with
    | ub => rfl
    | _ => rw [hv0] at this; cases this
  obtain ⟨T, hT, h1, h2⟩ := linearSplit_ok hm.1 hm.2 (n := 1) (by decide) (by decide)
  refine ⟨⟨strideGrid T 1 (indexSelectVal t [v] ⟨1, [t.length], [1], 0, 0, 1⟩) fun i => i, 1, [1]⟩, ?_, fun buf =>
    strideGrid_ub h1 h2 (by decide) hval⟩
  unfold indexSelectMetal
  simp only
  rw [if_neg (by show ¬ (1 ≤ 0); decide), if_neg (by simpa using hty),
    asI32_i32 (vs := [v]) (by intro w hw; rw [List.mem_singleton.mp hw]; exact hv)]
  have e : indexSelectLoop maxT t [v] (indexSelectMetadata (Layout.fromShape [t.length]) 0 1 1) =
    (linearSplit maxT 1).bind fun threads => .ok (strideGrid threads 1
      (indexSelectVal t [v] ⟨1, [t.length], [1], 0, 0, 1⟩) fun i => i) := rfl
  show (indexSelectLoop maxT t [v] (indexSelectMetadata (Layout.fromShape [t.length]) 0 1 1)).bind _ = _
  rw [e, hT]
  rfl

/-- Index 3 of three elements. -/
example : (∃ L, indexSelectMetal 256 .i32 .i32 ⟨[(5 : Int), 6, 7], Layout.fromShape [3]⟩ 0
        ⟨[3], Layout.fromShape [1]⟩ = .ok L ∧ ∀ buf, L.kernel.exec buf [0] = .ub) ∧
    (⟨[(5 : Int), 6, 7], Layout.fromShape [3]⟩ : Tensor Int).indexSelect 0 0 ⟨[3], Layout.fromShape [1]⟩ =
      .ok ⟨[0], Layout.fromShape [1]⟩ :=
  C125_select_out_of_range (t := [(5 : Int), 6, 7]) (v := 3) ⟨by decide, by decide⟩ (by decide) (by decide)
    (by unfold I32; decide)
    (fun c hc => by
      have h1 : c < 3 := hc.1
      rcases hc.2 with h | h
      · omega
      · have h : (3 : Int) = (c : Int) - (3 : Nat) := h
        omega) 0

/-- **C125, index types**: the indices 1 and 2 as `i64` select the elements 1 and 0: the kernel reads the two halves
of the first index. -/
theorem C125_index_types {maxT : Nat} (hm : GroupSize maxT) :
    Delivers (indexSelectMetal maxT .i32 .i64 ⟨[(5 : Int), 6, 7], Layout.fromShape [3]⟩ 0
      ⟨[1, 2], Layout.fromShape [2]⟩) ⟨[6, 5], Layout.fromShape [2]⟩ ∧
    (⟨[(5 : Int), 6, 7], Layout.fromShape [3]⟩ : Tensor Int).indexSelect 0 0 ⟨[1, 2], Layout.fromShape [2]⟩ =
      .ok ⟨[6, 7], Layout.fromShape [2]⟩ := by
  refine ⟨C125_select_like_cuda hm (by decide) (by decide) (by decide) ?_, by decide +kernel⟩
  refine ⟨rfl, gridLoop 2 (indexSelectVal [5, 6, 7] [1, 0, 2, 0] ⟨2, [3], [1], 0, 0, 2⟩) fun i => i, rfl,
    fun buf hb => ?_⟩
  refine gridLoop_list (by decide) hb rfl ?_
  decide +kernel

/-! ## gather -/

/-- **C125, gather**: what CUDA computes from the indices read as `i32`, Metal computes for every group size. -/
theorem C125_gather_like_cuda {t : Tensor α} {ix : Tensor Int} {dim : Int} {r : Tensor α} {lay : Layout} {zero : α}
    {dt ixTy : DType} {maxT : Nat} {k : Loop α}
    (hm : GroupSize maxT) (hty : dt ∈ kernelTypes) (h0 : 0 < r.storage.length) (hn : r.storage.length ≤ 2 ^ 32 - 1024)
    (h : gatherCuda .i32 zero t dim ⟨asI32 ixTy ix.storage, ix.layout⟩ = .ok (⟨k, r.storage.length, ix.dims⟩, lay))
    (hc : ∀ buf, buf.length = r.storage.length → Computes k buf r.storage) :
    ∃ K, gatherMetal maxT dt ixTy zero t dim ix = .ok (⟨K, r.storage.length, ix.dims⟩, lay) ∧
      ∀ buf, r.storage.length ≤ buf.length → Computes K buf (r.storage ++ buf.drop r.storage.length) := by
  unfold gatherCuda at h
  rw [if_neg (by decide)] at h
  unfold gatherMetal
  rw [if_neg (by simpa using hty)]
  obtain ⟨l, h1, h2⟩ := Res.bind_eq_ok.mp h
  unfold Cuda.gatherLoop at h1
  obtain ⟨m, hm1, hm2⟩ := Res.bind_eq_ok.mp h1
  injection hm2 with hm2
  injection h2 with h2
  injection h2 with g1 g2
  injection g1 with g1 g3 g4
  simp only at g2 g3 g4 hm1 hm2 h1
  have hnum : m.numEls = r.storage.length := by
    rw [← g3]
    unfold decodeGather at hm1
    have : readC (gatherMetadata t.layout ix.layout (axisUsize t.dims.length dim) ix.layout.size) 0 =
        .ok ix.layout.size := rfl
    rw [this, Res.ok_bind] at hm1
    iterate 8 (obtain ⟨_, _, hm1⟩ := Res.bind_eq_ok.mp hm1)
    injection hm1 with hm1
    rw [← hm1]
  rw [← g1, ← hm2, hnum] at hc
  have hrun := runLoop_of_gridLoop (by omega) rfl hc
  obtain ⟨K, hK, hcK⟩ := stride_of_runLoop hrun hm h0 hn
  refine ⟨K, ?_, hcK⟩
  unfold gatherLoop
  rw [hm1, Res.ok_bind, hnum, hK, Res.ok_bind, g3, g2]

/-- **C125, gather**: for every layout of the source and `i32` indices in row-major order from offset 0, for every
group size and interleaving: the element named by the index along the axis, zero if it names none.  Missing: indices of
other types or layouts, empty results (`C125_empty`), rank above 16, an axis out of range (not checked,
`C125_gather_axis`). -/
theorem C125_gather_partial {t : Tensor α} {ix : Tensor Int} {dim : Int} {k n : Nat} (zero : α) {dt : DType}
    {maxT : Nat} (hm : GroupSize maxT) (hty : dt ∈ kernelTypes)
    (ht : t.WF) (hr : t.dims.length ≤ 16) (hk : IsAxis t.dims.length dim k)
    (hn : t.dims[k]? = some n) (hns : n < 2 ^ 31) (hix : ix.WF) (hfit : FitsOff k ix.dims t.dims)
    (hc : ix.layout = Layout.fromShape ix.dims) (hv : ∀ v ∈ ix.storage, I32 v) (h0 : 0 < numel ix.dims)
    (hsz : numel ix.dims ≤ 2 ^ 32 - 1024) :
    ∃ r, Delivers ((gatherMetal maxT dt .i32 zero t dim ix).map Prod.fst) r ∧
      (gatherMetal maxT dt .i32 zero t dim ix).map Prod.snd = .ok r.layout ∧ r.dims = ix.dims ∧ r.WF ∧
      ∀ p v, InRange p ix.dims → ix.elem p = some v →
        (∀ c, IsAxis n v c → r.elem p = t.elem (p.set k c)) ∧
        ((¬ ∃ c, IsAxis n v c) → r.elem p = some zero) := by
  obtain ⟨r, ⟨h1, K, h2, h3⟩, h4, h5, h6, h7⟩ := C112_gather_partial zero ht hr hk hn hns hix hfit hc hv (by omega)
  obtain ⟨⟨L, lay⟩, e1, e2⟩ : ∃ x, gatherCuda .i32 zero t dim ix = .ok x ∧ x = (⟨K, r.storage.length, r.dims⟩, r.layout) := by
    cases hg : gatherCuda .i32 zero t dim ix with
    | ok x =>
      rw [hg] at h2 h4
      refine ⟨x, rfl, ?_⟩
      obtain ⟨a, b⟩ := x
      have h2 : Res.ok a = .ok _ := h2
      have h4 : Res.ok b = .ok _ := h4
      injection h2 with h2
      injection h4 with h4
      rw [h2, h4]
    | _ => rw [hg] at h2; cases h2
  have hlen : r.storage.length = numel ix.dims := by
    have := e1
    unfold gatherCuda at this
    rw [if_neg (by decide)] at this
    obtain ⟨l, _, this⟩ := Res.bind_eq_ok.mp this
    injection this with this
    rw [e2] at this
    injection this with this _
    injection this with _ this _
    rw [← this]
    exact shapeSize_eq _
  rw [e2, h5] at e1
  obtain ⟨K', g1, g2⟩ := C125_gather_like_cuda (ixTy := .i32) (ix := ix) hm hty (by omega) (by omega)
    (by rw [asI32_i32 hv]; exact e1) h3
  refine ⟨r, ⟨h1, K', ?_, g2⟩, ?_, h5, h6, h7⟩
  · rw [g1, h5]; rfl
  · rw [g1]; rfl

/-- The transposed matrix; an index from the end and one that names nothing. -/
example : ∃ r, Delivers ((gatherMetal 32 .f16 .i32 0 exSel 0 ⟨[2, -3, 3, 0], Layout.fromShape [2, 2]⟩).map Prod.fst) r ∧
      (gatherMetal 32 .f16 .i32 0 exSel 0 ⟨[2, -3, 3, 0], Layout.fromShape [2, 2]⟩).map Prod.snd = .ok r.layout ∧
      r.dims = [2, 2] ∧ r.WF ∧
      ∀ p v, InRange p [2, 2] → (⟨[2, -3, 3, 0], Layout.fromShape [2, 2]⟩ : Tensor Int).elem p = some v →
        (∀ c, IsAxis 3 v c → r.elem p = exSel.elem (p.set 0 c)) ∧
        ((¬ ∃ c, IsAxis 3 v c) → r.elem p = some 0) :=
  C125_gather_partial (k := 0) (n := 3) (ix := ⟨[2, -3, 3, 0], Layout.fromShape [2, 2]⟩) 0 ⟨by decide, by decide⟩
    (by decide) exSel_wf (by decide)
    (by unfold IsAxis; decide) rfl (by decide) (fresh_wf (by decide))
    ⟨rfl, fun i x y h1 h2 h3 => by
      match i, h1, h2, h3 with
      | 0, h1, _, _ => exact absurd rfl h1
      | 1, _, h2, h3 =>
        have h2 : some 2 = some x := h2
        have h3 : some 2 = some y := h3
        simp only [Option.some.injEq] at h2 h3
        omega
      | i + 2, _, h2, _ => simp [Tensor.dims, Layout.fromShape] at h2⟩
    rfl (by unfold I32; decide) (by decide) (by decide)

/-- **C125, gather, false**: along an axis out of range the CPU refuses, Metal returns the elements unchanged. -/
theorem C125_gather_axis {maxT : Nat} (hm : GroupSize maxT) :
    let t : Tensor Int := ⟨[1, 2, 3, 4], Layout.fromShape [2, 2]⟩
    let ix : Tensor Int := ⟨[0, 0, 0, 0], Layout.fromShape [2, 2]⟩
    t.gather 0 2 ix = .err ∧ Delivers ((gatherMetal maxT .i32 .i32 0 t 2 ix).map Prod.fst) t := by
  intro t ix
  obtain ⟨h1, _, K, h2, h3⟩ := C112_gather_axis
  have e : ∃ lay, gatherCuda .i32 0 t 2 ⟨asI32 .i32 ix.storage, ix.layout⟩ =
      .ok (⟨K, t.storage.length, ix.dims⟩, lay) := by
    rw [asI32_i32 (by unfold I32; decide)]
    cases hg : gatherCuda .i32 0 t 2 ix with
    | ok x =>
      rw [hg] at h2
      obtain ⟨a, b⟩ := x
      have h2 : Res.ok a = .ok _ := h2
      injection h2 with h2
      exact ⟨b, by rw [h2]⟩
    | _ => rw [hg] at h2; cases h2
  obtain ⟨lay, e⟩ := e
  obtain ⟨K', g1, g2⟩ := C125_gather_like_cuda (dt := .i32) (r := t) hm (by decide) (by decide) (by decide) e h3
  exact ⟨h1, rfl, K', by rw [g1]; rfl, g2⟩

/-! ## onehot -/

/-- **C125, onehot**: for `i32` indices in row-major order at the start of their buffer, of rank at most 15, and every
group size, every interleaving ends with the one-hot encoding; indices out of range give zeros.  Missing: other types
and layouts of the indices, higher ranks, empty results (`C125_empty`), result types without a kernel. -/
theorem C125_onehot_partial {ix : Tensor Int} {classes k : Nat} {axis : Int} (zero one : β) {dt : DType} {maxT : Nat}
    (hm : GroupSize maxT) (hty : dt ∈ kernelTypes) (hx : ix.WF)
    (hp : Packed ix) (h0 : ix.layout.offset = 0) (hr : ix.dims.length ≤ 15) (hc : classes < 2 ^ 31)
    (hv : ∀ v ∈ ix.storage, I32 v) (ha : IsAxis (ix.dims.length + 1) axis k)
    (hpos : 0 < numel (ix.dims.insertIdx k classes))
    (hsz : numel (ix.dims.insertIdx k classes) ≤ 2 ^ 32 - 1024) :
    ∃ y, Delivers (onehotMetal maxT dt .i32 zero one ix classes axis) y ∧ IsOnehot zero one ix classes k y := by
  obtain ⟨y, ⟨h1, K, h2, h3⟩, h4⟩ := C112_onehot_partial zero one hx hp h0 hr hc hv ha (by omega)
  refine ⟨y, ⟨h1, ?_⟩, h4⟩
  unfold onehotCuda at h2
  simp only at h2
  rw [if_neg (by decide)] at h2
  unfold onehotMetal
  simp only
  rw [if_neg (by simpa using hty), asI32_i32 hv]
  obtain ⟨l, e1, e2⟩ := Res.bind_eq_ok.mp h2
  unfold Cuda.onehotLoop at e1
  obtain ⟨m, hm1, hm2⟩ := Res.bind_eq_ok.mp e1
  injection hm2 with hm2
  injection e2 with e2
  injection e2 with g1 g2 g3
  have hnum : m.numEls = y.storage.length := by
    rw [← g2]
    unfold decodeOnehot at hm1
    have : readC (onehotMetadata ix.layout classes (axisUsize (ix.dims.length + 1) axis)) 0 =
        .ok (shapeSize (onehotDims classes (axisUsize (ix.dims.length + 1) axis) ix.dims)) := rfl
    rw [this, Res.ok_bind] at hm1
    iterate 5 (obtain ⟨_, _, hm1⟩ := Res.bind_eq_ok.mp hm1)
    injection hm1 with hm1
    rw [← hm1]
  have hlen : y.storage.length = numel (ix.dims.insertIdx k classes) := by
    rw [← g2, g3, shapeSize_eq, h4.2.1]
  rw [← g1, ← hm2, hnum] at h3
  have hrun := runLoop_of_gridLoop64 (by omega) rfl h3
  obtain ⟨K', hK, hcK⟩ := stride_of_runLoop hrun hm (by omega) (by omega)
  refine ⟨K', ?_, hcK⟩
  unfold onehotLoop
  rw [hm1, Res.ok_bind, hnum, hK, Res.ok_bind, g2, g3]

example : ∃ y, Delivers (onehotMetal 64 .u8 .i32 (0 : Nat) 1 ⟨[0, 2, -1, 3], Layout.fromShape [2, 2]⟩ 3 1) y ∧
    IsOnehot 0 1 ⟨[0, 2, -1, 3], Layout.fromShape [2, 2]⟩ 3 1 y :=
  C125_onehot_partial 0 1 ⟨by decide, by decide⟩ (by decide) (fresh_wf (by decide)) (fun p hp => by
    match p, hp with
    | [i, j], hp =>
      have : i < 2 := hp.1
      have : j < 2 := hp.2.1
      interval_cases i <;> interval_cases j <;> rfl)
    rfl (by decide) (by decide) (by unfold I32; decide) (by unfold IsAxis; decide) (by decide) (by decide)

/-! ## index_put -/

/-- **C125, index_put**: the kernel, given the metadata in the order it decodes, puts into each cell the value of the
first index that names it, else the element of the input.  Missing: the host passes another order
(`C125_put_ub`). -/
theorem C125_put_partial {t vals : Tensor α} {indices : List Int} {k n K : Nat} {maxT : Nat} (hm : GroupSize maxT)
    (ht : t.WF) (hr : t.dims.length ≤ 16) (hn : t.dims[k]? = some n) (hns : n < 2 ^ 31) (hvl : vals.WF)
    (hd : vals.dims = t.dims.set k K) (hK : K ≤ indices.length) (hv : ∀ v ∈ indices, I32 v)
    (h0 : 0 < numel t.dims) (hsz : numel t.dims ≤ 2 ^ 32 - 1024) :
    ∃ l out, indexPutLoop maxT t.storage indices vals.storage
        (indexPutMetadataDoc t.layout vals.layout k K t.layout.size) = .ok l ∧
      (∀ buf, numel t.dims ≤ buf.length → Computes l buf (out ++ buf.drop (numel t.dims))) ∧
      out.length = numel t.dims ∧
      ∀ p c, InRange p t.dims → p[k]? = some c →
        (∀ j v, j < K → indices[j]? = some v → IsAxis n v c →
          (∀ j' v', j' < j → indices[j']? = some v' → ¬ IsAxis n v' c) →
          out[rowMajor t.dims p]? = vals.elem (p.set k j)) ∧
        ((∀ j v, j < K → indices[j]? = some v → ¬ IsAxis n v c) →
          out[rowMajor t.dims p]? = t.elem p) := by
  obtain ⟨l, out, h1, h2, h3, h4⟩ := C112_put_partial ht hr hn hns hvl hd hK hv (by omega)
  unfold Cuda.indexPutLoop at h1
  obtain ⟨m, hm1, hm2⟩ := Res.bind_eq_ok.mp h1
  injection hm2 with hm2
  have hnum : m.numEls = out.length := by
    have := decodeIndexPut_doc (l := t.layout) (v := vals.layout) (dim := k) (k := K) (n := t.layout.size) ht.1
      (by rw [hvl.1, hd, List.length_set])
    rw [this] at hm1
    injection hm1 with hm1
    rw [← hm1, h3]
    exact shapeSize_eq _
  rw [← h3] at h2 h0 hsz ⊢
  rw [← hm2, hnum] at h2
  have hrun := runLoop_of_gridLoop (by omega) rfl h2
  obtain ⟨K', hK', hcK⟩ := stride_of_runLoop hrun hm h0 hsz
  refine ⟨K', out, ?_, hcK, rfl, h4⟩
  unfold indexPutLoop
  rw [hm1, Res.ok_bind, hnum, hK']

/-- Three indices, of which one counts from the end and two are equal; the input transposed. -/
example : ∃ l out, indexPutLoop 8 exSel.storage [2, -3, 2] [(10 : Int), 20, 30, 40, 50, 60]
        (indexPutMetadataDoc exSel.layout (Layout.fromShape [3, 2]) 0 3 6) = .ok l ∧
      (∀ buf, 6 ≤ buf.length → Computes l buf (out ++ buf.drop 6)) ∧ out[5]? = some 20 := by
  obtain ⟨l, out, h1, h2, _, h4⟩ := C125_put_partial (t := exSel) (maxT := 8)
    (vals := ⟨[10, 20, 30, 40, 50, 60], Layout.fromShape [3, 2]⟩) (indices := [2, -3, 2]) (k := 0) (n := 3) (K := 3)
    ⟨by decide, by decide⟩
    exSel_wf (by decide) rfl (by decide) (fresh_wf (by decide)) rfl (by decide) (by unfold I32; decide) (by decide)
    (by decide)
  exact ⟨l, out, h1, h2, (h4 [2, 1] 2 (by decide) rfl).1 0 2 (by decide) rfl ⟨by decide, Or.inl rfl⟩
    (fun j' v' h => by omega)⟩

/-- **C125, index_put, false**: on every non-empty one-dimensional tensor that fills its buffer, with non-empty values,
some thread reads outside the input. -/
theorem C125_put_ub {t vals : List α} {ix : Tensor Int} {dt ixTy : DType} {maxT : Nat} (hm : GroupSize maxT)
    (hty : dt ∈ kernelTypes) (ht : t ≠ []) (hv : vals ≠ []) (hn : t.length ≤ 2 ^ 32 - 1024) :
    ∃ L, indexPutMetal maxT dt ixTy ⟨t, Layout.fromShape [t.length]⟩ 0 ix
        ⟨vals, Layout.fromShape [vals.length]⟩ = .ok L ∧
      ∀ buf, L.1.kernel.exec buf [t.length - 1] = .ub := by
  have htl : 0 < t.length := List.length_pos_iff.mpr ht
  have hvl : 0 < vals.length := List.length_pos_iff.mpr hv
  have hmd : indexPutMetadata (Layout.fromShape [t.length]) (Layout.fromShape [vals.length]) 0
      ix.layout.size (Layout.fromShape [t.length]).size =
      [t.length, 1, t.length, 1, 0, vals.length, 1, 0, 0, ix.layout.size] := by
    simp [indexPutMetadata, Layout.fromShape, Layout.ndim, Layout.computeStrides, Layout.size, shapeSize]
  have hsz : (Layout.fromShape [t.length]).size = t.length := by
    simp [Layout.fromShape, Layout.size, shapeSize]
  have hdec : decodeIndexPut [t.length, 1, t.length, 1, 0, vals.length, 1, 0, 0, ix.layout.size] =
      .ok ⟨t.length, [t.length], [1], [0], vals.length, 1, 0, 0⟩ := rfl
  obtain ⟨T, hT, h1, h2⟩ := linearSplit_ok hm.1 hm.2 htl hn
  refine ⟨(⟨strideGrid T t.length
    (indexPutVal t (asI32 ixTy ix.storage) vals ⟨t.length, [t.length], [1], [0], vals.length, 1, 0, 0⟩)
    fun i => i, t.length, [t.length]⟩, Layout.fromShape [t.length]), ?_, fun buf => ?_⟩
  · unfold indexPutMetal
    have hax : axisUsize (⟨t, Layout.fromShape [t.length]⟩ : Tensor α).dims.length 0 = 0 := rfl
    simp only
    rw [hax, hsz, show blitFirst t.length t = .ok (t.take t.length) by rw [blitFirst, if_pos (le_refl _)], Res.ok_bind,
      if_neg (by simpa using hty)]
    rw [hsz] at hmd
    rw [hmd, indexPutLoop, hdec, Res.ok_bind]
    simp only [launchStride]
    rw [hT]
    rfl
  · refine strideGrid_ub h1 h2 (by omega) ?_
    have : indexPutVal t (asI32 ixTy ix.storage) vals ⟨t.length, [t.length], [1], [0], vals.length, 1, 0, 0⟩
        (t.length - 1) = readC t (vals.length + (t.length - 1)) := by
      simp [indexPutVal, guard16, findIndexCuda, readC, cUnravel, cFlat, Nat.mod_eq_of_lt (by omega : t.length - 1 < t.length)]
    rw [this]
    simp [readC, List.getElem?_eq_none (by omega : t.length ≤ vals.length + (t.length - 1))]

example : ∃ L, indexPutMetal 256 .f32 .i32 ⟨[(1 : Int), 2, 3, 4], Layout.fromShape [4]⟩ 0 ⟨[0], Layout.fromShape [1]⟩
      ⟨[9], Layout.fromShape [1]⟩ = .ok L ∧ ∀ buf, L.1.kernel.exec buf [3] = .ub :=
  C125_put_ub (t := [(1 : Int), 2, 3, 4]) (vals := [9]) ⟨by decide, by decide⟩ (by decide) (by decide) (by decide)
    (by decide)

/-! ## Empty results -/

/-- **C125, empty results**: an empty selection panics; the CPU returns the empty tensor. -/
theorem C125_empty {t : Tensor α} {ix : Tensor Int} {dim : Int} {k : Nat} {dt : DType} (maxT : Nat) (ixTy : DType)
    (hty : dt ∈ kernelTypes) (ht : t.WF) (hr : t.dims.length < 2 ^ 31) (hk : IsAxis t.dims.length dim k)
    (hz : numel (t.dims.set k (numel ix.dims)) = 0) (zero : α) :
    indexSelectMetal maxT dt ixTy t dim ix = .panic ∧
      t.indexSelect zero dim ix = .ok ⟨[], Layout.fromShape (t.dims.set k (numel ix.dims))⟩ := by
  have hlt := hk.1
  have hix : ix.layout.size = numel ix.dims := shapeSize_eq _
  constructor
  · unfold indexSelectMetal
    simp only [axisUsize_eq hk (by omega)]
    rw [if_neg (by omega), if_neg (by simpa using hty), hix, shapeSize_eq, hz]
    unfold indexSelectLoop
    rw [decodeIndexSelect_eq ht.1, Res.ok_bind]
    simp only
    rw [(launch_empty maxT _).1]
    rfl
  · unfold Tensor.indexSelect
    simp only [axisUsize_eq hk (by omega)]
    rw [if_neg (by omega)]
    unfold callOpsIndexSelect
    rw [if_neg (by omega)]
    simp only [hix, shapeSize_eq, hz]
    unfold indexSelectKernel
    rw [decodeIndexSelect_eq ht.1, Res.ok_bind]
    rfl

/-- No index into three elements. -/
example : indexSelectMetal 1024 .f32 .i32 ⟨[(5 : Int), 6, 7], Layout.fromShape [3]⟩ 0 ⟨[], Layout.fromShape [0]⟩ =
      .panic ∧
    (⟨[(5 : Int), 6, 7], Layout.fromShape [3]⟩ : Tensor Int).indexSelect 0 0 ⟨[], Layout.fromShape [0]⟩ =
      .ok ⟨[], Layout.fromShape [0]⟩ :=
  C125_empty (t := ⟨[(5 : Int), 6, 7], Layout.fromShape [3]⟩) (k := 0) 1024 .i32 (by decide) (fresh_wf (by decide))
    (by decide) ⟨by decide, Or.inl rfl⟩ (by decide) 0

/-! ## scatter -/

theorem linearSplit_le {maxT n : Nat} (hm : GroupSize maxT) (hn : 0 < n) :
    ∃ T, linearSplit maxT n = .ok T ∧ n ≤ T ∧ T ≤ n + 1023 := by
  obtain ⟨h0, h1⟩ := hm
  have hw : 0 < min maxT n := by omega
  refine ⟨_, by simp only [linearSplit]; rw [if_neg (by omega)], ?_, ?_⟩
  · have h1 := Nat.div_add_mod (n + min maxT n - 1) (min maxT n)
    have h2 := Nat.mod_lt (n + min maxT n - 1) hw
    rw [Nat.mul_comm] at h1
    omega
  · have h1 := Nat.div_mul_le_self (n + min maxT n - 1) (min maxT n)
    omega

/-- Below `2 ^ 31` threads every index is taken by exactly one thread. -/
theorem rmwStride_takes {V W : Type} {T n : Nat} (h1 : n ≤ T) (h2 : T < 2 ^ 31)
    (job : Nat → Res (Option (Nat × V))) (word : Nat → Nat) (upd : Nat → W → V → W) (way : Way) :
    let k : Rmw W V := ⟨T, u32, fun i => u32 (i + u32 T), n, job, word, upd, way⟩
    (∀ t, t < T → (∀ j, j < (if t < n then 1 else 0) → k.next^[j] (k.start t) < n) ∧
      ¬ k.next^[if t < n then 1 else 0] (k.start t) < n) ∧
    ((List.range T).flatMap fun t => taken k t (if t < n then 1 else 0)) = List.range n := by
  intro k
  have hst : ∀ t, t < T → k.start t = t := fun t ht => u32_of_lt (by omega)
  constructor
  · intro t ht
    split_ifs with htn
    · refine ⟨fun j hj => ?_, ?_⟩
      · have : j = 0 := by omega
        subst this
        show k.start t < n
        rw [hst t ht]; exact htn
      · show ¬ u32 (k.start t + u32 T) < n
        rw [hst t ht, u32_of_lt (show T < 2 ^ 32 by omega), u32_of_lt (by omega)]
        omega
    · refine ⟨by omega, ?_⟩
      show ¬ k.start t < n
      rw [hst t ht]; exact htn
  · have key : ∀ N, N ≤ T → ((List.range N).flatMap fun t => taken k t (if t < n then 1 else 0)) =
        List.range (min N n) := by
      intro N
      induction N with
      | zero => intro _; simp
      | succ N ih =>
        intro hN
        rw [List.range_succ, List.flatMap_append, ih (by omega)]
        simp only [List.flatMap_cons, List.flatMap_nil, List.append_nil]
        split_ifs with hNn
        · rw [show min (N + 1) n = N + 1 by omega, show min N n = N by omega, List.range_succ]
          simp [taken, hst N (by omega)]
        · rw [show min (N + 1) n = n by omega, show min N n = n by omega]
          simp [taken]
    rw [key T (Nat.le_refl _), show min T n = n by omega]

/-- **C125, scatter**: for every layout of the input whose elements lie in different places among the first cells
(row-major, permuted), all layouts of indices and source, `i32` indices and every op: no access leaves its buffer, and
every finished execution leaves in a cell that no index addresses the element of the input, in every other cell one of
the source elements addressed to it.  Missing: which of several (`C125_scatter_races`), the accumulating ops
(`C125_scatter_add`), other views (`C125_scatter_view_ub`), empty sources (`C125_scatter_empty`), other types of
indices, `2 ^ 31` elements and more, rank above 16. -/
theorem C125_scatter_partial [DecidableEq α] {t src : Tensor α} {ix : Tensor Int} {dim : Int} {k n : Nat} {dt : DType}
    {maxT : Nat} (op : ScatterOp) (hm : GroupSize maxT) (hty : dt ∈ kernelTypes)
    (ht : t.WF) (hr : t.dims.length ≤ 16) (hk : IsAxis t.dims.length dim k) (hn : t.dims[k]? = some n)
    (hns : n < 2 ^ 31) (hix : ix.WF) (hs : src.WF) (hsi : Hodu.Spec.Fits src.dims ix.dims)
    (hst : FitsOff k src.dims t.dims) (hv : ∀ v ∈ ix.storage, I32 v) (h0 : 0 < numel src.dims)
    (hsz : numel src.dims ≤ 2 ^ 31 - 1024)
    (hinj : ∀ a b, InRange a t.dims → InRange b t.dims → place t.layout a = place t.layout b → a = b)
    (hcov : ∀ c, InRange c t.dims → place t.layout c < numel t.dims) (hlen : numel t.dims ≤ t.storage.length) :
    ∃ kern, scatterMetal maxT dt .i32 op t dim ix src = .ok (kern, t.storage.take (numel t.dims)) ∧
      ∀ tail : List α,
      (∀ sched, ∃ s, kern.exec (t.storage.take (numel t.dims) ++ tail) sched = .ok s ∧
        (s.finished → ∀ c, InRange c t.dims → ∃ hits, Hits n k src.dims ix c hits ∧
          (hits = [] → (⟨s.mem, t.layout⟩ : Tensor α).elem c = t.elem c) ∧
          (hits ≠ [] → ∃ p ∈ hits, (⟨s.mem, t.layout⟩ : Tensor α).elem c = src.elem p))) ∧
      ∃ B, ∀ sched s, (∀ i, i < kern.threads → B ≤ sched.count i) →
        kern.exec (t.storage.take (numel t.dims) ++ tail) sched = .ok s → s.finished := by
  have hsrc : src.layout.size = numel src.dims := shapeSize_eq _
  have htsz : t.layout.size = numel t.dims := shapeSize_eq _
  obtain ⟨T, hT, hT1, hT2⟩ := linearSplit_le hm (show 0 < src.layout.size by omega)
  have hrd : ∀ tail : List α, ∀ c, InRange c t.dims →
      (t.storage.take (numel t.dims) ++ tail)[place t.layout c]? = t.elem c := by
    intro tail c hc
    have hlt := hcov c hc
    rw [List.getElem?_append_left (by rw [List.length_take]; omega), List.getElem?_take, if_pos hlt]
    rfl
  have main := fun tail : List α => scatter_launched (l := t.layout) (src := src) (ix := ix)
    (mem := t.storage.take (numel t.dims) ++ tail) (way := .single) (threads := T) (start := u32)
    (next := fun i => u32 (i + u32 T)) (M := fun t => if t < src.layout.size then 1 else 0)
    (C105_words (V := α) fun _ x => x) ht.1 hr hn hns hix hs hsi hst hv
    (fun job => rmwStride_takes hT1 (by omega) job _ _ _) hinj
    (fun c hc => by rw [hrd tail c hc]; exact ht.2 c hc) trivial (fun _ _ => trivial)
  obtain ⟨m, hdec, hnum, _⟩ := main []
  refine ⟨⟨T, u32, fun i => u32 (i + u32 T), m.numEls, scatterJob m ix.storage src.storage, fun c => c,
    fun _ _ x => x, .single⟩, ?_, fun tail => ?_⟩
  · unfold scatterMetal
    rw [htsz, blitFirst, if_pos hlen, Res.ok_bind, if_neg (by simpa using hty), asI32_i32 hv,
      axisUsize_eq hk (by omega), scatterLoop, hdec, Res.ok_bind, rmwStride, hnum, hT]
    rfl
  · obtain ⟨m', hdec', _, e1, e2⟩ := main tail
    rw [hdec] at hdec'
    injection hdec' with hdec'
    subst hdec'
    refine ⟨fun sched => ?_, e2⟩
    obtain ⟨s, g1, g2⟩ := e1 sched
    refine ⟨s, g1, fun hfin c hc => ?_⟩
    obtain ⟨y, hy⟩ := ht.get hc
    obtain ⟨hits, order, xs, f1, f2, f3, f4⟩ := g2 hfin c hc y (by rw [hrd tail c hc]; exact hy)
    rw [foldl_last] at f4
    refine ⟨hits, f1, fun he => ?_, fun hne => ?_⟩
    · subst he
      have : order = [] := List.perm_nil.mp f2
      subst this
      have : xs = [] := by cases xs <;> simp_all
      subst this
      rw [hy]
      exact f4
    · have hone : order ≠ [] := fun h => hne (by subst h; exact (List.nil_perm.mp f2))
      obtain ⟨p, hp⟩ : ∃ p, order.getLast? = some p := ⟨_, List.getLast?_eq_getLast_of_ne_nil hone⟩
      refine ⟨p, f2.mem_iff.mp (List.mem_of_getLast? hp), ?_⟩
      have h5 : (order.map src.elem).getLast? = some (src.elem p) := by rw [List.getLast?_map, hp]; rfl
      rw [f3, List.getLast?_map] at h5
      cases hl : xs.getLast? with
      | none => rw [hl] at h5; cases h5
      | some y' =>
        rw [hl] at h5
        simp only [Option.map_some, Option.some.injEq] at h5
        rw [hl] at f4
        rw [← h5]
        exact f4

/-- The transposed matrix with two sources: the last row from the end gets the first, the row 0 the second. -/
example : ∃ kern, scatterMetal 256 .i32 .i32 .scatter exSel 0 ⟨[-1, 0], Layout.fromShape [1, 2]⟩
        ⟨[70, 80], Layout.fromShape [1, 2]⟩ = .ok (kern, exSel.storage.take (numel exSel.dims)) ∧
    ∀ tail : List Int,
      (∀ sched, ∃ s, kern.exec (exSel.storage.take (numel exSel.dims) ++ tail) sched = .ok s ∧
        (s.finished → ∀ c, InRange c exSel.dims → ∃ hits,
          Hits 3 0 [1, 2] ⟨[-1, 0], Layout.fromShape [1, 2]⟩ c hits ∧
          (hits = [] → (⟨s.mem, exSel.layout⟩ : Tensor Int).elem c = exSel.elem c) ∧
          (hits ≠ [] → ∃ p ∈ hits, (⟨s.mem, exSel.layout⟩ : Tensor Int).elem c =
            (⟨[70, 80], Layout.fromShape [1, 2]⟩ : Tensor Int).elem p))) ∧
      ∃ B, ∀ sched s, (∀ i, i < kern.threads → B ≤ sched.count i) →
        kern.exec (exSel.storage.take (numel exSel.dims) ++ tail) sched = .ok s → s.finished := by
  refine C125_scatter_partial (t := exSel) (src := ⟨[70, 80], Layout.fromShape [1, 2]⟩) (n := 3) (k := 0) .scatter
    ⟨by decide, by decide⟩ (by decide) exSel_wf (by decide) (by unfold IsAxis; decide) rfl (by decide)
    (fresh_wf (by decide)) (fresh_wf (by decide))
    ⟨rfl, fun i x y h1 h2 => by
      have h2 : ([1, 2] : List Nat)[i]? = some y := h2
      rw [show ([1, 2] : List Nat)[i]? = some x from h1] at h2; injection h2 with h2; omega⟩
    ⟨rfl, fun i x y h1 h2 h3 => ?_⟩ (by unfold I32; decide) (by decide) (by decide) ?_ ?_ (by decide)
  · match i, h1, h2, h3 with
    | 0, h1, _, _ => exact absurd rfl h1
    | 1, _, h2, h3 =>
      have h2 : some 2 = some x := h2
      have h3 : some 2 = some y := h3
      simp only [Option.some.injEq] at h2 h3
      omega
    | i + 2, _, h2, _ => simp [Tensor.dims, Layout.fromShape] at h2
  · intro a b ha hb hab
    match a, b, ha, hb with
    | [a0, a1], [b0, b1], ha, hb =>
      have h1 : a0 < 3 := ha.1
      have h2 : a1 < 2 := ha.2.1
      have h3 : b0 < 3 := hb.1
      have h4 : b1 < 2 := hb.2.1
      have : 0 + (a0 * 1 + (a1 * 3 + 0)) = 0 + (b0 * 1 + (b1 * 3 + 0)) := hab
      obtain ⟨rfl, rfl⟩ : a0 = b0 ∧ a1 = b1 := by omega
      rfl
  · intro c hc
    match c, hc with
    | [a0, a1], ha =>
      have h1 : a0 < 3 := ha.1
      have h2 : a1 < 2 := ha.2.1
      show 0 + (a0 * 1 + (a1 * 3 + 0)) < 6
      omega

/-- Two sources 8 and 9 for the only cell. -/
theorem scatter_two (op : ScatterOp) :
    scatterMetal 256 .i32 .i32 op ⟨[(5 : Int)], Layout.fromShape [1]⟩ 0 ⟨[0, 0], Layout.fromShape [2]⟩
      ⟨[8, 9], Layout.fromShape [2]⟩ = .ok (⟨2, u32, fun i => u32 (i + u32 2), 2,
        scatterJob ⟨2, [1], [1], [2], [1], [1], 0, 0, 0, 0⟩ [0, 0] [8, 9], fun c => c, fun _ _ x => x, .single⟩, [5]) :=
  rfl

/-- **C125, scatter, races**: with two sources for one cell the schedule decides which is left. -/
theorem C125_scatter_races : ∃ kern mem, scatterMetal 256 .i32 .i32 .scatter ⟨[(5 : Int)], Layout.fromShape [1]⟩ 0
      ⟨[0, 0], Layout.fromShape [2]⟩ ⟨[8, 9], Layout.fromShape [2]⟩ = .ok (kern, mem) ∧
    (∃ s, kern.exec mem [0, 0, 0, 1, 1, 1] = .ok s ∧ s.mem = [9] ∧ ∀ i, i < 2 → s.pc i = .done) ∧
    (∃ s, kern.exec mem [1, 1, 1, 0, 0, 0] = .ok s ∧ s.mem = [8] ∧ ∀ i, i < 2 → s.pc i = .done) := by
  refine ⟨_, _, scatter_two .scatter, ⟨_, rfl, by decide +kernel, ?_⟩, ⟨_, rfl, by decide +kernel, ?_⟩⟩
  all_goals
    intro i hi
    interval_cases i <;> rfl

/-- **C125, scatter_add**: adding 8 and 9 to 5 leaves 9, not 22; `scatter_max` and `scatter_min` leave 9 as well. -/
theorem C125_scatter_add (op : ScatterOp) : ∃ kern mem, scatterMetal 256 .i32 .i32 op
      ⟨[(5 : Int)], Layout.fromShape [1]⟩ 0 ⟨[0, 0], Layout.fromShape [2]⟩ ⟨[8, 9], Layout.fromShape [2]⟩ =
        .ok (kern, mem) ∧
    ∃ s, kern.exec mem [0, 0, 0, 1, 1, 1] = .ok s ∧ s.mem = [9] ∧ ∀ i, i < 2 → s.pc i = .done := by
  refine ⟨_, _, scatter_two op, _, rfl, by decide +kernel, ?_⟩
  intro i hi
  interval_cases i <;> rfl

/-- **C125, scatter into a view**: the element at offset 3 of four; the output has one cell and the kernel writes
cell 3. -/
theorem C125_scatter_view_ub : ∃ kern mem, scatterMetal 256 .i32 .i32 .scatter ⟨[(1 : Int), 2, 3, 4], ⟨[1], [1], 3⟩⟩ 0
      ⟨[0], Layout.fromShape [1]⟩ ⟨[9], Layout.fromShape [1]⟩ = .ok (kern, mem) ∧ kern.exec mem [0, 0] = .ub :=
  ⟨_, _, rfl, rfl⟩

/-- A broadcast input: the copy reads beyond its buffer. -/
theorem C125_scatter_broadcast_ub (maxT : Nat) (dt ixTy : DType) (op : ScatterOp) {t : Tensor α} (dim : Int)
    (ix : Tensor Int) (src : Tensor α) (h : t.storage.length < numel t.dims) :
    scatterMetal maxT dt ixTy op t dim ix src = .ub := by
  unfold scatterMetal blitFirst
  rw [show t.layout.size = numel t.dims from shapeSize_eq _, if_neg (by omega)]
  rfl

example : (⟨[(5 : Int)], ⟨[3], [0], 0⟩⟩ : Tensor Int).WF ∧
    scatterMetal 256 .i32 .i32 .scatter ⟨[(5 : Int)], ⟨[3], [0], 0⟩⟩ 0 ⟨[0], Layout.fromShape [1]⟩
      ⟨[9], Layout.fromShape [1]⟩ = .ub :=
  ⟨⟨rfl, fun c hc => by
    match c, hc with
    | [a], _ => rfl⟩, C125_scatter_broadcast_ub _ _ _ _ _ _ _ (by decide)⟩

/-- **C125, empty source**: the launch panics; the CPU returns the input. -/
theorem C125_scatter_empty {t src : Tensor α} {ix : Tensor Int} {dim : Int} {k : Nat} {dt : DType} (maxT : Nat)
    (ixTy : DType) (op : ScatterOp) (hty : dt ∈ kernelTypes) (ht : t.WF) (hr : t.dims.length < 2 ^ 31)
    (hk : IsAxis t.dims.length dim k) (hlen : numel t.dims ≤ t.storage.length) (hix : ix.WF) (hs : src.WF)
    (hid : ix.dims.length = t.dims.length) (hsd : src.dims.length = t.dims.length) (hz : numel src.dims = 0) :
    scatterMetal maxT dt ixTy op t dim ix src = .panic := by
  have hdec := decodeScatter_eq (l := t.layout) (ix := ix.layout) (src := src.layout) (dim := k) ht.1
    (by rw [hix.1]; exact hid) hsd (by rw [hs.1]; exact hsd)
  unfold scatterMetal
  rw [show t.layout.size = numel t.dims from shapeSize_eq _, blitFirst, if_pos hlen, Res.ok_bind,
    if_neg (by simpa using hty), axisUsize_eq hk (by omega), scatterLoop, hdec, Res.ok_bind]
  simp only [rmwStride]
  rw [show src.layout.size = numel src.dims from shapeSize_eq _, hz, linearSplit_zero]
  rfl

example : scatterMetal 256 .i32 .i32 .scatter ⟨[(5 : Int)], Layout.fromShape [1]⟩ 0 ⟨[], Layout.fromShape [0]⟩
      ⟨[], Layout.fromShape [0]⟩ = .panic ∧
    (⟨[(5 : Int)], Layout.fromShape [1]⟩ : Tensor Int).scatterWith (· + ·) max min .scatter 0
      ⟨[], Layout.fromShape [0]⟩ ⟨[], Layout.fromShape [0]⟩ = .ok ⟨[5], Layout.fromShape [1]⟩ :=
  ⟨C125_scatter_empty (t := ⟨[5], Layout.fromShape [1]⟩) (k := 0) _ _ _ (by decide) (fresh_wf (by decide)) (by decide)
    ⟨by decide, Or.inl rfl⟩ (by decide) (fresh_wf (by decide)) (fresh_wf (by decide)) rfl rfl rfl, by decide +kernel⟩

/-- **C125, types**: a type without a kernel is refused (or, in the scatter and put of a broadcast input, the copy
already went wrong). -/
theorem C125_types (maxT : Nat) {dt : DType} (ixTy : DType) (h : dt ∉ kernelTypes) (zero one : α) (t : Tensor α)
    (ix : Tensor Int) (classes : Nat) (dim : Int) :
    gatherMetal maxT dt ixTy zero t dim ix = .err ∧ onehotMetal maxT dt ixTy zero one ix classes dim = .err := by
  unfold gatherMetal onehotMetal
  simp [h]

example : gatherMetal 256 .f64 .i32 0 exSel 0 ⟨[2], Layout.fromShape [1]⟩ = .err :=
  (C125_types 256 .i32 (by decide) 0 1 exSel _ 2 0).1

end Hodu.Metal
