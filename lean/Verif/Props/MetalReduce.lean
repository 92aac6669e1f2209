import Verif.Model.MetalReduce
import Verif.Props.MetalMove
import Verif.Props.CudaReduce
import Verif.Props.IntOps

/-! # Property C124: reductions on Metal -/

namespace Hodu.Metal
open _root_.Hodu _root_.Hodu.Spec Cuda Cuda.Spec Metal.Spec

variable {α β : Type}

/-! ## Launches that go wrong -/

theorem strideGrid_ub {T n i : Nat} {val : Nat → Res β} {dst : Nat → Nat} {buf : List β} (h1 : n ≤ T)
    (h2 : T < 2 ^ 32) (hi : i < n) (h : val i = .ub) : (strideGrid T n val dst).exec buf [i] = .ub := by
  have hs : ((strideGrid T n val dst).init buf).pc i = .head i := by
    show (if i < T then Pc.head (u32 i) else Pc.done) = _
    rw [if_pos (by omega), u32_of_lt (by omega)]
  have hstep : (strideGrid T n val dst).step ((strideGrid T n val dst).init buf) i = .ub := by
    unfold Loop.step
    rw [hs]
    simp only
    rw [if_pos (show i < (strideGrid T n val dst).bound from hi), show (strideGrid T n val dst).val i = .ub from h]
    rfl
  unfold Loop.exec
  simp only [Res.foldL, hstep]
  rfl

theorem strideGrid_store_ub {T n i : Nat} {v : β} {val : Nat → Res β} {dst : Nat → Nat} {buf : List β} (h1 : n ≤ T)
    (h2 : T < 2 ^ 32) (hi : i < n) (h : val i = .ok v) (hd : buf.length ≤ dst i) :
    (strideGrid T n val dst).exec buf [i, i] = .ub := by
  have hs : ((strideGrid T n val dst).init buf).pc i = .head i := by
    show (if i < T then Pc.head (u32 i) else Pc.done) = _
    rw [if_pos (by omega), u32_of_lt (by omega)]
  have hstep : (strideGrid T n val dst).step ((strideGrid T n val dst).init buf) i =
      .ok { (strideGrid T n val dst).init buf with
            pc := Function.update ((strideGrid T n val dst).init buf).pc i (.store i v) } := by
    unfold Loop.step
    rw [hs]
    simp only
    rw [if_pos (show i < (strideGrid T n val dst).bound from hi), show (strideGrid T n val dst).val i = .ok v from h]
    rfl
  have hstep2 : (strideGrid T n val dst).step { (strideGrid T n val dst).init buf with
            pc := Function.update ((strideGrid T n val dst).init buf).pc i (.store i v) } i = .ub := by
    unfold Loop.step
    simp only [Function.update_self]
    rw [if_neg (by
      show ¬ dst i < buf.length
      omega)]
  unfold Loop.exec
  simp only [Res.foldL, hstep, Res.ok_bind, hstep2]
  rfl

/-! ## Against the CPU -/

theorem reduceLoop_of_kernel {comb : List (List Nat × α) → β} {inp : List α} {md : List Nat} {zs : List β}
    (h : reduceKernel comb inp md = .ok zs) {maxT : Nat} (hm : GroupSize maxT) (h0 : 0 < zs.length)
    (hn : zs.length ≤ 2 ^ 32 - 1024) :
    ∃ k, reduceLoop maxT (fun vs => .ok (comb vs)) inp md = .ok k ∧
      ∀ buf, zs.length ≤ buf.length → Computes k buf (zs ++ buf.drop zs.length) := by
  unfold reduceKernel at h
  obtain ⟨m, hm', h⟩ := Res.bind_eq_ok.mp h
  have hg : ∀ {γ : Type} (x : Res γ), guardReduce m x = x := by
    intro γ x
    unfold guardReduce guard16 at h ⊢
    split at h
    · exact absurd h (by simp)
    · split at h
      · exact absurd h (by simp)
      · rw [if_neg (by assumption), if_neg (by assumption)]
  rw [hg] at h
  have hl : zs.length = shapeSize m.outShape := by simpa using (Res.mapL_ok_inv h).1
  have h' : runLoop (shapeSize m.outShape) (fun o => guardReduce m ((reduceVisits m inp o).bind
      fun vs => Res.ok (comb vs))) = .ok zs := by
    rw [← h]
    congr 1
    funext o
    rw [hg]
    cases reduceVisits m inp o <;> rfl
  obtain ⟨k, hk, hc⟩ := stride_of_runLoop h' hm (by omega) (by omega)
  exact ⟨k, by rw [reduceLoop, hm', Res.ok_bind, hk], hc⟩

/-- **C124, against the CPU**: whenever the reduction of the CPU, with any way to combine the visited values, gives 1 to
`2 ^ 32 - 1024` results, every interleaving of the threads, with every group size and every buffer the pool gives, ends
with the same results. -/
theorem C124_like_cpu {comb : List (List Nat × α) → β} {t : Tensor α} (ht : t.WF) {ds : List Int} {keep : Bool}
    {r : Tensor β} (h : t.reduceWith (reduceKernel comb) ds keep = .ok r) {maxT : Nat}
    (hm : GroupSize maxT) (h0 : 0 < r.storage.length) (hn : r.storage.length ≤ 2 ^ 32 - 1024) :
    Delivers (reduceMetal maxT (fun vs => .ok (comb vs)) t ds keep) r := by
  unfold Tensor.reduceWith at h
  simp only at h
  obtain ⟨out, h1, h⟩ := Res.bind_eq_ok.mp h
  obtain ⟨s, h2, h⟩ := Res.bind_eq_ok.mp h
  injection h with h
  subst h
  unfold callOpsReduce at h2
  split at h2
  · cases h2
  rename_i hany
  obtain ⟨k, hk, hc⟩ := reduceLoop_of_kernel h2 hm h0 hn
  have hs : s.length = shapeSize (reduceBackendDims t.dims (reduceAxes t.dims.length ds) keep) := by
    unfold reduceKernel at h2
    rw [decodeReduce_reduceMetadata ht.1, Res.ok_bind] at h2
    unfold guardReduce guard16 at h2
    split at h2
    · cases h2
    · split at h2
      · cases h2
      · simpa using (Res.mapL_ok_inv h2).1
  refine ⟨rfl, k, ?_, hc⟩
  unfold reduceMetal
  simp only
  rw [h1, Res.ok_bind, if_neg hany, hk, Res.ok_bind, ← hs]
  rfl

/-- The launch for a tensor. -/
theorem reduceMetal_eq (comb : List (List Nat × α) → Res β) {t : Tensor α} {ds : List Int} {K : List Nat} {keep : Bool}
    (ht : t.WF) (hr : t.dims.length ≤ 16) (hax : NamesAxes t.dims.length ds K)
    (hz : keep = false → ∀ p, p ∉ K → t.dims[p]? ≠ some 0) (maxT : Nat) :
    reduceMetal maxT comb t ds keep =
      (launchStride maxT (numel (reduceShape K keep t.dims))
        fun o => (reduceVisits (tensorMeta t K keep) t.storage o).bind comb).bind fun k =>
      .ok ⟨k, numel (reduceShape K keep t.dims), reduceShape K keep t.dims⟩ := by
  have hg : ∀ {γ : Type} (x : Res γ), guardReduce (tensorMeta t K keep) x = x := by
    intro γ x
    unfold guardReduce guard16
    rw [if_neg (by show ¬ 16 < t.dims.length; omega),
      if_neg (by have := reduceBackendDims_rank (K := K) (keep := keep) hr; exact Nat.not_lt.mpr this)]
  have hsize : shapeSize (reduceBackendDims t.dims K keep) = numel (reduceShape K keep t.dims) := by
    rw [shapeSize_eq, numel_reduceBackendDims]
  unfold reduceMetal
  simp only
  rw [reduceAxes_eq (by omega) hax, reduceHostDims_eq hax.lt hz, Res.ok_bind]
  rw [if_neg (by
    simp only [List.any_eq_true, decide_eq_true_eq, not_exists, not_and]
    intro k hk
    have := hax.lt k hk
    exact Nat.not_le.mpr this)]
  unfold reduceLoop
  rw [decodeReduce_reduceMetadata ht.1]
  simp only [Res.ok_bind]
  rw [show t.layout.dims = t.dims from rfl, hsize]
  congr 1
  congr 1
  funext o
  exact hg _

/-- The reduction of a tensor with a combination that succeeds on every fibre. -/
theorem reduceMetal_ok {t : Tensor α} {ds : List Int} {K : List Nat} {keep : Bool} (ht : t.WF)
    (hr : t.dims.length ≤ 16) (hax : NamesAxes t.dims.length ds K) (hn : K.Nodup)
    (hz : keep = false → ∀ p, p ∉ K → t.dims[p]? ≠ some 0) {maxT : Nat} (hm : GroupSize maxT)
    (h0 : 0 < numel (reduceShape K keep t.dims)) (hsz : numel (reduceShape K keep t.dims) ≤ 2 ^ 32 - 1024)
    (comb : List (List Nat × α) → Res β)
    (hc : ∀ idx js vals, InRange idx (reduceShape K keep t.dims) → Fibre K keep t.dims idx js →
      js.map t.elem = vals.map some → ∃ v, comb (js.zip vals) = .ok v) :
    ∃ r, Delivers (reduceMetal maxT comb t ds keep) r ∧ r.WF ∧ r.dims = reduceShape K keep t.dims ∧
      ∀ idx, InRange idx (reduceShape K keep t.dims) →
        ∃ js vals v, Fibre K keep t.dims idx js ∧ js.map t.elem = vals.map some ∧ comb (js.zip vals) = .ok v ∧
          r.elem idx = some v := by
  obtain ⟨zs, h1, h2, h3⟩ := runLoop_elem (out := reduceShape K keep t.dims)
    (val := fun o => (reduceVisits (tensorMeta t K keep) t.storage o).bind comb)
    (fun idx hi => by
      obtain ⟨js, vals, a, b, e⟩ := reduceVisits_ok ht hn hax.lt hi
      obtain ⟨v, hv⟩ := hc idx js vals hi a b
      exact ⟨v, by rw [e]; exact hv⟩)
  obtain ⟨k, hk, hcomp⟩ := stride_of_runLoop h1 hm h0 hsz
  refine ⟨⟨zs, Layout.fromShape (reduceShape K keep t.dims)⟩, ⟨rfl, k, ?_, hcomp⟩, fresh_wf h2.symm, rfl, ?_⟩
  · rw [reduceMetal_eq comb ht hr hax hz, hk, Res.ok_bind, ← h2]
    rfl
  · intro idx hi
    obtain ⟨js, vals, a, b, e⟩ := reduceVisits_ok ht hn hax.lt hi
    obtain ⟨v, hv⟩ := hc idx js vals hi a b
    exact ⟨js, vals, v, a, b, hv, h3 idx hi v (by
      rw [show reduceVisits (tensorMeta t K keep) t.storage _ = _ from e]; exact hv)⟩

/-- **C124, the visited elements**: for every layout and any combination of the visited values, every interleaving, group
size and pooled buffer end with, at every index, the combination of exactly the elements reduced into it, each once, in
row-major order.  Missing: repeated axes, rank above 16 (`C124_rank_ub`), results without elements (`C124_empty`), larger
results; and results stored with another size than that of the element type (`C124_arg_ub`, `C124_any_words`). -/
theorem C124_reduce_partial {t : Tensor α} {ds : List Int} {K : List Nat} {keep : Bool} (ht : t.WF)
    (hr : t.dims.length ≤ 16) (hax : NamesAxes t.dims.length ds K) (hn : K.Nodup)
    (hz : keep = false → ∀ p, p ∉ K → t.dims[p]? ≠ some 0) {maxT : Nat} (hm : GroupSize maxT)
    (h0 : 0 < numel (reduceShape K keep t.dims)) (hsz : numel (reduceShape K keep t.dims) ≤ 2 ^ 32 - 1024)
    (comb : List α → β) :
    ∃ r, Delivers (reduceMetal maxT (fun vs => .ok (comb (vs.map Prod.snd))) t ds keep) r ∧ r.WF ∧
      r.dims = reduceShape K keep t.dims ∧
      ∀ idx, InRange idx (reduceShape K keep t.dims) →
        ∃ js vals, Fibre K keep t.dims idx js ∧ js.Nodup ∧ js.map t.elem = vals.map some ∧
          r.elem idx = some (comb vals) := by
  obtain ⟨r, h1, h2, h3, h4⟩ := reduceMetal_ok ht hr hax hn hz hm h0 hsz
    (fun vs : List (List Nat × α) => .ok (comb (vs.map Prod.snd))) (fun idx js vals _ _ _ => ⟨_, rfl⟩)
  refine ⟨r, h1, h2, h3, fun idx hi => ?_⟩
  obtain ⟨js, vals, v, a, b, c, e⟩ := h4 idx hi
  refine ⟨js, vals, a, a.nodup, b, ?_⟩
  rw [e, ← Res.ok.inj c, List.map_snd_zip]
  have := congrArg List.length b
  simp at this
  omega

/-! ## Integers -/

open IntOps in
/-- A sum in the element type is the reduced sum; it is defined unless the type is `int32_t` or `int64_t`. -/
theorem foldInt_add {t : Ty} (ht : t.Std) : ∀ (vs : List Int) (a : Int), t.Holds a → (∀ v ∈ vs, t.Holds v) →
    (∀ w, Res.foldL (fun acc v => metal t .add acc v) a vs = .ok w → w = t.conv (a + vs.sum)) ∧
    (t.signed = false ∨ t.bits < 32 → ∃ w, Res.foldL (fun acc v => metal t .add acc v) a vs = .ok w)
  | [], a, ha, _ => by
    refine ⟨fun w h => ?_, fun _ => ⟨a, rfl⟩⟩
    have : a = w := Res.ok.inj h
    rw [← this, List.sum_nil, Int.add_zero, conv_of_holds ht ha]
  | v :: vs, a, ha, hv => by
    have hstep : ∀ b, metal t .add a v = .ok b → b = t.conv (a + v) := by
      intro b hb
      exact arith_map ht hb
    constructor
    · intro w h
      simp only [Res.foldL] at h
      obtain ⟨b, hb, h⟩ := Res.bind_eq_ok.mp h
      have e := hstep b hb
      have := (foldInt_add ht vs b (e ▸ conv_holds ht _) (fun x hx => hv x (List.mem_cons_of_mem _ hx))).1 w h
      rw [this, List.sum_cons]
      apply conv_congr
      rw [e, ← Int.add_assoc]
      exact (conv_modEq t (a + v)).add_right _
    · intro hs
      have h1 : ∃ b, metal t .add a v = .ok b := by
        exact ⟨_, (C122_reduced_partial ht ha (hv v List.mem_cons_self) hs).1⟩
      obtain ⟨b, hb⟩ := h1
      obtain ⟨w, hw⟩ := (foldInt_add ht vs b (hstep b hb ▸ conv_holds ht _)
        (fun x hx => hv x (List.mem_cons_of_mem _ hx))).2 hs
      exact ⟨w, by simp only [Res.foldL, hb, Res.ok_bind, hw]⟩

open IntOps in
/-- A sum all of whose partial sums have the type is exact. -/
theorem foldInt_add_exact {t : Ty} (ht : t.Std) : ∀ (vs : List Int) (a : Int),
    (∀ n, 0 < n → n ≤ vs.length → t.Holds (a + (vs.take n).sum)) →
    Res.foldL (fun acc v => metal t .add acc v) a vs = .ok (a + vs.sum)
  | [], a, _ => by rw [List.sum_nil, Int.add_zero]; rfl
  | v :: vs, a, h => by
    have h1 : metal t .add a v = .ok (a + v) := by
      have := h 1 (by omega) (by simp)
      exact arith_map_holds ht (by simpa using this)
    simp only [Res.foldL, h1, Res.ok_bind]
    rw [foldInt_add_exact ht vs (a + v) (fun n hn hl => by
      have := h (n + 1) (by omega) (by simpa using hl)
      rwa [List.take_succ_cons, List.sum_cons, ← Int.add_assoc] at this), List.sum_cons, Int.add_assoc]

open IntOps in
/-- The maximum and minimum of integers. -/
theorem foldInt_ext {t : Ty} : ∀ (vs : List Int) (a : Int),
    (∃ v, Res.foldL (fun acc v => metal t .max acc v) a vs = .ok v ∧ (v = a ∨ v ∈ vs) ∧ a ≤ v ∧ ∀ w ∈ vs, w ≤ v) ∧
    (∃ v, Res.foldL (fun acc v => metal t .min acc v) a vs = .ok v ∧ (v = a ∨ v ∈ vs) ∧ v ≤ a ∧ ∀ w ∈ vs, v ≤ w)
  | [], a => ⟨⟨a, rfl, .inl rfl, le_refl _, by simp⟩, ⟨a, rfl, .inl rfl, le_refl _, by simp⟩⟩
  | x :: vs, a => by
    constructor
    · obtain ⟨v, h1, h2, h3, h4⟩ := (foldInt_ext (t := t) vs (if a > x then a else x)).1
      refine ⟨v, h1, ?_, ?_, ?_⟩
      · rcases h2 with h2 | h2
        · rw [h2]
          split
          · exact .inl rfl
          · exact .inr List.mem_cons_self
        · exact .inr (List.mem_cons_of_mem _ h2)
      · split at h3 <;> omega
      · intro w hw
        rcases List.mem_cons.mp hw with hw | hw
        · split at h3 <;> omega
        · exact h4 w hw
    · obtain ⟨v, h1, h2, h3, h4⟩ := (foldInt_ext (t := t) vs (if a < x then a else x)).2
      refine ⟨v, h1, ?_, ?_, ?_⟩
      · rcases h2 with h2 | h2
        · rw [h2]
          split
          · exact .inl rfl
          · exact .inr List.mem_cons_self
        · exact .inr (List.mem_cons_of_mem _ h2)
      · split at h3 <;> omega
      · intro w hw
        rcases List.mem_cons.mp hw with hw | hw
        · split at h3 <;> omega
        · exact h4 w hw

open IntOps in
/-- **C124, integers**: a defined sum is the sum of the values reduced to the type; it is defined for every type but
`int32_t` and `int64_t`, and for these, and exact for all, when no partial sum leaves the type.  Maximum and minimum of
values of the type are exact.  (On CUDA the accumulators are floats, `C109_full_false`.) -/
theorem C124_int {t : Ty} (ht : t.Std) {vs : List Int} (hv : ∀ v ∈ vs, t.Holds v) :
    (∀ w, foldInt t .add vs = .ok w → w = t.conv vs.sum) ∧
    (t.signed = false ∨ t.bits < 32 → foldInt t .add vs = .ok (t.conv vs.sum)) ∧
    ((∀ n, 0 < n → n ≤ vs.length → t.Holds (vs.take n).sum) → foldInt t .add vs = .ok vs.sum) ∧
    (vs ≠ [] → ∃ v, foldInt t .max vs = .ok v ∧ IsExtreme (· ≤ ·) vs v) ∧
    (vs ≠ [] → ∃ v, foldInt t .min vs = .ok v ∧ IsExtreme (· ≥ ·) vs v) := by
  have h0 : t.Holds 0 := by
    obtain ⟨s, b⟩ := t
    rcases ht with h1 | h1 | h1 | h1 <;> simp only at h1 <;> subst h1 <;> cases s <;> decide
  obtain ⟨a, b⟩ := foldInt_add ht vs 0 h0 hv
  have a' : ∀ w, foldInt t .add vs = .ok w → w = t.conv vs.sum := by
    intro w hw
    have := a w hw
    rwa [Int.zero_add] at this
  refine ⟨a', fun hs => ?_, fun hp => ?_, fun hne => ?_, fun hne => ?_⟩
  · obtain ⟨w, hw⟩ := b hs
    rw [← a' w hw]
    exact hw
  · have := foldInt_add_exact ht vs 0 (by simpa using hp)
    rwa [Int.zero_add] at this
  · obtain ⟨v, h1, h2, h3, h4⟩ := (foldInt_ext (t := t) vs t.lo).1
    refine ⟨v, h1, ?_, h4⟩
    rcases h2 with h2 | h2
    · obtain ⟨x, hx⟩ := List.exists_mem_of_ne_nil vs hne
      have e1 := h4 x hx
      have e2 := (hv x hx).1
      rw [show v = x by omega]
      exact hx
    · exact h2
  · obtain ⟨v, h1, h2, h3, h4⟩ := (foldInt_ext (t := t) vs t.hi).2
    refine ⟨v, h1, ?_, h4⟩
    rcases h2 with h2 | h2
    · obtain ⟨x, hx⟩ := List.exists_mem_of_ne_nil vs hne
      have e1 := h4 x hx
      have e2 := (hv x hx).2
      rw [show v = x by omega]
      exact hx
    · exact h2

/-- **C124, integer reductions of tensors**: the sums of a tensor of integers whose partial sums fit. -/
theorem C124_sum_partial {t : Tensor Int} {ds : List Int} {K : List Nat} {keep : Bool} {ty : IntOps.Ty} (hty : ty.Std)
    (ht : t.WF) (hr : t.dims.length ≤ 16) (hax : NamesAxes t.dims.length ds K) (hn : K.Nodup)
    (hz : keep = false → ∀ p, p ∉ K → t.dims[p]? ≠ some 0) {maxT : Nat} (hm : GroupSize maxT)
    (h0 : 0 < numel (reduceShape K keep t.dims)) (hsz : numel (reduceShape K keep t.dims) ≤ 2 ^ 32 - 1024)
    (hv : ∀ j v, t.elem j = some v → ty.Holds v) (hs : ty.signed = false ∨ ty.bits < 32) :
    ∃ r, Delivers (reduceMetal maxT (fun vs => foldInt ty .add (vs.map Prod.snd)) t ds keep) r ∧ r.WF ∧
      r.dims = reduceShape K keep t.dims ∧
      ∀ idx, InRange idx (reduceShape K keep t.dims) →
        ∃ (js : List (List Nat)) (vals : List Int), Fibre K keep t.dims idx js ∧ js.Nodup ∧ js.map t.elem = vals.map some ∧
          r.elem idx = some (ty.conv vals.sum) := by
  have hall : ∀ (js : List (List Nat)) (vals : List Int), js.map t.elem = vals.map some →
      (js.zip vals).map Prod.snd = vals ∧ ∀ v ∈ vals, ty.Holds v := by
    intro js vals hb
    have hl := congrArg List.length hb
    simp at hl
    refine ⟨List.map_snd_zip (by omega), fun v hvm => ?_⟩
    have : some v ∈ js.map t.elem := by rw [hb]; exact List.mem_map_of_mem hvm
    obtain ⟨j, _, hj⟩ := List.mem_map.mp this
    exact hv j v hj
  obtain ⟨r, h1, h2, h3, h4⟩ := reduceMetal_ok ht hr hax hn hz hm h0 hsz
    (fun vs : List (List Nat × Int) => foldInt ty .add (vs.map Prod.snd)) (fun idx js vals _ _ hb => by
      obtain ⟨e, hh⟩ := hall js vals hb
      exact ⟨_, by rw [e]; exact (C124_int hty hh).2.1 hs⟩)
  refine ⟨r, h1, h2, h3, fun idx hi => ?_⟩
  obtain ⟨js, vals, v, a, b, c, e⟩ := h4 idx hi
  obtain ⟨e', hh⟩ := hall js vals b
  refine ⟨js, vals, a, a.nodup, b, ?_⟩
  rw [e', (C124_int hty hh).2.1 hs] at c
  rw [e, ← Res.ok.inj c]

/-! ## Results of another size than the elements -/

/-- **C124, stored sizes**: argmax and argmin store four bytes and any and all one byte per result, whatever the element
type whose size the buffer is allocated with. -/
theorem C124_sizes (op : Dispatch.ReduceOp) (dt : DType) (h : reduceMetalRuns op dt = true) :
    storedSize op dt = dt.sizeInBytes ↔
      op ∈ [.sum, .max, .min, .prod, .mean, .norm, .logSum, .logSumExp] ∨
      (op ∈ [.argMax, .argMin] ∧ dt ∈ [.f32, .i32, .u32]) ∨ (op ∈ [.any, .all] ∧ dt ∈ [.bool, .i8, .u8]) := by
  revert h
  cases op <;> cases dt <;> decide +kernel

theorem bufSize_le (s : Nat) (h : 0 < s) : bufSize s < 2 * s := by
  unfold bufSize nextPow2
  split
  · omega
  · have := Nat.log2_self_le (n := s - 1 - 1) (by omega)
    rw [pow_succ]
    omega

/-- **C124, argmax on narrow elements**: for elements of one or two bytes the last result of argmax or argmin lies outside
of every new buffer, for every shape. -/
theorem C124_arg_ub {t : Tensor α} {ds : List Int} {K : List Nat} {keep : Bool} (ht : t.WF)
    (hr : t.dims.length ≤ 16) (hax : NamesAxes t.dims.length ds K) (hn : K.Nodup)
    (hz : keep = false → ∀ p, p ∉ K → t.dims[p]? ≠ some 0) {maxT : Nat} (hm : GroupSize maxT)
    (h0 : 0 < numel (reduceShape K keep t.dims)) (hsz : numel (reduceShape K keep t.dims) ≤ 2 ^ 32 - 1024)
    (comb : List (List Nat × α) → Nat) {dt : DType} (hdt : dt.sizeInBytes ≤ 2) :
    ∃ k n, reduceMetal maxT (fun vs => .ok (comb vs)) t ds keep = .ok ⟨k, n, reduceShape K keep t.dims⟩ ∧
      ∀ words : List Nat, words.length = reduceBytes dt n / 4 → k.exec words [n - 1, n - 1] = .ub := by
  obtain ⟨T, hT, h1, h2⟩ := linearSplit_ok hm.1 hm.2 h0 hsz
  refine ⟨_, _, by rw [reduceMetal_eq _ ht hr hax hz, launchStride, hT]; rfl, ?_⟩
  intro words hw
  generalize hN : numel (reduceShape K keep t.dims) = N at *
  have hi := unravel_inRange (dims := reduceShape K keep t.dims) (n := N - 1) (by omega)
  obtain ⟨js, vals, a, b, e⟩ := reduceVisits_ok ht hn hax.lt hi
  rw [rowMajor_unravel (by omega)] at e
  have hlt : words.length ≤ N - 1 := by
    have hpos : 0 < dt.sizeInBytes := by cases dt <;> decide
    have h3 : N * dt.sizeInBytes ≤ N * 2 := Nat.mul_le_mul_left _ hdt
    have h4 := bufSize_le (N * dt.sizeInBytes) (Nat.mul_pos h0 hpos)
    rw [hw, reduceBytes]
    omega
  exact strideGrid_store_ub h1 h2 (by omega)
    (by rw [show reduceVisits (tensorMeta t K keep) t.storage _ = _ from e]; rfl) hlt

/-- **C124, any and all on wider elements**: an element of `sz` bytes of the result holds `sz` results. -/
theorem C124_any_words {comb : List (List Nat × α) → Nat} {t : Tensor α} (ht : t.WF) {ds : List Int} {keep : Bool}
    {r : Tensor Nat} (h : t.reduceWith (reduceKernel comb) ds keep = .ok r) {maxT : Nat}
    (hm : GroupSize maxT) (h0 : 0 < r.storage.length) (hn : r.storage.length ≤ 2 ^ 32 - 1024) :
    ∃ k, reduceMetal maxT (fun vs => .ok (comb vs)) t ds keep = .ok ⟨k, r.storage.length, r.dims⟩ ∧
      ∀ bytes : List Nat, r.storage.length ≤ bytes.length → ∃ fin, Computes k bytes fin ∧
        ∀ sz i, (i + 1) * sz ≤ r.storage.length →
          (fin.drop (i * sz)).take sz = (r.storage.drop (i * sz)).take sz := by
  obtain ⟨_, k, hk, hc⟩ := C124_like_cpu ht h hm h0 hn
  refine ⟨k, hk, fun bytes hb => ⟨_, hc bytes hb, fun sz i hi => ?_⟩⟩
  rw [Nat.add_mul, Nat.one_mul] at hi
  rw [List.drop_append_of_le_length (by omega), List.take_append_of_le_length (by simp; omega)]

/-- The full claim: after `any` on elements of four bytes (a buffer of at least four bytes per result) the first element
is zero or not as the first result is. -/
def Spec.AnyOfWords : Prop :=
  ∀ (t : Tensor Nat) (k : Loop Nat) (r : Tensor Nat), t.WF →
    t.reduceWith (reduceKernel (anyComb (· != 0))) [1] false = .ok r → 0 < r.storage.length →
    reduceMetal 1024 (fun vs => .ok (anyComb (· != 0) vs)) t [1] false = .ok ⟨k, r.storage.length, r.dims⟩ →
    ∀ bytes fin, bytes.length = 4 * r.storage.length → Computes k bytes fin →
      ((fin.take 4).all (· == 0) ↔ r.storage[0]? = some 0)

/-- **C124 is false as stated**: of four rows only the second has a nonzero element, and the first element of the
result is not zero. -/
theorem C124_any_false : ¬ AnyOfWords := by
  intro h
  let t : Tensor Nat := ⟨[0, 7, 0, 0], Layout.fromShape [4, 1]⟩
  let r : Tensor Nat := ⟨[0, 1, 0, 0], Layout.fromShape [4]⟩
  have hw : t.WF := fresh_wf rfl
  have hr : t.reduceWith (reduceKernel (anyComb (· != 0))) [1] false = .ok r := by decide +kernel
  obtain ⟨k, hk, hc⟩ := C124_any_words hw hr (maxT := 1024) ⟨by decide, by decide⟩ (by decide) (by decide)
  obtain ⟨fin, hf, he⟩ := hc (List.replicate 16 0) (by decide)
  have h1 := h t k r hw hr (by decide) hk (List.replicate 16 0) fin (by decide) hf
  have h2 := he 4 0 (by decide)
  rw [Nat.zero_mul, List.drop_zero, List.drop_zero] at h2
  rw [h2] at h1
  revert h1
  decide

/-! ## Outside of the hypotheses -/

/-- **C124, nothing to compute**: a reduction without results panics in the launch. -/
theorem C124_empty (comb : List (List Nat × α) → Res β) {t : Tensor α} {ds : List Int} {K : List Nat} {keep : Bool}
    (ht : t.WF) (hr : t.dims.length ≤ 16) (hax : NamesAxes t.dims.length ds K)
    (hz : keep = false → ∀ p, p ∉ K → t.dims[p]? ≠ some 0) (h0 : numel (reduceShape K keep t.dims) = 0) (maxT : Nat) :
    reduceMetal maxT comb t ds keep = .panic := by
  rw [reduceMetal_eq comb ht hr hax hz, h0, (launch_empty _ _).1]
  rfl

/-- **C124, rank**: above rank 16 the first thread writes outside of its index arrays. -/
theorem C124_rank_ub (comb : List (List Nat × α) → Res β) {t : Tensor α} {K : List Nat} {keep : Bool} (ht : t.WF)
    (hr : 16 < t.dims.length) {maxT : Nat} (hm : GroupSize maxT)
    (h0 : 0 < numel (reduceShape K keep t.dims)) (hsz : numel (reduceShape K keep t.dims) ≤ 2 ^ 32 - 1024) :
    ∃ k, reduceLoop maxT comb t.storage (reduceMetadata t.layout K keep) = .ok k ∧
      ∀ buf : List β, k.exec buf [0] = .ub := by
  have hsize : shapeSize (reduceBackendDims t.layout.dims K keep) = numel (reduceShape K keep t.dims) := by
    rw [shapeSize_eq, numel_reduceBackendDims]
  obtain ⟨T, hT, h1, h2⟩ := linearSplit_ok hm.1 hm.2 h0 hsz
  refine ⟨_, by
    unfold reduceLoop
    rw [decodeReduce_reduceMetadata ht.1]
    simp only [Res.ok_bind]
    rw [hsize, launchStride, hT]
    rfl, ?_⟩
  intro buf
  apply strideGrid_ub h1 h2 h0
  unfold guardReduce guard16
  rw [if_pos (show 16 < t.layout.dims.length from hr)]

/-- **C124, dispatch**: neither the standard deviation nor the variance has a kernel, on integers neither has the mean;
`f64` and the 8-bit floats have none at all. -/
theorem C124_dispatch :
    (∀ dt, reduceMetalRuns .std dt = false ∧ reduceMetalRuns .var dt = false) ∧
    (∀ dt, reduceMetalRuns .mean dt = true ↔ dt ∈ [DType.bf16, .f16, .f32]) ∧
    (∀ dt, reduceMetalRuns .sum dt = true ↔
      dt ∈ [DType.bf16, .f16, .f32, .i8, .i16, .i32, .i64, .u8, .u16, .u32, .u64]) ∧
    (∀ op, reduceMetalRuns op .f64 = false ∧ reduceMetalRuns op .f8e4m3 = false ∧ reduceMetalRuns op .f8e5m2 = false) ∧
    (∀ op, reduceMetalRuns op .bool = true ↔ op = .any ∨ op = .all) := by
  refine ⟨fun dt => ?_, fun dt => ?_, fun dt => ?_, fun op => ?_, fun op => ?_⟩
  · cases dt <;> decide +kernel
  · cases dt <;> decide +kernel
  · cases dt <;> decide +kernel
  · cases op <;> decide +kernel
  · cases op <;> decide +kernel

/-! ## Cases -/

/-- The hypotheses of `C124_like_cpu`, `C124_reduce_partial` and `C124_arg_ub` on two rows. -/
example : let t : Tensor Nat := ⟨[5, 7, 1, 2], Layout.fromShape [2, 2]⟩
    t.WF ∧ NamesAxes 2 [-1] [1] ∧ GroupSize 1024 ∧ numel (reduceShape [1] false t.dims) = 2 ∧
    t.reduceWith (reduceKernel fun vs => (vs.map Prod.snd).sum) [-1] false = .ok ⟨[12, 3], Layout.fromShape [2]⟩ :=
  ⟨fresh_wf rfl, .inr ⟨by simp, .cons ⟨by decide, .inr rfl⟩ .nil⟩, ⟨by decide, by decide⟩, by decide, by decide +kernel⟩

/-- Sums of bytes wrap; a sum of `int32_t` beyond the type is undefined; `2 ^ 24 + 1` keeps its last bit. -/
example : foldInt ⟨false, 8⟩ .add [200, 100] = .ok 44 ∧ foldInt ⟨true, 32⟩ .add [2147483647, 1] = .ub ∧
    foldInt ⟨true, 32⟩ .max [16777217, 5] = .ok 16777217 ∧ foldInt ⟨true, 32⟩ .add [16777216, 1] = .ok 16777217 := by
  decide +kernel

end Hodu.Metal
