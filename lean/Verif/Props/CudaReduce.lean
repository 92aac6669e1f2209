import Verif.Lemmas.CudaGrid
import Verif.Props.AnyAll
import Verif.Model.CudaReduce

/-! # Property C109: reductions on CUDA -/

namespace Hodu.Cuda
open _root_.Hodu.Spec
open Cuda.Spec

variable {α β : Type}

/-! ## The walk -/

/-- **C109, against the CPU kernel**: whenever the sequential kernel succeeds with at most `2 ^ 32 - 256` results,
every interleaving of the threads ends with the same results. -/
theorem C109_like_cpu {comb : List (List Nat × α) → β} {inp : List α} {md : List Nat} {zs : List β}
    (h : reduceKernel comb inp md = .ok zs) (hn : zs.length ≤ 2 ^ 32 - 256) :
    ∃ k, reduceLoop (fun vs => .ok (comb vs)) inp md = .ok k ∧
      ∀ buf, buf.length = zs.length → Computes k buf zs := by
  unfold reduceKernel at h
  obtain ⟨m, hm, h⟩ := Res.bind_eq_ok.mp h
  refine ⟨_, by rw [reduceLoop, hm]; rfl, fun buf hb => ?_⟩
  have hg : ∀ {γ : Type} (x : Res γ), guardReduce m x = x := by
    intro γ x
    unfold guardReduce guard16 at h ⊢
    split at h
    · exact absurd h (by simp)
    · split at h
      · exact absurd h (by simp)
      · rw [if_neg (by assumption), if_neg (by assumption)]
  rw [hg] at h
  have hl : zs.length = shapeSize m.outShape := by
    have := (Res.mapL_ok_inv h).1
    simpa using this
  apply gridLoop_of_runLoop (by omega) ?_ (by omega)
  rw [← h]
  congr 1
  funext o
  rw [hg]
  cases reduceVisits m inp o <;> rfl

/-- The fields the kernel decodes for a tensor. -/
abbrev tensorMeta (t : Tensor α) (K : List Nat) (keep : Bool) : ReduceMeta where
  nd := t.dims.length
  dims := t.dims
  strides := t.layout.strides
  offset := t.layout.offset
  outShape := reduceBackendDims t.dims K keep
  axes := K
  keep := keep
  reduceSize := reduceSize t.dims K

theorem reduceCuda_eq (comb : List (List Nat × α) → Res β) {t : Tensor α} {ds : List Int} {K : List Nat} {keep : Bool}
    (ht : t.WF) (hr : t.dims.length ≤ 16) (hax : NamesAxes t.dims.length ds K)
    (hz : keep = false → ∀ p, p ∉ K → t.dims[p]? ≠ some 0)
    (hsz : numel (reduceShape K keep t.dims) ≤ 2 ^ 32 - 256) :
    reduceCuda comb t ds keep = .ok (gridLoop (numel (reduceShape K keep t.dims))
      (fun o => (reduceVisits (tensorMeta t K keep) t.storage o).bind comb) fun i => i,
      numel (reduceShape K keep t.dims), reduceShape K keep t.dims) := by
  have hg : ∀ {γ : Type} (x : Res γ), guardReduce (tensorMeta t K keep) x = x := by
    intro γ x
    unfold guardReduce guard16
    rw [if_neg (by show ¬ 16 < t.dims.length; omega),
      if_neg (by have := reduceBackendDims_rank (K := K) (keep := keep) hr; exact Nat.not_lt.mpr this)]
  have hsize : shapeSize (reduceBackendDims t.dims K keep) = numel (reduceShape K keep t.dims) := by
    rw [shapeSize_eq, numel_reduceBackendDims]
  unfold reduceCuda
  simp only
  rw [reduceAxes_eq (by omega) hax, reduceHostDims_eq hax.lt hz, Res.ok_bind]
  unfold callReduceCuda
  rw [if_neg (by
    simp only [List.any_eq_true, decide_eq_true_eq, not_exists, not_and]
    intro k hk
    have := hax.lt k hk
    exact Nat.not_le.mpr this)]
  unfold reduceLoop
  rw [decodeReduce_reduceMetadata ht.1]
  simp only [Res.ok_bind]
  rw [show t.layout.dims = t.dims from rfl, hsize, u32, Nat.mod_eq_of_lt (by omega)]
  congr 2
  congr 1
  funext o
  exact hg _

/-- The reduction of a tensor with a combination that succeeds on every fibre. -/
theorem reduceCuda_ok {t : Tensor α} {ds : List Int} {K : List Nat} {keep : Bool} (ht : t.WF)
    (hr : t.dims.length ≤ 16) (hax : NamesAxes t.dims.length ds K) (hn : K.Nodup)
    (hz : keep = false → ∀ p, p ∉ K → t.dims[p]? ≠ some 0)
    (hsz : numel (reduceShape K keep t.dims) ≤ 2 ^ 32 - 256) (comb : List (List Nat × α) → Res β)
    (hc : ∀ idx js vals, InRange idx (reduceShape K keep t.dims) → Fibre K keep t.dims idx js →
      js.map t.elem = vals.map some → ∃ v, comb (js.zip vals) = .ok v) :
    ∃ k zs, reduceCuda comb t ds keep = .ok (k, zs.length, reduceShape K keep t.dims) ∧
      (∀ buf, buf.length = zs.length → Computes k buf zs) ∧
      (⟨zs, Layout.fromShape (reduceShape K keep t.dims)⟩ : Tensor β).WF ∧
      ∀ idx, InRange idx (reduceShape K keep t.dims) →
        ∃ js vals v, Fibre K keep t.dims idx js ∧ js.map t.elem = vals.map some ∧ comb (js.zip vals) = .ok v ∧
          Tensor.elem ⟨zs, Layout.fromShape (reduceShape K keep t.dims)⟩ idx = some v := by
  obtain ⟨zs, h1, h2, h3⟩ := runLoop_elem (out := reduceShape K keep t.dims)
    (val := fun o => (reduceVisits (tensorMeta t K keep) t.storage o).bind comb)
    (fun idx hi => by
      obtain ⟨js, vals, a, b, e⟩ := reduceVisits_ok ht hn hax.lt hi
      obtain ⟨v, hv⟩ := hc idx js vals hi a b
      exact ⟨v, by rw [e]; exact hv⟩)
  refine ⟨_, zs, by rw [reduceCuda_eq comb ht hr hax hz hsz, h2], ?_, fresh_wf h2.symm, ?_⟩
  · intro buf hb
    exact gridLoop_of_runLoop hsz h1 (by omega)
  · intro idx hi
    obtain ⟨js, vals, a, b, e⟩ := reduceVisits_ok ht hn hax.lt hi
    obtain ⟨v, hv⟩ := hc idx js vals hi a b
    exact ⟨js, vals, v, a, b, hv, h3 idx hi v (by
      rw [show reduceVisits (tensorMeta t K keep) t.storage _ = _ from e]; exact hv)⟩

/-- **C109, the visited elements**: for every layout and any combination of the visited values, every interleaving of
the threads ends with, at every index, the combination of exactly the elements reduced into it, each once, in
row-major order.  Missing: repeated axes, rank above 16 (`C109_rank_ub`), empty axes without `keep_dim`, larger
results; and that the combination is that of the element type, which holds for f32 only (below). -/
theorem C109_reduce_partial {t : Tensor α} {ds : List Int} {K : List Nat} {keep : Bool} (ht : t.WF)
    (hr : t.dims.length ≤ 16) (hax : NamesAxes t.dims.length ds K) (hn : K.Nodup)
    (hz : keep = false → ∀ p, p ∉ K → t.dims[p]? ≠ some 0)
    (hsz : numel (reduceShape K keep t.dims) ≤ 2 ^ 32 - 256) (comb : List α → β) :
    ∃ k zs, reduceCuda (fun vs => .ok (comb (vs.map Prod.snd))) t ds keep =
        .ok (k, zs.length, reduceShape K keep t.dims) ∧
      (∀ buf, buf.length = zs.length → Computes k buf zs) ∧
      (⟨zs, Layout.fromShape (reduceShape K keep t.dims)⟩ : Tensor β).WF ∧
      ∀ idx, InRange idx (reduceShape K keep t.dims) →
        ∃ js vals, Fibre K keep t.dims idx js ∧ js.Nodup ∧ js.map t.elem = vals.map some ∧
          Tensor.elem ⟨zs, Layout.fromShape (reduceShape K keep t.dims)⟩ idx = some (comb vals) := by
  obtain ⟨k, zs, h1, h2, h3, h4⟩ := reduceCuda_ok ht hr hax hn hz hsz
    (fun vs : List (List Nat × α) => .ok (comb (vs.map Prod.snd))) (fun idx js vals _ _ _ => ⟨_, rfl⟩)
  refine ⟨k, zs, h1, h2, h3, fun idx hi => ?_⟩
  obtain ⟨js, vals, v, a, b, c, e⟩ := h4 idx hi
  refine ⟨js, vals, a, a.nodup, b, ?_⟩
  rw [e, ← Res.ok.inj c, List.map_snd_zip]
  have := congrArg List.length b
  simp at this
  omega

/-- Above rank 16 the first thread writes outside of its index arrays. -/
theorem C109_rank_ub (comb : List (List Nat × α) → Res β) {t : Tensor α} {K : List Nat} {keep : Bool} (ht : t.WF)
    (hr : 16 < t.dims.length) (hk : ∀ k ∈ K, k < t.dims.length)
    (hsz : numel (reduceShape K keep t.dims) ≤ 2 ^ 32 - 256) (hpos : 0 < numel (reduceShape K keep t.dims)) :
    ∃ k n, callReduceCuda comb t.storage t.layout K keep = .ok (k, n) ∧ ∀ buf : List β, k.exec buf [0] = .ub := by
  have hsize : shapeSize (reduceBackendDims t.layout.dims K keep) = numel (reduceShape K keep t.dims) := by
    rw [shapeSize_eq, numel_reduceBackendDims]
  have hany : ¬ (K.any fun k => t.layout.dims.length ≤ k) := by
    simp only [List.any_eq_true, decide_eq_true_eq, not_exists, not_and]
    intro k hk'
    have := hk k hk'
    exact Nat.not_le.mpr this
  refine ⟨_, _, by
    unfold callReduceCuda
    rw [if_neg hany]
    unfold reduceLoop
    rw [decodeReduce_reduceMetadata ht.1]
    simp only [Res.ok_bind]
    rfl, ?_⟩
  intro buf
  rw [hsize]
  apply gridLoop_ub hsz hpos
  unfold guardReduce guard16
  rw [if_pos (show 16 < t.layout.dims.length from hr)]

/-! ## Integers through `float` -/

theorem flInt_small {v : Int} (h : v.natAbs ≤ 2 ^ 24) : Flt.flInt v = v := by
  unfold Flt.flInt
  have hr : round24 v.natAbs = v.natAbs := by
    rcases Nat.lt_or_ge v.natAbs (2 ^ 24) with h' | h'
    · rw [round24, if_pos h']
    · rw [show v.natAbs = 2 ^ 24 by omega]
      decide +kernel
  rw [hr]
  split <;> omega

theorem sum_fold (vs : List Int) : ∀ acc : Int, acc.natAbs + (vs.map Int.natAbs).sum ≤ 2 ^ 24 →
    vs.foldl (fun acc v => Flt.flInt (acc + Flt.flInt v)) acc = acc + vs.sum := by
  induction vs with
  | nil => intro acc _; simp
  | cons v vs ih =>
    intro acc h
    simp only [List.map_cons, List.sum_cons] at h
    rw [List.foldl_cons, flInt_small (v := v) (by omega), flInt_small (v := acc + v) (by omega), ih _ (by omega),
      List.sum_cons, Int.add_assoc]

theorem natAbs_sum_le (vs : List Int) : vs.sum.natAbs ≤ (vs.map Int.natAbs).sum := by
  induction vs with
  | nil => simp
  | cons v vs ih =>
    simp only [List.sum_cons, List.map_cons]
    omega

theorem sum_nonneg' {vs : List Int} (h : ∀ v ∈ vs, 0 ≤ v) : 0 ≤ vs.sum := by
  induction vs with
  | nil => simp
  | cons v vs ih =>
    have := h v (by simp)
    have := ih (fun x hx => h x (by simp [hx]))
    rw [List.sum_cons]
    omega

/-- The type's range, as far as the sums need it: `int32_t` contains everything up to `2 ^ 24` in magnitude,
`uint32_t` the part that is not negative. -/
def Spec.SumFits (lo hi : Int) (vs : List Int) : Prop :=
  (lo ≤ -2 ^ 24 ∨ lo = 0 ∧ ∀ v ∈ vs, 0 ≤ v) ∧ 2 ^ 24 ≤ hi ∧ (vs.map Int.natAbs).sum ≤ 2 ^ 24

theorem sumFloat_ok {lo hi : Int} {vs : List Int} (h : SumFits lo hi vs) : sumFloat lo hi vs = .ok vs.sum := by
  obtain ⟨h1, h2, h3⟩ := h
  have hb := natAbs_sum_le vs
  unfold sumFloat toIntC
  rw [sum_fold vs 0 (by simpa using h3), Int.zero_add, if_pos]
  rcases h1 with h1 | ⟨h1, h4⟩
  · omega
  · have := sum_nonneg' h4
    omega

theorem map_snd_zip_of {t : Tensor α} {js : List (List Nat)} {vals : List α} (b : js.map t.elem = vals.map some) :
    (js.zip vals).map Prod.snd = vals := by
  rw [List.map_snd_zip]
  have := congrArg List.length b
  simp at this
  omega

/-- **C109, integer sums**: if the magnitudes of the elements summed into each index add up to at most `2 ^ 24`, every
interleaving ends with the sums.  Missing: larger elements and sums (false, `C109_full_false`). -/
theorem C109_sum_partial {t : Tensor Int} {ds : List Int} {K : List Nat} {keep : Bool} {lo hi : Int} (ht : t.WF)
    (hr : t.dims.length ≤ 16) (hax : NamesAxes t.dims.length ds K) (hn : K.Nodup)
    (hz : keep = false → ∀ p, p ∉ K → t.dims[p]? ≠ some 0)
    (hsz : numel (reduceShape K keep t.dims) ≤ 2 ^ 32 - 256)
    (hfit : ∀ (idx : List Nat) (js : List (List Nat)) (vals : List Int), InRange idx (reduceShape K keep t.dims) → Fibre K keep t.dims idx js →
      js.map t.elem = vals.map some → SumFits lo hi vals) :
    ∃ k zs, reduceCuda (fun vs => sumFloat lo hi (vs.map Prod.snd)) t ds keep =
        .ok (k, zs.length, reduceShape K keep t.dims) ∧
      (∀ buf, buf.length = zs.length → Computes k buf zs) ∧
      (⟨zs, Layout.fromShape (reduceShape K keep t.dims)⟩ : Tensor Int).WF ∧
      ∀ idx, InRange idx (reduceShape K keep t.dims) →
        ∃ (js : List (List Nat)) (vals : List Int), Fibre K keep t.dims idx js ∧ js.Nodup ∧
          js.map t.elem = vals.map some ∧
          Tensor.elem ⟨zs, Layout.fromShape (reduceShape K keep t.dims)⟩ idx = some vals.sum := by
  obtain ⟨k, zs, h1, h2, h3, h4⟩ := reduceCuda_ok ht hr hax hn hz hsz
    (fun vs : List (List Nat × Int) => sumFloat lo hi (vs.map Prod.snd)) (fun idx js vals hi a b => ⟨_, by
      rw [map_snd_zip_of b]
      exact sumFloat_ok (hfit idx js vals hi a b)⟩)
  refine ⟨k, zs, h1, h2, h3, fun idx hi => ?_⟩
  obtain ⟨js, vals, v, a, b, c, e⟩ := h4 idx hi
  refine ⟨js, vals, a, a.nodup, b, ?_⟩
  rw [map_snd_zip_of b, sumFloat_ok (hfit idx js vals hi a b)] at c
  rw [e, ← Res.ok.inj c]

/-- A transposed matrix within the bounds, and its sums. -/
example :
    let t : Tensor Int := ⟨[1, -2, 3, 4, 5, 6], ⟨[3, 2], [1, 3], 0⟩⟩
    NamesAxes 2 [0] [0] ∧ numel (reduceShape [0] false t.dims) = 2 ∧
      SumFits (-2 ^ 31) (2 ^ 31 - 1) [1, -2, 3] ∧ SumFits 0 (2 ^ 32 - 1) [4, 5, 6] ∧
      sumFloat (-2 ^ 31) (2 ^ 31 - 1) [1, -2, 3] = .ok 2 := by
  refine ⟨.inr ⟨by simp, .cons ⟨by decide, .inl rfl⟩ .nil⟩, by decide, ⟨.inl (by decide), by decide, by decide⟩,
    ⟨.inr ⟨rfl, by decide⟩, by decide, by decide⟩, by decide +kernel⟩

/-- The extreme elements of a list: a member `v` such that no other member is beyond it. -/
def Spec.IsExtreme (le : Int → Int → Prop) (vs : List Int) (v : Int) : Prop := v ∈ vs ∧ ∀ w ∈ vs, le w v

theorem max_fold (vs : List Int) (hs : ∀ v ∈ vs, v.natAbs ≤ 2 ^ 24) : ∀ acc : Int,
    let r := vs.foldl (fun acc v => if Flt.flInt v < acc then acc else Flt.flInt v) acc
    (r = acc ∨ r ∈ vs) ∧ acc ≤ r ∧ ∀ w ∈ vs, w ≤ r := by
  induction vs with
  | nil => intro acc; simp
  | cons v vs ih =>
    intro acc
    have hv := flInt_small (hs v (by simp))
    obtain ⟨h1, h2, h3⟩ := ih (fun w hw => hs w (by simp [hw])) (if v < acc then acc else v)
    simp only [List.foldl_cons, hv]
    refine ⟨?_, ?_, ?_⟩
    · rcases h1 with h1 | h1
      · rw [h1]
        split
        · exact .inl rfl
        · exact .inr (by simp)
      · exact .inr (by simp [h1])
    · refine le_trans ?_ h2
      split <;> omega
    · intro w hw
      rcases List.mem_cons.mp hw with rfl | hw
      · refine le_trans ?_ h2
        split <;> omega
      · exact h3 w hw

theorem min_fold (vs : List Int) (hs : ∀ v ∈ vs, v.natAbs ≤ 2 ^ 24) : ∀ acc : Int,
    let r := vs.foldl (fun acc v => if acc < Flt.flInt v then acc else Flt.flInt v) acc
    (r = acc ∨ r ∈ vs) ∧ r ≤ acc ∧ ∀ w ∈ vs, r ≤ w := by
  induction vs with
  | nil => intro acc; simp
  | cons v vs ih =>
    intro acc
    have hv := flInt_small (hs v (by simp))
    obtain ⟨h1, h2, h3⟩ := ih (fun w hw => hs w (by simp [hw])) (if acc < v then acc else v)
    simp only [List.foldl_cons, hv]
    refine ⟨?_, ?_, ?_⟩
    · rcases h1 with h1 | h1
      · rw [h1]
        split
        · exact .inl rfl
        · exact .inr (by simp)
      · exact .inr (by simp [h1])
    · refine le_trans h2 ?_
      split <;> omega
    · intro w hw
      rcases List.mem_cons.mp hw with rfl | hw
      · refine le_trans h2 ?_
        split <;> omega
      · exact h3 w hw

theorem maxFloat_ok {lo hi : Int} {vs : List Int} (hlo : Flt.flInt lo = lo) (hne : vs ≠ [])
    (hv : ∀ v ∈ vs, lo ≤ v ∧ v ≤ hi ∧ v.natAbs ≤ 2 ^ 24) :
    ∃ v, maxFloat lo hi vs = .ok v ∧ IsExtreme (· ≤ ·) vs v := by
  obtain ⟨h1, h2, h3⟩ := max_fold vs (fun v h => (hv v h).2.2) (Flt.flInt lo)
  generalize hr : vs.foldl (fun acc v => if Flt.flInt v < acc then acc else Flt.flInt v) (Flt.flInt lo) = r at h1 h2 h3
  have hm : r ∈ vs := by
    rcases h1 with h1 | h1
    · obtain ⟨w, hw⟩ := List.exists_mem_of_ne_nil _ hne
      have := h3 w hw
      have := (hv w hw).1
      rw [hlo] at h1
      rw [show r = w by omega]
      exact hw
    · exact h1
  refine ⟨r, ?_, hm, h3⟩
  unfold maxFloat toIntC
  rw [hr, if_pos ⟨(hv r hm).1, (hv r hm).2.1⟩]

theorem minFloat_ok {lo hi : Int} {vs : List Int} (hhi : hi ≤ Flt.flInt hi) (hne : vs ≠ [])
    (hv : ∀ v ∈ vs, lo ≤ v ∧ v ≤ hi ∧ v.natAbs ≤ 2 ^ 24) :
    ∃ v, minFloat lo hi vs = .ok v ∧ IsExtreme (· ≥ ·) vs v := by
  obtain ⟨h1, h2, h3⟩ := min_fold vs (fun v h => (hv v h).2.2) (Flt.flInt hi)
  generalize hr : vs.foldl (fun acc v => if acc < Flt.flInt v then acc else Flt.flInt v) (Flt.flInt hi) = r at h1 h2 h3
  have hm : r ∈ vs := by
    rcases h1 with h1 | h1
    · obtain ⟨w, hw⟩ := List.exists_mem_of_ne_nil _ hne
      have := h3 w hw
      have := (hv w hw).2.1
      rw [show r = w by omega]
      exact hw
    · exact h1
  refine ⟨r, ?_, hm, h3⟩
  unfold minFloat toIntC
  rw [hr, if_pos ⟨(hv r hm).1, (hv r hm).2.1⟩]

theorem fibre_values {t : Tensor α} {js : List (List Nat)} {vals : List α}
    (b : js.map t.elem = vals.map some) {v : α} (hv : v ∈ vals) : ∃ j ∈ js, t.elem j = some v := by
  have : some v ∈ js.map t.elem := by rw [b]; exact List.mem_map.mpr ⟨v, hv, rfl⟩
  obtain ⟨j, hj, e⟩ := List.mem_map.mp this
  exact ⟨j, hj, e⟩

/-- **C109, integer maxima and minima**: with elements of magnitude at most `2 ^ 24` and no empty fibre, every
interleaving ends with the maxima (minima). Missing: larger elements (false, `C109_full_false`). -/
theorem C109_max_min_partial {t : Tensor Int} {ds : List Int} {K : List Nat} {keep : Bool} {lo hi : Int} (ht : t.WF)
    (hr : t.dims.length ≤ 16) (hax : NamesAxes t.dims.length ds K) (hn : K.Nodup)
    (hz : keep = false → ∀ p, p ∉ K → t.dims[p]? ≠ some 0)
    (hsz : numel (reduceShape K keep t.dims) ≤ 2 ^ 32 - 256) (hlo : Flt.flInt lo = lo) (hhi : hi ≤ Flt.flInt hi)
    (hv : ∀ j v, t.elem j = some v → lo ≤ v ∧ v ≤ hi ∧ v.natAbs ≤ 2 ^ 24)
    (hne : ∀ idx, InRange idx (reduceShape K keep t.dims) → ∃ j, InRange j t.dims ∧ reduceIndex K keep j = idx) :
    ∀ fn le, (fn = maxFloat lo hi ∧ le = (· ≤ ·)) ∨ (fn = minFloat lo hi ∧ le = (· ≥ ·)) →
    ∃ k zs, reduceCuda (fun vs => fn (vs.map Prod.snd)) t ds keep =
        .ok (k, zs.length, reduceShape K keep t.dims) ∧
      (∀ buf, buf.length = zs.length → Computes k buf zs) ∧
      (⟨zs, Layout.fromShape (reduceShape K keep t.dims)⟩ : Tensor Int).WF ∧
      ∀ idx, InRange idx (reduceShape K keep t.dims) →
        ∃ js vals v, Fibre K keep t.dims idx js ∧ js.Nodup ∧ js.map t.elem = vals.map some ∧ IsExtreme le vals v ∧
          Tensor.elem ⟨zs, Layout.fromShape (reduceShape K keep t.dims)⟩ idx = some v := by
  intro fn le hfn
  have key : ∀ idx js vals, InRange idx (reduceShape K keep t.dims) → Fibre K keep t.dims idx js →
      js.map t.elem = vals.map some → ∃ v, fn vals = .ok v ∧ IsExtreme le vals v := by
    intro idx js vals hi a b
    have hnil : vals ≠ [] := by
      rintro rfl
      obtain ⟨j, hj1, hj2⟩ := hne idx hi
      have := (a.mem j).mpr ⟨hj1, hj2⟩
      rw [List.map_nil, List.map_eq_nil_iff] at b
      rw [b] at this
      cases this
    have hvals : ∀ v ∈ vals, lo ≤ v ∧ v ≤ _ ∧ v.natAbs ≤ 2 ^ 24 := fun v h => by
      obtain ⟨j, _, e⟩ := fibre_values b h
      exact hv j v e
    rcases hfn with ⟨rfl, rfl⟩ | ⟨rfl, rfl⟩
    · exact maxFloat_ok hlo hnil hvals
    · exact minFloat_ok hhi hnil hvals
  obtain ⟨k, zs, h1, h2, h3, h4⟩ := reduceCuda_ok ht hr hax hn hz hsz
    (fun vs : List (List Nat × Int) => fn (vs.map Prod.snd)) (fun idx js vals hi a b => by
      obtain ⟨v, e, _⟩ := key idx js vals hi a b
      exact ⟨v, by rw [map_snd_zip_of b, e]⟩)
  refine ⟨k, zs, h1, h2, h3, fun idx hi => ?_⟩
  obtain ⟨js, vals, v, a, b, c, e⟩ := h4 idx hi
  obtain ⟨w, e', hw⟩ := key idx js vals hi a b
  rw [map_snd_zip_of b, e'] at c
  rw [← Res.ok.inj c] at e
  exact ⟨js, vals, w, a, a.nodup, b, hw, e⟩

/-- The ranges of `int32_t` and `uint32_t` meet the hypotheses. -/
example : Flt.flInt (-2 ^ 31) = -2 ^ 31 ∧ 2 ^ 31 - 1 ≤ Flt.flInt (2 ^ 31 - 1) ∧ Flt.flInt 0 = 0 ∧
    2 ^ 32 - 1 ≤ Flt.flInt (2 ^ 32 - 1) ∧ maxFloat (-2 ^ 31) (2 ^ 31 - 1) [-7, -3] = .ok (-3) ∧
    minFloat 0 (2 ^ 32 - 1) [9, 4] = .ok 4 := by decide +kernel

/-! ## argmax -/

theorem argFold_congr {f g : α → α → Bool} (l : List (Nat × α)) (s : Option (Nat × α))
    (h : ∀ a b, (a ∈ l.map Prod.snd ∨ a ∈ (s.map Prod.snd).toList) → (b ∈ l.map Prod.snd ∨ b ∈ (s.map Prod.snd).toList) →
      f a b = g a b) : argFold f l s = argFold g l s := by
  induction l generalizing s with
  | nil => rfl
  | cons p l ih =>
    obtain ⟨i, v⟩ := p
    cases s with
    | none =>
      rw [argFold, argFold]
      exact ih _ (fun a b ha hb => h a b (by simp at ha ⊢; tauto) (by simp at hb ⊢; tauto))
    | some q =>
      obtain ⟨j, w⟩ := q
      rw [argFold, argFold, h v w (by simp) (by simp)]
      apply ih
      intro a b ha hb
      apply h
      · split at ha <;> simp at ha ⊢ <;> tauto
      · split at hb <;> simp at hb ⊢ <;> tauto

/-- **C109, argmax**: with integers of magnitude at most `2 ^ 24` the comparison in `float` finds the index that the CPU
kernel finds. -/
theorem C109_argmax_partial {axis : Nat} {vs : List (List Nat × Int)} (h : ∀ p ∈ vs, p.2.natAbs ≤ 2 ^ 24) :
    argComb floatGreater axis vs = argComb (fun v w => decide (w < v)) axis vs := by
  unfold argComb
  rw [argFold_congr (f := floatGreater) (g := fun v w => decide (w < v))]
  intro a b ha hb
  simp only [List.map_map, Option.map_none, Option.toList_none, List.not_mem_nil, or_false, List.mem_map,
    Function.comp] at ha hb
  obtain ⟨p, hp, rfl⟩ := ha
  obtain ⟨q, hq, rfl⟩ := hb
  unfold floatGreater
  rw [flInt_small (h p hp), flInt_small (h q hq)]

example : argComb floatGreater 0 [([0], 5), ([1], 9), ([2], 9)] = 1 := by decide +kernel

/-! ## Results stored in buffers of another type -/

theorem reduceKernel_eq (comb : List (List Nat × α) → β) {t : Tensor α} {K : List Nat} {keep : Bool} (ht : t.WF)
    (hr : t.dims.length ≤ 16) : reduceKernel comb t.storage (reduceMetadata t.layout K keep) =
      runLoop (numel (reduceShape K keep t.dims))
        (fun o => (reduceVisits (tensorMeta t K keep) t.storage o).bind fun vs => .ok (comb vs)) := by
  unfold reduceKernel
  rw [decodeReduce_reduceMetadata ht.1, Res.ok_bind]
  unfold guardReduce guard16
  rw [if_neg (by show ¬ 16 < t.dims.length; omega),
    if_neg (by have := reduceBackendDims_rank (K := K) (keep := keep) hr; exact Nat.not_lt.mpr this)]
  rw [shapeSize_eq]
  simp only
  rw [show numel (reduceBackendDims t.layout.dims K keep) = numel (reduceShape K keep t.dims) from
    numel_reduceBackendDims _ _ _]
  congr 1

/-- **C109, any and all**: the kernels store one byte per result.  In the bytes of a buffer with elements of `sz` bytes
every interleaving ends with the results one after the other, and the rest as the allocation left it. -/
theorem C109_bytes {t : Tensor α} {ds : List Int} {K : List Nat} {keep : Bool} (ht : t.WF)
    (hr : t.dims.length ≤ 16) (hax : NamesAxes t.dims.length ds K) (hn : K.Nodup)
    (hz : keep = false → ∀ p, p ∉ K → t.dims[p]? ≠ some 0)
    (hsz : numel (reduceShape K keep t.dims) ≤ 2 ^ 32 - 256) (comb : List (List Nat × α) → Nat) {sz : Nat}
    (hs : 0 < sz) :
    ∃ k zs, reduceCuda (fun vs => .ok (comb vs)) t ds keep = .ok (k, zs.length, reduceShape K keep t.dims) ∧
      zs.length = numel (reduceShape K keep t.dims) ∧
      t.reduceWith (reduceKernel comb) ds keep = .ok ⟨zs, Layout.fromShape (reduceShape K keep t.dims)⟩ ∧
      ∀ bytes : List Nat, bytes.length = zs.length * sz → Computes k bytes (zs ++ bytes.drop zs.length) := by
  obtain ⟨zs, h1, h2, _⟩ := reduceKernel_ok (K := K) (keep := keep) ht hr comb (fun _ _ => True)
    (fun idx hi => by
      obtain ⟨js, vals, a, b, c⟩ := reduceVisits_ok ht hn hax.lt hi
      exact ⟨_, trivial, c⟩)
  have hcpu : t.reduceWith (reduceKernel comb) ds keep = .ok ⟨zs, Layout.fromShape (reduceShape K keep t.dims)⟩ := by
    rw [reduceWith_eq _ hr hax hz, h1, Res.ok_bind]
  rw [reduceKernel_eq comb ht hr] at h1
  refine ⟨_, zs, by rw [reduceCuda_eq _ ht hr hax hz hsz, h2], h2, hcpu, ?_⟩
  intro bytes hb
  have hlen := Nat.le_mul_of_pos_right zs.length hs
  have := gridLoop_prefix hsz h1 (buf := bytes) (by omega)
  rwa [← h2] at this ⊢

/-- **C109, argmax on half-precision tensors**: the kernel stores four bytes per result in a buffer with two, so that the
last result lies outside. -/
theorem C109_half_ub {t : Tensor α} {ds : List Int} {K : List Nat} {keep : Bool} (ht : t.WF)
    (hr : t.dims.length ≤ 16) (hax : NamesAxes t.dims.length ds K) (hn : K.Nodup)
    (hz : keep = false → ∀ p, p ∉ K → t.dims[p]? ≠ some 0)
    (hsz : numel (reduceShape K keep t.dims) ≤ 2 ^ 32 - 256) (comb : List (List Nat × α) → Nat)
    (hpos : 0 < numel (reduceShape K keep t.dims)) :
    ∃ k n, reduceCuda (fun vs => .ok (comb vs)) t ds keep = .ok (k, n, reduceShape K keep t.dims) ∧
      ∀ words : List Nat, words.length = n * 2 / 4 → k.exec words [n - 1, n - 1] = .ub := by
  refine ⟨_, _, reduceCuda_eq _ ht hr hax hz hsz, ?_⟩
  intro words hw
  generalize hN : numel (reduceShape K keep t.dims) = N at *
  have hi := unravel_inRange (dims := reduceShape K keep t.dims) (n := N - 1) (by omega)
  obtain ⟨js, vals, a, b, e⟩ := reduceVisits_ok ht hn hax.lt hi
  rw [rowMajor_unravel (by omega)] at e
  exact gridLoop_store_ub hsz (by omega) (by rw [show reduceVisits (tensorMeta t K keep) t.storage _ = _ from e]; rfl)
    (by omega)

/-! ## Refutations -/

/-- A tensor with one axis. -/
abbrev row (xs : List α) : Tensor α := ⟨xs, Layout.fromShape [xs.length]⟩

/-- The full claim for the sums and maxima of `int32_t`: what the CPU computes, as far as it does not overflow. -/
def Spec.IntReductions : Prop :=
  (∀ vs : List Int, (∀ v ∈ vs, -2 ^ 31 ≤ v ∧ v < 2 ^ 31) → -2 ^ 31 ≤ vs.sum → vs.sum < 2 ^ 31 →
    sumFloat (-2 ^ 31) (2 ^ 31 - 1) vs = .ok vs.sum) ∧
  (∀ vs : List Int, vs ≠ [] → (∀ v ∈ vs, -2 ^ 31 ≤ v ∧ v < 2 ^ 31) →
    ∃ v, maxFloat (-2 ^ 31) (2 ^ 31 - 1) vs = .ok v ∧ IsExtreme (· ≤ ·) vs v)

/-- **C109 is false as stated**: the maximum of the single value `2 ^ 24 + 1` is `2 ^ 24`, sums stop growing at
`2 ^ 24`, the largest `int32_t` is rounded out of its type, and argmax misses the larger of two neighbours. -/
theorem C109_full_false : ¬ Spec.IntReductions ∧
    maxFloat (-2 ^ 31) (2 ^ 31 - 1) [16777217] = .ok 16777216 ∧
    sumFloat (-2 ^ 31) (2 ^ 31 - 1) [16777216, 1, 1, 1] = .ok 16777216 ∧
    maxFloat (-2 ^ 31) (2 ^ 31 - 1) [2147483647] = .ub ∧
    minFloat (-2 ^ 31) (2 ^ 31 - 1) [2147483647] = .ub ∧
    argComb floatGreater 0 [([0], 16777216), ([1], 16777217)] = 0 := by
  refine ⟨fun h => ?_, by decide +kernel, by decide +kernel, by decide +kernel, by decide +kernel, by decide +kernel⟩
  have := h.1 [16777216, 1] (by decide) (by decide) (by decide)
  revert this
  decide +kernel

/-- A row of `double`s: one value is summed to its `float` approximation (here the double next to 1 becomes 1). -/
theorem C109_double_rounds : sumDouble [0x3FF0000000000001] = 0x3FF0000000000000 := by decide +kernel

/-- **C109, dispatch**: neither the standard deviation nor the variance has a kernel, on integers neither has the mean;
only six element types have reductions at all. -/
theorem C109_dispatch :
    (∀ dt, reduceCudaRuns .std dt = false ∧ reduceCudaRuns .var dt = false) ∧
    (∀ dt, reduceCudaRuns .mean dt = true ↔ dt ∈ [DType.f32, .f64, .f16, .bf16]) ∧
    (∀ dt, reduceCudaRuns .sum dt = true ↔ dt ∈ [DType.f32, .f64, .f16, .bf16, .i32, .u32]) ∧
    (∀ op dt, dt ∉ [DType.f32, .f64, .f16, .bf16, .i32, .u32] → reduceCudaRuns op dt = false) := by
  refine ⟨fun dt => ?_, fun dt => ?_, fun dt => ?_, fun op dt => ?_⟩
  · cases dt <;> decide +kernel
  · cases dt <;> decide +kernel
  · cases dt <;> decide +kernel
  · cases op <;> cases dt <;> decide +kernel

/-- The hypotheses of `C109_bytes` and `C109_half_ub` on a row of two elements. -/
example : (row [5, 7]).dims = [2] ∧ NamesAxes 1 [] [0] ∧ numel (reduceShape [0] false [2]) = 1 ∧
    (row [5, 7]).reduceWith (reduceKernel (anyComb (· != 0))) [] false = .ok ⟨[1], Layout.fromShape []⟩ :=
  ⟨rfl, .inl ⟨rfl, rfl⟩, by decide, by decide +kernel⟩

end Hodu.Cuda
