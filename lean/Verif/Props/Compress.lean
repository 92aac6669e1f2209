import Verif.Props.Unique
import Mathlib.Data.List.Basic

/-!
# C65: compress

The slices (or, without an axis, the elements in row-major order) at which the condition is true.
-/

namespace Hodu
open Spec

/-! ## Specification -/

/-- The positions at which a one-dimensional condition is true, in ascending order. -/
def Spec.keptPositions (cond : Tensor Bool) : List Nat :=
  (indices cond.dims).flatten.filter fun i => cond.elem [i] == some true

/-- `y` holds the kept slices of `t` along axis `a`. -/
def Spec.IsCompressAxis (t : Tensor α) (cond : Tensor Bool) (a : Nat) (y : Tensor α) : Prop :=
  y.WF ∧ y.dims = t.dims.set a (keptPositions cond).length ∧
    ∀ idx, InRange idx y.dims → ∃ j c : Nat, idx[a]? = some j ∧ (keptPositions cond)[j]? = some c ∧
      y.elem idx = t.elem (idx.set a c)

/-- `y` holds the kept elements of `t`, counted in row-major order. -/
def Spec.IsCompressFlat (t : Tensor α) (cond : Tensor Bool) (y : Tensor α) : Prop :=
  y.WF ∧ y.dims = [(keptPositions cond).length] ∧
    ∀ j c : Nat, (keptPositions cond)[j]? = some c → y.elem [j] = t.elem (unravel t.dims c)

/-- The full claim: whatever the allocator leaves in the buffer. -/
def Spec.CompressCorrect (α : Type) : Prop :=
  ∀ (buf : Nat → List α) (t : Tensor α) (cond : Tensor Bool) (k : Nat), t.WF → cond.WF → cond.dims = [k] →
    (∀ axis a, IsAxis t.dims.length axis a → t.dims[a]? = some k →
      ∃ y, t.compress buf cond (some axis) = .ok y ∧ IsCompressAxis t cond a y) ∧
    (k = numel t.dims → ∃ y, t.compress buf cond none = .ok y ∧ IsCompressFlat t cond y)

/-! ## Lemmas -/

theorem decodeCompress_axis {l : Layout} (hl : l.strides.length = l.dims.length) (k : Nat) (axis : Option Nat) :
    decodeCompress (compressMetadata l k axis) =
      .ok ⟨l.size, l.dims, l.strides, l.offset, k, if axis.isSome then 1 else 0, axis.getD 0⟩ := by
  have e : compressMetadata l k axis =
    l.size :: l.dims.length :: (l.dims ++ (l.strides ++ [l.offset, k, if axis.isSome then 1 else 0,
      axis.getD 0])) := by cases axis <;> simp [compressMetadata, Layout.ndim]
  rw [e]
  generalize hmd : (l.size :: l.dims.length :: (l.dims ++ (l.strides ++ [l.offset, k,
    if axis.isSome then 1 else 0, axis.getD 0]))) = md
  have a0 : At md 0 (l.size :: l.dims.length :: (l.dims ++ (l.strides ++ [l.offset, k,
      if axis.isSome then 1 else 0, axis.getD 0]))) := by
    rw [hmd]; exact At.start md
  have a1 := a0.next 1 rfl
  have a2 := a1.next 2 rfl
  have a3 := a2.skip rfl (2 + l.dims.length) rfl
  have a4 := a3.skip hl (2 + 2 * l.dims.length) (by omega)
  have a5 := a4.next (2 + 2 * l.dims.length + 1) rfl
  have a6 := a5.next (2 + 2 * l.dims.length + 2) rfl
  have a7 := a6.next (2 + 2 * l.dims.length + 3) rfl
  unfold decodeCompress
  rw [a0.read, Res.ok_bind, a1.read, Res.ok_bind, a2.slice rfl, Res.ok_bind, a3.slice hl, Res.ok_bind,
    a4.read, Res.ok_bind, a5.read, Res.ok_bind, a6.read, Res.ok_bind, a7.read, Res.ok_bind]

/-- A loop that appends a block per item, into a buffer with room for all of them. -/
theorem foldL_blocks {f : List β → γ → Res (List β)} {g : γ → List β} {size : Nat} (ids : List γ)
    (h : ∀ i ∈ ids, ∀ out : List β, out.length + (g i).length ≤ size → f out i = .ok (out ++ g i))
    (out : List β) (hl : out.length + (ids.flatMap g).length ≤ size) :
    Res.foldL f out ids = .ok (out ++ ids.flatMap g) := by
  induction ids generalizing out with
  | nil => simp [Res.foldL]
  | cons i ids ih =>
    rw [List.flatMap_cons, List.length_append] at hl
    rw [Res.foldL, h i (by simp) out (by omega), Res.ok_bind, ih (fun j hj => h j (by simp [hj])) _
      (by rw [List.length_append]; omega), List.flatMap_cons, List.append_assoc]

theorem toList_get {l : List γ} {f : γ → Option β} (h : ∀ x ∈ l, (f x).isSome) :
    (l.flatMap fun x => (f x).toList).length = l.length ∧
      ∀ i : Nat, (l.flatMap fun x => (f x).toList)[i]? = l[i]?.bind f := by
  induction l with
  | nil => simp
  | cons a l ih =>
    obtain ⟨h1, h2⟩ := ih fun x hx => h x (by simp [hx])
    obtain ⟨v, hv⟩ := Option.isSome_iff_exists.mp (h a (by simp))
    constructor
    · rw [List.flatMap_cons, List.length_append, h1, hv, List.length_cons, Nat.add_comm]
      rfl
    · intro i
      cases i with
      | zero => simp [hv]
      | succ i =>
        rw [List.flatMap_cons, hv, List.getElem?_cons_succ, ← h2]
        rfl

theorem indices_get {dims idx : List Nat} (h : InRange idx dims) :
    (indices dims)[rowMajor dims idx]? = some idx := by
  unfold indices
  rw [List.getElem?_map, List.getElem?_range (rowMajor_lt h)]
  exact congrArg some (unravel_rowMajor h)

theorem indices_length (dims : List Nat) : (indices dims).length = numel dims := by simp [indices]

theorem flatMap_getD (l : List Nat) (h : Nat → List β) :
    l.flatMap h = (List.range l.length).flatMap fun j => h (l.getD j 0) := by
  have : l = (List.range l.length).map fun j => l.getD j 0 := by
    apply List.ext_getElem (by simp)
    intro i h1 h2
    simp [h1]
  conv_lhs => rw [this]
  rw [List.flatMap_map]

theorem flatMap_if (l : List Nat) (p : Nat → Bool) (h : Nat → List β) :
    (l.flatMap fun c => if p c then h c else []) = (l.filter p).flatMap h := by
  induction l with
  | nil => rfl
  | cons a l ih => cases hp : p a <;> simp [hp, ih]

/-- The condition as a fresh, contiguous tensor. -/
def mask (bs : List Bool) : Tensor Bool := ⟨bs, Layout.fromShape [bs.length]⟩

theorem keptPositions_mask (bs : List Bool) :
    keptPositions (mask bs) = (List.range bs.length).filter fun i => bs[i]? == some true := by
  unfold keptPositions
  have : (indices (mask bs).dims).flatten = List.range bs.length := by
    show (indices [bs.length]).flatten = _
    rw [indices_cons]
    simp [indices, numel, unravel, List.flatMap_def]
    generalize List.range bs.length = l
    induction l with
    | nil => rfl
    | cons a l ih => simp [ih]
  rw [this]
  congr 1
  funext i
  have : (mask bs).elem [i] = bs[i]? := by
    rw [mask, Layout.fromShape, elem_rowMajor, Nat.zero_add]
    simp [rowMajor, numel]
  rw [this]

theorem kept_count (bs : List Bool) : bs.count true = (keptPositions (mask bs)).length := by
  rw [keptPositions_mask, ← List.countP_eq_length_filter]
  induction bs with
  | nil => rfl
  | cons a bs ih =>
    rw [List.length_cons, List.range_succ_eq_map, List.countP_cons, List.countP_map, List.count_cons, ih]
    congr 1

theorem compressAxis_some {t : Tensor α} {k a : Nat} {axis : Int} (ha : IsAxis t.dims.length axis a)
    (hk : t.dims[a]? = some k) : compressAxis t k (some axis) = .ok (some a) := by
  obtain ⟨h1, h2⟩ := ha
  unfold compressAxis
  have e : (if axis < 0 then (t.dims.length : Int) + axis else axis) = (a : Int) := by
    split <;> omega
  simp only [e]
  rw [if_neg (by omega)]
  simp [hk]

/-! ## C65 -/

/-- **C65** along an axis, for every layout of the tensor, when the condition is a fresh one-dimensional
tensor and the rank is at most 32.  Missing, and false: conditions that are views
(`C65_sliced_condition_wrong`, `C65_broadcast_condition_ub`), higher ranks (`C65_rank_ub`). -/
theorem C65_axis_partial (buf : Nat → List α) {t : Tensor α} (ht : t.WF) (hr : t.dims.length ≤ 32)
    (bs : List Bool) {axis : Int} {a : Nat} (ha : IsAxis t.dims.length axis a)
    (hk : t.dims[a]? = some bs.length) :
    ∃ y, t.compress buf (mask bs) (some axis) = .ok y ∧ IsCompressAxis t (mask bs) a y := by
  have hlt : a < t.dims.length := by rw [List.getElem?_eq_some_iff] at hk; exact hk.1
  have hdec : t.dims = t.dims.take a ++ bs.length :: t.dims.drop (a + 1) := by
    rw [List.getElem?_eq_some_iff] at hk
    obtain ⟨h1, h2⟩ := hk
    rw [← h2]
    simp
  have hset : ∀ n, t.dims.set a n = t.dims.take a ++ n :: t.dims.drop (a + 1) :=
    fun n => List.set_eq_take_append_cons_drop.trans (if_pos hlt)
  have hcs : (mask bs).layout.size = bs.length := by
    show (Layout.fromShape [bs.length]).size = _
    rw [Layout.size, shapeSize_eq]
    simp [Layout.fromShape, numel]
  unfold Tensor.compress
  rw [if_neg (by simp [mask, Tensor.dims, Layout.fromShape]), hcs, compressAxis_some ha hk, Res.ok_bind]
  unfold callCompress
  have hcount : (mask bs).storage.count true = (keptPositions (mask bs)).length := kept_count bs
  rw [hcount, hcs]
  generalize hpre : t.dims.take a = pre at *
  generalize hsuf : t.dims.drop (a + 1) = suf at *
  generalize hkp : keptPositions (mask bs) = kept at *
  have hkm : ∀ c ∈ kept, c < bs.length := by
    intro c hc
    rw [← hkp, keptPositions_mask] at hc
    simpa using (List.mem_filter.mp hc).1
  have hpl : pre.length = a := by rw [← hpre, List.length_take]; omega
  by_cases h0 : kept.length = 0
  · simp only [h0, if_true, Res.ok_bind]
    have hz : numel (t.dims.set a 0) = 0 := by
      rw [hset, numel_append]; simp [numel]
    refine ⟨_, rfl, fresh_wf (by rw [hz]; rfl), by rw [hkp, h0]; rfl, ?_⟩
    intro idx hi
    have : rowMajor (t.dims.set a 0) idx < numel (t.dims.set a 0) := rowMajor_lt hi
    omega
  · rw [if_neg h0]
    simp only [shapeSize_eq]
    have hsome : ∀ p c s, InRange p pre → c < bs.length → InRange s suf → (t.elem (p ++ c :: s)).isSome := by
      intro p c s hp hc hs
      apply ht.2
      rw [hdec]
      exact (inRange_append (hp.length)).mpr ⟨hp, hc, hs⟩
    let blk : List Nat → Nat → List α := fun p c => (indices suf).flatMap fun s => (t.elem (p ++ c :: s)).toList
    let F : List Nat → Option α := fun idx => t.elem (idx.set a (kept.getD (idx.getD a 0) 0))
    have hF : ∀ p j s, InRange p pre → F (p ++ j :: s) = t.elem (p ++ kept.getD j 0 :: s) := by
      intro p j s hp
      have : p.length = a := by rw [hp.length, hpl]
      simp only [F]
      rw [← this]
      simp
    have hall : ((indices pre).flatMap fun p => kept.flatMap (blk p)) =
        (indices (t.dims.set a kept.length)).flatMap fun idx => (F idx).toList := by
      rw [hset, indices_append, List.flatMap_assoc]
      apply List.flatMap_congr
      intro p hp
      rw [mem_indices] at hp
      rw [List.flatMap_map, indices_cons, List.flatMap_assoc, flatMap_getD]
      apply List.flatMap_congr
      intro j _
      rw [List.flatMap_map]
      apply List.flatMap_congr
      intro s _
      rw [hF p j s hp]
    have hFs : ∀ idx ∈ indices (t.dims.set a kept.length), (F idx).isSome := by
      intro idx hi
      rw [mem_indices] at hi
      have hl := hi.length
      rw [hset] at hi hl
      rw [← List.take_append_drop a idx] at hi ⊢
      have hil : (idx.take a).length = pre.length := by
        rw [List.length_take, hpl, hl]; simp; omega
      rw [inRange_append hil] at hi
      cases hd : idx.drop a with
      | cons j s =>
        rw [hd] at hi
        rw [hF _ _ _ hi.1]
        obtain ⟨h1, h2, h3⟩ := hi
        apply hsome _ _ _ h1 _ h3
        apply hkm
        rw [List.getD_eq_getElem?_getD, List.getElem?_eq_getElem h2, Option.getD_some]
        exact List.getElem_mem h2
      | nil => rw [hd] at hi; exact absurd hi.2 (by simp [InRange])
    obtain ⟨hlen, hget⟩ := toList_get hFs
    rw [← hall, indices_length] at hlen
    have hker : compressKernel t.storage (mask bs).storage (compressMetadata t.layout bs.length (some a))
        (numel (t.dims.set a kept.length)) = .ok ((indices pre).flatMap fun p => kept.flatMap (blk p)) := by
      unfold compressKernel
      rw [decodeCompress_axis ht.1, Res.ok_bind, if_neg (by simp)]
      show Res.foldL _ [] (List.range (shapeSize (t.dims.take a))) = _
      rw [shapeSize_eq, hpre]
      have e : ((indices pre).flatMap fun p => kept.flatMap (blk p)) =
          (List.range (numel pre)).flatMap fun o => (List.range bs.length).flatMap fun c =>
            if bs[c]? == some true then blk (unravel pre o) c else [] := by
        unfold indices
        rw [List.flatMap_map]
        apply List.flatMap_congr
        intro o _
        rw [flatMap_if, ← hkp, keptPositions_mask]
      rw [e] at hlen ⊢
      rw [foldL_blocks (g := fun o => (List.range bs.length).flatMap fun c =>
            if bs[c]? == some true then blk (unravel pre o) c else []) (size := numel (t.dims.set a kept.length))
          _ _ [] (by rw [hlen]; simp)]
      · simp
      · intro o ho out hout
        rw [List.mem_range] at ho
        rw [foldL_blocks (g := fun c => if bs[c]? == some true then blk (unravel pre o) c else [])
          (size := numel (t.dims.set a kept.length)) _ _ out hout]
        intro c hc out hout
        rw [List.mem_range] at hc
        unfold compressSlice
        rw [show readC (mask bs).storage c = .ok bs[c] by rw [readC_eq_ok]; exact List.getElem?_eq_getElem hc,
          Res.ok_bind]
        rw [List.getElem?_eq_getElem hc] at hout ⊢
        cases hb : bs[c] with
        | false => simp
        | true =>
          rw [hb] at hout
          simp only [beq_self_eq_true, if_true] at hout ⊢
          show Res.foldL _ out (List.range (shapeSize (t.dims.drop (a + 1)))) = _
          rw [shapeSize_eq, hsuf]
          have e2 : blk (unravel pre o) c = (List.range (numel suf)).flatMap fun s =>
              (t.elem (unravel pre o ++ c :: unravel suf s)).toList := by
            simp only [blk, indices]
            rw [List.flatMap_map]
          rw [e2] at hout ⊢
          apply foldL_blocks _ _ _ hout
          intro s hs out hout
          rw [List.mem_range] at hs
          unfold compressCell
          rw [if_neg (by show ¬ 32 < t.dims.length; omega)]
          simp only [Option.getD_some]
          have hpre' : t.layout.dims.take a = pre := hpre
          have hsuf' : t.layout.dims.drop (a + 1) = suf := hsuf
          rw [hpre', hsuf', cUnravel_eq, cUnravel_eq, Nat.mod_eq_of_lt ho, Nat.mod_eq_of_lt hs]
          obtain ⟨v, hv⟩ := Option.isSome_iff_exists.mp
            (hsome _ c _ (unravel_inRange ho) hc (unravel_inRange hs))
          rw [readC_elem hv, Res.ok_bind, hv]
          rw [hv] at hout
          unfold pushOut
          rw [if_pos (by simpa [Nat.lt_iff_add_one_le] using hout)]
          rfl
    rw [hker, Res.ok_bind, Res.ok_bind]
    refine ⟨_, rfl, ?_⟩
    simp only
    have helem : ∀ idx, InRange idx (t.dims.set a kept.length) →
        Tensor.elem ⟨((indices pre).flatMap fun p => kept.flatMap (blk p)) ++
          (buf (numel (t.dims.set a kept.length))).drop ((indices pre).flatMap fun p => kept.flatMap (blk p)).length,
          Layout.fromShape (t.dims.set a kept.length)⟩ idx = F idx := by
      intro idx hi
      rw [Layout.fromShape, elem_rowMajor, Nat.zero_add, List.getElem?_append_left (by
        rw [hlen]; exact rowMajor_lt hi), hall, hget, indices_get hi]
      rfl
    refine ⟨⟨computeStrides_length _, fun idx hi => ?_⟩, by rw [hkp]; rfl, fun idx hi => ?_⟩
    · rw [helem idx hi]
      exact hFs idx (mem_indices.mpr hi)
    · have hi' : InRange idx (t.dims.set a kept.length) := hi
      have hl := hi'.length
      rw [List.length_set] at hl
      have hj : idx[a]? = some (idx[a]'(by omega)) := List.getElem?_eq_getElem _
      rw [inRange_iff] at hi'
      have hjn := hi'.2 a (by omega) (by simpa using hlt)
      rw [List.getElem_set_self] at hjn
      refine ⟨_, _, hj, by rw [hkp]; exact List.getElem?_eq_getElem hjn, ?_⟩
      rw [helem idx hi]
      simp only [F]
      rw [List.getD_eq_getElem?_getD, List.getD_eq_getElem?_getD, hj, Option.getD_some,
        List.getElem?_eq_getElem hjn, Option.getD_some]

/-- **C65** without an axis, for every layout of the tensor and a fresh one-dimensional condition with one
entry per element. -/
theorem C65_flat_partial (buf : Nat → List α) {t : Tensor α} (ht : t.WF) (bs : List Bool)
    (hk : bs.length = numel t.dims) :
    ∃ y, t.compress buf (mask bs) none = .ok y ∧ IsCompressFlat t (mask bs) y := by
  have hcs : (mask bs).layout.size = bs.length := by
    show (Layout.fromShape [bs.length]).size = _
    rw [Layout.size, shapeSize_eq]
    simp [Layout.fromShape, numel]
  have hsz : t.layout.size = numel t.dims := shapeSize_eq _
  unfold Tensor.compress
  rw [if_neg (by simp [mask, Tensor.dims, Layout.fromShape]), hcs]
  rw [show compressAxis t bs.length none = .ok none by
    unfold compressAxis; simp only; rw [if_neg (by rw [hsz, hk]; simp)], Res.ok_bind]
  unfold callCompress
  have hcount : (mask bs).storage.count true = (keptPositions (mask bs)).length := kept_count bs
  rw [hcount, hcs]
  have hkm : ∀ c ∈ keptPositions (mask bs), c < bs.length := by
    intro c hc
    rw [keptPositions_mask] at hc
    simpa using (List.mem_filter.mp hc).1
  have hsome : ∀ c, c < bs.length → (t.elem (unravel t.dims c)).isSome := fun c hc =>
    ht.2 _ (unravel_inRange (by omega))
  by_cases h0 : (keptPositions (mask bs)).length = 0
  · simp only [h0, if_true, Res.ok_bind]
    refine ⟨_, rfl, fresh_wf (by simp [numel]), by rw [h0]; rfl, ?_⟩
    intro j c hj
    rw [List.length_eq_zero_iff.mp h0] at hj
    simp at hj
  · rw [if_neg h0]
    simp only
    obtain ⟨hlen, hget⟩ := toList_get (l := keptPositions (mask bs)) (f := fun c => t.elem (unravel t.dims c))
      (fun c hc => hsome c (hkm c hc))
    have hker : compressKernel t.storage (mask bs).storage (compressMetadata t.layout bs.length none)
        (keptPositions (mask bs)).length =
        .ok ((keptPositions (mask bs)).flatMap fun c => (t.elem (unravel t.dims c)).toList) := by
      unfold compressKernel
      rw [decodeCompress_axis ht.1, Res.ok_bind, if_pos (by simp)]
      show Res.foldL _ [] (List.range (min bs.length t.layout.size)) = _
      rw [hsz, ← hk, Nat.min_self]
      have e : ((keptPositions (mask bs)).flatMap fun c => (t.elem (unravel t.dims c)).toList) =
          (List.range bs.length).flatMap fun c =>
            if bs[c]? == some true then (t.elem (unravel t.dims c)).toList else [] := by
        rw [flatMap_if, keptPositions_mask]
      rw [e] at hlen ⊢
      rw [foldL_blocks (g := fun c => if bs[c]? == some true then (t.elem (unravel t.dims c)).toList else [])
        (size := (keptPositions (mask bs)).length) _ _ [] (by rw [hlen]; simp)]
      · simp
      · intro c hc out hout
        rw [List.mem_range] at hc
        unfold compressFlatStep
        rw [show readC (mask bs).storage c = .ok bs[c] by rw [readC_eq_ok]; exact List.getElem?_eq_getElem hc,
          Res.ok_bind]
        rw [List.getElem?_eq_getElem hc] at hout ⊢
        cases hb : bs[c] with
        | false => simp
        | true =>
          rw [hb] at hout
          simp only [beq_self_eq_true, if_true] at hout ⊢
          obtain ⟨v, hv⟩ := Option.isSome_iff_exists.mp (hsome c hc)
          have : cUnravel t.layout.dims c = (unravel t.dims c, c / numel t.dims) := by
            show cUnravel t.dims c = _
            rw [cUnravel_eq, Nat.mod_eq_of_lt (by omega)]
          rw [this, readC_elem hv, Res.ok_bind, hv]
          rw [hv] at hout
          unfold pushOut
          rw [if_pos (by simpa [Nat.lt_iff_add_one_le] using hout)]
          rfl
    rw [hker, Res.ok_bind, Res.ok_bind]
    have helem : ∀ j c : Nat, (keptPositions (mask bs))[j]? = some c →
        Tensor.elem ⟨((keptPositions (mask bs)).flatMap fun c => (t.elem (unravel t.dims c)).toList) ++
          (buf (keptPositions (mask bs)).length).drop
            ((keptPositions (mask bs)).flatMap fun c => (t.elem (unravel t.dims c)).toList).length,
          Layout.fromShape [(keptPositions (mask bs)).length]⟩ [j] = t.elem (unravel t.dims c) := by
      intro j c hj
      have hjl : j < (keptPositions (mask bs)).length := by
        rw [List.getElem?_eq_some_iff] at hj; exact hj.1
      rw [Layout.fromShape, elem_rowMajor, Nat.zero_add]
      simp only [rowMajor, numel, Nat.mul_one, Nat.add_zero]
      rw [List.getElem?_append_left (by rw [hlen]; exact hjl), hget, hj]
      rfl
    refine ⟨_, rfl, ⟨computeStrides_length _, fun idx hi => ?_⟩, rfl, helem⟩
    match idx, hi with
    | [j], hi =>
      have hjl : j < (keptPositions (mask bs)).length := hi.1
      rw [helem j _ (List.getElem?_eq_getElem hjl)]
      exact hsome _ (hkm _ (List.getElem_mem hjl))

/-! ### Concrete cases -/

/-- Columns 0 and 2 of a transposed matrix. -/
example : let t : Tensor Nat := ⟨[1, 2, 3, 4, 5, 6], ⟨[2, 3], [1, 2], 0⟩⟩
    (t.compress (fun n => List.replicate n 99) (mask [true, false, true]) (some (-1))).map
      (fun y => (y.dims, y.storage)) = .ok ([2, 2], [1, 5, 2, 6]) ∧
    (t.compress (fun n => List.replicate n 99) (mask [false, true, true, false, false, true]) none).map
      (fun y => (y.dims, y.storage)) = .ok ([3], [3, 5, 6]) := by decide +kernel

/-! ## The full claim is false -/

/-- The condition is the first half of a buffer: all its `true`s are counted, and the elements nobody wrote
show what the allocator left in the buffer. -/
theorem C65_sliced_condition_wrong :
    ((⟨[7, 8], Layout.fromShape [2]⟩ : Tensor Nat).compress (fun n => List.replicate n 99)
      ⟨[true, false, true, true], ⟨[2], [1], 0⟩⟩ (some 0)).map (fun y => (y.dims, y.storage)) =
      .ok ([3], [7, 99, 99]) := by decide +kernel

/-- The condition is a broadcast single `true`: the kernel reads past the end of its buffer. -/
theorem C65_broadcast_condition_ub :
    (⟨[7, 8], Layout.fromShape [2]⟩ : Tensor Nat).compress (fun n => List.replicate n 99)
      ⟨[true], ⟨[2], [0], 0⟩⟩ (some 0) = .ub := by decide +kernel

/-- Rank 33 overruns the index array of the kernel. -/
theorem C65_rank_ub :
    (⟨[1], Layout.fromShape (List.replicate 33 1)⟩ : Tensor Nat).compress (fun n => List.replicate n 99)
      (mask [true]) (some 0) = .ub := by decide +kernel

theorem C65_full_false : ¬ Spec.CompressCorrect Nat := by
  intro h
  obtain ⟨y, h1, _⟩ := (h (fun n => List.replicate n 99) ⟨[7, 8], Layout.fromShape [2]⟩ ⟨[true], ⟨[2], [0], 0⟩⟩ 2
    (fresh_wf (by decide)) ⟨rfl, fun idx hi => by
      match idx, hi with
      | [i], _ => simp [Tensor.elem, dot]⟩ rfl).1 0 0 (by unfold IsAxis; decide) rfl
  rw [C65_broadcast_condition_ub] at h1
  cases h1

end Hodu
