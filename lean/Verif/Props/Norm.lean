import Verif.Lemmas.NormCells

/-!
# C86: normalization layers

Over the real numbers each layer of crates/hodu_nn/src/modules/norm.rs subtracts from an element the mean
of the elements it is normalized with and divides by the root of their variance plus `eps`; the theorems
say which elements those are.  Batch normalization updates its running statistics by exponential
averaging and uses them in evaluation mode.  Not checked by the code: an empty `normalized_shape`, the
number of channels, the rank of the input of `BatchNorm1D` in evaluation mode.
-/

namespace Hodu
open Spec

/-! ## Specification -/

/-- The variance (mean squared deviation) of `f` over the positions of a shape. -/
noncomputable def Spec.variance (d : List Nat) (f : List Nat → ℝ) : ℝ :=
  average d fun q => (f q - average d f) ^ 2

/-- The standardized value of `v` among the values of `f` over the positions of a shape. -/
noncomputable def Spec.standard (ε : ℝ) (d : List Nat) (f : List Nat → ℝ) (v : ℝ) : ℝ :=
  (v - average d f) / √(variance d f + ε)

/-- The weights of a layer: `G` and `B`, or one and zero if it has none. -/
def AffVal (aff : Affine ℝ) (dt : DType) (e : List Nat) (G B : List Nat → ℝ) : Prop :=
  match aff with
  | none => (∀ i, G i = 1) ∧ ∀ i, B i = 0
  | some (g, b) => TVal g dt e G ∧ TVal b dt e B

section
variable {E : Rt ℝ} {dt : DType} {d : List Nat} {X : List Nat → ℝ} {x : TT ℝ}

/-! ## Building blocks -/

theorem redR_mean_perm {l : List (List Nat)} {e : List Nat} {φ : List Nat → List Nat}
    (h : l.Perm ((allIndices e).map φ)) (F : List Nat → ℝ) :
    redR .mean (l.map F) = average e fun q => F (φ q) := by
  have h1 := (h.map F).sum_eq
  have h2 := h.length_eq
  simp only [redR, meanR, average, List.length_map] at h1 h2 ⊢
  rw [h1, h2, List.map_map]
  simp [allIndices, Function.comp_def]

theorem average_congr {e : List Nat} {f g : List Nat → ℝ} (h : ∀ q, InRange q e → f q = g q) :
    average e f = average e g := by
  unfold average
  rw [List.map_congr_left fun q hq => h q (mem_allIndices.mp hq)]

theorem axesFrom_names {n m r : Nat} (hm : 0 < m) (h : n + m ≤ r) :
    NamesAxes r (Rt.axesFrom n m) (List.range' n m) := by
  right
  refine ⟨by simp [Rt.axesFrom]; omega, ?_⟩
  unfold Rt.axesFrom
  rw [List.forall₂_map_left_iff, List.forall₂_same]
  intro k hk
  rw [List.mem_range'_1] at hk
  exact ⟨by omega, Or.inl rfl⟩

/-- Standardizing along axes, when the cell of a position `j` is `φ j q` for the positions `q` of `e`. -/
theorem TVal.standardizeAlong (hE : E.Real) (hf : dt.isFloat = true) (h : TVal x dt d X)
    (hr : d.length ≤ 16) (hpd : ∀ y ∈ d, 0 < y) {ax : List Int} {K : List Nat}
    (hax : NamesAxes d.length ax K) (hK : K.Nodup) {eps : Sc ℝ} {ε : ℝ} (hε : (E.toS eps dt).val = ε)
    (bySquare : Bool) {e : List Nat} {φ : List Nat → List Nat → List Nat}
    (hφ : ∀ j, InRange j d →
      (cell K true d (reduceIndex K true j)).Perm ((allIndices e).map (φ j))) :
    ∃ r, E.standardizeAlong bySquare eps ax x = .ok r ∧
      TVal r dt d fun j => standard ε e (fun q => X (φ j q)) (X j) := by
  have hA := aligned_keep K d
  have hpr := pos_reduceShape (K := K) (keep := true) hpd
  obtain ⟨mean, e1, v1⟩ := TVal.red hE hf (keep := true) h hr hax hK hpd (o := .mean) (by simp)
  obtain ⟨c, e2, v2⟩ := TVal.bin E hf (o := .sub) (by simp) h v1 hA.1 hpd hpr
  have hE' := hE
  obtain ⟨k, κ, lo, hi, hEA⟩ := hE'
  have v2' : TVal c dt d fun j => X j - average e fun q => X (φ j q) := v2.congr fun j hj => by
    rw [hA.2 j hj, redR_mean_perm (hφ j hj), hEA]
    rfl
  obtain ⟨sq, e3, v3⟩ : ∃ sq, (if bySquare then E.un .square c else E.bin .mul c c) = .ok sq ∧
      TVal sq dt d fun j => (X j - average e fun q => X (φ j q)) ^ 2 := by
    cases bySquare
    · obtain ⟨sq, e3, v3⟩ := TVal.bin_same E hf (o := .mul) (by simp) v2' v2' hpd
      exact ⟨sq, by simpa using e3, v3.congr fun j _ => by rw [hEA]; exact (pow_two _).symm⟩
    · obtain ⟨sq, e3, v3⟩ := TVal.un E hf .square v2'
      exact ⟨sq, by simpa using e3, v3.congr fun j _ => by rw [hEA]; exact (pow_two _).symm⟩
  obtain ⟨var, e4, v4⟩ := TVal.red hE hf (keep := true) v3 hr hax hK hpd (o := .mean) (by simp)
  obtain ⟨v, e5, v5⟩ := TVal.scal E hf (o := .add) (by simp) v4 ε
  obtain ⟨std, e6, v6⟩ := TVal.un E hf .sqrt v5
  obtain ⟨r, e7, v7⟩ := TVal.bin E hf (o := .div) (by simp) v2' v6 hA.1 hpd hpr
  refine ⟨r, ?_, v7.congr fun j hj => ?_⟩
  · have ht : E.toS eps dt = ⟨dt, ε⟩ := by rw [← hε]; rfl
    simp only [Rt.standardizeAlong, e1, e2, e3, e4, h.dtype, ht, e5, e6, e7, Res.ok_bind]
  · rw [hA.2 j hj, redR_mean_perm (hφ j hj), hEA]
    simp only [realOps, realBin, realUn, standard, variance]
    congr 2
    congr 1
    refine average_congr fun q hq => ?_
    have hm : φ j q ∈ cell K true d (reduceIndex K true j) :=
      (hφ j hj).mem_iff.mpr (List.mem_map_of_mem (mem_allIndices.mpr hq))
    have hm' := mem_cell.mp hm
    have : (average e fun q' => X (φ (φ j q) q')) = average e fun q' => X (φ j q') := by
      rw [← redR_mean_perm (hφ _ hm'.1), ← redR_mean_perm (hφ j hj), hm'.2]
    rw [this]

/-- Scale and shift with weights of the shape of the last dimensions. -/
theorem TVal.affineTrailing (hE : E.Real) (hf : dt.isFloat = true) {lead tail : List Nat}
    (h : TVal x dt (lead ++ tail) X) (hpd : ∀ y ∈ lead ++ tail, 0 < y) {aff : Affine ℝ}
    {G B : List Nat → ℝ} (ha : AffVal aff dt tail G B) :
    ∃ r, E.affine x aff = .ok r ∧ TVal r dt (lead ++ tail) fun j =>
      X j * G (j.drop lead.length) + B (j.drop lead.length) := by
  cases aff with
  | none =>
    exact ⟨x, rfl, h.congr fun j _ => by rw [ha.1, ha.2, mul_one, add_zero]⟩
  | some p =>
    obtain ⟨g, b⟩ := p
    have hb := broadcastsTo_trailing lead tail
    have hpt : ∀ y ∈ tail, 0 < y := fun y hy => hpd y (by simp [hy])
    obtain ⟨s, e1, v1⟩ := TVal.bin E hf (o := .mul) (by simp) h ha.1 hb hpd hpt
    obtain ⟨r, e2, v2⟩ := TVal.bin E hf (o := .add) (by simp) v1 ha.2 hb hpd hpt
    obtain ⟨k, κ, lo, hi', hEA⟩ := hE
    refine ⟨r, by simp only [Rt.affine, e1, Res.ok_bind, e2], v2.congr fun j hj => ?_⟩
    rw [broadcastIndex_trailing hj, hEA]
    rfl

/-- Scale and shift with one weight per channel. -/
theorem TVal.affineChannel (hE : E.Real) (hf : dt.isFloat = true) {n c : Nat} {sp : List Nat}
    (h : TVal x dt (n :: c :: sp) X) (hpd : ∀ y ∈ n :: c :: sp, 0 < y) {aff : Affine ℝ}
    {G B : List Nat → ℝ} (ha : AffVal aff dt [c] G B) :
    ∃ r, E.affineReshaped (1 :: c :: List.replicate sp.length 1) x aff = .ok r ∧
      TVal r dt (n :: c :: sp) fun j => X j * G [j.getD 1 0] + B [j.getD 1 0] := by
  cases aff with
  | none =>
    exact ⟨x, rfl, h.congr fun j _ => by rw [ha.1, ha.2, mul_one, add_zero]⟩
  | some p =>
    obtain ⟨g, b⟩ := p
    obtain ⟨g', e1, v1⟩ := ha.1.perChannel sp.length
    obtain ⟨b', e2, v2⟩ := ha.2.perChannel sp.length
    have hb := broadcastsTo_channel n c sp
    have hpe := pos_channel hpd
    obtain ⟨s, e3, v3⟩ := TVal.bin E hf (o := .mul) (by simp) h v1 hb hpd hpe
    obtain ⟨r, e4, v4⟩ := TVal.bin E hf (o := .add) (by simp) v3 v2 hb hpd hpe
    obtain ⟨k, κ, lo, hi', hEA⟩ := hE
    refine ⟨r, by simp only [Rt.affineReshaped, Rt.affine, e1, e2, e3, Res.ok_bind, e4],
      v4.congr fun j hj => ?_⟩
    match j, hj with
    | a :: b :: q, hj =>
      rw [broadcastIndex_channel hj, hEA]
      rfl

/-! ## Normalization within an example -/

theorem endsWith_append (lead ns : List Nat) : Rt.endsWith (lead ++ ns) ns = true := by
  simp [Rt.endsWith]

/-- `LayerNorm`: each element is standardized among the elements which agree with it in the leading
dimensions.  (`eps > 0` keeps the denominator from being zero.)  Missing: an empty `normalized_shape`
(`C86_layer_norm_empty`). -/
theorem C86_layer_norm_partial (hE : E.Real) (hf : dt.isFloat = true) {lead ns : List Nat}
    (h : TVal x dt (lead ++ ns) X) (hns : ns ≠ []) (hr : (lead ++ ns).length ≤ 16)
    (hpd : ∀ y ∈ lead ++ ns, 0 < y) {eps : Sc ℝ} {ε : ℝ} (hε : (E.toS eps dt).val = ε) (_h0 : 0 < ε)
    {aff : Affine ℝ} {G B : List Nat → ℝ} (ha : AffVal aff dt ns G B) :
    ∃ r, E.layerNorm ns eps aff x = .ok r ∧ TVal r dt (lead ++ ns) fun j =>
      standard ε ns (fun q => X (j.take lead.length ++ q)) (X j) * G (j.drop lead.length) +
        B (j.drop lead.length) := by
  have hm : 0 < ns.length := List.length_pos_iff.mpr hns
  obtain ⟨n, e1, v1⟩ := TVal.standardizeAlong hE hf h hr hpd
    (axesFrom_names (n := lead.length) hm (by simp)) (List.nodup_range' ..) hε false
    (φ := fun j q => j.take lead.length ++ q) (fun j hj => cell_trailing hj)
  obtain ⟨r, e2, v2⟩ := TVal.affineTrailing hE hf v1 hpd ha
  refine ⟨r, ?_, v2⟩
  rw [Rt.layerNorm, h.dims, endsWith_append, if_pos rfl]
  simp only [List.length_append, Nat.add_sub_cancel, e1, Res.ok_bind, e2]

/-- Another shape than `normalized_shape` at the end is rejected. -/
theorem C86_layer_norm_rejects {α : Type} (E : Rt α) {ns : List Nat} {x : TT α} (eps : Sc α)
    (aff : Affine α) (gamma : TT α) (h : ¬∃ lead, x.dims = lead ++ ns) :
    E.layerNorm ns eps aff x = .err ∧ E.rmsNorm ns eps gamma x = .err := by
  have : ¬Rt.endsWith x.dims ns = true := by
    intro he
    simp only [Rt.endsWith, Bool.and_eq_true, decide_eq_true_eq, beq_iff_eq] at he
    exact h ⟨x.dims.take (x.dims.length - ns.length), by
      conv => rhs; rhs; rw [← he.2]
      rw [List.take_append_drop]⟩
  exact ⟨by rw [Rt.layerNorm, if_neg this], by rw [Rt.rmsNorm, if_neg this]⟩

/-- `RMSNorm`: each element is divided by the root mean square of the elements which agree with it in
the leading dimensions.  Missing: an empty `normalized_shape`. -/
theorem C86_rms_norm_partial (hE : E.Real) (hf : dt.isFloat = true) {lead ns : List Nat}
    (h : TVal x dt (lead ++ ns) X) (hns : ns ≠ []) (hr : (lead ++ ns).length ≤ 16)
    (hpd : ∀ y ∈ lead ++ ns, 0 < y) {eps : Sc ℝ} {ε : ℝ} (hε : (E.toS eps dt).val = ε) (_h0 : 0 < ε)
    {gamma : TT ℝ} {G : List Nat → ℝ} (hg : TVal gamma dt ns G) :
    ∃ r, E.rmsNorm ns eps gamma x = .ok r ∧ TVal r dt (lead ++ ns) fun j =>
      X j / √((average ns fun q => X (j.take lead.length ++ q) ^ 2) + ε) * G (j.drop lead.length) := by
  have hm : 0 < ns.length := List.length_pos_iff.mpr hns
  have hax : NamesAxes (lead ++ ns).length (Rt.axesFrom lead.length ns.length)
      (List.range' lead.length ns.length) := axesFrom_names hm (by simp)
  have hA := aligned_keep (List.range' lead.length ns.length) (lead ++ ns)
  have hpr := pos_reduceShape (K := List.range' lead.length ns.length) (keep := true) hpd
  obtain ⟨sq, e1, v1⟩ := TVal.un E hf .square h
  obtain ⟨ms, e2, v2⟩ := TVal.red hE hf (keep := true) v1 hr hax (List.nodup_range' ..) hpd
    (o := .mean) (by simp)
  obtain ⟨v, e3, v3⟩ := TVal.scal E hf (o := .add) (by simp) v2 ε
  obtain ⟨rms, e4, v4⟩ := TVal.un E hf .sqrt v3
  obtain ⟨n, e5, v5⟩ := TVal.bin E hf (o := .div) (by simp) h v4 hA.1 hpd hpr
  have hb := broadcastsTo_trailing lead ns
  obtain ⟨r, e6, v6⟩ := TVal.bin E hf (o := .mul) (by simp) v5 hg hb hpd
    (fun y hy => hpd y (by simp [hy]))
  obtain ⟨k, κ, lo, hi', hEA⟩ := hE
  refine ⟨r, ?_, v6.congr fun j hj => ?_⟩
  · have ht : E.toS eps dt = ⟨dt, ε⟩ := by rw [← hε]; rfl
    rw [Rt.rmsNorm, h.dims, endsWith_append, if_pos rfl]
    simp only [List.length_append, Nat.add_sub_cancel, e1, e2, h.dtype, ht, e3, e4, e5, Res.ok_bind, e6]
  · rw [broadcastIndex_trailing hj, hA.2 j hj, redR_mean_perm (cell_trailing hj), hEA]
    simp only [realOps, realBin, realUn, pow_two]

/-- `InstanceNorm1D/2D/3D`: each element is standardized among the elements of the same example and
channel. -/
theorem C86_instance_norm_partial (hE : E.Real) (hf : dt.isFloat = true) {n c : Nat} {sp : List Nat}
    (h : TVal x dt (n :: c :: sp) X) (hsp : sp ≠ []) (hr : sp.length ≤ 14)
    (hpd : ∀ y ∈ n :: c :: sp, 0 < y) {eps : Sc ℝ} {ε : ℝ} (hε : (E.toS eps dt).val = ε) (_h0 : 0 < ε)
    {aff : Affine ℝ} {G B : List Nat → ℝ} (ha : AffVal aff dt [c] G B) :
    ∃ r, E.instanceNorm sp.length c eps aff x = .ok r ∧ TVal r dt (n :: c :: sp) fun j =>
      standard ε sp (fun q => X (j.take 2 ++ q)) (X j) * G [j.getD 1 0] + B [j.getD 1 0] := by
  have hm : 0 < sp.length := List.length_pos_iff.mpr hsp
  obtain ⟨y, e1, v1⟩ := TVal.standardizeAlong (d := n :: c :: sp) hE hf h (by simp; omega) hpd
    (axesFrom_names (n := 2) hm (by simp; omega)) (List.nodup_range' ..) hε true
    (φ := fun j q => j.take 2 ++ q)
    (fun j hj => cell_trailing (lead := [n, c]) (tail := sp) hj)
  obtain ⟨r, e2, v2⟩ := TVal.affineChannel hE hf v1 hpd ha
  refine ⟨r, ?_, v2⟩
  rw [Rt.instanceNorm, h.dims, if_neg (by simp)]
  simp only [e1, Res.ok_bind, e2]

/-- `GroupNorm`: each element is standardized among the elements of the same example and group of
`c / g` channels. -/
theorem C86_group_norm_partial (hE : E.Real) (hf : dt.isFloat = true) {n g w : Nat} {sp : List Nat}
    (h : TVal x dt (n :: g * w :: sp) X) (hr : sp.length ≤ 13)
    (hpd : ∀ y ∈ n :: g * w :: sp, 0 < y) {eps : Sc ℝ} {ε : ℝ} (hε : (E.toS eps dt).val = ε)
    (_h0 : 0 < ε) {aff : Affine ℝ} {G B : List Nat → ℝ} (ha : AffVal aff dt [g * w] G B) :
    ∃ r, E.groupNorm g (g * w) eps aff x = .ok r ∧ TVal r dt (n :: g * w :: sp) fun j =>
      standard ε (w :: sp)
          (fun q => X (j.getD 0 0 :: (j.getD 1 0 / w * w + q.getD 0 0) :: q.tail)) (X j) *
        G [j.getD 1 0] + B [j.getD 1 0] := by
  have hgw : 0 < g * w := hpd _ (by simp)
  have hg : 0 < g := Nat.pos_of_mul_pos_right hgw
  have hw : 0 < w := Nat.pos_of_mul_pos_left hgw
  have hdiv : g * w / g = w := Nat.mul_div_cancel_left w hg
  have hne : numel (n :: g * w :: sp) = numel (n :: g :: w :: sp) := by simp [numel, Nat.mul_assoc]
  have hpd' : ∀ y ∈ n :: g :: w :: sp, 0 < y := by
    intro y hy
    simp only [List.mem_cons] at hy
    rcases hy with rfl | rfl | rfl | hy
    · exact hpd _ (by simp)
    · exact hg
    · exact hw
    · exact hpd _ (by simp [hy])
  have hrm : ∀ a p k q, rowMajor (n :: g :: w :: sp) (a :: p :: k :: q) =
      rowMajor (n :: g * w :: sp) (a :: (p * w + k) :: q) := by
    intro a p k q
    simp only [rowMajor, numel]
    ring
  have hrange : ∀ a p k q, InRange (a :: p :: k :: q) (n :: g :: w :: sp) →
      InRange (a :: (p * w + k) :: q) (n :: g * w :: sp) := by
    rintro a p k q ⟨h1, h2, h3, h4⟩
    refine ⟨h1, ?_, h4⟩
    calc p * w + k < p * w + w := by omega
      _ = (p + 1) * w := by ring
      _ ≤ g * w := Nat.mul_le_mul_right _ h2
  obtain ⟨y, e1, v1⟩ := h.reshape (e := n :: g :: w :: sp)
    (G := fun j => X (j.getD 0 0 :: (j.getD 1 0 * w + j.getD 2 0) :: j.drop 3)) hne
    fun i j hi hj he => by
      match j, hj with
      | a :: p :: k :: q, hj =>
        rw [hrm] at he
        have := congrArg (unravel (n :: g * w :: sp)) he
        rw [unravel_rowMajor hi, unravel_rowMajor (hrange _ _ _ _ hj)] at this
        rw [this]
        rfl
  obtain ⟨z, e2, v2⟩ := TVal.standardizeAlong (d := n :: g :: w :: sp) hE hf v1 (by simp; omega) hpd'
    (axesFrom_names (n := 2) (m := sp.length + 1) (by omega) (by simp; omega)) (List.nodup_range' ..)
    hε true (φ := fun j q => j.take 2 ++ q)
    (fun j hj => cell_trailing (lead := [n, g]) (tail := w :: sp) hj)
  obtain ⟨z', e3, v3⟩ := v2.reshape (e := n :: g * w :: sp)
    (G := fun j => standard ε (w :: sp)
      (fun q => X (j.getD 0 0 :: (j.getD 1 0 / w * w + q.getD 0 0) :: q.tail)) (X j)) hne.symm
    fun i j hi hj he => by
      match i, hi with
      | a :: p :: k :: q, hi =>
        rw [hrm] at he
        have := congrArg (unravel (n :: g * w :: sp)) he
        rw [unravel_rowMajor hj, unravel_rowMajor (hrange _ _ _ _ hi)] at this
        rw [← this]
        obtain ⟨-, -, hk, -⟩ := hi
        have hp : (p * w + k) / w = p := by
          rw [Nat.mul_comm, Nat.mul_add_div hw, Nat.div_eq_of_lt hk, Nat.add_zero]
        simp only [List.getD_cons_zero, List.getD_cons_succ, hp, List.drop_succ_cons, List.drop_zero,
          List.take_succ_cons, List.take_zero, List.cons_append, List.nil_append]
        congr 1
        funext q'
        congr 3
        cases q' <;> rfl
  obtain ⟨r, e4, v4⟩ := TVal.affineChannel hE hf v3 hpd ha
  refine ⟨r, ?_, v4⟩
  unfold Rt.groupNorm
  rw [h.dims]
  simp only [ne_eq, not_true_eq_false, if_false, hdiv, e1, e2, e3, Res.ok_bind, e4]

/-! ## Batch normalization -/

theorem TVal.standardize (hE : E.Real) (hf : dt.isFloat = true) (h : TVal x dt d X)
    (hpd : ∀ y ∈ d, 0 < y) {e : List Nat} (hb : BroadcastsTo e d) (hpe : ∀ y ∈ e, 0 < y)
    {mean var : TT ℝ} {M V : List Nat → ℝ} (hm : TVal mean dt e M) (hv : TVal var dt e V) {eps : Sc ℝ}
    {ε : ℝ} (hε : (E.toS eps dt).val = ε) :
    ∃ r, E.standardize eps x mean var = .ok r ∧ TVal r dt d fun j =>
      (X j - M (broadcastIndex e j)) / √(V (broadcastIndex e j) + ε) := by
  obtain ⟨c, e1, v1⟩ := TVal.bin E hf (o := .sub) (by simp) h hm hb hpd hpe
  obtain ⟨v, e2, v2⟩ := TVal.scal E hf (o := .add) (by simp) hv ε
  obtain ⟨std, e3, v3⟩ := TVal.un E hf .sqrt v2
  obtain ⟨r, e4, v4⟩ := TVal.bin E hf (o := .div) (by simp) v1 v3 hb hpd hpe
  obtain ⟨k, κ, lo, hi, hEA⟩ := hE
  refine ⟨r, ?_, v4.congr fun j _ => by rw [hEA]; rfl⟩
  have ht : E.toS eps dt = ⟨dt, ε⟩ := by rw [← hε]; rfl
  simp only [Rt.standardize, e1, h.dtype, ht, e2, e3, Res.ok_bind, e4]

/-- Ranks the three layers are made for: `[N, C]` and `[N, C, L]`, `[N, C, H, W]`, `[N, C, D, H, W]`. -/
def Spec.BatchRank (nd : Nat) (sp : List Nat) : Prop :=
  sp.length = nd ∧ 1 ≤ nd ∧ nd ≤ 3 ∨ nd = 1 ∧ sp = []

theorem BatchNorm.shape_eq {L : Rt.BatchNorm ℝ} {n : Nat} {sp : List Nat} (hs : BatchRank L.nd sp) :
    L.shape (n :: L.features :: sp).length = 1 :: L.features :: List.replicate sp.length 1 := by
  unfold Rt.BatchNorm.shape
  rcases hs with ⟨h1, h2, h3⟩ | ⟨h1, rfl⟩
  · split
    · have : sp.length = 1 := by omega
      simp [this]
    · rw [h1]
  · simp [h1]

theorem BatchNorm.axes_eq {L : Rt.BatchNorm ℝ} {n : Nat} {sp : List Nat} (hs : BatchRank L.nd sp) :
    L.axes (n :: L.features :: sp).length = some (0 :: Rt.axesFrom 2 sp.length) := by
  unfold Rt.BatchNorm.axes
  rcases hs with ⟨h1, h2, h3⟩ | ⟨h1, rfl⟩
  · split
    · have : sp.length = 1 := by omega
      simp [this, Rt.axesFrom]
    · simp [h1]
  · simp [h1, Rt.axesFrom]

theorem names_channel (sp : List Nat) (n c : Nat) :
    NamesAxes (n :: c :: sp).length (0 :: Rt.axesFrom 2 sp.length) (0 :: List.range' 2 sp.length) := by
  right
  refine ⟨by simp, List.Forall₂.cons ⟨by simp, Or.inl rfl⟩ ?_⟩
  unfold Rt.axesFrom
  rw [List.forall₂_map_left_iff, List.forall₂_same]
  intro k hk
  rw [List.mem_range'_1] at hk
  exact ⟨by simp; omega, Or.inl rfl⟩

theorem reduceShape_channel (n c : Nat) (sp : List Nat) :
    reduceShape (0 :: List.range' 2 sp.length) true (n :: c :: sp) =
      1 :: c :: List.replicate sp.length 1 := by
  simp only [reduceShape, unitAxes, if_true, List.mapIdx_cons, List.mem_cons, true_or]
  refine congrArg₂ _ rfl (congrArg₂ _ (by simp) ?_)
  apply List.ext_getElem (by simp)
  intro k h1 h2
  simp only [List.length_mapIdx] at h1
  simp; omega

/-- The values of channel `c`: example and spatial position are free. -/
def Spec.channel (X : List Nat → ℝ) (c : Nat) (q : List Nat) : ℝ := X (q.headD 0 :: c :: q.tail)

/-- A running statistic after a batch. -/
theorem TVal.bnUpdate (hE : E.Real) (hf : dt.isFloat = true) {L : Rt.BatchNorm ℝ} {m : Nat} {r s : TT ℝ}
    {R S : List Nat → ℝ} (hr : TVal r dt [L.features] R)
    (hs : TVal s dt (1 :: L.features :: List.replicate m 1) fun j => S [j.getD 1 0])
    (hp : 0 < L.features) {μ : ℝ} (hμ : (E.toS L.momentum dt).val = μ) :
    ∃ r', E.bnUpdate L dt r s = .ok r' ∧
      TVal r' dt [L.features] fun j => μ * R j + (1 - μ) * S j := by
  have hpd : ∀ y ∈ [L.features], 0 < y := by simpa using hp
  obtain ⟨s', e1, v1⟩ := hs.reshape (e := [L.features]) (G := S) (by simp [numel, numel_ones])
    fun i j hi hj he => by
      match j, hj, i, hi with
      | [k], ⟨hk, _⟩, a :: b :: q, ⟨ha, hb, hq⟩ =>
        obtain rfl : a = 0 := by omega
        rw [inRange_ones hq] at he
        simp [rowMajor, numel_ones, rowMajor_replicate_zero, numel] at he
        simp [he]
  obtain ⟨a, e2, v2⟩ := TVal.scal E hf (o := .mul) (by simp) hr μ
  obtain ⟨b, e3, v3⟩ := TVal.scal E hf (o := .mul) (by simp) v1 (E.A.bin .sub (E.A.cst .one) μ)
  obtain ⟨r', e4, v4⟩ := TVal.bin_same E hf (o := .add) (by simp) v2 v3 hpd
  obtain ⟨k, κ, lo, hi, hEA⟩ := hE
  refine ⟨r', ?_, v4.congr fun j _ => ?_⟩
  · have ht : E.toS L.momentum dt = ⟨dt, μ⟩ := by rw [← hμ]; rfl
    simp only [Rt.bnUpdate, e1, ht, e2, e3, Res.ok_bind, e4]
  · rw [hEA]
    simp only [realOps, realBin, realCst]
    ring

/-- Batch normalization in training mode: each element is standardized among the elements of its channel,
in all examples and positions; the running statistics move towards mean and variance of the channels. -/
theorem C86_batch_norm_train_partial (hE : E.Real) (hf : dt.isFloat = true) {L : Rt.BatchNorm ℝ} {n : Nat}
    {sp : List Nat} (h : TVal x dt (n :: L.features :: sp) X) (hs : BatchRank L.nd sp)
    (hpd : ∀ y ∈ n :: L.features :: sp, 0 < y) {ε μ : ℝ} (hε : (E.toS L.eps dt).val = ε) (_h0 : 0 < ε)
    (hμ : (E.toS L.momentum dt).val = μ) {G B M V : List Nat → ℝ} (ha : AffVal L.aff dt [L.features] G B)
    {rm rv : TT ℝ} (hm : TVal rm dt [L.features] M) (hv : TVal rv dt [L.features] V) :
    ∃ r rm' rv', E.bnTrain L rm rv x = .ok (r, rm', rv') ∧
      (TVal r dt (n :: L.features :: sp) fun j =>
        standard ε (n :: sp) (channel X (j.getD 1 0)) (X j) * G [j.getD 1 0] + B [j.getD 1 0]) ∧
      (TVal rm' dt [L.features] fun j =>
        μ * M j + (1 - μ) * average (n :: sp) (channel X (j.getD 0 0))) ∧
      TVal rv' dt [L.features] fun j =>
        μ * V j + (1 - μ) * variance (n :: sp) (channel X (j.getD 0 0)) := by
  have hlen : sp.length ≤ 3 := by
    rcases hs with ⟨h1, h2, h3⟩ | ⟨h1, rfl⟩
    · omega
    · simp
  have hr : (n :: L.features :: sp).length ≤ 16 := by simp; omega
  have hax := names_channel sp n L.features
  have hK : (0 :: List.range' 2 sp.length).Nodup := by
    rw [List.nodup_cons]
    exact ⟨by simp, List.nodup_range' ..⟩
  have hA := aligned_keep (0 :: List.range' 2 sp.length) (n :: L.features :: sp)
  have hpr := pos_reduceShape (K := 0 :: List.range' 2 sp.length) (keep := true) hpd
  have hcell : ∀ {j F}, InRange j (n :: L.features :: sp) →
      redR .mean ((cell (0 :: List.range' 2 sp.length) true (n :: L.features :: sp)
        (reduceIndex (0 :: List.range' 2 sp.length) true j)).map F) =
      average (n :: sp) (channel F (j.getD 1 0)) := by
    intro j F hj
    match j, hj with
    | a :: b :: q, hj =>
      rw [redR_mean_perm (cell_channel hj)]
      rfl
  have hfeat : 0 < L.features := hpd _ (by simp)
  have hE' := hE
  obtain ⟨k, κ, lo, hi, hEA⟩ := hE'
  -- the value of a reduction at its own positions
  have hshape := reduceShape_channel n L.features sp
  have hown : ∀ {i : List Nat} {F : List Nat → ℝ},
      InRange i (1 :: L.features :: List.replicate sp.length 1) →
      redR .mean ((cell (0 :: List.range' 2 sp.length) true (n :: L.features :: sp) i).map F) =
      average (n :: sp) (channel F (i.getD 1 0)) := by
    intro i F hi
    match i, hi with
    | a :: b :: q, ⟨ha, hb, hq⟩ =>
      obtain rfl : a = 0 := by omega
      have hz : InRange (0 :: b :: List.replicate sp.length 0) (n :: L.features :: sp) := by
        refine ⟨hpd _ (by simp), hb, ?_⟩
        have : ∀ l : List Nat, (∀ y ∈ l, 0 < y) → InRange (List.replicate l.length 0) l := by
          intro l hl
          induction l with
          | nil => trivial
          | cons y l ih => exact ⟨hl y (by simp), ih fun z hz => hl z (by simp [hz])⟩
        exact this sp fun y hy => hpd y (by simp [hy])
      have := hcell (F := F) hz
      simp only [reduceIndex, if_true] at this
      rw [zeroAxes_channel _ (by simp)] at this
      rw [inRange_ones hq]
      simpa using this
  obtain ⟨mean, e1, v1⟩ := TVal.red hE hf (keep := true) h hr hax hK hpd (o := .mean) (by simp)
  obtain ⟨c, e2, v2⟩ := TVal.bin E hf (o := .sub) (by simp) h v1 hA.1 hpd hpr
  have v2' : TVal c dt (n :: L.features :: sp) fun j =>
      X j - average (n :: sp) (channel X (j.getD 1 0)) := v2.congr fun j hj => by
    rw [hA.2 j hj, hcell hj, hEA]
    rfl
  obtain ⟨sq, e3, v3⟩ := TVal.bin_same E hf (o := .mul) (by simp) v2' v2' hpd
  obtain ⟨var, e4, v4⟩ := TVal.red hE hf (keep := true) v3 hr hax hK hpd (o := .mean) (by simp)
  have hvar : ∀ b, average (n :: sp) (channel (fun j => E.A.bin .mul
      (X j - average (n :: sp) (channel X (j.getD 1 0)))
      (X j - average (n :: sp) (channel X (j.getD 1 0)))) b) =
      variance (n :: sp) (channel X b) := by
    intro b
    rw [hEA]
    refine average_congr fun q _ => ?_
    simp only [channel, realOps, realBin, List.getD_cons_succ, List.getD_cons_zero]
    exact (pow_two _).symm
  rw [hshape] at v1 v4
  have v1' : TVal mean dt (1 :: L.features :: List.replicate sp.length 1) fun i =>
      (fun j => average (n :: sp) (channel X (j.getD 0 0))) [i.getD 1 0] :=
    v1.congr fun i hi => by rw [hown hi]; rfl
  have v4' : TVal var dt (1 :: L.features :: List.replicate sp.length 1) fun i =>
      (fun j => variance (n :: sp) (channel X (j.getD 0 0))) [i.getD 1 0] :=
    v4.congr fun i hi => by rw [hown hi, hvar]; rfl
  obtain ⟨rm', e5, v5⟩ := TVal.bnUpdate hE hf
    (S := fun j => average (n :: sp) (channel X (j.getD 0 0))) hm v1' hfeat hμ
  obtain ⟨rv', e6, v6⟩ := TVal.bnUpdate hE hf
    (S := fun j => variance (n :: sp) (channel X (j.getD 0 0))) hv v4' hfeat hμ
  obtain ⟨nn, e7, v7⟩ := TVal.standardize hE hf h hpd (broadcastsTo_channel n L.features sp)
    (pos_channel hpd) v1' v4' hε
  have v7' : TVal nn dt (n :: L.features :: sp) fun j =>
      standard ε (n :: sp) (channel X (j.getD 1 0)) (X j) := v7.congr fun j hj => by
    match j, hj with
    | a :: b :: q, hj =>
      simp only [broadcastIndex_channel hj]
      rfl
  obtain ⟨r, e8, v8⟩ := TVal.affineChannel hE hf v7' hpd ha
  refine ⟨r, rm', rv', ?_, v8, v5, v6⟩
  unfold Rt.bnTrain
  rw [h.dims, BatchNorm.axes_eq hs]
  simp only [e1, e2, e3, e4, hm.dtype, e5, e6, Res.ok_bind, Rt.bnNormalize, e7]
  rw [h.dims, BatchNorm.shape_eq hs, e8]
  rfl

/-- Batch normalization in evaluation mode uses the running statistics of the channel. -/
theorem C86_batch_norm_eval_partial (hE : E.Real) (hf : dt.isFloat = true) {L : Rt.BatchNorm ℝ} {n : Nat}
    {sp : List Nat} (h : TVal x dt (n :: L.features :: sp) X) (hs : BatchRank L.nd sp)
    (hpd : ∀ y ∈ n :: L.features :: sp, 0 < y) {ε : ℝ} (hε : (E.toS L.eps dt).val = ε) (_h0 : 0 < ε)
    {G B M V : List Nat → ℝ} (ha : AffVal L.aff dt [L.features] G B) {rm rv : TT ℝ}
    (hm : TVal rm dt [L.features] M) (hv : TVal rv dt [L.features] V)
    (_hv0 : ∀ c < L.features, 0 ≤ V [c]) :
    ∃ r, E.bnEval L rm rv x = .ok r ∧ TVal r dt (n :: L.features :: sp) fun j =>
      (X j - M [j.getD 1 0]) / √(V [j.getD 1 0] + ε) * G [j.getD 1 0] + B [j.getD 1 0] := by
  obtain ⟨mean, e1, v1⟩ := hm.perChannel sp.length
  obtain ⟨var, e2, v2⟩ := hv.perChannel sp.length
  obtain ⟨nn, e3, v3⟩ := TVal.standardize hE hf h hpd (broadcastsTo_channel n L.features sp)
    (pos_channel hpd) v1 v2 hε
  have v3' : TVal nn dt (n :: L.features :: sp) fun j =>
      (X j - M [j.getD 1 0]) / √(V [j.getD 1 0] + ε) := v3.congr fun j hj => by
    match j, hj with
    | a :: b :: q, hj =>
      simp only [broadcastIndex_channel hj]
      rfl
  obtain ⟨r, e4, v4⟩ := TVal.affineChannel hE hf v3' hpd ha
  refine ⟨r, ?_, v4⟩
  unfold Rt.bnEval
  rw [if_neg (by
    rw [h.dims]
    rintro ⟨h1, h2⟩
    rcases hs with ⟨h3, _⟩ | ⟨h3, _⟩
    · simp [h3] at h2
    · exact h1 h3), h.dims, BatchNorm.shape_eq hs, e1, Res.ok_bind, e2, Res.ok_bind, Rt.bnNormalize, e3,
    Res.ok_bind, h.dims, BatchNorm.shape_eq hs, e4]

/-- The hypotheses of the theorems above: an input of two examples with two channels of two numbers each,
weights and running statistics per channel, ranks, and the `f32` value of `eps`. -/
example : ∃ (x g b rm rv : TT ℝ) (L : Rt.BatchNorm ℝ),
    (TVal x .f32 [2, 2, 2] fun i => (4 * i.getD 0 0 + 2 * i.getD 1 0 + i.getD 2 0 : ℝ)) ∧
    AffVal (some (g, b)) .f32 [2] (fun i => (1 + i.getD 0 0 : ℝ)) (fun _ => 0) ∧
    AffVal none .f32 [2] (fun _ => 1) (fun _ => 0) ∧ L.aff = some (g, b) ∧
    L.features = 2 ∧ BatchRank L.nd [2] ∧ BatchRank L.nd [] ∧
    TVal rm .f32 [2] (fun _ => 0) ∧ TVal rv .f32 [2] (fun _ => 1) ∧
    (realRt.toS L.eps .f32).val = 1 / 100 ∧ (realRt.toS L.momentum .f32).val = 9 / 10 ∧
    [2, 2, 2] = [2, 1 * 2, 2] := by
  refine ⟨.num .f32 ⟨[0, 1, 2, 3, 4, 5, 6, 7], Layout.fromShape [2, 2, 2]⟩, vec32 [1, 2],
    TT.full [2] ⟨.f32, 0⟩, TT.full [2] ⟨.f32, 0⟩, TT.full [2] ⟨.f32, 1⟩,
    ⟨1, 2, ⟨.f32, 1 / 100⟩, ⟨.f64, 9 / 10⟩, some (vec32 [1, 2], TT.full [2] ⟨.f32, 0⟩)⟩,
    ⟨_, rfl, Val.fresh rfl ?_⟩, ⟨⟨_, rfl, Val.fresh rfl ?_⟩, TVal.full _ _ _⟩,
    ⟨fun _ => rfl, fun _ => rfl⟩, rfl, rfl, Or.inl ⟨rfl, le_refl _, by simp⟩, Or.inr ⟨rfl, rfl⟩,
    TVal.full _ _ _, TVal.full _ _ _, by simp [Rt.toS], by simp [Rt.toS, realRt], rfl⟩
  · intro idx hi
    match idx, hi with
    | [a, b, c], ⟨ha, hb, hc, _⟩ =>
      obtain rfl | rfl : a = 0 ∨ a = 1 := by omega
      all_goals
        obtain rfl | rfl : b = 0 ∨ b = 1 := by omega
        all_goals
          obtain rfl | rfl : c = 0 ∨ c = 1 := by omega
          all_goals norm_num [rowMajor, numel]
  · intro idx hi
    match idx, hi with
    | [a], ⟨ha, _⟩ =>
      obtain rfl | rfl : a = 0 ∨ a = 1 := by simp at ha; omega
      all_goals norm_num [rowMajor, numel]

/-! ## What standardizing achieves -/

theorem average_affine (d : List Nat) (hpd : ∀ n ∈ d, 0 < n) (f : List Nat → ℝ) (a b : ℝ) :
    average d (fun q => (f q - a) / b) = (average d f - a) / b := by
  have hn : (numel d : ℝ) ≠ 0 := by
    have : 0 < numel d := by
      clear f
      induction d with
      | nil => simp [numel]
      | cons x d ih =>
        exact Nat.mul_pos (hpd x (by simp)) (ih fun y hy => hpd y (by simp [hy]))
    exact_mod_cast this.ne'
  have hl : (allIndices d).length = numel d := by simp [allIndices]
  have : ((allIndices d).map fun q => (f q - a) / b).sum =
      (((allIndices d).map f).sum - (allIndices d).length * a) / b := by
    generalize allIndices d = l
    induction l with
    | nil => simp
    | cons x l ih =>
      simp only [List.map_cons, List.sum_cons, ih, List.length_cons]
      push_cast
      ring
  unfold average
  rw [this, hl]
  field_simp

/-- Standardized values have mean zero; their variance is the fraction `v / (v + ε)` of one, where `v` is
the variance before. -/
theorem C86_standardized (d : List Nat) (hpd : ∀ n ∈ d, 0 < n) (f : List Nat → ℝ) {ε : ℝ} (h0 : 0 < ε) :
    (average d fun q => standard ε d f (f q)) = 0 ∧
      (variance d fun q => standard ε d f (f q)) = variance d f / (variance d f + ε) := by
  have hv : 0 ≤ variance d f := by
    unfold variance average
    refine div_nonneg (List.sum_nonneg ?_) (by positivity)
    intro y hy
    obtain ⟨q, -, rfl⟩ := List.mem_map.mp hy
    exact sq_nonneg _
  have hm : (average d fun q => standard ε d f (f q)) = 0 := by
    unfold standard
    rw [average_affine d hpd, sub_self, zero_div]
  refine ⟨hm, ?_⟩
  unfold variance at hm ⊢
  rw [hm]
  have : ∀ q, (standard ε d f (f q) - 0) ^ 2 =
      ((f q - average d f) ^ 2 - 0) / (variance d f + ε) := by
    intro q
    rw [standard, sub_zero, div_pow, Real.sq_sqrt (by linarith), sub_zero]
  simp only [this]
  rw [average_affine d hpd, sub_zero]
  rfl

/-! ## What is not checked -/

/-- `LayerNorm` with an empty `normalized_shape`: the empty list of axes means all axes, so each element
is standardized among all elements of the input. -/
theorem C86_layer_norm_empty (hE : E.Real) (hf : dt.isFloat = true) (h : TVal x dt d X)
    (hr : d.length ≤ 16) (hpd : ∀ y ∈ d, 0 < y) {eps : Sc ℝ} {ε : ℝ} (hε : (E.toS eps dt).val = ε)
    (_h0 : 0 < ε) {aff : Affine ℝ} {G B : List Nat → ℝ} (ha : AffVal aff dt [] G B) :
    ∃ r, E.layerNorm [] eps aff x = .ok r ∧ TVal r dt d fun j =>
      standard ε d X (X j) * G [] + B [] := by
  obtain ⟨n, e1, v1⟩ := TVal.standardizeAlong hE hf h hr hpd (ax := []) (K := List.range d.length)
    (Or.inl ⟨rfl, rfl⟩) List.nodup_range hε false (e := d) (φ := fun _ q => q) (fun j hj => by
      have hz : ∀ j : List Nat, InRange j d → reduceIndex (List.range d.length) true j =
          List.replicate d.length 0 := by
        intro j hj
        have hl := hj.length
        have := zeroAxes_trailing 0 d.length (i := []) (j := j) rfl (by omega)
        simp only [List.nil_append, ← List.range_eq_range'] at this
        rw [reduceIndex, if_pos rfl, this, hl]
      rw [hz j hj, List.map_id']
      unfold cell
      rw [List.filter_eq_self.mpr]
      intro i hi
      simp [hz i (mem_allIndices.mp hi)])
  obtain ⟨r, e2, v2⟩ := TVal.affineTrailing (lead := d) (tail := []) hE hf (by simpa using v1)
    (by simpa using hpd) ha
  rw [List.append_nil] at v2
  refine ⟨r, ?_, v2.congr fun j hj => ?_⟩
  · rw [Rt.layerNorm, if_pos (by simp [Rt.endsWith])]
    simp only [List.length_nil, Rt.axesFrom, List.range'_zero, List.map_nil, e1, Res.ok_bind, e2]
  · rw [← hj.length]
    simp

end

/-- The property for `LayerNorm`, for every shape it accepts. -/
def Spec.C86_full : Prop :=
  ∀ (E : Rt ℝ), E.Real → ∀ (dt : DType), dt.isFloat = true → ∀ (lead ns : List Nat) (x : TT ℝ)
    (X : List Nat → ℝ) (ε : ℝ), TVal x dt (lead ++ ns) X → (lead ++ ns).length ≤ 16 →
    (∀ y ∈ lead ++ ns, 0 < y) → 0 < ε →
    ∃ r, E.layerNorm ns ⟨dt, ε⟩ none x = .ok r ∧ TVal r dt (lead ++ ns) fun j =>
      standard ε ns (fun q => X (j.take lead.length ++ q)) (X j)

/-- It fails for an empty `normalized_shape`: of two numbers 1 and 3 each is the mean of itself, so the
result would be 0; the code uses the mean 2. -/
theorem C86_full_false : ¬ Spec.C86_full := by
  intro h
  have hx : TVal (.num .f32 ⟨[1, 3], Layout.fromShape [2]⟩ : TT ℝ) .f32 [2]
      (fun i => 1 + 2 * (i.getD 0 0 : ℝ)) := by
    refine ⟨_, rfl, Val.fresh rfl fun idx hi => ?_⟩
    match idx, hi with
    | [a], ⟨ha, _⟩ =>
      obtain rfl | rfl : a = 0 ∨ a = 1 := by omega
      all_goals norm_num [rowMajor, numel]
  obtain ⟨r, h1, h2⟩ := h realRt realRt_real .f32 rfl [2] [] _ _ 1 (by simpa using hx) (by simp)
    (by simp) one_pos
  obtain ⟨r', h3, h4⟩ := C86_layer_norm_empty realRt_real (dt := .f32) rfl hx (by simp) (by simp)
    (eps := ⟨.f32, 1⟩) (ε := 1) (by simp [Rt.toS]) one_pos (aff := none) (G := fun _ => 1)
    (B := fun _ => 0) ⟨fun _ => rfl, fun _ => rfl⟩
  rw [h1] at h3
  cases h3
  obtain ⟨t, rfl, ht⟩ := h2
  obtain ⟨t', e, ht'⟩ := h4
  cases e
  have := (ht.vals [0] (by simp [InRange])).symm.trans (ht'.vals [0] (by simp [InRange]))
  simp [standard, average, variance, allIndices, numel, List.range_succ, unravel] at this
  norm_num at this
  rw [eq_comm, div_eq_zero_iff] at this
  norm_num at this

/-- Channels are not checked: `InstanceNorm1D` with weights for two channels turns an input of one channel
into an output of two, and so does `BatchNorm2D` in evaluation mode. -/
theorem C86_channels_unchecked :
    (∃ r, ratRt.instanceNorm 1 2 ⟨.f32, some 1⟩ (some (vec32 [some 1, some 1], vec32 [some 0, some 0]))
        (.num .f32 ⟨[some 1, some 2], Layout.fromShape [1, 1, 2]⟩) = .ok r ∧ r.dims = [1, 2, 2]) ∧
    ∃ r, ratRt.bnEval ⟨2, 2, ⟨.f32, some 1⟩, ⟨.f32, some 1⟩, none⟩ (vec32 [some 0, some 1])
        (vec32 [some 1, some 1]) (.num .f32 ⟨[some 1, some 2], Layout.fromShape [1, 1, 1, 2]⟩) = .ok r ∧
        r.dims = [1, 2, 1, 2] := by
  constructor
  · have h : (match ratRt.instanceNorm 1 2 ⟨.f32, some 1⟩
        (some (vec32 [some 1, some 1], vec32 [some 0, some 0]))
        (.num .f32 ⟨[some 1, some 2], Layout.fromShape [1, 1, 2]⟩) with
        | .ok r => some r.dims | _ => none) = some [1, 2, 2] := by decide +kernel
    split at h
    · exact ⟨_, ‹_›, by simpa using h⟩
    · cases h
  · have h : (match ratRt.bnEval ⟨2, 2, ⟨.f32, some 1⟩, ⟨.f32, some 1⟩, none⟩ (vec32 [some 0, some 1])
        (vec32 [some 1, some 1]) (.num .f32 ⟨[some 1, some 2], Layout.fromShape [1, 1, 1, 2]⟩) with
        | .ok r => some r.dims | _ => none) = some [1, 2, 1, 2] := by decide +kernel
    split at h
    · exact ⟨_, ‹_›, by simpa using h⟩
    · cases h

/-- In evaluation mode `BatchNorm1D` takes inputs of rank 4, and treats their axis 2 as the channels; in
training mode it rejects them. -/
theorem C86_batch_norm_eval_rank (x : TT (Option ℚ)) (hx : x.dims = [1, 1, 2, 1])
    (rm rv : TT (Option ℚ)) :
    ratRt.bnTrain ⟨1, 2, ⟨.f32, some 1⟩, ⟨.f32, some 1⟩, none⟩ rm rv x = .err ∧
    ∃ r, ratRt.bnEval ⟨1, 2, ⟨.f32, some 1⟩, ⟨.f32, some 1⟩, none⟩ (vec32 [some 0, some 1])
      (vec32 [some 1, some 1]) (.num .f32 ⟨[some 1, some 2], Layout.fromShape [1, 1, 2, 1]⟩) = .ok r := by
  constructor
  · simp [Rt.bnTrain, hx, Rt.BatchNorm.axes]
  · have h : (match ratRt.bnEval ⟨1, 2, ⟨.f32, some 1⟩, ⟨.f32, some 1⟩, none⟩ (vec32 [some 0, some 1])
        (vec32 [some 1, some 1]) (.num .f32 ⟨[some 1, some 2], Layout.fromShape [1, 1, 2, 1]⟩) with
        | .ok r => some r.dims | _ => none) = some [1, 1, 2, 1] := by decide +kernel
    split at h
    · exact ⟨_, ‹_›⟩
    · cases h

end Hodu
