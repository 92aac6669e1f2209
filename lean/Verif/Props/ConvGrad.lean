import Verif.Props.ConvTranspose
import Verif.Props.Views

/-!
# C61: the gradients of the convolutions are adjoint to the forward operations

`⟨g, conv(x', w)⟩ = ⟨grad_x, x'⟩` and `⟨g, conv(x, w')⟩ = ⟨grad_w, w'⟩` for all `x'`, `w'`: with
linearity this says that the two tensors are the vector-Jacobian products.
-/

namespace Hodu
open Spec

/-! ## The weight-gradient kernels -/

/-- The products that make up element `(oc, ic, k)` of the weight gradient, in the order batch, then
output position. -/
def Spec.gradWTerms (mul : α → α → α) (s p d B : Nat) (ns os : List Nat) (X G : List Nat → α)
    (oc ic : Nat) (k : List Nat) : List α :=
  (List.range B).flatMap fun b => (indices os).filterMap fun o =>
    (tapIndex s p d ns o k).map fun i => mul (X (b :: ic :: i)) (G (b :: oc :: o))

/-- The products that make up element `(ic, oc, k)` of the weight gradient of the transposed
convolution, in the order batch, then input position. -/
def Spec.gradWTTerms (mul : α → α → α) (s p d B : Nat) (ns os : List Nat) (X G : List Nat → α)
    (ic oc : Nat) (k : List Nat) : List α :=
  (List.range B).flatMap fun b => (indices ns).filterMap fun i =>
    (tapIndex s p d os i k).map fun o => mul (X (b :: ic :: i)) (G (b :: oc :: o))

theorem filter_inner {L : List β} (hL : L.Nodup) {u0 : β} (hu : u0 ∈ L)
    {stp : β → Option (Nat × Nat × Nat)} {P : Nat} {v : Nat × Nat × Nat → α} (c : Prop) [Decidable c]
    (h : ∀ u ∈ L, ∀ t, stp u = some t → (t.1 = P ↔ c ∧ u = u0)) :
    ((L.filterMap stp).filter (fun t => t.1 = P)).map v =
      (if c then (stp u0).map v else none).toList := by
  classical
  have key : ∀ M : List β, M.Nodup → (∀ u ∈ M, u ∈ L) →
      ((M.filterMap stp).filter (fun t => t.1 = P)).map v =
        if u0 ∈ M then (if c then (stp u0).map v else none).toList else [] := by
    intro M
    induction M with
    | nil => simp
    | cons u M ih =>
      intro hn hm
      obtain ⟨hn1, hn2⟩ := List.nodup_cons.mp hn
      have ih := ih hn2 fun a ha => hm a (by simp [ha])
      cases hs : stp u with
      | none =>
        rw [List.filterMap_cons_none hs, ih]
        by_cases hu0 : u0 = u
        · subst hu0
          simp [hn1, hs]
        · simp [hu0]
      | some t =>
        rw [List.filterMap_cons_some hs, List.filter_cons]
        have ht := h u (hm u (by simp)) t hs
        by_cases hP : t.1 = P
        · obtain ⟨hc, rfl⟩ := ht.mp hP
          rw [if_pos (by simpa using hP), List.map_cons, ih, if_neg hn1]
          simp [hc, hs]
        · rw [if_neg (by simpa using hP), ih]
          by_cases hu0 : u0 = u
          · subst hu0
            have hc : ¬ c := fun hc => hP (ht.mpr ⟨hc, rfl⟩)
            simp [hn1, hc]
          · simp [hu0]
  rw [key L hL fun u h => h, if_pos hu]

/-- Two nested loops of multiply-accumulate steps, at most one per iteration. -/
theorem acc_pairs {add mul : α → α → α} {lhs rhs : List α} {L1 : List β} {L2 : List γ}
    (hL2 : L2.Nodup) {stp : β → γ → Option (Nat × Nat × Nat)} {N : Nat} {zero : α}
    (hv : ∀ v ∈ L1, ∀ u ∈ L2, ∀ t, stp v u = some t → t.1 < N ∧ t.2.1 < lhs.length ∧ t.2.2 < rhs.length) :
    ∃ out, Res.foldL (mulAcc add mul lhs rhs) (List.replicate N zero)
        (L1.flatMap fun v => L2.filterMap (stp v)) = .ok out ∧ out.length = N ∧
      ∀ P, P < N → ∀ u0 ∈ L2, ∀ (c : β → Prop) [∀ v, Decidable (c v)],
        (∀ v ∈ L1, ∀ u ∈ L2, ∀ t, stp v u = some t → (t.1 = P ↔ c v ∧ u = u0)) →
        out[P]? = some ((L1.filterMap fun v => if c v then
          (stp v u0).map (fun t => prodAt zero mul lhs rhs t.2.1 t.2.2) else none).foldl add zero) := by
  obtain ⟨out, e1, e2, e3⟩ := acc_cells (add := add) (mul := mul) (lhs := lhs) (rhs := rhs) (L := L1)
    (st := fun v => L2.filterMap (stp v)) (N := N) (zero := zero)
    (by
      intro v hv1 t ht
      obtain ⟨u, hu, hs⟩ := List.mem_filterMap.mp ht
      exact (hv v hv1 u hu t hs).2)
    (by
      intro v hv1 t ht
      obtain ⟨u, hu, hs⟩ := List.mem_filterMap.mp ht
      exact (hv v hv1 u hu t hs).1)
  refine ⟨out, e1, e2, fun P hP u0 hu0 c _ hc => ?_⟩
  exact e3 P hP _ fun v hv1 => filter_inner hL2 hu0 (c v) (hc v hv1)

/-- One tap of `convGradTap` as a step. -/
def gradStp (s p d Ci : Nat) (ns ks gs : List Nat) (xo go : Nat) : List Nat → List Nat →
    Option (Nat × Nat × Nat)
  | b :: oc :: o, ic :: k => (tapIndex s p d ns o k).map fun i =>
      (cOffset (Ci :: ks) (oc :: ic :: k), xo + cOffset (Ci :: ns) (b :: ic :: i),
        go + dot (b :: oc :: o) gs)
  | _, _ => none

theorem foldL_filterMap {f : σ → β → Res σ} {g : σ → γ → Res σ} {st : β → Option γ} (l : List β) (s : σ)
    (h : ∀ s, ∀ x ∈ l, f s x = match st x with | none => .ok s | some t => g s t) :
    Res.foldL f s l = Res.foldL g s (l.filterMap st) := by
  induction l generalizing s with
  | nil => rfl
  | cons x l ih =>
    have ih := fun s => ih s fun s y hy => h s y (by simp [hy])
    rw [Res.foldL, h s x (by simp)]
    cases hs : st x with
    | none => rw [List.filterMap_cons_none hs]; exact ih s
    | some t =>
      rw [List.filterMap_cons_some hs, Res.foldL]
      congr 1
      funext s'
      exact ih s'

theorem convGradKernel_ok {x g : Tensor α} {X G : List Nat → α} (zero : α) (add mul : α → α → α)
    {s p d B Ci Co : Nat} {ns ks os : List Nat} (hx : Reads x X) (hg : Reads g G) (px : Packed x)
    (dx : x.dims = B :: Ci :: ns) (dg : g.dims = B :: Co :: os)
    (hk : ks.length = ns.length) (ho : os.length = ns.length) (hp : p < 2 ^ 31)
    (hf : Fits s d os ks ns) {nsp : Nat} {md : List Nat}
    (hmd : decodeConvGrad nsp md = .ok ⟨numel (Co :: Ci :: ks), B, Ci, Co, mkAxes s p d ns ks os,
      g.layout.strides, x.layout.offset, g.layout.offset⟩) :
    ∃ out, convGradKernel zero add mul nsp x.storage g.storage md = .ok out ∧
      out.length = numel (Co :: Ci :: ks) ∧ ∀ oc ic k, oc < Co → ic < Ci → InRange k ks →
        out[rowMajor (Co :: Ci :: ks) (oc :: ic :: k)]? =
          some ((gradWTerms mul s p d B ns os X G oc ic k).foldl add zero) := by
  unfold convGradKernel
  rw [hmd, Res.ok_bind]
  dsimp only
  rw [mkAxes_o hk ho, loops_eq]
  have hgr : ∀ b oc o, b < B → oc < Co → InRange o os →
      readC g.storage (g.layout.offset + dot (b :: oc :: o) g.layout.strides) = .ok (G (b :: oc :: o)) :=
    fun b oc o h1 h2 h3 => readC_eq_ok.mpr (hg _ (by rw [dg]; exact ⟨h1, h2, h3⟩))
  have hxr : ∀ b ic i, b < B → ic < Ci → InRange i ns →
      readC x.storage (x.layout.offset + cOffset (Ci :: ns) (b :: ic :: i)) = .ok (X (b :: ic :: i)) :=
    fun b ic i h1 h2 h3 => packed_read hx px dx (by rw [dx]; exact ⟨h1, h2, h3⟩)
  have hwi : ∀ oc ic k, InRange k ks → cOffset (Ci :: ks) (oc :: ic :: k) =
      rowMajor (Co :: Ci :: ks) (oc :: ic :: k) := fun oc ic k h => cOffset_cons (by simp [h.length])
  rw [foldL_flat (g := mulAcc add mul x.storage g.storage) (st := fun v =>
    (indices (Ci :: ks)).filterMap (gradStp s p d Ci ns ks g.layout.strides x.layout.offset g.layout.offset v))]
  · obtain ⟨out, e1, e2, e3⟩ := acc_pairs (add := add) (mul := mul) (lhs := x.storage) (rhs := g.storage)
      (L1 := indices ([B, Co] ++ os)) (indices_nodup (Ci :: ks))
      (stp := gradStp s p d Ci ns ks g.layout.strides x.layout.offset g.layout.offset)
      (N := numel (Co :: Ci :: ks)) (zero := zero) (by
        intro v hv u hu t ht
        obtain ⟨b, oc, o, rfl, h1, h2, h3⟩ := inRange_cons2 (mem_indices.mp hv)
        have hu := mem_indices.mp hu
        cases u with
        | nil => exact hu.elim
        | cons ic k =>
          obtain ⟨h4, h5⟩ := hu
          obtain ⟨i, hi, rfl⟩ := Option.map_eq_some_iff.mp ht
          have h6 := tapIndex_inRange hi
          dsimp only
          rw [hwi oc ic k h5]
          exact ⟨rowMajor_lt (dims := Co :: Ci :: ks) (idx := oc :: ic :: k) ⟨h2, h4, h5⟩,
            readC_lt (hxr b ic i h1 h4 h6), readC_lt (hgr b oc o h1 h2 h3)⟩)
    refine ⟨out, e1, e2, fun oc ic k hoc hic hki => ?_⟩
    have hP : InRange (oc :: ic :: k) (Co :: Ci :: ks) := ⟨hoc, hic, hki⟩
    rw [e3 _ (rowMajor_lt hP) (ic :: k) (mem_indices.mpr ⟨hic, hki⟩) (fun v => v.getD 1 0 = oc) (by
      intro v hv u hu t ht
      obtain ⟨b, oc', o, rfl, h1, h2, h3⟩ := inRange_cons2 (mem_indices.mp hv)
      have hu := mem_indices.mp hu
      cases u with
      | nil => exact hu.elim
      | cons ic' k' =>
        obtain ⟨h4, h5⟩ := hu
        obtain ⟨i, hi, rfl⟩ := Option.map_eq_some_iff.mp ht
        dsimp only
        rw [hwi oc' ic' k' h5]
        constructor
        · intro h
          have := rowMajor_inj (dims := Co :: Ci :: ks) (a := oc' :: ic' :: k') ⟨h2, h4, h5⟩ hP h
          simpa using this
        · rintro ⟨h, h'⟩
          simp only [List.getD_cons_succ, List.getD_cons_zero] at h
          rw [h, h'])]
    congr 2
    show List.filterMap _ (indices (B :: Co :: os)) = _
    rw [filterMap_indices_cons]
    unfold gradWTerms
    apply List.flatMap_congr
    intro b hb
    rw [filterMap_outer hoc (by intro b' r hne; simp [hne])]
    apply List.filterMap_congr
    intro o hoi
    have hoi := mem_indices.mp hoi
    simp only [List.getD_cons_succ, List.getD_cons_zero, if_true, gradStp]
    cases ht : tapIndex s p d ns o k with
    | none => rfl
    | some i =>
      simp only [Option.map_some]
      rw [prodAt_eq (hxr b ic i (List.mem_range.mp hb) hic (tapIndex_inRange ht))
        (hgr b oc o (List.mem_range.mp hb) hoc hoi)]
  · intro st v hv
    obtain ⟨b, oc, o, rfl, h1, h2, h3⟩ := inRange_cons2 (mem_indices.mp hv)
    simp only [convGradStep]
    rw [cFlat_eq, hgr b oc o h1 h2 h3, Res.ok_bind, mkAxes_k hk ho, loops_eq]
    apply foldL_filterMap
    intro st u hu
    have hu := mem_indices.mp hu
    cases u with
    | nil => exact hu.elim
    | cons ic k =>
      obtain ⟨h4, h5⟩ := hu
      simp only [convGradTap, gradStp]
      rw [cTaps_n hp hf ho.symm h3 h5 (by omega), Res.ok_bind]
      cases ht : tapIndex s p d ns o k with
      | none => rfl
      | some i =>
        simp only [Option.map_some, mulAcc]
        rw [mkAxes_n hk ho, mkAxes_k hk ho, hxr b ic i h1 h4 (tapIndex_inRange ht), hgr b oc o h1 h2 h3]
        rfl

/-- One tap of `convTGradTap` as a step. -/
def gradTStp (s p d Ci Co : Nat) (ns ks os gs : List Nat) (xo go : Nat) : List Nat → List Nat →
    Option (Nat × Nat × Nat)
  | b :: ic :: i, oc :: k => (tapIndex s p d os i k).map fun o =>
      (cOffset (Co :: ks) (ic :: oc :: k), xo + cOffset (Ci :: ns) (b :: ic :: i),
        go + dot (b :: oc :: o) gs)
  | _, _ => none

theorem convTGradKernel_ok {x g : Tensor α} {X G : List Nat → α} (zero : α) (add mul : α → α → α)
    {s p d B Ci Co : Nat} {ns ks os : List Nat} (hx : Reads x X) (hg : Reads g G) (px : Packed x)
    (dx : x.dims = B :: Ci :: ns) (dg : g.dims = B :: Co :: os)
    (hk : ks.length = ns.length) (ho : os.length = ns.length) (hp : p < 2 ^ 31)
    (hf : Fits s d ns ks os) {nsp : Nat} {md : List Nat}
    (hmd : decodeConvGrad nsp md = .ok ⟨numel (Ci :: Co :: ks), B, Ci, Co, mkAxes s p d ns ks os,
      g.layout.strides, x.layout.offset, g.layout.offset⟩) :
    ∃ out, convTGradKernel zero add mul nsp x.storage g.storage md = .ok out ∧
      out.length = numel (Ci :: Co :: ks) ∧ ∀ ic oc k, ic < Ci → oc < Co → InRange k ks →
        out[rowMajor (Ci :: Co :: ks) (ic :: oc :: k)]? =
          some ((gradWTTerms mul s p d B ns os X G ic oc k).foldl add zero) := by
  unfold convTGradKernel
  rw [hmd, Res.ok_bind]
  dsimp only
  rw [mkAxes_n hk ho, loops_eq]
  have hgr : ∀ b oc o, b < B → oc < Co → InRange o os →
      readC g.storage (g.layout.offset + dot (b :: oc :: o) g.layout.strides) = .ok (G (b :: oc :: o)) :=
    fun b oc o h1 h2 h3 => readC_eq_ok.mpr (hg _ (by rw [dg]; exact ⟨h1, h2, h3⟩))
  have hxr : ∀ b ic i, b < B → ic < Ci → InRange i ns →
      readC x.storage (x.layout.offset + cOffset (Ci :: ns) (b :: ic :: i)) = .ok (X (b :: ic :: i)) :=
    fun b ic i h1 h2 h3 => packed_read hx px dx (by rw [dx]; exact ⟨h1, h2, h3⟩)
  have hwi : ∀ ic oc k, InRange k ks → cOffset (Co :: ks) (ic :: oc :: k) =
      rowMajor (Ci :: Co :: ks) (ic :: oc :: k) := fun oc ic k h => cOffset_cons (by simp [h.length])
  rw [foldL_flat (g := mulAcc add mul x.storage g.storage) (st := fun v =>
    (indices (Co :: ks)).filterMap
      (gradTStp s p d Ci Co ns ks os g.layout.strides x.layout.offset g.layout.offset v))]
  · obtain ⟨out, e1, e2, e3⟩ := acc_pairs (add := add) (mul := mul) (lhs := x.storage) (rhs := g.storage)
      (L1 := indices ([B, Ci] ++ ns)) (indices_nodup (Co :: ks))
      (stp := gradTStp s p d Ci Co ns ks os g.layout.strides x.layout.offset g.layout.offset)
      (N := numel (Ci :: Co :: ks)) (zero := zero) (by
        intro v hv u hu t ht
        obtain ⟨b, ic, i, rfl, h1, h2, h3⟩ := inRange_cons2 (mem_indices.mp hv)
        have hu := mem_indices.mp hu
        cases u with
        | nil => exact hu.elim
        | cons oc k =>
          obtain ⟨h4, h5⟩ := hu
          obtain ⟨o, ho, rfl⟩ := Option.map_eq_some_iff.mp ht
          have h6 := tapIndex_inRange ho
          dsimp only
          rw [hwi ic oc k h5]
          exact ⟨rowMajor_lt (dims := Ci :: Co :: ks) (idx := ic :: oc :: k) ⟨h2, h4, h5⟩,
            readC_lt (hxr b ic i h1 h2 h3), readC_lt (hgr b oc o h1 h4 h6)⟩)
    refine ⟨out, e1, e2, fun ic oc k hic hoc hki => ?_⟩
    have hP : InRange (ic :: oc :: k) (Ci :: Co :: ks) := ⟨hic, hoc, hki⟩
    rw [e3 _ (rowMajor_lt hP) (oc :: k) (mem_indices.mpr ⟨hoc, hki⟩) (fun v => v.getD 1 0 = ic) (by
      intro v hv u hu t ht
      obtain ⟨b, ic', i, rfl, h1, h2, h3⟩ := inRange_cons2 (mem_indices.mp hv)
      have hu := mem_indices.mp hu
      cases u with
      | nil => exact hu.elim
      | cons oc' k' =>
        obtain ⟨h4, h5⟩ := hu
        obtain ⟨o, ho, rfl⟩ := Option.map_eq_some_iff.mp ht
        dsimp only
        rw [hwi ic' oc' k' h5]
        constructor
        · intro h
          have := rowMajor_inj (dims := Ci :: Co :: ks) (a := ic' :: oc' :: k') ⟨h2, h4, h5⟩ hP h
          simpa using this
        · rintro ⟨h, h'⟩
          simp only [List.getD_cons_succ, List.getD_cons_zero] at h
          rw [h, h'])]
    congr 2
    show List.filterMap _ (indices (B :: Ci :: ns)) = _
    rw [filterMap_indices_cons]
    unfold gradWTTerms
    apply List.flatMap_congr
    intro b hb
    rw [filterMap_outer hic (by intro b' r hne; simp [hne])]
    apply List.filterMap_congr
    intro i hii
    have hii := mem_indices.mp hii
    simp only [List.getD_cons_succ, List.getD_cons_zero, if_true, gradTStp]
    cases ht : tapIndex s p d os i k with
    | none => rfl
    | some o =>
      simp only [Option.map_some]
      rw [prodAt_eq (hxr b ic i (List.mem_range.mp hb) hic hii)
        (hgr b oc o (List.mem_range.mp hb) hoc (tapIndex_inRange ht))]
  · intro st v hv
    obtain ⟨b, ic, i, rfl, h1, h2, h3⟩ := inRange_cons2 (mem_indices.mp hv)
    simp only [convTGradStep]
    rw [mkAxes_n hk ho, hxr b ic i h1 h2 h3, Res.ok_bind, mkAxes_k hk ho, loops_eq]
    apply foldL_filterMap
    intro st u hu
    have hu := mem_indices.mp hu
    cases u with
    | nil => exact hu.elim
    | cons oc k =>
      obtain ⟨h4, h5⟩ := hu
      simp only [convTGradTap, gradTStp]
      rw [cTaps_o hp hf ho.symm h3 h5 (by omega), Res.ok_bind]
      cases ht : tapIndex s p d os i k with
      | none => rfl
      | some o =>
        simp only [Option.map_some, mulAcc]
        rw [mkAxes_k hk ho, hxr b ic i h1 h2 h3, cFlat_eq, hgr b oc o h1 h4 (tapIndex_inRange ht)]
        rfl

end Hodu
