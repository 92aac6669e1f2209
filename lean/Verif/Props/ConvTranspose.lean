import Verif.Props.Conv

/-!
# C60: transposed convolution

`y[b, oc, o] = Σ x[b, ic, i] * w[oc, ic, k]` over all `ic`, `i`, `k` with
`o + padding = i * stride + k * dilation`; the documented weight shape is
`[out_channels, in_channels, kernel...]`.
-/

namespace Hodu
open Spec

/-! ## Specification -/

/-- The output size in every spatial dimension. -/
def Spec.convTOuts (s p op d : Nat) (ns ks : List Nat) : List Nat :=
  List.zipWith (fun n k => (n - 1) * s - 2 * p + d * (k - 1) + op + 1) ns ks

/-- Input and kernel are not empty and the padding removes no more than the strided input. -/
def Spec.TransposeFits (s p : Nat) (ns ks : List Nat) : Prop :=
  List.Forall₂ (fun n k => 0 < n ∧ 0 < k ∧ 2 * p ≤ (n - 1) * s) ns ks

/-- The products that make up output element `(b, oc, o)`, in the order channel, input position, kernel
position. -/
def Spec.convTTerms (mul : α → α → α) (s p d Ci : Nat) (ns ks os : List Nat) (X W : List Nat → α)
    (b oc : Nat) (o : List Nat) : List α :=
  (List.range Ci).flatMap fun ic => (indices ns).flatMap fun i => (indices ks).filterMap fun k =>
    if tapIndex s p d os i k = some o then some (mul (X (b :: ic :: i)) (W (oc :: ic :: k))) else none

/-- `y` is the transposed convolution of `x` and `w`. -/
def Spec.IsConvT (zero : α) (add mul : α → α → α) (s p d B Ci Co : Nat) (ns ks os : List Nat)
    (X W : List Nat → α) (y : Tensor α) : Prop :=
  y.dims = B :: Co :: os ∧ ∀ b oc o, b < B → oc < Co → InRange o os →
    y.elem (b :: oc :: o) = some ((convTTerms mul s p d Ci ns ks os X W b oc o).foldl add zero)

/-- The full claim: for all operands stored in row-major order, any output padding. -/
def Spec.ConvTCorrect (α : Type) : Prop :=
  ∀ (nsp : Nat) (x w : Tensor α) (X W : List Nat → α) (zero : α) (add mul : α → α → α)
    (s p op d B Ci Co : Nat) (ns ks : List Nat), nsp = 1 ∨ nsp = 2 ∨ nsp = 3 →
    Reads x X → Reads w W → Packed x → Packed w → x.dims = B :: Ci :: ns → w.dims = Co :: Ci :: ks →
    ns.length = nsp → ks.length = nsp → 0 < s → TransposeFits s p ns ks →
    (∀ o ∈ convTOuts s p op d ns ks, o + 2 * p < 2 ^ 31) →
    ∃ y, x.convT zero add mul nsp w s p op d = .ok y ∧
      IsConvT zero add mul s p d B Ci Co ns ks (convTOuts s p op d ns ks) X W y

/-- The weight lies in memory with the input channel outermost. -/
def Spec.InputMajor (w : Tensor α) (Ci Co : Nat) (ks : List Nat) : Prop :=
  ∀ oc ic k, oc < Co → ic < Ci → InRange k ks →
    dot (oc :: ic :: k) w.layout.strides = rowMajor (Ci :: Co :: ks) (ic :: oc :: k)

/-! ## Sizes -/

theorem convTSizes_eq {s p op d : Nat} {ns ks : List Nat} (h : TransposeFits s p ns ks) :
    convSizes (convTOutSize · · s p op d) ns ks = .ok (convTOuts s p op d ns ks) := by
  induction h with
  | nil => rfl
  | cons hd _ ih =>
    obtain ⟨h1, h2, h3⟩ := hd
    simp only [convSizes, convTOutSize, subUsize] at *
    rw [if_neg (by omega), Res.ok_bind, if_neg (by omega), Res.ok_bind, if_neg (by omega), Res.ok_bind,
      Res.ok_bind, ih, Res.ok_bind]
    rfl

theorem convTOuts_length {s p op d : Nat} {ns ks : List Nat} (h : TransposeFits s p ns ks) :
    (convTOuts s p op d ns ks).length = ns.length := by
  have := h.length_eq
  simp [convTOuts, this]

theorem fits_convT {s p d : Nat} {ns ks : List Nat} (h : TransposeFits s p ns ks)
    (hb : ∀ o ∈ convTOuts s p 0 d ns ks, o + 2 * p < 2 ^ 31) : Fits s d ns ks (convTOuts s p 0 d ns ks) := by
  induction h with
  | nil => trivial
  | @cons n k ns ks hd _ ih =>
    have ho := hb ((n - 1) * s - 2 * p + d * (k - 1) + 0 + 1) (by simp [convTOuts])
    refine ⟨?_, by show (n - 1) * s - 2 * p + d * (k - 1) + 0 + 1 < 2 ^ 31; omega, ih fun o ho => hb o (by
      simp only [convTOuts, List.zipWith_cons_cons, List.mem_cons] at ho ⊢
      exact Or.inr ho)⟩
    intro x j hx hj
    have h1 : x * s ≤ (n - 1) * s := Nat.mul_le_mul_right s (by omega)
    have h2 : j * d ≤ d * (k - 1) := by
      rw [Nat.mul_comm]; exact Nat.mul_le_mul_left d (by omega)
    have := hd.2.2
    omega

/-! ## Accumulation -/

/-- Loops of multiply-accumulate steps into a zeroed buffer: every cell ends up with the ordered sum of
the products aimed at it. -/
theorem acc_cells {add mul : α → α → α} {lhs rhs : List α} {L : List β}
    {st : β → List (Nat × Nat × Nat)} {N : Nat} {zero : α}
    (hv : ∀ v ∈ L, ∀ t ∈ st v, t.2.1 < lhs.length ∧ t.2.2 < rhs.length)
    (hp : ∀ v ∈ L, ∀ t ∈ st v, t.1 < N) :
    ∃ out, Res.foldL (mulAcc add mul lhs rhs) (List.replicate N zero) (L.flatMap st) = .ok out ∧
      out.length = N ∧ ∀ P, P < N → ∀ g : β → Option α,
        (∀ v ∈ L, ((st v).filter (fun t => t.1 = P)).map
          (fun t => prodAt zero mul lhs rhs t.2.1 t.2.2) = (g v).toList) →
        out[P]? = some ((L.filterMap g).foldl add zero) := by
  obtain ⟨out, e1, e2, e3⟩ := mulAcc_fold (add := add) (mul := mul) (lhs := lhs) (rhs := rhs)
    (val := fun t => prodAt zero mul lhs rhs t.2.1 t.2.2) (L.flatMap st) (List.replicate N zero)
    (by
      intro t ht
      obtain ⟨v, hv', ht⟩ := List.mem_flatMap.mp ht
      exact prodAt_ok (hv v hv' t ht).1 (hv v hv' t ht).2)
    (by
      intro t ht
      obtain ⟨v, hv', ht⟩ := List.mem_flatMap.mp ht
      simpa using hp v hv' t ht)
  refine ⟨out, e1, by simpa using e2, fun P hP g hg => ?_⟩
  rw [e3 P zero (by simp [hP])]
  congr 1
  rw [← List.foldl_map (f := fun t : Nat × Nat × Nat => prodAt zero mul lhs rhs t.2.1 t.2.2) (g := add)]
  congr 1
  clear e1 e2 e3 hv hp
  induction L with
  | nil => rfl
  | cons v L ih =>
    rw [List.flatMap_cons, List.filter_append, List.map_append, hg v (by simp),
      ih fun u hu => hg u (by simp [hu])]
    cases h : g v <;> simp [h]

theorem prodAt_eq {zero : α} {mul : α → α → α} {lhs rhs : List α} {a b : Nat} {x y : α}
    (ha : readC lhs a = .ok x) (hb : readC rhs b = .ok y) : prodAt zero mul lhs rhs a b = mul x y := by
  simp [prodAt, readBoth, ha, hb, Res.map]

theorem readC_lt {l : List α} {a : Nat} {x : α} (h : readC l a = .ok x) : a < l.length :=
  (List.getElem?_eq_some_iff.mp (readC_eq_ok.mp h)).1

theorem inRange_append_split {v a b : List Nat} (h : InRange v (a ++ b)) :
    InRange (v.take a.length) a ∧ InRange (v.drop a.length) b := by
  induction a generalizing v with
  | nil => exact ⟨trivial, by simpa using h⟩
  | cons n a ih =>
    cases v with
    | nil => exact h.elim
    | cons x v =>
      obtain ⟨h1, h2⟩ := h
      obtain ⟨h3, h4⟩ := ih h2
      exact ⟨⟨h1, h3⟩, h4⟩

/-- Selecting one value of the outermost loop variable. -/
theorem filterMap_outer {B b : Nat} {rest : List Nat} (hb : b < B) {g : List Nat → Option γ}
    (hg : ∀ b' r, b' ≠ b → g (b' :: r) = none) :
    (indices (B :: rest)).filterMap g = (indices rest).filterMap fun r => g (b :: r) := by
  rw [filterMap_indices_cons]
  have : (fun i => (indices rest).filterMap fun k => g (i :: k)) =
      fun i => if i = b then (indices rest).filterMap fun k => g (b :: k) else [] := by
    funext i
    split
    · rename_i h; rw [h]
    · rename_i h
      rw [List.filterMap_eq_nil_iff]
      intro r _
      exact hg i r h
  rw [this, flatMap_ite_eq List.nodup_range, if_pos (List.mem_range.mpr hb)]

theorem filterMap_indices_append (a b : List Nat) (g : List Nat → Option γ) :
    (indices (a ++ b)).filterMap g =
      (indices a).flatMap fun x => (indices b).filterMap fun y => g (x ++ y) := by
  rw [indices_append, List.filterMap_flatMap]
  congr 1
  funext x
  rw [List.filterMap_map]
  rfl

/-- Among the steps for all channels `c`, the ones aimed at channel `c0`. -/
theorem filter_channel {C c0 : Nat} (hc : c0 < C) {addr : Nat → Nat} {rest : Nat → Nat × Nat} {P : Nat}
    {v : Nat × Nat × Nat → α} (h : ∀ c, c < C → (addr c = P ↔ c = c0)) :
    (((List.range C).map fun c => (addr c, rest c)).filter (fun t => t.1 = P)).map v =
      [v (addr c0, rest c0)] := by
  rw [filter_map_flatMap]
  have : (List.range C).flatMap (fun c => if decide ((addr c, rest c).1 = P) then [(addr c, rest c)] else [])
      = (List.range C).flatMap fun c => if c = c0 then [(addr c0, rest c0)] else [] := by
    apply List.flatMap_congr
    intro c hm
    have := h c (List.mem_range.mp hm)
    by_cases hcc : c = c0
    · subst hcc
      simp [this.mpr rfl]
    · simp [mt this.mp hcc, hcc]
  rw [this, flatMap_ite_eq List.nodup_range, if_pos (List.mem_range.mpr hc)]
  rfl

theorem filter_channel_none {C : Nat} {addr : Nat → Nat} {rest : Nat → Nat × Nat} {P : Nat}
    {v : Nat × Nat × Nat → α} (h : ∀ c, c < C → addr c ≠ P) :
    (((List.range C).map fun c => (addr c, rest c)).filter (fun t => t.1 = P)).map v = [] := by
  rw [List.map_eq_nil_iff, List.filter_eq_nil_iff]
  intro t ht
  obtain ⟨c, hc, rfl⟩ := List.mem_map.mp ht
  simpa using h c (List.mem_range.mp hc)

/-! ## The kernel -/

/-- The steps of one iteration of the loops. -/
def convTSteps (m : ConvMeta) (s p d : Nat) (os : List Nat) : List Nat → List (Nat × Nat × Nat)
  | b :: ic :: ik =>
    match tapIndex s p d os (ik.take m.axes.length) (ik.drop m.axes.length) with
    | none => []
    | some o => (List.range m.outC).map fun oc =>
        (cOffset (m.outC :: m.axes.map (·.o)) (b :: oc :: o),
          m.inOff + cOffset (m.inC :: m.axes.map (·.n)) (b :: ic :: ik.take m.axes.length),
          m.wOff + cOffset (m.outC :: m.axes.map (·.k)) (ic :: oc :: ik.drop m.axes.length))
  | _ => []

/-- The contribution of one iteration to cell `(b, oc, o)`. -/
def convTTerm (mul : α → α → α) (s p d : Nat) (n : Nat) (os : List Nat) (X W : List Nat → α) (b oc : Nat)
    (o : List Nat) : List Nat → Option α
  | b' :: ic :: ik =>
    if b' = b then
      if tapIndex s p d os (ik.take n) (ik.drop n) = some o then
        some (mul (X (b :: ic :: ik.take n)) (W (oc :: ic :: ik.drop n)))
      else none
    else none
  | _ => none

theorem inputMajor_read {w : Tensor α} {W : List Nat → α} {Ci Co : Nat} {ks : List Nat} (hw : Reads w W)
    (pw : InputMajor w Ci Co ks) (dw : w.dims = Co :: Ci :: ks) {oc ic : Nat} {k : List Nat}
    (hoc : oc < Co) (hic : ic < Ci) (hk : InRange k ks) :
    readC w.storage (w.layout.offset + cOffset (Co :: ks) (ic :: oc :: k)) = .ok (W (oc :: ic :: k)) := by
  rw [readC_eq_ok, cOffset_cons (d := Ci) (by simp [hk.length]), ← pw oc ic k hoc hic hk]
  exact hw _ (by rw [dw]; exact ⟨hoc, hic, hk⟩)

theorem convTKernel_ok {x w : Tensor α} {X W : List Nat → α} (zero : α) (add mul : α → α → α)
    {s p d B Ci Co : Nat} {ns ks os : List Nat} (hx : Reads x X) (hw : Reads w W) (px : Packed x)
    (pw : InputMajor w Ci Co ks) (dx : x.dims = B :: Ci :: ns) (dw : w.dims = Co :: Ci :: ks)
    (hk : ks.length = ns.length) (ho : os.length = ns.length) (hp : p < 2 ^ 31)
    (hf : Fits s d ns ks os) {nsp : Nat} {md : List Nat}
    (hmd : decodeConv nsp md = .ok ⟨numel (B :: Co :: os), B, Ci, Co, mkAxes s p d ns ks os,
      x.layout.offset, w.layout.offset⟩) :
    ∃ out, convTKernel zero add mul nsp x.storage w.storage md = .ok out ∧
      out.length = numel (B :: Co :: os) ∧ ∀ b oc o, b < B → oc < Co → InRange o os →
        out[rowMajor (B :: Co :: os) (b :: oc :: o)]? =
          some ((convTTerms mul s p d Ci ns ks os X W b oc o).foldl add zero) := by
  unfold convTKernel
  rw [hmd, Res.ok_bind]
  dsimp only
  rw [mkAxes_n hk ho, mkAxes_k hk ho, loops_eq]
  have hlen : (mkAxes s p d ns ks os).length = ns.length := mkAxes_length hk ho
  generalize hm : (⟨numel (B :: Co :: os), B, Ci, Co, mkAxes s p d ns ks os, x.layout.offset,
    w.layout.offset⟩ : ConvMeta) = m
  have m1 : m.axes = mkAxes s p d ns ks os := by rw [← hm]
  have m2 : m.outC = Co := by rw [← hm]
  have m3 : m.inC = Ci := by rw [← hm]
  have m4 : m.inOff = x.layout.offset := by rw [← hm]
  have m5 : m.wOff = w.layout.offset := by rw [← hm]
  have hsplit : ∀ v, v ∈ indices ([B, Ci] ++ ns ++ ks) → ∃ b ic ik, v = b :: ic :: ik ∧ b < B ∧ ic < Ci ∧
      InRange (ik.take ns.length) ns ∧ InRange (ik.drop ns.length) ks := by
    intro v hv
    have hv := mem_indices.mp hv
    rw [List.append_assoc] at hv
    obtain ⟨b, ic, ik, rfl, h1, h2, h3⟩ := inRange_cons2 hv
    obtain ⟨h4, h5⟩ := inRange_append_split (a := ns) (b := ks) h3
    exact ⟨b, ic, ik, rfl, h1, h2, h4, h5⟩
  have hxr : ∀ b ic i, b < B → ic < Ci → InRange i ns →
      readC x.storage (m.inOff + cOffset (m.inC :: m.axes.map (·.n)) (b :: ic :: i)) =
        .ok (X (b :: ic :: i)) := by
    intro b ic i h1 h2 h3
    rw [m4, m3, m1, mkAxes_n hk ho]
    exact packed_read hx px dx (by rw [dx]; exact ⟨h1, h2, h3⟩)
  have hwr : ∀ oc ic k, oc < Co → ic < Ci → InRange k ks →
      readC w.storage (m.wOff + cOffset (m.outC :: m.axes.map (·.k)) (ic :: oc :: k)) =
        .ok (W (oc :: ic :: k)) := by
    intro oc ic k h1 h2 h3
    rw [m5, m2, m1, mkAxes_k hk ho]
    exact inputMajor_read hw pw dw h1 h2 h3
  have hout : ∀ b oc o, InRange o os → cOffset (m.outC :: m.axes.map (·.o)) (b :: oc :: o) =
      rowMajor (B :: Co :: os) (b :: oc :: o) := by
    intro b oc o h
    rw [m2, m1, mkAxes_o hk ho]
    exact cOffset_cons (by simp [h.length])
  rw [foldL_flat (g := mulAcc add mul x.storage w.storage) (st := convTSteps m s p d os)]
  · obtain ⟨out, e1, e2, e3⟩ := acc_cells (add := add) (mul := mul) (lhs := x.storage) (rhs := w.storage)
      (L := indices ([B, Ci] ++ ns ++ ks)) (st := convTSteps m s p d os)
      (N := numel (B :: Co :: os)) (zero := zero) (by
        intro v hv t ht
        obtain ⟨b, ic, ik, rfl, h1, h2, h3, h4⟩ := hsplit v hv
        simp only [convTSteps] at ht
        rw [show m.axes.length = ns.length by rw [m1, hlen]] at ht
        split at ht
        · cases ht
        · obtain ⟨oc, hoc, rfl⟩ := List.mem_map.mp ht
          rw [m2] at hoc
          exact ⟨readC_lt (hxr b ic _ h1 h2 h3), readC_lt (hwr oc ic _ (List.mem_range.mp hoc) h2 h4)⟩)
      (by
        intro v hv t ht
        obtain ⟨b, ic, ik, rfl, h1, h2, h3, h4⟩ := hsplit v hv
        simp only [convTSteps] at ht
        split at ht
        · cases ht
        · rename_i o hto
          have hoi := tapIndex_inRange hto
          obtain ⟨oc, hoc, rfl⟩ := List.mem_map.mp ht
          rw [m2] at hoc
          dsimp only
          rw [hout b oc o hoi]
          exact rowMajor_lt (dims := B :: Co :: os) (idx := b :: oc :: o)
            ⟨h1, List.mem_range.mp hoc, hoi⟩)
    refine ⟨out, e1, e2, fun b oc o hb hoc hoi => ?_⟩
    have hP : InRange (b :: oc :: o) (B :: Co :: os) := ⟨hb, hoc, hoi⟩
    rw [e3 (rowMajor (B :: Co :: os) (b :: oc :: o)) (rowMajor_lt hP)
      (convTTerm mul s p d ns.length os X W b oc o)]
    · congr 2
      rw [List.append_assoc]
      show List.filterMap _ (indices (B :: Ci :: (ns ++ ks))) = _
      rw [filterMap_outer hb (by
        intro b' r hne
        cases r with
        | nil => rfl
        | cons ic ik => simp [convTTerm, hne]), filterMap_indices_cons]
      unfold convTTerms
      congr 1
      funext ic
      rw [filterMap_indices_append]
      apply List.flatMap_congr
      intro i hi
      have hil := (mem_indices.mp hi).length
      congr 1
      funext k
      simp [convTTerm, ← hil]
    · intro v hv
      obtain ⟨b', ic, ik, rfl, h1, h2, h3, h4⟩ := hsplit v hv
      simp only [convTSteps, convTTerm]
      rw [show m.axes.length = ns.length by rw [m1, hlen]]
      have haddr : ∀ o', InRange o' os → ∀ c, c < Co →
          (cOffset (m.outC :: m.axes.map (·.o)) (b' :: c :: o') =
            rowMajor (B :: Co :: os) (b :: oc :: o) ↔ b' = b ∧ c = oc ∧ o' = o) := by
        intro o' ho' c hc
        rw [hout b' c o' ho']
        constructor
        · intro h
          have := rowMajor_inj (dims := B :: Co :: os) (a := b' :: c :: o') ⟨h1, hc, ho'⟩ hP h
          simpa using this
        · rintro ⟨rfl, rfl, rfl⟩; rfl
      cases ht : tapIndex s p d os (ik.take ns.length) (ik.drop ns.length) with
      | none => simp
      | some o' =>
        have ho' := tapIndex_inRange ht
        dsimp only
        by_cases hb' : b' = b
        · by_cases hoo : o' = o
          · subst hb' hoo
            rw [filter_channel (c0 := oc) (by rw [m2]; exact hoc) (by
              intro c hc
              rw [m2] at hc
              rw [haddr o' ho' c hc]
              simp)]
            rw [if_pos rfl, if_pos rfl]
            dsimp only
            rw [prodAt_eq (hxr b' ic _ h1 h2 h3) (hwr oc ic _ hoc h2 h4)]
            rfl
          · rw [filter_channel_none (by
              intro c hc h
              rw [m2] at hc
              exact hoo ((haddr o' ho' c hc).mp h).2.2)]
            rw [if_pos hb', if_neg (by simpa using hoo)]
            rfl
        · rw [filter_channel_none (by
            intro c hc h
            rw [m2] at hc
            exact hb' ((haddr o' ho' c hc).mp h).1)]
          rw [if_neg hb']
          rfl
  · intro out v hv
    obtain ⟨b, ic, ik, rfl, h1, h2, h3, h4⟩ := hsplit v hv
    simp only [convTStep, convTSteps]
    have hct : cTaps (·.o) m.axes (ik.take ns.length) (ik.drop ns.length) =
        .ok (tapIndex s p d os (ik.take ns.length) (ik.drop ns.length)) := by
      rw [m1]; exact cTaps_o hp hf ho.symm h3 h4 (by omega)
    rw [show m.axes.length = ns.length by rw [m1, hlen], hct, Res.ok_bind]
    cases tapIndex s p d os (ik.take ns.length) (ik.drop ns.length) <;> rfl

/-! ## C60 -/

/-- **C60** without output padding, for an input stored in row-major order and a weight that lies in
memory with the input channel outermost (for example the transpose of a row-major
`[in, out, kernel...]` tensor).  Missing: weights stored in the documented order with at least two
channels on both sides (`C60_packed_weight_wrong`) and output padding (`C60_output_padding_wrong`); for
both the claim is false.  Also missing: strided inputs, `int` overflow. -/
theorem C60_convT_partial {nsp : Nat} (h3 : nsp = 1 ∨ nsp = 2 ∨ nsp = 3) {x w : Tensor α}
    {X W : List Nat → α} (zero : α) (add mul : α → α → α) {s p d B Ci Co : Nat} {ns ks : List Nat}
    (hx : Reads x X) (hw : Reads w W) (px : Packed x) (pw : InputMajor w Ci Co ks)
    (dx : x.dims = B :: Ci :: ns) (dw : w.dims = Co :: Ci :: ks) (hn : ns.length = nsp)
    (hk : ks.length = nsp) (hv : TransposeFits s p ns ks)
    (hb : ∀ o ∈ convTOuts s p 0 d ns ks, o + 2 * p < 2 ^ 31) :
    ∃ y, x.convT zero add mul nsp w s p 0 d = .ok y ∧ y.WF ∧ Packed y ∧
      IsConvT zero add mul s p d B Ci Co ns ks (convTOuts s p 0 d ns ks) X W y := by
  have hol := convTOuts_length (op := 0) (d := d) hv
  have hf := fits_convT hv hb
  have hp : p < 2 ^ 31 :=
    padding_small (ns := convTOuts s p 0 d ns ks) (by
      intro h; rw [h] at hol; simp at hol; omega) hb
  obtain ⟨out, e1, e2, e3⟩ := convTKernel_ok zero add mul hx hw px pw dx dw (by omega) hol hp hf
    (nsp := nsp) (decodeConv_convMetadata (w := w.layout) h3 dx
      (by rw [show w.layout.dims = Co :: Ci :: ks from dw]; rfl) hn hk (by omega))
  have hconv : x.convT zero add mul nsp w s p 0 d =
      .ok ⟨out, Layout.fromShape (B :: Co :: convTOuts s p 0 d ns ks)⟩ := by
    unfold Tensor.convT callOpsConv
    rw [if_neg (by rw [dx, dw]; simp; omega), if_neg (by rw [dx, dw]; simp),
      show x.dims.drop 2 = ns by rw [dx]; rfl, show w.dims.drop 2 = ks by rw [dw]; rfl,
      convTSizes_eq hv, Res.ok_bind, if_neg (by rw [dx, dw]; simp; omega),
      if_neg (by rw [dx, dw]; simp), Res.ok_bind,
      show x.dims.getD 0 0 = B by rw [dx]; rfl, show w.dims.getD 0 0 = Co by rw [dw]; rfl,
      show [B, Co] ++ convTOuts s p 0 d ns ks = B :: Co :: convTOuts s p 0 d ns ks from rfl, e1,
      Res.ok_bind]
  have hel : ∀ b oc o, b < B → oc < Co → InRange o (convTOuts s p 0 d ns ks) →
      Tensor.elem ⟨out, Layout.fromShape (B :: Co :: convTOuts s p 0 d ns ks)⟩ (b :: oc :: o) =
        some ((convTTerms mul s p d Ci ns ks (convTOuts s p 0 d ns ks) X W b oc o).foldl add zero) := by
    intro b oc o h1 h2 h3
    rw [← e3 b oc o h1 h2 h3]
    unfold Layout.fromShape
    rw [elem_rowMajor, Nat.zero_add]
  refine ⟨_, hconv, ⟨fresh_length _ _, ?_⟩, ?_, rfl, hel⟩
  · intro idx hi
    obtain ⟨b, oc, o, rfl, h1, h2, h3⟩ := inRange_cons2 hi
    rw [hel b oc o h1 h2 h3]
    rfl
  · intro idx _
    exact dot_computeStrides _ idx

/-- A row-major weight is stored with the input channel outermost if there is a single input or output
channel: for these C60 holds in the documented layout. -/
theorem inputMajor_single {w : Tensor α} {Ci Co : Nat} {ks : List Nat} (pw : Packed w)
    (dw : w.dims = Co :: Ci :: ks) (h : Ci = 1 ∨ Co = 1) : InputMajor w Ci Co ks := by
  intro oc ic k h1 h2 h3
  rw [pw _ (by rw [dw]; exact ⟨h1, h2, h3⟩), dw]
  simp only [rowMajor, numel]
  rcases h with rfl | rfl
  · have : ic = 0 := by omega
    subst this; simp
  · have : oc = 0 := by omega
    subst this; simp

/-- The transpose of a `[Ci, Co, kernel...]` tensor is stored with the input channel outermost. -/
theorem inputMajor_swapped {st : List α} {Ci Co off : Nat} {ks : List Nat} :
    InputMajor (⟨st, ⟨Co :: Ci :: ks, numel ks :: (Co * numel ks) :: Layout.computeStrides ks, off⟩⟩ :
      Tensor α) Ci Co ks := by
  intro oc ic k _ _ _
  simp only [dot, dot_computeStrides, rowMajor, numel]
  omega

/-! ### Concrete case -/

/-- Stride 2, padding 1, two input and three output channels, weight given as a transposed view. -/
example : TransposeFits 2 1 [3] [3] ∧ convTOuts 2 1 0 1 [3] [3] = [5] ∧
    InputMajor (⟨List.range 18, ⟨[3, 2, 3], [3, 9, 1], 0⟩⟩ : Tensor Nat) 2 3 [3] ∧
    ((countUp [1, 2, 3] 1).convT 0 (· + ·) (· * ·) 1
      ⟨List.range 18, ⟨[3, 2, 3], [3, 9, 1], 0⟩⟩ 2 1 0 1).map (·.storage) =
      .ok [1 * 1 + 4 * 10, 1 * 2 + 2 * 0 + 4 * 11 + 5 * 9, 2 * 1 + 5 * 10, 2 * 2 + 3 * 0 + 5 * 11 + 6 * 9,
        3 * 1 + 6 * 10,
        1 * 4 + 4 * 13, 1 * 5 + 2 * 3 + 4 * 14 + 5 * 12, 2 * 4 + 5 * 13,
        2 * 5 + 3 * 3 + 5 * 14 + 6 * 12, 3 * 4 + 6 * 13,
        1 * 7 + 4 * 16, 1 * 8 + 2 * 6 + 4 * 17 + 5 * 15, 2 * 7 + 5 * 16,
        2 * 8 + 3 * 6 + 5 * 17 + 6 * 15, 3 * 7 + 6 * 16] :=
  ⟨.cons (by decide) .nil, by decide, inputMajor_swapped, by decide +kernel⟩

/-! ## The full claim is false -/

/-- A weight in the documented `[out, in, kernel]` order: output channel 0 should be
`1 * w[0,0] + 10 * w[0,1] = 1 * 1 + 10 * 2 = 21`, the kernel computes `1 * w[0,0] + 10 * w[1,0] = 31`. -/
theorem C60_packed_weight_wrong :
    (convTTerms (· * ·) 1 0 1 2 [1] [1] [1] (fun i => [1, 10].getD (i.getD 1 0) 0)
      (fun i => [1, 2, 3, 4].getD (i.getD 0 0 * 2 + i.getD 1 0) 0) 0 0 [0]).foldl (· + ·) 0 = 21 ∧
    ((⟨[1, 10], Layout.fromShape [1, 2, 1]⟩ : Tensor Nat).convT 0 (· + ·) (· * ·) 1
      ⟨[1, 2, 3, 4], Layout.fromShape [2, 2, 1]⟩ 1 0 0 1).map (·.storage) = .ok [31, 42] := by decide

/-- With output padding the result's shape has more elements than its storage, so reading it leaves the
buffer: the result is not a well-formed tensor. -/
theorem C60_output_padding_wrong :
    (countUp [1, 1, 2] 1).convT 0 (· + ·) (· * ·) 1 (countUp [1, 1, 1] 1) 2 0 1 1 =
      .ok ⟨[1, 0, 2], Layout.fromShape [1, 1, 4]⟩ ∧
    ¬ (⟨[1, 0, 2], Layout.fromShape [1, 1, 4]⟩ : Tensor Nat).WF := by
  refine ⟨by decide +kernel, fun h => ?_⟩
  have := h.2 [0, 0, 3] (by decide)
  revert this
  decide

/-- Padding larger than the strided input panics even though the output size is positive:
`(2 - 1) * 1 - 2 * 1 + 2 + 1 = 2`. -/
theorem C60_padding_panics :
    (countUp [1, 1, 2] 1).convT 0 (· + ·) (· * ·) 1 (countUp [1, 1, 3] 1) 1 1 0 1 = .panic := by decide

theorem C60_full_false : ¬ Spec.ConvTCorrect Nat := by
  intro h
  obtain ⟨y, h1, h2, h3⟩ := h 1 (countUp [1, 1, 2] 1) (countUp [1, 1, 1] 1) _ _ 0 (· + ·) (· * ·)
    2 0 1 1 1 1 1 [2] [1] (Or.inl rfl) (countUp_reads _ _) (countUp_reads _ _) (countUp_packed _ _)
    (countUp_packed _ _) rfl rfl rfl rfl (by decide) (.cons (by decide) .nil) (by decide)
  rw [C60_output_padding_wrong.1] at h1
  have hy := (Res.ok.inj h1).symm
  subst hy
  have := h3 0 0 [3] (by decide) (by decide) (by decide)
  revert this
  decide

end Hodu
