import Verif.Model.ConvLayers
import Verif.Props.Conv
import Verif.Props.ConvTranspose
import Verif.Lemmas.NormCells

/-! # C91 convolution layers -/

namespace Hodu
open Spec

variable {α : Type}

/-- The bias a layer adds in channel `c`. -/
def Spec.withBias (add : α → α → α) (b : Option (Nat → α)) (c : Nat) (v : α) : α :=
  match b with
  | none => v
  | some B => add v (B c)

/-- The optional bias is a vector with one entry per channel. -/
def Spec.IsBias (C : Nat) : Option (Tensor α) → Option (Nat → α) → Prop
  | none, none => True
  | some b, some B => Val b [C] (fun i => B (i.getD 0 0))
  | _, _ => False

theorem Val.perChannel {b : Tensor α} {C : Nat} {B : Nat → α} (h : Val b [C] (fun i => B (i.getD 0 0))) (m : Nat) :
    ∃ r, b.reshape (1 :: b.dims.getD 0 0 :: List.replicate m 1) = .ok r ∧
      Val r (1 :: C :: List.replicate m 1) fun j => B (j.getD 1 0) := by
  rw [show b.dims.getD 0 0 = C by rw [h.dims]; rfl]
  refine h.reshape (by simp [numel, numel_ones]) fun i j hi hj he => ?_
  match i, hi, j, hj with
  | [k], ⟨hk, _⟩, a :: c :: q, ⟨ha, hc, hq⟩ =>
    have ha : a < 1 := ha
    obtain rfl : a = 0 := by omega
    rw [inRange_ones hq] at he
    simp [rowMajor, numel_ones, rowMajor_replicate_zero, numel] at he
    simp [he]

theorem addChannelBias_ok {o : Tensor α} {b : Option (Tensor α)} {B : Option (Nat → α)} {N C : Nat} {os : List Nat}
    {F : List Nat → α} (ho : Val o (N :: C :: os) F) (hb : IsBias C b B) (hpd : ∀ x ∈ N :: C :: os, 0 < x)
    (cores : Nat) (add : α → α → α) (fill : α) :
    ∃ r, o.addChannelBias cores add fill os.length b = .ok r ∧
      Val r (N :: C :: os) (fun i => withBias add B (i.getD 1 0) (F i)) := by
  match b, B, hb with
  | none, none, _ => exact ⟨o, rfl, ho⟩
  | some b, some B, hb =>
    obtain ⟨r, r1, r2⟩ := Val.perChannel hb os.length
    obtain ⟨s, s1, s2⟩ := ho.binary r2 (broadcastsTo_channel N C os) hpd (pos_channel hpd) cores add fill
    refine ⟨s, by rw [Tensor.addChannelBias, r1, Res.ok_bind, s1], s2.congr fun i hi => ?_⟩
    match i, hi with
    | n :: c :: q, hi =>
      show add _ (B _) = add _ (B _)
      rw [broadcastIndex_channel hi]
      rfl

theorem conv_fresh {x w y : Tensor α} {zero : α} {add mul : α → α → α} {nsp s p d : Nat}
    (h : x.conv zero add mul nsp w s p d = .ok y) : y.layout = Layout.fromShape y.dims := by
  unfold Tensor.conv at h
  split_ifs at h
  obtain ⟨outs, -, h⟩ := Res.bind_eq_ok.mp h
  obtain ⟨st, -, h⟩ := Res.bind_eq_ok.mp h
  cases h
  rfl

theorem convT_fresh {x w y : Tensor α} {zero : α} {add mul : α → α → α} {nsp s p op d : Nat}
    (h : x.convT zero add mul nsp w s p op d = .ok y) : y.layout = Layout.fromShape y.dims := by
  unfold Tensor.convT at h
  split_ifs at h
  obtain ⟨outs, -, h⟩ := Res.bind_eq_ok.mp h
  obtain ⟨st, -, h⟩ := Res.bind_eq_ok.mp h
  cases h
  rfl

/-- A row-major result as input of further operations. -/
theorem val_of_cells {y : Tensor α} {B C : Nat} {os : List Nat} {F : Nat → Nat → List Nat → α} (hw : y.WF)
    (hl : y.layout = Layout.fromShape y.dims) (hd : y.dims = B :: C :: os)
    (hv : ∀ b c o, b < B → c < C → InRange o os → y.elem (b :: c :: o) = some (F b c o)) :
    Val y (B :: C :: os) (fun i => F (i.getD 0 0) (i.getD 1 0) (i.drop 2)) := by
  refine ⟨hw, hd, Or.inr (by rw [hl]; rfl), fun i hi => ?_⟩
  match i, hi with
  | b :: c :: o, hi => exact hv b c o hi.1 hi.2.1 hi.2.2

theorem convOuts_pos {s p d : Nat} (ns ks : List Nat) : ∀ o ∈ convOuts s p d ns ks, 0 < o := by
  intro o ho
  obtain ⟨i, hi, rfl⟩ := List.getElem_of_mem ho
  simp [convOuts]

theorem convTOuts_pos {s p op d : Nat} (ns ks : List Nat) : ∀ o ∈ convTOuts s p op d ns ks, 0 < o := by
  intro o ho
  obtain ⟨i, hi, rfl⟩ := List.getElem_of_mem ho
  simp [convTOuts]

/-- C91, convolution (row-major input and weight, a batch and output channels that are not empty): the cross-correlation
of C59 plus the bias of the output channel.  Missing: inputs that are views (`C59_view_wrong`). -/
theorem C91_conv_partial {nsp : Nat} (h3 : nsp = 1 ∨ nsp = 2 ∨ nsp = 3) {x w : Tensor α} {b : Option (Tensor α)}
    {X W : List Nat → α} {Bi : Option (Nat → α)} (cores : Nat) (zero : α) (add mul : α → α → α) (fill : α)
    {s p d N Ci Co k : Nat} {ns : List Nat} (hx : Reads x X) (hw : Reads w W) (px : Packed x) (pw : Packed w)
    (dx : x.dims = N :: Ci :: ns) (dw : w.dims = convWeightDims nsp Ci Co k) (hbias : IsBias Co b Bi)
    (hN : 0 < N) (hCo : 0 < Co) (hn : ns.length = nsp) (hs : 0 < s) (hk : 0 < k)
    (hv : ∀ n ∈ ns, d * (k - 1) < n + 2 * p ∧ n + 2 * p < 2 ^ 31) :
    ∃ y, x.convLayer cores zero add mul fill nsp w b s p d = .ok y ∧ y.WF ∧
      y.dims = N :: Co :: ns.map (fun n => (n + 2 * p - d * (k - 1) - 1) / s + 1) ∧
      ∀ n c o, InRange (n :: c :: o) y.dims → y.elem (n :: c :: o) =
        some (withBias add Bi c ((convTerms mul s p d Ci ns (List.replicate nsp k) X W n c o).foldl add zero)) := by
  have hfit : KernelFits p d ns (List.replicate nsp k) := by
    subst hn
    clear dx dw px pw hx hw h3
    induction ns with
    | nil => exact .nil
    | cons n ns ih =>
      exact .cons ⟨hk, (hv n (by simp)).1⟩ (ih fun m hm => hv m (by simp [hm]))
  obtain ⟨y, y1, y2, y3, y4, y5⟩ := C59_conv_partial h3 zero add mul hx hw px pw dx dw hn (by simp) hs hfit
    fun n hn => (hv n hn).2
  have hol : (convOuts s p d ns (List.replicate nsp k)).length = nsp := by rw [convOuts_length hfit, hn]
  have hy := val_of_cells y2 (conv_fresh y1) y4 y5
  obtain ⟨r, r1, r2⟩ := addChannelBias_ok hy hbias (by
    intro z hz
    rcases List.mem_cons.mp hz with rfl | hz
    · exact hN
    rcases List.mem_cons.mp hz with rfl | hz
    · exact hCo
    exact convOuts_pos _ _ z hz) cores add fill
  rw [hol] at r1
  have hout : convOuts s p d ns (List.replicate nsp k) = ns.map (fun n => (n + 2 * p - d * (k - 1) - 1) / s + 1) := by
    subst hn
    clear * -
    induction ns with
    | nil => rfl
    | cons n ns ih => simp only [convOuts, List.length_cons, List.replicate_succ, List.zipWith_cons_cons, List.map_cons] at ih ⊢; rw [ih]
  refine ⟨r, by rw [Tensor.convLayer, y1, Res.ok_bind, r1], r2.wf, by rw [r2.dims, hout], fun n c o hi => ?_⟩
  rw [r2.dims] at hi
  exact r2.vals _ hi

/-- C91, transposed convolution with as many input as output channels and no output padding (row-major input and weight):
the transposed convolution with the weight `[in, out, kernel]` plus the bias of the output channel.  Missing: different
numbers of channels (`C91_convT_channels`) and output padding (`C91_output_padding`). -/
theorem C91_convT_partial {nsp : Nat} (h3 : nsp = 1 ∨ nsp = 2 ∨ nsp = 3) {x w : Tensor α} {b : Option (Tensor α)}
    {X W : List Nat → α} {Bi : Option (Nat → α)} (cores : Nat) (zero : α) (add mul : α → α → α) (fill : α)
    {s p d N C k : Nat} {ns : List Nat} (hx : Reads x X) (hw : Reads w W) (px : Packed x) (pw : Packed w)
    (dx : x.dims = N :: C :: ns) (dw : w.dims = convTWeightDims nsp C C k) (hbias : IsBias C b Bi)
    (hN : 0 < N) (hC : 0 < C) (hn : ns.length = nsp) (hk : 0 < k)
    (hv : ∀ n ∈ ns, 0 < n ∧ 2 * p ≤ (n - 1) * s ∧ (n - 1) * s + d * (k - 1) + 1 < 2 ^ 31) :
    ∃ y, x.convTLayer cores zero add mul fill nsp w b s p 0 d = .ok y ∧ y.WF ∧
      y.dims = N :: C :: ns.map (fun n => (n - 1) * s - 2 * p + d * (k - 1) + 1) ∧
      ∀ n c o, InRange (n :: c :: o) y.dims → y.elem (n :: c :: o) =
        some (withBias add Bi c ((convTTerms mul s p d C ns (List.replicate nsp k) (y.dims.drop 2) X
          (fun i => W (i.getD 1 0 :: i.getD 0 0 :: i.drop 2)) n c o).foldl add zero)) := by
  have hfit : TransposeFits s p ns (List.replicate nsp k) := by
    subst hn
    clear dx dw px pw hx hw h3
    induction ns with
    | nil => exact .nil
    | cons n ns ih =>
      exact .cons ⟨(hv n (by simp)).1, hk, (hv n (by simp)).2.1⟩ (ih fun m hm => hv m (by simp [hm]))
  have hout : convTOuts s p 0 d ns (List.replicate nsp k) =
      ns.map (fun n => (n - 1) * s - 2 * p + d * (k - 1) + 1) := by
    subst hn
    clear * -
    induction ns with
    | nil => rfl
    | cons n ns ih =>
      simp only [convTOuts, List.length_cons, List.replicate_succ, List.zipWith_cons_cons, List.map_cons, Nat.add_zero] at ih ⊢
      rw [ih]
  -- the kernel sees the weight with the two leading axes exchanged
  let ks := List.replicate nsp k
  let w' : Tensor α := ⟨w.storage, ⟨C :: C :: ks, numel ks :: (C * numel ks) :: Layout.computeStrides ks, w.layout.offset⟩⟩
  have hw' : Reads w' (fun i => W (i.getD 1 0 :: i.getD 0 0 :: i.drop 2)) := by
    intro i hi
    match i, hi with
    | oc :: ic :: q, hi =>
      have hi2 : InRange (ic :: oc :: q) w.dims := by rw [dw]; exact ⟨hi.2.1, hi.1, hi.2.2⟩
      have h1 := hw _ hi2
      show w.storage[w.layout.offset + dot (oc :: ic :: q) (numel ks :: (C * numel ks) :: Layout.computeStrides ks)]? = _
      have h2 : dot (oc :: ic :: q) (numel ks :: (C * numel ks) :: Layout.computeStrides ks) =
          dot (ic :: oc :: q) w.layout.strides := by
        rw [pw _ hi2, dw]
        simp only [convTWeightDims, dot, dot_computeStrides, rowMajor, numel]
        show _ = ic * (C * numel ks) + (oc * numel ks + rowMajor ks q)
        omega
      rw [h2]
      exact h1
  have hsame : x.convT zero add mul nsp w s p 0 d = x.convT zero add mul nsp w' s p 0 d := by
    have hd' : w'.dims = w.dims := by rw [dw]; rfl
    have ho : w'.layout.offset = w.layout.offset := rfl
    have hst : w'.storage = w.storage := rfl
    have hdl : w'.layout.dims = w.layout.dims := hd'
    unfold Tensor.convT callOpsConv convMetadata
    rw [hd', ho, hst, hdl]
  obtain ⟨y, y1, y2, y3, y4, y5⟩ := C60_convT_partial h3 zero add mul (s := s) (p := p) (d := d) hx hw' px
    inputMajor_swapped dx rfl hn (by simp [ks]) hfit (by
      intro o ho
      rw [hout] at ho
      obtain ⟨n, hn, rfl⟩ := List.mem_map.mp ho
      have := hv n hn
      omega)
  have hol : (convTOuts s p 0 d ns ks).length = nsp := by rw [convTOuts_length hfit, hn]
  have hy := val_of_cells y2 (convT_fresh y1) y4 y5
  obtain ⟨r, r1, r2⟩ := addChannelBias_ok hy hbias (by
    intro z hz
    rcases List.mem_cons.mp hz with rfl | hz
    · exact hN
    rcases List.mem_cons.mp hz with rfl | hz
    · exact hC
    exact convTOuts_pos _ _ z hz) cores add fill
  rw [hol] at r1
  refine ⟨r, by rw [Tensor.convTLayer, hsame, y1, Res.ok_bind, r1], r2.wf, by rw [r2.dims, hout], fun n c o hi => ?_⟩
  rw [r2.dims] at hi
  rw [r2.vals _ hi, r2.dims]
  rfl

/-- C91 fails: a transposed convolution with different numbers of input and output channels rejects every input with
its number of input channels. -/
theorem C91_convT_channels {nsp : Nat} (x w : Tensor α) (b : Option (Tensor α)) (cores : Nat) (zero : α)
    (add mul : α → α → α) (fill : α) (s p op d N cin cout k : Nat) (ns : List Nat) (dx : x.dims = N :: cin :: ns)
    (dw : w.dims = convTWeightDims nsp cin cout k) (hne : cin ≠ cout) :
    x.convTLayer cores zero add mul fill nsp w b s p op d = .err := by
  have : x.convT zero add mul nsp w s p op d = .err := by
    unfold Tensor.convT
    split_ifs with h1 h2
    · rfl
    · rfl
    · exact absurd (by rw [dx, dw]; simpa [convTWeightDims] using hne) h2
  rw [Tensor.convTLayer, this]
  rfl

/-- C91, errors: a convolution rejects an input of another rank or with another number of channels. -/
theorem C91_errors {nsp : Nat} (x w : Tensor α) (b : Option (Tensor α)) (cores : Nat) (zero : α)
    (add mul : α → α → α) (fill : α) (s p d cin cout k : Nat) (dw : w.dims = convWeightDims nsp cin cout k)
    (h : x.dims.length ≠ 2 + nsp ∨ x.dims[1]? ≠ some cin) :
    x.convLayer cores zero add mul fill nsp w b s p d = .err := by
  rw [Tensor.convLayer, C59_errors x w zero add mul s p d (h.imp_right fun h => Or.inr (by rw [dw]; simpa [convWeightDims] using h))]
  rfl

/-! ## Concrete cases -/

/-- Two images, two channels, bias 100 and 200, padding 1. -/
example : ∃ y, (countUp [2, 2, 3] 1).convLayer 1 0 (· + ·) (· * ·) 0 1 (countUp [2, 2, 2] 1)
    (some ⟨[100, 200], Layout.fromShape [2]⟩) 1 1 1 = .ok y ∧ y.dims = [2, 2, 4] := by
  obtain ⟨y, h1, -, h2, -⟩ := C91_conv_partial (nsp := 1) (Or.inl rfl) 1 0 (· + ·) (· * ·) 0 (s := 1) (p := 1) (d := 1)
    (N := 2) (Ci := 2) (Co := 2) (k := 2) (ns := [3]) (b := some ⟨[100, 200], Layout.fromShape [2]⟩)
    (Bi := some fun c => 100 + 100 * c)
    (countUp_reads [2, 2, 3] 1) (countUp_reads [2, 2, 2] 1) (countUp_packed _ _) (countUp_packed _ _) rfl rfl
    (Val.fresh (d := [2]) rfl (by
      intro i hi
      match i, hi with
      | [a], ⟨ha, _⟩ => interval_cases a <;> rfl)) (by simp) (by simp) rfl (by simp) (by simp) (by simp)
  exact ⟨y, h1, h2⟩

example : (countUp [2, 2, 3] 1).convLayer 1 0 (· + ·) (· * ·) 0 1 (countUp [2, 2, 2] 1)
    (some ⟨[100, 200], Layout.fromShape [2]⟩) 1 1 1 =
    .ok ⟨[118, 137, 147, 121, 238, 285, 311, 257, 154, 197, 207, 145, 322, 441, 467, 329], Layout.fromShape [2, 2, 4]⟩ := by
  decide +kernel

example : ∃ y, (countUp [1, 2, 2] 1).convTLayer 1 0 (· + ·) (· * ·) 0 1 (countUp [2, 2, 2] 1)
    (some ⟨[100, 200], Layout.fromShape [2]⟩) 2 1 0 1 = .ok y ∧ y.dims = [1, 2, 2] := by
  obtain ⟨y, h1, -, h2, -⟩ := C91_convT_partial (nsp := 1) (Or.inl rfl) 1 0 (· + ·) (· * ·) 0 (s := 2) (p := 1) (d := 1)
    (N := 1) (C := 2) (k := 2) (ns := [2]) (b := some ⟨[100, 200], Layout.fromShape [2]⟩)
    (Bi := some fun c => 100 + 100 * c)
    (countUp_reads [1, 2, 2] 1) (countUp_reads [2, 2, 2] 1) (countUp_packed _ _) (countUp_packed _ _) rfl rfl
    (Val.fresh (d := [2]) rfl (by
      intro i hi
      match i, hi with
      | [a], ⟨ha, _⟩ => interval_cases a <;> rfl)) (by simp) (by simp) rfl (by simp) (by simp)
  exact ⟨y, h1, h2⟩

/-! ## What does not hold -/

/-- C91 fails: with output padding the result has fewer elements than its shape says, and adding the bias reads outside of
the storage. -/
theorem C91_output_padding :
    (countUp [1, 1, 2] 1).convTLayer 1 0 (· + ·) (· * ·) 0 1 (countUp [1, 1, 1] 1)
      (some ⟨[5], Layout.fromShape [1]⟩) 2 0 1 1 = .ub := by decide +kernel

/-- C91 in full: the transposed convolution layer accepts every input with its number of input channels and returns its
number of output channels. -/
def C91_full : Prop :=
  ∀ (x w : Tensor Nat) (N cin cout k n s : Nat), x.WF → w.WF → Packed x → Packed w → x.dims = [N, cin, n] →
    w.dims = convTWeightDims 1 cin cout k → 0 < N → 0 < cin → 0 < cout → 0 < n → 0 < k → 0 < s →
    ∃ y, x.convTLayer 1 0 (· + ·) (· * ·) 0 1 w none s 0 0 1 = .ok y ∧ y.dims.take 2 = [N, cout]

theorem C91_full_false : ¬ C91_full := by
  intro h
  have hwf : ∀ dims off, (countUp dims off).WF := fun dims off =>
    ⟨computeStrides_length dims, fun idx hi => by rw [countUp_reads dims off idx hi]; rfl⟩
  obtain ⟨y, h1, -⟩ := h (countUp [1, 1, 2] 0) (countUp [1, 3, 2] 0) 1 1 3 2 2 1 (hwf _ _) (hwf _ _) (countUp_packed _ _)
    (countUp_packed _ _) rfl rfl (by simp) (by simp) (by simp) (by simp) (by simp) (by simp)
  rw [C91_convT_channels (nsp := 1) (cin := 1) (cout := 3) (k := 2) (N := 1) (ns := [2]) _ _ _ _ _ _ _ _ _ _ _ _ rfl rfl
    (by simp)] at h1
  cases h1

end Hodu
