import Verif.Lemmas.TypedSeq
import Verif.Props.Attention
import Verif.Props.Embedding

/-!
# C89: recurrent networks

Over the reals `RNN`, `LSTM` and `GRU` compute the documented recurrences, for every number of layers, every
length and both orientations.  An initial state with too few layers is accepted, and an empty sequence or a
network without layers is an error.
-/

open Finset

namespace Hodu
open Spec

/-! ## Specification -/

/-- The numbers in a cell whose input has `I` entries. -/
structure Spec.Layer where
  I : Nat
  Wih : List Nat → ℝ
  Whh : List Nat → ℝ
  Bih : List Nat → ℝ
  Bhh : List Nat → ℝ

/-- `W_ih x + b_ih`, entry `o` for example `b` of the batch. -/
noncomputable def Spec.fromInput (p : Layer) (x : List Nat → ℝ) (b o : Nat) : ℝ :=
  ∑ k ∈ range p.I, p.Wih [o, k] * x [b, k] + p.Bih [o]

/-- `W_hh h + b_hh`. -/
noncomputable def Spec.fromHidden (H : Nat) (p : Layer) (h : List Nat → ℝ) (b o : Nat) : ℝ :=
  ∑ k ∈ range H, p.Whh [o, k] * h [b, k] + p.Bhh [o]

noncomputable def Spec.logistic (x : ℝ) : ℝ := 1 / (1 + Real.exp (-x))

/-- `h' = tanh(W_ih x + b_ih + W_hh h + b_hh)`, or the same with `max 0`. -/
noncomputable def Spec.rnnCell (relu : Bool) (H : Nat) (p : Layer) (x h : List Nat → ℝ) : List Nat → ℝ :=
  fun i =>
    let a := fromInput p x (i.getD 0 0) (i.getD 1 0) + fromHidden H p h (i.getD 0 0) (i.getD 1 0)
    if relu then max 0 a else Real.tanh a

/-- Gate `q` of a cell with several gates: rows `q H, .., (q + 1) H - 1` of the weights. -/
noncomputable def Spec.gateOf (H : Nat) (p : Layer) (x h : List Nat → ℝ) (q : Nat) (i : List Nat) : ℝ :=
  fromInput p x (i.getD 0 0) (q * H + i.getD 1 0) + fromHidden H p h (i.getD 0 0) (q * H + i.getD 1 0)

/-- The LSTM equations: gates `i, f, g, o`; `c' = f c + i g`, `h' = o tanh(c')`. -/
noncomputable def Spec.lstmCell (H : Nat) (p : Layer) (x : List Nat → ℝ)
    (s : (List Nat → ℝ) × (List Nat → ℝ)) : (List Nat → ℝ) × (List Nat → ℝ) :=
  let c' := fun i => logistic (gateOf H p x s.1 1 i) * s.2 i +
    logistic (gateOf H p x s.1 0 i) * Real.tanh (gateOf H p x s.1 2 i)
  (fun i => logistic (gateOf H p x s.1 3 i) * Real.tanh (c' i), c')

/-- The GRU equations: `r`, `z`, `n = tanh(W_in x + b_in + r (W_hn h + b_hn))`,
`h' = (1 - z) n + z h`. -/
noncomputable def Spec.gruCell (H : Nat) (p : Layer) (x h : List Nat → ℝ) : List Nat → ℝ := fun i =>
  let r := logistic (gateOf H p x h 0 i)
  let z := logistic (gateOf H p x h 1 i)
  let n := Real.tanh (fromInput p x (i.getD 0 0) (2 * H + i.getD 1 0) +
    r * fromHidden H p h (i.getD 0 0) (2 * H + i.getD 1 0))
  (1 - z) * n + z * h i

/-- The state of layer `l` after `t` inputs: the first layer reads the input, every other layer the new
state of the layer below. -/
def Spec.unroll {V : Type} (step : Nat → (List Nat → ℝ) → V → V) (out : V → List Nat → ℝ)
    (x : Nat → List Nat → ℝ) (h0 : Nat → V) : Nat → Nat → V
  | 0, l => h0 l
  | t + 1, 0 => step 0 (x t) (unroll step out x h0 t 0)
  | t + 1, l + 1 => step (l + 1) (out (unroll step out x h0 (t + 1) l)) (unroll step out x h0 t (l + 1))
  termination_by t l => (t, l)

/-! ## The loops -/

variable {E : Rt ℝ} {dt : DType}

section

variable {C S V : Type} {step : C → TT ℝ → S → Res S} {out : S → TT ℝ} {R P : S → V → Prop}
  {stepV : Nat → (List Nat → ℝ) → V → V} {outV : V → List Nat → ℝ} {B H : Nat} {I : Nat → Nat}

theorem layerLoop_val (hout : ∀ s v, P s v → TEx (out s) dt [B, H] (outV v)) {v v' : Nat → V} :
    ∀ (cs : List C) (l0 : Nat) (x : TT ℝ) (X : List Nat → ℝ) (ss : List S),
    (∀ i (hi : i < cs.length) x X s w, TVal x dt [B, I (l0 + i)] X → R s w →
      ∃ s', step cs[i] x s = .ok s' ∧ P s' (stepV (l0 + i) X w)) →
    (∀ l, I (l + 1) = H) → TVal x dt [B, I l0] X → ss.length = cs.length →
    (∀ i (hi : i < ss.length), R ss[i] (v (l0 + i))) → v' l0 = stepV l0 X (v l0) →
    (∀ l, l0 ≤ l → v' (l + 1) = stepV (l + 1) (outV (v' l)) (v (l + 1))) →
    ∃ y ss', Rt.layerLoop step out cs x ss = .ok (y, ss') ∧ ss'.length = cs.length ∧
      (∀ i (hi : i < ss'.length), P ss'[i] (v' (l0 + i))) ∧
      (cs ≠ [] → TEx y dt [B, H] (outV (v' (l0 + cs.length - 1)))) := by
  intro cs
  induction cs with
  | nil =>
    intro l0 x X ss _ _ _ hl _ _ _
    obtain rfl := List.length_eq_zero_iff.mp hl
    exact ⟨x, [], rfl, rfl, fun i hi => absurd hi (by simp), fun h => absurd rfl h⟩
  | cons c cs ih =>
    intro l0 x X ss hstep hI hx hl hR h0 hs
    cases ss with
    | nil => simp at hl
    | cons s ss =>
      obtain ⟨s', s1, s2⟩ := hstep 0 (by simp) x X s (v l0) hx (hR 0 (by simp))
      have s2 : P s' (v' l0) := by rw [h0]; exact s2
      obtain ⟨y, ss', i1, i2, i3, i4⟩ := ih (l0 + 1) (out s') (outV (v' l0)) ss
        (fun i hi => by
          rw [show l0 + 1 + i = l0 + (i + 1) by omega]
          exact hstep (i + 1) (by simpa using hi))
        hI (by rw [hI]; exact (hout s' _ s2).val) (by simpa using hl)
        (fun i hi => by
          rw [show l0 + 1 + i = l0 + (i + 1) by omega]
          exact hR (i + 1) (by simpa using hi))
        (hs l0 (le_refl _)) (fun l hl => hs l (by omega))
      refine ⟨y, s' :: ss', ?_, by simp [i2], ?_, fun _ => ?_⟩
      · have s1 : step c x s = .ok s' := s1
        simp only [Rt.layerLoop, s1, Res.ok_bind, i1]
      · rintro (_ | i) hi
        · exact s2
        · rw [show l0 + (i + 1) = l0 + 1 + i by omega]
          exact i3 i (by simpa using hi)
      · cases cs with
        | nil =>
          simp only [Rt.layerLoop, Res.ok.injEq, Prod.mk.injEq] at i1
          rw [← i1.1]
          exact hout s' _ s2
        | cons c' cs =>
          have := i4 (by simp)
          rw [show l0 + (c :: c' :: cs).length - 1 = l0 + 1 + (c' :: cs).length - 1 by
            simp only [List.length_cons]; omega]
          exact this

theorem timeLoop_val (hweak : ∀ s v, P s v → R s v)
    (hout : ∀ s v, P s v → TEx (out s) dt [B, H] (outV v)) {cells : List C} (hne : cells ≠ [])
    (hstep : ∀ l (hl : l < cells.length) x X s w, TVal x dt [B, I l] X → R s w →
      ∃ s', step cells[l] x s = .ok s' ∧ P s' (stepV l X w))
    (hI : ∀ l, I (l + 1) = H) {x : TT ℝ} {T : Nat} {X : List Nat → ℝ} (hx : TVal x dt [T, B, I 0] X)
    (hT : T < 2 ^ 31) (h0 : Nat → V) :
    let u := unroll stepV outV (fun t i => X (t :: i)) h0
    ∀ n t (ss : List S), t + n ≤ T → ss.length = cells.length →
      (∀ l (hl : l < ss.length), R ss[l] (u t l)) →
      ∃ ys fin, E.timeLoop step out cells x n t ss = .ok (ys, fin) ∧ ys.length = n ∧
        (∀ i (hi : i < ys.length), TEx ys[i] dt [B, H] (outV (u (t + i + 1) (cells.length - 1)))) ∧
        fin.length = cells.length ∧ (0 < n → ∀ l (hl : l < fin.length), P fin[l] (u (t + n) l)) := by
  intro u n
  induction n with
  | zero =>
    intro t ss _ hl _
    exact ⟨[], ss, rfl, rfl, fun i hi => absurd hi (by simp), hl, fun h => absurd h (by omega)⟩
  | succ n ih =>
    intro t ss ht hl hR
    obtain ⟨xt, x1, x2⟩ := TVal.row (E := E) (t := t) hx (by omega) hT (by simp)
    have hu0 : u (t + 1) 0 = stepV 0 (fun i => X (t :: i)) (u t 0) := by
      simp only [u]; rw [unroll]
    have hus : ∀ l, u (t + 1) (l + 1) = stepV (l + 1) (outV (u (t + 1) l)) (u t (l + 1)) := by
      intro l; simp only [u]; rw [unroll]
    obtain ⟨y, ss', l1, l2, l3, l4⟩ := layerLoop_val (dt := dt) (I := I) hout (v := u t) (v' := u (t + 1)) cells 0 xt
      (fun i => X (t :: i)) ss (fun i hi => by rw [Nat.zero_add]; exact hstep i hi) hI x2 hl
      (fun i hi => by rw [Nat.zero_add]; exact hR i hi) hu0 (fun l _ => hus l)
    simp only [Nat.zero_add] at l3 l4
    obtain ⟨ys, fin, i1, i2, i3, i4, i5⟩ := ih (t + 1) ss' (by omega) l2 (fun l hl => hweak _ _ (l3 l hl))
    refine ⟨y :: ys, fin, ?_, by simp [i2], ?_, i4, fun _ l hl => ?_⟩
    · simp only [Rt.timeLoop, x1, Res.ok_bind, l1, i1]
    · rintro (_ | i) hi
      · exact l4 hne
      · have := i3 i (by simpa using hi)
        rw [show t + (i + 1) + 1 = t + 1 + i + 1 by omega]
        exact this
    · rw [show t + (n + 1) = t + 1 + n by omega]
      cases n with
      | zero =>
        simp only [Rt.timeLoop, Res.ok.injEq, Prod.mk.injEq] at i1
        obtain ⟨-, rfl⟩ := i1
        exact l3 l hl
      | succ n => exact i5 (by omega) l hl

/-- The shape of the input, by orientation. -/
def inShape (batchFirst : Bool) (T B I : Nat) : List Nat := if batchFirst then [B, T, I] else [T, B, I]

/-- The input at time `t`, by orientation. -/
def Spec.inputAt (batchFirst : Bool) (X : List Nat → ℝ) (t : Nat) (i : List Nat) : ℝ :=
  if batchFirst then X [i.getD 0 0, t, i.getD 1 0] else X [t, i.getD 0 0, i.getD 1 0]

theorem sequence_val (hweak : ∀ s v, P s v → R s v)
    (hout : ∀ s v, P s v → TEx (out s) dt [B, H] (outV v)) {cells : List C} (hne : cells ≠ [])
    (hstep : ∀ l (hl : l < cells.length) x X s w, TVal x dt [B, I l] X → R s w →
      ∃ s', step cells[l] x s = .ok s' ∧ P s' (stepV l X w))
    (hI : ∀ l, I (l + 1) = H)
    (bf : Bool) {x : TT ℝ} {T : Nat} {X : List Nat → ℝ} (hx : TVal x dt (inShape bf T B (I 0)) X)
    (hT : 0 < T) (hT' : T < 2 ^ 31) (h0 : Nat → V) {init : Nat → DType → Res (List S)} {ss : List S}
    (hi : init B dt = .ok ss) (hl : ss.length = cells.length)
    (hR : ∀ l (hl : l < ss.length), R ss[l] (h0 l)) :
    let u := unroll stepV outV (inputAt bf X) h0
    ∃ o fin, E.sequence step out bf cells init x = .ok (o, fin) ∧
      TVal o dt [T, B, H] (fun i => outV (u (i.getD 0 0 + 1) (cells.length - 1)) i.tail) ∧
      fin.length = cells.length ∧ ∀ l (hl : l < fin.length), P fin[l] (u T l) := by
  intro u
  obtain ⟨x', x1, X', x2, hXX⟩ : ∃ x', (if bf = true then x.transpose 0 1 else .ok x) = .ok x' ∧
      ∃ X', TVal x' dt [T, B, I 0] X' ∧ ∀ t i, X' (t :: i) = inputAt bf X t i := by
    cases bf with
    | true =>
      obtain ⟨x', h1, h2⟩ := TVal.transpose01 hx
      exact ⟨x', h1, _, h2, fun t i => rfl⟩
    | false =>
      have hx : TVal x dt [T, B, I 0] X := hx
      refine ⟨x, rfl, fun i => X [i.getD 0 0, i.getD 1 0, i.getD 2 0], hx.congr fun i hi => ?_, fun t i => rfl⟩
      match i, hi with
      | [a, b, c], _ => rfl
  have hu : unroll stepV outV (fun t i => X' (t :: i)) h0 = u := by
    have : (fun t i => X' (t :: i)) = inputAt bf X := funext fun t => funext fun i => hXX t i
    rw [this]
  obtain ⟨ys, fin, t1, t2, t3, t4, t5⟩ := timeLoop_val (E := E) hweak hout hne hstep hI x2 hT' h0 T 0 ss (by omega) hl
    (fun l hl => by
      have : unroll stepV outV (fun t i => X' (t :: i)) h0 0 l = h0 l := by rw [unroll]
      rw [this]; exact hR l hl)
  obtain ⟨o, o1, o2⟩ := TVal.stack (dt := dt) (xs := ys) (d := [B, H])
    (G := fun t => outV (u (t + 1) (cells.length - 1))) (by omega) (by simp)
    (fun i hi => by
      have := t3 i hi
      rw [hu, Nat.zero_add] at this
      exact this)
  refine ⟨o, fin, ?_, by rw [t2] at o2; exact o2, t4, fun l hl => ?_⟩
  · have hd : x.dims = inShape bf T B (I 0) := hx.dims
    have hdt : x'.dtype = dt := x2.dtype
    unfold Rt.sequence
    rw [hd]
    cases bf with
    | true =>
      simp only [inShape, if_true] at x1 ⊢
      simp only [x1, Res.ok_bind, hdt, hi, t1, o1]
    | false =>
      simp only [inShape, Bool.false_eq_true, if_false] at x1 ⊢
      simp only [x1, Res.ok_bind, hdt, hi, t1, o1]
  · have := t5 hT l hl
    rw [Nat.zero_add, hu] at this
    exact this

end

/-! ## The cells -/

/-- The parameters of a cell with `G` gates. -/
structure CellVal (c : Cell ℝ) (dt : DType) (G H : Nat) (p : Layer) : Prop where
  wih : TVal c.wih dt [G * H, p.I] p.Wih
  whh : TVal c.whh dt [G * H, H] p.Whh
  bih : BiasVal c.bih dt (G * H) p.Bih
  bhh : BiasVal c.bhh dt (G * H) p.Bhh
  hidden : c.hidden = H

theorem linear2 (hE : E.Real) (hf : dt.isFloat = true) {x w : TT ℝ} {b : Option (TT ℝ)} {M K O : Nat}
    {X W Bi : List Nat → ℝ} (hx : TVal x dt [M, K] X) (hw : TVal w dt [O, K] W) (hb : BiasVal b dt O Bi)
    (hM : 0 < M) (hO : 0 < O) :
    ∃ r, E.linear (-2) (-1) w b x = .ok r ∧ TVal r dt [M, O] (fun i =>
      ∑ k ∈ range K, W [i.getD 1 0, k] * X [i.getD 0 0, k] + Bi [i.getD 1 0]) := by
  obtain ⟨r, h1, h2⟩ := C87_linear_partial (lead := []) hE hf (Or.inl ⟨rfl, rfl⟩) hx hw hb (by simp) hM hO (by simp)
  refine ⟨r, h1, TVal.congr h2 fun i hi => ?_⟩
  match i, hi with
  | [a, o], _ => simp [linearAt, mul_comm]

theorem preact_val (hE : E.Real) (hf : dt.isFloat = true) {c : Cell ℝ} {G B H : Nat} {p : Layer}
    (hc : CellVal c dt G H p) {x h : TT ℝ} {X S : List Nat → ℝ} (hx : TVal x dt [B, p.I] X)
    (hh : TVal h dt [B, H] S) (hB : 0 < B) (hG : 0 < G * H) :
    ∃ r, E.preact c x h = .ok r ∧ TVal r dt [B, G * H] (fun i =>
      fromInput p X (i.getD 0 0) (i.getD 1 0) + fromHidden H p S (i.getD 0 0) (i.getD 1 0)) := by
  obtain ⟨k, κ, lo, hi, hA⟩ := id hE
  obtain ⟨g, g1, g2⟩ := linear2 hE hf hx hc.wih hc.bih hB hG
  obtain ⟨q, q1, q2⟩ := linear2 hE hf hh hc.whh (b := none) (Bi := fun _ => 0) (fun _ => rfl) hB hG
  have hpos : ∀ d ∈ [B, G * H], 0 < d := by
    intro d hd
    simp only [List.mem_cons, List.not_mem_nil, or_false] at hd
    rcases hd with rfl | rfl <;> assumption
  obtain ⟨s, s1, s2⟩ := TVal.bin_same E hf (o := .add) (by simp) g2 q2 hpos
  have hbb := hc.bhh
  cases hb : c.bhh with
  | none =>
    rw [hb] at hbb
    refine ⟨s, by simp [Rt.preact, g1, q1, s1, Rt.addBias, hb], s2.congr fun i _ => ?_⟩
    have : p.Bhh [i.getD 1 0] = 0 := hbb _
    rw [hA]
    show _ + (_ + 0) = _
    simp only [fromInput, fromHidden, this]
  | some b =>
    rw [hb] at hbb
    obtain ⟨r, r1, r2⟩ := TVal.bin E hf (o := .add) (by simp) s2 hbb (broadcastsTo_trailing [B] [G * H]) hpos
      (by simpa using hG)
    refine ⟨r, by simp [Rt.preact, g1, q1, s1, Rt.addBias, hb, r1], r2.congr fun i hi => ?_⟩
    rw [broadcastIndex_trailing (lead := [B]) hi, hA]
    match i, hi with
    | [a, o], _ =>
      simp [fromInput, fromHidden, realOps, realBin]
      ring

/-- One step of an RNN cell. -/
theorem rnnStep_val (hE : E.Real) (hf : dt.isFloat = true) (relu : Bool) {c : Cell ℝ} {B H : Nat} {p : Layer}
    (hc : CellVal c dt 1 H p) {x h : TT ℝ} {X S : List Nat → ℝ} (hx : TVal x dt [B, p.I] X)
    (hh : TVal h dt [B, H] S) (hB : 0 < B) (hH : 0 < H) :
    ∃ r, E.rnnStep relu c x h = .ok r ∧ TEx r dt [B, H] (rnnCell relu H p X S) := by
  obtain ⟨k, κ, lo, hi, hA⟩ := id hE
  obtain ⟨g, g1, g2⟩ := preact_val hE hf hc hx hh hB (by omega)
  rw [Nat.one_mul] at g2
  obtain ⟨r, r1, r2⟩ := TEx.un E hf (if relu then .relu else .tanh) g2
  refine ⟨r, by simp [Rt.rnnStep, g1, r1], r2.congr fun i _ => ?_⟩
  rw [hA]
  cases relu with
  | false => rfl
  | true =>
    simp only [rnnCell, if_true, realOps, realUn]
    split
    · rw [max_eq_right (by linarith)]
    · rw [max_eq_left (by linarith)]

theorem gate_val {g : TT ℝ} {B G H q : Nat} {F : List Nat → ℝ} (hg : TVal g dt [B, G * H] F) (hq : q < G)
    (hG : 1 < G) (hH : 0 < H) (hW : G * H < 2 ^ 31 - 1) :
    ∃ r, Rt.gate H q g = .ok r ∧ TVal r dt [B, H] (fun i => F [i.getD 0 0, q * H + i.getD 1 0]) := by
  have h1 : (q + 1) * H ≤ G * H := Nat.mul_le_mul_right _ hq
  have h2 : (q + 1) * H = q * H + H := by ring
  have h3 : 2 * H ≤ G * H := Nat.mul_le_mul_right _ hG
  obtain ⟨r, r1, r2⟩ := hg.sliceCols (k := q * H) (H := H) (by omega) hH (by omega) hW
  exact ⟨r, by rw [Rt.gate, h2]; exact r1, r2⟩

/-- One step of an LSTM cell. -/
theorem lstmStep_val (hE : E.Real) (hf : dt.isFloat = true) {cell : Cell ℝ} {B H : Nat} {p : Layer}
    (hc : CellVal cell dt 4 H p) {x : TT ℝ} {s : TT ℝ × TT ℝ} {X : List Nat → ℝ}
    {v : (List Nat → ℝ) × (List Nat → ℝ)} (hx : TVal x dt [B, p.I] X)
    (hh : TVal s.1 dt [B, H] v.1) (hs : TVal s.2 dt [B, H] v.2) (hB : 0 < B) (hH : 0 < H)
    (hW : 4 * H < 2 ^ 31 - 1) :
    ∃ r, E.lstmStep cell x s = .ok r ∧ TEx r.1 dt [B, H] (lstmCell H p X v).1 ∧
      TEx r.2 dt [B, H] (lstmCell H p X v).2 := by
  obtain ⟨k, κ, lo, hi, hA⟩ := id hE
  have hpos : ∀ d ∈ [B, H], 0 < d := by simp [hB, hH]
  obtain ⟨g, g1, g2⟩ := preact_val hE hf hc hx hh hB (by omega)
  obtain ⟨s0, a0, b0⟩ := gate_val g2 (q := 0) (by omega) (by omega) hH hW
  obtain ⟨s1, a1, b1⟩ := gate_val g2 (q := 1) (by omega) (by omega) hH hW
  obtain ⟨s2, a2, b2⟩ := gate_val g2 (q := 2) (by omega) (by omega) hH hW
  obtain ⟨s3, a3, b3⟩ := gate_val g2 (q := 3) (by omega) (by omega) hH hW
  obtain ⟨i, i1, i2⟩ := TVal.un E hf .sigmoid b0
  obtain ⟨f, f1, f2⟩ := TVal.un E hf .sigmoid b1
  obtain ⟨gg, gg1, gg2⟩ := TVal.un E hf .tanh b2
  obtain ⟨o, o1, o2⟩ := TVal.un E hf .sigmoid b3
  obtain ⟨fc, fc1, fc2⟩ := TVal.bin_same E hf (o := .mul) (by simp) f2 hs hpos
  obtain ⟨ig, ig1, ig2⟩ := TVal.bin_same E hf (o := .mul) (by simp) i2 gg2 hpos
  obtain ⟨c', c1, c2⟩ := TEx.bin_same E hf (o := .add) (by simp) fc2 ig2 hpos
  obtain ⟨tc, t1, t2⟩ := TVal.un E hf .tanh c2.val
  obtain ⟨h', h1, h2⟩ := TEx.bin_same E hf (o := .mul) (by simp) o2 t2 hpos
  refine ⟨(h', c'), ?_, h2.congr fun i hi => ?_, c2.congr fun i hi => ?_⟩
  · simp [Rt.lstmStep, g1, hc.hidden, a0, a1, a2, a3, i1, f1, gg1, o1, fc1, ig1, c1, t1, h1]
  · rw [hA]; simp [lstmCell, gateOf, logistic, realOps, realBin, realUn]
  · rw [hA]; simp [lstmCell, gateOf, logistic, realOps, realBin, realUn]

/-- One step of a GRU cell. -/
theorem gruStep_val (hE : E.Real) (hf : dt.isFloat = true) {cell : Cell ℝ} {B H : Nat} {p : Layer}
    (hc : CellVal cell dt 3 H p) {x h : TT ℝ} {X S : List Nat → ℝ} (hx : TVal x dt [B, p.I] X)
    (hh : TVal h dt [B, H] S) (hB : 0 < B) (hH : 0 < H) (hW : 3 * H < 2 ^ 31 - 1) :
    ∃ r, E.gruStep cell x h = .ok r ∧ TEx r dt [B, H] (gruCell H p X S) := by
  obtain ⟨k, κ, lo, hi, hA⟩ := id hE
  have hpos : ∀ d ∈ [B, H], 0 < d := by simp [hB, hH]
  obtain ⟨gi, gi1, gi2⟩ := linear2 hE hf hx hc.wih hc.bih hB (by omega)
  obtain ⟨gh, gh1, gh2⟩ := linear2 hE hf hh hc.whh hc.bhh hB (by omega)
  obtain ⟨x0, a0, b0⟩ := gate_val gi2 (q := 0) (by omega) (by omega) hH hW
  obtain ⟨x1, a1, b1⟩ := gate_val gi2 (q := 1) (by omega) (by omega) hH hW
  obtain ⟨x2, a2, b2⟩ := gate_val gi2 (q := 2) (by omega) (by omega) hH hW
  obtain ⟨y0, d0, e0⟩ := gate_val gh2 (q := 0) (by omega) (by omega) hH hW
  obtain ⟨y1, d1, e1⟩ := gate_val gh2 (q := 1) (by omega) (by omega) hH hW
  obtain ⟨y2, d2, e2⟩ := gate_val gh2 (q := 2) (by omega) (by omega) hH hW
  obtain ⟨ra, ra1, ra2⟩ := TVal.bin_same E hf (o := .add) (by simp) b0 e0 hpos
  obtain ⟨r, r1, r2⟩ := TVal.un E hf .sigmoid ra2
  obtain ⟨za, za1, za2⟩ := TVal.bin_same E hf (o := .add) (by simp) b1 e1 hpos
  obtain ⟨z, z1, z2⟩ := TVal.un E hf .sigmoid za2
  obtain ⟨rn, rn1, rn2⟩ := TVal.bin_same E hf (o := .mul) (by simp) r2 e2 hpos
  obtain ⟨na, na1, na2⟩ := TVal.bin_same E hf (o := .add) (by simp) b2 rn2 hpos
  obtain ⟨n, n1, n2⟩ := TVal.un E hf .tanh na2
  obtain ⟨nz, nz1, nz2⟩ := TVal.un E hf .neg z2
  obtain ⟨om, om1, om2⟩ := TVal.scal E hf (o := .add) (by simp) nz2 (E.A.cst .one)
  obtain ⟨u, u1, u2⟩ := TVal.bin_same E hf (o := .mul) (by simp) om2 n2 hpos
  obtain ⟨w, w1, w2⟩ := TVal.bin_same E hf (o := .mul) (by simp) z2 hh hpos
  obtain ⟨q, q1, q2⟩ := TEx.bin_same E hf (o := .add) (by simp) u2 w2 hpos
  have hone : E.one h.dtype = ⟨dt, E.A.cst .one⟩ := by rw [hh.dtype]; rfl
  refine ⟨q, ?_, q2.congr fun i hi => ?_⟩
  · simp [Rt.gruStep, gi1, gh1, hc.hidden, a0, a1, a2, d0, d1, d2, ra1, r1, za1, z1, rn1, na1, n1, nz1, hone, om1, u1,
      w1, q1]
  · have h1 : E.A.cst .one = 1 := by rw [hA]; rfl
    rw [h1, hA]
    let Z := logistic (gateOf H p X S 1 i)
    let N := Real.tanh (fromInput p X (i.getD 0 0) (2 * H + i.getD 1 0) +
      logistic (gateOf H p X S 0 i) * fromHidden H p S (i.getD 0 0) (2 * H + i.getD 1 0))
    show (-Z + 1) * N + Z * S i = (1 - Z) * N + Z * S i
    ring

/-! ## The networks -/

/-- The initial states: given, or zero. -/
def HiddenVal (h0 : Option (TT ℝ)) (dt : DType) (L B H : Nat) (G : List Nat → ℝ) : Prop :=
  match h0 with
  | none => ∀ i, G i = 0
  | some h => TVal h dt [L, B, H] G

theorem initStates_val (hE : E.Real) {h0 : Option (TT ℝ)} {L B H : Nat} {G : List Nat → ℝ}
    (h : HiddenVal h0 dt L B H G) (hL : L < 2 ^ 31) :
    ∃ ss, E.initStates L B H dt h0 = .ok ss ∧ ss.length = L ∧
      ∀ l (hl : l < ss.length), TVal ss[l] dt [B, H] (fun i => G (l :: i)) := by
  obtain ⟨k, κ, lo, hi, hA⟩ := id hE
  cases h0 with
  | none =>
    refine ⟨_, rfl, by simp, fun l hl => ?_⟩
    rw [List.getElem_replicate]
    refine (TVal.full dt [B, H] (E.A.cst .zero)).congr fun i _ => ?_
    rw [show G (l :: i) = 0 from h _, hA]; rfl
  | some x =>
    have h : TVal x dt [L, B, H] G := h
    have hr : ∀ l (hl : l < L), ∃ r, E.row x l = .ok r ∧ TVal r dt [B, H] (fun i => G (l :: i)) :=
      fun l hl => TVal.row h hl hL (by simp)
    choose r r1 r2 using hr
    refine ⟨List.ofFn fun l : Fin L => r l l.2, ?_, by simp, fun l hl => ?_⟩
    · refine Res.mapL_list (by simp) fun i h1 h2 => ?_
      simp only [List.getElem_range, List.getElem_ofFn]
      exact r1 i _
    · rw [List.getElem_ofFn]
      exact r2 l _

theorem orient_val (bf : Bool) {o : TT ℝ} {T B H : Nat} {F : List Nat → ℝ} (h : TVal o dt [T, B, H] F) :
    ∃ r, Rt.orient bf o = .ok r ∧ TVal r dt (inShape bf T B H) (fun i =>
      F [i.getD (if bf then 1 else 0) 0, i.getD (if bf then 0 else 1) 0, i.getD 2 0]) := by
  cases bf with
  | true => exact TVal.transpose01 h
  | false =>
    refine ⟨o, rfl, h.congr fun i hi => ?_⟩
    match i, hi with
    | [a, b, c], _ => rfl

/-- The output of the topmost layer, by orientation: entry `[t, b, j]`, or `[b, t, j]`, is entry `[b, j]` of
its state after input `t`. -/
def Spec.outputAt (bf : Bool) (top : Nat → List Nat → ℝ) (i : List Nat) : ℝ :=
  top (i.getD (if bf then 1 else 0) 0 + 1) [i.getD (if bf then 0 else 1) 0, i.getD 2 0]

/-- The final states of all layers. -/
def Spec.finalAt (last : Nat → List Nat → ℝ) (i : List Nat) : ℝ := last (i.getD 0 0) i.tail

/-- A network of cells with `G` gates: the first layer reads the input, the others the layer below. -/
structure NetVal (cells : List (Cell ℝ)) (dt : DType) (G H : Nat) (ps : Nat → Layer) : Prop where
  ne : cells ≠ []
  few : cells.length < 2 ^ 31
  cell : ∀ l (hl : l < cells.length), CellVal cells[l] dt G H (ps l)
  inner : ∀ l, (ps (l + 1)).I = H

theorem stack_final {S : Type} {fin : List S} {f : S → TT ℝ} {L B H : Nat} {G : Nat → List Nat → ℝ}
    (hl : fin.length = L) (hL : 0 < L) (h : ∀ l (hl : l < fin.length), TEx (f fin[l]) dt [B, H] (G l)) :
    ∃ r, TT.stack (fin.map f) 0 = .ok r ∧ TVal r dt [L, B, H] (finalAt G) := by
  obtain ⟨r, r1, r2⟩ := TVal.stack (dt := dt) (xs := fin.map f) (d := [B, H]) (G := G) (by simp; omega) (by simp)
    (fun i hi => by rw [List.getElem_map]; exact h i (by simpa using hi))
  refine ⟨r, r1, ?_⟩
  rw [List.length_map, hl] at r2
  exact r2

/-- `RNN` computes the documented recurrence in every layer, from the given initial states or zeros, in both
orientations.  Missing: rounding, and the dimensions of size 0. -/
theorem C89_rnn_partial (hE : E.Real) (hf : dt.isFloat = true) (relu bf : Bool) {cells : List (Cell ℝ)}
    {T B H : Nat} {ps : Nat → Layer} (hc : NetVal cells dt 1 H ps) {x : TT ℝ} {X : List Nat → ℝ}
    (hx : TVal x dt (inShape bf T B (ps 0).I) X) {h0 : Option (TT ℝ)} {G : List Nat → ℝ}
    (h : HiddenVal h0 dt cells.length B H G) (hT : 0 < T) (hT' : T < 2 ^ 31) (hB : 0 < B) (hH : 0 < H) :
    let u := unroll (fun l => rnnCell relu H (ps l)) id (inputAt bf X) (fun l i => G (l :: i))
    ∃ o hn, E.rnn relu bf H cells x h0 = .ok (o, hn) ∧
      TVal o dt (inShape bf T B H) (outputAt bf fun t => u t (cells.length - 1)) ∧
      TVal hn dt [cells.length, B, H] (finalAt (u T)) := by
  intro u
  obtain ⟨ss, s1, s2, s3⟩ := initStates_val hE h hc.few
  obtain ⟨o, fin, o1, o2, o3, o4⟩ := sequence_val (E := E) (dt := dt) (B := B) (H := H)
    (R := fun s v => TVal s dt [B, H] v) (P := fun s v => TEx s dt [B, H] v) (out := id) (outV := id)
    (stepV := fun l => rnnCell relu H (ps l)) (I := fun l => (ps l).I) (step := E.rnnStep relu)
    (fun _ _ h => h.val) (fun _ _ h => h) hc.ne
    (fun l hl x X s w hx hs => rnnStep_val hE hf relu (hc.cell l hl) hx hs hB hH) hc.inner bf hx hT hT'
    (fun l i => G (l :: i)) (init := fun B dt => E.initStates cells.length B H dt h0) s1 s2 s3
  obtain ⟨hn, n1, n2⟩ := stack_final (f := id) o3 (List.length_pos_iff.mpr hc.ne) o4
  rw [List.map_id] at n1
  obtain ⟨r, r1, r2⟩ := orient_val bf o2
  exact ⟨r, hn, by simp [Rt.rnn, o1, n1, r1], r2, n2⟩

/-- `GRU` computes the documented recurrence in every layer. -/
theorem C89_gru_partial (hE : E.Real) (hf : dt.isFloat = true) (bf : Bool) {cells : List (Cell ℝ)}
    {T B H : Nat} {ps : Nat → Layer} (hc : NetVal cells dt 3 H ps) {x : TT ℝ} {X : List Nat → ℝ}
    (hx : TVal x dt (inShape bf T B (ps 0).I) X) {h0 : Option (TT ℝ)} {G : List Nat → ℝ}
    (h : HiddenVal h0 dt cells.length B H G) (hT : 0 < T) (hT' : T < 2 ^ 31) (hB : 0 < B) (hH : 0 < H)
    (hW : 3 * H < 2 ^ 31 - 1) :
    let u := unroll (fun l => gruCell H (ps l)) id (inputAt bf X) (fun l i => G (l :: i))
    ∃ o hn, E.gru bf H cells x h0 = .ok (o, hn) ∧
      TVal o dt (inShape bf T B H) (outputAt bf fun t => u t (cells.length - 1)) ∧
      TVal hn dt [cells.length, B, H] (finalAt (u T)) := by
  intro u
  obtain ⟨ss, s1, s2, s3⟩ := initStates_val hE h hc.few
  obtain ⟨o, fin, o1, o2, o3, o4⟩ := sequence_val (E := E) (dt := dt) (B := B) (H := H)
    (R := fun s v => TVal s dt [B, H] v) (P := fun s v => TEx s dt [B, H] v) (out := id) (outV := id)
    (stepV := fun l => gruCell H (ps l)) (I := fun l => (ps l).I) (step := E.gruStep)
    (fun _ _ h => h.val) (fun _ _ h => h) hc.ne
    (fun l hl x X s w hx hs => gruStep_val hE hf (hc.cell l hl) hx hs hB hH hW) hc.inner bf hx hT hT'
    (fun l i => G (l :: i)) (init := fun B dt => E.initStates cells.length B H dt h0) s1 s2 s3
  obtain ⟨hn, n1, n2⟩ := stack_final (f := id) o3 (List.length_pos_iff.mpr hc.ne) o4
  rw [List.map_id] at n1
  obtain ⟨r, r1, r2⟩ := orient_val bf o2
  exact ⟨r, hn, by simp [Rt.gru, o1, n1, r1], r2, n2⟩

/-- `LSTM` computes the documented recurrence in every layer. -/
theorem C89_lstm_partial (hE : E.Real) (hf : dt.isFloat = true) (bf : Bool) {cells : List (Cell ℝ)}
    {T B H : Nat} {ps : Nat → Layer} (hc : NetVal cells dt 4 H ps) {x : TT ℝ} {X : List Nat → ℝ}
    (hx : TVal x dt (inShape bf T B (ps 0).I) X) {h0 c0 : Option (TT ℝ)} {G K : List Nat → ℝ}
    (h : HiddenVal h0 dt cells.length B H G) (hk : HiddenVal c0 dt cells.length B H K)
    (hT : 0 < T) (hT' : T < 2 ^ 31) (hB : 0 < B) (hH : 0 < H) (hW : 4 * H < 2 ^ 31 - 1) :
    let u := unroll (fun l => lstmCell H (ps l)) Prod.fst (inputAt bf X)
      (fun l => (fun i => G (l :: i), fun i => K (l :: i)))
    ∃ o hn cn, E.lstm bf H cells x h0 c0 = .ok (o, hn, cn) ∧
      TVal o dt (inShape bf T B H) (outputAt bf fun t => (u t (cells.length - 1)).1) ∧
      TVal hn dt [cells.length, B, H] (finalAt fun l => (u T l).1) ∧
      TVal cn dt [cells.length, B, H] (finalAt fun l => (u T l).2) := by
  intro u
  obtain ⟨ss, s1, s2, s3⟩ := initStates_val hE h hc.few
  obtain ⟨cs, c1, c2, c3⟩ := initStates_val hE hk hc.few
  obtain ⟨o, fin, o1, o2, o3, o4⟩ := sequence_val (E := E) (dt := dt) (B := B) (H := H)
    (R := fun (s : TT ℝ × TT ℝ) v => TVal s.1 dt [B, H] v.1 ∧ TVal s.2 dt [B, H] v.2)
    (P := fun s v => TEx s.1 dt [B, H] v.1 ∧ TEx s.2 dt [B, H] v.2) (out := Prod.fst) (outV := Prod.fst)
    (stepV := fun l => lstmCell H (ps l)) (I := fun l => (ps l).I) (step := E.lstmStep)
    (fun _ _ h => ⟨h.1.val, h.2.val⟩) (fun _ _ h => h.1) hc.ne
    (fun l hl x X s w hx hs => lstmStep_val hE hf (hc.cell l hl) hx hs.1 hs.2 hB hH hW) hc.inner bf hx hT hT'
    (fun l => (fun i => G (l :: i), fun i => K (l :: i)))
    (init := fun B dt => (E.initStates cells.length B H dt h0).bind fun hs =>
      (E.initStates cells.length B H dt c0).bind fun cs => .ok (hs.zip cs))
    (ss := ss.zip cs) (by simp [s1, c1]) (by simp [s2, c2])
    (fun l hl => by
      simp only [List.getElem_zip]
      exact ⟨s3 l _, c3 l _⟩)
  obtain ⟨hn, n1, n2⟩ := stack_final (f := Prod.fst) o3 (List.length_pos_iff.mpr hc.ne) (fun l hl => (o4 l hl).1)
  obtain ⟨cn, m1, m2⟩ := stack_final (f := Prod.snd) o3 (List.length_pos_iff.mpr hc.ne) (fun l hl => (o4 l hl).2)
  obtain ⟨r, r1, r2⟩ := orient_val bf o2
  exact ⟨r, hn, cn, by simp [Rt.lstm, o1, n1, m1, r1], r2, n2, m2⟩

/-! ## Failures -/

section

variable {α : Type}

/-- An empty sequence is an error, not an empty output. -/
theorem C89_empty_false {C S : Type} (E : Rt α) (step : C → TT α → S → Res S) (out : S → TT α) (cells : List C)
    (init : Nat → DType → Res (List S)) (x : TT α) (B : Nat) (d : List Nat) (bf : Bool)
    (hx : x.dims = if bf then B :: 0 :: d else 0 :: B :: d) (r : TT α × List S) :
    E.sequence step out bf cells init x ≠ .ok r := by
  intro h
  unfold Rt.sequence at h
  rw [hx] at h
  cases bf <;> simp only [if_true, if_false, Bool.false_eq_true] at h
  all_goals
    obtain ⟨y, -, h⟩ := Res.bind_eq_ok.mp h
    obtain ⟨ss, -, h⟩ := Res.bind_eq_ok.mp h
    obtain ⟨q, h1, h⟩ := Res.bind_eq_ok.mp h
    simp only [Rt.timeLoop, Res.ok.injEq] at h1
    subst h1
    simp only [TT.stack] at h
    cases h

/-- A network without layers always fails. -/
theorem C89_no_layers (E : Rt α) (relu bf : Bool) (H : Nat) (x : TT α) (h0 : Option (TT α)) (r : TT α × TT α) :
    E.rnn relu bf H [] x h0 ≠ .ok r := by
  intro h
  unfold Rt.rnn at h
  obtain ⟨⟨o, fin⟩, h1, h⟩ := Res.bind_eq_ok.mp h
  have hf : fin = [] := by
    unfold Rt.sequence at h1
    split at h1
    · obtain ⟨y, -, h1⟩ := Res.bind_eq_ok.mp h1
      obtain ⟨ss, hs, h1⟩ := Res.bind_eq_ok.mp h1
      have hs : ss = [] := by
        cases h0 with
        | none => simpa [Rt.initStates] using hs.symm
        | some h => simpa [Rt.initStates, Res.mapL] using hs.symm
      obtain ⟨⟨ys, f⟩, h2, h1⟩ := Res.bind_eq_ok.mp h1
      obtain ⟨o', -, h1⟩ := Res.bind_eq_ok.mp h1
      cases h1
      have key : ∀ n t y, ∀ ys (f : List (TT α)), E.timeLoop (E.rnnStep relu) id [] y n t [] = .ok (ys, f) → f = [] := by
        intro n
        induction n with
        | zero => intro t y ys f h; simp only [Rt.timeLoop, Res.ok.injEq, Prod.mk.injEq] at h; exact h.2.symm
        | succ n ih =>
          intro t y ys f h
          simp only [Rt.timeLoop] at h
          obtain ⟨xt, -, h⟩ := Res.bind_eq_ok.mp h
          simp only [Rt.layerLoop, Res.ok_bind] at h
          obtain ⟨⟨ys', f'⟩, h3, h⟩ := Res.bind_eq_ok.mp h
          cases h
          exact ih _ _ _ _ h3
      rw [hs] at h2
      exact key _ _ _ _ _ h2
    · cases h1
  subst hf
  simp [TT.stack] at h

end

/-- A cell of one number each, without biases. -/
def unitCell (w u : Option ℚ) : Cell (Option ℚ) := ⟨mat32 1 1 [w], mat32 1 1 [u], none, none, 1⟩

/-- A sequence or list of states of type `f32` with one example and one entry. -/
def seq32 {α : Type} (l : List α) : TT α := .num .f32 ⟨l, Layout.fromShape [l.length, 1, 1]⟩

/-- Two layers and an initial state for one layer: instead of an error, the second layer starts at zero. -/
theorem C89_state_layers_false :
    ratRt.rnn true false 1 [unitCell (some 1) (some 1), unitCell (some 1) (some 1)] (seq32 [some 1, some 2])
        (some (seq32 [some 3])) = .ok (seq32 [some 4, some 10], seq32 [some 6, some 10]) ∧
    ratRt.rnn true false 1 [unitCell (some 1) (some 1), unitCell (some 1) (some 1)] (seq32 [some 1, some 2])
        (some (seq32 [some 3, some 0])) = .ok (seq32 [some 4, some 10], seq32 [some 6, some 10]) := by
  decide +kernel

/-! ## Examples -/

/-- A layer whose parameters are all 2. -/
noncomputable def twos (I : Nat) : Layer := ⟨I, fun _ => 2, fun _ => 2, fun _ => 2, fun _ => 0⟩

/-- The hypotheses: a network of two layers with `G` gates, three hidden units and five inputs. -/
noncomputable def exCells (G : Nat) : List (Cell ℝ) :=
  [⟨TT.full [G * 3, 5] ⟨.f32, 2⟩, TT.full [G * 3, 3] ⟨.f32, 2⟩, some (TT.full [G * 3] ⟨.f32, 2⟩), none, 3⟩,
   ⟨TT.full [G * 3, 3] ⟨.f32, 2⟩, TT.full [G * 3, 3] ⟨.f32, 2⟩, some (TT.full [G * 3] ⟨.f32, 2⟩), none, 3⟩]

theorem exCells_val (G : Nat) : NetVal (exCells G) .f32 G 3 (fun l => twos (if l = 0 then 5 else 3)) := by
  refine ⟨by simp [exCells], by simp [exCells], fun l hl => ?_, fun l => by simp [twos]⟩
  have hl : l < 2 := hl
  interval_cases l
  · exact ⟨TVal.full _ _ _, TVal.full _ _ _, TVal.full _ _ _, fun _ => rfl, rfl⟩
  · exact ⟨TVal.full _ _ _, TVal.full _ _ _, TVal.full _ _ _, fun _ => rfl, rfl⟩

example := C89_rnn_partial (E := realRt) (dt := .f32) realRt_real rfl false true (exCells_val 1)
  (x := TT.full [4, 7, 5] ⟨.f32, 1⟩) (T := 7) (B := 4) (X := fun _ => 1) (TVal.full _ _ _) (h0 := none)
  (G := fun _ => 0) (fun _ => rfl) (by norm_num) (by norm_num) (by norm_num) (by norm_num)

example := C89_gru_partial (E := realRt) (dt := .f32) realRt_real rfl false (exCells_val 3)
  (x := TT.full [7, 4, 5] ⟨.f32, 1⟩) (T := 7) (B := 4) (X := fun _ => 1) (TVal.full _ _ _)
  (h0 := some (TT.full [2, 4, 3] ⟨.f32, 6⟩)) (G := fun _ => 6) (TVal.full _ _ _) (by norm_num) (by norm_num)
  (by norm_num) (by norm_num) (by norm_num)

example := C89_lstm_partial (E := realRt) (dt := .f32) realRt_real rfl true (exCells_val 4)
  (x := TT.full [4, 7, 5] ⟨.f32, 1⟩) (T := 7) (B := 4) (X := fun _ => 1) (TVal.full _ _ _)
  (h0 := some (TT.full [2, 4, 3] ⟨.f32, 6⟩)) (c0 := none) (G := fun _ => 6) (K := fun _ => 0) (TVal.full _ _ _)
  (fun _ => rfl) (by norm_num) (by norm_num) (by norm_num) (by norm_num) (by norm_num)

/-- Two layers over two inputs, by hand: layer 0 has the states 3, 1 + 3, 2 + 4; layer 1 the states
0, 4, 6 + 4. -/
example : ratRt.rnn true true 1 [unitCell (some 1) (some 1), unitCell (some 1) (some 1)]
    (.num .f32 ⟨[some 1, some 2], Layout.fromShape [1, 2, 1]⟩) (some (seq32 [some 3, some 5])) =
    .ok (.num .f32 ⟨[some 9, some 15], ⟨[1, 2, 1], [1, 1, 1], 0⟩⟩, seq32 [some 6, some 15]) := by
  decide +kernel

end Hodu
