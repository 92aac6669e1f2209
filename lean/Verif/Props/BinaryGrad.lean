import Verif.Lemmas.RuleEval2
import Verif.Lemmas.UnaryDeriv
import Verif.Props.UnaryGrad
import Verif.Props.ReduceGrad

/-!
# Gradients of binary operators: C73
-/

namespace Hodu
open Spec Real

/-- Where a binary operator is differentiable in both arguments (`rem`: with a positive quotient;
`pow`: with a positive base). -/
def Spec.RegularB (o : BOp) (x y : ℝ) : Prop :=
  match o with
  | .add | .sub | .mul => True
  | .div => y ≠ 0
  | .rem => y ≠ 0 ∧ 0 < x / y ∧ (⌊x / y⌋ : ℝ) ≠ x / y
  | .pow => 0 < x
  | .maximum | .minimum => x ≠ y

/-- The pairing of the incoming gradient with the output, as a function of the operands: its
derivatives are what a backward rule must compute. -/
noncomputable def Spec.pairing2 (f : ℝ → ℝ → ℝ) (d e : List Nat) (G X Y : List Nat → ℝ) : ℝ :=
  ((allIndices d).map fun j => G j * f (X j) (Y (broadcastIndex e j))).sum

theorem hasDerivAt_listSum {ι : Type} (l : List ι) {φ : ι → ℝ → ℝ} {φ' : ι → ℝ} {s : ℝ}
    (h : ∀ j ∈ l, HasDerivAt (φ j) (φ' j) s) :
    HasDerivAt (fun s => (l.map fun j => φ j s).sum) (l.map φ').sum s := by
  induction l with
  | nil => simpa using hasDerivAt_const s (0 : ℝ)
  | cons a l ih =>
    have h1 := h a (by simp)
    have h2 := ih fun j hj => h j (by simp [hj])
    simp only [List.map_cons, List.sum_cons]
    exact h1.add h2

theorem sum_map_ite {ι : Type} (l : List ι) (p : ι → Prop) [DecidablePred p] (f : ι → ℝ) :
    (l.map fun j => if p j then f j else 0).sum = ((l.filter fun j => p j).map f).sum := by
  induction l with
  | nil => simp
  | cons a l ih =>
    by_cases h : p a <;> simp [h, ih]

/-- The derivative of a sum with respect to a variable that occurs in the summands selected by `sel`. -/
theorem hasDerivAt_pairing {d : List Nat} {sel : List Nat → List Nat} {φ : List Nat → ℝ → ℝ}
    {F : List Nat → ℝ} {i0 : List Nat} {s0 : ℝ}
    (h : ∀ j, InRange j d → sel j = i0 → HasDerivAt (φ j) (F j) s0)
    (hc : ∀ j, InRange j d → sel j ≠ i0 → ∀ s, φ j s = φ j s0) :
    HasDerivAt (fun s => ((allIndices d).map fun j => φ j s).sum)
      (((allIndices d).filter fun j => sel j = i0).map F).sum s0 := by
  rw [← sum_map_ite]
  apply hasDerivAt_listSum
  intro j hj
  have hj := mem_allIndices.mp hj
  by_cases e : sel j = i0
  · rw [if_pos e]
    exact h j hj e
  · rw [if_neg e]
    have : φ j = fun _ => φ j s0 := funext (hc j hj e)
    rw [this]
    exact hasDerivAt_const _ _

section
variable (k : KernelConsts) (κ : GConst → ℝ) (lo hi : ℝ)

theorem binaryRule_deriv (o : BOp) (x y g : ℝ) (h : RegularB o x y) :
    ∃ D1 D2, (binaryRule o).1.scalar (realOps k κ lo hi) [x, y, realBin o x y, g] = some (g * D1) ∧
      (binaryRule o).2.scalar (realOps k κ lo hi) [x, y, realBin o x y, g] = some (g * D2) ∧
      HasDerivAt (fun s => realBin o s y) D1 x ∧ HasDerivAt (fun s => realBin o x s) D2 y := by
  cases o
  case add =>
    exact ⟨1, 1, by simp [binaryRule, Ex.scalar], by simp [binaryRule, Ex.scalar],
      (hasDerivAt_id x).add_const _, (hasDerivAt_id y).const_add _⟩
  case sub =>
    exact ⟨1, -1, by simp [binaryRule, Ex.scalar],
      by simp [binaryRule, Ex.scalar, realOps, realUn],
      (hasDerivAt_id x).sub_const _, (hasDerivAt_id y).const_sub _⟩
  case mul =>
    refine ⟨y, x, by simp [binaryRule, Ex.scalar, realOps, realBin],
      by simp [binaryRule, Ex.scalar, realOps, realBin], ?_, ?_⟩
    · refine ((hasDerivAt_id x).mul_const y).congr_deriv ?_
      ring
    · refine ((hasDerivAt_id y).const_mul x).congr_deriv ?_
      ring
  case div =>
    have hy : y ≠ 0 := h
    refine ⟨1 / y, -(x / (y * y)), ?_, ?_, (hasDerivAt_id x).div_const y, ?_⟩
    · simp [binaryRule, Ex.scalar, realOps, realBin, div_eq_mul_inv]
    · simp [binaryRule, Ex.scalar, realOps, realBin, realUn, mul_div_assoc]
    · refine ((hasDerivAt_const y x).div (hasDerivAt_id y) hy).congr_deriv ?_
      simp only [id]
      field_simp
      ring
  case rem =>
    obtain ⟨hy, hp, hn⟩ := h
    refine ⟨1, -(⌊x / y⌋ : ℝ), by simp [binaryRule, Ex.scalar], ?_, ?_, ?_⟩
    · simp [binaryRule, Ex.scalar, realOps, realBin, realUn]
    · have hd : HasDerivAt (fun s : ℝ => s - y * truncR (x / y)) 1 x := (hasDerivAt_id x).sub_const _
      refine hd.congr_of_eventuallyEq ?_
      have hc : Filter.Tendsto (fun s : ℝ => s / y) (nhds x) (nhds (x / y)) := by
        have : Continuous fun s : ℝ => s / y := by fun_prop
        exact this.tendsto x
      filter_upwards [hc.eventually (eventually_truncR hn)] with s hs
      simp only [realBin, hs]
    · have hd : HasDerivAt (fun s : ℝ => x - s * truncR (x / y)) (-(1 * truncR (x / y))) y :=
        ((hasDerivAt_id y).mul_const _).const_sub _
      have ht : truncR (x / y) = (⌊x / y⌋ : ℝ) := by simp only [truncR, if_pos hp.le]
      rw [one_mul, ht] at hd
      refine hd.congr_of_eventuallyEq ?_
      have hc : Filter.Tendsto (fun s : ℝ => x / s) (nhds y) (nhds (x / y)) :=
        (continuousAt_const.div continuousAt_id hy).tendsto
      filter_upwards [hc.eventually (eventually_truncR hn)] with s hs
      simp only [realBin, hs, ht]
  case pow =>
    have hx : 0 < x := h
    refine ⟨y * x ^ (y - 1), x ^ y * log x, ?_, ?_, Real.hasDerivAt_rpow_const (Or.inl hx.ne'),
      (hasStrictDerivAt_const_rpow hx y).hasDerivAt⟩
    · simp [binaryRule, Ex.scalar, realOps, realBin, realCst]
    · simp [binaryRule, Ex.scalar, realOps, realBin, realUn]
  case maximum =>
    have hxy : x ≠ y := h
    rcases lt_or_gt_of_ne hxy with h1 | h1
    · refine ⟨0, 1, ?_, ?_, (hasDerivAt_const x y).congr_of_eventuallyEq ?_,
        (hasDerivAt_id y).congr_of_eventuallyEq ?_⟩
      · simp [binaryRule, Ex.scalar, realOps, realBin, realCmp, realCst, FOps.ofBool, not_le.mpr h1]
      · simp [binaryRule, Ex.scalar, realOps, realBin, realCmp, realCst, FOps.ofBool, h1]
      · filter_upwards [gt_mem_nhds h1] with s hs
        simp [realBin, not_lt.mpr hs.le]
      · filter_upwards [lt_mem_nhds h1] with s hs
        simp [realBin, not_lt.mpr hs.le]
    · refine ⟨1, 0, ?_, ?_, (hasDerivAt_id x).congr_of_eventuallyEq ?_,
        (hasDerivAt_const y x).congr_of_eventuallyEq ?_⟩
      · simp [binaryRule, Ex.scalar, realOps, realBin, realCmp, realCst, FOps.ofBool, h1.le]
      · simp [binaryRule, Ex.scalar, realOps, realBin, realCmp, realCst, FOps.ofBool,
          not_lt.mpr h1.le]
      · filter_upwards [lt_mem_nhds h1] with s hs
        simp [realBin, hs]
      · filter_upwards [gt_mem_nhds h1] with s hs
        simp [realBin, hs]
  case minimum =>
    have hxy : x ≠ y := h
    rcases lt_or_gt_of_ne hxy with h1 | h1
    · refine ⟨1, 0, ?_, ?_, (hasDerivAt_id x).congr_of_eventuallyEq ?_,
        (hasDerivAt_const y x).congr_of_eventuallyEq ?_⟩
      · simp [binaryRule, Ex.scalar, realOps, realBin, realCmp, realCst, FOps.ofBool, h1.le]
      · simp [binaryRule, Ex.scalar, realOps, realBin, realCmp, realCst, FOps.ofBool,
          not_lt.mpr h1.le]
      · filter_upwards [gt_mem_nhds h1] with s hs
        simp [realBin, hs]
      · filter_upwards [lt_mem_nhds h1] with s hs
        simp [realBin, hs]
    · refine ⟨0, 1, ?_, ?_, (hasDerivAt_const x y).congr_of_eventuallyEq ?_,
        (hasDerivAt_id y).congr_of_eventuallyEq ?_⟩
      · simp [binaryRule, Ex.scalar, realOps, realBin, realCmp, realCst, FOps.ofBool, not_le.mpr h1]
      · simp [binaryRule, Ex.scalar, realOps, realBin, realCmp, realCst, FOps.ofBool, h1]
      · filter_upwards [lt_mem_nhds h1] with s hs
        simp [realBin, not_lt.mpr hs.le]
      · filter_upwards [gt_mem_nhds h1] with s hs
        simp [realBin, not_lt.mpr hs.le]

/-- **C73 (partial)**: for a binary operator on tensors of real numbers whose right operand has, or
broadcasts to, the left operand's shape (for `pow`, `maximum`, `minimum`: has that shape), the
operator and its backward rule succeed; the gradient of each operand has the operand's shape, and its
entry at a position is the derivative of `∑ g_j · out_j` with respect to the operand's element there,
at every point where the operator is differentiable at all output positions that read the element
(`rem`: with positive quotients; `pow`: with positive bases).

Missing from the full property: a broadcast exponent, or broadcast operand of `maximum`/`minimum`
(`C73_full_false`); `rem` with operands of opposite signs (`C73_rem_wrong`); a broadcast left operand,
whose forward result is already wrong (C10); rank above 16; zero sizes; rounding. -/
theorem C73_binary_partial {x y g : Tensor ℝ} {d e : List Nat} {X Y G : List Nat → ℝ}
    (hx : Val x d X) (hy : Val y e Y) (hg : Val g d G) (hbr : BroadcastsTo e d)
    (hr : d.length ≤ 16) (hpd : ∀ v ∈ d, 0 < v) (hpe : ∀ v ∈ e, 0 < v) (o : BOp)
    (ho : o = .pow ∨ o = .maximum ∨ o = .minimum → e = d) (cores : Nat) (fill : ℝ) :
    ∃ out ga gb, Tensor.binary cores ((realOps k κ lo hi).bin o) fill x y = .ok out ∧
      (∀ j, InRange j d → out.elem j = some (realBin o (X j) (Y (broadcastIndex e j)))) ∧
      binaryVjp (realOps k κ lo hi) cores fill o x y out g = .ok (ga, gb) ∧
      ga.WF ∧ ga.dims = d ∧ gb.WF ∧ gb.dims = e ∧
      (∀ j0, InRange j0 d → RegularB o (X j0) (Y (broadcastIndex e j0)) →
        ∃ D, ga.elem j0 = some D ∧
          HasDerivAt (fun s => pairing2 (realBin o) d e G (Function.update X j0 s) Y) D (X j0)) ∧
      ∀ i0, InRange i0 e →
        (∀ j, InRange j d → broadcastIndex e j = i0 → RegularB o (X j) (Y i0)) →
        ∃ D, gb.elem i0 = some D ∧
          HasDerivAt (fun s => pairing2 (realBin o) d e G X (Function.update Y i0 s)) D (Y i0) := by
  obtain ⟨out, h1, h2⟩ := hx.binary hy hbr hpd hpe cores (realBin o) fill
  obtain ⟨yb, hyb, hk1, hk2⟩ : ∃ yb : Bool, (yb = true → e = d) ∧
      (binaryRule o).1.big [true, yb, true, true] = some true ∧
      (binaryRule o).2.big [true, yb, true, true] = some true := by
    cases o
    case pow => exact ⟨true, fun _ => ho (by simp), by decide, by decide⟩
    case maximum => exact ⟨true, fun _ => ho (by simp), by decide, by decide⟩
    case minimum => exact ⟨true, fun _ => ho (by simp), by decide, by decide⟩
    all_goals exact ⟨false, by simp, by decide, by decide⟩
  let ls : List (Leaf ℝ) := [⟨x, true, X⟩, ⟨y, yb, Y⟩,
    ⟨out, true, fun j => realBin o (X j) (Y (broadcastIndex e j))⟩, ⟨g, true, G⟩]
  have hls : ∀ l ∈ ls, Val l.t (if l.big then d else e) l.F := by
    intro l hl
    simp only [ls, List.mem_cons, List.not_mem_nil, or_false] at hl
    rcases hl with rfl | rfl | rfl | rfl
    · exact hx
    · cases yb with
      | false => exact hy
      | true =>
        have := hyb rfl
        subst this
        exact hy
    · exact h2
    · exact hg
  obtain ⟨ra, Fa, a1, a2, a3⟩ := Ex.run_val2 (realOps k κ lo hi) cores fill hbr hpd hpe hls
    (binaryRule o).1 true hk1
  obtain ⟨rb, Fb, b1, b2, b3⟩ := Ex.run_val2 (realOps k κ lo hi) cores fill hbr hpd hpe hls
    (binaryRule o).2 true hk2
  simp only [if_true] at a2 a3 b2 b3
  obtain ⟨ga, c1, c2, c3, c4⟩ := a2.sumToShape (broadcastsTo_self d) hr hpd
  obtain ⟨gb, e1, e2, e3, e4⟩ := b2.sumToShape hbr hr hpd
  have hat : ∀ j, InRange j d → (ls.map fun l => l.at e j) =
      [X j, Y (broadcastIndex e j), realBin o (X j) (Y (broadcastIndex e j)), G j] := by
    intro j hj
    simp only [ls, List.map_cons, List.map_nil, Leaf.at, if_true]
    cases yb with
    | false => simp
    | true =>
      have := hyb rfl
      subst this
      simp [broadcastIndex_self hj]
  refine ⟨out, ga, gb, h1, h2.vals, ?_, c2, c3, e2, e3, ?_, ?_⟩
  · unfold binaryVjp
    have a1 : (binaryRule o).1.run (realOps k κ lo hi) cores fill [x, y, out, g] = .ok ra := a1
    have b1 : (binaryRule o).2.run (realOps k κ lo hi) cores fill [x, y, out, g] = .ok rb := b1
    have c1 : ra.sumToShape ((realOps k κ lo hi).bin .add) ((realOps k κ lo hi).cst .zero) d =
      .ok ga := c1
    have e1 : rb.sumToShape ((realOps k κ lo hi).bin .add) ((realOps k κ lo hi).cst .zero) e =
      .ok gb := e1
    simp only [a1, b1, Res.ok_bind, hx.dims, hy.dims, c1, e1]
  · intro j0 hj0 hreg
    refine ⟨_, c4 j0 hj0, ?_⟩
    apply hasDerivAt_pairing (sel := broadcastIndex d)
      (φ := fun j s => G j * realBin o (Function.update X j0 s j) (Y (broadcastIndex e j)))
    · intro j hj he
      rw [broadcastIndex_self hj] at he
      subst he
      obtain ⟨D1, D2, d1, d2, d3, d4⟩ := binaryRule_deriv k κ lo hi o (X j) _ (G j) hreg
      have := a3 j
      rw [hat j hj, d1] at this
      rw [← Option.some.inj this]
      simp only [Function.update_self]
      exact d3.const_mul _
    · intro j hj he s
      rw [broadcastIndex_self hj] at he
      simp only [Function.update_of_ne he]
  · intro i0 hi0 hreg
    refine ⟨_, e4 i0 hi0, ?_⟩
    apply hasDerivAt_pairing (sel := broadcastIndex e)
      (φ := fun j s => G j * realBin o (X j) (Function.update Y i0 s (broadcastIndex e j)))
    · intro j hj he
      obtain ⟨D1, D2, d1, d2, d3, d4⟩ := binaryRule_deriv k κ lo hi o (X j) _ (G j) (hreg j hj he)
      have := b3 j
      rw [hat j hj, he, d2] at this
      rw [← Option.some.inj this]
      simp only [he, Function.update_self]
      exact d4.const_mul _
    · intro j hj he s
      simp only [Function.update_of_ne he]

end

/-! ## Where the full property fails -/

/-- **C73, full property**, for `maximum` on numbers without ties: the gradient of the right operand
is, at each of its elements, the sum of the incoming gradient over the output positions where that
element is the larger one. -/
def C73_full : Prop :=
  ∀ (x y out g : Tensor (Option ℚ)) (X Y G : List Nat → ℚ), Val x x.dims (fun j => some (X j)) →
    Val y y.dims (fun j => some (Y j)) → Val g x.dims (fun j => some (G j)) →
    BroadcastsTo y.dims x.dims → x.dims.length ≤ 16 →
    (∀ v ∈ x.dims, 0 < v) → (∀ v ∈ y.dims, 0 < v) →
    Tensor.binary 1 (ratOps.bin .maximum) none x y = .ok out →
    (∀ j, InRange j x.dims → X j ≠ Y (broadcastIndex y.dims j)) →
    ∃ ga gb, binaryVjp ratOps 1 none .maximum x y out g = .ok (ga, gb) ∧ gb.dims = y.dims ∧
      ∀ i, InRange i y.dims → gb.elem i = some (some
        (((allIndices x.dims).filter fun j => broadcastIndex y.dims j = i ∧ X j < Y i).map G).sum)

theorem val_vec (vs : List ℚ) :
    Val (ratTensor [vs.length] vs) [vs.length] (fun j => some (vs.getD (j.headD 0) 0)) := by
  refine Val.fresh (by simp [numel]) fun j hj => ?_
  match j, hj with
  | [i], hj =>
    have hi : i < vs.length := hj.1
    have : rowMajor [vs.length] [i] = i := by simp [rowMajor, numel]
    rw [this]
    simp [hi]

/-- **C73 is false as stated**: the mask "right operand larger" is computed with the right operand on
the left; when that operand is broadcast, the mask of the first position is used everywhere.  For
`x = [1, 4]`, `y = [3]` and the incoming gradient `[5, 7]` the gradient of `y` is 12 instead of 5. -/
theorem C73_full_false : ¬ C73_full ∧
    (binaryVjp ratOps 1 none .maximum (ratTensor [2] [1, 4]) (ratTensor [1] [3])
      (ratTensor [2] [3, 4]) (ratTensor [2] [5, 7])).bind (fun r => .ok r.2.storage) = .ok [some 12] := by
  have h2 : (binaryVjp ratOps 1 none .maximum (ratTensor [2] [1, 4]) (ratTensor [1] [3])
      (ratTensor [2] [3, 4]) (ratTensor [2] [5, 7])) = .ok (ratTensor [2] [0, 7], ratTensor [1] [12]) := by
    decide +kernel
  refine ⟨fun h => ?_, by rw [h2]; decide⟩
  have hout : Tensor.binary 1 (ratOps.bin .maximum) none (ratTensor [2] [1, 4]) (ratTensor [1] [3]) =
      .ok (ratTensor [2] [3, 4]) := by decide +kernel
  obtain ⟨ga, gb, h3, h4, h5⟩ := h (ratTensor [2] [1, 4]) (ratTensor [1] [3]) (ratTensor [2] [3, 4])
    (ratTensor [2] [5, 7]) _ _ _ (val_vec [1, 4]) (val_vec [3]) (val_vec [5, 7])
    ⟨by decide, fun k v hk => by
      have hk : ([1] : List Nat)[k]? = some v := hk
      match k with
      | 0 => simp at hk; exact Or.inl hk.symm
      | k + 1 => simp at hk⟩
    (by decide) (by decide) (by decide) hout
    (fun j hj => by
      match j, hj with
      | [i], hj =>
        have hi : i < 2 := hj.1
        have : i = 0 ∨ i = 1 := by omega
        rcases this with rfl | rfl <;> decide +kernel)
  rw [h2] at h3
  cases h3
  have := h5 [0] (by decide)
  revert this
  decide +kernel

/-- **C73, remainder**: the rule uses the rounded-down quotient, the kernel truncates toward zero.  At
`x = -3`, `y = 2` the derivative with respect to `y` is 1 and the rule computes 2. -/
theorem C73_rem_wrong (k : KernelConsts) (κ : GConst → ℝ) (lo hi : ℝ) :
    (binaryRule .rem).2.scalar (realOps k κ lo hi) [-3, 2, realBin .rem (-3) 2, 1] = some 2 ∧
    HasDerivAt (fun s => realBin .rem (-3) s) 1 2 := by
  have hf : ⌊(-3 / 2 : ℝ)⌋ = -2 := by rw [Int.floor_eq_iff]; norm_num
  have hc : ⌈(-3 / 2 : ℝ)⌉ = -1 := by rw [Int.ceil_eq_iff]; norm_num
  constructor
  · simp [binaryRule, Ex.scalar, realOps, realBin, realUn, hf]
  · have hn : (⌊(-3 / 2 : ℝ)⌋ : ℝ) ≠ -3 / 2 := by rw [hf]; norm_num
    have ht : truncR (-3 / 2) = -1 := by
      simp only [truncR]
      rw [if_neg (by norm_num), hc]
      norm_num
    have hd : HasDerivAt (fun s : ℝ => -3 - s * truncR (-3 / 2)) (-(1 * truncR (-3 / 2))) 2 :=
      ((hasDerivAt_id (2 : ℝ)).mul_const _).const_sub _
    rw [ht] at hd
    have hd : HasDerivAt (fun s : ℝ => -3 - s * -1) 1 2 := by simpa using hd
    refine hd.congr_of_eventuallyEq ?_
    have hc : Filter.Tendsto (fun s : ℝ => -3 / s) (nhds 2) (nhds (-3 / 2)) :=
      (continuousAt_const.div continuousAt_id two_ne_zero).tendsto
    filter_upwards [hc.eventually (eventually_truncR hn)] with s hs
    simp only [realBin, hs, ht]

/-- The hypotheses of C73: a 2×3 matrix times a row. -/
example :
    let x : Tensor ℝ := ⟨[1, -2, 3, 1, 2, 3], Layout.fromShape [2, 3]⟩
    let y : Tensor ℝ := ⟨[1, 2, 4], Layout.fromShape [3]⟩
    x.WF ∧ y.WF ∧ BroadcastsTo [3] [2, 3] ∧ RegularB .div 3 4 ∧ RegularB .rem 3 2 ∧
      (allIndices [2, 3]).filter (fun j => broadcastIndex [3] j = [1]) = [[0, 1], [1, 1]] := by
  refine ⟨fresh_wf_list _ _ (by decide), fresh_wf_list _ _ (by decide),
    ⟨by decide, fun k v hk => ?_⟩, ?_, ⟨two_ne_zero, by norm_num, ?_⟩, by decide⟩
  · match k with
    | 0 => simp at hk; subst hk; right; rfl
    | k + 1 => simp at hk
  · show (4 : ℝ) ≠ 0
    norm_num
  · have : ⌊(3 / 2 : ℝ)⌋ = 1 := by rw [Int.floor_eq_iff]; norm_num
    rw [this]
    norm_num

end Hodu
