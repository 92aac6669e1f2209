import Verif.Model.Embedding
import Verif.Lemmas.TypedMat
import Verif.Props.Selection
import Verif.Props.Indexing

/-!
# C88: the embedding layer

Without options the layer looks the rows up, for index tensors of any layout that starts at its buffer's
beginning; an index that names no row gives a row of zeros although the code says it fails.  With
`max_norm` the norm is taken over axis `embedding_dim - 1`, which is right for two columns, wrong for one,
and panics for three or more.  With `padding_idx` the layer always fails.
-/

open Finset

namespace Hodu
open Spec

/-! ## Specification -/

/-- The row a number names among `n`: counted from the end if negative. -/
def Spec.rowNamed (n : Nat) (v : Int) : Option Nat :=
  if 0 ≤ v ∧ v < n then some v.toNat
  else if -n ≤ v ∧ v < 0 then some (v + n).toNat
  else none

/-- The value of an embedding: the element of the named row, or `zero` if there is none. -/
def Spec.lookedUp {α : Type} (n : Nat) (W : List Nat → α) (zero : α) (v : Int) (e : Nat) : α :=
  match rowNamed n v with
  | some c => W [c, e]
  | none => zero

theorem rowNamed_iff {n : Nat} {v : Int} {c : Nat} : rowNamed n v = some c ↔ IsAxis n v c := by
  unfold rowNamed IsAxis
  split
  · simp only [Option.some.injEq]; omega
  · split
    · simp only [Option.some.injEq]; omega
    · simp only [reduceCtorEq, false_iff]; omega

section
variable {α : Type} {E : Rt α} {dt : DType}

/-! ## Without options -/

/-- A copied buffer only holds elements of the original. -/
theorem Val.viewC_mem {β : Type} {t : Tensor β} {d : List Nat} {F : List Nat → β} (h : Val t d F) :
    ∃ s, (∀ f, t.viewVia f = (f ⟨d, Layout.computeStrides d, 0⟩).bind fun l => .ok ⟨s, l⟩) ∧
      (∀ idx, InRange idx d → s[rowMajor d idx]? = some (F idx)) ∧ ∀ v ∈ s, v ∈ t.storage := by
  obtain ⟨s, o, c1, c2, c3⟩ := contiguous_spec h.wf
  obtain ⟨s', h1, h2⟩ := h.viewC
  have hs : s = s' := by
    have := h1 fun l => .ok l
    simp only [Tensor.viewVia, c1, Res.ok_bind, Res.ok.injEq] at this
    exact congrArg Tensor.storage this
  subst hs
  refine ⟨s, h1, h2, fun v hv => ?_⟩
  rcases c3 with ⟨ho, hl, -⟩ | ⟨rfl, -, -⟩
  · obtain ⟨i, hi, rfl⟩ := List.getElem_of_mem hv
    have hin := unravel_inRange (dims := t.dims) (n := i) (by omega)
    have e := c2 _ hin
    rw [ho, Nat.zero_add, rowMajor_unravel (by omega), List.getElem?_eq_getElem hi] at e
    exact List.mem_of_getElem? e.symm
  · exact hv

/-- The flattened indices. -/
theorem flatten_val {ix : Tensor Int} {d : List Nat} {P : List Nat → Int} (h : Val ix d P) :
    ∃ s, ix.flatten = .ok ⟨s, Layout.fromShape [numel d]⟩ ∧
      (∀ i, InRange i d → s[rowMajor d i]? = some (P i)) ∧ (∀ v ∈ s, v ∈ ix.storage) ∧
      numel d ≤ s.length := by
  obtain ⟨s, h1, h2, h3⟩ := h.viewC_mem
  refine ⟨s, ?_, h2, h3, ?_⟩
  · rw [Tensor.flatten, h1]
    simp [Layout.flatten, isContiguous_computeStrides, Layout.fromShape, Layout.size, shapeSize_eq]
  · by_contra hc
    have hin := unravel_inRange (dims := d) (n := s.length) (by omega)
    have := h2 _ hin
    rw [rowMajor_unravel (by omega)] at this
    simp at this

/-- Selecting rows by the flattened indices. -/
theorem select_val {w : TT α} {ix : Tensor Int} {V D : Nat} {d : List Nat} {W : List Nat → α}
    {P : List Nat → Int} (hw : TVal w dt [V, D] W) (hV : V < 2 ^ 31) (hix : Val ix d P)
    (hv : ∀ v ∈ ix.storage, I32 v) :
    ∃ flat r, ix.flatten = .ok flat ∧ E.indexSelect w 0 flat = .ok r ∧ TVal r dt [numel d, D] (fun i =>
      lookedUp V W (E.A.cst .zero) (P (unravel d (i.getD 0 0))) (i.getD 1 0)) := by
  obtain ⟨s, f1, f2, f3, f4⟩ := flatten_val hix
  obtain ⟨t, rfl, hw⟩ := hw
  have hd := hw.dims
  obtain ⟨r, r1, r2, r3, r4⟩ := C28_raw (t := t) (ix := ⟨s, Layout.fromShape [numel d]⟩) (dim := 0) (k := 0)
    (n := V) (E.A.cst .zero) hw.wf (by rw [hd]; simp) (by rw [hd]; exact ⟨by simp, Or.inl rfl⟩)
    (by rw [hd]; rfl) hV (by simpa [Tensor.dims, Layout.fromShape, numel] using f4)
    (fun v h => hv v (f3 v h))
  have hdims : r.dims = [numel d, D] := by
    rw [r2, hd]; simp [Tensor.dims, Layout.fromShape, numel]
  refine ⟨_, .num dt r, f1, by simp [Rt.indexSelect, r1], r, rfl, r3, hdims, Or.inr ?_, ?_⟩
  · unfold Tensor.indexSelect at r1
    simp only at r1
    split at r1
    · cases r1
    · obtain ⟨u, -, h⟩ := Res.bind_eq_ok.mp r1
      cases h
      rfl
  · intro idx hi
    match idx, hi with
    | [j, e], ⟨hj, he, _⟩ =>
      have hj : j < numel d := hj
      have hs : s[j]? = some (P (unravel d j)) := by
        have := f2 _ (unravel_inRange hj)
        rwa [rowMajor_unravel hj] at this
      obtain ⟨g1, g2⟩ := r4 [j, e] (by rw [hdims]; exact ⟨hj, he, trivial⟩) j _ rfl hs
      show r.elem [j, e] = some (lookedUp V W (E.A.cst .zero) (P (unravel d j)) e)
      unfold lookedUp
      cases hr : rowNamed V (P (unravel d j)) with
      | none =>
        refine g2 ?_
        rintro ⟨c, hc⟩
        rw [rowNamed_iff.mpr hc] at hr
        cases hr
      | some c =>
        have hc := rowNamed_iff.mp hr
        rw [g1 c hc]
        exact hw.vals [c, e] ⟨hc.1, he, trivial⟩

/-- The rows named by the indices, in the shape of the indices.  Missing: index views that start inside of
their buffer (`C88_index_view_false`). -/
theorem C88_embedding_partial {w : TT α} {ix : Tensor Int} {V D : Nat} {d : List Nat} {W : List Nat → α}
    {P : List Nat → Int} (hw : TVal w dt [V, D] W) (hV : V < 2 ^ 31) (hix : Val ix d P)
    (hv : ∀ v ∈ ix.storage, I32 v) :
    ∃ r, E.embed w D none none ix = .ok r ∧ TVal r dt (d ++ [D]) (fun i =>
      lookedUp V W (E.A.cst .zero) (P i.dropLast) (i.getLastD 0)) := by
  obtain ⟨flat, o, h1, h2, h3⟩ := select_val (E := E) hw hV hix hv
  obtain ⟨r, r1, r2⟩ := h3.reshape (e := d ++ [D])
    (G := fun i => lookedUp V W (E.A.cst .zero) (P i.dropLast) (i.getLastD 0))
    (by simp [numel_append, numel]) (by
      intro i j hi hj he
      obtain ⟨b, a, rfl, hb, ha⟩ := inRange_of_snoc hj
      match i, hi with
      | [p, e], ⟨hp, he', _⟩ =>
        have he' : e < D := he'
        rw [rowMajor_snoc hb] at he
        have he : p * D + e = rowMajor d b * D + a := by simpa [rowMajor, numel] using he
        have hD : 0 < D := by omega
        have h4 : p = rowMajor d b ∧ e = a := by
          have h5 := congrArg (· / D) he
          have h6 := congrArg (· % D) he
          simp only [Nat.mul_comm _ D, Nat.mul_add_div hD, Nat.mul_add_mod, Nat.div_eq_of_lt he',
            Nat.div_eq_of_lt ha, Nat.mod_eq_of_lt he', Nat.mod_eq_of_lt ha] at h5 h6
          exact ⟨by omega, h6⟩
        obtain ⟨rfl, rfl⟩ := h4
        simp [unravel_rowMajor hb])
  exact ⟨r, by simp [Rt.embed, h1, h2, hix.dims, r1], r2⟩

/-- A pretrained layer is the same, for a weight of rank 2; any other weight is rejected. -/
theorem C88_pretrained (w : TT α) (ix : Tensor Int) :
    (w.dims.length ≠ 2 → E.embedPretrained w ix = .err) ∧
    ∀ V D, w.dims = [V, D] → E.embedPretrained w ix = E.embed w D none none ix := by
  constructor
  · intro h; rw [Rt.embedPretrained, if_pos h]
  · intro V D h
    rw [Rt.embedPretrained, if_neg (by rw [h]; simp), h]
    rfl

/-! ## Padding -/

/-- With `padding_idx` the layer never succeeds: it selects from a boolean tensor (C85). -/
theorem C88_padding_false (w : TT α) (dim p : Nat) (norm : Option (Sc α)) (ix : Tensor Int) (r : TT α) :
    E.embed w dim (some p) norm ix ≠ .ok r := by
  intro h
  unfold Rt.embed at h
  obtain ⟨flat, -, h⟩ := Res.bind_eq_ok.mp h
  obtain ⟨o, -, h⟩ := Res.bind_eq_ok.mp h
  obtain ⟨o', -, h⟩ := Res.bind_eq_ok.mp h
  obtain ⟨q, h, -⟩ := Res.bind_eq_ok.mp h
  unfold Rt.padRows at h
  obtain ⟨m, -, h⟩ := Res.bind_eq_ok.mp h
  obtain ⟨m', -, h⟩ := Res.bind_eq_ok.mp h
  obtain ⟨f, h, -⟩ := Res.bind_eq_ok.mp h
  exact C85_where3_bool E m' _ _ f h

end

/-! ## max_norm -/

theorem numel_pos_of {d : List Nat} (h : ∀ n ∈ d, 0 < n) : 0 < numel d := by
  induction d with
  | nil => simp [numel]
  | cons x xs ih =>
    simp only [numel]
    exact Nat.mul_pos (h x (by simp)) (ih fun n hn => h n (by simp [hn]))

variable {E : Rt ℝ} {dt : DType}

/-- With three or more columns, `max_norm` makes the layer panic. -/
theorem C88_max_norm_panics (hE : E.Real) (hf : dt.isFloat = true) {w : TT ℝ} {ix : Tensor Int} {V D : Nat}
    {d : List Nat} {W : List Nat → ℝ} {P : List Nat → Int} (hw : TVal w dt [V, D] W) (hV : V < 2 ^ 31)
    (hix : Val ix d P) (hv : ∀ v ∈ ix.storage, I32 v) (hD : 3 ≤ D) (hD' : D < 2 ^ 31)
    (hd : ∀ n ∈ d, 0 < n) (pad : Option Nat) (m : Sc ℝ) : E.embed w D pad (some m) ix = .panic := by
  obtain ⟨flat, o, h1, h2, h3⟩ := select_val (E := E) hw hV hix hv
  have hn : 0 < numel d := numel_pos_of hd
  obtain ⟨q, q1, q2⟩ := TVal.bin_same E hf (o := .mul) (by simp) h3 h3 (by simp; omega)
  obtain ⟨t, rfl, q2⟩ := q2
  obtain ⟨k, κ, lo, hi, hA⟩ := hE
  have hp : t.red E.A .sum [((D - 1 : Nat) : Int)] true = .panic := by
    unfold Tensor.red
    refine C22_bad_axis_panics (by rw [q2.dims]; simp) ⟨by omega, by omega⟩ ?_ true _
    intro c hc
    rw [q2.dims] at hc
    obtain ⟨hc1, hc2⟩ := hc
    simp only [List.length_cons, List.length_nil] at hc1 hc2
    omega
  have hr : E.red .sum [((D - 1 : Nat) : Int)] true (.num dt t) = .panic := by
    rw [E.red_num hf, hp]; rfl
  have hD0 : o.dims.getLastD 0 = D := by rw [h3.dims]; rfl
  have : E.maxNorm o m = .panic := by
    rw [Rt.maxNorm, hD0, if_neg (by omega), q1, Res.ok_bind, hr]
    rfl
  simp only [Rt.embed, h1, h2, Res.ok_bind, this]
  rfl

/-- A value of a row of norm `n` limited to the norm `m`. -/
noncomputable def Spec.capped (m n v : ℝ) : ℝ := if n ≤ m then v else v * (m / n)

/-- The part of `apply_max_norm` after the sum. -/
theorem maxNorm_tail (hE : E.Real) (hf : dt.isFloat = true) {o : TT ℝ} {N D : Nat} {F S : List Nat → ℝ}
    {e : List Nat} (ho : TVal o dt [N, D] F) (hN : 0 < N) (hD : 0 < D)
    (hs : ∀ q, TVal q dt [N, D] (fun i => F i * F i) → ∃ ss,
      E.red .sum [((D - 1 : Nat) : Int)] true q = .ok ss ∧ TVal ss dt e S)
    (he : BroadcastsTo e [N, D]) (hpe : ∀ n ∈ e, 0 < n) (m : ℝ) :
    ∃ r, E.maxNorm o ⟨dt, m⟩ = .ok r ∧ TVal r dt [N, D] (fun i =>
      F i * if m / √(S (broadcastIndex e i)) < 1 then m / √(S (broadcastIndex e i)) else 1) := by
  obtain ⟨k, κ, lo, hi, hA⟩ := id hE
  obtain ⟨q, q1, q2⟩ := TVal.bin_same E hf (o := .mul) (by simp) ho ho (by simp [hN, hD])
  obtain ⟨ss, s1, s2⟩ := hs q (q2.congr fun idx _ => by rw [hA]; rfl)
  obtain ⟨nm, n1, n2⟩ := TVal.un E hf .sqrt s2
  obtain ⟨sc, c1, c2⟩ := TVal.bin_same E hf (o := .div) (by simp) (n2.fullLike m) n2 hpe
  obtain ⟨sm, d1, d2⟩ := TVal.bin_same E hf (o := .minimum) (by simp) c2
    (c2.fullLike (dt' := dt) (E.A.cst .one)) hpe
  obtain ⟨r, r1, r2⟩ := TVal.bin E hf (o := .mul) (by simp) ho d2 he (by simp [hN, hD]) hpe
  refine ⟨r, ?_, r2.congr fun idx _ => by rw [hA]; rfl⟩
  have hL : o.dims.getLastD 0 = D := by rw [ho.dims]; rfl
  simp only [Rt.maxNorm, hL]
  rw [if_neg (by omega), q1, Res.ok_bind, s1, Res.ok_bind, n1, Res.ok_bind, c1, Res.ok_bind, ho.dtype]
  show ((E.bin .minimum sc (TT.fullLike sc ⟨dt, E.A.cst .one⟩)).bind fun s => E.bin .mul o s) = _
  rw [d1, Res.ok_bind, r1]

theorem capped_eq {m a b v : ℝ} (hm : 0 ≤ m) (hv : v = a ∨ v = b) :
    v * (if m / √(a * a + b * b) < 1 then m / √(a * a + b * b) else 1) =
      capped m (√(a ^ 2 + b ^ 2)) v := by
  have e : a * a + b * b = a ^ 2 + b ^ 2 := by ring
  rw [e]
  unfold capped
  have h0 : 0 ≤ √(a ^ 2 + b ^ 2) := Real.sqrt_nonneg _
  rcases h0.eq_or_lt with h0 | h0
  · have hz : a ^ 2 + b ^ 2 = 0 := by
      have := Real.sqrt_eq_zero'.mp h0.symm
      nlinarith [sq_nonneg a, sq_nonneg b]
    have ha : a = 0 := by nlinarith [sq_nonneg a, sq_nonneg b]
    have hb : b = 0 := by nlinarith [sq_nonneg a, sq_nonneg b]
    have : v = 0 := by rcases hv with rfl | rfl <;> assumption
    simp [this]
  · by_cases h : √(a ^ 2 + b ^ 2) ≤ m
    · rw [if_neg, if_pos h, mul_one]
      rw [not_lt, le_div_iff₀ h0]; linarith
    · rw [if_pos, if_neg h]
      rw [div_lt_one h0]; linarith

/-- With two columns, `max_norm` limits the norm of every row that is looked up.  (A row of norm 0 is left
alone; over the reals `m / 0` is 0, in IEEE arithmetic it is infinite, and both give the row of zeros.)
Missing: any other number of columns (`C88_max_norm_panics`, `C88_max_norm_column`), rounding. -/
theorem C88_max_norm_partial (hE : E.Real) (hf : dt.isFloat = true) {w : TT ℝ} {ix : Tensor Int} {V : Nat}
    {d : List Nat} {W : List Nat → ℝ} {P : List Nat → Int} (hw : TVal w dt [V, 2] W) (hV : V < 2 ^ 31)
    (hix : Val ix d P) (hv : ∀ v ∈ ix.storage, I32 v) (hd : ∀ n ∈ d, 0 < n) {m : ℝ} (hm : 0 ≤ m) :
    ∃ r, E.embed w 2 none (some ⟨dt, m⟩) ix = .ok r ∧ TVal r dt (d ++ [2]) (fun i =>
      let at' := lookedUp V W 0 (P i.dropLast)
      capped m (√(at' 0 ^ 2 + at' 1 ^ 2)) (at' (i.getLastD 0))) := by
  obtain ⟨k, κ, lo, hi, hA⟩ := id hE
  obtain ⟨flat, o, h1, h2, h3⟩ := select_val (E := E) hw hV hix hv
  have hz : E.A.cst .zero = 0 := by rw [hA]; rfl
  rw [hz] at h3
  have hn : 0 < numel d := numel_pos_of hd
  obtain ⟨r, r1, r2⟩ := maxNorm_tail hE hf h3 hn (by omega) (e := [numel d, 1])
    (S := fun i => lookedUp V W 0 (P (unravel d (i.getD 0 0))) 0 * lookedUp V W 0 (P (unravel d (i.getD 0 0))) 0 +
      lookedUp V W 0 (P (unravel d (i.getD 0 0))) 1 * lookedUp V W 0 (P (unravel d (i.getD 0 0))) 1) (by
    intro q hq
    obtain ⟨ss, s1, s2⟩ := TVal.red hE hf hq (ds := [((2 - 1 : Nat) : Int)]) (K := [1]) (keep := true)
      (by simp) (Or.inr ⟨by simp, .cons ⟨by simp, Or.inl rfl⟩ .nil⟩) (by simp) (by simp [hn])
      (o := .sum) (by simp)
    refine ⟨ss, s1, s2.congr fun idx hi => ?_⟩
    match idx, hi with
    | [a, b], ⟨ha, hb, _⟩ =>
      have ha : a < numel d := ha
      have hb : b < 1 := hb
      obtain rfl : b = 0 := by omega
      have hc := cell_trailing (lead := [numel d]) (tail := [2]) (idx := [a, 0])
        ⟨ha, by omega, trivial⟩
      have hp := (hc.map fun i => lookedUp V W 0 (P (unravel d (i.getD 0 0))) (i.getD 1 0) *
        lookedUp V W 0 (P (unravel d (i.getD 0 0))) (i.getD 1 0)).sum_eq
      simp only [List.length_cons, List.length_nil, zero_add, List.range'_one] at hp
      have hri : reduceIndex [1] true [a, 0] = [a, 0] := rfl
      rw [hri] at hp
      have hal : allIndices [2] = [[0], [1]] := by decide
      rw [hal] at hp
      show redR .sum _ = _
      simp only [redR]
      refine hp.trans ?_
      simp) ⟨by simp, by
        intro k y hk
        match k, hk with
        | 0, hk => simp at hk; subst hk; simp
        | 1, hk => simp at hk; subst hk; simp⟩ (by simp [hn]) m
  obtain ⟨r', g1, g2⟩ := r2.reshape (e := d ++ [2])
    (G := fun i =>
      let at' := lookedUp V W 0 (P i.dropLast)
      capped m (√(at' 0 ^ 2 + at' 1 ^ 2)) (at' (i.getLastD 0)))
    (by simp [numel_append, numel]) (by
      intro i j hi hj he
      obtain ⟨b, a, rfl, hb, ha⟩ := inRange_of_snoc hj
      match i, hi with
      | [p, e], ⟨hp, he', _⟩ =>
        have he' : e < 2 := he'
        rw [rowMajor_snoc hb] at he
        have he : p * 2 + e = rowMajor d b * 2 + a := by simpa [rowMajor, numel] using he
        obtain ⟨rfl, rfl⟩ : p = rowMajor d b ∧ e = a := by omega
        have hbi : broadcastIndex [numel d, 1] [rowMajor d b, e] = [rowMajor d b, 0] := by
          simp only [broadcastIndex, List.length_cons, List.length_nil, Nat.sub_self, List.drop_zero,
            List.zipWith_cons_cons, List.zipWith_nil_right]
          by_cases h : numel d = 1
          · have hp : rowMajor d b < numel d := hp
            have : rowMajor d b = 0 := by omega
            simp [this]
          · simp [h]
        simp only [hbi, List.getD_cons_zero, List.getD_cons_succ, unravel_rowMajor hb,
          List.dropLast_concat, List.getLastD_concat]
        refine capped_eq hm ?_
        obtain rfl | rfl : e = 0 ∨ e = 1 := by omega
        · exact Or.inl rfl
        · exact Or.inr rfl)
  exact ⟨r', by simp [Rt.embed, h1, h2, r1, hix.dims, g1], g2⟩

/-- Rational numbers with the square root of 25. -/
def embRt : Rt (Option ℚ) :=
  ⟨{ ratOps with un := fun o x => match o with
      | .sqrt => if x = some 25 then some 5 else none
      | o => ratOps.un o x }, 1, none, fun _ _ x => x⟩

/-- A matrix of type `f32`. -/
def mat32 {α : Type} (r c : Nat) (l : List α) : TT α := .num .f32 ⟨l, Layout.fromShape [r, c]⟩

/-- The indices 0 and 1. -/
def ix01 : Tensor Int := ⟨[0, 1], Layout.fromShape [2]⟩

/-- One column: the rows 3 and 4 have norm at most 4, but both are scaled down, by the norm of the column
of all rows looked up. -/
theorem C88_max_norm_column :
    embRt.embed (mat32 2 1 [some 3, some 4]) 1 none none ix01 =
      .ok (mat32 2 1 [some 3, some 4]) ∧
    embRt.embed (mat32 2 1 [some 3, some 4]) 1 none (some ⟨.f32, some 4⟩) ix01 =
      .ok (mat32 2 1 [some (12 / 5), some (16 / 5)]) := by
  decide +kernel

/-- Two columns, concretely: the row (3, 4) limited to norm 4. -/
example : embRt.embed (mat32 1 2 [some 3, some 4]) 2 none (some ⟨.f32, some 4⟩)
      ⟨[0, 0], Layout.fromShape [2]⟩ =
    .ok (mat32 2 2 [some (12 / 5), some (16 / 5), some (12 / 5), some (16 / 5)]) := by decide +kernel

/-- An index that names no row gives a row of zeros, although the code says "This will fail if any
index >= num_embeddings". -/
theorem C88_out_of_range (hE : E.Real) {w : TT ℝ} {ix : Tensor Int} {V D : Nat} {d : List Nat}
    {W : List Nat → ℝ} {P : List Nat → Int} (hw : TVal w dt [V, D] W) (hV : V < 2 ^ 31)
    (hix : Val ix d P) (hv : ∀ v ∈ ix.storage, I32 v) :
    ∃ r F, E.embed w D none none ix = .ok r ∧ TVal r dt (d ++ [D]) F ∧
      ∀ i e, (P i < -V ∨ V ≤ P i) → F (i ++ [e]) = 0 := by
  obtain ⟨r, h1, h2⟩ := C88_embedding_partial (E := E) hw hV hix hv
  refine ⟨r, _, h1, h2, fun i e h => ?_⟩
  have : rowNamed V (P i) = none := by
    rw [Option.eq_none_iff_forall_ne_some]
    intro c hc
    have := rowNamed_iff.mp hc
    unfold IsAxis at this
    omega
  obtain ⟨k, κ, lo, hi, hA⟩ := id hE
  simp only [List.dropLast_concat, List.getLastD_concat, lookedUp, this]
  rw [hA]; rfl

/-- Indices that are a slice of a larger tensor: the slice holds 1 and 2, and the rows 0 and 1 are
returned. -/
theorem C88_index_view_false :
    exSelView.elem [0] = some 1 ∧ exSelView.elem [1] = some 2 ∧
    embRt.embed (mat32 3 1 [some 3, some 4, some 5]) 1 none none exSelView =
      .ok (mat32 2 1 [some 3, some 4]) := by
  decide +kernel

/-! ## The property as stated -/

/-- C88 as stated, for one runtime: whatever the layout of the indices, the layer returns the rows, each
limited to the norm `max_norm`, and rows of zeros for `padding_idx`. -/
def C88Full {α : Type} (E : Rt α) (norm : (Nat → α) → Nat → α) (le : α → α → Prop) : Prop :=
  ∀ (w : TT α) (V D : Nat) (W : List Nat → α) (ix : Tensor Int) (pad : Option Nat) (m : Option α),
    TVal w .f32 [V, D] W → ix.WF → (∀ i v, ix.elem i = some v → 0 ≤ v ∧ v < V) →
    (∀ p, pad = some p → p < V) →
    ∃ r F, E.embed w D pad (m.map fun m => ⟨.f32, m⟩) ix = .ok r ∧ TVal r .f32 (ix.dims ++ [D]) F ∧
      ∀ i v e, ix.elem i = some v → e < D → pad ≠ some v.toNat →
        (∀ m', m = some m' → le (norm (fun e => W [v.toNat, e]) D) m') →
        F (i ++ [e]) = W [v.toNat, e]

theorem TVal.mat32 {α : Type} {r c : Nat} {l : List α} {F : List Nat → α} (h : r * c = l.length)
    (hF : ∀ i j, i < r → j < c → l[i * c + j]? = some (F [i, j])) : TVal (mat32 r c l) .f32 [r, c] F := by
  refine ⟨_, rfl, Val.of_rowMajor fun idx hi => ?_⟩
  match idx, hi with
  | [i, j], ⟨hi, hj, _⟩ => simpa [rowMajor, numel] using hF i j hi hj

theorem C88_full_false {α : Type} (E : Rt α) (norm : (Nat → α) → Nat → α) (le : α → α → Prop) :
    ¬ C88Full E norm le := by
  intro h
  have hix : Val (⟨[0], Layout.fromShape [1]⟩ : Tensor Int) [1] (fun _ => 0) := by
    refine Val.of_rowMajor fun idx hi => ?_
    match idx, hi with
    | [0], _ => rfl
  obtain ⟨r, F, h, -⟩ := h (Hodu.mat32 1 1 [E.A.cst .zero]) 1 1 (fun _ => E.A.cst .zero)
    ⟨[0], Layout.fromShape [1]⟩ (some 0) none
    (TVal.mat32 rfl (by
      intro i j hi hj
      obtain rfl : i = 0 := by omega
      obtain rfl : j = 0 := by omega
      rfl)) hix.wf (by
      intro i v hv
      have : v ∈ ([0] : List Int) := List.mem_of_getElem? hv
      simp at this; omega) (by simp)
  exact C88_padding_false _ _ _ _ _ _ h

/-- The hypotheses of the theorems above: two indices, one of them negative, into three rows of two. -/
example : ∃ r, realRt.embed (mat32 3 2 [1, 2, 3, 4, 5, 6]) 2 none none ⟨[1, -1], Layout.fromShape [2]⟩ = .ok r ∧
    TVal r .f32 [2, 2] (fun i => if i.getD 0 0 = 0 then (if i.getD 1 0 = 0 then 3 else 4)
      else if i.getD 1 0 = 0 then 5 else 6) := by
  have hw : TVal (mat32 3 2 [(1 : ℝ), 2, 3, 4, 5, 6]) .f32 [3, 2]
      (fun i => (i.getD 0 0 : ℝ) * 2 + i.getD 1 0 + 1) := by
    refine TVal.mat32 rfl fun i j hi hj => ?_
    interval_cases i <;> interval_cases j <;> norm_num
  have hix : Val (⟨[1, -1], Layout.fromShape [2]⟩ : Tensor Int) [2]
      (fun i => if i.getD 0 0 = 0 then 1 else -1) := by
    refine Val.of_rowMajor fun idx hi => ?_
    match idx, hi with
    | [i], ⟨hi, _⟩ =>
      have hi : i < 2 := hi
      interval_cases i <;> rfl
  obtain ⟨r, h1, h2⟩ := C88_embedding_partial (E := realRt) hw (by norm_num) hix (by
    intro v hv; simp at hv; unfold I32; omega)
  refine ⟨r, h1, h2.congr fun idx hi => ?_⟩
  match idx, hi with
  | [i, j], ⟨hi, hj, _⟩ =>
    have hi : i < 2 := hi
    have hj : j < 2 := hj
    have h2 : Int.toNat 2 = 2 := rfl
    interval_cases i <;> interval_cases j <;> norm_num [lookedUp, rowNamed, h2]

end Hodu
