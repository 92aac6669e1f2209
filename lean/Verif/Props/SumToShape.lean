import Verif.Props.Reduce
import Mathlib.Algebra.BigOperators.Ring.List

/-!
# C33: the gradient of broadcasting is summation
-/

namespace Hodu
open Spec

variable {M : Type}

/-- Every element of `r` is the sum of the elements of `t` at the positions that `π` maps to it, each
position once. -/
structure Spec.SumsAlong [AddCommMonoid M] (t r : Tensor M) (π : List Nat → List Nat) : Prop where
  wf : r.WF
  maps : ∀ j, InRange j t.dims → InRange (π j) r.dims
  sums : ∀ idx, InRange idx r.dims → ∃ (js : List (List Nat)) (vals : List M), js.Nodup ∧
    (∀ j, j ∈ js ↔ InRange j t.dims ∧ π j = idx) ∧ js.map t.elem = vals.map some ∧
    r.elem idx = some vals.sum

theorem foldl_add_eq_sum [AddCommMonoid M] (l : List M) : l.foldl (· + ·) 0 = l.sum := by
  have : ∀ a, l.foldl (· + ·) a = a + l.sum := by
    induction l with
    | nil => intro a; simp
    | cons x xs ih => intro a; rw [List.foldl_cons, ih, List.sum_cons, add_assoc]
  rw [this, zero_add]

theorem Spec.SumsAlong.refl [AddCommMonoid M] {t : Tensor M} (ht : t.WF) {π : List Nat → List Nat}
    (hπ : ∀ j, InRange j t.dims → π j = j) : SumsAlong t t π := by
  refine ⟨ht, fun j hj => by rw [hπ j hj]; exact hj, ?_⟩
  intro idx hi
  obtain ⟨v, hv⟩ := Option.isSome_iff_exists.mp (ht.2 idx hi)
  refine ⟨[idx], [v], by simp, ?_, by simp [hv], by simp [hv]⟩
  intro j
  constructor
  · intro h; rw [List.mem_singleton.mp h]; exact ⟨hi, hπ idx hi⟩
  · rintro ⟨h1, h2⟩; rw [hπ j h1] at h2; simp [h2]

theorem Spec.SumsAlong.congr [AddCommMonoid M] {t r : Tensor M} {π π' : List Nat → List Nat}
    (h : SumsAlong t r π) (hπ : ∀ j, InRange j t.dims → π' j = π j) : SumsAlong t r π' := by
  refine ⟨h.wf, fun j hj => by rw [hπ j hj]; exact h.maps j hj, ?_⟩
  intro idx hi
  obtain ⟨js, vals, a, b, c, d⟩ := h.sums idx hi
  refine ⟨js, vals, a, ?_, c, d⟩
  intro j
  rw [b]
  constructor
  · rintro ⟨h1, h2⟩; exact ⟨h1, by rw [hπ j h1, h2]⟩
  · rintro ⟨h1, h2⟩; exact ⟨h1, by rw [← hπ j h1, h2]⟩

/-- Gluing lists of contributions. -/
theorem glue [AddCommMonoid M] {t r : Tensor M} {π : List Nat → List Nat} (h : SumsAlong t r π)
    {is : List (List Nat)} {vals : List M} (hnd : is.Nodup) (hin : ∀ i ∈ is, InRange i r.dims)
    (hv : is.map r.elem = vals.map some) :
    ∃ (js : List (List Nat)) (ws : List M), js.Nodup ∧
      (∀ j, j ∈ js ↔ InRange j t.dims ∧ π j ∈ is) ∧ js.map t.elem = ws.map some ∧
      ws.sum = vals.sum := by
  induction is generalizing vals with
  | nil =>
    have : vals = [] := by simpa using hv.symm
    subst this
    exact ⟨[], [], by simp, by simp, rfl, rfl⟩
  | cons i is ih =>
    cases vals with
    | nil => simp at hv
    | cons v vals =>
      simp only [List.map_cons, List.cons.injEq] at hv
      obtain ⟨hni, hnd⟩ := List.nodup_cons.mp hnd
      obtain ⟨js2, ws2, a2, b2, c2, d2⟩ := ih hnd (fun x hx => hin x (by simp [hx])) hv.2
      obtain ⟨js1, ws1, a1, b1, c1, d1⟩ := h.sums i (hin i (by simp))
      refine ⟨js1 ++ js2, ws1 ++ ws2, ?_, ?_, by simp [c1, c2], ?_⟩
      · rw [List.nodup_append]
        refine ⟨a1, a2, ?_⟩
        intro x hx y hy e
        subst e
        have h1 := ((b1 x).mp hx).2
        have h2 := ((b2 x).mp hy).2
        rw [h1] at h2
        exact hni h2
      · intro j
        rw [List.mem_append, b1, b2, List.mem_cons]
        constructor
        · rintro (⟨p, q⟩ | ⟨p, q⟩)
          · exact ⟨p, .inl q⟩
          · exact ⟨p, .inr q⟩
        · rintro ⟨p, q | q⟩
          · exact .inl ⟨p, q⟩
          · exact .inr ⟨p, q⟩
      · rw [d1] at hv
        rw [List.sum_append, List.sum_cons, d2, Option.some.inj hv.1]

theorem Spec.SumsAlong.comp [AddCommMonoid M] {t r s : Tensor M} {π ρ : List Nat → List Nat}
    (h : SumsAlong t r π) (h2 : SumsAlong r s ρ) : SumsAlong t s (fun j => ρ (π j)) := by
  refine ⟨h2.wf, fun j hj => h2.maps _ (h.maps j hj), ?_⟩
  intro idx hi
  obtain ⟨is, vals, a, b, c, d⟩ := h2.sums idx hi
  obtain ⟨js, ws, a', b', c', d'⟩ := glue h a (fun i hi => ((b i).mp hi).1) c
  refine ⟨js, ws, a', ?_, c', by rw [d, d']⟩
  intro j
  rw [b', b]
  constructor
  · rintro ⟨p, _, q⟩; exact ⟨p, q⟩
  · rintro ⟨p, q⟩; exact ⟨p, h.maps j p, q⟩

theorem inRange_zeroAxes {K j dims : List Nat} (h : InRange j dims) :
    InRange (zeroAxes K j) (unitAxes K dims) := by
  rw [inRange_iff] at h ⊢
  refine ⟨by simp [zeroAxes, unitAxes, h.1], ?_⟩
  intro i h1 h2
  simp only [zeroAxes, unitAxes, List.length_mapIdx] at h1 h2
  have := h.2 i h1 h2
  simp only [zeroAxes, unitAxes, List.getElem_mapIdx]
  split <;> omega

theorem inRange_reduceIndex {K j dims : List Nat} {keep : Bool} (h : InRange j dims) :
    InRange (reduceIndex K keep j) (reduceShape K keep dims) := by
  cases keep
  · exact inRange_dropAxes 0 h
  · exact inRange_zeroAxes h

theorem sum_sumsAlong [AddCommMonoid M] {t : Tensor M} {k : Nat} {keep : Bool} (ht : t.WF)
    (hr : t.dims.length ≤ 16) (hk : k < t.dims.length)
    (hz : keep = false → ∀ p, p ≠ k → t.dims[p]? ≠ some 0) :
    ∃ r, t.sum (· + ·) 0 [(k : Int)] keep = .ok r ∧ r.dims = reduceShape [k] keep t.dims ∧
      SumsAlong t r (reduceIndex [k] keep) := by
  obtain ⟨r, h1, h2, h3, h4⟩ := C21_reduce_partial (K := [k]) (ds := [(k : Int)]) ht hr
    (.inr ⟨by simp, .cons ⟨hk, .inl rfl⟩ .nil⟩) (by simp)
    (fun e p hp => hz e p (by simpa using hp)) (fun vs => vs.foldl (· + ·) 0)
  refine ⟨r, h1, h3, h2, fun j hj => by rw [h3]; exact inRange_reduceIndex hj, ?_⟩
  intro idx hi
  obtain ⟨js, vals, a, b, c, d⟩ := h4 idx (h3 ▸ hi)
  exact ⟨js, vals, b, a.mem, c, by rw [d, foldl_add_eq_sum]⟩

theorem dropAxes_single (i k : Nat) (l : List Nat) : dropAxes [i + k] i l = l.eraseIdx k := by
  induction l generalizing i k with
  | nil => rfl
  | cons x xs ih =>
    cases k with
    | zero =>
      rw [dropAxes, if_pos (by simp)]
      have : ∀ (j : Nat) (ys : List Nat), i < j → dropAxes [i + 0] j ys = ys := by
        intro j ys
        induction ys generalizing j with
        | nil => intro _; rfl
        | cons y ys ih =>
          intro hj
          rw [dropAxes, if_neg (by simp; omega), ih (j + 1) (by omega)]
      rw [this _ _ (by omega)]; rfl
    | succ k =>
      rw [dropAxes, if_neg (by simp), show i + (k + 1) = (i + 1) + k by omega, ih]
      rfl

theorem sumLeading_ok [AddCommMonoid M] (n : Nat) {t : Tensor M} (ht : t.WF)
    (hr : t.dims.length ≤ 16) (hn : n ≤ t.dims.length) (hz : ∀ d ∈ t.dims, 0 < d) :
    ∃ r, sumLeading (· + ·) 0 n t = .ok r ∧ r.dims = t.dims.drop n ∧
      SumsAlong t r (fun j => j.drop n) := by
  induction n generalizing t with
  | zero => exact ⟨t, rfl, rfl, .refl ht fun j _ => rfl⟩
  | succ n ih =>
    obtain ⟨r, h1, h2, h3⟩ := sum_sumsAlong (k := n) (keep := false) ht hr (by omega)
      (fun _ p _ h => by
        have := hz 0 (List.mem_iff_getElem?.mpr ⟨p, h⟩); omega)
    have hd : r.dims = t.dims.eraseIdx n := by
      rw [h2]
      have := dropAxes_single 0 n t.dims
      rw [Nat.zero_add] at this
      exact this
    have hle : (t.dims.eraseIdx n).length = t.dims.length - 1 :=
      List.length_eraseIdx_of_lt (by omega)
    obtain ⟨s, g1, g2, g3⟩ := ih h3.wf (by rw [hd]; omega) (by rw [hd]; omega)
      (fun d hdm => hz d (List.mem_of_mem_eraseIdx (hd ▸ hdm)))
    have hdrop : ∀ l : List Nat, (l.eraseIdx n).drop n = l.drop (n + 1) := by
      intro l
      rw [List.eraseIdx_eq_take_drop_succ]
      by_cases hl : n ≤ l.length
      · rw [List.drop_append_of_le_length (by simp; omega)]
        simp
      · rw [List.drop_eq_nil_of_le (by simp; omega), List.drop_eq_nil_of_le (by omega)]
    refine ⟨s, ?_, by rw [g2, hd, hdrop], ?_⟩
    · rw [sumLeading, h1, Res.ok_bind, g1]
    · refine (h3.comp g3).congr ?_
      intro j _
      show _ = (reduceIndex [n] false j).drop n
      have := dropAxes_single 0 n j
      rw [Nat.zero_add] at this
      show _ = (dropAxes [n] 0 j).drop n
      rw [this, hdrop]

/-- The coordinates that the second loop of `sum_to_shape` sums over become 0. -/
def zeroUnits : List (Nat × Nat) → List Nat → List Nat
  | (target, cur) :: ps, c :: cs => (if target = 1 ∧ 1 < cur then 0 else c) :: zeroUnits ps cs
  | _, cs => cs

/-- The shape after the second loop. -/
def unitShape : List (Nat × Nat) → List Nat
  | [] => []
  | (target, cur) :: ps => (if target = 1 ∧ 1 < cur then 1 else cur) :: unitShape ps

theorem mapIdx_single {l : List Nat} {k v : Nat} :
    (l.mapIdx fun p x => if p ∈ [k] then v else x) = l.set k v := by
  apply List.ext_getElem?
  intro i
  rw [List.getElem?_mapIdx]
  by_cases e : k = i
  · subst e
    by_cases h : k < l.length
    · rw [List.getElem?_set_self h, List.getElem?_eq_getElem h]; simp
    · rw [List.getElem?_eq_none (by omega), List.getElem?_eq_none (by simp; omega)]; rfl
  · rw [List.getElem?_set_ne e]
    simp [show ¬ i = k from fun h => e h.symm]

theorem sumUnit_ok [AddCommMonoid M] (ps : List (Nat × Nat)) (pre : List Nat) {t : Tensor M}
    (ht : t.WF) (hr : t.dims.length ≤ 16) (hd : t.dims = pre ++ ps.map Prod.snd) :
    ∃ r, sumUnit (· + ·) 0 pre.length ps t = .ok r ∧ r.dims = pre ++ unitShape ps ∧
      SumsAlong t r (fun j => j.take pre.length ++ zeroUnits ps (j.drop pre.length)) := by
  induction ps generalizing pre t with
  | nil =>
    refine ⟨t, rfl, by rw [unitShape]; simpa using hd, .refl ht fun j _ => ?_⟩
    have : zeroUnits [] (j.drop pre.length) = j.drop pre.length := by
      cases j.drop pre.length <;> rfl
    rw [this, List.take_append_drop]
  | cons p ps ih =>
    obtain ⟨target, cur⟩ := p
    simp only [List.map_cons] at hd
    have hk : pre.length < t.dims.length := by rw [hd]; simp
    rw [sumUnit]
    have hj : ∀ j, InRange j t.dims → ∃ c cs, j.drop pre.length = c :: cs ∧
        j.take (pre.length + 1) = j.take pre.length ++ [c] ∧ j.drop (pre.length + 1) = cs ∧
        (j.set pre.length 0).take (pre.length + 1) = j.take pre.length ++ [0] ∧
        (j.set pre.length 0).drop (pre.length + 1) = cs := by
      intro j hj
      have hl : pre.length < j.length := by rw [hj.length]; exact hk
      refine ⟨j[pre.length], j.drop (pre.length + 1), ?_, ?_, rfl, ?_, ?_⟩
      · exact List.drop_eq_getElem_cons hl
      · rw [List.take_succ_eq_append_getElem hl]
      · rw [List.take_succ_eq_append_getElem (by simpa using hl), List.take_set_of_le (Nat.le_refl _)]
        simp
      · rw [List.drop_set]; simp
    by_cases hc : target = 1 ∧ 1 < cur
    · rw [if_pos hc]
      obtain ⟨r, h1, h2, h3⟩ := sum_sumsAlong (k := pre.length) (keep := true) ht hr hk
        (fun e => by cases e)
      have hrd : r.dims = (pre ++ [1]) ++ ps.map Prod.snd := by
        rw [h2]
        show unitAxes [pre.length] t.dims = _
        rw [unitAxes, mapIdx_single, hd]
        simp
      obtain ⟨s, g1, g2, g3⟩ := ih (pre ++ [1]) h3.wf (by
        rw [hrd]; rw [hd] at hr; simpa using hr) hrd
      rw [List.length_append] at g1 g3
      refine ⟨s, by rw [h1, Res.ok_bind]; exact g1, ?_, (h3.comp g3).congr ?_⟩
      · rw [g2]; simp [unitShape, hc]
      · intro j hjr
        obtain ⟨c, cs, e1, e2, e3, e4, e5⟩ := hj j hjr
        have : reduceIndex [pre.length] true j = j.set pre.length 0 := by
          show zeroAxes _ _ = _
          rw [zeroAxes, mapIdx_single]
        simp only [this, List.length_singleton]
        rw [e4, e5, e1]
        simp [zeroUnits, hc]
    · rw [if_neg hc]
      obtain ⟨s, g1, g2, g3⟩ := ih (pre ++ [cur]) ht hr (by rw [hd]; simp)
      rw [List.length_append] at g1 g3
      refine ⟨s, g1, ?_, g3.congr ?_⟩
      · rw [g2]; simp [unitShape, hc]
      · intro j hjr
        obtain ⟨c, cs, e1, e2, e3, _, _⟩ := hj j hjr
        simp only [List.length_singleton]
        rw [e2, e3, e1]
        simp [zeroUnits, hc]

/-- **C33, full property**: for exact arithmetic, summing an upstream gradient `g` to an operand's
shape gives a tensor of that shape, each entry of which is the sum of `g` over the positions reading
the corresponding operand element. -/
def C33_full : Prop :=
  ∀ (g : Tensor Int) (target : List Nat), g.WF → g.dims.length ≤ 16 → BroadcastsTo target g.dims →
    ∃ r, g.sumToShape (· + ·) 0 target = .ok r ∧ r.dims = target ∧
      SumsAlong g r (broadcastIndex target)

/-- **C33 is false as stated**: with zero-size dimensions the reduction drops them (C22).  The
gradient of shape `[2, 0]` handed back to an operand of shape `[0]` has the scalar shape `[]`. -/
theorem C33_full_false : ¬ C33_full ∧ BroadcastsTo [0] [2, 0] ∧
    (⟨[], Layout.fromShape [2, 0]⟩ : Tensor Int).sumToShape (· + ·) 0 [0] =
      .ok ⟨[], Layout.fromShape []⟩ := by
  have hc : (⟨[], Layout.fromShape [2, 0]⟩ : Tensor Int).sumToShape (· + ·) 0 [0] =
      .ok ⟨[], Layout.fromShape []⟩ := by decide +kernel
  have hb : BroadcastsTo [0] [2, 0] := by
    refine ⟨by decide, fun k d hk => ?_⟩
    cases k with
    | zero => simp at hk; subst hk; right; rfl
    | succ k => simp at hk
  refine ⟨?_, hb, hc⟩
  intro h
  obtain ⟨r, h1, h2, _⟩ := h ⟨[], Layout.fromShape [2, 0]⟩ [0] (fresh_wf_list _ _ rfl) (by decide) hb
  rw [hc] at h1
  injection h1 with h1
  subst h1
  revert h2; decide

theorem unitShape_eq {target cur : List Nat} (hl : target.length = cur.length)
    (h : ∀ k (h1 : k < target.length) (h2 : k < cur.length), target[k] = 1 ∨ cur[k] = target[k])
    (hz : ∀ d ∈ cur, 0 < d) : unitShape (target.zip cur) = target := by
  induction target generalizing cur with
  | nil => rfl
  | cons a as ih =>
    cases cur with
    | nil => simp at hl
    | cons c cs =>
      have h0 := h 0 (by simp) (by simp)
      have hc := hz c (by simp)
      simp only [List.getElem_cons_zero] at h0
      rw [List.zip_cons_cons, unitShape, ih (by simpa using hl)
        (fun k h1 h2 => by
          have := h (k + 1) (Nat.succ_lt_succ h1) (Nat.succ_lt_succ h2)
          simpa only [List.getElem_cons_succ] using this)
        (fun d hd => hz d (by simp [hd]))]
      congr 1
      split <;> omega

theorem zeroUnits_eq {target cur j : List Nat} (hl : target.length = cur.length)
    (h : ∀ k (h1 : k < target.length) (h2 : k < cur.length), target[k] = 1 ∨ cur[k] = target[k])
    (hj : InRange j cur) :
    zeroUnits (target.zip cur) j = List.zipWith (fun d i => if d = 1 then 0 else i) target j := by
  induction target generalizing cur j with
  | nil =>
    cases cur with
    | nil => cases j with
      | nil => rfl
      | cons _ _ => exact hj.elim
    | cons _ _ => simp at hl
  | cons a as ih =>
    cases cur with
    | nil => simp at hl
    | cons c cs =>
      cases j with
      | nil => exact hj.elim
      | cons x xs =>
        have h0 := h 0 (by simp) (by simp)
        have hx := hj.1
        simp only [List.getElem_cons_zero] at h0
        rw [List.zip_cons_cons, zeroUnits, ih (by simpa using hl)
          (fun k h1 h2 => by
          have := h (k + 1) (Nat.succ_lt_succ h1) (Nat.succ_lt_succ h2)
          simpa only [List.getElem_cons_succ] using this) hj.2]
        simp only [List.zipWith_cons_cons]
        congr 1
        split <;> split <;> omega

/-- **C33, what holds**: for shapes without zero-size dimensions, any layout of the upstream
gradient and any commutative addition, `sum_to_shape` returns the operand's shape and sums, for each
operand element, exactly the upstream entries at the output positions that read it, each once.
Missing: zero-size dimensions (false), rank above 16 (undefined behaviour, `C21_rank17_ub`). -/
theorem C33_sum_to_shape_partial [AddCommMonoid M] {g : Tensor M} {target : List Nat} (hg : g.WF)
    (hr : g.dims.length ≤ 16) (hb : BroadcastsTo target g.dims) (hz : ∀ d ∈ g.dims, 0 < d) :
    ∃ r, g.sumToShape (· + ·) 0 target = .ok r ∧ r.dims = target ∧
      SumsAlong g r (broadcastIndex target) := by
  obtain ⟨hlen, hbk⟩ := hb
  have hcur : ∀ k (h1 : k < target.length)
      (h2 : k < (g.dims.drop (g.dims.length - target.length)).length),
      target[k] = 1 ∨ (g.dims.drop (g.dims.length - target.length))[k] = target[k] := by
    intro k h1 h2
    rcases hbk k target[k] (List.getElem?_eq_getElem h1) with h | h
    · exact .inl h
    · right
      simp only [List.getElem_drop]
      rw [List.getElem?_eq_getElem (by omega)] at h
      rw [← Option.some.inj h]
      congr 1; omega
  have hdl : target.length = (g.dims.drop (g.dims.length - target.length)).length := by
    simp; omega
  have hdz : ∀ d ∈ g.dims.drop (g.dims.length - target.length), 0 < d :=
    fun d hd => hz d (List.mem_of_mem_drop hd)
  have hidx : ∀ j, InRange j g.dims → broadcastIndex target j =
      zeroUnits (target.zip (g.dims.drop (g.dims.length - target.length)))
        (j.drop (g.dims.length - target.length)) := by
    intro j hj
    rw [zeroUnits_eq hdl hcur]
    · rw [broadcastIndex, hj.length]
    · rw [inRange_iff] at hj ⊢
      refine ⟨by simp [hj.1], ?_⟩
      intro i h1 h2
      simp only [List.getElem_drop]
      exact hj.2 _ _ _
  unfold Tensor.sumToShape
  by_cases he : g.dims = target
  · rw [if_pos he]
    refine ⟨g, rfl, he, .refl hg fun j hj => ?_⟩
    rw [broadcastIndex, hj.length, he, Nat.sub_self, List.drop_zero]
    rw [he] at hj
    apply List.ext_getElem
    · simp [hj.length]
    · intro i h1 h2
      rw [List.getElem_zipWith]
      have := (inRange_iff.mp hj).2 i h2 (by rw [← hj.length]; exact h2)
      split
      · rename_i h; rw [h] at this; omega
      · rfl
  · rw [if_neg he]
    obtain ⟨r, h1, h2, h3⟩ := sumLeading_ok (g.dims.length - target.length) hg hr (by omega) hz
    rw [h1, Res.ok_bind]
    obtain ⟨s, g1, g2, g3⟩ := sumUnit_ok (target.zip r.dims) [] h3.wf
      (by rw [h2]; simp; omega) (by
        rw [List.nil_append, List.map_snd_zip]
        rw [h2]; exact Nat.le_of_eq hdl.symm)
    refine ⟨s, g1, ?_, (h3.comp g3).congr ?_⟩
    · rw [g2, List.nil_append, h2, unitShape_eq hdl hcur hdz]
    · intro j hj
      simp only [List.length_nil, List.take_zero, List.drop_zero, List.nil_append]
      rw [hidx j hj, h2]

/-- C33 on an upstream gradient of shape `[2, 2, 3]` for an operand of shape `[2, 1]`. -/
example :
    let g : Tensor Int := ⟨[1, 2, 3, 4, 5, 6, 7, 8, 9, 10, 11, 12], Layout.fromShape [2, 2, 3]⟩
    canBroadcastTo [2, 1] g.dims = true ∧ (∀ d ∈ g.dims, 0 < d) ∧
    g.sumToShape (· + ·) 0 [2, 1] = .ok ⟨[30, 48], Layout.fromShape [2, 1]⟩ := by
  decide +kernel

/-- All indices of a shape, in row-major order. -/
def Spec.allIndices (dims : List Nat) : List (List Nat) := (List.range (numel dims)).map (unravel dims)

theorem mem_allIndices {dims j : List Nat} : j ∈ allIndices dims ↔ InRange j dims := by
  simp only [allIndices, List.mem_map, List.mem_range]
  constructor
  · rintro ⟨n, hn, rfl⟩; exact unravel_inRange hn
  · intro h; exact ⟨_, rowMajor_lt h, unravel_rowMajor h⟩

theorem nodup_allIndices (dims : List Nat) : (allIndices dims).Nodup := by
  unfold allIndices
  apply (List.nodup_map_iff_inj_on List.nodup_range).mpr
  intro a ha b hb h
  have ha : a < numel dims := by simpa using ha
  have hb : b < numel dims := by simpa using hb
  rw [← rowMajor_unravel ha, ← rowMajor_unravel hb, h]

theorem allIndices_vals {t : Tensor M} (ht : t.WF) :
    ∃ vals : List M, (allIndices t.dims).map t.elem = vals.map some :=
  exists_vals fun _ hj => Option.isSome_iff_exists.mp (ht.2 _ (mem_allIndices.mp hj))

theorem pairing_fibre [NonUnitalNonAssocSemiring M] {t r : Tensor M} {π : List Nat → List Nat}
    (h : SumsAlong t r π) (x : List Nat → M) (is : List (List Nat)) (hnd : is.Nodup)
    (hin : ∀ i ∈ is, InRange i r.dims) :
    ∃ js : List (List Nat), js.Nodup ∧ (∀ j, j ∈ js ↔ InRange j t.dims ∧ π j ∈ is) ∧
      (js.map fun j => x (π j) * (t.elem j).getD 0).sum =
        (is.map fun i => x i * (r.elem i).getD 0).sum := by
  induction is with
  | nil => exact ⟨[], by simp, by simp, rfl⟩
  | cons i is ih =>
    obtain ⟨hni, hnd⟩ := List.nodup_cons.mp hnd
    obtain ⟨js2, a2, b2, d2⟩ := ih hnd (fun y hy => hin y (by simp [hy]))
    obtain ⟨js1, ws1, a1, b1, c1, d1⟩ := h.sums i (hin i (by simp))
    refine ⟨js1 ++ js2, ?_, ?_, ?_⟩
    · rw [List.nodup_append]
      refine ⟨a1, a2, ?_⟩
      intro y hy z hz e
      subst e
      have h1 := ((b1 y).mp hy).2
      have h2 := ((b2 y).mp hz).2
      rw [h1] at h2
      exact hni h2
    · intro j
      rw [List.mem_append, b1, b2, List.mem_cons]
      constructor
      · rintro (⟨p, q⟩ | ⟨p, q⟩)
        · exact ⟨p, .inl q⟩
        · exact ⟨p, .inr q⟩
      · rintro ⟨p, q | q⟩
        · exact .inl ⟨p, q⟩
        · exact .inr ⟨p, q⟩
    · rw [List.map_append, List.sum_append, List.map_cons, List.sum_cons, d2]
      congr 1
      rw [d1, Option.getD_some]
      have e1 : js1.map (fun j => x (π j) * (t.elem j).getD 0) =
          js1.map (fun j => x i * (t.elem j).getD 0) := by
        apply List.map_congr_left
        intro j hj
        rw [((b1 j).mp hj).2]
      have e2 : js1.map (fun j => (t.elem j).getD 0) = ws1 := by
        have : js1.map (fun j => (t.elem j).getD 0) =
            (js1.map t.elem).map fun o : Option M => o.getD 0 := by rw [List.map_map]; rfl
        rw [this, c1, List.map_map]
        simp
      rw [e1, List.sum_map_mul_left, e2]

/-- **C33, adjointness**: for every operand value `x` on the target shape and every upstream gradient
`g`, pairing `g` with the broadcast of `x` gives the same number as pairing the summed gradient with
`x` itself. -/
theorem C33_adjoint_partial [NonUnitalNonAssocSemiring M] {g : Tensor M} {target : List Nat}
    (hg : g.WF) (hr : g.dims.length ≤ 16) (hb : BroadcastsTo target g.dims)
    (hz : ∀ d ∈ g.dims, 0 < d) (x : List Nat → M) :
    ∃ r, g.sumToShape (· + ·) 0 target = .ok r ∧ r.dims = target ∧
      ((allIndices g.dims).map fun j => x (broadcastIndex target j) * (g.elem j).getD 0).sum =
        ((allIndices target).map fun i => x i * (r.elem i).getD 0).sum := by
  obtain ⟨r, h1, h2, h3⟩ := C33_sum_to_shape_partial hg hr hb hz
  refine ⟨r, h1, h2, ?_⟩
  obtain ⟨js, a, b, c⟩ := pairing_fibre h3 x (allIndices target) (nodup_allIndices _)
    (fun i hi => by rw [h2]; exact mem_allIndices.mp hi)
  rw [← c]
  apply List.Perm.sum_eq
  apply List.Perm.map
  rw [List.perm_ext_iff_of_nodup (nodup_allIndices _) a]
  intro j
  rw [mem_allIndices, b, mem_allIndices]
  exact ⟨fun h => ⟨h, h2 ▸ h3.maps j h⟩, fun h => h.1⟩

/-- Both sides of the adjointness identity on the example above, for `x = [[3], [5]]`. -/
example :
    let g : Tensor Int := ⟨[1, 2, 3, 4, 5, 6, 7, 8, 9, 10, 11, 12], Layout.fromShape [2, 2, 3]⟩
    let x : List Nat → Int := fun i => if i = [0, 0] then 3 else 5
    ((allIndices g.dims).map fun j => x (broadcastIndex [2, 1] j) * (g.elem j).getD 0).sum = 330 ∧
    3 * 30 + 5 * 48 = 330 := by decide +kernel

end Hodu
