import Verif.Lemmas.Views

/-! Helper lemmas about `slice`. -/

namespace Hodu
open Spec

theorem i32_ok {x : Int} (h : I32 x) : i32 x = .ok x := by
  unfold i32; exact if_pos h

theorem i32_inv {x y : Int} (h : i32 x = .ok y) : y = x := by
  unfold i32 at h; split at h <;> simp_all

theorem clampI32_ok {x lo hi : Int} (h : lo ≤ hi) : clampI32 x lo hi = .ok (max lo (min x hi)) := by
  unfold clampI32
  rw [if_neg (by omega)]
  split
  · congr 1; omega
  · split <;> congr 1 <;> omega

theorem clampI32_inv {x lo hi y : Int} (h : clampI32 x lo hi = .ok y) : lo ≤ y ∧ y ≤ hi := by
  unfold clampI32 at h
  split at h
  · simp at h
  · split at h
    · cases h; omega
    · split at h <;> cases h <;> omega

/-- Resolved end of a positive-step slice. -/
def sliceStop (d : Nat) : Option Int → Nat
  | none => d
  | some e => sliceBound d e

theorem ceil_div_spec {a s : Int} (ha : 0 < a) (hs : 0 < s) :
    0 < (a + s - 1).tdiv s ∧ ∀ j : Int, (j < (a + s - 1).tdiv s ↔ j * s < a) := by
  rw [Int.tdiv_eq_ediv_of_nonneg (by omega)]
  have h : ∀ j : Int, (j < (a + s - 1) / s ↔ j * s < a) := by
    intro j
    rw [← Int.add_one_le_iff, Int.le_ediv_iff_mul_le hs, Int.add_mul]
    omega
  exact ⟨(h 0).mpr (by omega), h⟩

theorem castI32_small {d : Nat} (h : d < 2 ^ 31) : castI32 d = d := by
  unfold castI32; omega

theorem castI32_le (d : Nat) : castI32 d ≤ d := by
  unfold castI32; omega

theorem sliceBound_eq {d : Nat} {x : Int} :
    max 0 (min (if x < 0 then (d : Int) + x else x) d) = (sliceBound d x : Int) := by
  unfold sliceBound; split <;> omega

theorem sliceBound_le (d : Nat) (x : Int) : sliceBound d x ≤ d := by
  unfold sliceBound; split <;> omega

theorem sliceStop_le (d : Nat) (x : Option Int) : sliceStop d x ≤ d := by
  cases x
  · exact Nat.le_refl _
  · exact sliceBound_le d _

theorem resolve_ok {d : Nat} {x : Int} (hd : d < 2 ^ 31) (hx : I32 x) :
    (if x < 0 then i32 ((d : Int) + x) else Res.ok x) =
      .ok (if x < 0 then (d : Int) + x else x) := by
  obtain ⟨h1, h2⟩ := hx
  split
  · exact i32_ok ⟨by omega, by omega⟩
  · rfl

theorem sliceBounds_pos {d : Nat} {start step : Int} {stop : Option Int} (hd : d < 2 ^ 31)
    (hstart : I32 start) (hstop : ∀ e, stop = some e → I32 e) (hstep : 0 < step)
    (hov : ((sliceStop d stop : Int) - sliceBound d start) + step < 2 ^ 31) :
    (sliceBound d start < sliceStop d stop →
      ∃ n : Nat, Layout.sliceBounds d start stop step = .ok ((sliceBound d start : Int), (n : Int)) ∧
        ∀ j : Nat, j < n ↔ (sliceBound d start : Int) + j * step < sliceStop d stop) ∧
    (¬ sliceBound d start < sliceStop d stop → Layout.sliceBounds d start stop step = .err) := by
  obtain ⟨x, hend, hce⟩ : ∃ x, Layout.sliceEndIdx d stop step = .ok x ∧
      max 0 (min x (d : Int)) = (sliceStop d stop : Int) := by
    cases stop with
    | none => exact ⟨d, by simp [Layout.sliceEndIdx, hstep], by simp [sliceStop]⟩
    | some e => exact ⟨_, resolve_ok hd (hstop e rfl), sliceBound_eq⟩
  have hs1 := sliceBound_le d start
  have hs2 := sliceStop_le d stop
  have hpre : Layout.sliceBounds d start stop step =
      Res.bind (if (sliceStop d stop : Int) > sliceBound d start then
          (i32 ((sliceStop d stop : Int) - sliceBound d start)).bind fun a =>
          (i32 (a + step)).bind fun b => (i32 (b - 1)).bind fun c => Res.ok (c.tdiv step)
        else .ok 0)
        (fun n => if n ≤ 0 then .err else .ok ((sliceBound d start : Int), n)) := by
    unfold Layout.sliceBounds
    have hstart' : Layout.sliceStartIdx d start = .ok (if start < 0 then (d : Int) + start else start) :=
      resolve_ok hd hstart
    have hnn : (0 : Int) ≤ d := Int.natCast_nonneg d
    rw [hstart', Res.ok_bind, hend, Res.ok_bind, clampI32_ok hnn, sliceBound_eq, Res.ok_bind,
      if_pos hstep, clampI32_ok hnn, hce, Res.ok_bind, Layout.sliceCount, if_pos hstep]
  rw [hpre]
  constructor
  · intro hlt
    have ha : (0 : Int) < (sliceStop d stop : Int) - sliceBound d start := by omega
    obtain ⟨hpos, hj⟩ := ceil_div_spec ha hstep
    generalize hq : ((sliceStop d stop : Int) - sliceBound d start + step - 1).tdiv step = q at *
    refine ⟨q.toNat, ?_, ?_⟩
    · rw [if_pos (by omega), i32_ok ⟨by omega, by omega⟩, Res.ok_bind,
        i32_ok ⟨by omega, by omega⟩, Res.ok_bind, i32_ok ⟨by omega, by omega⟩, Res.ok_bind, hq]
      simp only [Res.ok_bind]
      rw [if_neg (by omega)]
      congr 2
      omega
    · intro j
      have := hj j
      omega
  · intro hge
    rw [if_neg (by omega)]
    simp

/-- What an accepted positive-step slice guarantees, without assumptions on sizes. -/
theorem sliceBounds_inv {D start step cs n : Int} {stop : Option Int} (hstep : 0 < step)
    (h : Layout.sliceBounds D start stop step = .ok (cs, n)) :
    0 ≤ cs ∧ 0 < n ∧ ∀ j : Int, 0 ≤ j → j < n → cs + j * step < D := by
  unfold Layout.sliceBounds at h
  obtain ⟨a, _, h⟩ := Res.bind_eq_ok.mp h
  obtain ⟨b, _, h⟩ := Res.bind_eq_ok.mp h
  obtain ⟨cs', hcs, h⟩ := Res.bind_eq_ok.mp h
  obtain ⟨ce, hce, h⟩ := Res.bind_eq_ok.mp h
  obtain ⟨m, hm, h⟩ := Res.bind_eq_ok.mp h
  rw [if_pos hstep] at hce
  have h1 := clampI32_inv hcs
  have h2 := clampI32_inv hce
  split at h
  · simp at h
  · rename_i hm0
    cases h
    refine ⟨h1.1, by omega, ?_⟩
    rw [Layout.sliceCount, if_pos hstep] at hm
    split at hm
    · rename_i hlt
      obtain ⟨x, hx, hm⟩ := Res.bind_eq_ok.mp hm
      obtain ⟨y, hy, hm⟩ := Res.bind_eq_ok.mp hm
      obtain ⟨z, hz, hm⟩ := Res.bind_eq_ok.mp hm
      have := i32_inv hx; have := i32_inv hy; have := i32_inv hz
      subst_vars
      simp only [Res.ok.injEq] at hm
      obtain ⟨_, hj⟩ := ceil_div_spec (a := ce - cs) (s := step) (by omega) hstep
      intro j _ hjn
      have := (hj j).mp (by omega)
      omega
    · cases hm; omega

/-- The sliced view: where each index points. -/
theorem sliced_view {t : Tensor α} {s : List α} {o k cs step n d : Nat} (ht : t.WF)
    (hs : ∀ idx, InRange idx t.dims → s[o + rowMajor t.dims idx]? = t.elem idx)
    (hk : k < t.dims.length) (hd : t.dims[k] = d) (hn : ∀ j, j < n → cs + j * step < d) :
    let st := (Layout.computeStrides t.dims).getD k 0
    let r : Tensor α := ⟨s, ⟨t.dims.set k n, (Layout.computeStrides t.dims).set k (st * step),
      o + cs * st⟩⟩
    r.WF ∧ ∀ idx, InRange idx r.dims →
      InRange (idx.set k (cs + idx.getD k 0 * step)) t.dims ∧
      r.elem idx = t.elem (idx.set k (cs + idx.getD k 0 * step)) := by
  intro st r
  have hsl := computeStrides_length t.dims
  have key : ∀ idx, InRange idx r.dims →
      InRange (idx.set k (cs + idx.getD k 0 * step)) t.dims ∧
      r.elem idx = t.elem (idx.set k (cs + idx.getD k 0 * step)) := by
    intro idx hi
    have hil : idx.length = t.dims.length := by simpa [r, Tensor.dims] using hi.length
    have hik : k < idx.length := by omega
    have hir := inRange_iff.mp hi
    have hid : idx[k] < n := by
      have := hir.2 k hik (by simpa [r, Tensor.dims] using hk)
      simpa [r, Tensor.dims] using this
    have hgd : idx.getD k 0 = idx[k] := by simp [List.getD_eq_getElem?_getD, hik]
    have hrange : InRange (idx.set k (cs + idx.getD k 0 * step)) t.dims := by
      rw [inRange_iff]
      refine ⟨by simp [hil], ?_⟩
      intro m hm1 hm2
      rw [List.getElem_set]
      split
      · rename_i he
        subst he
        rw [hgd, hd]
        exact hn _ hid
      · rename_i hne
        have := hir.2 m (by simpa using hm1) (by simpa [r, Tensor.dims] using hm2)
        simpa [r, Tensor.dims, List.getElem_set, hne] using this
    refine ⟨hrange, ?_⟩
    rw [← hs _ hrange, ← dot_computeStrides]
    have e1 := dot_set (v := cs + idx[k] * step) hik (by rw [hsl, hil] : (Layout.computeStrides t.dims).length = idx.length)
    have e2 := dot_set_strides (v := st * step) hik (by rw [hsl, hil] : (Layout.computeStrides t.dims).length = idx.length)
    have hst : (Layout.computeStrides t.dims)[k]'(by omega) = st := by
      simp [st, List.getD_eq_getElem?_getD, show k < (Layout.computeStrides t.dims).length by omega]
    rw [hst] at e1 e2
    simp only [r, Tensor.elem, hgd]
    congr 1
    have e3 : (cs + idx[k] * step) * st = cs * st + idx[k] * (st * step) := by ring
    omega
  exact ⟨WF_of_map ht (by simp [r, Tensor.dims, hsl]) _ key, key⟩

end Hodu
