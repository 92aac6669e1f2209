import Verif.Model.Display
import Verif.Props.ReadBack
import Mathlib.Data.List.Induction
import Mathlib.Tactic.IntervalCases

/-!
# C134: printed tensors
-/

namespace Hodu.Display

open _root_.Hodu _root_.Hodu.Spec

variable {α β : Type}

/-! ## Specification -/

/-- The entries of a dimension that are printed: all if there are at most eight, else the first four and the last four. -/
def Spec.Seen (n i : Nat) : Bool := decide (n ≤ 8 ∨ i < 4 ∨ n ≤ i + 4)

/-- All multi-indices of a shape, in row-major order. -/
def Spec.places : List Nat → List (List Nat)
  | [] => [[]]
  | d :: ds => (List.range d).flatMap fun i => (places ds).map (i :: ·)

/-- Every coordinate is printed. -/
def Spec.SeenAll : List Nat → List Nat → Bool
  | d :: ds, i :: is => Seen d i && SeenAll ds is
  | _, _ => true

/-- The values among the pieces of output, in order. -/
def Spec.cells : List (Tok α) → List α
  | [] => []
  | .cell v _ :: ts => v :: cells ts
  | .lit _ :: ts => cells ts

/-- Follows the brackets from depth `n`; every value has to be at depth `k`. -/
def Spec.walk (k : Nat) : Nat → List (Tok α) → Option Nat
  | n, [] => some n
  | n, .cell _ _ :: ts => if n = k then walk k n ts else none
  | n, .lit s :: ts =>
    if s = "[" then walk k (n + 1) ts
    else if s = "]" then (if n = 0 then none else walk k (n - 1) ts)
    else walk k n ts

open Spec

/-! ## Lemmas -/

theorem cells_append (a b : List (Tok α)) : cells (a ++ b) = cells a ++ cells b := by
  induction a with
  | nil => rfl
  | cons t ts ih => cases t <;> simp [cells, ih]

theorem walk_append {k n m : Nat} {a b : List (Tok α)} (h : walk k n a = some m) : walk k n (a ++ b) = walk k m b := by
  induction a generalizing n with
  | nil => cases h; rfl
  | cons t ts ih =>
    cases t with
    | cell v w =>
      simp only [walk, List.cons_append] at h ⊢
      split at h
      · rename_i e; rw [if_pos e]; exact ih h
      · cases h
    | lit s =>
      simp only [walk, List.cons_append] at h ⊢
      split at h
      · rename_i e; rw [if_pos e]; exact ih h
      · rename_i e
        rw [if_neg e]
        split at h
        · rename_i e2
          rw [if_pos e2]
          split at h
          · cases h
          · rename_i e3; rw [if_neg e3]; exact ih h
        · rename_i e2; rw [if_neg e2]; exact ih h

theorem seen_split (n : Nat) : (List.range n).filter (Seen n) = headIx n ++ tailIx n := by
  unfold headIx tailIx window maxPerDim
  by_cases h : n ≤ 8
  · simp only [show (4 * 2 = 8) from rfl, h, if_true]
    simp [Seen, h]
  · simp only [show (4 * 2 = 8) from rfl, h, if_false]
    rw [if_pos (by omega), show min 4 n = 4 by omega]
    obtain ⟨m, rfl⟩ : ∃ m, n = 4 + (m + 4) := ⟨n - 8, by omega⟩
    rw [List.range_add, List.filter_append, List.range_add (n := m) (m := 4), List.map_append, List.filter_append]
    have h1 : (List.range 4).filter (Seen (4 + (m + 4))) = List.range 4 := by
      rw [List.filter_eq_self]
      intro i hi
      have := List.mem_range.mp hi
      simp [Seen]; omega
    have h2 : ((List.range m).map (4 + ·)).filter (Seen (4 + (m + 4))) = [] := by
      rw [List.filter_eq_nil_iff]
      intro i hi
      obtain ⟨j, hj, rfl⟩ := List.mem_map.mp hi
      have := List.mem_range.mp hj
      simp [Seen]; omega
    have h3 : (((List.range 4).map (m + ·)).map (4 + ·)).filter (Seen (4 + (m + 4))) = (List.range 4).map (4 + (m + 4) - 4 + ·) := by
      rw [List.map_map, List.filter_eq_self.mpr]
      · apply List.map_congr_left
        intro i _
        simp only [Function.comp]; omega
      · intro i hi
        obtain ⟨j, hj, rfl⟩ := List.mem_map.mp hi
        simp [Seen]; omega
    rw [h1, h2, h3, List.nil_append]

theorem headIx_lt {n i : Nat} (h : i ∈ headIx n) : i < n := by
  have := List.mem_range.mp h
  omega

theorem tailIx_lt {n i : Nat} (h : i ∈ tailIx n) : i < n := by
  unfold tailIx at h
  split at h
  · obtain ⟨j, hj, rfl⟩ := List.mem_map.mp h
    have := List.mem_range.mp hj
    omega
  · cases h

theorem headIx_zero {n : Nat} (h : 0 < n) : ∃ l, headIx n = 0 :: l := by
  unfold headIx
  have : 0 < min (window n).1 n := by
    unfold window maxPerDim
    split <;> simp <;> omega
  obtain ⟨m, hm⟩ : ∃ m, min (window n).1 n = m + 1 := ⟨min (window n).1 n - 1, by omega⟩
  rw [hm, List.range_succ_eq_map]
  exact ⟨_, rfl⟩

theorem shown_cons (d : Nat) (ds : List Nat) :
    (places (d :: ds)).filter (SeenAll (d :: ds)) =
      ((List.range d).filter (Seen d)).flatMap fun i => ((places ds).filter (SeenAll ds)).map (i :: ·) := by
  rw [places, List.filter_flatMap]
  induction List.range d with
  | nil => rfl
  | cons i l ih =>
    rw [List.flatMap_cons, ih, List.filter_cons]
    have : ((places ds).map (i :: ·)).filter (SeenAll (d :: ds)) =
        if Seen d i then ((places ds).filter (SeenAll ds)).map (i :: ·) else [] := by
      rw [List.filter_map]
      split
      · rename_i h
        congr 1
        apply List.filter_congr
        intro x _
        simp [SeenAll, h]
      · rename_i h
        rw [List.map_eq_nil_iff, List.filter_eq_nil_iff]
        intro x _
        simp [SeenAll, h]
    rw [this]
    split
    · rw [List.flatMap_cons]
    · rw [List.nil_append]

theorem places_inRange {dims idx : List Nat} (h : idx ∈ places dims) : InRange idx dims := by
  induction dims generalizing idx with
  | nil =>
    rw [places, List.mem_singleton] at h
    subst h; trivial
  | cons d ds ih =>
    obtain ⟨i, hi, h⟩ := List.mem_flatMap.mp h
    obtain ⟨js, hj, rfl⟩ := List.mem_map.mp h
    exact ⟨List.mem_range.mp hi, ih hj⟩

theorem mem_places {dims idx : List Nat} (h : InRange idx dims) : idx ∈ places dims := by
  induction dims generalizing idx with
  | nil => cases idx with
    | nil => exact List.mem_singleton.mpr rfl
    | cons i is => exact h.elim
  | cons d ds ih => cases idx with
    | nil => exact h.elim
    | cons i is =>
      exact List.mem_flatMap.mpr ⟨i, List.mem_range.mpr h.1, List.mem_map.mpr ⟨is, ih h.2, rfl⟩⟩

theorem collect_ok {f : Nat → Res (List β)} {l : List Nat} (h : ∀ i ∈ l, ∃ x, f i = .ok x) :
    ∃ xs, collect f l = .ok xs ∧ ∃ g : Nat → List β, (∀ i ∈ l, f i = .ok (g i)) ∧ xs = l.flatMap g := by
  classical
  refine ⟨l.flatMap fun i => match f i with | .ok x => x | _ => [], ?_, fun i => match f i with | .ok x => x | _ => [], ?_, rfl⟩
  · induction l with
    | nil => rfl
    | cons i l ih =>
      obtain ⟨x, hx⟩ := h i List.mem_cons_self
      rw [collect, hx, Res.ok_bind, ih fun j hj => h j (List.mem_cons_of_mem _ hj), Res.ok_bind, List.flatMap_cons, hx]
  · intro i hi
    obtain ⟨x, hx⟩ := h i hi
    simp only [hx]

theorem cells_flatMap {l : List Nat} {g : Nat → List (Tok α)} : cells (l.flatMap g) = l.flatMap fun i => cells (g i) := by
  induction l with
  | nil => rfl
  | cons i l ih => rw [List.flatMap_cons, cells_append, ih, List.flatMap_cons]

theorem walk_flatMap {k n : Nat} {l : List Nat} {g : Nat → List (Tok α)} (h : ∀ i ∈ l, walk k n (g i) = some n) :
    walk k n (l.flatMap g) = some n := by
  induction l with
  | nil => rfl
  | cons i l ih =>
    rw [List.flatMap_cons, walk_append (h i List.mem_cons_self)]
    exact ih fun j hj => h j (List.mem_cons_of_mem _ hj)

theorem sep_eq (depth : Nat) : ∃ s, (sepTok depth : Tok α) = .lit s ∧ s ≠ "[" ∧ s ≠ "]" := by
  unfold sepTok
  split
  · refine ⟨_, rfl, fun h => ?_, fun h => ?_⟩ <;>
    · have := congrArg String.toList h
      simp at this
  · exact ⟨_, rfl, by decide, by decide⟩

theorem walk_lit {k n : Nat} {s : String} (h1 : s ≠ "[") (h2 : s ≠ "]") (ts : List (Tok α)) : walk k n (.lit s :: ts) = walk k n ts := by
  simp only [walk]
  rw [if_neg h1, if_neg h2]

theorem cellAt_eq {data : List α} {i : Nat} (h : i < data.length) (w : Nat) : cellAt data w i = [.cell data[i] w] := by
  simp [cellAt, h]

/-- What the arm for one dimension prints. -/
theorem row_spec (fmt : α → List Char) (data : List α) (width : Option Nat) (n : Nat) :
    (cells (row fmt data width)).map some = ((List.range data.length).filter (Seen data.length)).map (data[·]?) ∧
    walk (n + 1) n (row fmt data width) = some n := by
  have hd : ∀ b : Bool, cells (if b then [Tok.lit ", ... "] else [] : List (Tok α)) = [] ∧
      walk (n + 1) (n + 1) (if b then [Tok.lit ", ... "] else [] : List (Tok α)) = some (n + 1) := by
    intro b; cases b <;> refine ⟨rfl, ?_⟩
    · rfl
    · simp only [if_true]; rw [walk_lit (by decide) (by decide)]; rfl
  constructor
  · rw [seen_split, List.map_append]
    simp only [row, cells, cells_append, cells_flatMap, (hd _).1, List.append_nil, List.map_append]
    congr 1
    · have : ∀ l : List Nat, (∀ i ∈ l, i < data.length) →
          (l.flatMap fun i => cells (if 0 < i then [Tok.lit ", "] else [] : List (Tok α)) ++
            cells (cellAt data (width.getD (maxWidth fmt data)) i)).map some = l.map (data[·]?) := by
        intro l hl
        induction l with
        | nil => rfl
        | cons i l ih =>
          have hi := hl i List.mem_cons_self
          rw [List.flatMap_cons, List.map_append, ih fun j hj => hl j (List.mem_cons_of_mem _ hj), cellAt_eq hi]
          have e : cells (if 0 < i then [Tok.lit ", "] else [] : List (Tok α)) = [] := by split <;> rfl
          rw [e]
          simp [cells, hi]
      exact this _ fun i hi => headIx_lt hi
    · have : ∀ l : List Nat, (∀ i ∈ l, i < data.length) →
          (l.flatMap fun i => cells (cellAt data (width.getD (maxWidth fmt data)) i)).map some = l.map (data[·]?) := by
        intro l hl
        induction l with
        | nil => rfl
        | cons i l ih =>
          have hi := hl i List.mem_cons_self
          rw [List.flatMap_cons, List.map_append, ih fun j hj => hl j (List.mem_cons_of_mem _ hj), cellAt_eq hi]
          simp [cells, hi]
      exact this _ fun i hi => tailIx_lt hi
  · unfold row
    simp only [walk, if_true]
    have hcell : ∀ w i, i < data.length → walk (n + 1) (n + 1) (cellAt data w i) = some (n + 1) := by
      intro w i h; rw [cellAt_eq h]; simp [walk]
    rw [List.append_assoc, List.append_assoc, walk_append (walk_flatMap fun i hi => ?_), walk_append (hd _).2,
      walk_append (walk_flatMap fun i hi => ?_)]
    · simp [walk]
    · rw [walk_lit (by decide) (by decide)]
      exact hcell _ i (tailIx_lt hi)
    · split
      · rw [List.cons_append, List.nil_append, walk_lit (by decide) (by decide)]
        exact hcell _ i (headIx_lt hi)
      · exact hcell _ i (headIx_lt hi)

/-- What is printed for data of the right length. -/
theorem display_spec (fmt : α → List Char) : ∀ (shape : List Nat) (data : List α) (depth : Nat) (width : Option Nat) (n : Nat),
    data.length = numel shape → (∀ d ∈ shape.dropLast, 0 < d) →
    ∃ ts, display fmt shape data (numel shape) depth width = .ok ts ∧
      (cells ts).map some = ((places shape).filter (SeenAll shape)).map (fun idx => data[rowMajor shape idx]?) ∧
      walk (n + shape.length) n ts = some n
  | [], data, depth, width, n, hl, _ => by
    match data, hl with
    | [v], _ => exact ⟨_, rfl, rfl, by simp [walk]⟩
  | [d], data, depth, width, n, hl, _ => by
    have hl : data.length = d := by simpa [numel] using hl
    refine ⟨_, rfl, ?_, (row_spec fmt data width n).2⟩
    rw [(row_spec fmt data width n).1, hl, shown_cons]
    have : ∀ l : List Nat, l.map (data[·]?) =
        (l.flatMap fun i => ((places []).filter (SeenAll [])).map (i :: ·)).map (fun idx => data[rowMajor [d] idx]?) := by
      intro l
      induction l with
      | nil => rfl
      | cons i l ih =>
        rw [List.flatMap_cons, List.map_append, ← ih]
        simp [places, SeenAll, rowMajor, numel]
    exact this _
  | d :: e :: rest, data, depth, width, n, hl, hp => by
    have hd : 0 < d := hp d (by simp)
    have hp' : ∀ x ∈ (e :: rest).dropLast, 0 < x := fun x hx => hp x (by rw [List.dropLast_cons_of_ne_nil (by simp)]; exact List.mem_cons_of_mem _ hx)
    have hsub : numel (d :: e :: rest) / d = numel (e :: rest) := by
      rw [show numel (d :: e :: rest) = d * numel (e :: rest) from rfl, Nat.mul_div_cancel_left _ hd]
    generalize hw : (if rest.isEmpty then some (cornerWidth fmt data d e (numel (e :: rest))) else none) = wd
    have hpart : ∀ i, i < d → ∃ p, ((sliceR data (i * numel (e :: rest)) (numel (e :: rest))).bind fun s =>
          display fmt (e :: rest) s (numel (e :: rest)) (depth + 1) wd) = .ok p ∧
        (cells p).map some = ((places (e :: rest)).filter (SeenAll (e :: rest))).map
          (fun idx => data[rowMajor (d :: e :: rest) (i :: idx)]?) ∧
        walk (n + (d :: e :: rest).length) (n + 1) p = some (n + 1) := by
      intro i hi
      have hle : i * numel (e :: rest) + numel (e :: rest) ≤ data.length := by
        rw [hl, ← Nat.succ_mul]
        exact Nat.mul_le_mul_right _ hi
      obtain ⟨ts, h1, h2, h3⟩ := display_spec fmt (e :: rest) ((data.drop (i * numel (e :: rest))).take (numel (e :: rest))) (depth + 1) wd
        (n + 1) (by simp; omega) hp'
      refine ⟨ts, by rw [sliceR_ok hle, Res.ok_bind, h1], ?_, by rw [← h3]; congr 1; simp; omega⟩
      rw [h2]
      apply List.map_congr_left
      intro idx hidx
      have hin := places_inRange (List.mem_filter.mp hidx).1
      have := rowMajor_lt hin
      rw [List.getElem?_take_of_lt this, List.getElem?_drop]
      rfl
    rw [display, if_neg (by omega)]
    simp only [hsub, hw]
    obtain ⟨front, f1, gf, f2, f3⟩ := collect_ok (l := headIx d) (f := fun i =>
      ((sliceR data (i * numel (e :: rest)) (numel (e :: rest))).bind fun s =>
          display fmt (e :: rest) s (numel (e :: rest)) (depth + 1) wd).bind fun p =>
        .ok ((if 0 < i then [sepTok depth] else []) ++ p)) (by
      intro i hi
      obtain ⟨p, hp, _⟩ := hpart i (headIx_lt hi)
      exact ⟨_, by rw [hp, Res.ok_bind]⟩)
    obtain ⟨back, b1, gb, b2, b3⟩ := collect_ok (l := tailIx d) (f := fun i =>
      ((sliceR data (i * numel (e :: rest)) (numel (e :: rest))).bind fun s =>
          display fmt (e :: rest) s (numel (e :: rest)) (depth + 1) wd).bind fun p =>
        .ok (sepTok depth :: p)) (by
      intro i hi
      obtain ⟨p, hp, _⟩ := hpart i (tailIx_lt hi)
      exact ⟨_, by rw [hp, Res.ok_bind]⟩)
    rw [f1, Res.ok_bind, b1, Res.ok_bind]
    refine ⟨_, rfl, ?_, ?_⟩
    · obtain ⟨s, hs, _⟩ := sep_eq (α := α) depth
      have hdots : ∀ b : Bool, cells (if b then dotsToks depth else [] : List (Tok α)) = [] := by
        intro b
        cases b
        · rfl
        · simp only [if_true, dotsToks]; split
          · rw [hs]; rfl
          · rfl
      rw [shown_cons, seen_split]
      simp only [cells, cells_append, hdots, List.append_nil, List.map_append, List.flatMap_append]
      have key : ∀ (l : List Nat) (g : Nat → List (Tok α)), (∀ i ∈ l, (cells (g i)).map some =
          ((places (e :: rest)).filter (SeenAll (e :: rest))).map (fun idx => data[rowMajor (d :: e :: rest) (i :: idx)]?)) →
          (cells (l.flatMap g)).map some = (l.flatMap fun i => ((places (e :: rest)).filter (SeenAll (e :: rest))).map (i :: ·)).map
            (fun idx => data[rowMajor (d :: e :: rest) idx]?) := by
        intro l g hg
        induction l with
        | nil => rfl
        | cons i l ih =>
          rw [List.flatMap_cons, cells_append, List.map_append, hg i List.mem_cons_self, ih fun j hj => hg j (List.mem_cons_of_mem _ hj),
            List.flatMap_cons, List.map_append, List.map_map]
          rfl
      congr 1
      · rw [f3]
        apply key
        intro i hi
        obtain ⟨p, hp, hc, _⟩ := hpart i (headIx_lt hi)
        have := f2 i hi
        rw [hp, Res.ok_bind] at this
        rw [← Res.ok.inj this, ← hc, cells_append]
        split
        · rw [hs]; rfl
        · rfl
      · rw [b3]
        apply key
        intro i hi
        obtain ⟨p, hp, hc, _⟩ := hpart i (tailIx_lt hi)
        have := b2 i hi
        rw [hp, Res.ok_bind] at this
        rw [← Res.ok.inj this, ← hc, hs]
        rfl
    · obtain ⟨s, hs, s1, s2⟩ := sep_eq (α := α) depth
      simp only [walk, if_true]
      have hdots : ∀ b : Bool, walk (n + (d :: e :: rest).length) (n + 1) (if b then dotsToks depth else [] : List (Tok α)) =
          some (n + 1) := by
        intro b
        cases b
        · rfl
        · simp only [if_true, dotsToks]; split
          · rw [hs, walk_lit s1 s2, walk_lit (by decide) (by decide)]; rfl
          · rw [walk_lit (by decide) (by decide)]; rfl
      rw [List.append_assoc, List.append_assoc, f3, b3, walk_append (walk_flatMap fun i hi => ?_), walk_append (hdots _),
        walk_append (walk_flatMap fun i hi => ?_)]
      · simp [walk]
      · obtain ⟨p, hp, _, hc⟩ := hpart i (tailIx_lt hi)
        have := b2 i hi
        rw [hp, Res.ok_bind] at this
        rw [← Res.ok.inj this, hs, walk_lit s1 s2, hc]
      · obtain ⟨p, hp, _, hc⟩ := hpart i (headIx_lt hi)
        have := f2 i hi
        rw [hp, Res.ok_bind] at this
        rw [← Res.ok.inj this]
        split
        · rw [hs, List.cons_append, List.nil_append, walk_lit s1 s2, hc]
        · exact hc

/-! ## C134 -/

/-- **C134, values and brackets**: printing a tensor without empty dimensions (the last may be empty) succeeds; the values printed are the
elements at the places all of whose coordinates are printed, in row-major order; the brackets match, and every value is in as many
of them as the tensor has dimensions.  Missing: contiguous slices (`C134_slice_false`), views with an offset, and empty leading dimensions
(`C134_empty`). -/
theorem C134_display_partial (fmt : α → List Char) {t : Tensor α} (ht : t.WF) (hp : ∀ d ∈ t.dims.dropLast, 0 < d)
    (h : (t.layout.isContiguous = true ∧ t.storage.length = numel t.dims) ∨ (t.layout.isContiguous = false ∧ t.layout.offset = 0)) :
    ∃ ts, displayTensor fmt t = .ok ts ∧
      (cells ts).map some = ((places t.dims).filter (SeenAll t.dims)).map t.elem ∧ walk t.dims.length 0 ts = some 0 := by
  obtain ⟨xs, hx⟩ := ht.hasValues
  obtain ⟨ts, h1, h2, h3⟩ := display_spec fmt t.dims xs 0 none 0 hx.1 hp
  refine ⟨ts, ?_, ?_, by rwa [Nat.zero_add] at h3⟩
  · rw [displayTensor, C14_flatten_partial ht hx h, Layout.size, shapeSize_eq]
    exact h1
  · rw [h2]
    apply List.map_congr_left
    intro idx hi
    exact hx.2 idx (places_inRange (List.mem_filter.mp hi).1)

/-- **C134, small tensors**: with at most eight entries per dimension every element is printed, once and in row-major order. -/
theorem C134_small {dims : List Nat} (h : ∀ d ∈ dims, d ≤ 8) : (places dims).filter (SeenAll dims) = places dims := by
  rw [List.filter_eq_self]
  intro idx hi
  have hr := places_inRange hi
  clear hi
  induction dims generalizing idx with
  | nil => cases idx <;> rfl
  | cons d ds ih => cases idx with
    | nil => rfl
    | cons i is =>
      have hd := h d List.mem_cons_self
      simp only [SeenAll, Bool.and_eq_true]
      exact ⟨by simp [Seen, hd], ih (fun x hx => h x (List.mem_cons_of_mem _ hx)) is hr.2⟩

/-- **C134, large tensors**: at most `8 ^ rank` values are printed. -/
theorem C134_bounded (dims : List Nat) : ((places dims).filter (SeenAll dims)).length ≤ 8 ^ dims.length := by
  induction dims with
  | nil => decide
  | cons d ds ih =>
    rw [shown_cons, List.length_flatMap]
    have hl : ((List.range d).filter (Seen d)).length ≤ 8 := by
      rw [seen_split]
      unfold headIx tailIx window maxPerDim
      by_cases h : d ≤ 8
      · simp only [show (4 * 2 = 8) from rfl, h, if_true]; simpa using h
      · simp only [show (4 * 2 = 8) from rfl, h, if_false]
        split <;> simp
    simp only [List.length_map]
    rw [List.map_const', List.sum_replicate_nat, List.length_cons, Nat.pow_succ, Nat.mul_comm]
    exact Nat.mul_le_mul ih hl

/-- **C134, empty dimensions**: an empty dimension before the last is a division by zero. -/
theorem C134_empty (fmt : α → List Char) : ∀ (shape : List Nat) (depth : Nat) (width : Option Nat), 0 ∈ shape.dropLast →
    display fmt shape [] (numel shape) depth width = .panic
  | [], _, _, h => by cases h
  | [_], _, _, h => by cases h
  | d :: e :: rest, depth, width, h => by
    rw [display]
    by_cases hd : d = 0
    · rw [if_pos hd]
    · rw [if_neg hd]
      have h' : 0 ∈ (e :: rest).dropLast := by
        rw [List.dropLast_cons_of_ne_nil (by simp)] at h
        rcases List.mem_cons.mp h with h | h
        · exact absurd h.symm hd
        · exact h
      have hz : numel (e :: rest) = 0 := by
        have : ∀ l : List Nat, 0 ∈ l → numel l = 0 := by
          intro l hl
          induction l with
          | nil => cases hl
          | cons x xs ih =>
            rcases List.mem_cons.mp hl with h | h
            · simp [numel, ← h]
            · simp [numel, ih h]
        exact this _ (List.dropLast_subset _ h')
      have hsub : numel (d :: e :: rest) / d = numel (e :: rest) := by
        rw [show numel (d :: e :: rest) = d * numel (e :: rest) from rfl, Nat.mul_div_cancel_left _ (by omega)]
      obtain ⟨l, hl⟩ := headIx_zero (n := d) (by omega)
      simp only [hsub, hl, collect]
      rw [sliceR_ok (by rw [hz]; simp), Res.ok_bind, List.drop_nil, List.take_nil, C134_empty fmt (e :: rest) _ _ h']
      rfl

/-! ## Columns -/

theorem foldl_max_ge (l : List Nat) : ∀ a, a ≤ l.foldl max a ∧ ∀ x ∈ l, x ≤ l.foldl max a := by
  induction l with
  | nil => intro a; exact ⟨Nat.le_refl _, by simp⟩
  | cons y l ih =>
    intro a
    obtain ⟨h1, h2⟩ := ih (max a y)
    refine ⟨by simp only [List.foldl_cons]; omega, fun x hx => ?_⟩
    rcases List.mem_cons.mp hx with rfl | hx
    · simp only [List.foldl_cons]; omega
    · exact h2 x hx

theorem row_tok {fmt : α → List Char} {data : List α} {width : Option Nat} {v : α} {w : Nat}
    (h : Tok.cell v w ∈ row fmt data width) : v ∈ data ∧ w = width.getD (maxWidth fmt data) := by
  have hc : ∀ w' i, Tok.cell v w ∈ cellAt data w' i → v ∈ data ∧ w = w' := by
    intro w' i h
    unfold cellAt at h
    rcases hd : data[i]? with _ | u
    · rw [hd] at h; cases h
    · rw [hd] at h
      simp only [Option.map_some, Option.toList_some, List.mem_singleton, Tok.cell.injEq] at h
      exact ⟨h.1 ▸ List.mem_of_getElem? hd, h.2⟩
  simp only [row, List.mem_cons, List.mem_append, List.mem_flatMap, reduceCtorEq, false_or, or_false, List.not_mem_nil] at h
  rcases h with (⟨i, _, h | h⟩ | h) | ⟨i, _, h⟩
  · split at h <;> simp at h
  · exact hc _ i h
  · split at h <;> simp at h
  · exact hc _ i h

/-- **C134, vectors are aligned**: all the values of a vector are printed with the same number of characters, and none is cut. -/
theorem C134_vector_aligned (fmt : α → List Char) {data : List α} {v : α} {w : Nat} (h : Tok.cell v w ∈ row fmt data none) :
    (Tok.text fmt (.cell v w)).length = maxWidth fmt data ∧ fmt v <+: Tok.text fmt (.cell v w) := by
  obtain ⟨hv, rfl⟩ := row_tok h
  have : (fmt v).length ≤ maxWidth fmt data := (foldl_max_ge _ 0).2 _ (List.mem_map_of_mem hv)
  refine ⟨?_, List.prefix_append _ _⟩
  simp only [Tok.text, padded, Option.getD_none, List.length_append, List.length_replicate]
  omega

/-- **C134, matrices are not aligned**: the width of the columns comes from the first three rows and columns, so a longer value further on
shifts what follows it: `[[1, 2, 3, 100, 5], [1, 2, 3, 4, 5]]`. -/
theorem C134_matrix_false :
    let fmt := fun n : Nat => Nat.toDigits 10 n
    ∃ ts, displayTensor fmt (⟨[1, 2, 3, 100, 5, 1, 2, 3, 4, 5], Layout.fromShape [2, 5]⟩ : Tensor Nat) = .ok ts ∧
      textOf fmt ts = "[[1, 2, 3, 100, 5],\n [1, 2, 3, 4, 5]]".toList ∧ Tok.cell 100 1 ∈ ts := by
  refine ⟨_, rfl, ?_, ?_⟩ <;> decide +kernel

/-- **C134 is false of contiguous slices**: the whole storage is printed; `[0, 1, 2, 3][1..3]` prints as `[0, 1, 2, 3]`. -/
theorem C134_slice_false :
    let fmt := fun n : Nat => Nat.toDigits 10 n
    ∃ s ts, (⟨[0, 1, 2, 3], Layout.fromShape [4]⟩ : Tensor Nat).slice 0 1 (some 3) 1 = .ok s ∧ s.dims = [2] ∧
      displayTensor fmt s = .ok ts ∧ textOf fmt ts = "[0, 1, 2, 3]".toList := by
  refine ⟨⟨[0, 1, 2, 3], ⟨[2], [1], 1⟩⟩, _, by decide +kernel, rfl, rfl, ?_⟩
  decide +kernel

/-! ## Floats -/

theorem trimEnd_append (c : Char) (a b : List Char) :
    trimEnd c (a ++ b) = if trimEnd c b = [] then trimEnd c a else a ++ trimEnd c b := by
  unfold trimEnd
  rw [List.reverse_append, List.dropWhile_append]
  by_cases h : (b.reverse.dropWhile (· == c)) = []
  · simp [h]
  · simp [h]

theorem trimEnd_self {c : Char} {a : List Char} (h : a.getLast? ≠ some c) : trimEnd c a = a := by
  unfold trimEnd
  rcases List.eq_nil_or_concat a with rfl | ⟨l, x, rfl⟩
  · rfl
  · have : x ≠ c := by simpa using h
    simp [this]

/-- What `trim_end_matches` leaves: the text is it with some `c` after, and it does not end with `c`. -/
theorem trimEnd_spec (c : Char) (a : List Char) :
    a = trimEnd c a ++ List.replicate (a.length - (trimEnd c a).length) c ∧ (trimEnd c a).getLast? ≠ some c ∧ (trimEnd c a).length ≤ a.length := by
  induction a using List.reverseRecOn with
  | nil => exact ⟨rfl, by simp [trimEnd], Nat.le_refl _⟩
  | append_singleton l x ih =>
    by_cases hx : x = c
    · have e : trimEnd c (l ++ [x]) = trimEnd c l := by
        rw [trimEnd_append, if_pos (by simp [trimEnd, hx])]
      rw [e]
      obtain ⟨h1, h2, h3⟩ := ih
      refine ⟨?_, h2, by simp; omega⟩
      rw [List.length_append, List.length_singleton, Nat.succ_sub h3, List.replicate_succ', ← List.append_assoc, ← h1, hx]
    · have e : trimEnd c (l ++ [x]) = l ++ [x] := trimEnd_self (by simpa using hx)
      rw [e]
      exact ⟨by simp, by simpa using hx, Nat.le_refl _⟩

theorem digitChar_ne {n : Nat} (h : n < 10) : Nat.digitChar n ≠ '.' ∧ Nat.digitChar n ≠ '-' := by
  interval_cases n <;> decide

theorem toDigits_digits (n : Nat) : Nat.toDigits 10 n ≠ [] ∧ ∀ c ∈ Nat.toDigits 10 n, c ≠ '.' := by
  induction n using Nat.strongRecOn with
  | _ n ih =>
    by_cases h : n < 10
    · rw [Nat.toDigits_of_lt_base h]
      exact ⟨by simp, by simp [(digitChar_ne h).1]⟩
    · rw [Nat.toDigits_of_base_le (by omega) (by omega)]
      refine ⟨by simp, fun c hc => ?_⟩
      rcases List.mem_append.mp hc with hc | hc
      · exact (ih (n / 10) (by omega)).2 c hc
      · rw [List.mem_singleton.mp hc]
        exact (digitChar_ne (Nat.mod_lt _ (by omega))).1

/-- **C134, floats**: the text of a value that is not an integer is that of `{:.6}` without the zeros at its end; the digits of the fraction,
with zeros put back, are the six of the rounded value, and there is always a point. -/
theorem C134_float (neg : Bool) (r : Nat) :
    ∃ frac : List Char, trimFloat (fixed6 neg r) = (if neg then ['-'] else []) ++ Nat.toDigits 10 (r / 10 ^ 6) ++ '.' :: frac ∧
      frac.length ≤ 6 ∧ frac.getLast? ≠ some '0' ∧
      frac ++ List.replicate (6 - frac.length) '0' = (List.range 6).map fun k => Nat.digitChar (r / 10 ^ (5 - k) % 10) := by
  generalize hD : ((List.range 6).map fun k => Nat.digitChar (r / 10 ^ (5 - k) % 10)) = D
  generalize hP : ((if neg then ['-'] else []) ++ Nat.toDigits 10 (r / 10 ^ 6)) = P
  have hlen : D.length = 6 := by rw [← hD]; simp
  obtain ⟨hne, hdig⟩ := toDigits_digits (r / 10 ^ 6)
  have hP1 : ∀ c ∈ P, c ≠ '.' := by
    rw [← hP]
    intro c hc
    rcases List.mem_append.mp hc with hc | hc
    · cases neg
      · cases hc
      · rw [List.mem_singleton.mp hc]; decide
    · exact hdig c hc
  have hDd : ∀ c ∈ D, c ≠ '.' := by
    rw [← hD]
    intro c hc
    obtain ⟨k, _, rfl⟩ := List.mem_map.mp hc
    exact (digitChar_ne (Nat.mod_lt _ (by omega))).1
  obtain ⟨h1, h2, h3⟩ := trimEnd_spec '0' D
  refine ⟨trimEnd '0' D, ?_, by omega, h2, by rw [← hlen]; exact h1.symm⟩
  have hf : fixed6 neg r = P ++ ('.' :: D) := by rw [fixed6, hP, hD]
  have hlast : ∀ {l : List Char}, (∀ c ∈ l, c ≠ '.') → l.getLast? ≠ some '.' := by
    intro l hl h
    exact hl _ (List.mem_of_getLast? h) rfl
  unfold trimFloat
  rw [hf]
  by_cases hz : trimEnd '0' D = []
  · have e1 : trimEnd '0' (P ++ '.' :: D) = P ++ ['.'] := by
      rw [show P ++ '.' :: D = (P ++ ['.']) ++ D by simp, trimEnd_append, if_pos hz, trimEnd_self (by simp)]
    have e2 : trimEnd '.' (P ++ ['.']) = P := by
      rw [trimEnd_append, if_pos (by decide), trimEnd_self (hlast hP1)]
    simp only [e1, e2]
    rw [if_neg (by simp only [List.contains_iff_mem]; exact fun h => hP1 _ h rfl), hz]
  · have e1 : trimEnd '0' (P ++ '.' :: D) = P ++ '.' :: trimEnd '0' D := by
      rw [show P ++ '.' :: D = (P ++ ['.']) ++ D by simp, trimEnd_append, if_neg hz]
      simp
    have hmem : ∀ c ∈ trimEnd '0' D, c ≠ '.' := fun c hc => hDd c (by rw [h1]; exact List.mem_append_left _ hc)
    have e2 : trimEnd '.' (P ++ '.' :: trimEnd '0' D) = P ++ '.' :: trimEnd '0' D := by
      apply trimEnd_self
      rw [show P ++ '.' :: trimEnd '0' D = (P ++ ['.']) ++ trimEnd '0' D by simp, List.getLast?_append_of_ne_nil _ hz]
      exact hlast hmem
    simp only [e1, e2]
    rw [if_pos (by simp)]

/-- **C134, what is lost**: a value below half a millionth prints like zero, and values that are not finite get a point. -/
theorem C134_float_false : trimFloat (fixed6 false 0) = ['0', '.'] ∧ trimFloat (fixed6 true 0) = ['-', '0', '.'] ∧
    trimFloat "NaN".toList = "NaN.".toList ∧ trimFloat "inf".toList = "inf.".toList := by decide +kernel

/-! ## Debug -/

/-- **C134, debug**: the first four and last four of the values read, or all if there are at most eight; the one value of a tensor whose
dimensions are all 1. -/
theorem C134_debug (data : List α) (shape : List Nat) (h : shape.all (· == 1) = true → data.length ≤ 1) :
    (cells (debugData data shape)).map some = ((List.range data.length).filter (Seen data.length)).map (data[·]?) := by
  have hrow := fun d : List α => (row_spec (fun _ : α => []) d (some 0) 0).1
  unfold debugData
  cases hb : (shape.isEmpty || shape.all (· == 1)) with
  | false => exact hrow data
  | true =>
    cases data with
    | nil => exact hrow []
    | cons v tl =>
      have hs' : shape.all (· == 1) = true := by
        cases shape with
        | nil => rfl
        | cons => simpa using hb
      have := h hs'
      simp only [List.length_cons] at this
      have : tl = [] := List.length_eq_zero_iff.mp (by omega)
      subst this
      rfl

/-! ## Examples -/

/-- A matrix with ten columns: the first and last four. -/
example :
    let fmt := fun n : Nat => Nat.toDigits 10 n
    ∃ ts, displayTensor fmt (⟨List.range 20, Layout.fromShape [2, 10]⟩ : Tensor Nat) = .ok ts ∧
      textOf fmt ts = "[[0 , 1 , 2 , 3 , ... , 6 , 7 , 8 , 9 ],\n [10, 11, 12, 13, ... , 16, 17, 18, 19]]".toList ∧
      cells ts = [0, 1, 2, 3, 6, 7, 8, 9, 10, 11, 12, 13, 16, 17, 18, 19] := by
  refine ⟨_, rfl, ?_, ?_⟩ <;> decide +kernel

/-- Debug output of a matrix with ten entries, and of one with one. -/
example : cells (debugData (List.range 10) [2, 5]) = [0, 1, 2, 3, 6, 7, 8, 9] ∧ debugData [7] [1, 1] = [.cell 7 0] ∧
    (([2, 5] : List Nat).all (· == 1) = true → (List.range 10).length ≤ 1) := by decide

/-- A transposed matrix. -/
example : (⟨[1, 2, 3, 4, 5, 6], ⟨[3, 2], [1, 3], 0⟩⟩ : Tensor Nat).layout.isContiguous = false ∧
    (displayTensor (fun n => Nat.toDigits 10 n) (⟨[1, 2, 3, 4, 5, 6], ⟨[3, 2], [1, 3], 0⟩⟩ : Tensor Nat)).bind (fun ts => .ok (cells ts)) =
      .ok [1, 4, 2, 5, 3, 6] ∧ 0 ∈ ([0, 3] : List Nat).dropLast ∧ trimFloat (fixed6 true 1500000) = "-1.5".toList ∧
    trimFloat (fixed6 false 100000001) = "100.000001".toList := by decide +kernel

/-! ## The text -/

/-- The brackets and commas of a text. -/
def Spec.bones (s : List Char) : List Char := s.filter fun c => c == '[' || c == ']' || c == ','

/-- Brackets and commas of a nested list of a shape: a comma before every printed entry but the first, one more where entries are left out. -/
def Spec.skeleton : List Nat → List Char
  | [] => []
  | d :: ds => '[' :: (((List.range d).filter (Seen d)).flatMap fun i =>
      (if 0 < i then [','] else []) ++ (if 8 < d ∧ i + 4 = d then [','] else []) ++ skeleton ds) ++ [']']

theorem flatMap_congr {l : List Nat} {f g : Nat → List β} (h : ∀ i ∈ l, f i = g i) : l.flatMap f = l.flatMap g := by
  induction l with
  | nil => rfl
  | cons i l ih => rw [List.flatMap_cons, List.flatMap_cons, h i List.mem_cons_self, ih fun j hj => h j (List.mem_cons_of_mem _ hj)]

theorem collect_inv {f : Nat → Res (List β)} {l : List Nat} {xs : List β} (h : collect f l = .ok xs) :
    ∃ g : Nat → List β, (∀ i ∈ l, f i = .ok (g i)) ∧ xs = l.flatMap g := by
  have : ∀ i ∈ l, ∃ x, f i = .ok x := by
    induction l generalizing xs with
    | nil => simp
    | cons i l ih =>
      rw [collect] at h
      obtain ⟨x, hx, h⟩ := Res.bind_eq_ok.mp h
      obtain ⟨y, hy, _⟩ := Res.bind_eq_ok.mp h
      intro j hj
      rcases List.mem_cons.mp hj with rfl | hj
      · exact ⟨x, hx⟩
      · exact ih hy j hj
  obtain ⟨xs', h1, g, h2, h3⟩ := collect_ok this
  rw [h] at h1
  cases h1
  exact ⟨g, h2, h3⟩

theorem bones_append (a b : List Char) : bones (a ++ b) = bones a ++ bones b := List.filter_append ..

theorem text_append (fmt : α → List Char) (a b : List (Tok α)) : textOf fmt (a ++ b) = textOf fmt a ++ textOf fmt b :=
  List.flatMap_append ..

theorem bones_flatMap (fmt : α → List Char) (l : List Nat) (g : Nat → List (Tok α)) :
    bones (textOf fmt (l.flatMap g)) = l.flatMap fun i => bones (textOf fmt (g i)) := by
  induction l with
  | nil => rfl
  | cons i l ih => rw [List.flatMap_cons, text_append, bones_append, ih, List.flatMap_cons]

theorem bones_cell {fmt : α → List Char} (hf : ∀ v, ∀ c ∈ fmt v, c ≠ '[' ∧ c ≠ ']' ∧ c ≠ ',') (v : α) (w : Nat) :
    bones (textOf fmt [.cell v w]) = [] := by
  unfold bones
  rw [List.filter_eq_nil_iff]
  intro c hc
  simp only [textOf, List.flatMap_cons, List.flatMap_nil, List.append_nil, Tok.text, padded, List.mem_append] at hc
  rcases hc with hc | hc
  · have := hf v c hc
    simp [this]
  · rw [List.eq_of_mem_replicate hc]; decide

theorem bones_sep (fmt : α → List Char) (depth : Nat) : bones (textOf fmt [sepTok depth]) = [','] := by
  simp only [textOf, List.flatMap_cons, List.flatMap_nil, List.append_nil, sepTok]
  split
  · simp only [Tok.text, String.toList_ofList, bones]
    rw [List.filter_cons_of_pos (by decide), List.filter_cons_of_neg (by decide), List.filter_eq_nil_iff.mpr]
    intro c hc
    rw [List.eq_of_mem_replicate hc]; decide
  · show bones ", ".toList = _
    decide

theorem bones_dots (fmt : α → List Char) (depth : Nat) : bones (textOf fmt (dotsToks depth)) = [','] := by
  unfold dotsToks
  split
  · rw [show ([sepTok depth, .lit "..."] : List (Tok α)) = [sepTok depth] ++ [.lit "..."] from rfl, text_append, bones_append, bones_sep]
    show [','] ++ bones ("...".toList ++ []) = _
    decide
  · show bones (", ... ".toList ++ []) = _
    decide

/-- The entries before and after the dots, joined. -/
theorem skeleton_cons (d : Nat) (ds : List Nat) :
    skeleton (d :: ds) = '[' :: ((headIx d).flatMap (fun i => (if 0 < i then [','] else []) ++ skeleton ds) ++
      (if hasDots d then [','] else []) ++ (tailIx d).flatMap (fun _ => ',' :: skeleton ds)) ++ [']'] := by
  rw [skeleton, seen_split, List.flatMap_append]
  have h1 : ((headIx d).flatMap fun i => (if 0 < i then [','] else []) ++ (if 8 < d ∧ i + 4 = d then [','] else []) ++ skeleton ds) =
      (headIx d).flatMap fun i => (if 0 < i then [','] else []) ++ skeleton ds := by
    have hc : ∀ i ∈ headIx d, ¬ (8 < d ∧ i + 4 = d) := by
      intro i hi ⟨h, h'⟩
      have : i < min (window d).1 d := List.mem_range.mp hi
      unfold window maxPerDim at this
      rw [if_neg (by omega)] at this
      simp at this
      omega
    generalize headIx d = l at hc
    induction l with
    | nil => rfl
    | cons i l ih =>
      rw [List.flatMap_cons, List.flatMap_cons, ih fun j hj => hc j (List.mem_cons_of_mem _ hj), if_neg (hc i List.mem_cons_self),
        List.append_nil]
  rw [h1]
  congr 1
  congr 1
  rw [List.append_assoc]
  congr 1
  by_cases h : d ≤ 8
  · have e1 : tailIx d = [] := by simp [tailIx, window, maxPerDim, h]
    have e2 : hasDots d = false := by simp [hasDots, window, maxPerDim, h]
    rw [e1, e2]; rfl
  · have e1 : tailIx d = [d - 4 + 0, d - 4 + 1, d - 4 + 2, d - 4 + 3] := by
      simp only [tailIx, window, maxPerDim, show (4 * 2 = 8) from rfl, h, if_false]
      rw [if_pos (by omega)]
      rfl
    have e2 : hasDots d = true := by simp [hasDots, window, maxPerDim, h]; omega
    rw [e1, e2]
    simp only [List.flatMap_cons, List.flatMap_nil, if_true, List.append_nil]
    rw [if_pos (by omega), if_pos (by omega), if_pos (by omega), if_neg (by omega), if_pos (by omega), if_neg (by omega), if_pos (by omega),
      if_neg (by omega)]
    simp

/-- **C134, brackets and commas**: when the text of a value has no brackets and commas, those of the whole are the ones of a nested list of the
shape. -/
theorem C134_text {fmt : α → List Char} (hf : ∀ v, ∀ c ∈ fmt v, c ≠ '[' ∧ c ≠ ']' ∧ c ≠ ',') :
    ∀ (shape : List Nat) (data : List α) (depth : Nat) (width : Option Nat) (ts : List (Tok α)), data.length = numel shape →
      display fmt shape data (numel shape) depth width = .ok ts → bones (textOf fmt ts) = skeleton shape
  | [], data, _, _, ts, _, h => by
    match data, h with
    | v :: _, h =>
      cases h
      exact bones_cell hf v 0
  | [d], data, _, width, ts, hl, h => by
    have hl : data.length = d := by simpa [numel] using hl
    cases h
    rw [skeleton_cons]
    have hcell : ∀ w i, i < d → bones (textOf fmt (cellAt data w i)) = [] := by
      intro w i hi
      rw [cellAt_eq (by omega)]
      exact bones_cell hf _ _
    simp only [row]
    rw [show ∀ x : List (Tok α), (Tok.lit "[" :: x) = [Tok.lit "["] ++ x from fun _ => rfl]
    rw [text_append, bones_append, text_append, bones_append, text_append, bones_append, text_append, bones_append, bones_flatMap, bones_flatMap, hl]
    have e1 : bones (textOf fmt [Tok.lit "["]) = ['['] := by show bones ("[".toList ++ []) = _; decide
    have e2 : bones (textOf fmt [Tok.lit "]"]) = [']'] := by show bones ("]".toList ++ []) = _; decide
    have e3 : bones (textOf fmt (if hasDots d then [Tok.lit ", ... "] else [])) = if hasDots d then [','] else [] := by
      split
      · show bones (", ... ".toList ++ []) = _; decide
      · rfl
    have e4 : bones (textOf fmt [Tok.lit ", "]) = [','] := by show bones (", ".toList ++ []) = _; decide
    rw [e1, e2, e3]
    have e5 : ((headIx d).flatMap fun i => bones (textOf fmt ((if 0 < i then [Tok.lit ", "] else []) ++
        cellAt data (width.getD (maxWidth fmt data)) i))) = (headIx d).flatMap fun i => (if 0 < i then [','] else []) ++ skeleton [] := by
      apply flatMap_congr
      intro i hi
      rw [text_append, bones_append, hcell _ i (headIx_lt hi)]
      split
      · rw [e4]; rfl
      · rfl
    have e6 : ((tailIx d).flatMap fun i => bones (textOf fmt (Tok.lit ", " :: cellAt data (width.getD (maxWidth fmt data)) i))) =
        (tailIx d).flatMap fun _ => ',' :: skeleton [] := by
      apply flatMap_congr
      intro i hi
      rw [show ∀ x : List (Tok α), (Tok.lit ", " :: x) = [Tok.lit ", "] ++ x from fun _ => rfl, text_append, bones_append, e4,
        hcell _ i (tailIx_lt hi)]
      rfl
    rw [e5, e6]
    simp
  | d :: e :: rest, data, depth, width, ts, hl, h => by
    rw [display] at h
    by_cases hd : d = 0
    · rw [if_pos hd] at h; cases h
    rw [if_neg hd] at h
    have hsub : numel (d :: e :: rest) / d = numel (e :: rest) := by
      rw [show numel (d :: e :: rest) = d * numel (e :: rest) from rfl, Nat.mul_div_cancel_left _ (by omega)]
    simp only [hsub] at h
    generalize (if rest.isEmpty then some (cornerWidth fmt data d e (numel (e :: rest))) else none) = wd at h
    obtain ⟨front, h1, h⟩ := Res.bind_eq_ok.mp h
    obtain ⟨back, h2, h⟩ := Res.bind_eq_ok.mp h
    cases h
    obtain ⟨gf, f1, rfl⟩ := collect_inv h1
    obtain ⟨gb, b1, rfl⟩ := collect_inv h2
    have hpart : ∀ i p, ((sliceR data (i * numel (e :: rest)) (numel (e :: rest))).bind fun s =>
          display fmt (e :: rest) s (numel (e :: rest)) (depth + 1) wd) = .ok p → bones (textOf fmt p) = skeleton (e :: rest) := by
      intro i p hp
      obtain ⟨s, hs, hp⟩ := Res.bind_eq_ok.mp hp
      refine C134_text hf (e :: rest) s _ _ p ?_ hp
      unfold sliceR at hs
      split at hs
      · cases hs; simp; omega
      · cases hs
    rw [skeleton_cons]
    rw [show ∀ x : List (Tok α), (Tok.lit "[" :: x) = [Tok.lit "["] ++ x from fun _ => rfl]
    rw [text_append, bones_append, text_append, bones_append, text_append, bones_append, text_append, bones_append, bones_flatMap, bones_flatMap]
    have e1 : bones (textOf fmt [Tok.lit "["]) = ['['] := by show bones ("[".toList ++ []) = _; decide
    have e2 : bones (textOf fmt [Tok.lit "]"]) = [']'] := by show bones ("]".toList ++ []) = _; decide
    have e3 : bones (textOf fmt (if hasDots d then dotsToks depth else [])) = if hasDots d then [','] else [] := by
      split
      · exact bones_dots fmt depth
      · rfl
    rw [e1, e2, e3]
    have e5 : ((headIx d).flatMap fun i => bones (textOf fmt (gf i))) =
        (headIx d).flatMap fun i => (if 0 < i then [','] else []) ++ skeleton (e :: rest) := by
      apply flatMap_congr
      intro i hi
      obtain ⟨p, hp, h⟩ := Res.bind_eq_ok.mp (f1 i hi)
      rw [← Res.ok.inj h, text_append, bones_append, hpart i p hp]
      split
      · rw [bones_sep]
      · rfl
    have e6 : ((tailIx d).flatMap fun i => bones (textOf fmt (gb i))) = (tailIx d).flatMap fun _ => ',' :: skeleton (e :: rest) := by
      apply flatMap_congr
      intro i hi
      obtain ⟨p, hp, h⟩ := Res.bind_eq_ok.mp (b1 i hi)
      rw [← Res.ok.inj h, show ∀ x : List (Tok α), (sepTok depth :: x) = [sepTok depth] ++ x from fun _ => rfl, text_append, bones_append,
        hpart i p hp, bones_sep]
      rfl
    rw [e5, e6]
    simp

/-- **C134, dots**: they are printed exactly where entries are left out. -/
theorem C134_dots (n : Nat) : hasDots n = true ↔ ∃ i, i < n ∧ Seen n i = false := by
  unfold hasDots window maxPerDim
  by_cases h : n ≤ 8
  · simp [h, Seen]
  · simp only [show (4 * 2 = 8) from rfl, h, if_false, decide_eq_true_eq, Seen, decide_eq_false_iff_not]
    exact ⟨fun _ => ⟨4, by omega, by rintro (h' | h' | h') <;> first | exact h'.elim | omega⟩, fun _ => by show 4 + 4 < n; omega⟩

/-- Brackets and commas of `2 × 10`. -/
example : skeleton [2, 10] = "[[,,,,,,,,],[,,,,,,,,]]".toList ∧
    ∀ v : Bool, ∀ c ∈ (toString v).toList, c ≠ '[' ∧ c ≠ ']' ∧ c ≠ ',' := by decide +kernel

end Hodu.Display
