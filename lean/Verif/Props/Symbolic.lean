import Verif.Model.Symbolic
import Verif.Props.Nonzero
import Verif.Props.Unique
import Verif.Props.Compress

/-!
# C99: what is recorded for shapes that depend on the data has room for every result
-/

namespace Hodu.Sym
open Hodu.Spec

/-! ## Specification -/

/-- `d` is what the shape `s` can be at run time when the dynamic dimension `id` turns out to be `ρ id`. -/
inductive Spec.Resolves (ρ : Nat → Option Nat) : List Dim → List Nat → Prop
  | nil : Resolves ρ [] []
  | concrete {n s d} : Resolves ρ s d → Resolves ρ (.concrete n :: s) (n :: d)
  | dynamic {id n b s d} : ρ id = some n → (∀ k, b = some k → n ≤ k) → Resolves ρ s d → Resolves ρ (.dynamic id b :: s) (n :: d)

/-- Every dynamic dimension has a bound. -/
def Spec.Bounded (s : List Dim) : Prop := ∀ id, Dim.dynamic id none ∉ s

open Sym.Spec

/-! ## Shapes -/

theorem toMaxShape_cons (x : Dim) (s : List Dim) :
    toMaxShape (x :: s) = x.allocationSize.bind fun n => (toMaxShape s).map (n :: ·) := by
  unfold toMaxShape
  rw [List.mapM_cons]
  cases x.allocationSize with
  | none => rfl
  | some n => cases List.mapM (fun x : Dim => x.allocationSize) s <;> rfl

theorem maxSize_go (s : List Dim) (acc : Nat) :
    s.foldlM (fun acc d => d.allocationSize.map (acc * ·)) acc = (toMaxShape s).map fun d => acc * numel d := by
  induction s generalizing acc with
  | nil => simp [toMaxShape, numel]
  | cons x s ih =>
    rw [List.foldlM_cons, toMaxShape_cons]
    cases x.allocationSize with
    | none => rfl
    | some n =>
      show List.foldlM _ (acc * n) s = _
      rw [ih]
      cases toMaxShape s <;> simp [numel, Nat.mul_assoc]

theorem maxSize_eq (s : List Dim) : maxSize s = (toMaxShape s).map numel := by
  unfold maxSize
  rw [maxSize_go]
  simp

theorem bounded_iff (s : List Dim) : Bounded s ↔ ∃ d, toMaxShape s = some d := by
  unfold Bounded
  induction s with
  | nil => exact ⟨fun _ => ⟨[], rfl⟩, fun _ => by simp⟩
  | cons x s ih =>
    rw [toMaxShape_cons]
    cases x with
    | concrete n =>
      simp only [List.mem_cons, reduceCtorEq, false_or, Dim.allocationSize, Option.bind_some, Option.map_eq_some_iff]
      rw [ih]
      exact ⟨fun ⟨d, h⟩ => ⟨n :: d, d, h, rfl⟩, fun ⟨_, d, h, _⟩ => ⟨d, h⟩⟩
    | dynamic id b =>
      cases b with
      | none => exact ⟨fun h => absurd List.mem_cons_self (h id), fun ⟨_, h⟩ => by simp [Dim.allocationSize] at h⟩
      | some k =>
        simp only [List.mem_cons, Dim.dynamic.injEq, reduceCtorEq, and_false, false_or, Dim.allocationSize, Option.bind_some,
          Option.map_eq_some_iff]
        rw [ih]
        exact ⟨fun ⟨d, h⟩ => ⟨k :: d, d, h, rfl⟩, fun ⟨_, d, h, _⟩ => ⟨d, h⟩⟩

theorem computeStrides_eq {s : List Dim} {d : List Nat} (h : toMaxShape s = some d) :
    computeStrides s = some (Hodu.Layout.computeStrides d) := by
  induction s generalizing d with
  | nil =>
    cases h
    rfl
  | cons x s ih =>
    rw [toMaxShape_cons] at h
    obtain ⟨n, h1, h2⟩ := Option.bind_eq_some_iff.mp h
    obtain ⟨ds, h3, rfl⟩ := Option.map_eq_some_iff.mp h2
    cases s with
    | nil =>
      cases h3
      rfl
    | cons y s =>
      have h4 := h3
      rw [toMaxShape_cons] at h4
      obtain ⟨m, g1, g2⟩ := Option.bind_eq_some_iff.mp h4
      obtain ⟨es, g3, rfl⟩ := Option.map_eq_some_iff.mp g2
      simp only [computeStrides, ih h3, g1, Option.bind_some, Hodu.Layout.computeStrides]

/-- **C99, the strides exist exactly for shapes with bounds**: `from_shape` succeeds iff every dynamic dimension has one, and is then the
row-major layout of the largest shape. -/
theorem C99_from_shape (s : List Dim) :
    (Bounded s → ∃ d l, toMaxShape s = some d ∧ Layout'.fromShape s = some l ∧ l.shape = s ∧ l.offset = 0 ∧
      l.strides = Hodu.Layout.computeStrides d ∧ l.toMaxLayout = some (Layout.fromShape d) ∧ l.bufferSize = some (numel d)) ∧
    (¬ Bounded s → Layout'.fromShape s = none ∧ maxSize s = none ∧ toMaxShape s = none) := by
  constructor
  · intro h
    obtain ⟨d, hd⟩ := (bounded_iff s).mp h
    refine ⟨d, ⟨s, Hodu.Layout.computeStrides d, 0⟩, hd, ?_, rfl, rfl, rfl, ?_, ?_⟩
    · simp [Layout'.fromShape, maxSize_eq, hd, computeStrides_eq hd]
    · simp [Layout'.toMaxLayout, hd, Layout.fromShape]
    · simp [Layout'.bufferSize, maxSize_eq, hd]
  · intro h
    have hn : toMaxShape s = none := by
      cases hm : toMaxShape s with
      | none => rfl
      | some d => exact absurd ((bounded_iff s).mpr ⟨d, hm⟩) h
    exact ⟨by simp [Layout'.fromShape, maxSize_eq, hn], by simp [maxSize_eq, hn], hn⟩

/-- A resolved shape is within the largest one. -/
theorem resolves_le {ρ : Nat → Option Nat} {s : List Dim} {d m : List Nat} (h : Resolves ρ s d) (hm : toMaxShape s = some m) :
    numel d ≤ numel m ∧ ∀ idx, InRange idx d → InRange idx m := by
  induction h generalizing m with
  | nil =>
    cases hm
    exact ⟨Nat.le_refl _, fun _ h => h⟩
  | concrete _ ih =>
    rw [toMaxShape_cons] at hm
    obtain ⟨n, h1, h2⟩ := Option.bind_eq_some_iff.mp hm
    obtain ⟨ds, h3, rfl⟩ := Option.map_eq_some_iff.mp h2
    obtain ⟨g1, g2⟩ := ih h3
    cases h1
    refine ⟨Nat.mul_le_mul_left _ g1, fun idx hi => ?_⟩
    cases idx with
    | nil => exact hi.elim
    | cons i is => exact ⟨hi.1, g2 is hi.2⟩
  | dynamic _ hb _ ih =>
    rw [toMaxShape_cons] at hm
    obtain ⟨n, h1, h2⟩ := Option.bind_eq_some_iff.mp hm
    obtain ⟨ds, h3, rfl⟩ := Option.map_eq_some_iff.mp h2
    obtain ⟨g1, g2⟩ := ih h3
    have hn := hb n h1
    refine ⟨Nat.mul_le_mul hn g1, fun idx hi => ?_⟩
    cases idx with
    | nil => exact hi.elim
    | cons i is => exact ⟨lt_of_lt_of_le hi.1 hn, g2 is hi.2⟩

/-- **C99, room for every result**: whatever the dynamic dimensions turn out to be within their bounds, the recorded strides send the
indices to different positions inside of the recorded buffer. -/
theorem C99_room {s : List Dim} {l : Layout'} (hl : Layout'.fromShape s = some l) {ρ : Nat → Option Nat} {d : List Nat}
    (h : Resolves ρ s d) :
    ∃ b, l.bufferSize = some b ∧ numel d ≤ b ∧ (∀ idx, InRange idx d → l.offset + dot idx l.strides < b) ∧
      ∀ i j, InRange i d → InRange j d → dot i l.strides = dot j l.strides → i = j := by
  have hB : Bounded s := by
    by_contra hc
    rw [((C99_from_shape s).2 hc).1] at hl
    cases hl
  obtain ⟨m, l', h1, h2, h3, h4, h5, h6, h7⟩ := (C99_from_shape s).1 hB
  rw [hl] at h2
  cases h2
  obtain ⟨g1, g2⟩ := resolves_le h h1
  refine ⟨numel m, h7, g1, fun idx hi => ?_, fun i j hi hj e => ?_⟩
  · rw [h4, h5, dot_computeStrides, Nat.zero_add]
    exact rowMajor_lt (g2 idx hi)
  · rw [h5, dot_computeStrides, dot_computeStrides] at e
    exact rowMajor_inj (g2 i hi) (g2 j hj) e

/-- **C99, a single dynamic dimension in front costs nothing**: the strides are those of the result itself. -/
theorem C99_leading {id : Nat} {b : Option Nat} {t : List Nat} {l : Layout'} (hl : Layout'.fromShape (.dynamic id b :: fromDims t) = some l)
    (n : Nat) : l.strides = (Layout.fromShape (n :: t)).strides := by
  have hd : ∀ t, toMaxShape (fromDims t) = some t := by
    intro t
    induction t with
    | nil => rfl
    | cons a t ih =>
      show toMaxShape (.concrete a :: fromDims t) = _
      rw [toMaxShape_cons, ih]
      rfl
  have hB : Bounded (.dynamic id b :: fromDims t) := by
    by_contra hc
    rw [((C99_from_shape _).2 hc).1] at hl
    cases hl
  obtain ⟨m, l', h1, h2, h3, h4, h5, h6, h7⟩ := (C99_from_shape _).1 hB
  rw [hl] at h2
  cases h2
  rw [toMaxShape_cons, hd] at h1
  obtain ⟨k, e1, e2⟩ := Option.bind_eq_some_iff.mp h1
  cases e2
  rw [h5]
  cases t <;> rfl

/-! ## Concrete shapes and layouts -/

theorem concrete_iff (s : List Dim) : isFullyConcrete s = true ↔ ∃ d, s = fromDims d := by
  induction s with
  | nil => exact ⟨fun _ => ⟨[], rfl⟩, fun _ => rfl⟩
  | cons x s ih =>
    unfold isFullyConcrete at *
    rw [List.all_cons, Bool.and_eq_true, ih]
    constructor
    · rintro ⟨h1, d, rfl⟩
      cases x with
      | concrete n => exact ⟨n :: d, rfl⟩
      | dynamic => cases h1
    · rintro ⟨d, hd⟩
      cases d with
      | nil => cases hd
      | cons n d =>
        obtain ⟨rfl, rfl⟩ := List.cons.inj hd
        exact ⟨rfl, d, rfl⟩

theorem filterMap_fromDims (d : List Nat) : (fromDims d).filterMap (·.concreteSize) = d := by
  induction d with
  | nil => rfl
  | cons n d ih =>
    show List.filterMap _ (.concrete n :: fromDims d) = _
    rw [List.filterMap_cons]
    show n :: List.filterMap _ (fromDims d) = _
    rw [ih]

theorem foldl_mul (d : List Nat) (a : Nat) : d.foldl (· * ·) a = a * numel d := by
  induction d generalizing a with
  | nil => simp [numel]
  | cons n d ih => rw [List.foldl_cons, ih, numel, Nat.mul_assoc]

/-- **C99, concrete shapes**: a shape converts back to the sizes it was made of and has their number of elements; a shape with a dynamic
dimension has neither. -/
theorem C99_shape (s : List Dim) :
    (∀ d, s = fromDims d → toConcrete s = some d ∧ size s = some (numel d) ∧ maxSize s = some (numel d) ∧ isDynamic s = false ∧
      dynamicDimIds s = []) ∧
    ((∃ id b, Dim.dynamic id b ∈ s) → toConcrete s = none ∧ size s = none ∧ isDynamic s = true ∧ dynamicDimIds s ≠ []) := by
  constructor
  · rintro d rfl
    have h1 : isFullyConcrete (fromDims d) = true := (concrete_iff _).mpr ⟨d, rfl⟩
    have h2 : toMaxShape (fromDims d) = some d := by
      clear h1
      induction d with
      | nil => rfl
      | cons a t ih =>
        show toMaxShape (.concrete a :: fromDims t) = _
        rw [toMaxShape_cons, ih]
        rfl
    refine ⟨by rw [toConcrete, if_pos h1, filterMap_fromDims], by rw [size, if_pos h1, filterMap_fromDims, foldl_mul, Nat.one_mul],
      by rw [maxSize_eq, h2]; rfl, ?_, ?_⟩
    · simp [isDynamic, fromDims, Dim.isDynamic]
    · simp [dynamicDimIds, fromDims, Dim.dynamicId]
  · rintro ⟨id, b, hm⟩
    have h1 : isFullyConcrete s ≠ true := by
      intro h
      obtain ⟨d, rfl⟩ := (concrete_iff s).mp h
      simp [fromDims] at hm
    refine ⟨by rw [toConcrete, if_neg h1], by rw [size, if_neg h1], ?_, ?_⟩
    · unfold isDynamic
      rw [List.any_eq_true]
      exact ⟨_, hm, rfl⟩
    · intro h
      have : id ∈ dynamicDimIds s := List.mem_filterMap.mpr ⟨_, hm, rfl⟩
      rw [h] at this
      cases this

/-- **C99, concrete layouts** that start their buffer survive the way through a symbolic one.  Missing: layouts with an offset
(`C99_offset_false`). -/
theorem C99_layout_partial (l : Layout) (ho : l.offset = 0) :
    (Layout'.fromConcrete l).toConcrete = some l ∧ (Layout'.fromConcrete l).toMaxLayout = some l := by
  obtain ⟨d, st, o⟩ := l
  simp only at ho
  subst ho
  have h1 : isFullyConcrete (fromDims d) = true := (concrete_iff _).mpr ⟨d, rfl⟩
  have h2 := ((C99_shape (fromDims d)).1 d rfl).1
  have h5 : toMaxShape (fromDims d) = some d := by
    clear h1 h2
    induction d with
    | nil => rfl
    | cons a t ih =>
      show toMaxShape (.concrete a :: fromDims t) = _
      rw [toMaxShape_cons, ih]
      rfl
  constructor
  · show (if isFullyConcrete (fromDims d) then (toConcrete (fromDims d)).map fun d => (⟨d, st, 0⟩ : Layout) else none) = _
    rw [if_pos h1, h2]
    rfl
  · show ((toMaxShape (fromDims d)).map fun d => (⟨d, st, 0⟩ : Layout)) = _
    rw [h5]
    rfl

/-- **C99, replacing a dimension** of a row-major layout gives the row-major layout of the new shape. -/
theorem C99_with_dim {s : List Dim} {l : Layout'} (hl : Layout'.fromShape s = some l) (i : Nat) (x : Dim) (hB : Bounded (s.set i x)) :
    l.withDim i x = if i < s.length then Layout'.fromShape (s.set i x) else none := by
  have hB' : Bounded s := by
    by_contra hc
    rw [((C99_from_shape s).2 hc).1] at hl
    cases hl
  obtain ⟨m, l', h1, h2, h3, h4, h5, _⟩ := (C99_from_shape s).1 hB'
  rw [hl] at h2
  cases h2
  obtain ⟨m', l2, g1, g2, g3, g4, g5, _⟩ := (C99_from_shape _).1 hB
  unfold Layout'.withDim
  rw [h3]
  by_cases hi : i < s.length
  · rw [if_neg (by omega), if_pos hi, computeStrides_eq g1, g2, h4]
    simp only [Option.map_some]
    obtain ⟨a, b, c⟩ := l2
    simp only at g3 g4 g5
    rw [g3, g4, g5]
  · rw [if_pos (by omega), if_neg hi]

/-- **C99, sizes by index**: the `k`-th dimension also counted from the end, nothing outside. -/
theorem C99_dim_size (s : List Dim) (hs : s.length < 2 ^ 31) (index : Int) (h1 : -2 ^ 31 ≤ index) :
    (∀ k : Nat, k < s.length → (index = k ∨ index = (k : Int) - s.length) → dimSize s index = (s[k]?).bind (·.concreteSize)) ∧
    ((index < -s.length ∨ (s.length : Int) ≤ index) → dimSize s index = none) := by
  unfold dimSize castUsize
  constructor
  · rintro k hk (h | h)
    · subst h
      have : (if (k : Int) < 0 then ((s.length + (k : Int)) % 2 ^ 64).toNat else (k : Int).toNat) = k := by
        rw [if_neg (by omega)]
        omega
      simp only [this]
    · have : (if index < 0 then ((s.length + index) % 2 ^ 64).toNat else index.toNat) = k := by
        rw [if_pos (by omega)]
        omega
      simp only [this]
  · intro h
    have : s.length ≤ (if index < 0 then ((s.length + index) % 2 ^ 64).toNat else index.toNat) := by
      split <;> omega
    simp only []
    rw [List.getElem?_eq_none this]
    rfl

/-! ## Ids and the registry -/

/-- **C99, ids are unique** among any `2 ^ 32` consecutive ones. -/
theorem C99_ids {m n : Nat} (h : m < n) (h2 : n < m + 2 ^ 32) : nthId m ≠ nthId n := by
  unfold nthId
  omega

/-- **C99, the registry**: a dimension has the value it was last given since the registry was last cleared. -/
theorem C99_registry (before after : List Call) (id v : Nat) (h1 : ∀ w, Call.resolve id w ∉ after) (h2 : Call.clear ∉ after) :
    getAfter (before ++ .resolve id v :: after) id = some v ∧ getAfter (before ++ .clear :: after) id = none ∧ getAfter after id = none := by
  have key : ∀ (cs : List Call) (m : Nat → Option Nat), (∀ w, Call.resolve id w ∉ cs) → Call.clear ∉ cs → (cs.foldl step m) id = m id := by
    intro cs
    induction cs with
    | nil => intros; rfl
    | cons c cs ih =>
      intro m g1 g2
      rw [List.foldl_cons, ih _ (fun w hw => g1 w (List.mem_cons_of_mem _ hw)) (fun hw => g2 (List.mem_cons_of_mem _ hw))]
      cases c with
      | clear => exact absurd List.mem_cons_self g2
      | resolve j w =>
        show (if id = j then some w else m id) = m id
        rw [if_neg]
        rintro rfl
        exact g1 w List.mem_cons_self
  unfold getAfter
  refine ⟨?_, ?_, key after _ h1 h2⟩
  · rw [List.foldl_append, List.foldl_cons, key after _ h1 h2]
    simp [step]
  · rw [List.foldl_append, List.foldl_cons, key after _ h1 h2]
    rfl

/-! ## Captured operations -/

/-- **C99, `nonzero`**: the result of the eager operation is one of the shapes recorded when capturing, its row-major layout has the
recorded strides, and the recorded tensor has room for it. -/
theorem C99_nonzero_partial {t : Tensor α} (nz : α → Bool) (ht : t.WF) (hr : t.dims.length ≤ 32) (hd : ∀ n ∈ t.dims, n ≤ 2 ^ 31) (id : Nat) :
    ∃ y n m s, t.nonzero nz = .ok y ∧ captureNonzero t.layout id = .ok (m, s) ∧ Layout'.fromShape s.shape = some s ∧
      Resolves (fun i => if i = id then some n else none) s.shape y.dims ∧ (Layout.fromShape y.dims).strides = s.strides ∧
      m = Layout.fromShape [numel t.dims, t.dims.length] := by
  obtain ⟨y, h1, h2, h3, _⟩ := C63_nonzero_partial nz ht hr hd
  have hsz : t.layout.size = numel t.dims := shapeSize_eq _
  have hle : (hitIndices nz t).length ≤ numel t.dims := by
    unfold hitIndices
    refine le_trans (List.length_filter_le _ _) ?_
    simp [indices]
  have hB : Bounded [.dynamic id (some t.layout.size), .concrete t.layout.ndim] := by
    intro j hj
    simp at hj
  obtain ⟨d, s, g1, g2, g3, g4, g5, g6, g7⟩ := (C99_from_shape _).1 hB
  have e : d = [numel t.dims, t.dims.length] := by
    rw [hsz] at g1
    exact (Option.some.inj (show some [numel t.dims, t.dims.length] = some d from g1)).symm
  subst e
  refine ⟨y, (hitIndices nz t).length, Layout.fromShape [numel t.dims, t.dims.length], s, h1, ?_, ?_, ?_, ?_, rfl⟩
  · unfold captureNonzero
    rw [g2]
    simp only [g6]
  · rw [g3, g2]
  · rw [g3, h3]
    refine .dynamic (by simp) (fun k hk => ?_) (.concrete .nil)
    cases hk
    omega
  · rw [g5, h3]
    rfl

/-- **C99, `unique`**: the same for its values and counts; the inverse is recorded with its own size. -/
theorem C99_unique_partial {t : Tensor Nat} {xs : List Nat} (ht : t.WF) (hx : t.HasValues xs) (sort : List Nat → List Nat)
    (hsort : SortsBy (id : Nat → Nat) sort) (hn : xs.length < 2 ^ 31) (i : Nat) :
    ∃ V I C n m r s, t.unique (· != ·) sort = .ok (V, I, C) ∧ captureUnique t.layout i = .ok (m, r, m, s) ∧
      Layout'.fromShape s.shape = some s ∧ Resolves (fun j => if j = i then some n else none) s.shape V.dims ∧ C.dims = V.dims ∧
      I.dims = r.dims ∧ (Layout.fromShape V.dims).strides = s.strides ∧ m = Layout.fromShape [numel t.dims] := by
  obtain ⟨V, I, C, h1, h2, h3, h4, h5, h6, h7, h8⟩ := C64_unique_partial ht hx sort hsort hn
  have hsz : t.layout.size = numel t.dims := shapeSize_eq _
  have hle : V.storage.length ≤ numel t.dims := by
    obtain ⟨p1, _, _, _, p5⟩ := h2
    have nd : V.storage.Nodup := by
      rw [List.map_id] at p1
      exact p1.imp fun h => Nat.ne_of_lt h
    have hsub : V.storage ⊆ xs := by
      intro w hw
      obtain ⟨k, hk⟩ := List.mem_iff_getElem?.mp hw
      exact (p5 k w hk).1
    rw [← hx.1]
    exact (nd.subperm hsub).length_le
  have hB : Bounded [.dynamic i (some t.layout.size)] := by
    intro j hj
    simp at hj
  obtain ⟨d, s, g1, g2, g3, g4, g5, g6, g7⟩ := (C99_from_shape _).1 hB
  have e : d = [numel t.dims] := by
    rw [hsz] at g1
    exact (Option.some.inj (show some [numel t.dims] = some d from g1)).symm
  subst e
  refine ⟨V, I, C, V.storage.length, Layout.fromShape [numel t.dims], Layout.fromShape [t.layout.size], s, h1, ?_, ?_, ?_, ?_, ?_, ?_, rfl⟩
  · unfold captureUnique
    rw [g2]
    simp only [g6]
  · rw [g3, g2]
  · rw [g3, h6]
    refine .dynamic (by simp) (fun k hk => ?_) .nil
    cases hk
    omega
  · rw [h8, h6]
  · rw [h7, hsz, hx.1]; rfl
  · rw [g5, h6]
    rfl

theorem resolves_set {id n : Nat} (t : List Nat) (a k : Nat) (hk : t[a]? = some k) (h : n ≤ k) :
    Resolves (fun i => if i = id then some n else none) ((fromDims t).set a (.dynamic id (some k))) (t.set a n) := by
  have hc : ∀ t, Resolves (fun i => if i = id then some n else none) (fromDims t) t := by
    intro t
    induction t with
    | nil => exact .nil
    | cons x t ih => exact .concrete ih
  induction t generalizing a with
  | nil => cases hk
  | cons x t ih =>
    cases a with
    | zero => exact .dynamic (by simp) (fun k' e => by cases e; exact h) (hc t)
    | succ a => exact .concrete (ih a hk)

/-- **C99, `compress` along an axis** with a condition that is a whole buffer: the recorded shape covers the result.  Missing: other
conditions (`C99_compress_false`). -/
theorem C99_compress_partial (buf : Nat → List α) {t : Tensor α} (ht : t.WF) (hr : t.dims.length ≤ 32) (bs : List Bool) {axis : Int} {a : Nat}
    (ha : IsAxis t.dims.length axis a) (hk : t.dims[a]? = some bs.length) (id : Nat) :
    ∃ y n m s, t.compress buf (mask bs) (some axis) = .ok y ∧ captureCompress t (mask bs) (some axis) id = .ok (m, s) ∧
      Layout'.fromShape s.shape = some s ∧ Resolves (fun i => if i = id then some n else none) s.shape y.dims ∧
      m = Layout.fromShape t.dims ∧ s.toMaxLayout = some m := by
  obtain ⟨y, h1, h2, h3, _⟩ := C65_axis_partial buf ht hr bs ha hk
  have hcs : (mask bs).layout.size = bs.length := by
    show (Layout.fromShape [bs.length]).size = _
    rw [Layout.size, shapeSize_eq]
    simp [Layout.fromShape, numel]
  have hlt : a < t.dims.length := by rw [List.getElem?_eq_some_iff] at hk; exact hk.1
  have hax : compressAxis t bs.length (some axis) = .ok (some a) := by
    have hn : (if axis < 0 then (t.dims.length : Int) + axis else axis) = a := by
      obtain ⟨_, e | e⟩ := ha
      · rw [if_neg (by omega), e]
      · rw [if_pos (by omega)]; omega
    unfold compressAxis
    simp only [hn]
    rw [if_neg (by omega), if_neg]
    · simp
    · rw [Int.toNat_natCast, List.getD_eq_getElem?_getD, hk]
      simp
  have hset : t.dims.set a bs.length = t.dims := by
    obtain ⟨_, e⟩ := List.getElem?_eq_some_iff.mp hk
    rw [← e]
    simp
  have hB : Bounded ((fromDims t.dims).set a (.dynamic id (some bs.length))) := by
    intro j hj
    rcases List.mem_or_eq_of_mem_set hj with h | h
    · simp [fromDims] at h
    · simp at h
  have hmax : ∀ (t : List Nat) (a : Nat), a < t.length →
      toMaxShape ((fromDims t).set a (.dynamic id (some bs.length))) = some (t.set a bs.length) := by
    have hd : ∀ t, toMaxShape (fromDims t) = some t := by
      intro t
      induction t with
      | nil => rfl
      | cons x t ih =>
        show toMaxShape (.concrete x :: fromDims t) = _
        rw [toMaxShape_cons, ih]
        rfl
    intro t
    induction t with
    | nil => intro a h; cases h
    | cons x t ih =>
      intro a h
      cases a with
      | zero =>
        show toMaxShape (.dynamic id (some bs.length) :: fromDims t) = _
        rw [toMaxShape_cons, hd]
        rfl
      | succ a =>
        show toMaxShape (.concrete x :: (fromDims t).set a _) = _
        rw [toMaxShape_cons, ih a (by simpa using h)]
        rfl
  obtain ⟨d, s, g1, g2, g3, g4, g5, g6, g7⟩ := (C99_from_shape _).1 hB
  have e : d = t.dims := by
    rw [hmax _ _ hlt, hset] at g1
    exact (Option.some.inj g1).symm
  subst e
  have hkept : (keptPositions (mask bs)).length ≤ bs.length := by
    rw [keptPositions_mask]
    refine le_trans (List.length_filter_le _ _) ?_
    simp
  refine ⟨y, (keptPositions (mask bs)).length, Layout.fromShape t.dims, s, h1, ?_, ?_, ?_, rfl, g6⟩
  · unfold captureCompress
    rw [if_neg (by simp [mask, Tensor.dims, Layout.fromShape]), hcs, hax, Res.ok_bind]
    simp only [g2, hset]
  · rw [g3, g2]
  · rw [g3, h3]
    exact resolves_set _ _ _ hk hkept

/-- **C99, `compress` of the flattened tensor**, for a condition that is a whole buffer. -/
theorem C99_compress_flat_partial (buf : Nat → List α) {t : Tensor α} (ht : t.WF) (bs : List Bool) (hk : bs.length = numel t.dims) (id : Nat) :
    ∃ y n m s, t.compress buf (mask bs) none = .ok y ∧ captureCompress t (mask bs) none id = .ok (m, s) ∧
      Layout'.fromShape s.shape = some s ∧ Resolves (fun i => if i = id then some n else none) s.shape y.dims ∧
      (Layout.fromShape y.dims).strides = s.strides ∧ m = Layout.fromShape [numel t.dims] ∧ s.toMaxLayout = some m := by
  obtain ⟨y, h1, _, h3, _⟩ := C65_flat_partial buf ht bs hk
  have hcs : (mask bs).layout.size = bs.length := by
    show (Layout.fromShape [bs.length]).size = _
    rw [Layout.size, shapeSize_eq]
    simp [Layout.fromShape, numel]
  have hsz : t.layout.size = numel t.dims := shapeSize_eq _
  have hax : compressAxis t bs.length none = .ok none := by
    unfold compressAxis
    simp only
    rw [if_neg (by rw [hsz, hk]; simp)]
  have hB : Bounded [.dynamic id (some bs.length)] := by
    intro j hj
    simp at hj
  obtain ⟨d, s, g1, g2, g3, g4, g5, g6, g7⟩ := (C99_from_shape _).1 hB
  have e : d = [bs.length] := (Option.some.inj (show some [bs.length] = some d from g1)).symm
  subst e
  have hkept : (keptPositions (mask bs)).length ≤ bs.length := by
    rw [keptPositions_mask]
    refine le_trans (List.length_filter_le _ _) ?_
    simp
  refine ⟨y, (keptPositions (mask bs)).length, Layout.fromShape [bs.length], s, h1, ?_, ?_, ?_, ?_, by rw [hk], g6⟩
  · unfold captureCompress
    rw [if_neg (by simp [mask, Tensor.dims, Layout.fromShape]), hcs, hax, Res.ok_bind]
    simp only [g2]
  · rw [g3, g2]
  · rw [g3, h3]
    refine .dynamic (by simp) (fun k hk => ?_) .nil
    cases hk
    exact hkept
  · rw [g5, h3]
    rfl

/-! ## What does not hold -/

/-- The offset of a concrete layout is lost on the way back. -/
theorem C99_offset_false :
    (Layout'.fromConcrete ⟨[2], [1], 3⟩).toConcrete = some ⟨[2], [1], 0⟩ ∧
    (Layout'.fromConcrete ⟨[2], [1], 3⟩).toMaxLayout = some ⟨[2], [1], 0⟩ := by decide

/-- The buffer size of a layout that skips elements is too small for it, and replacing a dimension by itself changes the strides. -/
theorem C99_view_false :
    (Layout'.fromConcrete ⟨[2, 2], [10, 1], 0⟩).bufferSize = some 4 ∧ dot [1, 1] (Layout'.fromConcrete ⟨[2, 2], [10, 1], 0⟩).strides = 11 ∧
    ((Layout'.fromConcrete ⟨[2, 3], [1, 2], 0⟩).withDim 0 (.concrete 2)).map (·.strides) = some [3, 1] := by decide

/-- `compress` of a transposed or sliced condition: the recorded bound is 2, and the eager result has 3 elements. -/
theorem C99_compress_false :
    (∃ y, (⟨[7, 8], Layout.fromShape [2]⟩ : Tensor Nat).compress (fun n => List.replicate n 99) ⟨[true, false, true, true], ⟨[2], [1], 0⟩⟩
      (some 0) = .ok y ∧ y.dims = [3]) ∧
    (captureCompress (⟨[7, 8], Layout.fromShape [2]⟩ : Tensor Nat) ⟨[true, false, true, true], ⟨[2], [1], 0⟩⟩ (some 0) 5).map
      (fun r => r.2.shape) = .ok [.dynamic 5 (some 2)] :=
  ⟨⟨⟨[7, 99, 99], Layout.fromShape [3]⟩, by decide +kernel⟩, by decide +kernel⟩

/-- A dynamic dimension behind another one leaves gaps: compressing the columns of a 2×3 matrix to one column has the strides of three. -/
theorem C99_inner_gaps :
    (captureCompress (⟨[1, 2, 3, 4, 5, 6], Layout.fromShape [2, 3]⟩ : Tensor Nat) (mask [false, true, false]) (some 1) 5).map
      (fun r => r.2.strides) = .ok [3, 1] ∧
    ((⟨[1, 2, 3, 4, 5, 6], Layout.fromShape [2, 3]⟩ : Tensor Nat).compress (fun n => List.replicate n 99) (mask [false, true, false])
      (some 1)).map (fun y => (y.dims, y.layout.strides)) = .ok ([2, 1], [1, 1]) := by decide +kernel

/-- Ids repeat after `2 ^ 32` dimensions. -/
theorem C99_ids_false : nthId 0 = nthId (2 ^ 32) := by decide

/-! ## Examples -/

example : Layout'.fromShape [.dynamic 0 (some 4), .concrete 3] = some ⟨[.dynamic 0 (some 4), .concrete 3], [3, 1], 0⟩ ∧
    Layout'.fromShape [.concrete 2, .dynamic 7 none] = none := by decide

example : Resolves (fun i => if i = 0 then some 2 else none) [.dynamic 0 (some 4), .concrete 3] [2, 3] :=
  .dynamic rfl (fun k h => by cases h; decide) (.concrete .nil)

example : (captureNonzero ⟨[2, 3], [3, 1], 0⟩ 9).map (fun r => (r.1.dims, r.2.strides)) = .ok ([6, 2], [2, 1]) := by decide +kernel

example : (captureCompress (⟨[1, 2, 3, 4, 5, 6], Layout.fromShape [2, 3]⟩ : Tensor Nat) (mask [false, true, false, true, true, true]) none 5).map
    (fun r => (r.1.dims, r.2.shape)) = .ok ([6], [.dynamic 5 (some 6)]) := by decide +kernel

example : dimSize [.concrete 2, .dynamic 0 none, .concrete 5] (-1) = some 5 ∧ dimSize [.concrete 2, .dynamic 0 none] (-1) = none ∧
    dimSize [.concrete 2] (-2) = none := by decide

example : getAfter [.resolve 1 5, .clear, .resolve 2 7, .resolve 2 8, .resolve 3 1] 2 = some 8 := by decide

end Hodu.Sym
