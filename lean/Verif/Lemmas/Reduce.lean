import Verif.Lemmas.Meta
import Verif.Lemmas.Move
import Verif.Model.Reduce

/-!
# Lemmas on the reduction kernels
-/

namespace Hodu
open Spec

/-- Overwriting the coordinates listed in `K`. -/
def putAt : List Nat → List Nat → List Nat → List Nat
  | k :: ks, v :: vs, b => (putAt ks vs b).set k v
  | _, _, b => b

theorem putAt_length (K vs b : List Nat) : (putAt K vs b).length = b.length := by
  induction K generalizing vs with
  | nil => simp [putAt]
  | cons k ks ih => cases vs <;> simp [putAt, ih]

theorem putAt_off {K b : List Nat} {i : Nat} (h : i ∉ K) (vs : List Nat) :
    (putAt K vs b)[i]? = b[i]? := by
  induction K generalizing vs with
  | nil => simp [putAt]
  | cons k ks ih =>
    cases vs with
    | nil => simp [putAt]
    | cons v vs =>
      simp only [List.mem_cons, not_or] at h
      rw [putAt, List.getElem?_set_ne (fun e => h.1 e.symm), ih h.2]

theorem putAt_coords {K vs b : List Nat} (hn : K.Nodup) (hk : ∀ k ∈ K, k < b.length)
    (hl : vs.length = K.length) : K.map (fun k => (putAt K vs b).getD k 0) = vs := by
  induction K generalizing vs with
  | nil => cases vs <;> simp_all
  | cons k ks ih =>
    cases vs with
    | nil => simp at hl
    | cons v vs =>
      obtain ⟨h1, h2⟩ := List.nodup_cons.mp hn
      rw [List.map_cons]
      congr 1
      · rw [putAt, List.getD_eq_getElem?_getD, List.getElem?_set_self]
        · rfl
        · rw [putAt_length]; exact hk k (by simp)
      · rw [← ih (vs := vs) h2 (fun x hx => hk x (by simp [hx])) (by simpa using hl)]
        apply List.map_congr_left
        intro x hx
        rw [putAt, List.getD_eq_getElem?_getD, List.getD_eq_getElem?_getD,
          List.getElem?_set_ne (by rintro rfl; exact h1 hx), ih h2 (fun x hx => hk x (by simp [hx]))
            (by simpa using hl)]

theorem putAt_self {K j b : List Nat} (hl : j.length = b.length)
    (h : ∀ i, i ∉ K → j[i]? = b[i]?) (hk : ∀ k ∈ K, k < b.length) :
    putAt K (K.map fun k => j.getD k 0) b = j := by
  have main : ∀ L : List Nat, (∀ k ∈ L, k < b.length) → ∀ i,
      (putAt L (L.map fun k => j.getD k 0) b)[i]? = if i ∈ L then j[i]? else b[i]? := by
    intro L
    induction L with
    | nil => intro _ i; simp [putAt]
    | cons k ks ih =>
      intro hL i
      rw [List.map_cons, putAt]
      by_cases e : k = i
      · subst e
        have := hL k (by simp)
        rw [List.getElem?_set_self (by rw [putAt_length]; exact this), if_pos (by simp),
          List.getD_eq_getElem?_getD, List.getElem?_eq_getElem (by omega)]
        rfl
      · rw [List.getElem?_set_ne e, ih (fun x hx => hL x (by simp [hx]))]
        have : (i ∈ k :: ks) ↔ i ∈ ks := by simp [show ¬ i = k from fun h => e h.symm]
        simp [this]
  apply List.ext_getElem?
  intro i
  rw [main K hk]
  split
  · rfl
  · rw [h i ‹_›]

theorem setReduced_eq {dims K : List Nat} (hk : ∀ k ∈ K, k < dims.length) (b : List Nat) (r : Nat) :
    setReduced dims K (b, r) =
      .ok (putAt K (cUnravel (K.map fun k => dims.getD k 0) r).1 b,
        (cUnravel (K.map fun k => dims.getD k 0) r).2) := by
  induction K with
  | nil => rfl
  | cons k ks ih =>
    have h := hk k (by simp)
    rw [setReduced, ih (fun x hx => hk x (by simp [hx])), Res.ok_bind]
    have : readC dims k = .ok (dims.getD k 0) := by
      rw [readC_eq_ok, List.getD_eq_getElem?_getD, List.getElem?_eq_getElem h]; rfl
    simp only [this, Res.ok_bind]
    simp [cUnravel, putAt]

theorem reduceSize_eq (dims K : List Nat) :
    reduceSize dims K = numel (K.map fun k => dims.getD k 0) := by
  have : ∀ a, K.foldl (fun acc k => acc * dims.getD k 0) a =
      a * numel (K.map fun k => dims.getD k 0) := by
    induction K with
    | nil => intro a; simp [numel]
    | cons k ks ih => intro a; rw [List.foldl_cons, ih, List.map_cons, numel, Nat.mul_assoc]
  rw [reduceSize, this, Nat.one_mul]

theorem decodeReduce_reduceMetadata {l : Layout} (hl : l.strides.length = l.dims.length)
    (K : List Nat) (keep : Bool) :
    decodeReduce (reduceMetadata l K keep) =
      .ok { nd := l.dims.length, dims := l.dims, strides := l.strides, offset := l.offset,
            outShape := reduceBackendDims l.dims K keep, axes := K, keep := keep,
            reduceSize := reduceSize l.dims K } := by
  have h0 := At.start (reduceMetadata l K keep)
  unfold decodeReduce
  generalize hm : reduceMetadata l K keep = md at h0 ⊢
  conv at h0 => arg 3; rw [← hm]
  simp only [reduceMetadata, List.append_assoc, List.cons_append, List.nil_append] at h0
  generalize reduceBackendDims l.dims K keep = out at h0 ⊢
  have h1 := h0.next 1 rfl
  have h2 := h1.skip rfl (1 + l.dims.length) rfl
  have h3 := h2.skip hl (1 + 2 * l.dims.length) (by omega)
  have h4 := h3.next (2 + 2 * l.dims.length) (by omega)
  have h5 := h4.next (3 + 2 * l.dims.length) (by omega)
  have h6 := h5.skip rfl (3 + 2 * l.dims.length + out.length) rfl
  have h7 := h6.next (4 + 2 * l.dims.length + out.length) (by omega)
  have h8 := h7.skip rfl (4 + 2 * l.dims.length + out.length + K.length) rfl
  have h9 := h8.next (5 + 2 * l.dims.length + out.length + K.length) (by omega)
  simp only [h0.read, Res.ok_bind, h1.slice rfl, h2.slice hl, h3.read, h4.read, h5.slice rfl,
    h6.read, h7.slice rfl, h8.read, h9.read]
  cases keep <;> rfl

/-! ## Output index and input index -/

/-- The sizes of the reduced dimensions become 1. -/
def Spec.unitAxes (K : List Nat) (dims : List Nat) : List Nat :=
  dims.mapIdx fun k d => if k ∈ K then 1 else d

/-- The coordinates of the reduced dimensions become 0. -/
def Spec.zeroAxes (K : List Nat) (idx : List Nat) : List Nat :=
  idx.mapIdx fun k i => if k ∈ K then 0 else i

/-- Shape of a reduction over the dimensions `K`. -/
def Spec.reduceShape (K : List Nat) (keep : Bool) (dims : List Nat) : List Nat :=
  if keep then unitAxes K dims else dropAxes K 0 dims

/-- The output position an input position contributes to. -/
def Spec.reduceIndex (K : List Nat) (keep : Bool) (j : List Nat) : List Nat :=
  if keep then zeroAxes K j else dropAxes K 0 j

theorem dropAxes_spread {K : List Nat} (i : Nat) (dims oi : List Nat)
    (h : oi.length = (dropAxes K i dims).length) :
    dropAxes K i (spreadIdx K i dims.length oi) = oi := by
  induction dims generalizing i oi with
  | nil => simp only [dropAxes, List.length_nil, List.length_eq_zero_iff] at h; subst h; rfl
  | cons d ds ih =>
    by_cases hi : i ∈ K
    · rw [dropAxes, if_pos hi] at h
      have : K.contains i = true := by simpa using hi
      rw [List.length_cons, spreadIdx, if_pos this, dropAxes, if_pos hi]
      exact ih _ _ h
    · rw [dropAxes, if_neg hi] at h
      have : ¬ K.contains i = true := by simpa using hi
      rw [List.length_cons, spreadIdx, if_neg this, dropAxes, if_neg hi]
      cases oi with
      | nil => simp at h
      | cons o oi => simp only [List.headD_cons, List.tail_cons]; rw [ih]; simpa using h

theorem spreadIdx_length (K : List Nat) (i n : Nat) (oi : List Nat) :
    (spreadIdx K i n oi).length = n := by
  induction n generalizing i oi with
  | zero => rfl
  | succ n ih => rw [spreadIdx]; split <;> simp [ih]

theorem spread_dropAxes {K : List Nat} (i : Nat) (j : List Nat) (p : Nat) (hp : i + p ∉ K) :
    (spreadIdx K i j.length (dropAxes K i j))[p]? = j[p]? := by
  induction j generalizing i p with
  | nil => simp [spreadIdx]
  | cons c cs ih =>
    by_cases hi : i ∈ K
    · have : K.contains i = true := by simpa using hi
      rw [List.length_cons, spreadIdx, if_pos this, dropAxes, if_pos hi]
      cases p with
      | zero => exact absurd hi hp
      | succ p => simpa using ih (i + 1) p (by rwa [show i + 1 + p = i + (p + 1) by omega])
    · have : ¬ K.contains i = true := by simpa using hi
      rw [List.length_cons, spreadIdx, if_neg this, dropAxes, if_neg hi]
      cases p with
      | zero => simp
      | succ p => simpa using ih (i + 1) p (by rwa [show i + 1 + p = i + (p + 1) by omega])

theorem dropAxes_congr_off {K : List Nat} (i : Nat) {a b : List Nat} (hl : a.length = b.length)
    (h : ∀ p, i + p ∉ K → a[p]? = b[p]?) : dropAxes K i a = dropAxes K i b := by
  induction a generalizing b i with
  | nil => cases b <;> simp_all
  | cons x xs ih =>
    cases b with
    | nil => simp at hl
    | cons y ys =>
      have ih := ih (i + 1) (b := ys) (by simpa using hl) (fun p hp => by
        simpa using h (p + 1) (by rwa [show i + (p + 1) = i + 1 + p by omega]))
      by_cases hi : i ∈ K
      · rw [dropAxes, dropAxes, if_pos hi, if_pos hi, ih]
      · rw [dropAxes, dropAxes, if_neg hi, if_neg hi, ih]
        have := h 0 (by simpa using hi)
        simp at this
        rw [this]

theorem inRange_dropAxes {K : List Nat} (i : Nat) {j dims : List Nat} (h : InRange j dims) :
    InRange (dropAxes K i j) (dropAxes K i dims) := by
  induction dims generalizing i j with
  | nil => cases j <;> simp_all [InRange, dropAxes]
  | cons d ds ih =>
    cases j with
    | nil => exact h.elim
    | cons c cs =>
      by_cases hi : i ∈ K
      · rw [dropAxes, dropAxes, if_pos hi, if_pos hi]; exact ih _ h.2
      · rw [dropAxes, dropAxes, if_neg hi, if_neg hi]; exact ⟨h.1, ih _ h.2⟩

theorem spread_lt {K : List Nat} (i : Nat) {oi dims : List Nat} (h : InRange oi (dropAxes K i dims))
    (p : Nat) (hp : i + p ∉ K) (d : Nat) (hd : dims[p]? = some d) :
    ∃ c, (spreadIdx K i dims.length oi)[p]? = some c ∧ c < d := by
  induction dims generalizing i oi p with
  | nil => simp at hd
  | cons e es ih =>
    by_cases hi : i ∈ K
    · have : K.contains i = true := by simpa using hi
      rw [dropAxes, if_pos hi] at h
      rw [List.length_cons, spreadIdx, if_pos this]
      cases p with
      | zero => exact absurd hi hp
      | succ p =>
        simpa using ih (i + 1) h p (by rwa [show i + 1 + p = i + (p + 1) by omega]) (by simpa using hd)
    · have : ¬ K.contains i = true := by simpa using hi
      rw [dropAxes, if_neg hi] at h
      cases oi with
      | nil => exact h.elim
      | cons o oi =>
        rw [List.length_cons, spreadIdx, if_neg this]
        cases p with
        | zero =>
          have hd : e = d := by simpa using hd
          subst hd
          exact ⟨o, by simp, h.1⟩
        | succ p =>
          simpa using ih (i + 1) h.2 p (by rwa [show i + 1 + p = i + (p + 1) by omega])
            (by simpa using hd)

/-- `b` is a starting index from which exactly the positions contributing to `idx` are reached by
changing coordinates of reduced dimensions. -/
structure IsBase (K : List Nat) (keep : Bool) (dims idx b : List Nat) : Prop where
  len : b.length = dims.length
  lt : ∀ p, p ∉ K → ∀ d, dims[p]? = some d → ∃ c, b[p]? = some c ∧ c < d
  iff : ∀ j : List Nat, j.length = dims.length →
    (reduceIndex K keep j = idx ↔ ∀ p, p ∉ K → j[p]? = b[p]?)

theorem isBase_drop {K dims idx : List Nat} (h : InRange idx (reduceShape K false dims)) :
    IsBase K false dims idx (spreadIdx K 0 dims.length idx) := by
  have h : InRange idx (dropAxes K 0 dims) := h
  refine ⟨spreadIdx_length _ _ _ _, fun p hp d hd => spread_lt 0 h p (by simpa using hp) d hd, ?_⟩
  intro j hj
  show dropAxes K 0 j = idx ↔ _
  constructor
  · rintro rfl p hp
    rw [← hj]
    exact (spread_dropAxes 0 j p (by simpa using hp)).symm
  · intro hp
    rw [dropAxes_congr_off 0 (b := spreadIdx K 0 dims.length idx) (by rw [hj, spreadIdx_length])
      (fun p h => hp p (by simpa using h))]
    exact dropAxes_spread 0 dims idx h.length

theorem isBase_keep {K dims idx : List Nat} (h : InRange idx (reduceShape K true dims)) :
    IsBase K true dims idx idx := by
  have h : InRange idx (unitAxes K dims) := h
  have hl : idx.length = dims.length := by rw [h.length]; simp [unitAxes]
  refine ⟨hl, ?_, ?_⟩
  · intro p hp d hd
    exact inRange_get h (by simp [unitAxes, hd, hp])
  · intro j hj
    show zeroAxes K j = idx ↔ _
    constructor
    · rintro rfl p hp
      simp [zeroAxes, hp]
    · intro hp
      apply List.ext_getElem?
      intro p
      by_cases hk : p ∈ K
      · simp only [zeroAxes, List.getElem?_mapIdx, hk, if_true]
        by_cases hpl : p < dims.length
        · obtain ⟨c, hc, hc1⟩ := inRange_get h (k := p) (d := 1) (by simp [unitAxes, hk, hpl])
          rw [hc, List.getElem?_eq_getElem (by omega), show c = 0 by omega]; rfl
        · rw [List.getElem?_eq_none (by omega), List.getElem?_eq_none (by omega)]; rfl
      · rw [← hp p hk]
        simp [zeroAxes, hk]

/-- `js` lists the input positions contributing to the output position `idx`, each once, in row-major
order of their coordinates along `K` (in the order in which the axes are listed). -/
structure Spec.Fibre (K : List Nat) (keep : Bool) (dims idx : List Nat) (js : List (List Nat)) :
    Prop where
  mem : ∀ j, j ∈ js ↔ InRange j dims ∧ reduceIndex K keep j = idx
  order : js.map (fun j => rowMajor (K.map fun k => dims.getD k 0) (K.map fun k => j.getD k 0)) =
    List.range js.length

theorem Spec.Fibre.nodup {K dims idx : List Nat} {keep : Bool} {js : List (List Nat)}
    (h : Fibre K keep dims idx js) : js.Nodup := by
  have := List.nodup_range (n := js.length)
  rw [← h.order] at this
  exact List.Nodup.of_map _ this

theorem coords_inRange {K j dims : List Nat} (h : InRange j dims) (hk : ∀ k ∈ K, k < dims.length) :
    InRange (K.map fun k => j.getD k 0) (K.map fun k => dims.getD k 0) := by
  induction K with
  | nil => trivial
  | cons k ks ih =>
    have hkl := hk k (by simp)
    obtain ⟨c, h1, h2⟩ := inRange_get h (k := k) (List.getElem?_eq_getElem hkl)
    refine ⟨?_, ih fun x hx => hk x (by simp [hx])⟩
    simp only [List.getD_eq_getElem?_getD, h1, List.getElem?_eq_getElem hkl, Option.getD_some]
    exact h2

theorem putAt_inRange {K dims b vs : List Nat} {idx : List Nat} {keep : Bool}
    (hb : IsBase K keep dims idx b) (hn : K.Nodup) (hk : ∀ k ∈ K, k < dims.length)
    (hv : InRange vs (K.map fun k => dims.getD k 0)) : InRange (putAt K vs b) dims := by
  rw [inRange_iff]
  refine ⟨by rw [putAt_length, hb.len], ?_⟩
  intro i h1 h2
  by_cases hi : i ∈ K
  · obtain ⟨p, hp, rfl⟩ := List.mem_iff_getElem.mp hi
    have hlen : vs.length = K.length := by rw [hv.length]; simp
    have := putAt_coords (b := b) hn (fun k hkk => by rw [hb.len]; exact hk k hkk) hlen
    have h3 := congrArg (fun l => l[p]?) this
    simp only [List.getElem?_map, List.getElem?_eq_getElem hp, Option.map_some,
      List.getD_eq_getElem?_getD, List.getElem?_eq_getElem h1, Option.getD_some] at h3
    obtain ⟨c, h4, h5⟩ := inRange_get hv (k := p) (d := dims.getD K[p] 0) (by simp [hp])
    rw [h4] at h3
    have h3 := Option.some.inj h3
    rw [h3]
    simpa [List.getD_eq_getElem?_getD, h2] using h5
  · obtain ⟨c, h3, h4⟩ := hb.lt i hi _ (List.getElem?_eq_getElem h2)
    have := putAt_off (b := b) hi vs
    rw [h3, List.getElem?_eq_getElem h1] at this
    rw [Option.some.inj this]; exact h4

theorem fibre_of_base {K dims idx b : List Nat} {keep : Bool} (hb : IsBase K keep dims idx b)
    (hn : K.Nodup) (hk : ∀ k ∈ K, k < dims.length) :
    Fibre K keep dims idx ((List.range (numel (K.map fun k => dims.getD k 0))).map fun r =>
      putAt K (unravel (K.map fun k => dims.getD k 0) r) b) := by
  have hkb : ∀ k ∈ K, k < b.length := fun k h => by rw [hb.len]; exact hk k h
  constructor
  · intro j
    simp only [List.mem_map, List.mem_range]
    constructor
    · rintro ⟨r, hr, rfl⟩
      refine ⟨putAt_inRange hb hn hk (unravel_inRange hr), ?_⟩
      rw [hb.iff _ (by rw [putAt_length, hb.len])]
      intro p hp
      exact putAt_off hp _
    · rintro ⟨h1, h2⟩
      rw [hb.iff _ h1.length] at h2
      have hc := coords_inRange (K := K) h1 hk
      refine ⟨_, rowMajor_lt hc, ?_⟩
      rw [unravel_rowMajor hc]
      exact putAt_self (by rw [h1.length, hb.len]) h2 hkb
  · rw [List.map_map, List.length_map, List.length_range]
    conv => rhs; rw [← List.map_id (List.range _)]
    apply List.map_congr_left
    intro r hr
    have hr := List.mem_range.mp hr
    simp only [Function.comp]
    rw [putAt_coords hn hkb (by rw [unravel_length]; simp)]
    exact rowMajor_unravel hr

theorem flatMap_range_eq {K : List Nat} (f : Nat → List Nat) (i : Nat) (dims : List Nat) :
    ((List.range dims.length).flatMap fun p => if K.contains (i + p) then f (i + p) else [dims.getD p 0]) =
      (dims.zipIdx i).flatMap fun q => if q.2 ∈ K then f q.2 else [q.1] := by
  induction dims generalizing i with
  | nil => rfl
  | cons d ds ih =>
    rw [List.length_cons, List.range_succ_eq_map, List.flatMap_cons, List.flatMap_map,
      List.zipIdx_cons, List.flatMap_cons, ← ih (i + 1)]
    simp only [Nat.add_zero, List.getD_cons_zero, List.getD_cons_succ, List.contains_eq_mem,
      decide_eq_true_eq, Nat.add_assoc, Nat.add_comm 1]

theorem flatMap_dropAxes (K : List Nat) (i : Nat) (dims : List Nat) :
    ((dims.zipIdx i).flatMap fun q => if q.2 ∈ K then [] else [q.1]) = dropAxes K i dims := by
  induction dims generalizing i with
  | nil => rfl
  | cons d ds ih =>
    rw [List.zipIdx_cons, List.flatMap_cons, ih, dropAxes]
    split <;> simp

theorem flatMap_unitAxes (K : List Nat) (i : Nat) (dims : List Nat) :
    ((dims.zipIdx i).flatMap fun q => if q.2 ∈ K then [1] else [q.1]) =
      dims.mapIdx fun k d => if i + k ∈ K then 1 else d := by
  induction dims generalizing i with
  | nil => rfl
  | cons d ds ih =>
    rw [List.zipIdx_cons, List.flatMap_cons, ih, List.mapIdx_cons]
    simp only [Nat.add_zero, Nat.add_assoc, Nat.add_comm 1]
    split <;> simp

theorem reduceBackendDims_eq (dims K : List Nat) (keep : Bool) :
    reduceBackendDims dims K keep =
      if reduceShape K keep dims = [] then [1] else reduceShape K keep dims := by
  have : ((List.range dims.length).flatMap fun i =>
      if K.contains i then (if keep then [1] else []) else [dims.getD i 0]) =
        reduceShape K keep dims := by
    have h := flatMap_range_eq (K := K) (fun _ => if keep then [1] else []) 0 dims
    simp only [Nat.zero_add] at h
    rw [h]
    cases keep
    · exact flatMap_dropAxes K 0 dims
    · have := flatMap_unitAxes K 0 dims
      simpa [reduceShape, unitAxes] using this
  simp only [reduceBackendDims, this, List.isEmpty_iff]

theorem setAll_eq {K dims : List Nat} (hk : ∀ k ∈ K, k < dims.length) (v : Nat) :
    setAll v K dims = .ok (dims.mapIdx fun k d => if k ∈ K then v else d) := by
  induction K generalizing dims with
  | nil =>
    rw [setAll]
    congr 1
    apply List.ext_getElem?
    intro i
    simp
  | cons k ks ih =>
    rw [setAll, if_pos (hk k (by simp)), ih (by simpa using fun x hx => hk x (by simp [hx]))]
    congr 1
    apply List.ext_getElem?
    intro i
    simp only [List.getElem?_mapIdx, List.mem_cons]
    by_cases e : k = i
    · subst e
      have := hk k (by simp)
      rw [List.getElem?_set_self this, List.getElem?_eq_getElem this]
      simp
    · rw [List.getElem?_set_ne e]
      simp [show ¬ i = k from fun h => e h.symm]

theorem filter_dropAxes (K : List Nat) (i : Nat) (dims : List Nat)
    (h : ∀ p, i + p ∉ K → dims[p]? ≠ some 0) :
    (dims.mapIdx fun k d => if i + k ∈ K then 0 else d).filter (· != 0) = dropAxes K i dims := by
  induction dims generalizing i with
  | nil => rfl
  | cons d ds ih =>
    rw [List.mapIdx_cons, dropAxes]
    have ih := ih (i + 1) (fun p hp => by
      simpa using h (p + 1) (by rwa [show i + (p + 1) = i + 1 + p by omega]))
    simp only [Nat.add_assoc, Nat.add_comm 1] at ih
    by_cases hi : i ∈ K
    · simp [hi, ih]
    · have hd : d ≠ 0 := by simpa using h 0 (by simpa using hi)
      simp [hi, ih, hd]

theorem reduceHostDims_eq {K dims : List Nat} {keep : Bool} (hk : ∀ k ∈ K, k < dims.length)
    (hz : keep = false → ∀ p, p ∉ K → dims[p]? ≠ some 0) :
    reduceHostDims dims K keep = .ok (reduceShape K keep dims) := by
  unfold reduceHostDims
  rw [setAll_eq hk, Res.ok_bind]
  cases keep
  · have := filter_dropAxes K 0 dims (fun p hp => hz rfl p (by simpa using hp))
    simp only [Nat.zero_add] at this
    simpa [reduceShape] using this
  · simp [reduceShape, unitAxes]

/-- The index the kernel starts from. -/
theorem reduceBase_eq {dims strides idx K : List Nat} {keep : Bool} {off sz : Nat}
    (hi : InRange idx (reduceShape K keep dims)) :
    IsBase K keep dims idx (reduceBase
      { nd := dims.length, dims := dims, strides := strides, offset := off,
        outShape := reduceBackendDims dims K keep, axes := K, keep := keep, reduceSize := sz }
      (rowMajor (reduceShape K keep dims) idx)) := by
  unfold reduceBase
  simp only
  rw [reduceBackendDims_eq]
  by_cases he : reduceShape K keep dims = []
  · rw [if_pos he]
    rw [he] at hi ⊢
    have hi0 : idx = [] := by cases idx with
      | nil => rfl
      | cons _ _ => exact hi.elim
    subst hi0
    rw [show rowMajor [] [] = 0 from rfl, show (cUnravel [1] 0).1 = [0] from rfl]
    cases keep
    · have h2 := isBase_drop (K := K) (dims := dims) (idx := []) (by rw [he]; trivial)
      have : spreadIdx K 0 dims.length [0] = spreadIdx K 0 dims.length [] := by
        have he : dropAxes K 0 dims = [] := he
        have key : ∀ i (ds : List Nat), dropAxes K i ds = [] →
            spreadIdx K i ds.length [0] = spreadIdx K i ds.length [] := by
          intro i ds
          induction ds generalizing i with
          | nil => intro _; rfl
          | cons d ds ih =>
            intro h
            rw [dropAxes] at h
            split at h
            · rename_i hm
              have : K.contains i = true := by simpa using hm
              rw [List.length_cons, spreadIdx, spreadIdx, if_pos this, if_pos this, ih _ h]
            · cases h
        exact key 0 dims he
      simp only [Bool.false_eq_true, if_false]
      rw [this]; exact h2
    · have hd : dims = [] := by
        have he : unitAxes K dims = [] := he
        simpa [unitAxes] using he
      subst hd
      exact isBase_keep (K := K) (dims := []) (idx := []) trivial
  · rw [if_neg he, cUnravel_rowMajor hi]
    cases keep
    · exact isBase_drop hi
    · have : idx.length = dims.length := by
        rw [hi.length]; simp [reduceShape, unitAxes]
      simp only [if_true]
      rw [List.take_of_length_le (by omega)]
      exact isBase_keep hi

theorem exists_vals {f : γ → Option α} {L : List γ} (h : ∀ x ∈ L, ∃ v, f x = some v) :
    ∃ vals : List α, L.map f = vals.map some := by
  induction L with
  | nil => exact ⟨[], rfl⟩
  | cons x xs ih =>
    obtain ⟨v, hv⟩ := h x (by simp)
    obtain ⟨vs, hvs⟩ := ih fun y hy => h y (by simp [hy])
    exact ⟨v :: vs, by simp [hv, hvs]⟩

theorem mapL_zip {F : γ → Res (δ × α)} {f : γ → Option α} {h : γ → δ} {L : List γ} {vals : List α}
    (hv : L.map f = vals.map some) (hF : ∀ x ∈ L, ∀ v, f x = some v → F x = .ok (h x, v)) :
    Res.mapL F L = .ok ((L.map h).zip vals) := by
  induction L generalizing vals with
  | nil => rfl
  | cons x xs ih =>
    cases vals with
    | nil => simp at hv
    | cons v vs =>
      simp only [List.map_cons, List.cons.injEq] at hv
      rw [Res.mapL, hF x (by simp) v hv.1, Res.ok_bind, ih hv.2 fun y hy => hF y (by simp [hy])]
      rfl

/-- What one output cell visits. -/
theorem reduceVisits_ok {t : Tensor α} {idx K : List Nat} {keep : Bool} (ht : t.WF)
    (hn : K.Nodup) (hk : ∀ k ∈ K, k < t.dims.length) (hi : InRange idx (reduceShape K keep t.dims)) :
    ∃ js vals, Fibre K keep t.dims idx js ∧ js.map t.elem = vals.map some ∧
      reduceVisits
        { nd := t.dims.length, dims := t.dims, strides := t.layout.strides, offset := t.layout.offset,
          outShape := reduceBackendDims t.dims K keep, axes := K, keep := keep,
          reduceSize := reduceSize t.dims K } t.storage
        (rowMajor (reduceShape K keep t.dims) idx) = .ok (js.zip vals) := by
  have hb := reduceBase_eq (strides := t.layout.strides) (off := t.layout.offset)
    (sz := reduceSize t.dims K) hi
  generalize hbe : reduceBase
    { nd := t.dims.length, dims := t.dims, strides := t.layout.strides, offset := t.layout.offset,
      outShape := reduceBackendDims t.dims K keep, axes := K, keep := keep,
      reduceSize := reduceSize t.dims K } (rowMajor (reduceShape K keep t.dims) idx) = b at hb
  have hf := fibre_of_base hb hn hk
  generalize hdk : K.map (fun k => t.dims.getD k 0) = dK at hf
  have hread : ∀ r, r < numel dK → ∃ v, t.elem (putAt K (unravel dK r) b) = some v := by
    intro r hr
    have : putAt K (unravel dK r) b ∈ (List.range (numel dK)).map fun r => putAt K (unravel dK r) b :=
      List.mem_map.mpr ⟨r, by simpa using hr, rfl⟩
    exact Option.isSome_iff_exists.mp (ht.2 _ ((hf.mem _).mp this).1)
  obtain ⟨vals, hv⟩ := exists_vals (L := List.range (numel dK))
    (f := fun r => t.elem (putAt K (unravel dK r) b)) (fun r hr => hread r (by simpa using hr))
  refine ⟨_, vals, hf, by rw [← hv, List.map_map]; rfl, ?_⟩
  unfold reduceVisits
  simp only
  rw [hbe, reduceSize_eq, hdk]
  apply mapL_zip hv
  intro r hr v hv
  have hr : r < numel dK := by simpa using hr
  rw [setReduced_eq hk, hdk, cUnravel_eq, Nat.mod_eq_of_lt hr, Res.ok_bind]
  simp only [cFlat_eq]
  have : readC t.storage (t.layout.offset + dot (putAt K (unravel dK r) b) t.layout.strides) =
      .ok v := readC_eq_ok.mpr hv
  rw [this, Res.ok_bind]

end Hodu
