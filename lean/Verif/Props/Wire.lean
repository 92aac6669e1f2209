import Verif.Lemmas.Wire

/-!
# C101: files of snapshots and of named tensors
-/

namespace Hodu.Wire
open Flt Cast Creation Scal Wire.Spec _root_.Hodu.Spec

/-! ## Schemas of the code -/

theorem wide_alts {ts : List Ty} (h : ∀ t ∈ ts, Wide t) : Wide (.alts ts) := fun i => h _ (List.get_mem ts i)

theorem wide_struct {ts : List Ty} (h : ∀ t ∈ ts, Wide t) : Wide (.struct ts) := by
  induction ts with
  | nil => trivial
  | cons t ts ih =>
    cases ts with
    | nil => exact h t (by simp)
    | cons u us => exact ⟨h t (by simp), ih fun x hx => h x (by simp only [List.mem_cons] at hx ⊢; tauto)⟩

theorem wide_usize : Wide .usize := by unfold Ty.usize; simp [Wide]
theorem wide_usizes (n : Nat) : Wide (usizes n) := wide_struct fun t ht => by rw [List.eq_of_mem_replicate ht]; exact wide_usize
theorem wide_plain (n : Nat) : Wide (.plain n) := fun _ => trivial
theorem wide_dimId : Wide dimIdTy := by unfold dimIdTy; simp [Wide]

theorem wide_scalar (F : Feats) : Wide (scalarTy F) := by
  refine wide_alts fun t ht => ?_
  obtain ⟨v, hv, rfl⟩ := List.mem_map.1 ht
  unfold scalarVariants at hv
  simp only [List.mem_append, List.mem_cons, List.not_mem_nil, or_false] at hv
  rcases hv with (((((((((((h | h) | h) | h) | h) | h) | h) | h) | h) | h) | h) | h) | h <;>
    first
      | (rcases h with rfl | rfl | rfl <;> simp [Wide])
      | (rcases h with rfl | rfl <;> simp [Wide])
      | (subst h; simp [Wide])
      | (split at h <;> simp at h; subst h; simp [Wide])

theorem wide_layout : Wide layoutTy :=
  wide_struct (by simp only [List.forall_mem_cons]; exact ⟨wide_usize, wide_usize, wide_usize, by simp⟩)

theorem wide_dim : Wide dimTy :=
  wide_alts (by simp only [List.forall_mem_cons]; exact ⟨wide_usize, ⟨wide_dimId, wide_usize⟩, by simp⟩)

theorem wide_symLayout : Wide symLayoutTy := ⟨wide_dim, wide_usize, wide_usize⟩

theorem wide_op : Wide opTy := by
  refine wide_alts ?_
  simp only [List.forall_mem_cons]
  refine ⟨wide_plain _, wide_plain _, wide_plain _, wide_plain _, wide_plain _, wide_plain _, wide_plain _, wide_plain _, wide_plain _,
    wide_plain _, wide_plain _, wide_plain _, wide_plain _, wide_plain _, wide_plain _, wide_plain _, wide_plain _, wide_plain _,
    wide_plain _, wide_plain _, wide_plain _, wide_plain _, wide_plain _, wide_plain _, wide_plain _, wide_plain _, wide_plain _,
    wide_plain _, trivial, by simp⟩

theorem wide_params (F : Feats) : Wide (paramsTy F) := by
  have s := wide_scalar F
  have u := wide_usize
  have d := wide_dimId
  have n32 : Wide (.uint 32) := by simp [Wide]
  have i32 : Wide (.int 32) := by simp [Wide]
  refine wide_alts ?_
  simp only [List.forall_mem_cons]
  exact ⟨trivial, trivial, trivial, trivial, n32, trivial, s, trivial, trivial, s, trivial, trivial, trivial, trivial, trivial,
    ⟨s, trivial⟩, s, ⟨s, s, u⟩, s, s, s, s, s, s, s, ⟨s, s, trivial⟩, d, ⟨u, u, d⟩, ⟨s, d⟩,
    wide_usizes _, wide_usizes _, wide_usizes _, wide_usizes _, wide_usizes _, wide_usizes _,
    wide_usizes _, wide_usizes _, wide_usizes _, wide_usizes _, wide_usizes _, wide_usizes _,
    ⟨u, u, ⟨u, u⟩, u⟩, ⟨⟨u, u⟩, s⟩, u, ⟨u, i32, trivial, trivial, u⟩, ⟨trivial, trivial, trivial, trivial⟩,
    ⟨u, wide_plain _, wide_plain _, wide_plain _⟩, trivial, trivial, trivial, trivial, trivial, trivial, trivial, u, ⟨s, s, s, s⟩,
    trivial, trivial, trivial, trivial, by simp⟩

theorem wide_node (F : Feats) : Wide (nodeTy F) :=
  ⟨wide_op, wide_params F, wide_usize, wide_usize, wide_layout, wide_layout, trivial, wide_symLayout⟩

theorem wide_snapshot (F : Feats) : Wide (snapshotTy F) :=
  ⟨trivial, ⟨trivial, wide_usize, wide_usize, trivial⟩, ⟨wide_usize, trivial, wide_usize, trivial, trivial⟩, ⟨trivial, wide_usize⟩,
    wide_node F⟩

theorem wide_tensorData (F : Feats) : Wide (tensorDataTy F) := ⟨wide_usize, trivial, trivial⟩

/-- A reference rounding to the eight-bit types: to nearest, ties to even. -/
def Spec.refFp8 (dt : DType) (b : Nat) : Nat := match Scal.small dt with
  | some f => halfOf f b
  | none => 0

theorem refFp8_inverse : Inverse refFp8 := by
  intro dt f x _ hs hx
  unfold refFp8
  rw [hs, smallUp_eq hs]
  exact half_small hs hx

/-! ## Snapshots -/

/-- **C101, saving and loading a snapshot.**  For every choice of optional element types and every snapshot (every operation, every
parameters, texts of any Unicode characters, lengths that fit 64 bits, scalars of the small float types that are not NaN): loading what was saved
gives back the same snapshot, with the same optional types; whatever follows in the file is ignored. -/
theorem C101_round_trip {fp8 : DType → Nat → Nat} (hf : Inverse fp8) (F : Feats) (s : (snapshotTy F).Val) (hs : Valid (snapshotTy F) s)
    (rest : List Nat) : loadSnapshot fp8 F (saveSnapshot F s ++ rest) = some s := by
  unfold loadSnapshot saveSnapshot fromBytes
  rw [dec_enc hf _ (wide_snapshot F) s hs rest]
  rfl

/-- **C101, files are distinct.**  Two snapshots give the same file only when they are equal; no file is a proper beginning of another one. -/
theorem C101_distinct (F : Feats) (s s' : (snapshotTy F).Val) (hs : Valid (snapshotTy F) s) (hs' : Valid (snapshotTy F) s')
    (rest rest' : List Nat) (h : saveSnapshot F s ++ rest = saveSnapshot F s' ++ rest') : s = s' ∧ rest = rest' := by
  have h1 := dec_enc refFp8_inverse _ (wide_snapshot F) s hs rest
  have h2 := dec_enc refFp8_inverse _ (wide_snapshot F) s' hs' rest'
  unfold saveSnapshot at h
  rw [h, h2] at h1
  simp only [Option.some.injEq, Prod.mk.injEq] at h1
  exact ⟨h1.1.symm, h1.2.symm⟩

/-- **C101, files that are cut off.**  Loading a proper beginning of a saved file is an error, wherever it was cut. -/
theorem C101_cut {fp8 : DType → Nat → Nat} (hf : Inverse fp8) (F : Feats) (s : (snapshotTy F).Val) (hs : Valid (snapshotTy F) s)
    (p q : List Nat) (hq : q ≠ []) (h : saveSnapshot F s = p ++ q) : loadSnapshot fp8 F p = none := by
  unfold loadSnapshot fromBytes
  cases hp : decT fp8 (snapshotTy F) p with
  | none => rfl
  | some z =>
    have h1 := dec_mono fp8 _ p q z.1 z.2 hp
    have h2 := dec_enc hf _ (wide_snapshot F) s hs []
    unfold saveSnapshot at h
    rw [List.append_nil, h, h1] at h2
    simp only [Option.some.injEq, Prod.mk.injEq, List.append_eq_nil_iff] at h2
    exact absurd h2.2.2 hq

/-- **C101, bytes.**  A saved file consists of bytes. -/
theorem C101_bytes (F : Feats) (s : (snapshotTy F).Val) (hs : Valid (snapshotTy F) s) : ∀ b ∈ saveSnapshot F s, b < 256 :=
  enc_lt _ s hs

/-- **C101, element types in a file.**  The code of an element type does not depend on the optional types of the program that wrote it; a program
without that type reports an error. -/
theorem C101_dtype (fp8 : DType → Nat → Nat) (F F' : Feats) (d : DType) (rest : List Nat) :
    decT fp8 (.dtype F') (encT (.dtype F) d ++ rest) = if F'.has d then some (d, rest) else none := by
  show ((DType.ofCode d.code).filter F'.has).map (fun d => (d, rest)) = _
  have : DType.ofCode d.code = some d := by cases d <;> rfl
  rw [this]
  cases h : F'.has d <;> simp [h]

/-! ## Named tensors -/

/-- A tensor that can be written: every element is one of its type, it is not a contiguous view of a larger buffer, its sizes fit. -/
structure Spec.Writable (dt : DType) (t : Tensor Nat) : Prop where
  wf : t.WF
  elems : ∀ v ∈ t.storage, IsElement dt v
  whole : t.layout.isContiguous = true → t.storage.length = numel t.dims
  rank : t.dims.length < 2 ^ 64
  sizes : ∀ n ∈ t.dims, n < 2 ^ 64
  bytes : numel t.dims * dt.sizeInBytes < 2 ^ 64

/-- A name that can be written. -/
def Spec.Name (n : List Nat) : Prop := (∀ c ∈ n, Spec.Scalar c) ∧ (n.flatMap utf8).length < 2 ^ 64

theorem writable_values {dt : DType} {t : Tensor Nat} (h : Writable dt t) :
    ∃ xs, t.toBytes dt = .ok (storageToBytes dt xs) ∧ xs.length = numel t.dims ∧ (∀ v ∈ xs, IsElement dt v) ∧
      (⟨xs, Layout.fromShape t.dims⟩ : Tensor Nat).WF ∧ (⟨xs, Layout.fromShape t.dims⟩ : Tensor Nat).SameValues t := by
  obtain ⟨xs, hx⟩ := h.wf.hasValues
  exact ⟨xs, toBytes_eq h.wf hx h.whole dt, hx.1, values_mem hx h.elems, fresh_wf hx.1.symm, fresh_sameValues hx⟩

theorem collect_mem {α : Type} {xs : List (List Nat × α)} (hn : (xs.map (·.1)).Nodup) {e : List Nat × α} (he : e ∈ xs) :
    collect xs e.1 = some e.2 := by
  unfold collect
  have huniq : ∀ a ∈ xs, ∀ b ∈ xs, a.1 = b.1 → a = b := fun a ha b hb hab => List.inj_on_of_nodup_map hn ha hb hab
  cases h : xs.reverse.find? fun x => x.1 = e.1 with
  | none =>
    rw [List.find?_eq_none] at h
    exact absurd (h e (by simpa using he)) (by simp)
  | some y =>
    have h1 := List.find?_some h
    have h2 := List.mem_of_find?_eq_some h
    rw [huniq y (by simpa using h2) e he (by simpa using h1)]
    rfl

theorem collect_none {α : Type} {xs : List (List Nat × α)} {n : List Nat} (hn : n ∉ xs.map (·.1)) : collect xs n = none := by
  unfold collect
  rw [Option.map_eq_none_iff, List.find?_eq_none]
  intro e he h
  exact hn (List.mem_map.2 ⟨e, by simpa using he, by simpa using h⟩)

/-- The record of an entry. -/
def record (xs : List Nat) (e : List Nat × DType × Tensor Nat) : Record :=
  (e.1, e.2.2.dims, e.2.1, storageToBytes e.2.1 xs)

theorem exists_values {entries : List (List Nat × DType × Tensor Nat)} (hw : ∀ e ∈ entries, Writable e.2.1 e.2.2) :
    ∃ v : List Nat × DType × Tensor Nat → List Nat, ∀ e ∈ entries, e.2.2.toBytes e.2.1 = .ok (storageToBytes e.2.1 (v e)) ∧
      (v e).length = numel e.2.2.dims ∧ (∀ x ∈ v e, IsElement e.2.1 x) ∧
      (⟨v e, Layout.fromShape e.2.2.dims⟩ : Tensor Nat).WF ∧ (⟨v e, Layout.fromShape e.2.2.dims⟩ : Tensor Nat).SameValues e.2.2 := by
  classical
  refine ⟨fun e => if h : Writable e.2.1 e.2.2 then (writable_values h).choose else [], fun e he => ?_⟩
  simp only [dif_pos (hw e he)]
  exact (writable_values (hw e he)).choose_spec

theorem serializeMany_eq (F : Feats) {entries : List (List Nat × DType × Tensor Nat)} {v : List Nat × DType × Tensor Nat → List Nat}
    (hv : ∀ e ∈ entries, e.2.2.toBytes e.2.1 = .ok (storageToBytes e.2.1 (v e))) :
    serializeMany F entries = .ok (encT (collectionTy F) (entries.map fun e => record (v e) e)) := by
  unfold serializeMany
  rw [Res.mapL_eq_ok_of (g := fun e => record (v e) e) (fun e he => by unfold toRecord; rw [hv e he]; rfl)]
  rfl

theorem valid_record {F : Feats} {xs : List Nat} {e : List Nat × DType × Tensor Nat} (hn : Name e.1) (hw : Writable e.2.1 e.2.2)
    (hF : F.has e.2.1 = true) (hl : xs.length = numel e.2.2.dims) (hx : ∀ x ∈ xs, IsElement e.2.1 x) :
    Valid (.pair .str (tensorDataTy F)) (record xs e) := by
  refine ⟨hn, ⟨hw.rank, hw.sizes⟩, hF, ?_, storageToBytes_lt hx⟩
  show (storageToBytes e.2.1 xs).length < 2 ^ 64
  rw [storageToBytes_length, hl]
  exact hw.bytes

/-- **C101, named tensors.**  Tensors under distinct names, written in whatever order the map yields them by a program with some optional types
and read by a program that has the types that occur: every name gives its tensor back, with type, shape and elements; there are no other
names; bytes after the record do not matter.  Missing: contiguous views of a larger buffer (C15). -/
theorem C101_many_partial {fp8 : DType → Nat → Nat} (hf : Inverse fp8) (F F' : Feats) (entries : List (List Nat × DType × Tensor Nat))
    (hd : (entries.map (·.1)).Nodup) (hl : entries.length < 2 ^ 64) (hn : ∀ e ∈ entries, Name e.1)
    (hw : ∀ e ∈ entries, Writable e.2.1 e.2.2) (hF : ∀ e ∈ entries, F'.has e.2.1 = true) :
    ∃ bs m, serializeMany F entries = .ok bs ∧ (∀ rest, deserializeMany fp8 F' (bs ++ rest) = .ok m) ∧
      (∀ n dt t, (n, dt, t) ∈ entries → ∃ u, m n = some (dt, u) ∧ u.WF ∧ u.SameValues t) ∧
      ∀ n, (∀ e ∈ entries, e.1 ≠ n) → m n = none := by
  obtain ⟨v, hv⟩ := exists_values hw
  refine ⟨_, collect (entries.map fun e => (e.1, e.2.1, (⟨v e, Layout.fromShape e.2.2.dims⟩ : Tensor Nat))),
    serializeMany_eq F fun e he => (hv e he).1, fun rest => ?_, fun n dt t he => ?_, fun n hn' => ?_⟩
  · have hval : Valid (collectionTy F') (entries.map fun e => record (v e) e) := by
      refine ⟨lt_of_eq_of_lt (List.length_map _) hl, fun r hr => ?_⟩
      obtain ⟨e, he, rfl⟩ := List.mem_map.1 hr
      exact valid_record (hn e he) (hw e he) (hF e he) (hv e he).2.1 (hv e he).2.2.1
    have h := dec_enc hf (collectionTy F') ⟨trivial, wide_tensorData F'⟩ (entries.map fun e => record (v e) e) hval rest
    have h' : records fp8 F' (encT (collectionTy F) (entries.map fun e => record (v e) e) ++ rest) =
        some (entries.map fun e => record (v e) e) := by
      show (decT fp8 (collectionTy F') (encT (collectionTy F') (entries.map fun e => record (v e) e) ++ rest)).map (·.1) = _
      rw [h]
      rfl
    unfold deserializeMany
    rw [h']
    dsimp only
    have : Res.mapL ofRecord (entries.map fun e => record (v e) e) =
        .ok (entries.map fun e => (e.1, e.2.1, (⟨v e, Layout.fromShape e.2.2.dims⟩ : Tensor Nat))) := by
      have key : ∀ l : List (List Nat × DType × Tensor Nat), (∀ e ∈ l, e ∈ entries) →
          Res.mapL ofRecord (l.map fun e => record (v e) e) =
          .ok (l.map fun e => (e.1, e.2.1, (⟨v e, Layout.fromShape e.2.2.dims⟩ : Tensor Nat))) := by
        intro l hl
        induction l with
        | nil => rfl
        | cons e l ih =>
          have h0 := hv e (hl e (by simp))
          have h1 := fromBytes_eq (dims := e.2.2.dims) (dt := e.2.1) h0.2.1 h0.2.2.1
          have h2 := ih fun x hx => hl x (by simp [hx])
          simp only [List.map_cons, Res.mapL]
          rw [h2]
          simp only [record, ofRecord]
          rw [h1]
          rfl
      exact key entries fun e he => he
    rw [this]
    rfl
  · obtain ⟨h1, h2, h3, h4, h5⟩ := hv _ he
    refine ⟨⟨v (n, dt, t), Layout.fromShape t.dims⟩, ?_, h4, h5⟩
    exact collect_mem (e := (n, dt, (⟨v (n, dt, t), Layout.fromShape t.dims⟩ : Tensor Nat)))
      (by simpa [List.map_map, Function.comp_def] using hd) (List.mem_map.2 ⟨(n, dt, t), he, rfl⟩)
  · refine collect_none fun h => ?_
    simp only [List.map_map, List.mem_map, Function.comp_def] at h
    obtain ⟨e, he, h⟩ := h
    exact hn' e he h

theorem decN_fail {α : Type} {d : List Nat → Option (α × List Nat)} {e : α → List Nat} {xs : List α} {ok : α → Prop}
    (h : ∀ x ∈ xs, ok x → ∀ rest, d (e x ++ rest) = some (x, rest)) (h' : ∀ x ∈ xs, ¬ok x → ∀ rest, d (e x ++ rest) = none)
    (hx : ∃ x ∈ xs, ¬ok x) (rest : List Nat) : decN d xs.length (xs.flatMap e ++ rest) = none := by
  induction xs with
  | nil => obtain ⟨x, hx, _⟩ := hx; simp at hx
  | cons x xs ih =>
    simp only [List.length_cons, decN, List.flatMap_cons, List.append_assoc]
    by_cases ho : ok x
    · rw [h x (by simp) ho, Option.bind_some]
      dsimp only
      rw [ih (fun y hy => h y (by simp [hy])) (fun y hy => h' y (by simp [hy])) (by
        obtain ⟨y, hy, hy'⟩ := hx
        rcases List.mem_cons.1 hy with rfl | hy
        · exact absurd ho hy'
        · exact ⟨y, hy, hy'⟩)]
      rfl
    · rw [h' x (by simp) ho]
      rfl

/-- **C101, a type the reader does not have.**  When one of the tensors has an element type that was not compiled into the reader, reading the
file is an error. -/
theorem C101_many_missing {fp8 : DType → Nat → Nat} (hf : Inverse fp8) (F F' : Feats) (entries : List (List Nat × DType × Tensor Nat))
    (hl : entries.length < 2 ^ 64) (hn : ∀ e ∈ entries, Name e.1) (hw : ∀ e ∈ entries, Writable e.2.1 e.2.2)
    (hF : ∃ e ∈ entries, F'.has e.2.1 = false) :
    ∃ bs, serializeMany F entries = .ok bs ∧ ∀ rest, deserializeMany fp8 F' (bs ++ rest) = .err := by
  obtain ⟨v, hv⟩ := exists_values hw
  refine ⟨_, serializeMany_eq F fun e he => (hv e he).1, fun rest => ?_⟩
  have h' : records fp8 F' (encT (collectionTy F) (entries.map fun e => record (v e) e) ++ rest) = none := by
    show ((uintDec 64 (varintEnc (varBytes 64) (entries.map fun e => record (v e) e).length ++
      (entries.map fun e => record (v e) e).flatMap (encT (.pair .str (tensorDataTy F'))) ++ rest)).bind fun z =>
        decN (decT fp8 (.pair .str (tensorDataTy F'))) z.1 z.2).map (·.1) = none
    rw [List.append_assoc, uintDec_enc 64 (by decide) (lt_of_eq_of_lt (List.length_map _) hl), Option.bind_some, Option.map_eq_none_iff]
    dsimp only
    refine decN_fail (e := encT (.pair .str (tensorDataTy F'))) (xs := (entries.map fun e => record (v e) e : List Record)) (ok := fun (r : Record) => F'.has r.2.2.1 = true) (fun r hr ho => ?_) (fun r hr ho rest => ?_) ?_ rest
    · obtain ⟨e, he, rfl⟩ := List.mem_map.1 hr
      exact dec_enc hf (.pair .str (tensorDataTy F')) ⟨trivial, wide_tensorData F'⟩ (record (v e) e) (valid_record (hn e he) (hw e he) ho (hv e he).2.1 (hv e he).2.2.1)
    · obtain ⟨e, he, rfl⟩ := List.mem_map.1 hr
      have hs := dec_enc hf .str trivial e.1 (hn e he)
      have hd := dec_enc hf shapeTy wide_usize e.2.2.dims ⟨(hw e he).rank, (hw e he).sizes⟩
      have hc := C101_dtype fp8 F F' e.2.1
      have hc' : ∀ r, decT fp8 (.dtype F') (encT (.dtype F) e.2.1 ++ r) = none := fun r => (hc r).trans (if_neg ho)
      show (decT fp8 .str (encT .str e.1 ++ (encT shapeTy e.2.2.dims ++ (encT (.dtype F) e.2.1 ++
        encT (.seq .byte) (storageToBytes e.2.1 (v e)))) ++ rest)).bind (fun z =>
          ((decT fp8 shapeTy z.2).bind fun z => ((decT fp8 (.dtype F') z.2).bind fun w =>
            (decT fp8 (.seq .byte) w.2).map fun u => ((w.1, u.1), u.2)).map fun w => ((z.1, w.1), w.2)).map fun w => ((z.1, w.1), w.2)) = none
      simp only [List.append_assoc]
      rw [hs, Option.bind_some]
      dsimp only
      rw [hd, Option.bind_some]
      dsimp only
      rw [hc']
      rfl
    · obtain ⟨e, he, h⟩ := hF
      exact ⟨_, List.mem_map.2 ⟨e, he, rfl⟩, by show ¬F'.has e.2.1 = true; rw [h]; decide⟩
  unfold deserializeMany
  rw [h']

/-! ## What does not hold -/

/-- No optional type, all optional types. -/
def Spec.base : Feats := ⟨false, false, false, false, false, false⟩
@[inherit_doc Spec.base] def Spec.full : Feats := ⟨true, true, true, true, true, true⟩

/-- An `i32`, an `f32` of a program without optional types; a `u16`, an `f16` of a program with all of them. -/
def Spec.i32Base (z : Int) : (scalarTy base).Val := ⟨⟨8, by decide⟩, z⟩
@[inherit_doc Spec.i32Base] def Spec.f32Base (x : Nat) : (scalarTy base).Val := ⟨⟨4, by decide⟩, x⟩
@[inherit_doc Spec.i32Base] def Spec.u16Full (x : Nat) : (scalarTy Spec.full).Val := ⟨⟨8, by decide⟩, x⟩
@[inherit_doc Spec.i32Base] def Spec.f16Full (x : Nat) : (scalarTy Spec.full).Val := ⟨⟨4, by decide⟩, x⟩

/-- A snapshot that adds a number to its input `x` of shape `[2, 3]`, of a program with the given types. -/
def Spec.adds (F : Feats) (k : (scalarTy F).Val) : (snapshotTy F).Val :=
  let lay : layoutTy.Val := (([2, 3] : List Nat), ([3, 1] : List Nat), (0 : Nat))
  let op : opTy.Val := ⟨9, (⟨0, ()⟩ : (Ty.plain 11).Val)⟩
  let par : (paramsTy F).Val := ⟨9, k⟩
  let node : (nodeTy F).Val := (op, some par, [(0 : Nat)], (1 : Nat), [lay], lay, DType.f32, none)
  let inp : (inputTy F).Val := ([120], (0 : Nat), ([2, 3] : List Nat), DType.f32)
  let tgt : targetTy.Val := ([121], (1 : Nat))
  (some [109, 0x1F600], [inp], [], [tgt], [node])

theorem valid_adds (F : Feats) (k : (scalarTy F).Val) (hk : Valid (scalarTy F) k) : Valid (snapshotTy F) (adds F k) := by
  have sc : ∀ c, c < 0xD800 → Spec.Scalar c := fun c hc => ⟨by omega, by omega⟩
  have name : ∀ c, Spec.Scalar c → Valid .str [c] := fun c hc =>
    ⟨by simpa using hc, by have := (utf8_length c).2; simp only [List.flatMap_singleton]; omega⟩
  have nums : ∀ a b : Nat, a < 100 → b < 100 → Valid (.seq .usize) ([a, b] : List Nat) := fun a b ha hb =>
    ⟨by show 2 < 2 ^ 64; omega, fun x hx => by
      change x ∈ [a, b] at hx
      show (show Nat from x) < 2 ^ 64
      rcases List.mem_cons.1 hx with rfl | hx
      · exact lt_trans ha (by decide)
      · rw [List.mem_singleton.1 hx]; exact lt_trans hb (by decide)⟩
  have small : ∀ a : Nat, a < 100 → Valid .usize a := fun a ha => lt_trans ha (by decide)
  have one : ∀ (t : Ty) (x : t.Val), Valid t x → Valid (.seq t) ([x] : List t.Val) := fun t x hx =>
    ⟨by show 1 < 2 ^ 64; omega, fun y hy => by rw [List.mem_singleton.1 hy]; exact hx⟩
  have lay : Valid layoutTy (([2, 3] : List Nat), ([3, 1] : List Nat), (0 : Nat)) :=
    ⟨nums 2 3 (by omega) (by omega), nums 3 1 (by omega) (by omega), small 0 (by omega)⟩
  have nil : ∀ t : Ty, Valid (.seq t) ([] : List t.Val) := fun t => ⟨by show 0 < 2 ^ 64; omega, fun y hy => absurd hy (by simp)⟩
  refine ⟨?_, ?_, nil _, ?_, ?_⟩
  · rintro y hy
    cases hy
    refine ⟨fun c hc => ?_, by decide⟩
    change c ∈ [109, 0x1F600] at hc
    simp only [List.mem_cons, List.not_mem_nil, or_false] at hc
    rcases hc with rfl | rfl <;> exact ⟨by omega, by omega⟩
  · exact one _ _ ⟨name 120 (sc _ (by omega)), small 0 (by omega), nums 2 3 (by omega) (by omega), rfl⟩
  · exact one _ _ ⟨name 121 (sc _ (by omega)), small 1 (by omega)⟩
  · refine one _ _ ⟨⟨by decide, by decide, trivial⟩, ?_, one _ _ (small 0 (by omega)), small 1 (by omega), one _ _ lay, lay, rfl, ?_⟩
    · rintro y hy
      cases hy
      exact ⟨by show 9 < 2 ^ 32; omega, hk⟩
    · rintro y hy
      cases hy

/-- Saving and loading the snapshot that adds the signed number -7. -/
example {fp8 : DType → Nat → Nat} (hf : Inverse fp8) :
    loadSnapshot fp8 base (saveSnapshot base (adds base (i32Base (-7))) ++ [1, 2, 3]) = some (adds base (i32Base (-7))) :=
  C101_round_trip hf base _ (valid_adds base (i32Base (-7)) ⟨by decide, by show -2 ^ 32 ≤ 2 * (-7 : Int) ∧ 2 * (-7 : Int) < 2 ^ 32; decide⟩) _

/-- The file of that snapshot. -/
example : saveSnapshot base (adds base (i32Base (-7))) =
    [1, 5, 109, 0xF0, 0x9F, 0x98, 0x80, 1, 1, 120, 0, 2, 2, 3, 5, 0, 1, 1, 121, 1, 1, 9, 0, 1, 9, 8, 13, 1, 0, 1, 1, 2, 2, 3, 2, 3, 1, 0, 2, 2, 3, 2, 3, 1, 0, 5, 0] := by
  decide +kernel

/-- **C101, false: files depend on the optional types.**  The number of a variant of `Scalar` depends on the optional types that were compiled
in.  A snapshot that adds the `i32` 5, saved without optional types, is loaded with all of them, without an error, as a snapshot that adds the
`u16` 10; one that adds the `f32` nearest to 1/3 adds the `f16` nearest to it. -/
theorem C101_features_false :
    (∀ fp8, Inverse fp8 → loadSnapshot fp8 Spec.full (saveSnapshot base (adds base (i32Base 5))) = some (adds Spec.full (u16Full 10))) ∧
    scalarDt base (i32Base 5) = some .i32 ∧ scalarDt Spec.full (u16Full 10) = some .u16 ∧
    ∀ fp8, decT fp8 (scalarTy Spec.full) (encT (scalarTy base) (f32Base 0x3EAAAAAB)) = some (f16Full 0x3555, []) := by
  refine ⟨fun fp8 hf => ?_, by decide, by decide, fun fp8 => ?_⟩
  · have h : saveSnapshot base (adds base (i32Base 5)) = saveSnapshot Spec.full (adds Spec.full (u16Full 10)) := by decide +kernel
    rw [h, ← List.append_nil (saveSnapshot Spec.full _)]
    exact C101_round_trip hf Spec.full _ (valid_adds Spec.full (u16Full 10) ⟨by decide, by show (10 : Nat) < 2 ^ 16; decide⟩) []
  · have h : halfOf Flt.f16 0x3EAAAAAB = 0x3555 := by decide +kernel
    show some (f16Full (halfOf Flt.f16 0x3EAAAAAB), []) = _
    rw [h]

/-- **C101, false: one file per snapshot.**  Files that the program would not write are loaded: a length in more bytes than needed. -/
theorem C101_canonical_false (fp8 : DType → Nat → Nat) :
    loadSnapshot fp8 base [0, 0, 0, 0, 0] = loadSnapshot fp8 base [0, 0x80, 0, 0, 0, 0] ∧
    loadSnapshot fp8 base [0, 0, 0, 0, 0] = some (none, [], [], [], []) := ⟨rfl, rfl⟩

/-- Two names, the second tensor a transposed view; written by a program with 16-bit integers, read by one with all types. -/
example : let t : Tensor Nat := ⟨[1, 258, 3, 4, 5, 65535], ⟨[3, 2], [1, 3], 0⟩⟩
    let u : Tensor Nat := ⟨[7], ⟨[], [], 0⟩⟩
    serializeMany base [([97], .u8, u), ([98, 0xE9], .i16, t)] =
      .ok [2, 1, 97, 0, 7, 1, 7, 3, 98, 0xC3, 0xA9, 2, 3, 2, 12, 12, 1, 0, 4, 0, 2, 1, 5, 0, 3, 0, 255, 255] ∧
    Name [98, 0xE9] := by
  refine ⟨by decide +kernel, fun c hc => ?_, by decide⟩
  simp only [List.mem_cons, List.not_mem_nil, or_false] at hc
  rcases hc with rfl | rfl <;> exact ⟨by omega, by omega⟩

/-- The hypotheses of the theorems about named tensors are met. -/
example : Writable .u8 ⟨[7, 255, 0, 1, 2, 3], Layout.fromShape [2, 3]⟩ ∧ Name [98, 0xE9] :=
  ⟨⟨fresh_wf (by decide), by simp [IsElement, DType.sizeInBytes], fun _ => by decide, by decide, by decide, by decide⟩,
    fun c hc => by simp only [List.mem_cons, List.not_mem_nil, or_false] at hc; rcases hc with rfl | rfl <;> exact ⟨by omega, by omega⟩, by decide⟩

/-- The file of the snapshot that adds -7, without its last byte. -/
example {fp8 : DType → Nat → Nat} (hf : Inverse fp8) : loadSnapshot fp8 base (saveSnapshot base (adds base (i32Base (-7)))).dropLast = none :=
  C101_cut hf base _ (valid_adds base (i32Base (-7)) ⟨by decide, by show -2 ^ 32 ≤ 2 * (-7 : Int) ∧ 2 * (-7 : Int) < 2 ^ 32; decide⟩) _ [0]
    (by decide) (by decide +kernel)

end Hodu.Wire
