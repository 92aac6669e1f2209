import Verif.Model.Typed
import Verif.Props.Dispatch
import Verif.Lemmas.ReduceGrad

/-!
# Values of tensors with element types

`TVal x dt d F`: the tensor `x` has element type `dt`, shape `d` and values `F`.  The closure lemmas
below are those of Lemmas/Compose.lean for the operations of Model/Typed.lean on floating-point tensors.
-/

namespace Hodu
open Spec

variable {α : Type}

/-- A tensor of numbers of type `dt` with shape `d` and values `F`. -/
def TVal (x : TT α) (dt : DType) (d : List Nat) (F : List Nat → α) : Prop :=
  ∃ t, x = .num dt t ∧ Val t d F

/-- A tensor of booleans with shape `d` and values `F`. -/
def BVal (x : TT α) (d : List Nat) (F : List Nat → Bool) : Prop :=
  ∃ t, x = .bool t ∧ Val t d F

theorem TVal.congr {x : TT α} {dt : DType} {d : List Nat} {F G : List Nat → α} (h : TVal x dt d F)
    (he : ∀ idx, InRange idx d → F idx = G idx) : TVal x dt d G := by
  obtain ⟨t, h1, h2⟩ := h
  exact ⟨t, h1, h2.congr he⟩

theorem BVal.congr {x : TT α} {d : List Nat} {F G : List Nat → Bool} (h : BVal x d F)
    (he : ∀ idx, InRange idx d → F idx = G idx) : BVal x d G := by
  obtain ⟨t, h1, h2⟩ := h
  exact ⟨t, h1, h2.congr he⟩

theorem TVal.dtype {x : TT α} {dt : DType} {d : List Nat} {F : List Nat → α} (h : TVal x dt d F) :
    x.dtype = dt := by
  obtain ⟨t, rfl, _⟩ := h
  rfl

theorem TVal.dims {x : TT α} {dt : DType} {d : List Nat} {F : List Nat → α} (h : TVal x dt d F) :
    x.dims = d := by
  obtain ⟨t, rfl, h⟩ := h
  exact h.dims

theorem BVal.dims {x : TT α} {d : List Nat} {F : List Nat → Bool} (h : BVal x d F) :
    x.dims = d := by
  obtain ⟨t, rfl, h⟩ := h
  exact h.dims

/-- A constant tensor. -/
theorem TVal.full (dt : DType) (d : List Nat) (v : α) : TVal (TT.full d ⟨dt, v⟩) dt d fun _ => v := by
  refine ⟨_, rfl, Val.fresh (by simp [shapeSize_eq]) ?_⟩
  intro idx hi
  have := rowMajor_lt hi
  rw [List.getElem?_replicate, if_pos (by simpa [shapeSize_eq] using this)]

theorem TVal.fullLike {x : TT α} {dt dt' : DType} {d : List Nat} {F : List Nat → α}
    (h : TVal x dt d F) (v : α) : TVal (TT.fullLike x ⟨dt', v⟩) dt' d fun _ => v := by
  rw [TT.fullLike, h.dims]
  exact TVal.full dt' d v

variable (E : Rt α)

theorem TVal.onesLike {x : TT α} {dt : DType} {d : List Nat} {F : List Nat → α}
    (h : TVal x dt d F) : TVal (E.onesLike x) dt d fun _ => E.A.cst .one := by
  obtain ⟨t, rfl, h⟩ := h
  rw [Rt.onesLike, h.dims]
  exact TVal.full dt d _

theorem TVal.zerosLike {x : TT α} {dt : DType} {d : List Nat} {F : List Nat → α}
    (h : TVal x dt d F) : TVal (E.zerosLike x) dt d fun _ => E.A.cst .zero := by
  obtain ⟨t, rfl, h⟩ := h
  rw [Rt.zerosLike, h.dims]
  exact TVal.full dt d _

/-- The runtime over the real numbers. -/
def Rt.Real (E : Rt ℝ) : Prop := ∃ k κ lo hi, E.A = realOps k κ lo hi

/-! ### Kernels of floating-point operations exist -/

theorem Dispatch.backend_ok {op : Dispatch.Op} {dt : DType} (hv : Dispatch.validate dt op = true)
    (hn : Spec.NoKernel op dt = false) (hb : Spec.BackendRejects op dt = false)
    (hw : Spec.WrongKernel op = false) : Dispatch.backend op dt = .ok (Spec.ownKernels op dt) := by
  have := C74_dispatch_partial op dt hv hn hb hw
  rwa [Dispatch.run, if_pos hv] at this

theorem validate_binary {dt : DType} (hf : dt.isFloat = true) (o : BOp) :
    Dispatch.validate dt (.binary o) = true := by
  cases dt <;> simp [DType.isFloat] at hf <;> cases o <;> rfl

theorem validate_unary {dt : DType} (hf : dt.isFloat = true) (o : UOp) :
    Dispatch.validate dt (.unary o) = true := by
  cases dt <;> simp [DType.isFloat] at hf <;> cases o <;> rfl

theorem validate_scal {dt : DType} (hf : dt.isFloat = true) (o : BOp) :
    Dispatch.validate dt (.unaryScalar (Rt.scalarOp o)) = true := by
  cases dt <;> simp [DType.isFloat] at hf <;> cases o <;> rfl

theorem validate_cmpScal {dt : DType} (hf : dt.isFloat = true) (o : COp) :
    Dispatch.validate dt (.cmpScalar (Rt.cmpScalarOp o)) = true := by
  cases dt <;> simp [DType.isFloat] at hf <;> cases o <;> rfl

theorem validate_red {dt : DType} (hf : dt.isFloat = true) (o : ROp) :
    Dispatch.validate dt (.reduce (Rt.reduceOp o)) = true := by
  cases dt <;> simp [DType.isFloat] at hf <;> cases o <;> rfl

theorem backend_binary {dt : DType} (hf : dt.isFloat = true) {o : BOp} (ho : o ≠ .rem) :
    ∃ l, Dispatch.backend (.binary o) dt = .ok l :=
  ⟨_, Dispatch.backend_ok (validate_binary hf o) (by cases o <;> first | rfl | exact absurd rfl ho)
    (by cases o <;> rfl) (by cases o <;> rfl)⟩

theorem backend_unary {dt : DType} (hf : dt.isFloat = true) (o : UOp) :
    ∃ l, Dispatch.backend (.unary o) dt = .ok l :=
  ⟨_, Dispatch.backend_ok (validate_unary hf o)
    (by cases dt <;> simp [DType.isFloat] at hf <;> cases o <;> rfl)
    (by cases o <;> rfl) (by cases o <;> rfl)⟩

theorem backend_scal {dt : DType} (hf : dt.isFloat = true) {o : BOp} (ho : o ≠ .rem) :
    ∃ l, Dispatch.backend (.unaryScalar (Rt.scalarOp o)) dt = .ok l :=
  ⟨_, Dispatch.backend_ok (validate_scal hf o) (by cases o <;> first | rfl | exact absurd rfl ho)
    (by cases o <;> rfl) (by cases o <;> rfl)⟩

theorem backend_cmpScal {dt : DType} (hf : dt.isFloat = true) (o : COp) :
    ∃ l, Dispatch.backend (.cmpScalar (Rt.cmpScalarOp o)) dt = .ok l :=
  ⟨_, Dispatch.backend_ok (validate_cmpScal hf o) (by cases o <;> rfl) (by cases o <;> rfl)
    (by cases o <;> rfl)⟩

theorem backend_red {dt : DType} (hf : dt.isFloat = true) (o : ROp) :
    ∃ l, Dispatch.backend (.reduce (Rt.reduceOp o)) dt = .ok l :=
  ⟨_, Dispatch.backend_ok (validate_red hf o) (by cases o <;> rfl) (by cases o <;> rfl)
    (by cases o <;> rfl)⟩

theorem not_bool_of_float {dt : DType} (hf : dt.isFloat = true) : dt ≠ .bool := by
  rintro rfl
  simp [DType.isFloat] at hf

/-! ### Operations -/

section

variable {dt : DType} {d e : List Nat} {F G : List Nat → α}

theorem TVal.bin {a b : TT α} (hf : dt.isFloat = true) {o : BOp} (ho : o ≠ .rem)
    (ha : TVal a dt d F) (hb : TVal b dt e G) (hbr : BroadcastsTo e d)
    (hpd : ∀ x ∈ d, 0 < x) (hpe : ∀ x ∈ e, 0 < x) :
    ∃ r, E.bin o a b = .ok r ∧
      TVal r dt d (fun i => E.A.bin o (F i) (G (broadcastIndex e i))) := by
  obtain ⟨s, rfl, ha⟩ := ha
  obtain ⟨t, rfl, hb⟩ := hb
  obtain ⟨r, h1, h2⟩ := ha.binary hb hbr hpd hpe E.cores (E.A.bin o) E.fill
  obtain ⟨l, hl⟩ := backend_binary hf ho
  exact ⟨.num dt r, by simp [Rt.bin, TT.dtype, validate_binary hf, h1, hl], r, rfl, h2⟩

theorem TVal.bin_same {a b : TT α} (hf : dt.isFloat = true) {o : BOp} (ho : o ≠ .rem)
    (ha : TVal a dt d F) (hb : TVal b dt d G) (hpd : ∀ x ∈ d, 0 < x) :
    ∃ r, E.bin o a b = .ok r ∧ TVal r dt d (fun i => E.A.bin o (F i) (G i)) := by
  obtain ⟨r, h1, h2⟩ := TVal.bin E hf ho ha hb (broadcastsTo_self d) hpd hpd
  exact ⟨r, h1, h2.congr fun idx hi => by rw [broadcastIndex_self hi]⟩

theorem TVal.un {a : TT α} (hf : dt.isFloat = true) (o : UOp) (ha : TVal a dt d F) :
    ∃ r, E.un o a = .ok r ∧ TVal r dt d (fun i => E.A.un o (F i)) := by
  obtain ⟨s, rfl, ha⟩ := ha
  obtain ⟨r, h1, h2⟩ := ha.unary E.cores (E.A.un o) E.fill
  obtain ⟨l, hl⟩ := backend_unary hf o
  exact ⟨.num dt r, by simp [Rt.un, TT.dtype, validate_unary hf, h1, hl], r, rfl, h2⟩

theorem TVal.scal {a : TT α} (hf : dt.isFloat = true) {o : BOp} (ho : o ≠ .rem)
    (ha : TVal a dt d F) (v : α) :
    ∃ r, E.scal o a ⟨dt, v⟩ = .ok r ∧ TVal r dt d (fun i => E.A.bin o (F i) v) := by
  obtain ⟨s, rfl, ha⟩ := ha
  obtain ⟨r, h1, h2⟩ := ha.unary E.cores (fun x => E.A.bin o x v) E.fill
  obtain ⟨l, hl⟩ := backend_scal hf ho
  exact ⟨.num dt r, by simp [Rt.scal, TT.dtype, validate_scal hf, h1, hl], r, rfl, h2⟩

theorem TVal.cmpScal {a : TT α} (hf : dt.isFloat = true) (o : COp) (ha : TVal a dt d F) (v : α) :
    ∃ r, E.cmpScal o a ⟨dt, v⟩ = .ok r ∧ BVal r d (fun i => E.A.cmp o (F i) v) := by
  obtain ⟨s, rfl, ha⟩ := ha
  obtain ⟨r, h1, h2⟩ := ha.unary E.cores (fun x => E.A.cmp o x v) false
  obtain ⟨l, hl⟩ := backend_cmpScal hf o
  exact ⟨.bool r, by simp [Rt.cmpScal, TT.dtype, validate_cmpScal hf, h1, hl], r, rfl, h2⟩

theorem BVal.toDtype {a : TT α} {C : List Nat → Bool} (hd : dt ≠ .bool) (ha : BVal a d C) :
    ∃ r, E.toDtype a dt = .ok r ∧ TVal r dt d (fun i => E.A.ofBool (C i)) := by
  obtain ⟨s, rfl, ha⟩ := ha
  obtain ⟨r, h1, h2⟩ := ha.unary E.cores E.A.ofBool E.fill
  exact ⟨.num dt r, by simp [Rt.toDtype, hd, h1], r, rfl, h2⟩

theorem TVal.broadcast {a : TT α} (ha : TVal a dt e F) (hb : BroadcastsTo e d) :
    ∃ r, TT.broadcast a d = .ok r ∧ TVal r dt d (fun i => F (broadcastIndex e i)) := by
  obtain ⟨s, rfl, ha⟩ := ha
  obtain ⟨r, h1, h2, _⟩ := ha.broadcast hb
  exact ⟨.num dt r, by simp [TT.broadcast, h1], r, rfl, h2⟩

theorem BVal.broadcast {a : TT α} {C : List Nat → Bool} (ha : BVal a e C) (hb : BroadcastsTo e d) :
    ∃ r, TT.broadcast a d = .ok r ∧ BVal r d (fun i => C (broadcastIndex e i)) := by
  obtain ⟨s, rfl, ha⟩ := ha
  obtain ⟨r, h1, h2, _⟩ := ha.broadcast hb
  exact ⟨.bool r, by simp [TT.broadcast, h1], r, rfl, h2⟩

end

/-! ### Broadcast shapes -/

theorem broadcastDims_left {d e : List Nat} (h : BroadcastsTo e d) (hpd : ∀ x ∈ d, 0 < x)
    (hpe : ∀ x ∈ e, 0 < x) : Tensor.broadcastDims d e = .ok d := by
  obtain ⟨hc, hs⟩ := commonShape_of_broadcastsTo h
  obtain ⟨out, e1, e2⟩ := (C06_broadcast_dims_partial d e hpd hpe).1 hc
  rw [e1, e2.unique hs]

theorem broadcastDims_right {d e : List Nat} (h : BroadcastsTo e d) (hpd : ∀ x ∈ d, 0 < x)
    (hpe : ∀ x ∈ e, 0 < x) : Tensor.broadcastDims e d = .ok d := by
  obtain ⟨hc, hs⟩ := commonShape_of_broadcastsTo h
  have hc' : Compatible e d := fun k => by
    rcases hc k with h | h | h
    · exact Or.inl h.symm
    · exact Or.inr (Or.inr h)
    · exact Or.inr (Or.inl h)
  have hs' : CommonShape e d d := by
    refine ⟨by rw [max_comm]; exact hs.1, fun k => ?_⟩
    have h1 := hs.2 k
    have h2 := hc k
    split
    · rfl
    · rename_i h3
      split at h1
      · exact h1
      · rename_i h4
        rcases h2 with h | h | h
        · exact h
        · exact absurd h h4
        · exact absurd h h3
  obtain ⟨out, e1, e2⟩ := (C06_broadcast_dims_partial e d hpe hpd).1 hc'
  rw [e1, e2.unique hs']

end Hodu
