import Verif.Model.MetalBitwise
import Verif.Props.CudaBitwise
import Verif.Props.MetalIndex
import Verif.Props.PadGrad

/-!
# C133: bitwise operations on Metal

The shifts are defined for every count and every value; wherever the CPU has a result, Metal has the same.
-/

namespace Hodu.Metal

open _root_.Hodu _root_.Hodu.Spec Cuda Cuda.Spec Metal.Spec

variable {α β : Type}

/-! ## Specification -/

/-- The number of bits a count is reduced to: 64 for 64-bit types, 32 for the others. -/
def Spec.countWidth (w : Nat) : Nat := if w = 64 then 64 else 32

/-- What each binary operator gives on Metal. -/
def Spec.MetalBits (s : Bool) (o : BitOp) (x y r : BitVec w) : Prop :=
  ∀ i, i < w → r.getLsbD i = match o with
    | .shl => shlBit x (y.toNat % countWidth w) i
    | .shr => shrBit s x (y.toNat % countWidth w) i
    | .band => x.getLsbD i && y.getLsbD i
    | .bor => x.getLsbD i || y.getLsbD i
    | .bxor => x.getLsbD i ^^ y.getLsbD i

/-- What `not` and the shifts by a scalar give on Metal. -/
def Spec.MetalUnBits (s : Bool) (o : UnBitOp) (x r : BitVec w) : Prop :=
  ∀ i, i < w → r.getLsbD i = match o with
    | .not => !x.getLsbD i
    | .shl n => shlBit x (n % countWidth w) i
    | .shr n => shrBit s x (n % countWidth w) i

/-- The launch leaves the elements of `r` at the start of any buffer that holds them, and the tensor has the layout of `r`. -/
def Spec.MFills (l : Res (LLaunched α)) (r : Tensor α) : Prop :=
  ∃ k, l = .ok ⟨k, r.storage.length, r.layout⟩ ∧
    ∀ buf, r.storage.length ≤ buf.length → Computes k buf (r.storage ++ buf.drop r.storage.length)

/-! ## Operators -/

theorem countWidth_eq {w : Nat} (hw : IntWidth w) : promWidth w = countWidth w := by
  rcases hw with rfl | rfl | rfl | rfl <;> rfl

theorem mslCount_nat {w : Nat} (hw : IntWidth w) (n : Nat) : mslCount w n = n % countWidth w := by
  unfold mslCount
  rw [countWidth_eq hw]
  omega

theorem mslCount_cVal {w : Nat} (hw : IntWidth w) (s : Bool) (y : BitVec w) :
    mslCount w (cVal s y) = y.toNat % countWidth w := by
  rw [← mslCount_nat hw]
  cases s with
  | false => rfl
  | true =>
    unfold mslCount cVal
    rw [if_pos rfl]
    congr 1
    rw [BitVec.toInt_eq_toNat_cond]
    split
    · rfl
    · rcases hw with rfl | rfl | rfl | rfl <;> simp [promWidth] <;> omega

theorem shl_bits {w : Nat} (s : Bool) (x : BitVec w) (n i : Nat) (hi : i < w) :
    (demote (promote s x <<< n) : BitVec w).getLsbD i = shlBit x n i := by
  have hp := le_promWidth w
  have : i < promWidth w := by omega
  have h2 : i - n < w := by omega
  have h3 : i - n < promWidth w := by omega
  simp only [demote_bits, BitVec.getLsbD_shiftLeft, promote_bits, shlBit, hi, this, h2, h3, decide_true, Bool.true_and, if_true]
  by_cases hni : n ≤ i
  · simp [hni, Nat.not_lt.mpr hni]
  · simp [hni, Nat.lt_of_not_le hni]

theorem mslShr_eq {w : Nat} (s : Bool) (x : BitVec w) (n : Int) : cShr s x (mslCount w n) = .ok (mslShr s x n) := by
  have hp : 0 < promWidth w := by unfold promWidth; split <;> omega
  have h : ¬ ((mslCount w n : Int) < 0 ∨ (promWidth w : Int) ≤ mslCount w n) := by
    unfold mslCount
    have h1 := Int.emod_nonneg n (show (promWidth w : Int) ≠ 0 by omega)
    have h2 := Int.emod_lt_of_pos n (show 0 < (promWidth w : Int) by omega)
    omega
  unfold cShr mslShr
  rw [if_neg h]
  rfl

theorem count_id {w : Nat} {n : Int} (h : ¬ (n < 0 ∨ (promWidth w : Int) ≤ n)) : mslCount w n = n.toNat := by
  unfold mslCount
  rw [Int.emod_eq_of_lt (by omega) (by omega)]

/-- **C133, operators**: every bit of every result, for every count and every value. -/
theorem C133_bits {w : Nat} (hw : IntWidth w) (s : Bool) (o : BitOp) (x y : BitVec w) : MetalBits s o x y (bitEvalMetal s o x y) := by
  intro i hi
  obtain ⟨⟨r1, a1, b1⟩, ⟨r2, a2, b2⟩, ⟨r3, a3, b3⟩, -⟩ := C95_bits s x y
  cases o with
  | shl =>
    show (mslShl s x (cVal s y)).getLsbD i = _
    unfold mslShl
    rw [mslCount_cVal hw]
    exact shl_bits s x _ i hi
  | shr =>
    have := (C95_shr_bits (mslShr_eq s x (cVal s y))).2 i hi
    rw [mslCount_cVal hw] at this
    exact this
  | band => cases a1; exact b1 i hi
  | bor => cases a2; exact b2 i hi
  | bxor => cases a3; exact b3 i hi

/-- **C133, `not` and shifts by a scalar**: every bit, for every count. -/
theorem C133_unary_bits {w : Nat} (hw : IntWidth w) (s : Bool) (o : UnBitOp) (x : BitVec w) :
    MetalUnBits s o x (unBitEvalMetal s o x) := by
  intro i hi
  obtain ⟨-, -, -, r, a, b⟩ := C95_bits s x x
  cases o with
  | not => cases a; exact b i hi
  | shl n =>
    show (mslShl s x n).getLsbD i = _
    unfold mslShl
    rw [mslCount_nat hw]
    exact shl_bits s x _ i hi
  | shr n =>
    have := (C95_shr_bits (mslShr_eq s x n)).2 i hi
    rw [mslCount_nat hw] at this
    exact this

/-- **C133, the CPU's operators**: where the C expression is defined, Metal has its value. -/
theorem C133_operators {w : Nat} {s : Bool} {x y r : BitVec w} :
    (∀ {o : BitOp}, o.eval s x y = .ok r → bitEvalMetal s o x y = r) ∧ ∀ {o : UnBitOp}, o.eval s x = .ok r → unBitEvalMetal s o x = r := by
  have hl : ∀ n, cShl s x n = .ok r → mslShl s x n = r := by
    intro n h
    unfold cShl at h
    split at h
    · cases h
    · rename_i hn
      split at h
      · cases h
      · injection h with h
        unfold mslShl
        rw [count_id hn]
        exact h
  have hr : ∀ n, cShr s x n = .ok r → mslShr s x n = r := by
    intro n h
    unfold cShr at h
    split at h
    · cases h
    · rename_i hn
      injection h with h
      unfold mslShr
      rw [count_id hn]
      exact h
  constructor
  · intro o h
    cases o with
    | shl => exact hl _ h
    | shr => exact hr _ h
    | band => injection h
    | bor => injection h
    | bxor => injection h
  · intro o h
    cases o with
    | not => injection h
    | shl n => exact hl _ h
    | shr n => exact hr _ h

/-! ## Launches -/

theorem both_eq (f : α → α → β) (l r : List α) (i j : Nat) :
    ((readC l i).bind fun x => (readC r j).bind fun y => Res.ok (f x y)) = readBoth f l r i j := by
  unfold readBoth
  cases readC l i <;> cases readC r j <;> rfl

theorem one_eq (f : α → β) (l : List α) (i : Nat) : ((readC l i).bind fun x => Res.ok (f x)) = (readC l i).map f := by
  cases readC l i <;> rfl

theorem dimFromRight_pos {a : List Nat} (h : ∀ d ∈ a, 0 < d) (k : Nat) : 0 < dimFromRight a k := by
  unfold dimFromRight
  rw [List.getD_eq_getElem?_getD]
  cases hk : a.reverse[k]? with
  | none => exact Nat.one_pos
  | some d => exact h d (List.mem_reverse.mp (List.mem_of_getElem? hk))

theorem commonShape_pos {a b d : List Nat} (h : CommonShape a b d) (ha : ∀ n ∈ a, 0 < n) (hb : ∀ n ∈ b, 0 < n) : ∀ n ∈ d, 0 < n := by
  intro n hn
  obtain ⟨k, hk⟩ := List.mem_iff_getElem?.mp (List.mem_reverse.mpr hn)
  have e : dimFromRight d k = n := by
    unfold dimFromRight
    rw [List.getD_eq_getElem?_getD, hk]
    rfl
  rw [← e, h.2 k]
  split
  · exact dimFromRight_pos hb k
  · exact dimFromRight_pos ha k

theorem bits_arms {dt : DType} (h : dt ∈ bitTypes) : dt ∈ bitArms := h

/-- **C133, binary**: incompatible shapes are an error; otherwise, in every interleaving, the launch fills the buffer with the operator applied
to the elements that meet and gives the layout that the CPU gives, for results of at most `2 ^ 32 - 1024` elements. -/
theorem C133_binary_buffer {maxT : Nat} (hm : GroupSize maxT) {a b : Tensor α} (ha : a.WF) (hb : b.WF) (hpa : ∀ d ∈ a.dims, 0 < d)
    (hpb : ∀ d ∈ b.dims, 0 < d) (f : α → α → α) (cores : Nat) (fill : α) {dt : DType} (hdt : dt ∈ bitTypes) :
    (¬ Compatible a.dims b.dims → bitBinaryMetal maxT f dt a b = .err) ∧
    (Compatible a.dims b.dims → ∀ d, CommonShape a.dims b.dims d →
      numel d ≤ 2 ^ 32 - 1024 → numel a.dims ≤ 2 ^ 32 → numel b.dims ≤ 2 ^ 32 →
      ∃ r, Tensor.bitBinary cores (fun x y => .ok (f x y)) fill a b = .ok r ∧ r.dims = d ∧ r.storage.length = numel d ∧
        (∀ idx, InRange idx d → ∃ x y, a.elem (broadcastIndex a.dims idx) = some x ∧
          b.elem (broadcastIndex b.dims idx) = some y ∧ r.storage[rowMajor d idx]? = some (f x y)) ∧
        MFills (bitBinaryMetal maxT f dt a b) r) := by
  obtain ⟨h1, h2⟩ := broadcast2_spec ha hb hpa hpb
  constructor
  · intro hc; simp [bitBinaryMetal, h1 hc]
  · intro hc d hd hn hna hnb
    obtain ⟨r, c1, c2, c3, c4, k, c5, c6⟩ := (C117_binary_buffer ha hb hpa hpb (fun x y => .ok (f x y)) cores fill (bits_arms hdt)).2 hc d hd
      (by omega) hna hnb (fun _ x y _ _ _ => ⟨f x y, rfl⟩)
    obtain ⟨l, r', e1, e2, e3, e4, e5, e6, _⟩ := h2 hc
    have hld : l.dims = d := e2.unique hd
    subst hld
    refine ⟨r, c1, c2, c3, ?_, ?_⟩
    · intro idx hi
      obtain ⟨x, y, v, p1, p2, p3, p4⟩ := c4 idx hi
      cases p3
      exact ⟨x, y, p1, p2, p4⟩
    · unfold bitBinaryCuda at c5
      rw [e1, Res.ok_bind] at c5
      dsimp only at c5
      rw [if_pos (bits_arms hdt), Cuda.bitBinaryLoop, decode_pair e4 e5 e3.symm, Res.ok_bind, Res.ok_bind] at c5
      injection c5 with c5
      injection c5 with q1 q2 q3
      subst q1
      have hpos : 0 < numel l.dims := numel_append_pos (commonShape_pos hd hpa hpb)
      dsimp only at c6
      simp only [both_eq, e3] at c6
      have hrun := runLoop_of_gridLoop (by omega) c3 fun buf hb => c6 buf (hb.trans c3.symm)
      obtain ⟨K, k1, k2⟩ := once_of_runLoop hrun hm hpos hn
      refine ⟨K, ?_, k2⟩
      unfold bitBinaryMetal
      rw [e1, Res.ok_bind]
      dsimp only
      rw [if_neg (by simpa using hdt), bitBinaryLoop, decode_pair e4 e5 e3.symm, Res.ok_bind]
      simp only [strided32_eq, e3]
      rw [k1, Res.ok_bind, ← q2, ← q3]

/-- **C133, unary and shifts by a scalar**: for all non-empty views of at most `2 ^ 32 - 1024` elements that span at most `2 ^ 32` elements of
their buffer. -/
theorem C133_unary_buffer {maxT : Nat} (hm : GroupSize maxT) {t : Tensor α} (ht : t.WF) (f : α → α) (cores : Nat) (fill : α) {dt : DType}
    (hdt : dt ∈ bitTypes) (h0 : 0 < numel t.dims) (hn : numel t.dims ≤ 2 ^ 32 - 1024) (nt : Narrow t) :
    ∃ r, Tensor.bitUnary cores (fun x => .ok (f x)) fill t = .ok r ∧ r.dims = t.dims ∧ r.storage.length = numel t.dims ∧
      (∀ idx, InRange idx t.dims → ∃ x, t.elem idx = some x ∧ r.storage[rowMajor t.dims idx]? = some (f x)) ∧
      MFills (bitUnaryMetal maxT f dt t) r := by
  obtain ⟨r, c1, c2, c3, c4, k, c5, c6⟩ := C117_unary_buffer ht (fun x => .ok (f x)) cores fill (bits_arms hdt) (by omega) nt
    (fun _ x _ _ => ⟨f x, rfl⟩)
  refine ⟨r, c1, c2, c3, ?_, ?_⟩
  · intro idx hi
    obtain ⟨x, v, p1, p2, p3⟩ := c4 idx hi
    cases p2
    exact ⟨x, p1, p3⟩
  · unfold bitUnaryCuda at c5
    rw [if_pos (bits_arms hdt), Cuda.bitUnaryLoop, decodeUnary_md ht.1, Res.ok_bind, Res.ok_bind] at c5
    injection c5 with c5
    injection c5 with q1 q2 q3
    subst q1
    dsimp only at c6
    simp only [one_eq, Layout.size, shapeSize_eq] at c6
    have hrun := runLoop_of_gridLoop (n := numel t.dims) (by omega) c3 fun buf hb => c6 buf (hb.trans c3.symm)
    obtain ⟨K, k1, k2⟩ := once_of_runLoop hrun hm h0 hn
    refine ⟨K, ?_, k2⟩
    unfold bitUnaryMetal
    rw [if_neg (by simpa using hdt), bitUnaryLoop, decodeUnary_md ht.1, Res.ok_bind]
    simp only [strided32_eq, Layout.size, shapeSize_eq]
    rw [show t.layout.dims = t.dims from rfl]
    rw [show t.layout.dims = t.dims from rfl] at k1
    rw [k1, Res.ok_bind, c3, ← q3]

/-! ## Values -/

/-- **C133, values, binary**: every count and every value.  The result is right at every position of the common shape if the left operand has that
shape and is not a contiguous slice.  Missing: more than `2 ^ 32 - 1024` elements, a left operand that is broadcast or a contiguous
slice (`C133_full_false`), zero-size dimensions (`C133_empty`). -/
theorem C133_binary_partial {maxT : Nat} (hm : GroupSize maxT) {s : Bool} {o : BitOp} {a b : Tensor (BitVec w)} (hw : IntWidth w)
    (ha : a.WF) (hb : b.WF) (hpa : ∀ d ∈ a.dims, 0 < d) (hpb : ∀ d ∈ b.dims, 0 < d) {dt : DType} (hdt : dt ∈ bitTypes)
    (hcompat : Compatible a.dims b.dims) (hs : CommonShape a.dims b.dims a.dims)
    (hn : numel a.dims ≤ 2 ^ 32 - 1024) (hnb : numel b.dims ≤ 2 ^ 32)
    (ho : a.layout.isContiguous = false ∨ a.layout.offset = 0) :
    ∃ r, MFills (bitBinaryMetal maxT (bitEvalMetal s o) dt a b) r ∧ r.dims = a.dims ∧
      ∀ idx, InRange idx a.dims → ∃ x y v, a.elem idx = some x ∧ b.elem (broadcastIndex b.dims idx) = some y ∧
        r.elem idx = some v ∧ MetalBits s o x y v := by
  obtain ⟨r, h1, h2, _, h4, h5⟩ := (C133_binary_buffer hm ha hb hpa hpb (bitEvalMetal s o) 1 0 hdt).2 hcompat a.dims hs hn
    (by omega) hnb
  obtain ⟨r', g1, _, _, _, g5⟩ := (C95_buffer ha hb hpa hpb (fun x y => .ok (bitEvalMetal s o x y)) 1 0).2 hcompat a.dims hs
    (fun _ x y _ _ _ => ⟨_, rfl⟩)
  rw [h1] at g1
  cases g1
  refine ⟨r, h5, h2, fun idx hi => ?_⟩
  obtain ⟨x, y, e1, e2, e4⟩ := h4 idx hi
  rw [broadcastIndex_self hi] at e1
  exact ⟨x, y, _, e1, e2, by rw [g5 rfl ho idx hi, e4], C133_bits hw s o x y⟩

/-- **C133, values, `not` and shifts by a scalar**, for a non-empty operand laid out in row-major order from the start of its buffer.
Missing: all other views (`C133_view_false`), more than `2 ^ 32 - 1024` elements. -/
theorem C133_unary_partial {maxT : Nat} (hm : GroupSize maxT) {s : Bool} {o : UnBitOp} {t : Tensor (BitVec w)} (hw : IntWidth w) (ht : t.WF)
    {dt : DType} (hdt : dt ∈ bitTypes) (h0 : 0 < numel t.dims) (hn : numel t.dims ≤ 2 ^ 32 - 1024)
    (hl : t.layout = Layout.fromShape t.dims) :
    ∃ r, MFills (bitUnaryMetal maxT (unBitEvalMetal s o) dt t) r ∧ r.dims = t.dims ∧
      ∀ idx, InRange idx t.dims → ∃ x v, t.elem idx = some x ∧ r.elem idx = some v ∧ MetalUnBits s o x v := by
  have nt : Narrow t := by
    intro idx hi
    rw [hl]
    show dot idx (Layout.computeStrides t.dims) < _
    rw [dot_computeStrides]
    have := rowMajor_lt hi
    omega
  obtain ⟨r, h1, h2, _, h4, h5⟩ := C133_unary_buffer hm ht (unBitEvalMetal s o) 1 0 hdt h0 hn nt
  have hlay : r.layout = t.layout := by
    unfold Tensor.bitUnary at h1
    obtain ⟨_, _, h1⟩ := Res.bind_eq_ok.mp h1
    cases h1; rfl
  refine ⟨r, h5, h2, fun idx hi => ?_⟩
  obtain ⟨x, e1, e3⟩ := h4 idx hi
  refine ⟨x, _, e1, ?_, C133_unary_bits hw s o x⟩
  have hr : r = ⟨r.storage, Layout.fromShape t.dims⟩ := by
    rw [hl] at hlay
    cases r; simp only [Tensor.mk.injEq, true_and]; exact hlay
  rw [hr]
  simp only [Layout.fromShape, elem_rowMajor]
  rw [Nat.zero_add]
  exact e3

/-- What a tensor that a launch fills has at the start of every buffer: a launch fills one tensor only. -/
theorem mfills_unique {l : Res (LLaunched α)} {r r' : Tensor α} (h : MFills l r) (h' : MFills l r') : r = r' := by
  obtain ⟨k, e, c⟩ := h
  obtain ⟨k', e', c'⟩ := h'
  rw [e] at e'
  injection e' with e'
  injection e' with h1 h2 h3
  subst h1
  have hs := Computes.unique (c r.storage (Nat.le_refl _)) (c' r.storage (by omega)) fun B => exists_fair B k.threads
  rw [← h2, List.drop_length, List.append_nil, List.append_nil] at hs
  cases r; cases r'
  simp only at hs h3
  rw [hs, h3]

/-- **C133, like the CPU, binary**: whatever tensor the CPU returns for a binary operator, the launch fills. -/
theorem C133_binary_like_cpu {maxT : Nat} (hm : GroupSize maxT) {s : Bool} {o : BitOp} {a b : Tensor (BitVec w)} (ha : a.WF) (hb : b.WF)
    (hpa : ∀ d ∈ a.dims, 0 < d) (hpb : ∀ d ∈ b.dims, 0 < d) {dt : DType} (hdt : dt ∈ bitTypes) {d : List Nat}
    (hcompat : Compatible a.dims b.dims) (hs : CommonShape a.dims b.dims d) (hn : numel d ≤ 2 ^ 32 - 1024)
    (hna : numel a.dims ≤ 2 ^ 32) (hnb : numel b.dims ≤ 2 ^ 32)
    (hdef : ∀ idx x y, InRange idx d → a.elem (broadcastIndex a.dims idx) = some x →
      b.elem (broadcastIndex b.dims idx) = some y → ∃ v, o.eval s x y = .ok v) (cores : Nat) (fill : BitVec w) :
    ∃ r, Tensor.bitBinary cores (o.eval s) fill a b = .ok r ∧ MFills (bitBinaryMetal maxT (bitEvalMetal s o) dt a b) r := by
  obtain ⟨r, c1, _, c3, c4, _⟩ := (C95_buffer ha hb hpa hpb (o.eval s) cores fill).2 hcompat d hs hdef
  obtain ⟨r', d1, _, d3, d4, d5⟩ := (C133_binary_buffer hm ha hb hpa hpb (bitEvalMetal s o) cores fill hdt).2 hcompat d hs hn hna hnb
  have hlay : r.layout = r'.layout := by
    unfold Tensor.bitBinary at c1 d1
    obtain ⟨p, p1, c1⟩ := Res.bind_eq_ok.mp c1
    obtain ⟨p', p1', d1⟩ := Res.bind_eq_ok.mp d1
    rw [p1] at p1'
    cases p1'
    obtain ⟨_, _, c1⟩ := Res.bind_eq_ok.mp c1
    obtain ⟨_, _, d1⟩ := Res.bind_eq_ok.mp d1
    cases c1; cases d1; rfl
  have := bitBinary_mono (g := fun x y => .ok (bitEvalMetal s o x y)) (fun x y v h => by rw [C133_operators.1 h]) hlay (by rw [c3, d3]) c3 c4
    (fun idx hi => by
      obtain ⟨x, y, p1, p2, p3⟩ := d4 idx hi
      exact ⟨x, y, _, p1, p2, rfl, p3⟩)
  subst this
  exact ⟨r, c1, d5⟩

/-! ## What is refused or wrong -/

/-- **C133, types**: types without kernels are errors; boolean and float tensors among them. -/
theorem C133_types {maxT : Nat} {dt : DType} (hdt : dt ∉ bitTypes) :
    (∀ (f : α → α → α) (a b : Tensor α), ∀ l, bitBinaryMetal maxT f dt a b ≠ .ok l) ∧
    ∀ (f : α → α) (t : Tensor α), bitUnaryMetal maxT f dt t = .err := by
  refine ⟨fun f a b l h => ?_, fun f t => if_pos hdt⟩
  · unfold bitBinaryMetal at h
    obtain ⟨p, _, h⟩ := Res.bind_eq_ok.mp h
    dsimp only at h
    rw [if_pos hdt] at h
    cases h

/-- **C133, no elements**: a unary operator on an empty tensor panics; on the CPU it is an empty tensor. -/
theorem C133_empty (maxT : Nat) (f : α → α) {dt : DType} (hdt : dt ∈ bitTypes) {t : Tensor α} (ht : t.WF) (h0 : numel t.dims = 0) :
    bitUnaryMetal maxT f dt t = .panic := by
  unfold bitUnaryMetal
  rw [if_neg (by simpa using hdt), bitUnaryLoop, decodeUnary_md ht.1, Res.ok_bind]
  have : t.layout.size = 0 := by rw [Layout.size, shapeSize_eq]; exact h0
  rw [show ({ numEls := t.layout.size, dims := t.layout.dims, strides := t.layout.strides, offset := t.layout.offset } : UnaryMeta).numEls = 0
    from this]
  unfold launchOnce linearSplit
  simp [Res.bind]

/-- The full property for binary operators. -/
def C133_full : Prop :=
  ∀ (w maxT : Nat) (s : Bool) (o : BitOp) (a b : Tensor (BitVec w)) (dt : DType), IntWidth w → GroupSize maxT → a.WF → b.WF →
    dt ∈ bitTypes → Compatible a.dims b.dims →
    ∃ r, MFills (bitBinaryMetal maxT (bitEvalMetal s o) dt a b) r ∧ CommonShape a.dims b.dims r.dims ∧
      ∀ idx, InRange idx r.dims → ∃ x y v, a.elem (broadcastIndex a.dims idx) = some x ∧
        b.elem (broadcastIndex b.dims idx) = some y ∧ r.elem idx = some v ∧ MetalBits s o x y v

/-- **C133 is false of the code**: `[12] & [4, 8]` on `u8` is `[4, 4]`, not `[4, 8]`, as on the CPU (`C95_full_false`). -/
theorem C133_full_false : ¬ C133_full := by
  intro h
  have hc : Compatible [1] [2] := fun k => by
    match k with
    | 0 => decide
    | k + 1 => simp [dimFromRight]
  have hs : CommonShape [1] [2] [2] := ⟨rfl, fun k => by
    match k with
    | 0 => decide
    | k + 1 => simp [dimFromRight]⟩
  have hA : (⟨[12], Layout.fromShape [1]⟩ : Tensor (BitVec 8)).WF := fresh_wf rfl
  have hB : (⟨[4, 8], Layout.fromShape [2]⟩ : Tensor (BitVec 8)).WF := fresh_wf rfl
  have hm : GroupSize 32 := by unfold GroupSize; decide
  obtain ⟨r, h1, _, h2⟩ := h 8 32 false .band ⟨[12], Layout.fromShape [1]⟩ ⟨[4, 8], Layout.fromShape [2]⟩ .u8 (Or.inl rfl) hm
    hA hB (by decide) hc
  have he : Tensor.bitBinary 1 (BitOp.eval false .band) 0 (⟨[12], Layout.fromShape [1]⟩ : Tensor (BitVec 8))
    ⟨[4, 8], Layout.fromShape [2]⟩ = .ok ⟨[4, 8], ⟨[2], [0], 0⟩⟩ := by decide +kernel
  obtain ⟨r', g1, g2⟩ := C133_binary_like_cpu hm (s := false) (o := .band) (dt := .u8) (d := [2]) hA hB (by decide) (by decide)
    (by decide) hc hs (by decide) (by decide) (by decide) (fun _ _ _ _ _ _ => ⟨_, rfl⟩) 1 0
  rw [he] at g1
  cases g1
  have := mfills_unique h1 g2
  subst this
  obtain ⟨x, y, v, hx, hy, hr, hv⟩ := h2 [1] (by decide)
  have hx : x = 12 := by
    have : some 12 = some x := hx
    simpa using this.symm
  have hy : y = 8 := by
    have : some 8 = some y := hy
    simpa using this.symm
  have hr : v = 4 := by
    have : some 4 = some v := hr
    simpa using this.symm
  subst hx hy hr
  exact absurd (hv 2 (by decide)) (by decide)

/-- `bitwise_not` of a transposed matrix permutes it, as on the CPU (`C95_view_false`): element `[1, 0]` is `2`, and the result
there is `251`, not `253`. -/
theorem C133_view_false :
    ∃ r, MFills (bitUnaryMetal 32 (unBitEvalMetal false .not) .u8 (⟨[1, 2, 3, 4, 5, 6], ⟨[3, 2], [1, 3], 0⟩⟩ : Tensor (BitVec 8))) r ∧
      (⟨[1, 2, 3, 4, 5, 6], ⟨[3, 2], [1, 3], 0⟩⟩ : Tensor (BitVec 8)).elem [1, 0] = some 2 ∧ r.elem [1, 0] = some 251 := by
  have hw : (⟨[1, 2, 3, 4, 5, 6], ⟨[3, 2], [1, 3], 0⟩⟩ : Tensor (BitVec 8)).WF := by
    have h0 : (⟨[1, 2, 3, 4, 5, 6], Layout.fromShape [2, 3]⟩ : Tensor (BitVec 8)).WF := fresh_wf rfl
    obtain ⟨r, e, hr, _⟩ := (C03_transpose h0 0 1).2 0 1 (by decide) ⟨by decide, Or.inl rfl⟩ ⟨by decide, Or.inl rfl⟩
    have e' : (⟨[1, 2, 3, 4, 5, 6], Layout.fromShape [2, 3]⟩ : Tensor (BitVec 8)).transpose 0 1 =
      .ok ⟨[1, 2, 3, 4, 5, 6], ⟨[3, 2], [1, 3], 0⟩⟩ := by decide +kernel
    rw [e'] at e
    cases e
    exact hr
  obtain ⟨r, h1, _, _, _, h5⟩ := C133_unary_buffer (maxT := 32) (by unfold GroupSize; decide) hw (unBitEvalMetal false .not) 1 0 (dt := .u8)
    (by decide) (by decide) (by decide) (narrow_of_storage hw (by decide))
  have he : Tensor.bitUnary 1 (fun x => .ok (unBitEvalMetal false .not x)) 0
      (⟨[1, 2, 3, 4, 5, 6], ⟨[3, 2], [1, 3], 0⟩⟩ : Tensor (BitVec 8)) =
    .ok ⟨[254, 251, 253, 250, 252, 249], ⟨[3, 2], [1, 3], 0⟩⟩ := by decide +kernel
  rw [he] at h1
  cases h1
  exact ⟨_, h5, by decide, by decide⟩

/-- **C133, counts**: a shift by the width of the promoted type leaves the value, where the mathematical result is 0 and the CPU has undefined
behaviour; and an 8-bit value shifted by 8 to 31 is 0. -/
theorem C133_counts :
    unBitEvalMetal false (.shl 32) (5 : BitVec 32) = 5 ∧ unBitEvalMetal false (.shr 64) (5 : BitVec 64) = 5 ∧
    unBitEvalMetal false (.shl 32) (5 : BitVec 8) = 5 ∧ unBitEvalMetal false (.shl 9) (5 : BitVec 8) = 0 ∧
    UnBitOp.eval false (.shl 32) (5 : BitVec 32) = .ub ∧ unBitEvalMetal true (.shr 1) (0xff : BitVec 8) = 0xff ∧
    unBitEvalMetal true (.shl 1) (0xff : BitVec 8) = 0xfe := by
  decide +kernel

/-! ## Examples -/

/-- A transposed left operand and a broadcast right operand. -/
example :
    let a : Tensor (BitVec 8) := ⟨[1, 2, 3, 4, 5, 6], ⟨[3, 2], [1, 3], 0⟩⟩
    let b : Tensor (BitVec 8) := ⟨[1, 2], Layout.fromShape [2]⟩
    a.layout.isContiguous = false ∧ Tensor.broadcastDims a.dims b.dims = .ok a.dims ∧ DType.i8 ∈ bitTypes ∧
    Tensor.bitBinary 4 (fun x y => .ok (bitEvalMetal true .shl x y)) 0 a b = .ok ⟨[2, 16, 4, 20, 6, 24], ⟨[3, 2], [2, 1], 0⟩⟩ := by
  decide +kernel

/-- A `u32` tensor shifted by 33, which is a shift by 1. -/
example : ∃ r, MFills (bitUnaryMetal 64 (unBitEvalMetal false (.shl 33)) .u32 (⟨[1, 2, 3], Layout.fromShape [3]⟩ : Tensor (BitVec 32))) r ∧
    r.dims = [3] :=
  have h := C133_unary_partial (maxT := 64) (by unfold GroupSize; decide) (s := false) (o := .shl 33)
    (t := (⟨[1, 2, 3], Layout.fromShape [3]⟩ : Tensor (BitVec 32))) (Or.inr (Or.inr (Or.inl rfl))) (fresh_wf rfl) (dt := .u32) (by decide)
    (by decide) (by decide) rfl
  h.imp fun _ h => ⟨h.1, h.2.1⟩

example : DType.f32 ∉ bitTypes ∧ numel [0, 3] = 0 := by decide

end Hodu.Metal
