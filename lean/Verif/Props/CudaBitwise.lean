import Verif.Model.CudaBitwise
import Verif.Props.Cuda
import Verif.Props.CudaMove
import Verif.Props.Bitwise

/-! # Property C117: bitwise operations on CUDA -/

namespace Hodu.Cuda
open _root_.Hodu _root_.Hodu.Spec
open Cuda.Spec

variable {α β : Type}

/-! ## Specification -/

/-- The launch leaves the buffer of `r` and the tensor has the layout of `r`: from any content of the output buffer every
interleaving of the threads ends with the list `r.storage`. -/
def Spec.Fills (l : Res (LLaunched α)) (r : Tensor α) : Prop :=
  ∃ k, l = .ok ⟨k, r.storage.length, r.layout⟩ ∧ ∀ buf, buf.length = r.storage.length → Computes k buf r.storage

/-- The left shifts defined in C++: an unsigned type, or a value that is not negative and stays in the range of the
unsigned type. -/
def Spec.CxxShlDefined (s : Bool) (x : BitVec w) (n : Nat) : Prop :=
  s = false ∨ (0 ≤ x.toInt ∧ x.toInt * 2 ^ n < 2 ^ w)

/-! ## Operators -/

theorem cxxShl_of_cShl {s : Bool} {x r : BitVec w} {n : Int} (h : cShl s x n = .ok r) : cxxShl s x n = .ok r := by
  unfold cShl at h
  unfold cxxShl
  split at h
  · cases h
  · rename_i hn
    rw [if_neg hn]
    split at h
    · cases h
    · rename_i hp
      rw [if_neg]
      · exact h
      · rintro ⟨h1, h2 | h2⟩
        · exact hp ⟨h1, Or.inl h2⟩
        · refine hp ⟨h1, Or.inr (le_trans ?_ h2)⟩
          exact pow_le_pow_right₀ (by norm_num) (by omega)

/-- **C117, operators**: wherever the C operators of the CPU are defined, the operators of the kernels give the same bits. -/
theorem C117_operators {s : Bool} {o : BitOp} {x y r : BitVec w} (h : o.eval s x y = .ok r) : bitEval s o x y = .ok r := by
  cases o with
  | shl => exact cxxShl_of_cShl h
  | _ => exact h

theorem unBitEval_of_eval {s : Bool} {o : UnBitOp} {x r : BitVec w} (h : o.eval s x = .ok r) :
    unBitEval s o x = .ok r := by
  cases o with
  | shl n => exact cxxShl_of_cShl h
  | _ => exact h

/-- **C117, left shift**: whenever the C++ expression is defined, the bits move up by the count. -/
theorem C117_shl_bits {s : Bool} {x r : BitVec w} {n : Int} (h : cxxShl s x n = .ok r) :
    0 ≤ n ∧ ∀ i, i < w → r.getLsbD i = shlBit x n.toNat i := by
  unfold cxxShl at h
  split at h
  · cases h
  · rename_i hn
    split at h
    · cases h
    · injection h with h
      subst h
      refine ⟨by omega, fun i hi => ?_⟩
      have hp := le_promWidth w
      have : i < promWidth w := by omega
      have h2 : i - n.toNat < w := by omega
      have h3 : i - n.toNat < promWidth w := by omega
      simp only [demote_bits, BitVec.getLsbD_shiftLeft, promote_bits, shlBit, hi, this, h2, h3, decide_true, Bool.true_and,
        if_true]
      by_cases hni : n.toNat ≤ i
      · simp [hni, Nat.not_lt.mpr hni]
      · simp [hni, Nat.lt_of_not_le hni]

theorem cxxShl_ok {s : Bool} {x : BitVec w} {n : Nat} (hw : IntWidth w) (hn : n < w) (hx : CxxShlDefined s x n) :
    ∃ r, cxxShl s x n = .ok r := by
  rcases hx with rfl | ⟨h1, h2⟩
  · obtain ⟨r, hr⟩ := (C95_counts (s := false) (x := x) hw hn).2
    exact ⟨r, cxxShl_of_cShl hr⟩
  · cases s with
    | false =>
      obtain ⟨r, hr⟩ := (C95_counts (s := false) (x := x) hw hn).2
      exact ⟨r, cxxShl_of_cShl hr⟩
    | true =>
      have hp := le_promWidth w
      unfold cxxShl
      rw [if_neg (by omega), if_neg]
      · exact ⟨_, rfl⟩
      · rintro ⟨_, h⟩
        have h : x.toInt < 0 ∨ 2 ^ promWidth w ≤ x.toInt * 2 ^ n := h
        have : (2 : Int) ^ w ≤ 2 ^ promWidth w := pow_le_pow_right₀ (by norm_num) (by omega)
        omega

theorem bitEval_ok {s : Bool} {o : BitOp} {x y : BitVec w} (hw : IntWidth w) (hc : CountOk w o y)
    (hx : o = .shl → CxxShlDefined s x y.toNat) : ∃ r, bitEval s o x y = .ok r := by
  cases o with
  | shl =>
    have h := hc (Or.inl rfl)
    simp only [bitEval, cVal_count hw h]
    exact cxxShl_ok hw h (hx rfl)
  | shr =>
    have h := hc (Or.inr rfl)
    simp only [bitEval, cVal_count hw h]
    exact (C95_counts hw h).1
  | band => exact ⟨_, rfl⟩
  | bor => exact ⟨_, rfl⟩
  | bxor => exact ⟨_, rfl⟩

theorem bitEval_bits {s : Bool} {o : BitOp} {x y r : BitVec w} (hw : IntWidth w) (hc : CountOk w o y)
    (h : bitEval s o x y = .ok r) : BitResult s o x y r := by
  by_cases ho : o = .shl
  · subst ho
    have hcc := hc (Or.inl rfl)
    simp only [bitEval, cVal_count hw hcc] at h
    exact fun i hi => (C117_shl_bits h).2 i hi
  · refine eval_bits hw hc ?_
    cases o with
    | shl => exact absurd rfl ho
    | _ => exact h

/-! ## Kernels -/

/-- The strided indices of the view fit 32 bits. -/
def Spec.Narrow (t : Tensor α) : Prop :=
  ∀ idx, InRange idx t.dims → dot idx t.layout.strides < 2 ^ 32

theorem narrow_pos {t : Tensor α} {xs : List α} (ht : t.WF) (hx : t.HasValues xs) (hn : Narrow t) {i : Nat}
    (hi : i < xs.length) :
    readC t.storage (t.layout.offset + stridedIndex i t.dims t.layout.strides) = .ok xs[i] := by
  have hi' : i < numel t.dims := by rw [← hx.1]; exact hi
  have h := HasValues.readC_strided ht hx hi
  have he : stridedIndex i t.dims t.layout.strides = getStridedIndex i t.dims t.layout.strides := by
    refine u32_of_lt ?_
    rw [getStridedIndex_eq_dot ht.1 hi']
    exact hn _ (unravel_inRange hi')
  rw [he]
  exact h

/-- A buffer in which the view spans at most `2 ^ 32` elements. -/
theorem narrow_of_storage {t : Tensor α} (ht : t.WF) (hs : t.storage.length ≤ t.layout.offset + 2 ^ 32) : Narrow t := by
  intro idx hi
  have h := ht.2 idx hi
  rw [Option.isSome_iff_exists] at h
  obtain ⟨x, hx⟩ := h
  have := (List.getElem?_eq_some_iff.mp hx).1
  omega

/-- The operands of a binary operation are broadcast from contiguous tensors: their indices are bounded by the number of
elements of the source, wherever it lies in its buffer. -/
theorem narrow_broadcast {a l : Tensor α} {out : List Nat} (ha : a.WF) (hb : BroadcastsTo a.dims out)
    (h : a.broadcast out = .ok l) (hn : numel a.dims ≤ 2 ^ 32) : Narrow l := by
  obtain ⟨s, o, c1, _, _⟩ := contiguous_spec ha
  obtain ⟨st, b1, _, b3⟩ := (broadcastTo_spec (l := ⟨a.dims, Layout.computeStrides a.dims, o⟩)
    (target := out) (computeStrides_length _)).1 hb
  have hL : l = ⟨s, ⟨out, st, o⟩⟩ := by
    have : a.broadcast out = .ok ⟨s, ⟨out, st, o⟩⟩ := by
      simp [Tensor.broadcast, Tensor.viewVia, c1, b1]
    rw [h] at this
    exact Res.ok.inj this
  subst hL
  intro idx hi
  obtain ⟨hr, hd⟩ := b3 idx hi
  have hd : dot idx st = dot (broadcastIndex a.dims idx) (Layout.computeStrides a.dims) := hd
  show dot idx st < _
  rw [hd, dot_computeStrides]
  exact lt_of_lt_of_le (rowMajor_lt hr) hn

theorem bitBinaryLoop_ok {f : α → α → Res β} {l r : Tensor α} {xs ys : List α} {zs : List β} (hl : l.WF) (hr : r.WF)
    (hd : l.dims = r.dims) (hx : l.HasValues xs) (hy : r.HasValues ys) (hz : zs.length = numel l.dims)
    (hf : ∀ i x y (hi : i < zs.length), xs[i]? = some x → ys[i]? = some y → f x y = .ok zs[i])
    (hn : numel l.dims ≤ 2 ^ 32 - 256) (nl : Narrow l) (nr : Narrow r) :
    ∃ k, bitBinaryLoop f l.storage r.storage (binaryMetadata l.layout r.layout l.layout) = .ok k ∧
      ∀ buf, buf.length = zs.length → Computes k buf zs := by
  have hxl := hx.1
  have hyl : ys.length = numel l.dims := by rw [hd]; exact hy.1
  refine ⟨_, by rw [bitBinaryLoop, decode_pair hl hr hd]; rfl, fun buf hb => ?_⟩
  refine gridLoop_list hn (by rw [hb, hz]) hz ?_
  intro i hi
  have h1 := narrow_pos hl hx nl (i := i) (by omega)
  have h2 := narrow_pos hr hy nr (i := i) (by omega)
  have key : ∀ {a b : Nat}, readC l.storage a = .ok (xs[i]'(by omega)) → readC r.storage b = .ok (ys[i]'(by omega)) →
      ((readC l.storage a).bind fun x => (readC r.storage b).bind fun y => f x y) = .ok zs[i] := by
    intro a b ha hb
    rw [ha, Res.ok_bind, hb, Res.ok_bind]
    exact hf i _ _ hi (List.getElem?_eq_getElem (by omega)) (List.getElem?_eq_getElem (by omega))
  dsimp only
  split
  · rename_i hc
    simp only [Bool.and_eq_true] at hc
    exact key (HasValues.readC_cont hl hx hc.1 (by omega)) (HasValues.readC_cont hr hy hc.2 (by omega))
  · split
    · rename_i hc; exact key (HasValues.readC_cont hl hx hc (by omega)) h2
    · split
      · rename_i hc; exact key h1 (HasValues.readC_cont hr hy hc (by omega))
      · exact key h1 h2

theorem bitUnaryLoop_ok {f : α → Res β} {t : Tensor α} {xs : List α} {zs : List β} (ht : t.WF) (hx : t.HasValues xs)
    (hz : zs.length = numel t.dims) (hf : ∀ i x (hi : i < zs.length), xs[i]? = some x → f x = .ok zs[i])
    (hn : numel t.dims ≤ 2 ^ 32 - 256) (nt : Narrow t) :
    ∃ k, bitUnaryLoop f t.storage (unaryMetadata t.layout t.layout) = .ok k ∧
      ∀ buf, buf.length = zs.length → Computes k buf zs := by
  have hxl := hx.1
  refine ⟨_, by rw [bitUnaryLoop, decodeUnary_md ht.1]; rfl, fun buf hb => ?_⟩
  simp only [Layout.size, shapeSize_eq]
  refine gridLoop_list hn (by rw [hb, hz]) hz ?_
  intro i hi
  split
  · rename_i hc
    have := HasValues.readC_cont ht hx hc (i := i) (by omega)
    rw [this, Res.ok_bind]
    exact hf i _ hi (List.getElem?_eq_getElem (by omega))
  · have := narrow_pos ht hx nt (i := i) (by omega)
    rw [show t.layout.dims = t.dims from rfl, this, Res.ok_bind]
    exact hf i _ hi (List.getElem?_eq_getElem (by omega))

/-! ## Tensors -/

/-- **C117, like the CPU, binary**: whenever the element operation is defined on all pairs that meet, the launch fills the buffer
and gives the layout that the CPU gives, for all operands whose result has at most `2 ^ 32 - 256` elements. -/
theorem C117_binary_buffer {a b : Tensor α} (ha : a.WF) (hb : b.WF) (hpa : ∀ d ∈ a.dims, 0 < d) (hpb : ∀ d ∈ b.dims, 0 < d)
    (f : α → α → Res α) (cores : Nat) (fill : α) {dt : DType} (hdt : dt ∈ bitArms) :
    (¬ Compatible a.dims b.dims → bitBinaryCuda f dt a b = .err) ∧
    (Compatible a.dims b.dims → ∀ d, CommonShape a.dims b.dims d →
      numel d ≤ 2 ^ 32 - 256 → numel a.dims ≤ 2 ^ 32 → numel b.dims ≤ 2 ^ 32 →
      (∀ idx x y, InRange idx d → a.elem (broadcastIndex a.dims idx) = some x → b.elem (broadcastIndex b.dims idx) = some y →
        ∃ v, f x y = .ok v) →
      ∃ r, Tensor.bitBinary cores f fill a b = .ok r ∧ r.dims = d ∧ r.storage.length = numel d ∧
        (∀ idx, InRange idx d → ∃ x y v, a.elem (broadcastIndex a.dims idx) = some x ∧
          b.elem (broadcastIndex b.dims idx) = some y ∧ f x y = .ok v ∧ r.storage[rowMajor d idx]? = some v) ∧
        Fills (bitBinaryCuda f dt a b) r) := by
  obtain ⟨h1, h2⟩ := broadcast2_spec ha hb hpa hpb
  constructor
  · intro hc; simp [bitBinaryCuda, h1 hc]
  · intro hc d hd hn hna hnb hdef
    obtain ⟨l, r, e1, e2, e3, e4, e5, e6, _⟩ := h2 hc
    have hld : l.dims = d := e2.unique hd
    subst hld
    have hB := e1
    unfold Tensor.broadcast2 at hB
    obtain ⟨out, e8, hB⟩ := Res.bind_eq_ok.mp hB
    obtain ⟨l', hl', hB⟩ := Res.bind_eq_ok.mp hB
    obtain ⟨r', hr', hB⟩ := Res.bind_eq_ok.mp hB
    injection hB with hB
    injection hB with q1 q2
    subst q1 q2
    obtain ⟨out', o1, o2⟩ := (C06_broadcast_dims_partial a.dims b.dims hpa hpb).1 hc
    rw [e8] at o1
    cases o1
    have nl := narrow_broadcast ha (broadcastsTo_left o2) hl' hna
    have nr := narrow_broadcast hb (broadcastsTo_right hc o2) hr' hnb
    obtain ⟨xs, hx⟩ := e4.hasValues
    obtain ⟨ys, hy⟩ := e5.hasValues
    have hyl : ys.length = numel l'.dims := by rw [← e3]; exact hy.1
    have hex : ∀ i, i < numel l'.dims → ∃ v, ∀ x y, xs[i]? = some x → ys[i]? = some y → f x y = .ok v := by
      intro i hi
      have hxi := hx.get (i := i) (by rw [hx.1]; exact hi)
      have hyi := hy.get (i := i) (by rw [hyl]; exact hi)
      have hr := unravel_inRange hi
      rw [(e6 _ hr).1] at hxi
      rw [e3, (e6 _ hr).2] at hyi
      obtain ⟨v, hv⟩ := hdef _ _ _ hr hxi hyi
      refine ⟨v, fun x y h1 h2 => ?_⟩
      rw [List.getElem?_eq_getElem (by rw [hx.1]; exact hi)] at h1
      rw [List.getElem?_eq_getElem (by rw [hyl]; exact hi)] at h2
      rw [← Option.some.inj h1, ← Option.some.inj h2]
      exact hv
    obtain ⟨zs, hz, hzv⟩ := exists_list _ hex
    have hk := bitBinaryKernel_ok e4 e5 e3.symm hx hy hz (fun i x y hi => hzv i hi x y) cores
      (List.replicate l'.layout.size fill) (by simp [Layout.size, shapeSize_eq, Tensor.dims])
    obtain ⟨k, hk1, hk2⟩ := bitBinaryLoop_ok e4 e5 e3.symm hx hy hz (fun i x y hi => hzv i hi x y) hn nl nr
    refine ⟨⟨zs, l'.layout⟩, by simp [Tensor.bitBinary, e1, hk], rfl, hz, ?_, k, ?_, hk2⟩
    · intro idx hi
      have hlt := rowMajor_lt hi
      obtain ⟨x, hxe⟩ := Option.isSome_iff_exists.mp (e4.2 idx hi)
      obtain ⟨y, hye⟩ := Option.isSome_iff_exists.mp (e5.2 idx (e3 ▸ hi))
      have hxs : xs[rowMajor l'.dims idx]? = some x := by rw [hx.2 idx hi, hxe]
      have hys : ys[rowMajor l'.dims idx]? = some y := by rw [← hye, ← hy.2 idx (e3 ▸ hi), e3]
      exact ⟨x, y, zs[rowMajor l'.dims idx]'(by omega), by rw [← (e6 idx hi).1, hxe], by rw [← (e6 idx hi).2, hye],
        hzv _ (by omega) x y hxs hys, List.getElem?_eq_getElem (by show _ < zs.length; omega)⟩
    · show bitBinaryCuda f dt a b = .ok ⟨k, zs.length, l'.layout⟩
      unfold bitBinaryCuda
      rw [e1, Res.ok_bind]
      dsimp only
      rw [if_pos hdt, hk1, Res.ok_bind, shapeSize_eq, hz]

/-- **C117, like the CPU, unary and shifts by a scalar**: for all views of at most `2 ^ 32 - 256` elements that span at most
`2 ^ 32` elements of their buffer. -/
theorem C117_unary_buffer {t : Tensor α} (ht : t.WF) (f : α → Res α) (cores : Nat) (fill : α) {dt : DType} (hdt : dt ∈ bitArms)
    (hn : numel t.dims ≤ 2 ^ 32 - 256) (nt : Narrow t)
    (hdef : ∀ idx x, InRange idx t.dims → t.elem idx = some x → ∃ v, f x = .ok v) :
    ∃ r, Tensor.bitUnary cores f fill t = .ok r ∧ r.dims = t.dims ∧ r.storage.length = numel t.dims ∧
      (∀ idx, InRange idx t.dims → ∃ x v, t.elem idx = some x ∧ f x = .ok v ∧ r.storage[rowMajor t.dims idx]? = some v) ∧
      Fills (bitUnaryCuda f dt t) r := by
  obtain ⟨xs, hx⟩ := ht.hasValues
  have hex : ∀ i, i < numel t.dims → ∃ v, ∀ x, xs[i]? = some x → f x = .ok v := by
    intro i hi
    obtain ⟨v, hv⟩ := hdef _ _ (unravel_inRange hi) (hx.get (i := i) (by rw [hx.1]; exact hi))
    refine ⟨v, fun x h1 => ?_⟩
    rw [List.getElem?_eq_getElem (by rw [hx.1]; exact hi)] at h1
    rw [← Option.some.inj h1]; exact hv
  obtain ⟨zs, hz, hzv⟩ := exists_list _ hex
  have hk := bitUnaryKernel_ok ht hx hz (fun i x hi => hzv i hi x) cores (List.replicate t.layout.size fill)
    (by simp [Layout.size, shapeSize_eq, Tensor.dims])
  obtain ⟨k, hk1, hk2⟩ := bitUnaryLoop_ok ht hx hz (fun i x hi => hzv i hi x) hn nt
  refine ⟨⟨zs, t.layout⟩, by simp [Tensor.bitUnary, hk], rfl, hz, fun idx hi => ?_, k, ?_, hk2⟩
  · have hlt := rowMajor_lt hi
    obtain ⟨x, hxe⟩ := Option.isSome_iff_exists.mp (ht.2 idx hi)
    exact ⟨x, zs[rowMajor t.dims idx]'(by omega), hxe, hzv _ (by omega) x (by rw [hx.2 idx hi, hxe]),
      List.getElem?_eq_getElem (by show _ < zs.length; omega)⟩
  · show bitUnaryCuda f dt t = .ok ⟨k, zs.length, t.layout⟩
    unfold bitUnaryCuda
    rw [if_pos hdt, hk1, Res.ok_bind, shapeSize_eq, hz]

/-- What the CPU computes with the operators of C, the launch computes with those of C++. -/
theorem bitBinary_mono {f g : α → α → Res α} (hfg : ∀ x y v, f x y = .ok v → g x y = .ok v) {a b r r' : Tensor α} (hr : r.layout = r'.layout) (hl : r.storage.length = r'.storage.length) {d : List Nat}
    (hd : r.storage.length = numel d)
    (h : ∀ idx, InRange idx d → ∃ x y v, a.elem (broadcastIndex a.dims idx) = some x ∧
      b.elem (broadcastIndex b.dims idx) = some y ∧ f x y = .ok v ∧ r.storage[rowMajor d idx]? = some v)
    (h' : ∀ idx, InRange idx d → ∃ x y v, a.elem (broadcastIndex a.dims idx) = some x ∧
      b.elem (broadcastIndex b.dims idx) = some y ∧ g x y = .ok v ∧ r'.storage[rowMajor d idx]? = some v) : r = r' := by
  have hs : r.storage = r'.storage := by
    refine List.ext_getElem? fun i => ?_
    by_cases hi : i < numel d
    · have hir := unravel_inRange hi
      obtain ⟨x, y, v, e1, e2, e3, e4⟩ := h _ hir
      obtain ⟨x', y', v', e1', e2', e3', e4'⟩ := h' _ hir
      rw [rowMajor_unravel hi] at e4 e4'
      rw [e1] at e1'; cases e1'
      rw [e2] at e2'; cases e2'
      rw [hfg _ _ _ e3] at e3'; cases e3'
      rw [e4, e4']
    · rw [List.getElem?_eq_none (by omega), List.getElem?_eq_none (by omega)]
  cases r; cases r'
  simp only at hs hr
  rw [hs, hr]

/-- **C117, values, binary**: operands of one integer type, shift counts below the width.  The result is right at every position
of the common shape if the left operand has that shape and is not a contiguous slice.  Missing: more than `2 ^ 32 - 256`
elements (`C103_endless`), left shifts of negative numbers or out of the unsigned range, a left operand that is broadcast or a
contiguous slice (`C117_full_false`), zero-size dimensions. -/
theorem C117_binary_partial {s : Bool} {o : BitOp} {a b : Tensor (BitVec w)} (hw : IntWidth w) (ha : a.WF) (hb : b.WF)
    (hpa : ∀ d ∈ a.dims, 0 < d) (hpb : ∀ d ∈ b.dims, 0 < d) {dt : DType} (hdt : dt ∈ bitArms)
    (hcompat : Compatible a.dims b.dims) (hs : CommonShape a.dims b.dims a.dims)
    (hn : numel a.dims ≤ 2 ^ 32 - 256) (hnb : numel b.dims ≤ 2 ^ 32)
    (ho : a.layout.isContiguous = false ∨ a.layout.offset = 0)
    (hc : ∀ idx y, InRange idx b.dims → b.elem idx = some y → CountOk w o y)
    (hx : o = .shl → ∀ idx x y, InRange idx a.dims → a.elem idx = some x →
      b.elem (broadcastIndex b.dims idx) = some y → CxxShlDefined s x y.toNat) :
    ∃ r, Fills (bitBinaryCuda (bitEval s o) dt a b) r ∧ r.dims = a.dims ∧
      ∀ idx, InRange idx a.dims → ∃ x y v, a.elem idx = some x ∧ b.elem (broadcastIndex b.dims idx) = some y ∧
        r.elem idx = some v ∧ BitResult s o x y v := by
  have hbi : ∀ idx, InRange idx a.dims → InRange (broadcastIndex b.dims idx) b.dims := by
    obtain ⟨_, _, _, _, hle⟩ := (C05_broadcast hb a.dims).2 (broadcastsTo_right hcompat hs)
    exact fun idx hi => (hle idx hi).1
  have hdef : ∀ idx x y, InRange idx a.dims → a.elem (broadcastIndex a.dims idx) = some x →
      b.elem (broadcastIndex b.dims idx) = some y → ∃ v, bitEval s o x y = .ok v := by
    intro idx x y hi h1 h2
    rw [broadcastIndex_self hi] at h1
    exact bitEval_ok hw (hc _ y (hbi idx hi) h2) fun e => hx e idx x y hi h1 h2
  obtain ⟨r, h1, h2, _, h4, h5⟩ := (C117_binary_buffer ha hb hpa hpb (bitEval s o) 1 0 hdt).2 hcompat a.dims hs hn
    (by omega) hnb hdef
  obtain ⟨r', g1, _, _, _, g5⟩ := (C95_buffer ha hb hpa hpb (bitEval s o) 1 0).2 hcompat a.dims hs hdef
  rw [h1] at g1
  cases g1
  refine ⟨r, h5, h2, fun idx hi => ?_⟩
  obtain ⟨x, y, v, e1, e2, e3, e4⟩ := h4 idx hi
  rw [broadcastIndex_self hi] at e1
  exact ⟨x, y, v, e1, e2, by rw [g5 rfl ho idx hi, e4], bitEval_bits hw (hc _ y (hbi idx hi) e2) e3⟩

/-- **C117, the same result as on the CPU**: whatever tensor the CPU returns for a binary operator, the launch fills. -/
theorem C117_binary_like_cpu {s : Bool} {o : BitOp} {a b : Tensor (BitVec w)} (ha : a.WF) (hb : b.WF)
    (hpa : ∀ d ∈ a.dims, 0 < d) (hpb : ∀ d ∈ b.dims, 0 < d) {dt : DType} (hdt : dt ∈ bitArms) {d : List Nat}
    (hcompat : Compatible a.dims b.dims) (hs : CommonShape a.dims b.dims d) (hn : numel d ≤ 2 ^ 32 - 256)
    (hna : numel a.dims ≤ 2 ^ 32) (hnb : numel b.dims ≤ 2 ^ 32)
    (hdef : ∀ idx x y, InRange idx d → a.elem (broadcastIndex a.dims idx) = some x →
      b.elem (broadcastIndex b.dims idx) = some y → ∃ v, o.eval s x y = .ok v) (cores : Nat) (fill : BitVec w) :
    ∃ r, Tensor.bitBinary cores (o.eval s) fill a b = .ok r ∧ Fills (bitBinaryCuda (bitEval s o) dt a b) r := by
  obtain ⟨r, c1, _, c3, c4, _⟩ := (C95_buffer ha hb hpa hpb (o.eval s) cores fill).2 hcompat d hs hdef
  obtain ⟨r', d1, _, d3, d4, d5⟩ := (C117_binary_buffer ha hb hpa hpb (bitEval s o) cores fill hdt).2 hcompat d hs hn hna hnb
    (fun idx x y hi h1 h2 => (hdef idx x y hi h1 h2).imp fun _ h => C117_operators h)
  have hlay : r.layout = r'.layout := by
    unfold Tensor.bitBinary at c1 d1
    obtain ⟨p, p1, c1⟩ := Res.bind_eq_ok.mp c1
    obtain ⟨p', p1', d1⟩ := Res.bind_eq_ok.mp d1
    rw [p1] at p1'
    cases p1'
    obtain ⟨_, _, c1⟩ := Res.bind_eq_ok.mp c1
    obtain ⟨_, _, d1⟩ := Res.bind_eq_ok.mp d1
    cases c1; cases d1; rfl
  have := bitBinary_mono (fun x y v h => C117_operators h) hlay (by rw [c3, d3]) c3 c4 d4
  subst this
  exact ⟨r, c1, d5⟩

/-- **C117, values, `not` and shifts by a scalar**, for an operand laid out in row-major order from the start of its buffer.
Missing: all other views (`C117_view_false`), more than `2 ^ 32 - 256` elements, the shifts that C++ leaves undefined. -/
theorem C117_unary_partial {s : Bool} {o : UnBitOp} {t : Tensor (BitVec w)} (hw : IntWidth w) (ht : t.WF) {dt : DType}
    (hdt : dt ∈ bitArms) (hn : numel t.dims ≤ 2 ^ 32 - 256)
    (hl : t.layout = Layout.fromShape t.dims) (hc : ∀ n, o = .shl n ∨ o = .shr n → n < w)
    (hx : ∀ n, o = .shl n → ∀ idx x, InRange idx t.dims → t.elem idx = some x → CxxShlDefined s x n) :
    ∃ r, Fills (bitUnaryCuda (unBitEval s o) dt t) r ∧ r.dims = t.dims ∧
      ∀ idx, InRange idx t.dims → ∃ x v, t.elem idx = some x ∧ r.elem idx = some v ∧ UnBitResult s o x v := by
  have hdef : ∀ idx x, InRange idx t.dims → t.elem idx = some x → ∃ v, unBitEval s o x = .ok v := by
    intro idx x hi he
    cases o with
    | not => exact ⟨_, rfl⟩
    | shl n => exact cxxShl_ok hw (hc n (Or.inl rfl)) (hx n rfl idx x hi he)
    | shr n => exact (C95_counts hw (hc n (Or.inr rfl))).1
  have nt : Narrow t := by
    intro idx hi
    rw [hl]
    show dot idx (Layout.computeStrides t.dims) < _
    rw [dot_computeStrides]
    have := rowMajor_lt hi
    omega
  obtain ⟨r, h1, h2, _, h4, h5⟩ := C117_unary_buffer ht (unBitEval s o) 1 0 hdt hn nt hdef
  have hlay : r.layout = t.layout := by
    unfold Tensor.bitUnary at h1
    obtain ⟨_, _, h1⟩ := Res.bind_eq_ok.mp h1
    cases h1; rfl
  refine ⟨r, h5, h2, fun idx hi => ?_⟩
  obtain ⟨x, v, e1, e2, e3⟩ := h4 idx hi
  refine ⟨x, v, e1, ?_, ?_⟩
  · have hr : r = ⟨r.storage, Layout.fromShape t.dims⟩ := by
      rw [hl] at hlay
      cases r; simp only [Tensor.mk.injEq, true_and]; exact hlay
    rw [hr]
    simp only [Layout.fromShape, elem_rowMajor]
    rw [Nat.zero_add]
    exact e3
  · intro i hi
    cases o with
    | not =>
      obtain ⟨_, _, _, r4, a4, b4⟩ := C95_bits s x x
      simp only [unBitEval] at e2; rw [a4] at e2; cases e2; exact b4 i hi
    | shl n => exact (C117_shl_bits e2).2 i hi
    | shr n => exact (C95_shr_bits e2).2 i hi

/-! ## Undefined shifts -/

/-- **C117, a shift out of range somewhere**: if the operator is undefined at one element of a contiguous operand, the thread of
that element has undefined behaviour, with any content of the buffer. -/
theorem C117_unary_ub {t : Tensor α} (ht : t.WF) (hcont : cIsContiguous t.dims t.layout.strides = true) {f : α → Res α}
    {dt : DType} (hdt : dt ∈ bitArms) (hn : numel t.dims ≤ 2 ^ 32 - 256) {idx : List Nat} {x : α} (hi : InRange idx t.dims)
    (hx : t.elem idx = some x) (hf : f x = .ub) :
    ∃ k, bitUnaryCuda f dt t = .ok ⟨k, numel t.dims, t.layout⟩ ∧
      ∀ buf : List α, ∃ ts : List Nat, k.exec buf ts = .ub := by
  obtain ⟨xs, hxs⟩ := ht.hasValues
  have hlt := rowMajor_lt hi
  refine ⟨_, by
    unfold bitUnaryCuda
    rw [if_pos hdt, bitUnaryLoop, decodeUnary_md ht.1, Res.ok_bind, Res.ok_bind, shapeSize_eq], fun buf =>
      ⟨[rowMajor t.dims idx], ?_⟩⟩
  simp only [Layout.size, shapeSize_eq]
  refine gridLoop_ub hn hlt ?_
  have hxi : rowMajor t.dims idx < xs.length := by rw [hxs.1]; exact hlt
  have hr := HasValues.readC_cont ht hxs hcont hxi
  have he : xs[rowMajor t.dims idx] = x := by
    have := hxs.2 idx hi
    rw [List.getElem?_eq_getElem hxi, hx] at this
    exact Option.some.inj this
  rw [if_pos hcont, hr, Res.ok_bind, he, hf]

/-- The counts: a shift by the width of the promoted type or more is undefined for every type and value. -/
theorem C117_count_ub (s : Bool) (x : BitVec w) {n : Nat} (hn : promWidth w ≤ n) :
    unBitEval s (.shl n) x = .ub ∧ unBitEval s (.shr n) x = .ub := by
  have h : ((n : Int) < 0 ∨ (promWidth w : Int) ≤ (n : Int)) := Or.inr (by omega)
  exact ⟨by simp only [unBitEval, cxxShl, if_pos h], by simp only [unBitEval, cShr, if_pos h]⟩

/-- The shifts at the borders; the left shift into the sign bit is undefined on the CPU and defined here. -/
theorem C117_shift_cases :
    cShl true (1 : BitVec 32) 31 = .ub ∧ cxxShl true (1 : BitVec 32) 31 = .ok 0x80000000 ∧
    cxxShl true (2 : BitVec 32) 31 = .ub ∧ cxxShl true (0xffffffff : BitVec 32) 1 = .ub ∧
    cxxShl false (255 : BitVec 8) 24 = .ok 0 ∧ cShl false (255 : BitVec 8) 24 = .ub ∧
    cxxShl false (1 : BitVec 64) 64 = .ub := by
  decide +kernel

/-! ## Types and names -/

/-- **C117, types**: the kernels exist for exactly the types the host launches, under the names it asks for; all other
types are refused. -/
theorem C117_types :
    (∀ name, name ∈ bitExports ↔ ∃ op ∈ bitOpNames, ∃ dt ∈ bitArms, bitKernelName op dt = name) ∧
    (∀ (α : Type) (f : α → α → Res α) (g : α → Res α) (dt : DType) (a b : Tensor α), dt ∉ bitArms →
      (∀ l, bitBinaryCuda f dt a b ≠ .ok l) ∧ bitUnaryCuda g dt a = .err) := by
  constructor
  · intro name
    have h : ∀ n ∈ bitExports, n ∈ bitOpNames.flatMap fun o => bitArms.map (bitKernelName o) := by decide +kernel
    have h' : ∀ n ∈ bitOpNames.flatMap fun o => bitArms.map (bitKernelName o), n ∈ bitExports := by decide +kernel
    constructor
    · intro hm
      obtain ⟨o, ho, h⟩ := List.mem_flatMap.mp (h name hm)
      obtain ⟨dt, hd, h⟩ := List.mem_map.mp h
      exact ⟨o, ho, dt, hd, h⟩
    · rintro ⟨o, ho, dt, hd, rfl⟩
      exact h' _ (List.mem_flatMap.mpr ⟨o, ho, List.mem_map.mpr ⟨dt, hd, rfl⟩⟩)
  · intro α f g dt a b hdt
    refine ⟨fun l h => ?_, by unfold bitUnaryCuda; rw [if_neg hdt]⟩
    unfold bitBinaryCuda at h
    obtain ⟨p, _, h⟩ := Res.bind_eq_ok.mp h
    dsimp only at h
    rw [if_neg hdt] at h
    cases h

/-! ## What is not provable -/

/-- The full property for binary operators. -/
def C117_full : Prop :=
  ∀ (w : Nat) (s : Bool) (o : BitOp) (a b : Tensor (BitVec w)) (dt : DType), IntWidth w → a.WF → b.WF → dt ∈ bitArms →
    Compatible a.dims b.dims → (∀ idx y, InRange idx b.dims → b.elem idx = some y → CountOk w o y) →
    ∃ r, Fills (bitBinaryCuda (bitEval s o) dt a b) r ∧ CommonShape a.dims b.dims r.dims ∧
      ∀ idx, InRange idx r.dims → ∃ x y v, a.elem (broadcastIndex a.dims idx) = some x ∧
        b.elem (broadcastIndex b.dims idx) = some y ∧ r.elem idx = some v ∧ BitResult s o x y v

/-- A launch fills one tensor only. -/
theorem fills_unique {l : Res (LLaunched α)} {r r' : Tensor α} (h : Fills l r) (h' : Fills l r') : r = r' := by
  obtain ⟨k, e, c⟩ := h
  obtain ⟨k', e', c'⟩ := h'
  rw [e] at e'
  injection e' with e'
  injection e' with h1 h2 h3
  subst h1
  have hs : r.storage = r'.storage := Computes.unique (c r.storage rfl) (c' r.storage h2) fun B => exists_fair B k.threads
  cases r; cases r'
  simp only at hs h3
  rw [hs, h3]

/-- **C117 is false of the code**: `[12] & [4, 8]` on `u8` is `[4, 4]`, not `[4, 8]`, as on the CPU (`C95_full_false`). -/
theorem C117_full_false : ¬ C117_full := by
  intro h
  have hc : Compatible [1] [2] := fun k => by
    match k with
    | 0 => decide
    | k + 1 => simp [dimFromRight]
  have hs : CommonShape [1] [2] [2] := ⟨rfl, fun k => by
    match k with
    | 0 => decide
    | k + 1 => simp [dimFromRight]⟩
  have hA : (⟨[12], Layout.fromShape [1]⟩ : Tensor (BitVec 8)).WF := fresh_wf rfl
  have hB : (⟨[4, 8], Layout.fromShape [2]⟩ : Tensor (BitVec 8)).WF := fresh_wf rfl
  obtain ⟨r, h1, _, h2⟩ := h 8 false .band ⟨[12], Layout.fromShape [1]⟩ ⟨[4, 8], Layout.fromShape [2]⟩ .u8 (Or.inl rfl)
    hA hB (by decide) hc (fun _ _ _ _ h => by rcases h with h | h <;> cases h)
  have he : Tensor.bitBinary 1 (BitOp.eval false .band) 0 (⟨[12], Layout.fromShape [1]⟩ : Tensor (BitVec 8))
    ⟨[4, 8], Layout.fromShape [2]⟩ = .ok ⟨[4, 8], ⟨[2], [0], 0⟩⟩ := by decide +kernel
  obtain ⟨r', g1, g2⟩ := C117_binary_like_cpu (s := false) (o := .band) (dt := .u8) (d := [2]) hA hB (by decide) (by decide)
    (by decide) hc hs (by decide) (by decide) (by decide) (fun _ _ _ _ _ _ => ⟨_, rfl⟩) 1 0
  rw [he] at g1
  cases g1
  have := fills_unique h1 g2
  subst this
  obtain ⟨x, y, v, hx, hy, hr, hv⟩ := h2 [1] (by decide)
  have hx : x = 12 := by
    have : some 12 = some x := hx
    simpa using this.symm
  have hy : y = 8 := by
    have : some 8 = some y := hy
    simpa using this.symm
  have hr : v = 4 := by
    have : some 4 = some v := hr
    simpa using this.symm
  subst hx hy hr
  exact absurd (hv 2 (by decide)) (by decide)

/-- `bitwise_not` of a transposed matrix permutes it, as on the CPU (`C95_view_false`): element `[1, 0]` is `2`, and the result
there is `251`, not `253`. -/
theorem C117_view_false :
    ∃ r, Fills (bitUnaryCuda (unBitEval false .not) .u8 (⟨[1, 2, 3, 4, 5, 6], ⟨[3, 2], [1, 3], 0⟩⟩ : Tensor (BitVec 8))) r ∧
      (⟨[1, 2, 3, 4, 5, 6], ⟨[3, 2], [1, 3], 0⟩⟩ : Tensor (BitVec 8)).elem [1, 0] = some 2 ∧ r.elem [1, 0] = some 251 := by
  have hw : (⟨[1, 2, 3, 4, 5, 6], ⟨[3, 2], [1, 3], 0⟩⟩ : Tensor (BitVec 8)).WF := by
    have h0 : (⟨[1, 2, 3, 4, 5, 6], Layout.fromShape [2, 3]⟩ : Tensor (BitVec 8)).WF := fresh_wf rfl
    obtain ⟨r, e, hr, _⟩ := (C03_transpose h0 0 1).2 0 1 (by decide) ⟨by decide, Or.inl rfl⟩ ⟨by decide, Or.inl rfl⟩
    have e' : (⟨[1, 2, 3, 4, 5, 6], Layout.fromShape [2, 3]⟩ : Tensor (BitVec 8)).transpose 0 1 =
      .ok ⟨[1, 2, 3, 4, 5, 6], ⟨[3, 2], [1, 3], 0⟩⟩ := by decide +kernel
    rw [e'] at e
    cases e
    exact hr
  obtain ⟨r, h1, _, _, _, h5⟩ := C117_unary_buffer hw (unBitEval false .not) 1 0 (dt := .u8) (by decide) (by decide)
    (narrow_of_storage hw (by decide)) (fun _ _ _ _ => ⟨_, rfl⟩)
  have he : Tensor.bitUnary 1 (unBitEval false .not) 0 (⟨[1, 2, 3, 4, 5, 6], ⟨[3, 2], [1, 3], 0⟩⟩ : Tensor (BitVec 8)) =
    .ok ⟨[254, 251, 253, 250, 252, 249], ⟨[3, 2], [1, 3], 0⟩⟩ := by decide +kernel
  rw [he] at h1
  cases h1
  exact ⟨_, h5, by decide, by decide⟩

/-! ## Non-vacuity -/

/-- `C117_binary_partial` on a transposed left operand and a broadcast right operand: the shape and defined left shifts. -/
example :
    let a : Tensor (BitVec 8) := ⟨[1, 2, 3, 4, 5, 6], ⟨[3, 2], [1, 3], 0⟩⟩
    let b : Tensor (BitVec 8) := ⟨[1, 2], Layout.fromShape [2]⟩
    a.layout.isContiguous = false ∧ Tensor.broadcastDims a.dims b.dims = .ok a.dims ∧ DType.i8 ∈ bitArms ∧
    Tensor.bitBinary 4 (bitEval true .shl) 0 a b = .ok ⟨[2, 16, 4, 20, 6, 24], ⟨[3, 2], [2, 1], 0⟩⟩ := by decide +kernel

example : CxxShlDefined true (1 : BitVec 8) 7 ∧ ¬ ShlDefined true (1 : BitVec 8) 7 ∧ CountOk 8 .shl (7 : BitVec 8) :=
  ⟨Or.inr (by decide), by rintro (h | h) <;> revert h <;> decide, fun _ => by decide⟩

/-- `C117_unary_ub`: a `u32` shifted by 32, one element of four. -/
example : ∃ k, bitUnaryCuda (unBitEval false (.shl 32)) .u32 (⟨[1, 2, 3, 4], Layout.fromShape [4]⟩ : Tensor (BitVec 32)) =
      .ok ⟨k, 4, Layout.fromShape [4]⟩ ∧ ∀ buf : List (BitVec 32), ∃ ts : List Nat, k.exec buf ts = .ub :=
  C117_unary_ub (t := ⟨[1, 2, 3, 4], Layout.fromShape [4]⟩) (fresh_wf rfl) (by decide) (by decide) (by decide)
    (idx := [2]) (x := 3) (by decide) (by decide) (C117_count_ub false (3 : BitVec 32) (by decide)).1

end Hodu.Cuda
