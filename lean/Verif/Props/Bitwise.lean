import Verif.Model.Bitwise
import Verif.Props.Elementwise
import Mathlib.Tactic.Ring
import Mathlib.Tactic.NormNum

/-!
# C95: bitwise operations act on the bits of every element

The specification speaks about single bits; that the kernel computes in a promoted type and narrows the result is invisible in it.
-/

namespace Hodu
open Spec

/-! ## Specification of the elements -/

/-- Bit `i` of `x` shifted left by `n`. -/
def Spec.shlBit (x : BitVec w) (n i : Nat) : Bool := if n ≤ i then x.getLsbD (i - n) else false

/-- Bit `i` of `x` shifted right by `n`; vacated bits are copies of the sign for signed types. -/
def Spec.shrBit (s : Bool) (x : BitVec w) (n i : Nat) : Bool := if i + n < w then x.getLsbD (i + n) else s && x.msb

theorem le_promWidth (w : Nat) : w ≤ promWidth w := by unfold promWidth; split <;> omega

theorem promote_bits (s : Bool) (x : BitVec w) (i : Nat) :
    (promote s x).getLsbD i = (decide (i < promWidth w) && if i < w then x.getLsbD i else s && x.msb) := by
  cases s with
  | true =>
    show (x.signExtend (promWidth w)).getLsbD i = _
    rw [BitVec.getLsbD_signExtend]
    simp
  | false =>
    show (BitVec.ofInt (promWidth w) (x.toNat : Int)).getLsbD i = _
    rw [BitVec.ofInt_natCast, BitVec.getLsbD_ofNat, BitVec.testBit_toNat]
    by_cases h : i < w
    · simp [h]
    · simp [h, BitVec.getLsbD_of_ge x i (by omega)]

theorem demote_bits {v w : Nat} (x : BitVec v) (i : Nat) : (demote x : BitVec w).getLsbD i = (decide (i < w) && x.getLsbD i) :=
  BitVec.getLsbD_setWidth ..

/-- **C95, and, or, xor, not**: defined for all values of every integer type, bit by bit. -/
theorem C95_bits (s : Bool) (x y : BitVec w) :
    (∃ r, cAnd s x y = .ok r ∧ ∀ i, i < w → r.getLsbD i = (x.getLsbD i && y.getLsbD i)) ∧
    (∃ r, cOr s x y = .ok r ∧ ∀ i, i < w → r.getLsbD i = (x.getLsbD i || y.getLsbD i)) ∧
    (∃ r, cXor s x y = .ok r ∧ ∀ i, i < w → r.getLsbD i = (x.getLsbD i ^^ y.getLsbD i)) ∧
    (∃ r, cNot s x = .ok r ∧ ∀ i, i < w → r.getLsbD i = !x.getLsbD i) := by
  have hp := le_promWidth w
  refine ⟨⟨_, rfl, fun i hi => ?_⟩, ⟨_, rfl, fun i hi => ?_⟩, ⟨_, rfl, fun i hi => ?_⟩, ⟨_, rfl, fun i hi => ?_⟩⟩ <;>
    · have : i < promWidth w := by omega
      simp only [demote_bits, BitVec.getLsbD_and, BitVec.getLsbD_or, BitVec.getLsbD_xor, BitVec.getLsbD_not, promote_bits, hi, this,
        decide_true, Bool.true_and, if_true]

/-- **C95, left shift**: whenever the C expression is defined, the bits move up by the count. -/
theorem C95_shl_bits {s : Bool} {x r : BitVec w} {n : Int} (h : cShl s x n = .ok r) :
    0 ≤ n ∧ ∀ i, i < w → r.getLsbD i = shlBit x n.toNat i := by
  unfold cShl at h
  split at h
  · cases h
  · rename_i hn
    split at h
    · cases h
    · injection h with h
      subst h
      refine ⟨by omega, fun i hi => ?_⟩
      have hp := le_promWidth w
      have : i < promWidth w := by omega
      have h2 : i - n.toNat < w := by omega
      have h3 : i - n.toNat < promWidth w := by omega
      simp only [demote_bits, BitVec.getLsbD_shiftLeft, promote_bits, shlBit, hi, this, h2, h3, decide_true, Bool.true_and, if_true]
      by_cases hni : n.toNat ≤ i
      · simp [hni, Nat.not_lt.mpr hni]
      · simp [hni, Nat.lt_of_not_le hni]

/-- **C95, right shift**: whenever the C expression is defined, the bits move down by the count and the sign is copied. -/
theorem C95_shr_bits {s : Bool} {x r : BitVec w} {n : Int} (h : cShr s x n = .ok r) :
    0 ≤ n ∧ ∀ i, i < w → r.getLsbD i = shrBit s x n.toNat i := by
  unfold cShr at h
  split at h
  · cases h
  · rename_i hn
    injection h with h
    subst h
    have hp := le_promWidth w
    have hpw : 0 < promWidth w := by unfold promWidth; split <;> omega
    refine ⟨by omega, fun i hi => ?_⟩
    have h1 : i < promWidth w := by omega
    have hmsb : (promote s x).msb = if w < promWidth w then s && x.msb else x.msb := by
      rw [BitVec.msb_eq_getLsbD_last, promote_bits]
      have : promWidth w - 1 < promWidth w := by omega
      simp only [this, decide_true, Bool.true_and]
      by_cases hw : w < promWidth w
      · rw [if_neg (by omega), if_pos hw]
      · have he : promWidth w = w := by omega
        rw [if_pos (by omega), if_neg hw, he, ← BitVec.msb_eq_getLsbD_last]
    have hcomm : n.toNat + i = i + n.toNat := Nat.add_comm ..
    by_cases hs : promSigned w s = true
    · rw [if_pos hs, demote_bits, BitVec.getLsbD_sshiftRight, hmsb, promote_bits, hcomm]
      simp only [hi, decide_true, Bool.true_and, shrBit, Nat.not_le.mpr h1, decide_false, Bool.not_false]
      by_cases h2 : i + n.toNat < w
      · have h3 : i + n.toNat < promWidth w := by omega
        simp [h2, h3]
      · simp only [if_neg h2]
        by_cases h3 : i + n.toNat < promWidth w
        · simp [h3]
        · rw [if_neg h3]
          by_cases hw : w < promWidth w
          · rw [if_pos hw]
          · have h32 : ¬ w < 32 := by
              intro hlt
              simp only [promWidth, if_pos hlt] at hw
              omega
            simp only [promSigned, if_neg h32] at hs
            rw [if_neg hw, hs]; simp
    · rw [if_neg hs, demote_bits, BitVec.getLsbD_ushiftRight, promote_bits, hcomm]
      have h32 : ¬ w < 32 := by
        intro hlt
        simp [promSigned, hlt] at hs
      simp only [promSigned, if_neg h32, Bool.not_eq_true] at hs
      subst hs
      simp only [hi, decide_true, Bool.true_and, shrBit, Bool.false_and]
      by_cases h2 : i + n.toNat < w
      · have h3 : i + n.toNat < promWidth w := by omega
        simp [h2, h3]
      · simp [h2]

theorem toNat_lt' (x : BitVec w) : (x.toNat : Int) < 2 ^ w := by
  have := x.isLt
  exact_mod_cast this

/-- **C95, counts**: a count inside the width of the element is defined for right shifts of all four widths and for left shifts of
unsigned types. -/
theorem C95_counts {s : Bool} {x : BitVec w} {n : Nat} (hw : w = 8 ∨ w = 16 ∨ w = 32 ∨ w = 64) (hn : n < w) :
    (∃ r, cShr s x n = .ok r) ∧ (∃ r, cShl false x n = .ok r) := by
  have hp := le_promWidth w
  have h1 : ¬ ((n : Int) < 0 ∨ (promWidth w : Int) ≤ n) := by omega
  refine ⟨⟨_, if_neg h1⟩, ?_⟩
  unfold cShl
  rw [if_neg h1]
  have hx := toNat_lt' x
  have h0 : (0 : Int) ≤ x.toNat := by positivity
  have h2 : ¬ (promSigned w false = true ∧
      (cVal false x < 0 ∨ 2 ^ (promWidth w - 1) ≤ cVal false x * 2 ^ (n : Int).toNat)) := by
    rintro ⟨hs, hc⟩
    have hc : (x.toNat : Int) < 0 ∨ 2 ^ (promWidth w - 1) ≤ (x.toNat : Int) * 2 ^ n := hc
    have h32 : w < 32 := by
      by_contra hlt
      simp [promSigned, hlt] at hs
    rcases hc with hc | hc
    · omega
    · simp only [promWidth, if_pos h32] at hc
      have hb : (x.toNat : Int) * 2 ^ n ≤ 2 ^ w * 2 ^ n := by
        have : (0 : Int) ≤ 2 ^ n := by positivity
        nlinarith
      have hb2 : (x.toNat : Int) * 2 ^ n < 2 ^ w * 2 ^ n := by
        have : (0 : Int) < 2 ^ n := by positivity
        nlinarith
      have hb3 : (2 : Int) ^ w * 2 ^ n ≤ 2 ^ 31 := by
        rw [← pow_add]
        exact pow_le_pow_right₀ (by norm_num) (by omega)
      norm_num at hc hb3
      omega
  exact ⟨_, if_neg h2⟩

/-- Counts outside of the width of the promoted element are undefined behaviour, not errors. -/
theorem C95_counts_false (s : Bool) (x : BitVec w) (n : Int) (h : n < 0 ∨ (promWidth w : Int) ≤ n) :
    cShl s x n = .ub ∧ cShr s x n = .ub := ⟨if_pos h, if_pos h⟩

/-- A left shift of a negative number is undefined behaviour, whatever the count. -/
theorem C95_negative_false (x : BitVec w) (n : Int) (hx : x.toInt < 0) : cShl true x n = .ub := by
  unfold cShl
  split
  · rfl
  · rw [if_pos]
    refine ⟨?_, Or.inl hx⟩
    unfold promSigned
    split <;> rfl

/-! ## The loops -/

theorem bit_ranges (n T : Nat) (hT : 0 < T) :
    ((List.range T).map fun t => List.range' (bitStart n T t) (bitEnd n T t - bitStart n T t)).flatten = List.range n := by
  obtain ⟨k, rfl⟩ : ∃ k, T = k + 1 := ⟨T - 1, by omega⟩
  have hpre : ∀ m, m ≤ k → ((List.range m).map fun t =>
      List.range' (bitStart n (k + 1) t) (bitEnd n (k + 1) t - bitStart n (k + 1) t)).flatten =
        List.range (m * (n / (k + 1))) := by
    intro m
    induction m with
    | zero => intro _; simp
    | succ m ih =>
      intro hm
      rw [List.range_succ, List.map_append, List.flatten_append, ih (by omega)]
      simp only [List.map_cons, List.map_nil, List.flatten_cons, List.flatten_nil, List.append_nil, bitStart, bitEnd]
      rw [if_neg (by omega), range_split (show m * (n / (k + 1)) ≤ (m + 1) * (n / (k + 1)) by
        exact Nat.mul_le_mul_right _ (by omega))]
  rw [List.range_succ, List.map_append, List.flatten_append, hpre k le_rfl]
  simp only [List.map_cons, List.map_nil, List.flatten_cons, List.flatten_nil, List.append_nil, bitStart, bitEnd,
    Nat.add_sub_cancel, if_true]
  have hdm : (k + 1) * (n / (k + 1)) + n % (k + 1) = n := Nat.div_add_mod n (k + 1)
  have hle : k * (n / (k + 1)) ≤ n := by
    have : k * (n / (k + 1)) ≤ (k + 1) * (n / (k + 1)) := Nat.mul_le_mul_right _ (by omega)
    omega
  rw [hdm, ← range_split hle]

theorem bitLoop_list {cores n : Nat} {val : Nat → Res β} {zs : List β} {buf : List β} (hn : zs.length = n)
    (hb : buf.length = n) (h : ∀ i (hi : i < zs.length), val i = .ok zs[i]) : bitLoop cores n val buf = .ok zs := by
  unfold bitLoop
  simp only
  split
  · rename_i hT
    generalize hTT : getOptimalThreads cores n 100000 = T at hT
    have hT0 : 0 < T := by omega
    by_cases hz : n = 0
    · subst hz
      have hz : zs = [] := List.eq_nil_of_length_eq_zero hn
      have hbz : buf = [] := List.eq_nil_of_length_eq_zero hb
      subst hz hbz
      have : getOptimalThreads cores 0 100000 = 1 := rfl
      omega
    · have hne : Nonempty β := ⟨zs[0]⟩
      let g : Nat → β := fun i => zs[i]?.getD hne.some
      have hg : ∀ i, i < n → val i = .ok (g i) := by
        intro i hi
        rw [h i (by omega)]
        simp [g, hn, hi]
      have hr := bit_ranges n T hT0
      have hw : Res.mapL (fun t => workerWrites val (bitStart n T t) (bitEnd n T t)) (List.range T) =
          .ok ((List.range T).map fun t =>
            (List.range' (bitStart n T t) (bitEnd n T t - bitStart n T t)).map fun i => (i, g i)) := by
        apply Res.mapL_eq_ok_of
        intro t ht
        apply workerWrites_ok
        intro i h1 h2
        apply hg
        have hmem : i ∈ List.range n := by
          rw [← hr, List.mem_flatten]
          exact ⟨_, List.mem_map.mpr ⟨t, ht, rfl⟩, by rw [List.mem_range'_1]; omega⟩
        exact List.mem_range.mp hmem
      rw [hw, Res.ok_bind, ← map_range_getD (d := hne.some) hn]
      apply applyWrites_perm hb
      rw [← hr, List.map_flatten, List.map_map]
      exact List.Perm.refl _
  · exact runLoop_list hn h

/-! ## Tensors -/

variable {α β : Type}

/-- The kernel writes the element operation of the two operands in row-major order. -/
theorem bitBinaryKernel_ok {f : α → α → Res β} {l r : Tensor α} {xs ys : List α} {zs : List β} (hl : l.WF) (hr : r.WF)
    (hd : l.dims = r.dims) (hx : l.HasValues xs) (hy : r.HasValues ys) (hz : zs.length = numel l.dims)
    (hf : ∀ i x y (hi : i < zs.length), xs[i]? = some x → ys[i]? = some y → f x y = .ok zs[i]) (cores : Nat) (buf : List β)
    (hb : buf.length = numel l.dims) :
    bitBinaryKernel cores f l.storage r.storage (binaryMetadata l.layout r.layout l.layout) buf = .ok zs := by
  have hxl := hx.1
  have hyl : ys.length = numel l.dims := by rw [hd]; exact hy.1
  have key : ∀ (li ri i : Nat) (hi : i < zs.length), readC l.storage li = .ok (xs[i]'(by omega)) →
      readC r.storage ri = .ok (ys[i]'(by omega)) →
      ((readC l.storage li).bind fun x => (readC r.storage ri).bind fun y => f x y) = .ok zs[i] := by
    intro li ri i hi h1 h2
    rw [h1, Res.ok_bind, h2, Res.ok_bind]
    exact hf i _ _ hi (List.getElem?_eq_getElem (by omega)) (List.getElem?_eq_getElem (by omega))
  unfold bitBinaryKernel
  rw [decode_pair hl hr hd]
  simp only [Res.ok_bind]
  split
  · rename_i hc
    simp only [Bool.and_eq_true] at hc
    refine bitLoop_list hz hb fun i hi => key _ _ i hi ?_ ?_
    · exact HasValues.readC_cont hl hx hc.1 (by omega)
    · exact HasValues.readC_cont hr hy hc.2 (by omega)
  · refine runLoop_list hz fun i hi => key _ _ i hi ?_ ?_
    · exact HasValues.readC_strided hl hx (by omega)
    · rw [hd]; exact HasValues.readC_strided hr hy (by omega)

theorem bitUnaryKernel_ok {f : α → Res β} {t : Tensor α} {xs : List α} {zs : List β} (ht : t.WF) (hx : t.HasValues xs)
    (hz : zs.length = numel t.dims) (hf : ∀ i x (hi : i < zs.length), xs[i]? = some x → f x = .ok zs[i]) (cores : Nat)
    (buf : List β) (hb : buf.length = numel t.dims) :
    bitUnaryKernel cores f t.storage (unaryMetadata t.layout t.layout) buf = .ok zs := by
  have hxl := hx.1
  have hdec : decodeBitUnary (unaryMetadata t.layout t.layout) =
      .ok { numEls := numel t.dims, dims := t.dims, strides := t.layout.strides, offset := t.layout.offset } := by
    have hs : t.layout.strides.length = t.layout.dims.length := ht.1
    have e1 : unaryMetadata t.layout t.layout =
        numel t.dims :: t.layout.dims.length :: (t.layout.dims ++ (t.layout.strides ++ [t.layout.offset])) := by
      simp [unaryMetadata, Layout.size, shapeSize_eq, Layout.ndim, Tensor.dims]
    rw [e1]
    unfold decodeBitUnary
    simp only [readC, sliceC, bind, List.getElem?_cons_zero, List.getElem?_cons_succ, Res.ok_bind]
    have e2 : 2 + t.layout.dims.length ≤ (numel t.dims :: t.layout.dims.length ::
        (t.layout.dims ++ (t.layout.strides ++ [t.layout.offset]))).length := by simp; omega
    have e3 : 2 + t.layout.dims.length + t.layout.dims.length ≤ (numel t.dims :: t.layout.dims.length ::
        (t.layout.dims ++ (t.layout.strides ++ [t.layout.offset]))).length := by simp; omega
    rw [if_pos e2, Res.ok_bind, if_pos e3, Res.ok_bind]
    have e4 : (numel t.dims :: t.layout.dims.length ::
        (t.layout.dims ++ (t.layout.strides ++ [t.layout.offset])))[2 + 2 * t.layout.dims.length]? = some t.layout.offset := by
      rw [show 2 + 2 * t.layout.dims.length = (t.layout.dims.length + t.layout.dims.length) + 1 + 1 by omega,
        List.getElem?_cons_succ, List.getElem?_cons_succ, List.getElem?_append_right (by omega), Nat.add_sub_cancel,
        List.getElem?_append_right (by omega), hs, Nat.sub_self]
      rfl
    rw [e4]
    simp only [Res.ok_bind]
    have e5 : ((numel t.dims :: t.layout.dims.length ::
        (t.layout.dims ++ (t.layout.strides ++ [t.layout.offset]))).drop 2).take t.layout.dims.length = t.layout.dims := by simp
    have e6 : ((numel t.dims :: t.layout.dims.length ::
        (t.layout.dims ++ (t.layout.strides ++ [t.layout.offset]))).drop (2 + t.layout.dims.length)).take t.layout.dims.length =
          t.layout.strides := by
      rw [Nat.add_comm, ← List.drop_drop]
      simp [hs ▸ List.take_left' (l₁ := t.layout.strides) (l₂ := [t.layout.offset]) rfl]
    rw [e5, e6]
  unfold bitUnaryKernel
  rw [hdec]
  simp only [Res.ok_bind]
  split
  · rename_i hc
    refine bitLoop_list hz hb fun i hi => ?_
    rw [HasValues.readC_cont ht hx hc (by omega), Res.ok_bind]
    exact hf i _ hi (List.getElem?_eq_getElem (by omega))
  · refine runLoop_list hz fun i hi => ?_
    rw [HasValues.readC_strided ht hx (by omega), Res.ok_bind]
    exact hf i _ hi (List.getElem?_eq_getElem (by omega))

theorem exists_list {P : Nat → β → Prop} (n : Nat) (h : ∀ i, i < n → ∃ v, P i v) :
    ∃ zs : List β, zs.length = n ∧ ∀ i (hi : i < zs.length), P i zs[i] := by
  induction n with
  | zero => exact ⟨[], rfl, fun i hi => by simp at hi⟩
  | succ n ih =>
    obtain ⟨zs, h1, h2⟩ := ih fun i hi => h i (by omega)
    obtain ⟨v, hv⟩ := h n (by omega)
    refine ⟨zs ++ [v], by simp [h1], fun i hi => ?_⟩
    by_cases hin : i < zs.length
    · rw [List.getElem_append_left hin]; exact h2 i hin
    · have : i = n := by simp at hi; omega
      subst this
      rw [List.getElem_append_right (by omega)]
      simpa using hv

/-- **C95, buffer of a binary operation** (no zero-size dimensions), for an element operation `f` that may be undefined: whenever it
is defined on all pairs that meet, the buffer lists its values in row-major order. -/
theorem C95_buffer {a b : Tensor α} (ha : a.WF) (hb : b.WF) (hpa : ∀ d ∈ a.dims, 0 < d) (hpb : ∀ d ∈ b.dims, 0 < d)
    (f : α → α → Res α) (cores : Nat) (fill : α) :
    (¬ Compatible a.dims b.dims → Tensor.bitBinary cores f fill a b = .err) ∧
    (Compatible a.dims b.dims → ∀ d, CommonShape a.dims b.dims d →
      (∀ idx x y, InRange idx d → a.elem (broadcastIndex a.dims idx) = some x → b.elem (broadcastIndex b.dims idx) = some y →
        ∃ v, f x y = .ok v) →
      ∃ r, Tensor.bitBinary cores f fill a b = .ok r ∧ r.dims = d ∧ r.storage.length = numel d ∧
        (∀ idx, InRange idx d → ∃ x y v, a.elem (broadcastIndex a.dims idx) = some x ∧
          b.elem (broadcastIndex b.dims idx) = some y ∧ f x y = .ok v ∧ r.storage[rowMajor d idx]? = some v) ∧
        (d = a.dims → a.layout.isContiguous = false ∨ a.layout.offset = 0 →
          ∀ idx, InRange idx d → r.elem idx = r.storage[rowMajor d idx]?)) := by
  obtain ⟨h1, h2⟩ := broadcast2_spec ha hb hpa hpb
  constructor
  · intro hc; simp [Tensor.bitBinary, h1 hc]
  · intro hc d hd hdef
    obtain ⟨l, r, e1, e2, e3, e4, e5, e6, e7⟩ := h2 hc
    have hld : l.dims = d := e2.unique hd
    subst hld
    obtain ⟨xs, hx⟩ := e4.hasValues
    obtain ⟨ys, hy⟩ := e5.hasValues
    have hyl : ys.length = numel l.dims := by rw [← e3]; exact hy.1
    have hex : ∀ i, i < numel l.dims → ∃ v, ∀ x y, xs[i]? = some x → ys[i]? = some y → f x y = .ok v := by
      intro i hi
      have hxi := hx.get (i := i) (by rw [hx.1]; exact hi)
      have hyi := hy.get (i := i) (by rw [hyl]; exact hi)
      have hr := unravel_inRange hi
      rw [(e6 _ hr).1] at hxi
      rw [e3, (e6 _ hr).2] at hyi
      obtain ⟨v, hv⟩ := hdef _ _ _ hr hxi hyi
      refine ⟨v, fun x y h1 h2 => ?_⟩
      rw [List.getElem?_eq_getElem (by rw [hx.1]; exact hi)] at h1
      rw [List.getElem?_eq_getElem (by rw [hyl]; exact hi)] at h2
      rw [← Option.some.inj h1, ← Option.some.inj h2]
      exact hv
    obtain ⟨zs, hz, hzv⟩ := exists_list _ hex
    have hk := bitBinaryKernel_ok e4 e5 e3.symm hx hy hz (fun i x y hi => hzv i hi x y) cores (List.replicate l.layout.size fill)
      (by simp [Layout.size, shapeSize_eq, Tensor.dims])
    refine ⟨⟨zs, l.layout⟩, by simp [Tensor.bitBinary, e1, hk], rfl, hz, ?_, ?_⟩
    · intro idx hi
      have hlt := rowMajor_lt hi
      obtain ⟨x, hxe⟩ := Option.isSome_iff_exists.mp (e4.2 idx hi)
      obtain ⟨y, hye⟩ := Option.isSome_iff_exists.mp (e5.2 idx (e3 ▸ hi))
      have hxs : xs[rowMajor l.dims idx]? = some x := by rw [hx.2 idx hi, hxe]
      have hys : ys[rowMajor l.dims idx]? = some y := by rw [← hye, ← hy.2 idx (e3 ▸ hi), e3]
      exact ⟨x, y, zs[rowMajor l.dims idx]'(by omega), by rw [← (e6 idx hi).1, hxe], by rw [← (e6 idx hi).2, hye],
        hzv _ (by omega) x y hxs hys, List.getElem?_eq_getElem (by show _ < zs.length; omega)⟩
    · intro hd ho idx hi
      have := e7 hd ho idx hi
      simp only [Tensor.elem, this]

/-- **C95, buffer of a unary operation or a shift by a scalar**, for all views. -/
theorem C95_unary_buffer {t : Tensor α} (ht : t.WF) (f : α → Res α) (cores : Nat) (fill : α)
    (hdef : ∀ idx x, InRange idx t.dims → t.elem idx = some x → ∃ v, f x = .ok v) :
    ∃ r, Tensor.bitUnary cores f fill t = .ok r ∧ r.dims = t.dims ∧ r.storage.length = numel t.dims ∧
      (∀ idx, InRange idx t.dims → ∃ x v, t.elem idx = some x ∧ f x = .ok v ∧ r.storage[rowMajor t.dims idx]? = some v) := by
  obtain ⟨xs, hx⟩ := ht.hasValues
  have hex : ∀ i, i < numel t.dims → ∃ v, ∀ x, xs[i]? = some x → f x = .ok v := by
    intro i hi
    obtain ⟨v, hv⟩ := hdef _ _ (unravel_inRange hi) (hx.get (i := i) (by rw [hx.1]; exact hi))
    refine ⟨v, fun x h1 => ?_⟩
    rw [List.getElem?_eq_getElem (by rw [hx.1]; exact hi)] at h1
    rw [← Option.some.inj h1]; exact hv
  obtain ⟨zs, hz, hzv⟩ := exists_list _ hex
  have hk := bitUnaryKernel_ok ht hx hz (fun i x hi => hzv i hi x) cores (List.replicate t.layout.size fill)
    (by simp [Layout.size, shapeSize_eq, Tensor.dims])
  refine ⟨⟨zs, t.layout⟩, by simp [Tensor.bitUnary, hk], rfl, hz, fun idx hi => ?_⟩
  have hlt := rowMajor_lt hi
  obtain ⟨x, hxe⟩ := Option.isSome_iff_exists.mp (ht.2 idx hi)
  exact ⟨x, zs[rowMajor t.dims idx]'(by omega), hxe, hzv _ (by omega) x (by rw [hx.2 idx hi, hxe]),
    List.getElem?_eq_getElem (by show _ < zs.length; omega)⟩

/-! ## The operators -/

/-- What each binary operator promises about the bits of its result. -/
def Spec.BitResult (s : Bool) (o : BitOp) (x y r : BitVec w) : Prop :=
  ∀ i, i < w → r.getLsbD i = match o with
    | .shl => shlBit x y.toNat i
    | .shr => shrBit s x y.toNat i
    | .band => x.getLsbD i && y.getLsbD i
    | .bor => x.getLsbD i || y.getLsbD i
    | .bxor => x.getLsbD i ^^ y.getLsbD i

/-- What `not` and the shifts by a scalar promise. -/
def Spec.UnBitResult (s : Bool) (o : UnBitOp) (x r : BitVec w) : Prop :=
  ∀ i, i < w → r.getLsbD i = match o with
    | .not => !x.getLsbD i
    | .shl n => shlBit x n i
    | .shr n => shrBit s x n i

/-- Element widths of the integer types. -/
def Spec.IntWidth (w : Nat) : Prop := w = 8 ∨ w = 16 ∨ w = 32 ∨ w = 64

/-- The shift count lies inside the width of the element. -/
def Spec.CountOk (w : Nat) (o : BitOp) (y : BitVec w) : Prop := o = .shl ∨ o = .shr → y.toNat < w

/-- The restriction under which a left shift is defined in C: an unsigned type, or a value that is not negative and stays in
range. -/
def Spec.ShlDefined (s : Bool) (x : BitVec w) (n : Nat) : Prop :=
  s = false ∨ (0 ≤ x.toInt ∧ x.toInt * 2 ^ n < 2 ^ (w - 1))

theorem shl_ok {s : Bool} {x : BitVec w} {n : Nat} (hw : IntWidth w) (hn : n < w) (hx : ShlDefined s x n) :
    ∃ r, cShl s x n = .ok r := by
  rcases hx with rfl | ⟨h1, h2⟩
  · exact (C95_counts (s := false) hw hn).2
  · cases s with
    | false => exact (C95_counts (s := false) hw hn).2
    | true =>
      have hp := le_promWidth w
      unfold cShl
      rw [if_neg (by omega), if_neg]
      · exact ⟨_, rfl⟩
      · rintro ⟨_, h⟩
        have h : x.toInt < 0 ∨ 2 ^ (promWidth w - 1) ≤ x.toInt * 2 ^ n := h
        have : (2 : Int) ^ (w - 1) ≤ 2 ^ (promWidth w - 1) := pow_le_pow_right₀ (by norm_num) (by omega)
        omega

theorem cVal_count {s : Bool} {y : BitVec w} (hw : IntWidth w) (h : y.toNat < w) : cVal s y = y.toNat := by
  cases s with
  | false => rfl
  | true =>
    show y.toInt = _
    rw [BitVec.toInt_eq_toNat_of_lt]
    rcases hw with rfl | rfl | rfl | rfl <;> norm_num <;> omega

theorem eval_ok {s : Bool} {o : BitOp} {x y : BitVec w} (hw : IntWidth w) (hc : CountOk w o y)
    (hx : o = .shl → ShlDefined s x y.toNat) : ∃ r, o.eval s x y = .ok r := by
  cases o with
  | shl =>
    have h := hc (Or.inl rfl)
    simp only [BitOp.eval, cVal_count hw h]
    exact shl_ok hw h (hx rfl)
  | shr =>
    have h := hc (Or.inr rfl)
    simp only [BitOp.eval, cVal_count hw h]
    exact (C95_counts hw h).1
  | band => exact ⟨_, rfl⟩
  | bor => exact ⟨_, rfl⟩
  | bxor => exact ⟨_, rfl⟩

theorem eval_bits {s : Bool} {o : BitOp} {x y r : BitVec w} (hw : IntWidth w) (hc : CountOk w o y)
    (h : o.eval s x y = .ok r) : BitResult s o x y r := by
  obtain ⟨⟨r1, a1, b1⟩, ⟨r2, a2, b2⟩, ⟨r3, a3, b3⟩, _⟩ := C95_bits s x y
  intro i hi
  cases o with
  | shl =>
    have hcc := hc (Or.inl rfl)
    simp only [BitOp.eval, cVal_count hw hcc] at h
    exact (C95_shl_bits h).2 i hi
  | shr =>
    have hcc := hc (Or.inr rfl)
    simp only [BitOp.eval, cVal_count hw hcc] at h
    exact (C95_shr_bits h).2 i hi
  | band => simp only [BitOp.eval] at h; rw [a1] at h; cases h; exact b1 i hi
  | bor => simp only [BitOp.eval] at h; rw [a2] at h; cases h; exact b2 i hi
  | bxor => simp only [BitOp.eval] at h; rw [a3] at h; cases h; exact b3 i hi

/-- **C95, binary operators** of the integer types.  Missing: left shifts of negative numbers or out of the signed range
(`C95_negative_false`), a left operand that is broadcast or is a contiguous slice (`C95_broadcast_false`), zero-size dimensions. -/
theorem C95_binary_partial {s : Bool} {o : BitOp} {a b : Tensor (BitVec w)} (hw : IntWidth w) (ha : a.WF) (hb : b.WF)
    (hpa : ∀ d ∈ a.dims, 0 < d) (hpb : ∀ d ∈ b.dims, 0 < d) (cores : Nat) (fill : BitVec w)
    (hcompat : Compatible a.dims b.dims) (hs : CommonShape a.dims b.dims a.dims)
    (ho : a.layout.isContiguous = false ∨ a.layout.offset = 0)
    (hc : ∀ idx y, InRange idx b.dims → b.elem idx = some y → CountOk w o y)
    (hx : o = .shl → ∀ idx x y, InRange idx a.dims → a.elem idx = some x →
      b.elem (broadcastIndex b.dims idx) = some y → ShlDefined s x y.toNat) :
    ∃ r, Tensor.bitBinary cores (o.eval s) fill a b = .ok r ∧ r.dims = a.dims ∧
      ∀ idx, InRange idx a.dims → ∃ x y v, a.elem idx = some x ∧ b.elem (broadcastIndex b.dims idx) = some y ∧
        r.elem idx = some v ∧ BitResult s o x y v := by
  have hbi : ∀ idx, InRange idx a.dims → InRange (broadcastIndex b.dims idx) b.dims := by
    obtain ⟨_, _, _, _, hle⟩ := (C05_broadcast hb a.dims).2 (broadcastsTo_right hcompat hs)
    exact fun idx hi => (hle idx hi).1
  obtain ⟨r, h1, h2, _, h4, h5⟩ := (C95_buffer ha hb hpa hpb (o.eval s) cores fill).2 hcompat a.dims hs (by
    intro idx x y hi h1 h2
    rw [broadcastIndex_self hi] at h1
    exact eval_ok hw (hc _ y (hbi idx hi) h2) fun e => hx e idx x y hi h1 h2)
  refine ⟨r, h1, h2, fun idx hi => ?_⟩
  obtain ⟨x, y, v, e1, e2, e3, e4⟩ := h4 idx hi
  rw [broadcastIndex_self hi] at e1
  exact ⟨x, y, v, e1, e2, by rw [h5 rfl ho idx hi, e4], eval_bits hw (hc _ y (hbi idx hi) e2) e3⟩

/-- **C95, not and shifts by a scalar**, for an operand that is laid out in row-major order from the start of its buffer.
Missing: all other views (`C95_view_false`), and the shifts that C leaves undefined. -/
theorem C95_unary_partial {s : Bool} {o : UnBitOp} {t : Tensor (BitVec w)} (hw : IntWidth w) (ht : t.WF) (cores : Nat)
    (fill : BitVec w) (hl : t.layout = Layout.fromShape t.dims) (hc : ∀ n, o = .shl n ∨ o = .shr n → n < w)
    (hx : ∀ n, o = .shl n → ∀ idx x, InRange idx t.dims → t.elem idx = some x → ShlDefined s x n) :
    ∃ r, Tensor.bitUnary cores (o.eval s) fill t = .ok r ∧ r.dims = t.dims ∧
      ∀ idx, InRange idx t.dims → ∃ x v, t.elem idx = some x ∧ r.elem idx = some v ∧ UnBitResult s o x v := by
  have hdef : ∀ idx x, InRange idx t.dims → t.elem idx = some x → ∃ v, o.eval s x = .ok v := by
    intro idx x hi he
    cases o with
    | not => exact ⟨_, rfl⟩
    | shl n => exact shl_ok hw (hc n (Or.inl rfl)) (hx n rfl idx x hi he)
    | shr n => exact (C95_counts hw (hc n (Or.inr rfl))).1
  have hlay : ∀ r, Tensor.bitUnary cores (o.eval s) fill t = .ok r → r.layout = t.layout := by
    intro r hr
    unfold Tensor.bitUnary at hr
    generalize bitUnaryKernel cores (o.eval s) t.storage (unaryMetadata t.layout t.layout)
      (List.replicate t.layout.size fill) = X at hr
    cases X with
    | ok st => cases hr; rfl
    | _ => cases hr
  obtain ⟨r, h1, h2, _, h4⟩ := C95_unary_buffer ht (o.eval s) cores fill hdef
  refine ⟨r, h1, h2, fun idx hi => ?_⟩
  obtain ⟨x, v, e1, e2, e3⟩ := h4 idx hi
  refine ⟨x, v, e1, ?_, ?_⟩
  · have hr : r = ⟨r.storage, Layout.fromShape t.dims⟩ := by
      have := hlay r h1
      rw [hl] at this
      cases r; simp only [Tensor.mk.injEq, true_and]; exact this
    rw [hr]
    simp only [Layout.fromShape, elem_rowMajor]
    rw [Nat.zero_add]
    exact e3
  · intro i hi
    cases o with
    | not =>
      obtain ⟨_, _, _, r4, a4, b4⟩ := C95_bits s x x
      simp only [UnBitOp.eval] at e2; rw [a4] at e2; cases e2; exact b4 i hi
    | shl n => exact (C95_shl_bits e2).2 i hi
    | shr n => exact (C95_shr_bits e2).2 i hi

/-! ## What is not provable -/

/-- The full property for binary operators. -/
def C95_full : Prop :=
  ∀ (w : Nat) (s : Bool) (o : BitOp) (a b : Tensor (BitVec w)) (cores : Nat) (fill : BitVec w), IntWidth w → a.WF → b.WF →
    Compatible a.dims b.dims → (∀ idx y, InRange idx b.dims → b.elem idx = some y → CountOk w o y) →
    ∃ r, Tensor.bitBinary cores (o.eval s) fill a b = .ok r ∧ CommonShape a.dims b.dims r.dims ∧
      ∀ idx, InRange idx r.dims → ∃ x y v, a.elem (broadcastIndex a.dims idx) = some x ∧
        b.elem (broadcastIndex b.dims idx) = some y ∧ r.elem idx = some v ∧ BitResult s o x y v

/-- **C95 is false of the code**: `[12] & [4, 8]` on `u8` is `[4, 4]`, not `[4, 8]`. -/
theorem C95_full_false : ¬ C95_full := by
  intro h
  have hc : Compatible [1] [2] := fun k => by
    match k with
    | 0 => decide
    | k + 1 => simp [dimFromRight]
  obtain ⟨r, h1, _, h2⟩ := h 8 false .band ⟨[12], Layout.fromShape [1]⟩ ⟨[4, 8], Layout.fromShape [2]⟩ 1 0 (Or.inl rfl)
    (fresh_wf rfl) (fresh_wf rfl) hc (fun _ _ _ _ h => by rcases h with h | h <;> cases h)
  have he : Tensor.bitBinary 1 (BitOp.eval false .band) 0 (⟨[12], Layout.fromShape [1]⟩ : Tensor (BitVec 8))
    ⟨[4, 8], Layout.fromShape [2]⟩ = .ok ⟨[4, 8], ⟨[2], [0], 0⟩⟩ := by decide +kernel
  rw [he] at h1
  cases h1
  obtain ⟨x, y, v, hx, hy, hr, hv⟩ := h2 [1] (by decide)
  have hx : x = 12 := by
    have : some 12 = some x := hx
    simpa using this.symm
  have hy : y = 8 := by
    have : some 8 = some y := hy
    simpa using this.symm
  have hr : v = 4 := by
    have : some 4 = some v := hr
    simpa using this.symm
  subst hx hy hr
  exact absurd (hv 2 (by decide)) (by decide)

/-- The broadcast left operand again, and a contiguous slice on the left whose result lies outside its buffer. -/
theorem C95_broadcast_false :
    (∃ r, Tensor.bitBinary 1 (BitOp.eval false .bor) 0 (⟨[1], Layout.fromShape [1]⟩ : Tensor (BitVec 8))
        ⟨[2, 4], Layout.fromShape [2]⟩ = .ok r ∧ r.elem [0] = some 3 ∧ r.elem [1] = some 3) ∧
    (∃ t r, (⟨[1, 2, 3, 4], Layout.fromShape [4]⟩ : Tensor (BitVec 8)).slice 0 1 (some 3) 1 = .ok t ∧
      Tensor.bitBinary 1 (BitOp.eval false .bor) 0 t t = .ok r ∧ r.dims = [2] ∧ r.elem [0] = some 3 ∧ r.elem [1] = none) :=
  ⟨⟨⟨[3, 5], ⟨[2], [0], 0⟩⟩, by decide +kernel⟩,
    ⟨⟨[1, 2, 3, 4], ⟨[2], [1], 1⟩⟩, ⟨[2, 3], ⟨[2], [1], 1⟩⟩, by decide +kernel⟩⟩

/-- `bitwise_not` of a transposed matrix permutes it; of a slice it answers elements outside of the new buffer.  (`!x` on `u8`.) -/
theorem C95_view_false :
    (∃ t r, (⟨[1, 2, 3, 4, 5, 6], Layout.fromShape [2, 3]⟩ : Tensor (BitVec 8)).transpose 0 1 = .ok t ∧
      Tensor.bitUnary 1 (UnBitOp.eval false .not) 0 t = .ok r ∧ t.elem [1, 0] = some 2 ∧ r.elem [1, 0] = some 251) ∧
    (∃ t r, (⟨[1, 2, 3, 4], Layout.fromShape [4]⟩ : Tensor (BitVec 8)).slice 0 1 (some 3) 1 = .ok t ∧
      Tensor.bitUnary 1 (UnBitOp.eval false .not) 0 t = .ok r ∧ r.dims = [2] ∧ t.elem [1] = some 3 ∧ r.elem [1] = none) :=
  ⟨⟨⟨[1, 2, 3, 4, 5, 6], ⟨[3, 2], [1, 3], 0⟩⟩, ⟨[254, 251, 253, 250, 252, 249], ⟨[3, 2], [1, 3], 0⟩⟩, by decide +kernel⟩,
    ⟨⟨[1, 2, 3, 4], ⟨[2], [1], 1⟩⟩, ⟨[253, 252], ⟨[2], [1], 1⟩⟩, by decide +kernel⟩⟩

/-- The shifts at the borders: a `u32` shifted by 32 and an `i8` `-1` shifted left by one are undefined; `u8` counts between 8
and 23 are defined because of the promotion to `int`, and give zero. -/
theorem C95_shift_cases :
    cShl false (1 : BitVec 32) 32 = .ub ∧ cShr true (1 : BitVec 64) 64 = .ub ∧ cShl true (255 : BitVec 8) 1 = .ub ∧
    cShl false (255 : BitVec 8) 8 = .ok 0 ∧ cShl false (255 : BitVec 8) 23 = .ok 0 ∧ cShl false (255 : BitVec 8) 24 = .ub ∧
    cShr true (0x80 : BitVec 8) 7 = .ok 0xff ∧ cShr false (0x80 : BitVec 8) 7 = .ok 1 ∧ cShl true (64 : BitVec 8) 1 = .ok 0x80 := by
  decide +kernel

/-! ## Non-vacuity -/

/-- `C95_binary_partial` on a transposed left operand with a broadcast right operand. -/
example :
    let a : Tensor (BitVec 8) := ⟨[1, 2, 3, 4, 5, 6], ⟨[3, 2], [1, 3], 0⟩⟩
    let b : Tensor (BitVec 8) := ⟨[1, 2], Layout.fromShape [2]⟩
    a.layout.isContiguous = false ∧ Tensor.broadcastDims a.dims b.dims = .ok a.dims ∧
    Tensor.bitBinary 4 (BitOp.eval true .shl) 0 a b = .ok ⟨[2, 16, 4, 20, 6, 24], ⟨[3, 2], [2, 1], 0⟩⟩ := by decide +kernel

example : CommonShape [3, 2] [2] [3, 2] ∧ Compatible [3, 2] [2] := by
  refine ⟨⟨rfl, fun k => ?_⟩, fun k => ?_⟩ <;>
  · match k with
    | 0 => decide
    | 1 => decide
    | k + 2 => simp [dimFromRight]

example : ShlDefined true (6 : BitVec 8) 2 := Or.inr (by decide)

example : Tensor.bitUnary 2 (UnBitOp.eval true (.shr 1)) 0 (⟨[0x80, 7], Layout.fromShape [2]⟩ : Tensor (BitVec 8)) =
    .ok ⟨[0xc0, 3], Layout.fromShape [2]⟩ := by decide +kernel

/-- The last worker takes the remainder. -/
example : (List.range 3).map (fun t => (bitStart 11 3 t, bitEnd 11 3 t)) = [(0, 3), (3, 6), (6, 11)] := by decide

end Hodu
