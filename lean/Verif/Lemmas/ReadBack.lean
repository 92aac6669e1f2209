import Verif.Model.ReadBack
import Verif.Lemmas.Elementwise

/-! Helper lemmas for reading tensors back. -/

namespace Hodu
open Spec

theorem unravel_zero (dims : List Nat) : unravel dims 0 = List.replicate dims.length 0 := by
  induction dims with
  | nil => rfl
  | cons d ds ih => simp [unravel, ih, List.replicate_succ]

theorem odoIncr_spec {dims : List Nat} {i : Nat} (hi : i < numel dims) :
    (i + 1 < numel dims → odoIncr dims (unravel dims i) = (unravel dims (i + 1), 0)) ∧
    (i + 1 = numel dims → odoIncr dims (unravel dims i) = (unravel dims 0, 1)) := by
  induction dims generalizing i with
  | nil =>
    simp only [numel] at hi ⊢
    refine ⟨fun h => by omega, fun _ => rfl⟩
  | cons d ds ih =>
    simp only [numel] at hi ⊢
    have hN : 0 < numel ds := by
      rcases Nat.eq_zero_or_pos (numel ds) with h | h
      · rw [h] at hi; omega
      · exact h
    generalize hn : numel ds = N at *
    have hmod := Nat.mod_lt i hN
    have hdm := Nat.div_add_mod i N
    obtain ⟨ih1, ih2⟩ := ih hmod
    have hq : i / N < d := by
      rw [Nat.div_lt_iff_lt_mul hN]; exact hi
    simp only [unravel, odoIncr, hn]
    by_cases hlt : i % N + 1 < N
    · have e1 : (i + 1) / N = i / N := by
        rw [show i + 1 = (i % N + 1) + N * (i / N) by omega, Nat.add_mul_div_left _ _ hN,
          Nat.div_eq_of_lt hlt, Nat.zero_add]
      have e2 : (i + 1) % N = i % N + 1 := by
        rw [show i + 1 = (i % N + 1) + N * (i / N) by omega, Nat.add_mul_mod_self_left,
          Nat.mod_eq_of_lt hlt]
      rw [ih1 hlt]
      refine ⟨fun _ => by simp [e1, e2], fun h => ?_⟩
      exfalso
      have : N * (i / N + 1) ≤ N * d := Nat.mul_le_mul_left _ hq
      rw [Nat.mul_succ, Nat.mul_comm N d] at this
      omega
    · have heq : i % N + 1 = N := by omega
      have e0 : i + 1 = N * (i / N + 1) := by rw [Nat.mul_succ]; omega
      have e1 : (i + 1) / N = i / N + 1 := by rw [e0, Nat.mul_div_cancel_left _ hN]
      have e2 : (i + 1) % N = 0 := by rw [e0, Nat.mul_mod_right]
      rw [ih2 heq]
      constructor
      · intro h
        have : i / N + 1 < d := by
          rw [← e1, Nat.div_lt_iff_lt_mul hN]; exact h
        simp [this, e1, e2]
      · intro h
        have : ¬ (i / N + 1 < d) := by
          rw [← e1, Nat.div_lt_iff_lt_mul hN]; omega
        simp [this]

theorem sum_zipWith_dot (idx strides : List Nat) :
    (List.zipWith (· * ·) idx strides).sum = dot idx strides := by
  induction idx generalizing strides with
  | nil => simp [dot]
  | cons i is ih => cases strides <;> simp [dot, ih]

theorem extractLoop_spec {dims strides : List Nat} {data : List α} (n i : Nat)
    (h : i + n = numel dims) :
    extractLoop dims strides data n (unravel dims i) =
      (List.range' i n).filterMap fun j => data[dot (unravel dims j) strides]? := by
  induction n generalizing i with
  | zero => rfl
  | succ n ih =>
    obtain ⟨h1, h2⟩ := odoIncr_spec (show i < numel dims by omega)
    simp only [extractLoop, sum_zipWith_dot, List.range'_succ, List.filterMap_cons]
    by_cases hn : i + 1 < numel dims
    · rw [h1 hn]
      simp only [Nat.zero_ne_one, if_false]
      rw [ih (i + 1) (by omega)]
      split <;> simp_all
    · have : n = 0 := by omega
      subst this
      rw [h2 (by omega)]
      simp only [if_true]
      split <;> simp_all

theorem filterMap_list {f : Nat → Option α} {n : Nat} {xs : List α} (hn : xs.length = n)
    (h : ∀ i (hi : i < xs.length), f i = some xs[i]) : (List.range' 0 n).filterMap f = xs := by
  rw [← List.range_eq_range']
  apply List.ext_getElem?
  intro k
  have : List.filterMap f (List.range n) = (List.range n).attach.map fun i =>
      xs[i.1]'(by have := i.2; simp at this; omega) := by
    rw [← List.filterMap_eq_map]
    conv_lhs => rw [← List.attach_map_subtype_val (List.range n)]
    rw [List.filterMap_map]
    apply List.filterMap_congr
    intro x _
    have := x.2
    simp only [List.mem_range] at this
    exact h x.1 (by omega)
  rw [this]
  by_cases hk : k < n
  · simp [hk, hn]
  · rw [List.getElem?_eq_none (by simp; omega), List.getElem?_eq_none (by omega)]

/-- What `extract_with_layout` returns when it is right. -/
theorem extractWithLayout_noncontig {t : Tensor α} {xs : List α} (h : t.HasValues xs)
    (hc : t.layout.isContiguous = false) (ho : t.layout.offset = 0) :
    extractWithLayout t.storage t.layout = xs := by
  have hx := h.1
  simp only [extractWithLayout, hc, Bool.false_eq_true, if_false]
  have : List.replicate t.layout.dims.length 0 = unravel t.dims 0 := (unravel_zero _).symm
  rw [this, shapeSize_eq, extractLoop_spec _ _ (by simp)]
  apply filterMap_list hx
  intro i hi
  have := h.get hi
  rw [Tensor.elem, ho, Nat.zero_add] at this
  exact this

theorem storage_eq_values {t : Tensor α} {xs : List α} (ht : t.WF) (h : t.HasValues xs)
    (hc : t.layout.isContiguous = true) (hs : t.storage.length = numel t.dims) :
    t.storage = xs := by
  have hx := h.1
  have hst := (isContiguous_iff ht.1).mp hc
  apply List.ext_getElem?
  intro i
  by_cases hi : i < numel t.dims
  · have hlast := ht.2 _ (unravel_inRange (show numel t.dims - 1 < numel t.dims by omega))
    have hlt := t.elem_lt hlast
    rw [hst, dot_computeStrides] at hlt
    have hrm : rowMajor t.dims (unravel t.dims (numel t.dims - 1)) = numel t.dims - 1 :=
      rowMajor_unravel (by omega)
    rw [show t.layout.dims = t.dims from rfl, hrm] at hlt
    have ho : t.layout.offset = 0 := by omega
    have := h.get (i := i) (by omega)
    rw [Tensor.elem, hst, dot_computeStrides, rowMajor_unravel hi, ho, Nat.zero_add] at this
    rw [this]
    simp [hx, hi]
  · rw [List.getElem?_eq_none (by omega), List.getElem?_eq_none (by omega)]

/-! ### Bytes -/

theorem leBytes_length (w v : Nat) : (leBytes w v).length = w := by
  induction w generalizing v with
  | zero => rfl
  | succ w ih => simp [leBytes, ih]

theorem fromLE_leBytes {w v : Nat} (h : v < 256 ^ w) : fromLE (leBytes w v) = v := by
  induction w generalizing v with
  | zero => simp at h; subst h; rfl
  | succ w ih =>
    simp only [leBytes, fromLE]
    rw [ih (by rw [Nat.pow_succ] at h; omega)]
    omega

theorem chunksExact_append {w : Nat} {a b : List Nat} (hw : 0 < w) (ha : a.length = w) :
    chunksExact w (a ++ b) = a :: chunksExact w b := by
  unfold chunksExact
  have h1 : (a ++ b).length / w = b.length / w + 1 := by
    simp [ha, Nat.add_comm w, Nat.add_div_right _ hw]
  rw [h1, List.range_succ_eq_map]
  simp only [List.map_cons, List.map_map, List.cons.injEq]
  refine ⟨by simp [← ha], ?_⟩
  apply List.map_congr_left
  intro i _
  simp only [Function.comp]
  rw [Nat.succ_mul, Nat.add_comm, ← ha, List.drop_length_add_append]

theorem chunksExact_flatMap {w : Nat} (hw : 0 < w) (vals : List Nat) :
    chunksExact w (vals.flatMap (leBytes w)) = vals.map (leBytes w) := by
  induction vals with
  | nil => simp [chunksExact]
  | cons v vs ih =>
    rw [List.flatMap_cons, chunksExact_append hw (leBytes_length w v), ih]
    rfl

theorem chunks_roundtrip {w : Nat} (hw : 0 < w) {vals : List Nat} (h : ∀ v ∈ vals, v < 256 ^ w) :
    (chunksExact w (vals.flatMap (leBytes w))).map fromLE = vals := by
  rw [chunksExact_flatMap hw, List.map_map]
  conv_rhs => rw [← List.map_id vals]
  apply List.map_congr_left
  intro v hv
  simp [fromLE_leBytes (h v hv)]

theorem flatMap_leBytes_length (w : Nat) (vals : List Nat) :
    (vals.flatMap (leBytes w)).length = vals.length * w := by
  induction vals with
  | nil => simp
  | cons v vs ih => simp [ih, leBytes_length, Nat.succ_mul]; omega

/-- A bit pattern of the element type. -/
def Spec.IsElement (dt : DType) (v : Nat) : Prop :=
  if dt = .bool then v < 2 else v < 256 ^ dt.sizeInBytes

theorem storageToBytes_length (dt : DType) (vals : List Nat) :
    (storageToBytes dt vals).length = vals.length * dt.sizeInBytes := by
  cases dt <;> simp [storageToBytes, DType.sizeInBytes, leBytes_length, Function.const_def]

theorem bytes_roundtrip {dt : DType} {vals : List Nat} (h : ∀ v ∈ vals, IsElement dt v) :
    bytesToStorage dt (storageToBytes dt vals) = vals := by
  cases dt
  case bool =>
    simp only [bytesToStorage, storageToBytes, List.map_map]
    conv_rhs => rw [← List.map_id vals]
    apply List.map_congr_left
    intro v hv
    have := h v hv
    simp only [IsElement, if_true] at this
    have : v = 0 ∨ v = 1 := by omega
    rcases this with rfl | rfl <;> simp
  all_goals
    first
      | rfl
      | (exact chunks_roundtrip (by decide) (fun v hv => by
          have := h v hv
          simpa [IsElement, DType.sizeInBytes] using this))

theorem leBytes_lt {w v b : Nat} (h : b ∈ leBytes w v) : b < 256 := by
  induction w generalizing v with
  | zero => simp [leBytes] at h
  | succ w ih =>
    simp only [leBytes, List.mem_cons] at h
    rcases h with rfl | h
    · exact Nat.mod_lt _ (by decide)
    · exact ih h

theorem storageToBytes_lt {dt : DType} {vals : List Nat} (h : ∀ v ∈ vals, IsElement dt v) :
    ∀ b ∈ storageToBytes dt vals, b < 256 := by
  intro b hb
  cases dt
  case bool =>
    simp only [storageToBytes, List.mem_map] at hb
    obtain ⟨v, _, rfl⟩ := hb
    split <;> omega
  all_goals
    simp only [storageToBytes, List.mem_flatMap] at hb
    first
      | exact leBytes_lt hb.choose_spec.2
      | simpa [IsElement, DType.sizeInBytes] using h b hb

/-! ### postcard -/

theorem varint_roundtrip {fuel n : Nat} (h : n < 128 ^ fuel) (rest : List Nat) :
    fuel ≠ 0 → varintDec fuel (varintEnc fuel n ++ rest) = some (n, rest) := by
  induction fuel generalizing n with
  | zero => intro h; exact absurd rfl h
  | succ k ih =>
    intro _
    unfold varintEnc
    split
    case isTrue hn => simp [varintDec, hn]
    case isFalse hn =>
      have hk : k ≠ 0 := by
        intro hk; subst hk; simp at h; omega
      have hlt : n / 128 < 128 ^ k := by
        rw [Nat.pow_succ] at h; omega
      simp only [List.cons_append, varintDec]
      rw [if_neg (by omega), ih hlt hk]
      simp only [Option.map_some, Option.some.injEq, Prod.mk.injEq, and_true]
      omega

theorem usizeDec_enc {n : Nat} (h : n < 2 ^ 64) (rest : List Nat) :
    usizeDec (varintEnc 10 n ++ rest) = some (n, rest) := by
  have : (2 : Nat) ^ 64 ≤ 128 ^ 10 := by norm_num
  rw [usizeDec, varint_roundtrip (by omega) rest (by omega)]
  simp only [Option.bind_some]
  rw [if_pos h]

theorem usizesDec_enc {ns : List Nat} (h : ∀ n ∈ ns, n < 2 ^ 64) (rest : List Nat) :
    usizesDec ns.length (ns.flatMap (varintEnc 10) ++ rest) = some (ns, rest) := by
  induction ns with
  | nil => rfl
  | cons n ns ih =>
    simp only [List.length_cons, usizesDec, List.flatMap_cons, List.append_assoc]
    rw [usizeDec_enc (h n (by simp))]
    simp [ih (fun m hm => h m (by simp [hm]))]

theorem ofCode_code (d : DType) : DType.ofCode d.code = some d := by cases d <;> rfl

theorem decode_encodeTensorData {shape data : List Nat} {dt : DType} (hr : shape.length < 2 ^ 64)
    (hs : ∀ n ∈ shape, n < 2 ^ 64) (hd : data.length < 2 ^ 64) (rest : List Nat) :
    decodeTensorData (encodeTensorData shape dt data ++ rest) = some (shape, dt, data) := by
  unfold decodeTensorData encodeTensorData
  simp only [List.append_assoc]
  rw [usizeDec_enc hr]
  simp only [Option.bind_some]
  rw [usizesDec_enc hs]
  simp only [Option.bind_some, List.singleton_append, ofCode_code]
  rw [usizeDec_enc hd]
  simp

end Hodu
