import Verif.Lemmas.Index
import Verif.TensorSpec

/-! Helper lemmas about metadata decoding and kernel loops. -/

namespace Hodu
open Spec

theorem sliceC_mid (pre mid post : List Nat) (s n : Nat) (hs : s = pre.length) (hn : n = mid.length) :
    sliceC (pre ++ mid ++ post) s n = .ok mid := by
  subst hs hn
  simp [sliceC]

theorem readC_mid (pre post : List α) (x : α) (s : Nat) (hs : s = pre.length) :
    readC (pre ++ x :: post) s = .ok x := by
  subst hs; simp [readC]

theorem decodeUnary_unaryMetadata {l out : Layout} (hl : l.strides.length = l.dims.length) :
    decodeUnary (unaryMetadata l out) =
      .ok { numEls := out.size, dims := l.dims, strides := l.strides,
            offset := if 0 < l.dims.length then l.offset else 0 } := by
  have h0 : readC (unaryMetadata l out) 0 = .ok out.size := by simp [unaryMetadata, readC]
  have h1 : readC (unaryMetadata l out) 1 = .ok l.dims.length := by
    simp [unaryMetadata, readC, Layout.ndim]
  have h2 : sliceC (unaryMetadata l out) 2 l.dims.length = .ok l.dims := by
    have := sliceC_mid [out.size, l.ndim] l.dims (l.strides ++ [l.offset]) 2 l.dims.length rfl rfl
    simpa [unaryMetadata, List.append_assoc] using this
  have h3 : sliceC (unaryMetadata l out) (2 + l.dims.length) l.dims.length = .ok l.strides := by
    have := sliceC_mid ([out.size, l.ndim] ++ l.dims) l.strides [l.offset] (2 + l.dims.length)
      l.dims.length (by simp; omega) hl.symm
    simpa [unaryMetadata, List.append_assoc] using this
  have h4 : readC (unaryMetadata l out) (2 + 2 * l.dims.length) = .ok l.offset := by
    have := readC_mid ([out.size, l.ndim] ++ l.dims ++ l.strides) [] l.offset
      (2 + 2 * l.dims.length) (by simp [hl]; omega)
    simpa [unaryMetadata, List.append_assoc] using this
  simp only [decodeUnary, Res.bind_def, h0, h1, h2, h3, Res.ok_bind, h4]
  split <;> simp

theorem decodeBinary_binaryMetadata {l r out : Layout} (hl : l.dims.length = out.dims.length)
    (hr : r.dims.length = out.dims.length) (hls : l.strides.length = l.dims.length)
    (hrs : r.strides.length = r.dims.length) :
    decodeBinary (binaryMetadata l r out) =
      .ok { numEls := out.size, lhsDims := l.dims, rhsDims := r.dims, lhsStrides := l.strides,
            rhsStrides := r.strides, lhsOffset := l.offset, rhsOffset := r.offset } := by
  have h0 : readC (binaryMetadata l r out) 0 = .ok out.size := by simp [binaryMetadata, readC]
  have h1 : readC (binaryMetadata l r out) 1 = .ok out.dims.length := by
    simp [binaryMetadata, readC, Layout.ndim]
  generalize hn : out.dims.length = n at *
  have h2 : sliceC (binaryMetadata l r out) 2 n = .ok l.dims := by
    have := sliceC_mid [out.size, out.ndim] l.dims
      (r.dims ++ l.strides ++ r.strides ++ [l.offset, r.offset]) 2 n rfl hl.symm
    simpa [binaryMetadata, List.append_assoc] using this
  have h3 : sliceC (binaryMetadata l r out) (2 + n) n = .ok r.dims := by
    have := sliceC_mid ([out.size, out.ndim] ++ l.dims) r.dims
      (l.strides ++ r.strides ++ [l.offset, r.offset]) (2 + n) n (by simp; omega) hr.symm
    simpa [binaryMetadata, List.append_assoc] using this
  have h4 : sliceC (binaryMetadata l r out) (2 + 2 * n) n = .ok l.strides := by
    have := sliceC_mid ([out.size, out.ndim] ++ l.dims ++ r.dims) l.strides
      (r.strides ++ [l.offset, r.offset]) (2 + 2 * n) n (by simp; omega) (by omega)
    simpa [binaryMetadata, List.append_assoc] using this
  have h5 : sliceC (binaryMetadata l r out) (2 + 3 * n) n = .ok r.strides := by
    have := sliceC_mid ([out.size, out.ndim] ++ l.dims ++ r.dims ++ l.strides) r.strides
      [l.offset, r.offset] (2 + 3 * n) n (by simp; omega) (by omega)
    simpa [binaryMetadata, List.append_assoc] using this
  have h6 : readC (binaryMetadata l r out) (2 + 4 * n) = .ok l.offset := by
    have := readC_mid ([out.size, out.ndim] ++ l.dims ++ r.dims ++ l.strides ++ r.strides) [r.offset]
      l.offset (2 + 4 * n) (by simp; omega)
    simpa [binaryMetadata, List.append_assoc] using this
  have h7 : readC (binaryMetadata l r out) (2 + 4 * n + 1) = .ok r.offset := by
    have := readC_mid ([out.size, out.ndim] ++ l.dims ++ r.dims ++ l.strides ++ r.strides ++
      [l.offset]) [] r.offset (2 + 4 * n + 1) (by simp; omega)
    simpa [binaryMetadata, List.append_assoc] using this
  simp only [decodeBinary, Res.bind_def, h0, h1, h2, h3, h4, h5, h6, h7, Res.ok_bind]

/-- The position the kernels compute for linear index `i`, contiguous path or strided path. -/
theorem kernelIndex_cont {dims strides : List Nat} {i : Nat} (hl : strides.length = dims.length)
    (hi : i < numel dims) (hc : cIsContiguous dims strides = true) :
    i = dot (unravel dims i) strides := by
  rw [dot_eq_rowMajor_of_cContig hl hc (unravel_inRange hi), rowMajor_unravel hi]

theorem runLoop_ok {n : Nat} {val : Nat → Res β} {g : Nat → β}
    (h : ∀ i, i < n → val i = .ok (g i)) : runLoop n val = .ok ((List.range n).map g) :=
  Res.mapL_eq_ok_of (fun a ha => h a (by simpa using ha))

/-! ### Chunks partition the index space -/

theorem chunk_step (n T t : Nat) : chunkEnd n T t = chunkStart n T (t + 1) := by
  simp only [chunkEnd, chunkStart, Nat.succ_mul]
  split <;> split <;> omega

theorem chunkStart_zero (n T : Nat) : chunkStart n T 0 = 0 := by
  simp only [chunkStart]; split <;> omega

theorem chunkStart_last (n T : Nat) (hT : 0 < T) : chunkStart n T T = n := by
  have h1 := Nat.mod_lt n hT
  have h2 := Nat.div_add_mod n T
  simp only [chunkStart]
  split <;> omega

theorem chunkStart_le_end (n T t : Nat) : chunkStart n T t ≤ chunkEnd n T t := by
  simp only [chunkEnd, Nat.add_assoc]; exact Nat.le_add_right _ _

theorem chunks_flatten (n T k : Nat) :
    ((List.range k).map fun t =>
      List.range' (chunkStart n T t) (chunkEnd n T t - chunkStart n T t)).flatten
      = List.range (chunkStart n T k) := by
  induction k with
  | zero => simp [chunkStart_zero]
  | succ k ih =>
    rw [List.range_succ, List.map_append, List.flatten_append, ih]
    have h := chunkStart_le_end n T k
    rw [← chunk_step, List.range_eq_range', List.range_eq_range']
    simp only [List.map_cons, List.map_nil, List.flatten_cons, List.flatten_nil, List.append_nil]
    have := @List.range'_append 0 (chunkStart n T k) (chunkEnd n T k - chunkStart n T k) 1
    simp only [Nat.one_mul, Nat.zero_add] at this
    rw [this]
    congr 1
    omega

/-! ### Write sequences -/

theorem applyWrites_ok {buf : List β} {ws : List (Nat × β)} (h : ∀ w ∈ ws, w.1 < buf.length) :
    ∃ out, applyWrites buf ws = .ok out ∧ out.length = buf.length := by
  induction ws generalizing buf with
  | nil => exact ⟨buf, rfl, rfl⟩
  | cons w ws ih =>
    obtain ⟨i, v⟩ := w
    have hi : i < buf.length := h (i, v) (by simp)
    obtain ⟨out, ho, hl⟩ := @ih (buf.set i v) (fun w hw => by simpa using h w (by simp [hw]))
    exact ⟨out, by simp [applyWrites, hi, ho], by simpa using hl⟩

/-- If all writes go to pairwise distinct positions, the final buffer at a written position holds
the value written there, whatever the order. -/
theorem applyWrites_get {buf out : List β} {ws : List (Nat × β)}
    (hnd : (ws.map Prod.fst).Nodup) (h : applyWrites buf ws = .ok out) :
    out.length = buf.length ∧
    (∀ i v, (i, v) ∈ ws → out[i]? = some v) ∧
    (∀ i, i ∉ ws.map Prod.fst → out[i]? = buf[i]?) := by
  induction ws generalizing buf with
  | nil => simp [applyWrites] at h; subst h; simp
  | cons w ws ih =>
    obtain ⟨j, u⟩ := w
    simp only [applyWrites] at h
    split at h
    case isFalse => simp at h
    case isTrue hj =>
      simp only [List.map_cons, List.nodup_cons] at hnd
      obtain ⟨h1, h2, h3⟩ := ih hnd.2 h
      refine ⟨by simpa using h1, ?_, ?_⟩
      · intro i v hm
        rcases List.mem_cons.mp hm with he | hm
        · cases he
          rw [h3 _ hnd.1]
          simp [hj]
        · exact h2 i v hm
      · intro i hi
        simp only [List.map_cons, List.mem_cons, not_or] at hi
        rw [h3 i hi.2]
        simp [Ne.symm hi.1]

/-- Any order of the writes `(i, g i)` for `i < n` into a buffer of length `n` yields the list of
all `g i`. -/
theorem applyWrites_perm {n : Nat} {g : Nat → β} {buf : List β} {ws : List (Nat × β)}
    (hb : buf.length = n) (hp : ws.Perm ((List.range n).map fun i => (i, g i))) :
    applyWrites buf ws = .ok ((List.range n).map g) := by
  have hfst : (ws.map Prod.fst).Perm (List.range n) := by
    have := hp.map Prod.fst
    simpa [List.map_map, Function.comp_def] using this
  have hnd : (ws.map Prod.fst).Nodup := hfst.nodup_iff.mpr List.nodup_range
  have hlt : ∀ w ∈ ws, w.1 < buf.length := by
    intro w hw
    have := (hp.mem_iff).mp hw
    simp only [List.mem_map, List.mem_range] at this
    obtain ⟨a, ha, rfl⟩ := this
    simpa [hb] using ha
  obtain ⟨out, ho, hl⟩ := applyWrites_ok hlt
  obtain ⟨_, h2, _⟩ := applyWrites_get hnd ho
  rw [ho]
  congr 1
  apply List.ext_getElem?
  intro i
  by_cases hi : i < n
  · have hm : (i, g i) ∈ ws := hp.mem_iff.mpr (by simp; exact hi)
    rw [h2 i _ hm]
    simp [hi]
  · rw [List.getElem?_eq_none (by omega), List.getElem?_eq_none (by simp; omega)]

theorem workerWrites_ok {val : Nat → Res β} {g : Nat → β} {s e : Nat}
    (h : ∀ i, s ≤ i → i < e → val i = .ok (g i)) :
    workerWrites val s e = .ok ((List.range' s (e - s)).map fun i => (i, g i)) := by
  apply Res.mapL_eq_ok_of
  intro a ha
  simp only [List.mem_range'_1] at ha
  rw [h a ha.1 (by omega)]
  rfl

theorem runChunks_ok {n T : Nat} {val : Nat → Res β} {g : Nat → β} {buf : List β} (hT : 0 < T)
    (hb : buf.length = n) (h : ∀ i, i < n → val i = .ok (g i)) :
    runChunks n T val buf = .ok ((List.range n).map g) := by
  have hend : ∀ t, t < T → chunkEnd n T t ≤ n := by
    intro t ht
    have h1 := Nat.mod_lt n hT
    have h2 := Nat.div_add_mod n T
    have h3 : (t + 1) * (n / T) ≤ T * (n / T) := Nat.mul_le_mul_right _ ht
    rw [chunk_step]
    simp only [chunkStart]
    split <;> omega
  unfold runChunks
  rw [Res.mapL_eq_ok_of (g := fun t =>
    (List.range' (chunkStart n T t) (chunkEnd n T t - chunkStart n T t)).map fun i => (i, g i))]
  · simp only [Res.ok_bind]
    apply applyWrites_perm hb
    have := chunks_flatten n T T
    rw [chunkStart_last n T hT] at this
    rw [← this, List.map_flatten, List.map_map]
    exact List.Perm.refl _
  · intro t ht
    apply workerWrites_ok
    intro i _ hi
    exact h i (Nat.lt_of_lt_of_le hi (hend t (by simpa using ht)))

end Hodu
