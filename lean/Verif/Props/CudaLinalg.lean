import Verif.Model.CudaLinalg
import Verif.Lemmas.CudaOnce
import Verif.Props.CudaConv
import Verif.Props.Linalg

/-!
# C116: determinant, inverse and trace on CUDA
-/

namespace Hodu.Cuda

open _root_.Hodu _root_.Hodu.Spec Cuda.Spec

variable {α : Type} {A : Type}

/-! ## The arithmetic of one matrix -/

theorem detSign_zero {o : Arith A} (hz : o.neg o.zero = o.zero) (s : Nat) : detSign o o.zero s = o.zero := by
  unfold detSign
  split
  · exact hz
  · rfl

theorem detLoopCuda_eq {o : Arith A} (hz : o.neg o.zero = o.zero) (n : Nat) : ∀ (ks : List Nat) (lu : List A) (d : A)
    (s : Nat), detLoopCuda o n ks lu d s = detLoop o n ks lu d s := by
  intro ks
  induction ks with
  | nil => intro lu d s; rfl
  | cons k ks ih =>
    intro lu d s
    simp only [detLoopCuda, detLoop, detSign_zero hz, ih]

theorem detOneCuda_eq {o : Arith A} (hz : o.neg o.zero = o.zero) {inp : List A} {m : LinMeta} {b : Nat}
    (hn : m.n ≤ 16) : detOneCuda o inp m b = detOne o inp m b := by
  unfold detOneCuda
  split
  · rfl
  · rename_i h
    have : m.n * m.n ≤ 16 * 16 := Nat.mul_le_mul hn hn
    rw [if_neg (by omega)]
    unfold detOne
    simp only [if_neg (by omega : ¬ m.n = 1), if_neg (by omega : ¬ m.n = 2), if_neg (by omega : ¬ m.n = 3)]
    simp only [detLoopCuda_eq hz]

theorem detOneCuda_ub {o : Arith A} {inp : List A} {m : LinMeta} {b : Nat} (hn : 16 < m.n) :
    detOneCuda o inp m b = .ub := by
  unfold detOneCuda
  have : 17 * 17 ≤ m.n * m.n := Nat.mul_le_mul hn hn
  rw [if_neg (by omega), if_pos (by omega)]

theorem invOneCuda_eq {o : Arith A} {inp : List A} {m : LinMeta} {b : Nat} (hn : m.n ≤ 16) :
    invOneCuda o inp m b = invOne o inp m b := by
  unfold invOneCuda
  split
  · rfl
  · rename_i h
    have : m.n * (2 * m.n) ≤ 16 * (2 * 16) := Nat.mul_le_mul hn (by omega)
    rw [if_neg (by omega)]
    unfold invOne
    simp only [if_neg (by omega : ¬ m.n = 1), if_neg (by omega : ¬ m.n = 2), if_neg (by omega : ¬ m.n = 3)]

theorem invOneCuda_ub {o : Arith A} {inp : List A} {m : LinMeta} {b : Nat} (hn : 16 < m.n) :
    invOneCuda o inp m b = .ub := by
  unfold invOneCuda
  have : 17 * (2 * 17) ≤ m.n * (2 * m.n) := Nat.mul_le_mul hn (by omega)
  rw [if_neg (by omega), if_pos (by omega)]

theorem mapL_length {f : Nat → Res (List A)} {n w : Nat} {rows : List (List A)}
    (h : Res.mapL f (List.range n) = .ok rows) (hw : ∀ i r, f i = .ok r → r.length = w) :
    rows.flatten.length = n * w := by
  obtain ⟨hl, hg⟩ := Res.mapL_ok_inv h
  have : ∀ r ∈ rows, r.length = w := by
    intro r hr
    obtain ⟨i, hi, e⟩ := List.getElem_of_mem hr
    exact hw _ r (by rw [← e]; exact hg i (by omega) hi)
  rw [List.length_flatten, List.map_congr_left (g := fun _ => w) this, List.map_const', List.sum_replicate]
  simp at hl
  simp [hl]

theorem invOne_length {o : Arith A} {inp : List A} {m : LinMeta} {b : Nat} {vs : List A}
    (h : invOne o inp m b = .ok vs) : vs.length = m.n * m.n := by
  unfold invOne at h
  simp only at h
  split at h
  · rename_i e
    iterate 2 (obtain ⟨_, _, h⟩ := Res.bind_eq_ok.mp h)
    cases h; rw [e]; rfl
  split at h
  · rename_i e
    iterate 5 (obtain ⟨_, _, h⟩ := Res.bind_eq_ok.mp h)
    cases h; rw [e]; rfl
  split at h
  · rename_i e
    iterate 10 (obtain ⟨_, _, h⟩ := Res.bind_eq_ok.mp h)
    cases h; rw [e]; rfl
  · iterate 2 (obtain ⟨_, _, h⟩ := Res.bind_eq_ok.mp h)
    unfold rightHalf at h
    obtain ⟨rows, h1, h⟩ := Res.bind_eq_ok.mp h
    cases h
    refine mapL_length h1 fun i r hr => ?_
    simpa using (Res.mapL_ok_inv hr).1

/-! ## Metadata -/

theorem lin_decode {l : Layout} {md : List Nat} {m : LinMeta} (h : linMetadata l = .ok md) (h2 : decodeLin md = .ok m) :
    m.batch = linBatch l.dims ∧ linCheck l.dims = .ok m.n := by
  unfold linMetadata at h
  obtain ⟨n, hn, h⟩ := Res.bind_eq_ok.mp h
  injection h with h
  unfold decodeLin at h2
  obtain ⟨a, ha, h2⟩ := Res.bind_eq_ok.mp h2
  obtain ⟨b, hb, h2⟩ := Res.bind_eq_ok.mp h2
  iterate 6 (obtain ⟨_, _, h2⟩ := Res.bind_eq_ok.mp h2)
  cases h2
  subst h
  rw [readC_eq_ok] at ha hb
  simp at ha hb
  subst ha hb
  exact ⟨rfl, hn⟩

theorem linBatch_size {dims : List Nat} (h : linBatch dims ≤ shapeSize (linOutDims dims)) :
    linBatch dims = shapeSize (linOutDims dims) := by
  unfold linBatch at h ⊢
  unfold linOutDims at h ⊢
  by_cases h2 : dims.length = 2
  · rw [if_pos h2] at h ⊢
    rw [h2]
    simp [shapeSize_eq, numel]
  · rw [if_neg h2] at h ⊢
    split at h
    · omega
    · rename_i h3
      rw [if_neg h3]

/-! ## det -/

/-- **C116, det follows the CPU kernel**: whenever the CPU kernel, working on the converted elements, answers `y`, the
launch computes the converted `y` under every schedule, for matrices of up to 16 rows. -/
theorem C116_det_like_cpu {o : Arith A} (hz : o.neg o.zero = o.zero) {up : α → A} {down : A → α} {dt : DType}
    (hdt : dt ∈ linArms) {t : Tensor α} {y : Tensor A} (h : (Spec.mapped up t).det o = .ok y)
    (hn : ∀ n, linCheck t.dims = .ok n → n ≤ 16) (hb : y.storage.length ≤ 2 ^ 32 - 1) :
    Yields (detCuda o up down dt t) (Spec.mapped down y) := by
  unfold Tensor.det at h
  obtain ⟨md, hmd, h⟩ := Res.bind_eq_ok.mp h
  obtain ⟨s, hs, h⟩ := Res.bind_eq_ok.mp h
  injection h with h
  subst h
  unfold detKernel at hs
  obtain ⟨m, hm, hs⟩ := Res.bind_eq_ok.mp hs
  obtain ⟨out, ho, hs⟩ := Res.bind_eq_ok.mp hs
  split at hs
  case isFalse => cases hs
  rename_i hle
  injection hs with hs
  subst hs
  obtain ⟨hB, hN⟩ := lin_decode hmd hm
  have hlen : out.length = m.batch := by simpa using (Res.mapL_ok_inv ho).1
  have hsz : out.length = shapeSize (linOutDims t.dims) := by
    rw [hlen, hB]
    exact linBatch_size (by rw [hlen, hB] at hle; exact hle)
  refine ⟨rfl, onceLoop m.batch fun tid => (detOneCuda o (t.storage.map up) m (linBatchOffset m tid)).map down,
    ?_, fun buf hbuf => ?_⟩
  · unfold detCuda detLoopOf
    rw [show linMetadata t.layout = .ok md from hmd, Res.ok_bind, if_pos hdt, hm]
    simp only [launchArgs, Res.ok_bind, Spec.mapped, List.length_map, hsz]
    rfl
  · simp only [detOneCuda_eq hz (hn m.n hN)]
    refine onceLoop_all (by rw [← hlen]; exact hb) (runLoop_map down ho) ?_
    rw [hbuf]
    simpa [Spec.mapped] using hlen

theorem linCheck_eq (bd : List Nat) (n : Nat) : linCheck (bd ++ [n, n]) = .ok n := by
  unfold linCheck
  have h1 : (bd ++ [n, n]).length - 1 = bd.length + 1 := by simp
  have h2 : (bd ++ [n, n]).length - 2 = bd.length := by simp
  rw [if_neg (by simp), h1, h2]
  simp

theorem mapped_wf {t : Tensor α} (f : α → A) (h : t.WF) : (Spec.mapped f t).WF := by
  refine ⟨h.1, fun i hi => ?_⟩
  have := h.2 i hi
  rw [mapped_elem]
  simpa using this

theorem det_length {o : Arith A} {t : Tensor A} {y : Tensor A} (h : t.det o = .ok y) :
    y.storage.length ≤ numel y.dims := by
  unfold Tensor.det at h
  obtain ⟨md, _, h⟩ := Res.bind_eq_ok.mp h
  obtain ⟨s, hs, h⟩ := Res.bind_eq_ok.mp h
  injection h with h
  subst h
  unfold detKernel at hs
  obtain ⟨m, _, hs⟩ := Res.bind_eq_ok.mp hs
  obtain ⟨out, _, hs⟩ := Res.bind_eq_ok.mp hs
  split at hs
  case isFalse => cases hs
  rename_i hle
  injection hs with hs
  subst hs
  rw [shapeSize_eq] at hle
  exact hle

theorem numel_perMatrix (bd : List Nat) : numel (perMatrix bd) = numel bd := by
  unfold perMatrix
  split
  · rename_i h0; rw [h0]; rfl
  · rfl

variable {K : Type} [Field K] [LinearOrder K] [IsStrictOrderedRing K]

/-- **C116, det**: for every layout and every batch without a zero dimension, under every schedule, the number stored for
a matrix of at most 16 rows is its determinant, or 0 for a matrix of at least four rows (the threshold of the pivots).
The arithmetic between the conversions is exact here. -/
theorem C116_det_partial {e : K} (he : 0 < e) (up : α → K) (down : K → α) {dt : DType} (hdt : dt ∈ linArms)
    {t : Tensor α} {bd : List Nat} {n : Nat} (ht : t.WF) (hd : t.dims = bd ++ [n, n]) (hne : ∀ d ∈ bd, d ≠ 0)
    (hn : n ≤ 16) (hb : numel bd ≤ 2 ^ 32 - 1) :
    ∃ y, Yields (detCuda (fieldArith (some e)) up down dt t) y ∧ y.WF ∧ y.dims = perMatrix bd ∧
      ∀ b (M : Matrix (Fin n) (Fin n) K), InRange b bd → MatrixAt (Spec.mapped up t) b M →
        y.elem (perMatrixIndex bd b) = some (down M.det) ∨
          (4 ≤ n ∧ y.elem (perMatrixIndex bd b) = some (down 0)) := by
  obtain ⟨y, h1, h2, h3, h4⟩ := C66_det_partial he (mapped_wf up ht) (bd := bd) (n := n) hd hne
  refine ⟨_, C116_det_like_cpu (by simp [fieldArith]) hdt h1 (fun k hk => ?_) ?_, mapped_wf down h2, h3, ?_⟩
  · rw [hd, linCheck_eq] at hk
    injection hk with hk
    omega
  · have := det_length h1
    rw [h3, numel_perMatrix] at this
    omega
  · intro b M hb hM
    rcases h4 b M hb hM with h | ⟨h0, h⟩
    · left; rw [mapped_elem, h]; rfl
    · right; refine ⟨h0, ?_⟩; rw [mapped_elem, h]; rfl

theorem onceLoop_ub {n : Nat} {val : Nat → Res β} {buf : List β} (hi : 0 < n) (h : val 0 = .ub) :
    (onceLoop n val).exec buf [0] = .ub := by
  have hs : ((onceLoop n val).init buf).pc 0 = .head 0 := by
    show (if 0 < 256 * gridSize n then Pc.head (threadStart 0) else Pc.done) = _
    rw [if_pos (by unfold gridSize; omega), threadStart_eq (by omega)]
  have hstep : (onceLoop n val).step ((onceLoop n val).init buf) 0 = .ub := by
    unfold Loop.step
    rw [hs]
    simp only
    rw [if_pos (show 0 < (onceLoop n val).bound from hi), show (onceLoop n val).val 0 = .ub from h]
    rfl
  unfold Loop.exec
  simp only [Res.foldL, hstep]
  rfl

/-- The decoding of the metadata of a well-formed tensor of matrices. -/
theorem lin_meta {t : Tensor α} {bd : List Nat} {n : Nat} (ht : t.WF) (hd : t.dims = bd ++ [n, n]) :
    ∃ md m, linMetadata t.layout = .ok md ∧ decodeLin md = .ok m ∧ m.n = n ∧ 0 < m.batch := by
  obtain ⟨sb, r, c, hl, hs⟩ := lin_layout ht hd
  have hdec := decodeLin_linMetadata (n := n) (r := r) (c := c) (off := t.layout.offset) hs
  rw [← hl] at hdec
  obtain ⟨md, h1, h2⟩ := Res.bind_eq_ok.mp hdec
  refine ⟨md, _, h1, h2, rfl, ?_⟩
  dsimp only
  split <;> omega

/-- **C116, det of large matrices is undefined**: with more than 16 rows the first step of the first thread overruns its
local array. -/
theorem C116_det_large (o : Arith A) (up : α → A) (down : A → α) {dt : DType} (hdt : dt ∈ linArms)
    {t : Tensor α} {bd : List Nat} {n : Nat} (ht : t.WF) (hd : t.dims = bd ++ [n, n]) (hn : 16 < n) :
    ∃ l, detCuda o up down dt t = .ok l ∧ ∀ buf, l.kernel.exec buf [0] = .ub := by
  obtain ⟨md, m, h1, h2, h3, h4⟩ := lin_meta ht hd
  refine ⟨⟨onceLoop m.batch fun tid => (detOneCuda o (t.storage.map up) m (linBatchOffset m tid)).map down,
    shapeSize (linOutDims t.dims), linOutDims t.dims⟩, ?_, fun buf => onceLoop_ub h4 ?_⟩
  · unfold detCuda detLoopOf
    rw [h1, Res.ok_bind, if_pos hdt, h2]
    rfl
  · rw [detOneCuda_ub (by omega)]
    rfl

/-! ## inv -/

/-- A kernel whose thread `i` stores a row of `w` values from position `i * w` on leaves the rows one after the other. -/
theorem blocks_ends {n w : Nat} {row : Nat → List α} (hw : ∀ i, i < n → (row i).length = w)
    {K : PKernel α} {prog : Nat → Prog α} (hK : RunsOnce K n prog)
    (hp : ∀ i, i < n → prog i = storeAll ((row i).zipIdx.map fun p => ((bOut, i * w + p.2), p.1)))
    {m0 : Mem α} (hm0 : ∀ a, a < n * w → (m0 (bOut, a)).isSome = true) (d : α) :
    ∃ M, Ends K m0 M ∧ M.read bOut (n * w) = ((List.range n).map row).flatten := by
  set zs := ((List.range n).map row).flatten with hzs
  have hrow : ∀ r ∈ (List.range n).map row, r.length = w := by
    intro r hr
    obtain ⟨i, hi, rfl⟩ := List.mem_map.mp hr
    exact hw i (List.mem_range.mp hi)
  have hlen : zs.length = n * w := by
    rw [hzs, List.length_flatten, List.map_congr_left (g := fun _ => w) hrow, List.map_const', List.sum_replicate]
    simp
  have hget : ∀ i, i < n → ∀ c, c < w → zs[i * w + c]? = (row i)[c]? := by
    intro i hi c hc
    have := getElem?_blocks hrow (r := i) (c := c) (row := row i) (by simp [hi]) hc
    rwa [List.flatMap_id] at this
  have hlt : ∀ i, i < n → ∀ c, c < w → i * w + c < n * w := by
    intro i hi c hc
    have := Nat.mul_le_mul_right w (show i + 1 ≤ n from hi)
    rw [Nat.add_mul] at this
    omega
  let f : Nat → α := fun p => zs.getD p d
  let cells : Nat → List (Addr × α) := fun i => (row i).zipIdx.map fun p => ((bOut, i * w + p.2), p.1)
  have hgood : ∀ i, i < n → ∀ c ∈ cells i, ∃ p, p < n * w ∧ c = ((bOut, p), f p) := by
    intro i hi c hc
    obtain ⟨p, hp, rfl⟩ := List.mem_map.mp hc
    obtain ⟨v, j⟩ := p
    have hv := List.mem_zipIdx_iff_getElem?.mp hp
    dsimp only at hv ⊢
    have hjw : j < w := by
      have := (List.getElem?_eq_some_iff.mp hv).1
      rw [hw i hi] at this
      exact this
    refine ⟨i * w + j, hlt i hi j hjw, ?_⟩
    simp only [f, List.getD_eq_getElem?_getD, hget i hi j hjw, hv]
    rfl
  have hcov : ∀ p, p < n * w → ∃ i, i < n ∧ ∃ c ∈ cells i, c.1 = (bOut, p) := by
    intro p hp
    have hw0 : 0 < w := by
      rcases Nat.eq_zero_or_pos w with h | h
      · rw [h] at hp; omega
      · exact h
    have hi : p / w < n := Nat.div_lt_of_lt_mul (by rw [Nat.mul_comm]; exact hp)
    have hc : p % w < w := Nat.mod_lt _ hw0
    have hpe : p / w * w + p % w = p := by rw [Nat.mul_comm]; exact Nat.div_add_mod p w
    refine ⟨p / w, hi, ((bOut, p / w * w + p % w), (row (p / w))[p % w]'(by rw [hw _ hi]; exact hc)), ?_, ?_⟩
    · refine List.mem_map.mpr ⟨((row (p / w))[p % w]'(by rw [hw _ hi]; exact hc), p % w), ?_, rfl⟩
      rw [List.mem_zipIdx_iff_getElem?]
      exact List.getElem?_eq_getElem _
    · rw [hpe]
  refine ⟨m0.out (n * w) f, stores_once hK (cells := cells) (G := fun a => f a.2) hp ?_ ?_ ?_, ?_⟩
  · intro i hi c hc
    obtain ⟨p, hp, rfl⟩ := hgood i hi c hc
    exact ⟨hm0 p hp, rfl⟩
  · intro i hi c hc
    obtain ⟨p, hp, rfl⟩ := hgood i hi c hc
    simp [Mem.out, hp]
  · intro a ha
    obtain ⟨b, p⟩ := a
    unfold Mem.out
    dsimp only
    split_ifs with h1
    · obtain ⟨rfl, h2⟩ := h1
      obtain ⟨i, hi, c, hc, e⟩ := hcov p h2
      exact absurd e.symm (ha i hi c hc)
    · rfl
  · rw [read_out]
    refine List.ext_getElem? fun i => ?_
    rw [List.getElem?_map]
    by_cases hi : i < n * w
    · rw [List.getElem?_range hi, List.getElem?_eq_getElem (by omega : i < zs.length)]
      simp [f, hi, hlen]
    · rw [List.getElem?_eq_none (by simpa using hi), List.getElem?_eq_none (by omega : zs.length ≤ i)]
      rfl

/-- The result of a launch with several stores per thread: whatever the schedule, the buffer ends up holding the contiguous
tensor `r`. -/
def Spec.Leaves (l : Res (PLaunched α)) (r : Tensor α) : Prop :=
  ∃ L M, l = .ok L ∧ Ends L.kernel L.mem M ∧ r = ⟨M.read bOut L.len, Layout.fromShape L.dims⟩

/-- The shape of `Tensor.inv` around the computation `one` of one matrix. -/
def invWrap (one : LinMeta → Nat → Res (List A)) (l : Layout) : Res (Tensor A) :=
  (linMetadata l).bind fun md =>
    ((decodeLin md).bind fun m => (runLoop m.batch fun b => one m (linBatchOffset m b)).bind fun out =>
      if out.flatten.length ≤ shapeSize l.dims then .ok out.flatten else .ub).bind fun s =>
        .ok { storage := s, layout := Layout.fromShape l.dims }

/-- What happened when it answered: one list of `n * n` elements for each matrix. -/
theorem invWrap_rows {one : LinMeta → Nat → Res (List A)}
    (hw : ∀ m b vs, one m b = .ok vs → vs.length = m.n * m.n) {l : Layout} {y : Tensor A}
    (h : invWrap one l = .ok y) :
    ∃ md m out, linMetadata l = .ok md ∧ decodeLin md = .ok m ∧ m.batch = linBatch l.dims ∧
      linCheck l.dims = .ok m.n ∧ shapeSize l.dims = m.batch * (m.n * m.n) ∧ out.length = m.batch ∧
      (∀ i, i < m.batch → one m (linBatchOffset m i) = .ok (out.getD i [])) ∧
      out = ((List.range m.batch).map fun i => out.getD i []) ∧ y = ⟨out.flatten, Layout.fromShape l.dims⟩ := by
  unfold invWrap at h
  obtain ⟨md, hmd, h⟩ := Res.bind_eq_ok.mp h
  obtain ⟨s, hs, h⟩ := Res.bind_eq_ok.mp h
  injection h with h
  subst h
  obtain ⟨m, hm, hs⟩ := Res.bind_eq_ok.mp hs
  obtain ⟨out, ho, hs⟩ := Res.bind_eq_ok.mp hs
  split at hs
  case isFalse => cases hs
  rename_i hle
  injection hs with hs
  subst hs
  obtain ⟨hB, hN⟩ := lin_decode hmd hm
  obtain ⟨hl, hg⟩ := Res.mapL_ok_inv ho
  have hlen : out.length = m.batch := by simpa using hl
  have hrow : ∀ i, i < m.batch → one m (linBatchOffset m i) = .ok (out.getD i []) := by
    intro i hi
    have := hg i (by omega) (by omega)
    rw [List.getElem_range] at this
    rw [List.getD_eq_getElem?_getD, List.getElem?_eq_getElem (by omega : i < out.length)]
    exact this
  have hmap : out = (List.range m.batch).map fun i => out.getD i [] := by
    refine List.ext_getElem (by simp [hlen]) fun i h1 h2 => ?_
    simp [h1]
  have hflat : out.flatten.length = m.batch * (m.n * m.n) := by
    exact mapL_length ho fun i r hr => hw _ _ _ hr
  have hsz : shapeSize l.dims = m.batch * (m.n * m.n) := by
    rw [hflat] at hle
    have hs2 : shapeSize l.dims = shapeSize (l.dims.take (l.dims.length - 2)) * (m.n * m.n) := by
      unfold linCheck at hN
      split at hN
      · cases hN
      rename_i h2
      split at hN
      · cases hN
      rename_i h3
      injection hN with hN
      have h3 : l.dims.getD (l.dims.length - 1) 0 = l.dims.getD (l.dims.length - 2) 0 := by
        by_contra hc; exact h3 hc
      have hsp : l.dims = l.dims.take (l.dims.length - 2) ++ [m.n, m.n] := by
        conv_lhs => rw [← List.take_append_drop (l.dims.length - 2) l.dims]
        congr 1
        rw [List.drop_eq_getElem_cons (by omega), List.drop_eq_getElem_cons (by omega),
          List.drop_eq_nil_of_le (by omega)]
        rw [List.getD_eq_getElem?_getD, List.getElem?_eq_getElem (by omega)] at hN
        rw [List.getD_eq_getElem?_getD, List.getElem?_eq_getElem (by omega), List.getD_eq_getElem?_getD,
          List.getElem?_eq_getElem (by omega)] at h3
        simp only [Option.getD_some] at hN h3
        rw [← hN, ← h3]
        simp only [show l.dims.length - 2 + 1 = l.dims.length - 1 by omega]
      conv_lhs => rw [hsp]
      simp only [shapeSize_eq, numel_append]
      simp [numel]
    rw [hs2] at hle ⊢
    rw [hB] at hle ⊢
    unfold linBatch at hle ⊢
    split at hle
    · rename_i h0
      rw [if_pos h0]
      rw [h0] at hle ⊢
      omega
    · rename_i h0
      rw [if_neg h0]
  exact ⟨md, m, out, hmd, hm, hB, hN, hsz, hlen, hrow, hmap, rfl⟩

theorem inv_rows {o : Arith A} {t : Tensor α} {up : α → A} {y : Tensor A} (h : (Spec.mapped up t).inv o = .ok y) :
    ∃ md m out, linMetadata t.layout = .ok md ∧ decodeLin md = .ok m ∧ m.batch = linBatch t.dims ∧
      linCheck t.dims = .ok m.n ∧ shapeSize t.dims = m.batch * (m.n * m.n) ∧ out.length = m.batch ∧
      (∀ i, i < m.batch → invOne o (t.storage.map up) m (linBatchOffset m i) = .ok (out.getD i [])) ∧
      out = ((List.range m.batch).map fun i => out.getD i []) ∧ y = ⟨out.flatten, Layout.fromShape t.dims⟩ :=
  invWrap_rows (one := fun m b => invOne o (t.storage.map up) m b) (fun _ _ _ => invOne_length) h

/-- **C116, inv follows the CPU kernel**: whenever the CPU kernel, working on the converted elements, answers `y`, the
launch leaves the converted `y` under every schedule, for matrices of up to 16 rows. -/
theorem C116_inv_like_cpu {o : Arith A} {up : α → A} {down : A → α} {dt : DType}
    (hdt : dt ∈ linArms) (junk : Nat → α) {t : Tensor α} {y : Tensor A} (h : (Spec.mapped up t).inv o = .ok y)
    (hn : ∀ n, linCheck t.dims = .ok n → n ≤ 16) (hb : linBatch t.dims ≤ 2 ^ 32 - 256) :
    Spec.Leaves (invCuda o up down dt junk t) (Spec.mapped down y) := by
  obtain ⟨md, m, out, hmd, hm, hB, hN, hsz, hlen, hrow, hmap, rfl⟩ := inv_rows h
  have hprog : ∀ i, i < m.batch → ofWrites (invThread o up down t.storage m i) =
      storeAll (((out.getD i []).map down).zipIdx.map fun p => ((bOut, i * (m.n * m.n) + p.2), p.1)) := by
    intro i hi
    unfold invThread
    rw [invOneCuda_eq (hn m.n hN), hrow i hi]
    simp only [Res.map, ofWrites, List.zipIdx_map, List.map_map]
    congr 1
    apply List.map_congr_left
    rintro ⟨v, j⟩ _
    simp [Nat.mul_assoc]
  obtain ⟨M, hE, hR⟩ := blocks_ends (n := m.batch) (w := m.n * m.n)
    (row := fun i => (out.getD i []).map down)
    (fun i hi => by rw [List.length_map]; exact invOne_length (hrow i hi))
    (progOnce_runs (by rw [hB]; exact hb) fun tid => ofWrites (invThread o up down t.storage m tid)) hprog
    (m0 := Mem.ofBuf bOut ((List.range (shapeSize t.dims)).map junk))
    (fun a ha => by rw [← hsz] at ha; simp [Mem.ofBuf, ha]) (junk 0)
  refine ⟨{ kernel := progOnce m.batch fun tid => ofWrites (invThread o up down t.storage m tid),
            mem := Mem.ofBuf bOut ((List.range (shapeSize t.dims)).map junk), len := shapeSize t.dims, dims := t.dims },
          M, ?_, hE, ?_⟩
  · unfold invCuda invKernelCuda
    rw [show linMetadata t.layout = .ok md from hmd, Res.ok_bind, if_pos hdt, hm]
    rfl
  · dsimp only
    rw [hsz, hR]
    have : (List.range m.batch).map (fun i => (out.getD i []).map down) = out.map (List.map down) := by
      conv_rhs => rw [hmap, List.map_map]
      rfl
    rw [this, ← List.map_flatten]
    rfl

/-- **C116, inv**: for every layout and every batch without a zero dimension, under every schedule, an invertible matrix of
at most 16 rows is replaced by its inverse.  The arithmetic between the conversions is exact here. -/
theorem C116_inv_partial (tiny : Option K) (up : α → K) (down : K → α) {dt : DType} (hdt : dt ∈ linArms)
    (junk : Nat → α) {t : Tensor α} {bd : List Nat} {n : Nat} (ht : t.WF) (hd : t.dims = bd ++ [n, n])
    (hne : ∀ d ∈ bd, d ≠ 0) (hn : n ≤ 16) (hb : numel bd ≤ 2 ^ 32 - 256)
    (hinv : ∀ b (M : Matrix (Fin n) (Fin n) K), InRange b bd → MatrixAt (Spec.mapped up t) b M → M.det ≠ 0) :
    ∃ y, Spec.Leaves (invCuda (fieldArith tiny) up down dt junk t) y ∧ y.WF ∧ y.dims = bd ++ [n, n] ∧
      ∀ b (M : Matrix (Fin n) (Fin n) K), InRange b bd → MatrixAt (Spec.mapped up t) b M →
        ∃ N : Matrix (Fin n) (Fin n) K, MatrixAt y b (fun i j => down (N i j)) ∧ N * M = 1 ∧ M * N = 1 := by
  obtain ⟨y, h1, h2, h3, h4⟩ := C67_inv_partial tiny (mapped_wf up ht) (bd := bd) (n := n) hd hne hinv
  refine ⟨_, C116_inv_like_cpu hdt junk h1 (fun k hk => ?_) ?_, mapped_wf down h2, h3, ?_⟩
  · rw [hd, linCheck_eq] at hk
    injection hk with hk
    omega
  · rw [hd]
    unfold linBatch
    have : (bd ++ [n, n]).take ((bd ++ [n, n]).length - 2) = bd := by simp
    rw [this, shapeSize_eq]
    split <;> omega
  · intro b M hb hM
    obtain ⟨N, h5, h6⟩ := h4 b M hb hM
    exact ⟨N, fun i j => by rw [mapped_elem, h5 i j]; rfl, h6⟩

theorem progOnce_ub {n : Nat} {prog : Nat → Prog α} {m0 : Mem α} (hi : 0 < n) (h : prog 0 = .ub) :
    (progOnce n prog).exec m0 [0, 0] = .ub := by
  have hs : ((progOnce n prog).init m0).pc 0 = .head 0 := by
    show (if 0 < 256 * gridSize n then PPc.head (threadStart 0) else PPc.done) = _
    rw [if_pos (by unfold gridSize; omega), threadStart_eq (by omega)]
  have h1 : (progOnce n prog).step ((progOnce n prog).init m0) 0 =
      .ok (((progOnce n prog).init m0).goto 0 (.run 0 .ub)) := by
    unfold PKernel.step
    rw [hs]
    simp only
    rw [if_pos (show 0 < (progOnce n prog).bound from hi), show (progOnce n prog).prog 0 = .ub from h]
  unfold PKernel.exec
  simp only [Res.foldL, h1, Res.ok_bind]
  have h2 : (progOnce n prog).step (((progOnce n prog).init m0).goto 0 (.run 0 .ub)) 0 = .ub := by
    unfold PKernel.step PSt.goto
    simp
  rw [h2]
  rfl

/-- **C116, inv of large matrices is undefined**: with more than 16 rows the first thread overruns its local array. -/
theorem C116_inv_large (o : Arith A) (up : α → A) (down : A → α) {dt : DType} (hdt : dt ∈ linArms) (junk : Nat → α)
    {t : Tensor α} {bd : List Nat} {n : Nat} (ht : t.WF) (hd : t.dims = bd ++ [n, n]) (hn : 16 < n) :
    ∃ l, invCuda o up down dt junk t = .ok l ∧ l.kernel.exec l.mem [0, 0] = .ub := by
  obtain ⟨md, m, h1, h2, h3, h4⟩ := lin_meta ht hd
  refine ⟨{ kernel := progOnce m.batch fun tid => ofWrites (invThread o up down t.storage m tid),
            mem := Mem.ofBuf bOut ((List.range (shapeSize t.dims)).map junk), len := shapeSize t.dims, dims := t.dims },
          ?_, progOnce_ub h4 ?_⟩
  · unfold invCuda invKernelCuda
    rw [h1, Res.ok_bind, if_pos hdt, h2]
    rfl
  · unfold invThread
    rw [invOneCuda_ub (by omega)]
    rfl

/-! ## trace -/

/-- **C116, trace is undefined**: for every tensor of matrices of every supported type the launch passes three arguments
to a kernel with four parameters. -/
theorem C116_trace_ub (zero : A) (add : A → A → A) (up : α → A) (down : A → α) {dt : DType} (hdt : dt ∈ linArms)
    {t : Tensor α} {bd : List Nat} {n : Nat} (hd : t.dims = bd ++ [n, n]) :
    traceCuda zero add up down dt t = .ub := by
  unfold traceCuda traceWith linMetadata
  rw [show t.layout.dims = bd ++ [n, n] from hd, linCheck_eq]
  simp only [Res.ok_bind, if_pos hdt]
  rfl

theorem traceWith_of_cpu {zero : A} {add : A → A → A} {up : α → A} {down : A → α} {dt : DType} (hdt : dt ∈ linArms)
    {t : Tensor α} {y : Tensor A} (h : (Spec.mapped up t).trace zero add = .ok y)
    (hb : y.storage.length ≤ 2 ^ 32 - 1) : Yields (traceWith 4 zero add up down dt t) (Spec.mapped down y) := by
  unfold Tensor.trace at h
  obtain ⟨md, hmd, h⟩ := Res.bind_eq_ok.mp h
  obtain ⟨s, hs, h⟩ := Res.bind_eq_ok.mp h
  injection h with h
  subst h
  unfold traceKernel at hs
  obtain ⟨m, hm, hs⟩ := Res.bind_eq_ok.mp hs
  obtain ⟨out, ho, hs⟩ := Res.bind_eq_ok.mp hs
  split at hs
  case isFalse => cases hs
  rename_i hle
  injection hs with hs
  subst hs
  obtain ⟨hB, hN⟩ := lin_decode hmd hm
  have hlen : out.length = m.batch := by simpa using (Res.mapL_ok_inv ho).1
  have hsz : out.length = shapeSize (linOutDims t.dims) := by
    rw [hlen, hB]
    exact linBatch_size (by rw [hlen, hB] at hle; exact hle)
  refine ⟨rfl, _, ?_, fun buf hbuf => onceLoop_all (n := m.batch) (by rw [← hlen]; exact hb) (runLoop_map down ho) ?_⟩
  · unfold traceWith traceLoopOf
    rw [show linMetadata t.layout = .ok md from hmd, Res.ok_bind, if_pos hdt, hm]
    simp only [launchArgs, Res.ok_bind, Spec.mapped, List.length_map, ← hsz, hlen]
    rfl
  · rw [hbuf]
    simpa [Spec.mapped] using hlen

/-- **C116, trace with the missing argument**: were the number of matrices passed as well, the launch would compute the
traces, for matrices of any size. -/
theorem C116_trace_partial [AddCommMonoid A] (up : α → A) (down : A → α) {dt : DType} (hdt : dt ∈ linArms)
    {t : Tensor α} {bd : List Nat} {n : Nat} (ht : t.WF) (hd : t.dims = bd ++ [n, n]) (hne : ∀ d ∈ bd, d ≠ 0)
    (hb : numel bd ≤ 2 ^ 32 - 1) :
    ∃ y, Yields (traceWith 4 0 (· + ·) up down dt t) y ∧ y.WF ∧ y.dims = perMatrix bd ∧
      ∀ b (M : Matrix (Fin n) (Fin n) A), InRange b bd → MatrixAt (Spec.mapped up t) b M →
        y.elem (perMatrixIndex bd b) = some (down M.trace) := by
  obtain ⟨y, h1, h2, h3, h4⟩ := C68_trace_partial (mapped_wf up ht) (bd := bd) (n := n) hd hne
  have hlen : y.storage.length ≤ numel y.dims := by
    have h := h1
    unfold Tensor.trace at h
    obtain ⟨md, _, h⟩ := Res.bind_eq_ok.mp h
    obtain ⟨s, hs, h⟩ := Res.bind_eq_ok.mp h
    injection h with h
    subst h
    unfold traceKernel at hs
    obtain ⟨m, _, hs⟩ := Res.bind_eq_ok.mp hs
    obtain ⟨out, _, hs⟩ := Res.bind_eq_ok.mp hs
    split at hs
    case isFalse => cases hs
    rename_i hle
    injection hs with hs
    subst hs
    rw [shapeSize_eq] at hle
    exact hle
  refine ⟨_, traceWith_of_cpu hdt h1 ?_, mapped_wf down h2, h3, ?_⟩
  · rw [h3, numel_perMatrix] at hlen
    omega
  · intro b M hb hM
    rw [mapped_elem, h4 b M hb hM]
    rfl

/-! ## Types and precision -/

/-- **C116, types**: the kernels are compiled for fourteen types (ops_linalg.cu:144-157, 323-336, 391-404), ten of which are
refused. -/
theorem C116_types (o : Arith A) (up : α → A) (down : A → α) {dt : DType} (hdt : dt ∉ linArms) (t : Tensor α)
    (junk : Nat → α) :
    (∀ l, detCuda o up down dt t ≠ .ok l) ∧ (∀ l, invCuda o up down dt junk t ≠ .ok l) ∧
      ∀ zero add l, traceCuda zero add up down dt t ≠ .ok l := by
  refine ⟨fun l h => ?_, fun l h => ?_, fun zero add l h => ?_⟩
  · unfold detCuda at h
    obtain ⟨md, _, h⟩ := Res.bind_eq_ok.mp h
    rw [if_neg hdt] at h
    cases h
  · unfold invCuda at h
    obtain ⟨md, _, h⟩ := Res.bind_eq_ok.mp h
    rw [if_neg hdt] at h
    cases h
  · unfold traceCuda traceWith at h
    obtain ⟨md, _, h⟩ := Res.bind_eq_ok.mp h
    rw [if_neg hdt] at h
    cases h

/-- **C116, doubles pass through `float`**: the determinant of the 1 × 1 matrix that holds the double next to 1 is 1,
whatever the arithmetic (`0x3FF0000000000001` is `1 + 2⁻⁵²`). -/
theorem C116_double_false (o : Arith Nat) :
    Yields (detCuda o Cast.doubleToFloat Cast.floatToDouble .f64 ⟨[0x3FF0000000000001], Layout.fromShape [1, 1]⟩)
      ⟨[0x3FF0000000000000], Layout.fromShape [1]⟩ := by
  have e1 : Cast.doubleToFloat 0x3FF0000000000001 = 0x3F800000 := by decide +kernel
  have e2 : Cast.floatToDouble 0x3F800000 = 0x3FF0000000000000 := by decide +kernel
  refine ⟨rfl, onceLoop 1 fun tid => (detOneCuda o ([0x3FF0000000000001].map Cast.doubleToFloat)
    ⟨1, 1, [1, 1], [1, 1], 0, 1, 1⟩ (linBatchOffset ⟨1, 1, [1, 1], [1, 1], 0, 1, 1⟩ tid)).map Cast.floatToDouble, rfl,
    fun buf hb => onceLoop_all (by decide) ?_ hb⟩
  rw [List.map_singleton, e1]
  show Res.ok [Cast.floatToDouble 0x3F800000] = _
  rw [e2]

/-! ## The full statement -/

/-- **C116** (full statement, exact arithmetic, elements not converted): for every well-formed batch of square matrices,
whatever the schedule, det gives the determinants, inv the inverses of invertible matrices, and trace the sums of the
diagonals. -/
def C116_full : Prop :=
  ∀ (t : Tensor ℚ) (bd : List Nat) (n : Nat), t.WF → t.dims = bd ++ [n, n] → numel bd ≤ 2 ^ 32 - 256 →
    (∃ y, Yields (detCuda ratArith id id .f32 t) y ∧
      ∀ b (M : Matrix (Fin n) (Fin n) ℚ), InRange b bd → MatrixAt t b M → y.elem (perMatrixIndex bd b) = some M.det) ∧
    ((∀ b (M : Matrix (Fin n) (Fin n) ℚ), InRange b bd → MatrixAt t b M → M.det ≠ 0) →
      ∃ y, Spec.Leaves (invCuda ratArith id id .f32 (fun _ => 0) t) y ∧
        ∀ b (M : Matrix (Fin n) (Fin n) ℚ), InRange b bd → MatrixAt t b M →
          ∃ N : Matrix (Fin n) (Fin n) ℚ, MatrixAt y b N ∧ N * M = 1) ∧
    (∃ y, Yields (traceCuda 0 (· + ·) id id .f32 t) y ∧
      ∀ b (M : Matrix (Fin n) (Fin n) ℚ), InRange b bd → MatrixAt t b M → y.elem (perMatrixIndex bd b) = some M.trace)

/-- C116 is false of all three: the batch without matrices is one matrix for the kernels of det and inv, a matrix of 17
rows overruns the local arrays, and trace is launched without one of its arguments. -/
theorem C116_full_false : ¬ C116_full ∧
    (∀ y, ¬ Yields (detCuda ratArith id id .f32 ⟨List.replicate 289 0, Layout.fromShape [17, 17]⟩) y) ∧
    (∀ y, ¬ Spec.Leaves (invCuda ratArith id id .f32 (fun _ => 0) ⟨List.replicate 289 0, Layout.fromShape [17, 17]⟩) y) ∧
    (∀ y, ¬ Yields (detCuda ratArith id id .f32 ⟨[], Layout.fromShape [0, 2, 2]⟩) y) ∧
    (∀ y, ¬ Yields (traceCuda 0 (· + ·) id id .f32 (⟨[1], Layout.fromShape [1, 1]⟩ : Tensor ℚ)) y) := by
  have hwf : (⟨List.replicate 289 0, Layout.fromShape [17, 17]⟩ : Tensor ℚ).WF := fresh_wf (by rw [List.length_replicate]; rfl)
  have htr : ∀ y, ¬ Yields (traceCuda 0 (· + ·) id id .f32 (⟨[1], Layout.fromShape [1, 1]⟩ : Tensor ℚ)) y := by
    rintro y ⟨_, k, h, _⟩
    rw [C116_trace_ub (n := 1) (bd := []) _ _ _ _ (by decide) rfl] at h
    cases h
  refine ⟨fun h => ?_, ?_, ?_, ?_, htr⟩
  · obtain ⟨_, _, y, h, _⟩ := h ⟨[1], Layout.fromShape [1, 1]⟩ [] 1 (fresh_wf rfl) rfl (by decide)
    exact htr y h
  · rintro y ⟨_, k, h, hc⟩
    obtain ⟨l, h1, h2⟩ := C116_det_large ratArith id id (dt := .f32) (by decide) hwf (bd := []) (n := 17) rfl (by decide)
    rw [h1] at h
    injection h with h
    subst h
    obtain ⟨s, hs, _⟩ := (hc y.storage rfl).1 [0]
    rw [show Loop.exec k y.storage [0] = .ub from h2 y.storage] at hs
    cases hs
  · rintro y ⟨L, M, h, hE, _⟩
    obtain ⟨l, h1, h2⟩ := C116_inv_large ratArith id id (dt := .f32) (by decide) (fun _ => 0) hwf (bd := []) (n := 17) rfl
      (by decide)
    rw [h1] at h
    injection h with h
    subst h
    obtain ⟨s, hs, _⟩ := hE.1 [0, 0]
    rw [h2] at hs
    cases hs
  · rintro y ⟨_, k, h, hc⟩
    have h1 : detCuda ratArith id id .f32 ⟨[], Layout.fromShape [0, 2, 2]⟩ =
        .ok ⟨onceLoop 1 fun tid => (detOneCuda ratArith (([] : List ℚ).map id) ⟨1, 2, [0, 2, 2], [4, 2, 1], 0, 2, 1⟩
          (linBatchOffset ⟨1, 2, [0, 2, 2], [4, 2, 1], 0, 2, 1⟩ tid)).map id, 0, [0]⟩ := rfl
    rw [h1] at h
    injection h with h
    injection h with h2 _ _
    subst h2
    obtain ⟨s, hs, _⟩ := (hc y.storage rfl).1 [0]
    rw [onceLoop_ub (by decide) rfl] at hs
    cases hs

/-! ## Examples -/

/-- Two transposed 2 × 2 matrices meet the hypotheses of `C116_det_partial`, `C116_inv_partial` and
`C116_trace_partial`. -/
example : ∃ t : Tensor ℚ, t.WF ∧ t.dims = [2] ++ [2, 2] ∧ (∀ d ∈ [2], d ≠ 0) ∧ numel [2] ≤ 2 ^ 32 - 256 ∧
    Yields (detCuda ratArith id id .f32 t) ⟨[-2, 2], Layout.fromShape [2]⟩ ∧
    Spec.Leaves (invCuda ratArith id id .f32 (fun _ => 7) t)
      ⟨[-2, 1, 3 / 2, -1 / 2, 1 / 2, -5 / 2, 0, 1], Layout.fromShape [2, 2, 2]⟩ ∧
    Yields (traceWith 4 0 (· + ·) id id .f32 t) ⟨[5, 3], Layout.fromShape [2]⟩ := by
  refine ⟨⟨[1, 3, 2, 4, 2, 0, 5, 1], ⟨[2, 2, 2], [4, 1, 2], 0⟩⟩, ⟨rfl, ?_⟩, rfl, by decide, by decide, ?_, ?_, ?_⟩
  · intro idx hi
    have : ∀ i < 2, ∀ j < 2, ∀ k < 2,
        ([1, 3, 2, 4, 2, 0, 5, 1] : List ℚ)[0 + dot [i, j, k] [4, 1, 2]]?.isSome := by decide
    match idx, hi with
    | [i, j, k], ⟨h1, h2, h3, _⟩ => exact this i h1 j h2 k h3
  · have h : (Spec.mapped id (⟨[1, 3, 2, 4, 2, 0, 5, 1], ⟨[2, 2, 2], [4, 1, 2], 0⟩⟩ : Tensor ℚ)).det ratArith =
        .ok ⟨[-2, 2], Layout.fromShape [2]⟩ := by decide +kernel
    exact C116_det_like_cpu (y := ⟨[-2, 2], Layout.fromShape [2]⟩) (down := id) (by decide) (by decide) h
      (fun n hn => by cases hn; decide) (by decide)
  · have h : (Spec.mapped id (⟨[1, 3, 2, 4, 2, 0, 5, 1], ⟨[2, 2, 2], [4, 1, 2], 0⟩⟩ : Tensor ℚ)).inv ratArith =
        .ok ⟨[-2, 1, 3 / 2, -1 / 2, 1 / 2, -5 / 2, 0, 1], Layout.fromShape [2, 2, 2]⟩ := by decide +kernel
    have := C116_inv_like_cpu (down := id) (dt := .f32) (by decide) (fun _ => 7) h (fun n hn => by cases hn; decide)
      (by decide)
    rw [show Spec.mapped id (⟨[-2, 1, 3 / 2, -1 / 2, 1 / 2, -5 / 2, 0, 1], Layout.fromShape [2, 2, 2]⟩ : Tensor ℚ) =
      ⟨[-2, 1, 3 / 2, -1 / 2, 1 / 2, -5 / 2, 0, 1], Layout.fromShape [2, 2, 2]⟩ from by simp [Spec.mapped]] at this
    exact this
  · have h : (Spec.mapped id (⟨[1, 3, 2, 4, 2, 0, 5, 1], ⟨[2, 2, 2], [4, 1, 2], 0⟩⟩ : Tensor ℚ)).trace 0 (· + ·) =
        .ok ⟨[5, 3], Layout.fromShape [2]⟩ := by decide +kernel
    exact traceWith_of_cpu (y := ⟨[5, 3], Layout.fromShape [2]⟩) (down := id) (by decide) h (by decide)

/-- A matrix of 17 rows meets the hypotheses of `C116_det_large` and `C116_inv_large`. -/
example : (⟨List.replicate 289 0, Layout.fromShape [17, 17]⟩ : Tensor ℚ).WF ∧ 16 < 17 ∧ DType.f16 ∈ linArms :=
  ⟨fresh_wf (by rw [List.length_replicate]; rfl), by decide, by decide⟩

end Hodu.Cuda
