import Verif.Lemmas.CudaOnce
import Verif.Props.Cumsum
import Verif.Props.TopK
import Verif.Props.CudaReduce

/-! # C111 cumsum and topk on CUDA -/

namespace Hodu.Cuda

open _root_.Hodu _root_.Hodu.Spec Cuda.Spec

variable {α B : Type}

/-! ## cumsum -/

theorem scanLineAcc_ok {add : B → α → B} {ret : B → α} {inp : List α} {ib is ob os : Nat} {x : Nat → α} :
    ∀ (fuel s : Nat) (acc : B), (∀ j, s ≤ j → j < s + fuel → inp[ib + j * is]? = some (x j)) →
      scanLineAcc add ret inp ib is ob os fuel s acc =
        .ok ((List.range fuel).map fun j =>
          ((bOut, ob + (s + j) * os), ret (((List.range' s (j + 1)).map x).foldl add acc))) := by
  intro fuel
  induction fuel with
  | zero => intro s acc _; rfl
  | succ fuel ih =>
    intro s acc h
    unfold scanLineAcc
    rw [readC_eq_ok.mpr (h s (Nat.le_refl _) (by omega)), Res.ok_bind, ih (s + 1) _ (fun j h1 h2 => h j (by omega) (by omega))]
    simp only [Res.map, List.range_succ_eq_map, List.map_cons, List.map_map, Function.comp_def]
    congr 2
    refine List.map_congr_left fun j _ => ?_
    rw [show s + 1 + j = s + (j + 1) by omega]
    rfl

theorem read_ofBuf_isSome {xs : List α} {a : Nat} : (Mem.ofBuf bOut xs (bOut, a)).isSome = true ↔ a < xs.length := by
  simp [Mem.ofBuf]

/-- The program of one thread of the kernel, `tid / inner_size` and `tid % inner_size` naming the line. -/
def scanProg (zero : B) (add : B → α → B) (ret : B → α) (t : Tensor α) (k n st : Nat) (tid : Nat) : Prog α :=
  ofWrites (scanThread zero add ret t.storage (scanMetadata t.layout k) t.dims.length t.layout.offset k n st t.dims
    t.layout.strides (t.dims.take k) (tid / numel (t.dims.drop (k + 1))) (tid % numel (t.dims.drop (k + 1))))

/-- What the threads leave, on any grid with a thread per line and in any buffer that is long enough. -/
theorem scan_ends {t : Tensor α} {k n st : Nat} (zero : B) (add : B → α → B) (ret : B → α) (d : α) (ht : t.WF)
    (hkl : k < t.dims.length) (hn : t.dims[k]? = some n) (hst : t.layout.strides[k]? = some st) :
    ∃ f : Nat → α, (∀ (K : PKernel α) (m0 : Mem α),
        RunsOnce K (numel (t.dims.take k) * numel (t.dims.drop (k + 1))) (scanProg zero add ret t k n st) →
        (∀ p, p < numel t.dims → (m0 (bOut, p)).isSome = true) → Ends K m0 (m0.out (numel t.dims) f)) ∧
      ∀ idx, InRange idx t.dims → ∀ c, idx[k]? = some c → ∃ xs : List α,
        (List.range (c + 1)).map (fun s => t.elem (idx.set k s)) = xs.map some ∧
        f (rowMajor t.dims idx) = ret (xs.foldl add zero) := by
  have hsl : t.layout.strides.length = t.dims.length := ht.1
  have hot : (tailProds t.dims)[k]? = some ((tailProds t.dims)[k]'(by rw [tailProds_length]; exact hkl)) :=
    List.getElem?_eq_getElem _
  generalize (tailProds t.dims)[k]'_ = os at hot
  generalize hmd : (t.layout.size :: t.dims.length :: (t.dims ++ (t.layout.strides ++
    [t.layout.offset, k]))) = md
  have hmeta : scanMetadata t.layout k = md := by
    rw [← hmd]; simp [scanMetadata, Layout.ndim]
  have a0 : At md 0 (t.layout.size :: t.dims.length :: (t.dims ++ (t.layout.strides ++
    [t.layout.offset, k]))) := by rw [hmd]; exact At.start md
  have a1 := a0.next 1 rfl
  have a2 := a1.next 2 rfl
  have a3 := a2.skip rfl (2 + t.dims.length) rfl
  have a4 := a3.skip hsl (2 + 2 * t.dims.length) (by omega)
  have a5 := a4.next (3 + 2 * t.dims.length) (by omega)
  have b2 : At md 2 (t.dims.take k ++ (n :: (t.dims.drop (k + 1) ++ (t.layout.strides ++
      [t.layout.offset, k])))) := by
    rw [show t.dims.take k ++ (n :: (t.dims.drop (k + 1) ++ (t.layout.strides ++ [t.layout.offset, k]))) =
      (t.dims.take k ++ n :: t.dims.drop (k + 1)) ++ (t.layout.strides ++ [t.layout.offset, k]) by simp,
      ← split_at hn]
    exact a2
  have hpl : (t.dims.take k).length = k := by simp; omega
  have b3 := b2.skip hpl (2 + k) rfl
  have c3 : At md (2 + t.dims.length) (t.layout.strides.take k ++ (st :: (t.layout.strides.drop (k + 1) ++
      [t.layout.offset, k]))) := by
    rw [show t.layout.strides.take k ++ (st :: (t.layout.strides.drop (k + 1) ++ [t.layout.offset, k])) =
      (t.layout.strides.take k ++ st :: t.layout.strides.drop (k + 1)) ++ [t.layout.offset, k] by simp,
      ← split_at hst]
    exact a3
  have hsp : (t.layout.strides.take k).length = k := by simp; omega
  have c4 := c3.skip hsp (2 + t.dims.length + k) rfl
  let x : List Nat → α := fun idx => (t.elem idx).getD (d)
  have hcell : ∀ o, o < numel (t.dims.take k) → ∀ i, i < numel (t.dims.drop (k + 1)) →
      scanThread zero add ret t.storage md t.dims.length t.layout.offset k n st t.dims t.layout.strides
        (t.dims.take k) o i = .ok ((List.range n).map fun s =>
          ((bOut, rowMajor t.dims (cUnravelUp (t.dims.take k) o ++ s :: unravel (t.dims.drop (k + 1)) i)),
           ret (((List.range (s + 1)).map fun s' => x (cUnravelUp (t.dims.take k) o ++
              s' :: unravel (t.dims.drop (k + 1)) i)).foldl add zero))) := by
    intro o ho i hi
    have ha := cUnravelUp_inRange ho
    have hb := unravel_inRange hi
    have hal : (cUnravelUp (t.dims.take k) o).length = k := by rw [ha.length]; exact hpl
    unfold scanThread
    by_cases hz : n = 0
    · subst hz; simp
    · rw [if_neg hz, c3.slice hsp, Res.ok_bind]
      have e1 : sliceC (tailProds t.dims) 0 k = .ok ((tailProds t.dims).take k) := by
        unfold sliceC
        rw [if_pos (by rw [tailProds_length]; omega)]
        simp
      have e2 : (cUnravel (t.dims.drop (k + 1)) i).1 = unravel (t.dims.drop (k + 1)) i := by
        rw [cUnravel_eq, Nat.mod_eq_of_lt hi]
      simp only [e1, Res.ok_bind, readC_eq_ok.mpr hot, e2]
      rw [scanLineAcc_ok (x := fun s => x (cUnravelUp (t.dims.take k) o ++
              s :: unravel (t.dims.drop (k + 1)) i))]
      · congr 1
        apply List.map_congr_left
        intro s hs
        rw [List.range_eq_range', Nat.zero_add]
        congr 2
        rw [cFlat_eq, cFlat_eq, ← dot_tailProds, dot_split hot hal]
        omega
      · intro s _ hs
        obtain ⟨y, hy⟩ := ht.get (inRange_join hn ha hb (s := s) (by omega))
        simp only [x, hy, Option.getD_some]
        rw [← hy]
        unfold Tensor.elem
        rw [dot_split hst hal, cFlat_eq, cFlat_eq]
        congr 1
        omega
  let cells : Nat → List (Addr × α) := fun tid => (List.range n).map fun s =>
      ((bOut, rowMajor t.dims (cUnravelUp (t.dims.take k) (tid / numel (t.dims.drop (k + 1))) ++
        s :: unravel (t.dims.drop (k + 1)) (tid % numel (t.dims.drop (k + 1))))),
       ret (((List.range (s + 1)).map fun s' => x (cUnravelUp (t.dims.take k) (tid / numel (t.dims.drop (k + 1))) ++
          s' :: unravel (t.dims.drop (k + 1)) (tid % numel (t.dims.drop (k + 1))))).foldl add zero))
  let f : Nat → α := fun p =>
    ret (((List.range ((unravel t.dims p).getD k 0 + 1)).map fun s => x ((unravel t.dims p).set k s)).foldl add zero)
  have hset : ∀ (a b : List Nat) (s s' : Nat), a.length = k → (a ++ s :: b).set k s' = a ++ s' :: b := by
    intro a b s s' ha
    rw [← ha, List.set_append_right _ _ (Nat.le_refl _)]
    simp
  have hgetk : ∀ (a b : List Nat) (s : Nat), a.length = k → (a ++ s :: b).getD k 0 = s := by
    intro a b s ha
    rw [← ha]; simp
  have htid : ∀ tid, tid < numel (t.dims.take k) * numel (t.dims.drop (k + 1)) →
      tid / numel (t.dims.drop (k + 1)) < numel (t.dims.take k) ∧
      tid % numel (t.dims.drop (k + 1)) < numel (t.dims.drop (k + 1)) := by
    intro tid h
    have : 0 < numel (t.dims.drop (k + 1)) := by
      rcases Nat.eq_zero_or_pos (numel (t.dims.drop (k + 1))) with h0 | h0
      · rw [h0, Nat.mul_zero] at h; omega
      · exact h0
    exact ⟨Nat.div_lt_of_lt_mul (by rw [Nat.mul_comm]; exact h), Nat.mod_lt _ this⟩
  have hgood : ∀ tid, tid < numel (t.dims.take k) * numel (t.dims.drop (k + 1)) → ∀ w ∈ cells tid,
      ∃ p, p < numel t.dims ∧ w = ((bOut, p), f p) := by
    intro tid h w hw
    obtain ⟨ho, hi⟩ := htid tid h
    simp only [cells, List.mem_map, List.mem_range] at hw
    obtain ⟨s, hs, rfl⟩ := hw
    have ha := cUnravelUp_inRange ho
    have hb := unravel_inRange hi
    have hal : (cUnravelUp (t.dims.take k) (tid / numel (t.dims.drop (k + 1)))).length = k := by
      rw [ha.length]; exact hpl
    have hj := inRange_join hn ha hb hs
    refine ⟨_, rowMajor_lt hj, ?_⟩
    simp only [f, unravel_rowMajor hj, hgetk _ _ _ hal, hset _ _ _ _ hal]
  have hcov : ∀ p, p < numel t.dims → ∃ tid, tid < numel (t.dims.take k) * numel (t.dims.drop (k + 1)) ∧
      ∃ c ∈ cells tid, c.1 = (bOut, p) := by
    intro p hp
    obtain ⟨a, s, b, e, hal, hs, ha, hb⟩ := inRange_split hn (unravel_inRange hp)
    obtain ⟨o, ho, hoa⟩ := cUnravelUp_surj ha
    have hib := rowMajor_lt hb
    have e1 : (o * numel (t.dims.drop (k + 1)) + rowMajor (t.dims.drop (k + 1)) b) / numel (t.dims.drop (k + 1)) = o := by
      rw [Nat.mul_comm, Nat.mul_add_div (by omega), Nat.div_eq_of_lt hib]; rfl
    have e2 : (o * numel (t.dims.drop (k + 1)) + rowMajor (t.dims.drop (k + 1)) b) % numel (t.dims.drop (k + 1)) =
        rowMajor (t.dims.drop (k + 1)) b := by
      rw [Nat.mul_comm, Nat.mul_add_mod, Nat.mod_eq_of_lt hib]
    refine ⟨o * numel (t.dims.drop (k + 1)) + rowMajor (t.dims.drop (k + 1)) b, ?_, ?_⟩
    · have := Nat.mul_le_mul_right (numel (t.dims.drop (k + 1))) (show o + 1 ≤ numel (t.dims.take k) from ho)
      rw [Nat.add_mul] at this
      omega
    · simp only [cells, e1, e2, hoa, unravel_rowMajor hb]
      refine ⟨_, List.mem_map.mpr ⟨s, List.mem_range.mpr hs, rfl⟩, ?_⟩
      rw [← e, rowMajor_unravel hp]
  refine ⟨f, fun K m0 hK hm0 => stores_once hK (cells := cells) (G := fun a => f a.2) ?_ ?_ ?_ ?_, ?_⟩
  · intro tid h
    obtain ⟨ho, hi⟩ := htid tid h
    unfold scanProg
    rw [hmeta, hcell _ ho _ hi]
    rfl
  · intro tid h c hc
    obtain ⟨p, hp, rfl⟩ := hgood tid h c hc
    exact ⟨hm0 p hp, rfl⟩
  · intro tid h c hc
    obtain ⟨p, hp, rfl⟩ := hgood tid h c hc
    simp [Mem.out, hp]
  · intro a ha
    obtain ⟨b, p⟩ := a
    unfold Mem.out
    dsimp only
    split_ifs with h1
    · obtain ⟨rfl, h2⟩ := h1
      obtain ⟨tid, h, c, hc, e⟩ := hcov p h2
      exact absurd e.symm (ha tid h c hc)
    · rfl
  · intro idx hi c hc
    obtain ⟨a, s, b, rfl, hal, hs, ha, hb⟩ := inRange_split hn hi
    have hcs : c = s := by
      rw [← hal] at hc; simp at hc; exact hc.symm
    subst hcs
    refine ⟨(List.range (c + 1)).map fun s' => x (a ++ s' :: b), ?_, ?_⟩
    · rw [List.map_map]
      apply List.map_congr_left
      intro s' hs'
      rw [List.mem_range] at hs'
      rw [hset _ _ _ _ hal]
      obtain ⟨y, hy⟩ := ht.get (inRange_join hn ha hb (s := s') (by omega))
      simp [x, hy]
    · simp only [f, unravel_rowMajor hi, hgetk _ _ _ hal, hset _ _ _ _ hal]

/-- C111, cumulative sums (rank at most 16, the size of an array in the kernel, and a number of lines that the
grid can count): for every layout and every schedule, the element at an index is the converted fold, in the
type of the accumulator, of the source elements with the same other coordinates and a coordinate on the axis from 0
up to the index's own. -/
theorem C111_cumsum_partial {t : Tensor α} {dim : Int} {k n : Nat} (zero : B) (add : B → α → B) (ret : B → α)
    {dt : DType} (junk : Nat → α) (ht : t.WF) (hr : t.dims.length ≤ 16) (hk : IsAxis t.dims.length dim k)
    (hn : t.dims[k]? = some n) (hdt : dt ≠ .bool)
    (hgrid : numel (t.dims.take k) * numel (t.dims.drop (k + 1)) ≤ 2 ^ 32 - 256) :
    ∃ L M r, cumsumCuda zero add ret dt junk t dim = .ok L ∧ Ends L.kernel L.mem M ∧
      r = (⟨M.read bOut L.len, Layout.fromShape L.dims⟩ : Tensor α) ∧ r.dims = t.dims ∧ r.WF ∧
      ∀ idx, InRange idx t.dims → ∀ c, idx[k]? = some c → ∃ xs : List α,
        (List.range (c + 1)).map (fun s => t.elem (idx.set k s)) = xs.map some ∧
        r.elem idx = some (ret (xs.foldl add zero)) := by
  have hax : axisUsize t.dims.length dim = k := axisUsize_eq hk (by omega)
  have hkl : k < t.dims.length := hk.1
  have hsl : t.layout.strides.length = t.dims.length := ht.1
  obtain ⟨st, hst⟩ : ∃ st, t.layout.strides[k]? = some st :=
    ⟨_, List.getElem?_eq_getElem (by omega)⟩
  have hot : (tailProds t.dims)[k]? = some ((tailProds t.dims)[k]'(by rw [tailProds_length]; exact hkl)) :=
    List.getElem?_eq_getElem _
  generalize (tailProds t.dims)[k]'_ = os at hot
  generalize hmd : (t.layout.size :: t.dims.length :: (t.dims ++ (t.layout.strides ++
    [t.layout.offset, k]))) = md
  have hmeta : scanMetadata t.layout k = md := by
    rw [← hmd]; simp [scanMetadata, Layout.ndim]
  have a0 : At md 0 (t.layout.size :: t.dims.length :: (t.dims ++ (t.layout.strides ++
    [t.layout.offset, k]))) := by rw [hmd]; exact At.start md
  have a1 := a0.next 1 rfl
  have a2 := a1.next 2 rfl
  have a3 := a2.skip rfl (2 + t.dims.length) rfl
  have a4 := a3.skip hsl (2 + 2 * t.dims.length) (by omega)
  have a5 := a4.next (3 + 2 * t.dims.length) (by omega)
  have b2 : At md 2 (t.dims.take k ++ (n :: (t.dims.drop (k + 1) ++ (t.layout.strides ++
      [t.layout.offset, k])))) := by
    rw [show t.dims.take k ++ (n :: (t.dims.drop (k + 1) ++ (t.layout.strides ++ [t.layout.offset, k]))) =
      (t.dims.take k ++ n :: t.dims.drop (k + 1)) ++ (t.layout.strides ++ [t.layout.offset, k]) by simp,
      ← split_at hn]
    exact a2
  have hpl : (t.dims.take k).length = k := by simp; omega
  have b3 := b2.skip hpl (2 + k) rfl
  have c3 : At md (2 + t.dims.length) (t.layout.strides.take k ++ (st :: (t.layout.strides.drop (k + 1) ++
      [t.layout.offset, k]))) := by
    rw [show t.layout.strides.take k ++ (st :: (t.layout.strides.drop (k + 1) ++ [t.layout.offset, k])) =
      (t.layout.strides.take k ++ st :: t.layout.strides.drop (k + 1)) ++ [t.layout.offset, k] by simp,
      ← split_at hst]
    exact a3
  have hsp : (t.layout.strides.take k).length = k := by simp; omega
  have c4 := c3.skip hsp (2 + t.dims.length + k) rfl
  obtain ⟨f, hE, hf⟩ := scan_ends zero add ret (junk 0) ht hkl hn hst
  let m0 : Mem α := Mem.ofBuf bOut ((List.range t.layout.size).map junk)
  have hsz : t.layout.size = numel t.dims := shapeSize_eq _
  have hm0 : ∀ a, a < numel t.dims → (m0 (bOut, a)).isSome = true := by
    intro a ha
    rw [← hsz] at ha
    simp [m0, Mem.ofBuf, ha]
  let L : PLaunched α :=
    { kernel := progOnce (numel (t.dims.take k) * numel (t.dims.drop (k + 1))) (scanProg zero add ret t k n st),
      mem := m0, len := t.layout.size, dims := t.dims }
  refine ⟨L, m0.out (numel t.dims) f, ⟨(List.range (numel t.dims)).map f, Layout.fromShape t.dims⟩, ?_,
    hE L.kernel m0 (progOnce_runs hgrid _) hm0, ?_, rfl, fresh_wf (by simp), ?_⟩
  · unfold cumsumCuda cumsumKernelCuda
    rw [if_neg hdt, hax, hmeta, a1.read, Res.ok_bind, a2.slice rfl, Res.ok_bind, a3.slice hsl, Res.ok_bind, a4.read,
      Res.ok_bind, a5.read, Res.ok_bind, if_neg (by omega), if_neg (by omega), if_neg (by omega)]
    simp only [b3.read, Res.ok_bind, c4.read, shapeSize_eq]
    simp only [L, ← hmeta]
    rfl
  · show _ = (⟨(m0.out (numel t.dims) f).read bOut t.layout.size, _⟩ : Tensor α)
    rw [hsz, read_out]
  · intro idx hi c hc
    obtain ⟨xs, h1, h2⟩ := hf idx hi c hc
    refine ⟨xs, h1, ?_⟩
    rw [Layout.fromShape, elem_rowMajor, Nat.zero_add, List.getElem?_map, List.getElem?_range (rowMajor_lt hi),
      Option.map_some, h2]

/-- A transposed 2×3 matrix whose sums are accumulated in a wider type: rows of the result under every schedule. -/
example : ∃ L M r, cumsumCuda (0 : Int) (fun acc x => acc + 2 * x) (fun acc => acc / 2) .f16 (fun _ => 77) exSel (-1) = .ok L ∧
    Ends L.kernel L.mem M ∧ r = (⟨M.read bOut L.len, Layout.fromShape L.dims⟩ : Tensor Int) ∧ r.elem [2, 1] = some 9 := by
  obtain ⟨L, M, r, h1, h2, h3, _, _, h4⟩ := C111_cumsum_partial (t := exSel) (dim := -1) (k := 1) (n := 2) (0 : Int)
    (fun acc x => acc + 2 * x) (fun acc => acc / 2) (dt := .f16) (fun _ => 77)
    exSel_wf (by decide) (by unfold IsAxis; decide) rfl (by decide) (by decide)
  obtain ⟨xs, h5, h6⟩ := h4 [2, 1] (by decide) 1 rfl
  refine ⟨L, M, r, h1, h2, h3, ?_⟩
  have : xs = [3, 6] := by
    have h7 : [some (3 : Int), some 6] = xs.map some := h5
    match xs, h7 with
    | [x, y], h7 => simp at h7; simp [h7]
  rw [h6, this]
  rfl

/-- A scalar is copied. -/
theorem C111_cumsum_scalar {t : Tensor α} {dt : DType} {v : α} (zero : B) (add : B → α → B) (ret : B → α) (junk : Nat → α)
    (hd : t.dims = []) (hsl : t.layout.strides = []) (hv : t.elem [] = some v) (hdt : dt ≠ .bool) :
    ∃ L M, cumsumCuda zero add ret dt junk t 0 = .ok L ∧ Ends L.kernel L.mem M ∧ L.dims = [] ∧
      M.read bOut L.len = [v] := by
  obtain ⟨s, ⟨d, st, o⟩⟩ := t
  have hd : d = [] := hd
  have hsl : st = [] := hsl
  subst hd
  subst hsl
  have hv : s[o]? = some v := by simpa [Tensor.elem, dot] using hv
  have e : readC s o = .ok v := readC_eq_ok.mpr hv
  let L : PLaunched α :=
    { kernel := progOnce 1 fun _ => ofWrites ((readC s o).map fun v => [((bOut, 0), v)]),
      mem := Mem.ofBuf bOut [junk 0], len := 1, dims := [] }
  refine ⟨L, (Mem.ofBuf bOut [junk 0]).out 1 fun _ => v, ?_,
    once_ends (n := 1) (cells := fun _ => [((bOut, 0), v)]) (G := fun _ => v) (m0 := Mem.ofBuf bOut [junk 0])
      (prog := fun _ => ofWrites ((readC s o).map fun v => [((bOut, 0), v)])) (by decide) ?_ ?_ ?_ ?_, rfl, ?_⟩
  · unfold cumsumCuda
    rw [if_neg hdt]
    rfl
  · intro i _
    rw [e]
    rfl
  · intro i _ c hc
    rw [List.mem_singleton] at hc
    subst hc
    exact ⟨rfl, rfl⟩
  · intro i _ c hc
    rw [List.mem_singleton] at hc
    subst hc
    rfl
  · intro a ha
    obtain ⟨b, p⟩ := a
    have hne := ha 0 (by omega) _ (List.mem_singleton.mpr rfl)
    unfold Mem.out
    dsimp only
    split_ifs with h1
    · obtain ⟨rfl, h2⟩ := h1
      refine absurd ?_ hne
      rw [show p = 0 by omega]
    · rfl
  · exact read_out _ 1 _

example : ∃ L M, cumsumCuda 0 (· + ·) id .i32 (fun _ => 9) (⟨[4, 7], ⟨[], [], 1⟩⟩ : Tensor Int) 0 = .ok L ∧
    Ends L.kernel L.mem M ∧ L.dims = [] ∧ M.read bOut L.len = [7] :=
  C111_cumsum_scalar 0 (· + ·) id (fun _ => 9) rfl rfl rfl (by decide)

/-- `bool` tensors and dimensions beyond the rank abort the process instead of returning an error; from 17
dimensions on an array of the kernel overflows. -/
theorem C111_cumsum_fails (zero : B) (add : B → α → B) (ret : B → α) (junk : Nat → α) {t : Tensor α} {dim : Int}
    {dt : DType} (hsl : t.layout.strides.length = t.dims.length) :
    cumsumCuda zero add ret .bool junk t dim = .panic ∧
    (dt ≠ .bool → t.dims.length < axisUsize t.dims.length dim → cumsumCuda zero add ret dt junk t dim = .panic) ∧
    (dt ≠ .bool → axisUsize t.dims.length dim ≤ t.dims.length → 16 < t.dims.length →
      cumsumCuda zero add ret dt junk t dim = .ub) := by
  generalize hk : axisUsize t.dims.length dim = k
  generalize hmd : (t.layout.size :: t.dims.length :: (t.dims ++ (t.layout.strides ++
    [t.layout.offset, k]))) = md
  have hmeta : scanMetadata t.layout k = md := by
    rw [← hmd]; simp [scanMetadata, Layout.ndim]
  have a0 : At md 0 (t.layout.size :: t.dims.length :: (t.dims ++ (t.layout.strides ++
    [t.layout.offset, k]))) := by rw [hmd]; exact At.start md
  have a1 := a0.next 1 rfl
  have a2 := a1.next 2 rfl
  have a3 := a2.skip rfl (2 + t.dims.length) rfl
  have a4 := a3.skip hsl (2 + 2 * t.dims.length) (by omega)
  have a5 := a4.next (3 + 2 * t.dims.length) (by omega)
  refine ⟨rfl, fun hdt h => ?_, fun hdt h h16 => ?_⟩
  · unfold cumsumCuda cumsumKernelCuda
    rw [if_neg hdt, hk, hmeta, a1.read, Res.ok_bind, a2.slice rfl, Res.ok_bind, a3.slice hsl, Res.ok_bind, a4.read,
      Res.ok_bind, a5.read, Res.ok_bind, if_pos h]
    rfl
  · unfold cumsumCuda cumsumKernelCuda
    rw [if_neg hdt, hk, hmeta, a1.read, Res.ok_bind, a2.slice rfl, Res.ok_bind, a3.slice hsl, Res.ok_bind, a4.read,
      Res.ok_bind, a5.read, Res.ok_bind, if_neg (by omega), if_neg (by omega), if_pos h16]
    rfl

/-- `axisUsize` of 2 on a vector is 2. -/
example : cumsumCuda 0 (· + ·) id .i32 (fun _ => 9) (⟨[4, 7], Layout.fromShape [2]⟩ : Tensor Int) 2 = .panic :=
  (C111_cumsum_fails 0 (· + ·) id (fun _ => 9) (t := (⟨[4, 7], Layout.fromShape [2]⟩ : Tensor Int)) rfl).2.1
    (by decide) (by decide)

/-! ## The selection sort -/

section SelectionSort

variable {β : Type} {better : β → β → Bool}

theorem bestFrom_ok (sw : StrictWeakB better) {arr : List β} {i : Nat} (hi : i < arr.length) :
    ∃ b, bestFrom better arr i = .ok b ∧ i ≤ b ∧ b < arr.length ∧
      ∀ (q : Nat) y z, i ≤ q → arr[q]? = some y → arr[b]? = some z → better y z = false := by
  have key : ∀ (m s b : Nat), i ≤ b → b < s → s + m = arr.length →
      (∀ (q : Nat) y z, i ≤ q → q < s → arr[q]? = some y → arr[b]? = some z → better y z = false) →
      ∃ b', Res.foldL (fun b j => (readC arr j).bind fun x => (readC arr b).bind fun y =>
          .ok (if better x y then j else b)) b (List.range' s m) = .ok b' ∧ i ≤ b' ∧ b' < arr.length ∧
        ∀ (q : Nat) y z, i ≤ q → arr[q]? = some y → arr[b']? = some z → better y z = false := by
    intro m
    induction m with
    | zero =>
      intro s b h1 h2 h3 h4
      refine ⟨b, rfl, h1, by omega, fun q y z hq hy hz => ?_⟩
      refine h4 q y z hq ?_ hy hz
      by_contra hc
      rw [List.getElem?_eq_none (by omega)] at hy
      cases hy
    | succ m ih =>
      intro s b h1 h2 h3 h4
      have hs : s < arr.length := by omega
      have hb : b < arr.length := by omega
      rw [List.range'_succ, Res.foldL, readC_eq_ok.mpr (List.getElem?_eq_getElem hs), Res.ok_bind,
        readC_eq_ok.mpr (List.getElem?_eq_getElem hb), Res.ok_bind]
      by_cases hc : better arr[s] arr[b] = true
      · rw [if_pos hc]
        refine ih (s + 1) s (by omega) (by omega) (by omega) fun q y z hq hqs hy hz => ?_
        rw [List.getElem?_eq_getElem hs] at hz
        cases hz
        rcases Nat.lt_or_eq_of_le (Nat.le_of_lt_succ hqs) with h | rfl
        · exact sw.negTrans y arr[b] arr[s] (h4 q y _ hq h hy (List.getElem?_eq_getElem hb)) (StrictWeakB.asymm sw hc)
        · rw [List.getElem?_eq_getElem hs] at hy
          cases hy
          exact sw.irrefl _
      · rw [if_neg hc]
        refine ih (s + 1) b h1 (by omega) (by omega) fun q y z hq hqs hy hz => ?_
        rcases Nat.lt_or_eq_of_le (Nat.le_of_lt_succ hqs) with h | rfl
        · exact h4 q y z hq h hy hz
        · rw [List.getElem?_eq_getElem hs] at hy
          rw [List.getElem?_eq_getElem hb] at hz
          cases hy
          cases hz
          simpa using hc
  refine key (arr.length - (i + 1)) (i + 1) i (Nat.le_refl _) (by omega) (by omega) fun q y z hq hqs hy hz => ?_
  have : q = i := by omega
  subst this
  rw [hy] at hz
  cases hz
  exact sw.irrefl _

/-- The first `r` elements are in order and no later element is better than one of them. -/
def Front (better : β → β → Bool) (r : Nat) (arr : List β) : Prop :=
  ∀ (p q : Nat) x y, p < r → p < q → arr[p]? = some x → arr[q]? = some y → better y x = false

theorem selSort_ok (sw : StrictWeakB better) (arr : List β) : ∀ r, r ≤ arr.length →
    ∃ arr', selSort better arr r = .ok arr' ∧ arr'.Perm arr ∧ Front better r arr' := by
  intro r
  induction r with
  | zero => intro _; exact ⟨arr, rfl, List.Perm.refl _, fun p q x y h => by omega⟩
  | succ r ih =>
    intro hr
    obtain ⟨a, e, hp, hf⟩ := ih (by omega)
    have hl := hp.length_eq
    obtain ⟨b, e2, h1, h2, h3⟩ := bestFrom_ok sw (arr := a) (i := r) (by omega)
    have e3 : selSort better arr (r + 1) = selRound better a r := by
      unfold selSort at e ⊢
      rw [List.range_succ, foldL_append, e, Res.ok_bind]
      simp only [Res.foldL]
      cases selRound better a r <;> rfl
    rw [e3]
    unfold selRound
    rw [e2, Res.ok_bind]
    by_cases hb : b ≠ r
    · rw [if_pos hb]
      obtain ⟨a', s1, s2, s3, s4, s5⟩ := swapC_ok (arr := a) (i := r) (j := b) (by omega) h2
      refine ⟨a', s1, s2.trans hp, ?_⟩
      have from_ : ∀ (q : Nat) y, r ≤ q → a'[q]? = some y → ∃ q', r ≤ q' ∧ a[q']? = some y := by
        intro q y hq hy
        by_cases c1 : q = r
        · subst c1; exact ⟨b, h1, by rw [← s3]; exact hy⟩
        · by_cases c2 : q = b
          · subst c2; exact ⟨r, Nat.le_refl _, by rw [← s4]; exact hy⟩
          · exact ⟨q, hq, by rw [← s5 q c1 c2]; exact hy⟩
      intro p q x y hpr hpq hx hy
      rcases Nat.lt_or_eq_of_le (Nat.le_of_lt_succ hpr) with h | rfl
      · rw [s5 p (by omega) (by omega)] at hx
        by_cases hqr : q < r
        · rw [s5 q (by omega) (by omega)] at hy
          exact hf p q x y h hpq hx hy
        · obtain ⟨q', g1, g2⟩ := from_ q y (by omega) hy
          exact hf p q' x y h (by omega) hx g2
      · rw [s3] at hx
        obtain ⟨q', g1, g2⟩ := from_ q y (by omega) hy
        exact h3 q' y x g1 g2 hx
    · rw [if_neg hb]
      have hb : b = r := by simpa using hb
      subst hb
      refine ⟨a, rfl, hp, fun p q x y hpr hpq hx hy => ?_⟩
      rcases Nat.lt_or_eq_of_le (Nat.le_of_lt_succ hpr) with h | rfl
      · exact hf p q x y h hpq hx hy
      · exact h3 q y x (by omega) hy hx

end SelectionSort

theorem isTopK_of_sel {K : Type} [LinearOrder K] {key : α → K} {xs : List α} {d : α} {sel : List (K × Nat)} {k : Nat}
    {largest : Bool} (hp : sel.Perm ((List.range xs.length).map fun i => (key (xs.getD i d), i))) (hk : k ≤ xs.length)
    (hf : Front (topkBetter largest) k sel) :
    IsTopK key largest xs k ((sel.take k).map fun z => xs.getD z.2 d) ((sel.take k).map Prod.snd) ∧
      InOrder key largest ((sel.take k).map fun z => xs.getD z.2 d) ∧
      ∀ z ∈ sel, z.1 = key (xs.getD z.2 d) := by
  have hlen : sel.length = xs.length := by rw [hp.length_eq]; simp
  have hmem : ∀ z ∈ sel, z.2 < xs.length ∧ z.1 = key (xs.getD z.2 d) := by
    intro z hz
    obtain ⟨i, hi, rfl⟩ := List.mem_map.mp (hp.mem_iff.mp hz)
    exact ⟨List.mem_range.mp hi, rfl⟩
  have hnd : (sel.map Prod.snd).Nodup := by
    have : (sel.map Prod.snd).Perm (((List.range xs.length).map fun i => (key (xs.getD i d), i)).map Prod.snd) := hp.map _
    rw [this.nodup_iff, List.map_map]
    have : (Prod.snd ∘ fun i => (key (xs.getD i d), i)) = id := rfl
    rw [this, List.map_id]
    exact List.nodup_range
  have hall : ∀ j, j < xs.length → ∃ q : Nat, ∃ z, sel[q]? = some z ∧ z.2 = j := by
    intro j hj
    have : (key (xs.getD j d), j) ∈ sel := hp.mem_iff.mpr (List.mem_map.mpr ⟨j, List.mem_range.mpr hj, rfl⟩)
    obtain ⟨q, hq⟩ := List.mem_iff_getElem?.mp this
    exact ⟨q, _, hq, rfl⟩
  have htk : ∀ (p : Nat) z, (sel.take k)[p]? = some z ↔ p < k ∧ sel[p]? = some z := by
    intro p z
    rw [List.getElem?_take]
    split_ifs with h <;> simp [h]
  have hgd : ∀ (i : Nat) x, xs[i]? = some x → xs.getD i d = x := by
    intro i x h
    rw [List.getD_eq_getElem?_getD, h]; rfl
  refine ⟨⟨?_, ?_, ?_, ?_, ?_⟩, ?_, fun z hz => (hmem z hz).2⟩
  · simp; omega
  · rw [List.map_take]; exact hnd.sublist (List.take_sublist _ _)
  · intro i hi
    obtain ⟨z, hz, rfl⟩ := List.mem_map.mp hi
    exact (hmem z (List.mem_of_mem_take hz)).1
  · rw [List.map_map, List.map_map]
    refine List.map_congr_left fun z hz => ?_
    have h := (hmem z (List.mem_of_mem_take hz)).1
    simp [List.getElem?_eq_getElem h]
  · intro i j x y hi hj hx hy
    obtain ⟨z, hz, rfl⟩ := List.mem_map.mp hi
    obtain ⟨p, hz⟩ := List.mem_iff_getElem?.mp hz
    obtain ⟨hpk, hz⟩ := (htk p z).mp hz
    have hjl : j < xs.length := by
      by_contra hc
      rw [List.getElem?_eq_none (by omega)] at hy
      cases hy
    obtain ⟨q, w, hw, rfl⟩ := hall j hjl
    have hqk : k ≤ q := by
      by_contra hc
      exact hj (List.mem_map.mpr ⟨w, List.mem_of_getElem? ((htk q w).mpr ⟨by omega, hw⟩), rfl⟩)
    have := hf p q z w hpk (by omega) hz hw
    rw [← hgd _ _ hx, ← hgd _ _ hy, ← (hmem z (List.mem_of_getElem? hz)).2, ← (hmem w (List.mem_of_getElem? hw)).2]
    intro hB
    rw [topkBetter_eq_true.mpr hB] at this
    cases this
  · rw [InOrder, List.pairwise_map, List.pairwise_iff_getElem]
    intro i j hi hj hij hB
    have h1 := (htk i _).mp (List.getElem?_eq_getElem hi)
    have h2 := (htk j _).mp (List.getElem?_eq_getElem hj)
    have := hf i j _ _ h1.1 hij h1.2 h2.2
    rw [← (hmem _ (List.mem_of_getElem? h1.2)).2, ← (hmem _ (List.mem_of_getElem? h2.2)).2] at hB
    rw [topkBetter_eq_true.mpr hB] at this
    cases this

theorem cap64_eq (n : Nat) : cap64 n = min n 64 := by
  unfold cap64
  split_ifs <;> omega

/-- One row: the pairs stored are those of the best elements among the first 64, best first. -/
theorem topkRowCuda_ok {K : Type} [LinearOrder K] {key : α → K} {back : K → Res α} {inp xs : List α} {base n k : Nat} {largest : Bool}
    {rd : α → α} (hxl : xs.length = min n 64) (hx : ∀ i, i < xs.length → inp[base + i]? = xs[i]?) (hkn : k ≤ n)
    (hb : ∀ x ∈ xs, back (key x) = .ok (rd x)) :
    ∃ vals is, topkRowCuda key back inp base n k largest = .ok ((vals.map rd).zip is) ∧
      IsTopK key largest xs (min k 64) vals is ∧ InOrder key largest vals := by
  by_cases hne : xs = []
  · subst hne
    have hn : n = 0 := by simp at hxl; omega
    subst hn
    have hk : k = 0 := by omega
    subst hk
    exact ⟨[], [], rfl, ⟨rfl, List.nodup_nil, by simp, rfl, by simp⟩, List.Pairwise.nil⟩
  · have hd : 0 < xs.length := List.length_pos_iff.mpr hne
    let d := xs[0]
    have htemp : Res.mapL (fun i => (readC inp (base + i)).map fun x => (key x, i)) (List.range (cap64 n)) =
        .ok ((List.range xs.length).map fun i => (key (xs.getD i d), i)) := by
      rw [cap64_eq, ← hxl]
      apply Res.mapL_eq_ok_of
      intro i hi
      rw [List.mem_range] at hi
      rw [readC_eq_ok.mpr (by rw [hx i hi, List.getElem?_eq_getElem hi])]
      simp [Res.map, List.getD_eq_getElem?_getD, List.getElem?_eq_getElem hi]
    have hrounds : min (cap64 k) (cap64 n) = min k 64 := by rw [cap64_eq, cap64_eq]; omega
    obtain ⟨sel, e, hp, hf⟩ := selSort_ok (topkBetter_sw largest)
      ((List.range xs.length).map fun i => (key (xs.getD i d), i)) (min k 64) (by simp; omega)
    obtain ⟨h1, h2, h3⟩ := isTopK_of_sel (largest := largest) hp (by omega) hf
    have hlen : sel.length = xs.length := by rw [hp.length_eq]; simp
    refine ⟨_, _, ?_, h1, h2⟩
    unfold topkRowCuda
    rw [htemp, Res.ok_bind, hrounds, e, Res.ok_bind, cap64_eq]
    have hmem : ∀ z ∈ sel, back z.1 = .ok (rd (xs.getD z.2 d)) := by
      intro z hz
      rw [h3 z hz]
      obtain ⟨i, hi, rfl⟩ := List.mem_map.mp (hp.mem_iff.mp hz)
      refine hb _ ?_
      have hi := List.mem_range.mp hi
      simp only [List.getD_eq_getElem?_getD, List.getElem?_eq_getElem hi, Option.getD_some]
      exact List.getElem_mem hi
    have : Res.mapL (fun i => (readC sel i).bind fun p => (back p.1).map fun v => (v, p.2)) (List.range (min k 64)) =
        .ok ((sel.take (min k 64)).map fun z => (rd (xs.getD z.2 d), z.2)) := by
      have : (sel.take (min k 64)).map (fun z => (rd (xs.getD z.2 d), z.2)) =
          (List.range (min k 64)).map fun i => (rd (xs.getD (sel.getD i (key d, 0)).2 d), (sel.getD i (key d, 0)).2) := by
        apply List.ext_getElem
        · simp; omega
        · intro i hi1 hi2
          have : i < sel.length := by simp at hi1; omega
          simp [List.getD_eq_getElem?_getD, List.getElem?_eq_getElem this]
      rw [this]
      apply Res.mapL_eq_ok_of
      intro i hi
      have hi := List.mem_range.mp hi
      have : i < sel.length := by omega
      rw [readC_eq_ok.mpr (List.getElem?_eq_getElem this), Res.ok_bind, hmem _ (List.getElem_mem this)]
      simp [Res.map, List.getD_eq_getElem?_getD, List.getElem?_eq_getElem this]
    rw [this, List.map_map, List.zip_map']
    rfl

theorem topkThread_mem {K : Type} [LT K] [DecidableRel (α := K) (· < ·)] {key : α → K} {back : K → Res α} {inp : List α}
    {off n k : Nat} {largest : Bool} {tid : Nat} {ps : List (α × Nat)}
    (h : topkRowCuda key back inp (off + tid * n) n k largest = .ok ps) :
    ∃ ws, topkThread key back inp off n k largest tid = .ok ws ∧
      ∀ w, w ∈ ws ↔ ∃ (j : Nat) (p : α × Nat), ps[j]? = some p ∧
        (w = ((bOut, tid * k + j), .inl p.1) ∨ w = ((bIndices, tid * k + j), .inr p.2)) := by
  refine ⟨_, by unfold topkThread; rw [h]; rfl, fun w => ?_⟩
  simp only [List.mem_flatMap, List.mem_cons, List.not_mem_nil, or_false]
  constructor
  · rintro ⟨⟨p, j⟩, hp, hw⟩
    exact ⟨j, p, List.mk_mem_zipIdx_iff_getElem?.mp hp, hw⟩
  · rintro ⟨j, p, hp, hw⟩
    exact ⟨(p, j), List.mk_mem_zipIdx_iff_getElem?.mpr hp, hw⟩

/-- The kernel: row `o` of the outputs gets the pairs of row `o` of the input, the rest keeps what was there. -/
theorem topk_ends {K : Type} [LT K] [DecidableRel (α := K) (· < ·)] {key : α → K} {back : K → Res α} {inp : List α}
    {off n k outer lv li : Nat} {largest : Bool} {rows : Nat → List (α × Nat)} {kern : PKernel (α ⊕ Nat)}
    (junk : Nat → α) (junkI : Nat → Nat) (hk : 0 < k)
    (hK : RunsOnce kern outer fun tid => ofWrites (topkThread key back inp off n k largest tid))
    (hlv : k * outer ≤ lv) (hli : k * outer ≤ li)
    (hrow : ∀ o, o < outer → topkRowCuda key back inp (off + o * n) n k largest = .ok (rows o))
    (hlen : ∀ o, o < outer → (rows o).length ≤ k) :
    ∃ M, Ends kern (topkMem lv li junk junkI) M ∧
      (∃ vs, readVals M (k * outer) = vs ∧ vs.length = k * outer ∧
        ∀ o c, o < outer → c < k → vs[o * k + c]? = some (((rows o)[c]?.map Prod.fst).getD (junk (o * k + c)))) ∧
      (∃ is, readIdxs M (k * outer) = is ∧ is.length = k * outer ∧
        ∀ o c, o < outer → c < k → is[o * k + c]? = some (((rows o)[c]?.map Prod.snd).getD (junkI (o * k + c)))) := by
  have hrd : ∀ o c, o < outer → c < k → o * k + c < k * outer := by
    intro o c ho hc
    have := Nat.mul_le_mul_right k (show o + 1 ≤ outer from ho)
    rw [Nat.add_mul] at this
    rw [Nat.mul_comm k outer]
    omega
  have hdiv : ∀ o c, c < k → (o * k + c) / k = o := by
    intro o c hc
    rw [Nat.mul_comm, Nat.mul_add_div hk, Nat.div_eq_of_lt hc]; rfl
  have hmod : ∀ o c, c < k → (o * k + c) % k = c := by
    intro o c hc
    rw [Nat.mul_comm, Nat.mul_add_mod, Nat.mod_eq_of_lt hc]
  let fv : Nat → α := fun p =>
    if p < k * outer then ((rows (p / k))[p % k]?.map Prod.fst).getD (junk p) else junk p
  let fi : Nat → Nat := fun p =>
    if p < k * outer then ((rows (p / k))[p % k]?.map Prod.snd).getD (junkI p) else junkI p
  let G : Addr → α ⊕ Nat := fun a => if a.1 = bOut then .inl (fv a.2) else .inr (fi a.2)
  have hex : ∀ o, o < outer → ∃ ws, topkThread key back inp off n k largest o = .ok ws ∧
      ∀ w, w ∈ ws ↔ ∃ (j : Nat) (p : α × Nat), (rows o)[j]? = some p ∧
        (w = ((bOut, o * k + j), .inl p.1) ∨ w = ((bIndices, o * k + j), .inr p.2)) :=
    fun o ho => topkThread_mem (hrow o ho)
  let cells : Nat → List (Addr × (α ⊕ Nat)) := fun o =>
    match topkThread key back inp off n k largest o with
    | .ok ws => ws
    | _ => []
  have hcells : ∀ o, o < outer → topkThread key back inp off n k largest o = .ok (cells o) := by
    intro o ho
    obtain ⟨ws, e, _⟩ := hex o ho
    simp only [cells, e]
  have hmem : ∀ o, o < outer → ∀ w, w ∈ cells o ↔ ∃ (j : Nat) (p : α × Nat), (rows o)[j]? = some p ∧
        (w = ((bOut, o * k + j), .inl p.1) ∨ w = ((bIndices, o * k + j), .inr p.2)) := by
    intro o ho
    obtain ⟨ws, e, h⟩ := hex o ho
    rw [hcells o ho] at e
    cases e
    exact h
  have hj : ∀ o, o < outer → ∀ (j : Nat) p, (rows o)[j]? = some p → j < k := by
    intro o ho j p hp
    have := hlen o ho
    by_contra hc
    rw [List.getElem?_eq_none (by omega)] at hp
    cases hp
  refine ⟨topkMem lv li fv fi, stores_once hK (cells := cells) (G := G) ?_ ?_ ?_ ?_, ⟨_, rfl, ?_, ?_⟩,
    ⟨_, rfl, ?_, ?_⟩⟩
  · intro o ho
    rw [hcells o ho]
    rfl
  · intro o ho w hw
    obtain ⟨j, p, hp, hw⟩ := (hmem o ho w).mp hw
    have hjk := hj o ho j p hp
    have hlt := hrd o j ho hjk
    have hl1 : o * k + j < lv := by omega
    have hl2 : o * k + j < li := by omega
    rcases hw with rfl | rfl
    · simp [topkMem, hlt, hl1, G, fv, hdiv o j hjk, hmod o j hjk, hp]
    · simp [topkMem, hlt, hl2, G, fi, hdiv o j hjk, hmod o j hjk, hp]
  · intro o ho w hw
    obtain ⟨j, p, hp, hw⟩ := (hmem o ho w).mp hw
    have hlt := hrd o j ho (hj o ho j p hp)
    have hl1 : o * k + j < lv := by omega
    have hl2 : o * k + j < li := by omega
    rcases hw with rfl | rfl
    · simp [topkMem, hl1, G]
    · simp [topkMem, hl2, G]
  · intro a ha
    obtain ⟨b, q⟩ := a
    unfold topkMem
    dsimp only
    by_cases hq : q < k * outer
    · have ho : q / k < outer := Nat.div_lt_of_lt_mul hq
      have hqk : q / k * k + q % k = q := by rw [Nat.mul_comm]; exact Nat.div_add_mod q k
      simp only [if_pos (show q < lv by omega), if_pos (show q < li by omega)]
      split_ifs with h1 h2
      · subst h1
        cases hc : (rows (q / k))[q % k]? with
        | none => simp [fv, hq, hc]
        | some p =>
          refine absurd ?_ (ha _ ho _ ((hmem _ ho _).mpr ⟨_, p, hc, Or.inl rfl⟩))
          rw [hqk]
      · subst h2
        cases hc : (rows (q / k))[q % k]? with
        | none => simp [fi, hq, hc]
        | some p =>
          refine absurd ?_ (ha _ ho _ ((hmem _ ho _).mpr ⟨_, p, hc, Or.inr rfl⟩))
          rw [hqk]
      · rfl
    · simp only [fv, fi, if_neg hq]
  all_goals
    have hl1 : ∀ p, p < k * outer → p < lv := fun p hp => by omega
    have hl2 : ∀ p, p < k * outer → p < li := fun p hp => by omega
    simp only [readVals, readIdxs, Mem.read]
  · rw [List.filterMap_filterMap, List.filterMap_congr (g := fun p => some (fv p)) (fun p hp => by
      simp [topkMem, hl1 _ (List.mem_range.mp hp)])]
    simp
  · intro o c ho hc
    rw [List.filterMap_filterMap, List.filterMap_congr (g := fun p => some (fv p)) (fun p hp => by
      simp [topkMem, hl1 _ (List.mem_range.mp hp)]), List.filterMap_eq_map', List.getElem?_map, List.getElem?_range (hrd o c ho hc)]
    simp [fv, hrd o c ho hc, hdiv o c hc, hmod o c hc]
  · rw [List.filterMap_filterMap, List.filterMap_congr (g := fun p => some (fi p)) (fun p hp => by
      simp [topkMem, hl2 _ (List.mem_range.mp hp)])]
    simp
  · intro o c ho hc
    rw [List.filterMap_filterMap, List.filterMap_congr (g := fun p => some (fi p)) (fun p hp => by
      simp [topkMem, hl2 _ (List.mem_range.mp hp)]), List.filterMap_eq_map', List.getElem?_map, List.getElem?_range (hrd o c ho hc)]
    simp [fi, hrd o c ho hc, hdiv o c hc, hmod o c hc]

/-- What the threads leave for the rows of a contiguous tensor, on any grid with a thread per row and in any buffers that are
long enough. -/
theorem topk_core {K : Type} [LinearOrder K] {key : α → K} {back : K → Res α} {t : Tensor α} {ds : List Nat} {n k lv li : Nat}
    {largest : Bool} {kern : PKernel (α ⊕ Nat)} (junk : Nat → α) (junkI : Nat → Nat) (ht : t.WF) (hd : t.dims = ds ++ [n])
    (hc : t.layout.strides = Layout.computeStrides t.dims) (hk0 : 0 < k) (hkn : k ≤ n)
    (hK : RunsOnce kern (numel ds) fun tid => ofWrites (topkThread key back t.storage t.layout.offset n k largest tid))
    (hlv : k * numel ds ≤ lv) (hli : k * numel ds ≤ li) {rd : α → α}
    (hb : ∀ idx x, InRange idx t.dims → t.elem idx = some x → back (key x) = .ok (rd x)) :
    ∃ (M : Mem (α ⊕ Nat)) (v : Tensor α) (i : Tensor Nat), Ends kern (topkMem lv li junk junkI) M ∧
      v = ⟨readVals M (k * numel ds), Layout.fromShape (ds ++ [k])⟩ ∧
      i = ⟨readIdxs M (k * numel ds), Layout.fromShape (ds ++ [k])⟩ ∧ v.WF ∧ i.WF ∧
      ∀ p, InRange p ds → ∃ xs vals is, xs.length = min n 64 ∧ (∀ c, c < min n 64 → xs[c]? = t.elem (p ++ [c])) ∧
        (∀ c, c < min k 64 → v.elem (p ++ [c]) = vals[c]?.map rd ∧ i.elem (p ++ [c]) = is[c]?) ∧
        (∀ c, 64 ≤ c → c < k → v.elem (p ++ [c]) = some (junk (rowMajor ds p * k + c)) ∧
          i.elem (p ++ [c]) = some (junkI (rowMajor ds p * k + c))) ∧
        IsTopK key largest xs (min k 64) vals is ∧ InOrder key largest vals := by
  have hrow : ∀ p, InRange p ds → ∃ xs : List α, xs.length = min n 64 ∧
      ∀ c, c < min n 64 → xs[c]? = t.elem (p ++ [c]) := by
    intro p hp
    obtain ⟨xs, hxs⟩ := exists_vals (L := List.range (min n 64)) (f := fun c => t.elem (p ++ [c])) (fun c hc => by
      apply Option.isSome_iff_exists.mp
      apply ht.2
      rw [hd]
      have := List.mem_range.mp hc
      exact (inRange_append hp.length).mpr ⟨hp, show c < n by omega, trivial⟩)
    have hl : xs.length = min n 64 := by
      have := congrArg List.length hxs
      simpa using this.symm
    refine ⟨xs, hl, fun c hc => ?_⟩
    have := congrArg (fun l => l[c]?) hxs
    simp only [List.getElem?_map] at this
    rw [List.getElem?_range hc, List.getElem?_eq_getElem (by omega)] at this
    simp only [Option.map_some, Option.some.injEq] at this
    rw [this, List.getElem?_eq_getElem (by omega)]
  have helem : ∀ p, InRange p ds → ∀ c, t.elem (p ++ [c]) =
      t.storage[t.layout.offset + rowMajor ds p * n + c]? := by
    intro p hp c
    unfold Tensor.elem
    rw [hc, dot_computeStrides, hd, rowMajor_append hp.length]
    simp [numel, rowMajor, Nat.add_assoc]
  have hrows : ∀ o, o < numel ds → ∃ xs vals is, xs.length = min n 64 ∧
      (∀ c, c < min n 64 → xs[c]? = t.elem (unravel ds o ++ [c])) ∧
      topkRowCuda key back t.storage (t.layout.offset + o * n) n k largest =
        .ok ((vals.map rd).zip is) ∧
      IsTopK key largest xs (min k 64) vals is ∧ InOrder key largest vals := by
    intro o ho
    have hp := unravel_inRange ho
    obtain ⟨xs, h1, h2⟩ := hrow _ hp
    obtain ⟨vals, is, h3, h4, h5⟩ := topkRowCuda_ok (key := key) (back := back) (inp := t.storage) (xs := xs)
      (base := t.layout.offset + o * n) (n := n) (k := k) (largest := largest) h1 (fun i hi => by
        rw [h2 i (by omega), helem _ hp, rowMajor_unravel ho]) hkn (fun x hx => by
          obtain ⟨c, hc⟩ := List.mem_iff_getElem?.mp hx
          have hcl : c < min n 64 := by
            by_contra hcc
            rw [List.getElem?_eq_none (by omega)] at hc
            cases hc
          rw [h2 c hcl] at hc
          refine hb _ x ?_ hc
          rw [hd]
          exact (inRange_append hp.length).mpr ⟨hp, show c < n by omega, trivial⟩)
    exact ⟨xs, vals, is, h1, h2, h3, h4, h5⟩
  let row : Nat → List (α × Nat) := fun o =>
    match topkRowCuda key back t.storage (t.layout.offset + o * n) n k largest with
    | .ok r => r
    | _ => []
  have hrowe : ∀ o, o < numel ds → topkRowCuda key back t.storage (t.layout.offset + o * n) n k largest =
      .ok (row o) := by
    intro o ho
    obtain ⟨_, vals, is, _, _, h, _⟩ := hrows o ho
    simp only [row, h]
  have hvl : ∀ {xs vals : List α} {is : List Nat}, IsTopK key largest xs (min k 64) vals is → vals.length = min k 64 := by
    intro xs vals is h
    have := congrArg List.length h.values
    simp only [List.length_map] at this
    rw [← this]; exact h.length
  have hlen : ∀ o, o < numel ds → (row o).length ≤ k := by
    intro o ho
    obtain ⟨_, vals, is, _, _, h, h', _⟩ := hrows o ho
    rw [hrowe o ho] at h
    injection h with h
    rw [h, List.length_zip, List.length_map, hvl h', h'.length]
    omega
  obtain ⟨M, hE, ⟨vs, ev, lv', gv⟩, is', ei, li', gi⟩ := topk_ends junk junkI hk0 hK hlv hli hrowe hlen
  have hnum : numel (ds ++ [k]) = k * numel ds := by rw [numel_append]; simp [numel, Nat.mul_comm]
  refine ⟨M, ⟨vs, Layout.fromShape (ds ++ [k])⟩, ⟨is', Layout.fromShape (ds ++ [k])⟩, hE, by rw [ev], by rw [ei],
    fresh_wf (by rw [hnum, lv']), fresh_wf (by rw [hnum, li']), fun p hp => ?_⟩
  · have ho := rowMajor_lt hp
    obtain ⟨xs, vals, is, h1, h2, h3, h4, h5⟩ := hrows _ ho
    rw [unravel_rowMajor hp] at h2
    rw [hrowe _ ho] at h3
    injection h3 with h3
    have e1 : ∀ c, rowMajor (ds ++ [k]) (p ++ [c]) = rowMajor ds p * k + c := by
      intro c
      rw [rowMajor_append hp.length]; simp [numel, rowMajor]
    have hv := hvl h4
    have hi := h4.length
    refine ⟨xs, vals, is, h1, h2, fun c hc => ?_, fun c h64 hc => ?_, h4, h5⟩
    · rw [Layout.fromShape, elem_rowMajor, elem_rowMajor, Nat.zero_add, e1, gv _ _ ho (by omega), gi _ _ ho (by omega), h3]
      have hcv : c < vals.length := by omega
      have hci : c < is.length := by omega
      have : ((vals.map rd).zip is)[c]? = some (rd vals[c], is[c]) := by
        rw [List.getElem?_eq_getElem (by simp; omega)]
        simp
      rw [this, List.getElem?_eq_getElem hcv, List.getElem?_eq_getElem hci]
      simp
    · rw [Layout.fromShape, elem_rowMajor, elem_rowMajor, Nat.zero_add, e1, gv _ _ ho (by omega), gi _ _ ho (by omega), h3,
        List.getElem?_eq_none (by simp; omega)]
      simp

theorem contiguous_self {t : Tensor α} (ht : t.WF) (hc : t.layout.strides = Layout.computeStrides t.dims) :
    t.contiguous = .ok t := by
  obtain ⟨s, o, h1, h2, h3⟩ := contiguous_spec ht
  have hcc : t.layout.isContiguous = true := (isContiguous_iff ht.1).mpr hc
  rcases h3 with ⟨_, _, h3⟩ | ⟨h3, h4, _⟩
  · rw [hcc] at h3; cases h3
  · rw [h1, h3, h4]
    obtain ⟨s, ⟨d, st, o⟩⟩ := t
    have hc : st = Layout.computeStrides d := hc
    rw [hc]

/-- What the kernel computes for contiguous tensors and the last dimension, under every schedule: the best among the first
64 elements of a row, best first and whether or not sorting was asked for, as they are after conversion to `float` and
back; the outputs from the 64th on keep what was in the buffer. -/
theorem C111_topk_rows {K : Type} [LinearOrder K] {key : α → K} {back : K → Res α} {dt : DType} {t : Tensor α} {ds : List Nat} {n k : Nat}
    {dim : Int} {largest : Bool} (junk : Nat → α) (junkI : Nat → Nat) (ht : t.WF) (hd : t.dims = ds ++ [n])
    (hr : t.dims.length < 2 ^ 31) (hk : IsAxis t.dims.length dim ds.length)
    (hc : t.layout.strides = Layout.computeStrides t.dims) (hk0 : 0 < k) (hkn : k ≤ n) (hdt : dt ≠ .bool)
    (hgrid : numel ds ≤ 2 ^ 32 - 256) {rd : α → α}
    (hb : ∀ idx x, InRange idx t.dims → t.elem idx = some x → back (key x) = .ok (rd x)) (sorted : Bool) :
    ∃ run M v i, topkCuda key back dt junk junkI t k dim largest sorted = .ok (some run) ∧ Ends run.kernel run.mem M ∧
      run.result M = .ok (v, i) ∧ v.WF ∧ i.WF ∧ v.dims = ds ++ [k] ∧ i.dims = ds ++ [k] ∧
      ∀ p, InRange p ds → ∃ xs vals is, xs.length = min n 64 ∧ (∀ c, c < min n 64 → xs[c]? = t.elem (p ++ [c])) ∧
        (∀ c, c < min k 64 → v.elem (p ++ [c]) = vals[c]?.map rd ∧ i.elem (p ++ [c]) = is[c]?) ∧
        (∀ c, 64 ≤ c → c < k → v.elem (p ++ [c]) = some (junk (rowMajor ds p * k + c)) ∧
          i.elem (p ++ [c]) = some (junkI (rowMajor ds p * k + c))) ∧
        IsTopK key largest xs (min k 64) vals is ∧ InOrder key largest vals := by
  have hax : axisUsize t.dims.length dim = ds.length := axisUsize_eq hk hr
  have hnd : t.dims.length = ds.length + 1 := by rw [hd]; simp
  have hlast : t.dims.getD ds.length 0 = n := by rw [hd]; simp
  have hsetd : ∀ m, t.dims.set ds.length m = ds ++ [m] := by
    intro m; rw [hd, List.set_append_right _ _ (Nat.le_refl _)]; simp
  have hcont := contiguous_self ht hc
  obtain ⟨M, v, i, hE, ev, ei, wv, wi, h⟩ := topk_core (largest := largest) junk junkI ht hd hc hk0 hkn
    (progOnce_runs hgrid _) (Nat.le_refl _) (Nat.le_refl _) hb
  have e2 : shapeSize (t.dims.take ds.length) = numel ds := by rw [shapeSize_eq, hd]; simp
  let run : TopkRun α :=
    { kernel := progOnce (numel ds) fun tid => ofWrites (topkThread key back t.storage t.layout.offset n k largest tid),
      mem := topkMem (k * numel ds) (k * numel ds) junk junkI, len := k * numel ds, outShape := ds ++ [k], perm := none }
  refine ⟨run, M, v, i, ?_, hE, ?_, wv, wi, by rw [ev]; rfl, by rw [ei]; rfl, h⟩
  · unfold topkCuda
    simp only [hax, hlast]
    have e1 : t.dims.length - 1 = ds.length := by omega
    rw [if_neg (by omega), if_neg (by omega), if_neg (by omega), if_neg (by omega)]
    simp only [e1]
    rw [if_neg (by simp), Res.ok_bind, hcont, Res.ok_bind, if_neg hdt, if_neg (by simp)]
    simp only [hlast, e2, hsetd]
    rfl
  · rw [ev, ei]
    rfl

/-- C111, `topk` (contiguous tensors, the last dimension, at most 64 elements in a row, values that survive the conversion to
`float` and back): as on the CPU, and always in order. -/
theorem C111_topk_partial {K : Type} [LinearOrder K] {key : α → K} {back : K → Res α} {dt : DType} {t : Tensor α} {ds : List Nat} {n k : Nat}
    {dim : Int} {largest : Bool} (junk : Nat → α) (junkI : Nat → Nat) (ht : t.WF) (hd : t.dims = ds ++ [n])
    (hr : t.dims.length < 2 ^ 31) (hk : IsAxis t.dims.length dim ds.length)
    (hc : t.layout.strides = Layout.computeStrides t.dims) (hk0 : 0 < k) (hkn : k ≤ n) (hdt : dt ≠ .bool)
    (hgrid : numel ds ≤ 2 ^ 32 - 256) (h64 : n ≤ 64)
    (hex : ∀ idx x, InRange idx t.dims → t.elem idx = some x → back (key x) = .ok x) (sorted : Bool) :
    ∃ run M v i, topkCuda key back dt junk junkI t k dim largest sorted = .ok (some run) ∧ Ends run.kernel run.mem M ∧
      run.result M = .ok (v, i) ∧ v.WF ∧ i.WF ∧ v.dims = ds ++ [k] ∧ i.dims = ds ++ [k] ∧
      ∀ p, InRange p ds → ∃ xs vals is, xs.length = n ∧ (∀ c, c < n → xs[c]? = t.elem (p ++ [c])) ∧
        (∀ c, c < k → vals[c]? = v.elem (p ++ [c]) ∧ is[c]? = i.elem (p ++ [c])) ∧
        IsTopK key largest xs k vals is ∧ InOrder key largest vals := by
  obtain ⟨run, M, v, i, h1, h2, h3, h4, h5, h6, h7, h8⟩ := C111_topk_rows (key := key) (back := back) (largest := largest)
    junk junkI ht hd hr hk hc hk0 hkn hdt hgrid (rd := fun x => x) hex sorted
  refine ⟨run, M, v, i, h1, h2, h3, h4, h5, h6, h7, fun p hp => ?_⟩
  obtain ⟨xs, vals, is, g1, g2, g3, _, g5, g6⟩ := h8 p hp
  rw [Nat.min_eq_left h64] at g1 g2
  rw [Nat.min_eq_left (by omega)] at g3 g5
  refine ⟨xs, vals, is, g1, g2, fun c hc => ⟨?_, (g3 c hc).2.symm⟩, g5, g6⟩
  rw [(g3 c hc).1]
  simp

/-- Rows of a 2×3 matrix that starts inside of its buffer. -/
example : ∃ run M v i, topkCuda id .ok .i32 (fun _ => 77) (fun _ => 88) (⟨[0, 3, 1, 4, 1, 5, 9], ⟨[2, 3], [3, 1], 1⟩⟩ : Tensor Int) 2 (-1) true
    false = .ok (some run) ∧ Ends run.kernel run.mem M ∧ run.result M = .ok (v, i) ∧ v.dims = [2, 2] := by
  obtain ⟨run, M, v, i, h1, h2, h3, _, _, h4, _⟩ := C111_topk_partial (t := (⟨[0, 3, 1, 4, 1, 5, 9], ⟨[2, 3], [3, 1], 1⟩⟩ : Tensor Int))
    (ds := [2]) (n := 3) (k := 2) (dim := -1) (key := id) (back := .ok) (dt := .i32) (largest := true) (fun _ => 77) (fun _ => 88)
    ⟨rfl, fun idx hi => by
      match idx, hi with
      | [a, b], ⟨ha, hb, _⟩ =>
        have : a < 2 := ha
        have : b < 3 := hb
        interval_cases a <;> interval_cases b <;> decide⟩ rfl (by decide) (by unfold IsAxis; decide) rfl (by decide) (by decide)
    (by decide) (by decide) (by decide) (fun _ _ _ _ => rfl) false
  exact ⟨run, M, v, i, h1, h2, h3, h4⟩

/-- Integers up to 2^24 survive the conversions of the kernel. -/
theorem C111_topk_int {lo hi x : Int} (h1 : lo ≤ x) (h2 : x ≤ hi) (h : x.natAbs ≤ 2 ^ 24) :
    toIntC lo hi (Flt.flInt x) = .ok x := by
  rw [flInt_small h]
  unfold toIntC
  rw [if_pos ⟨h1, h2⟩]

example : toIntC (-2 ^ 31) (2 ^ 31 - 1) (Flt.flInt (-16777215)) = .ok (-16777215) :=
  C111_topk_int (by decide) (by decide) (by decide)

/-- C111 is false for rows of more than 64 elements: the largest of 64 zeros and a one is said to be zero. -/
theorem C111_topk_long_false : ∃ (t v : Tensor Int) (i : Tensor Nat) (run : TopkRun Int) (M : Mem (Int ⊕ Nat)), t.WF ∧ t.dims = [65] ∧
    topkCuda id .ok .i32 (fun _ => 77) (fun _ => 88) t 1 0 true true = .ok (some run) ∧ Ends run.kernel run.mem M ∧
    run.result M = .ok (v, i) ∧ t.elem [64] = some 1 ∧ v.elem [0] = some 0 := by
  have ht : (⟨List.replicate 64 0 ++ [1], Layout.fromShape [65]⟩ : Tensor Int).WF := fresh_wf (by simp [numel])
  obtain ⟨run, M, v, i, h1, h2, h3, _, _, _, _, h8⟩ := C111_topk_rows (key := id) (back := .ok) (dt := .i32) (largest := true)
    (t := (⟨List.replicate 64 0 ++ [1], Layout.fromShape [65]⟩ : Tensor Int)) (ds := []) (n := 65) (k := 1) (dim := 0) (fun _ => 77)
    (fun _ => 88) ht rfl (by decide) ⟨by decide, Or.inl rfl⟩ rfl (by decide) (by decide) (by decide) (by decide)
    (rd := fun x => x) (fun _ _ _ _ => rfl) true
  refine ⟨_, v, i, run, M, ht, rfl, h1, h2, h3, rfl, ?_⟩
  obtain ⟨xs, vals, is, g1, g2, g3, _, g5, _⟩ := h8 [] trivial
  have e := (g3 0 (by decide)).1
  rw [List.nil_append] at e
  rw [e]
  have hl : 0 < is.length := by rw [g5.length]; decide
  have hvs := congrArg (fun l => l[0]?) g5.values
  simp only [List.getElem?_map] at hvs
  rw [List.getElem?_eq_getElem hl] at hvs
  have hin := g5.inside _ (List.getElem_mem hl)
  rw [g1] at hin
  rw [Option.map_some, g2 _ hin] at hvs
  have hz : (⟨List.replicate 64 0 ++ [1], Layout.fromShape [65]⟩ : Tensor Int).elem ([] ++ [is[0]]) = some 0 := by
    generalize is[0] = j at hin
    have hj : j < 64 := hin
    show (List.replicate 64 (0 : Int) ++ [1])[0 + (j * 1 + 0)]? = some 0
    rw [List.getElem?_append_left (by simp; omega), List.getElem?_replicate, if_pos (by omega)]
  rw [hz] at hvs
  cases hv : vals[0]? with
  | none => rw [hv] at hvs; simp at hvs
  | some x =>
    rw [hv] at hvs
    simp only [Option.map_some, Option.some.injEq] at hvs
    rw [← hvs]
    rfl

/-- C111 is false for more than 64 results: the 65th is whatever the buffer held, value and index. -/
theorem C111_topk_many_false (junk : Nat → Int) (junkI : Nat → Nat) : ∃ (t v : Tensor Int) (i : Tensor Nat) (run : TopkRun Int)
    (M : Mem (Int ⊕ Nat)), t.WF ∧ t.dims = [65] ∧
    topkCuda id .ok .i32 junk junkI t 65 0 true true = .ok (some run) ∧ Ends run.kernel run.mem M ∧
    run.result M = .ok (v, i) ∧ v.elem [64] = some (junk 64) ∧ i.elem [64] = some (junkI 64) := by
  have ht : (⟨List.replicate 65 0, Layout.fromShape [65]⟩ : Tensor Int).WF := fresh_wf (by simp [numel])
  obtain ⟨run, M, v, i, h1, h2, h3, _, _, _, _, h8⟩ := C111_topk_rows (key := id) (back := .ok) (dt := .i32) (largest := true)
    (t := (⟨List.replicate 65 0, Layout.fromShape [65]⟩ : Tensor Int)) (ds := []) (n := 65) (k := 65) (dim := 0) junk
    junkI ht rfl (by decide) ⟨by decide, Or.inl rfl⟩ rfl (by decide) (by decide) (by decide) (by decide)
    (rd := fun x => x) (fun _ _ _ _ => rfl) true
  obtain ⟨xs, vals, is, _, _, _, g4, _⟩ := h8 [] trivial
  obtain ⟨e1, e2⟩ := g4 64 (by decide) (by decide)
  exact ⟨_, v, i, run, M, ht, rfl, h1, h2, h3, e1, e2⟩

/-- C111 is false for integers beyond 2^24: what is returned need not be an element at all. -/
theorem C111_topk_value_false : ∃ (t v : Tensor Int) (i : Tensor Nat) (run : TopkRun Int) (M : Mem (Int ⊕ Nat)), t.WF ∧ t.dims = [1] ∧
    topkCuda Flt.flInt (toIntC (-2 ^ 31) (2 ^ 31 - 1)) .i32 (fun _ => 77) (fun _ => 88) t 1 0 true true = .ok (some run) ∧
    Ends run.kernel run.mem M ∧ run.result M = .ok (v, i) ∧ t.elem [0] = some 16777217 ∧ v.elem [0] = some 16777216 := by
  have ht : (⟨[16777217], Layout.fromShape [1]⟩ : Tensor Int).WF := fresh_wf (by simp [numel])
  obtain ⟨run, M, v, i, h1, h2, h3, _, _, _, _, h8⟩ := C111_topk_rows (key := Flt.flInt) (back := toIntC (-2 ^ 31) (2 ^ 31 - 1))
    (dt := .i32) (largest := true)
    (t := (⟨[16777217], Layout.fromShape [1]⟩ : Tensor Int)) (ds := []) (n := 1) (k := 1) (dim := 0) (fun _ => 77)
    (fun _ => 88) ht rfl (by decide) ⟨by decide, Or.inl rfl⟩ rfl (by decide) (by decide) (by decide) (by decide)
    (rd := fun _ => 16777216) (by
      intro idx x hi hx
      match idx, hi with
      | [a], ⟨ha, _⟩ =>
        have ha : a < 1 := ha
        have : a = 0 := by omega
        subst this
        have : x = 16777217 := by
          have : some (16777217 : Int) = some x := hx
          cases this
          rfl
        subst this
        decide +kernel) true
  refine ⟨_, v, i, run, M, ht, rfl, h1, h2, h3, rfl, ?_⟩
  obtain ⟨xs, vals, is, g1, g2, g3, _, g5, _⟩ := h8 [] trivial
  have e := (g3 0 (by decide)).1
  rw [List.nil_append] at e
  rw [e]
  have hl : 0 < is.length := by rw [g5.length]; decide
  have hvs := congrArg (fun l => l[0]?) g5.values
  simp only [List.getElem?_map] at hvs
  rw [List.getElem?_eq_getElem hl] at hvs
  have hin := g5.inside _ (List.getElem_mem hl)
  rw [g1] at hin
  rw [Option.map_some, g2 _ hin] at hvs
  cases hv : vals[0]? with
  | none => rw [hv] at hvs; simp at hvs
  | some x => rfl

/-- Casting back is undefined when the rounded value leaves the type: 2^31 - 1 becomes 2^31. -/
theorem C111_topk_overflow : topkThread Flt.flInt (toIntC (-2 ^ 31) (2 ^ 31 - 1)) [2147483647] 0 1 1 true 0 = .ub := by
  decide +kernel

/-- C111 is false for views, as C24: on the last dimension of a transposed matrix the untransposed rows are searched. -/
theorem C111_topk_view_false : ∃ (t : Tensor Int) (run : TopkRun Int),
    topkCuda id .ok .i32 (fun _ => 77) (fun _ => 88) t 1 1 true true = .ok (some run) ∧
    t.dims = [2, 2] ∧ t.elem [0, 0] = some 1 ∧ t.elem [0, 1] = some 2 ∧
    ∃ M v i, Ends run.kernel run.mem M ∧ run.result M = .ok (v, i) ∧ v.elem [0, 0] = some 9 := by
  let t : Tensor Int := ⟨[1, 9, 2, 8], ⟨[2, 2], [1, 2], 0⟩⟩
  let rows : Nat → List (Int × Nat) := fun o => if o = 0 then [(9, 1)] else [(8, 1)]
  obtain ⟨M, hE, ⟨vs, ev, lv, gv⟩, is, ei, li, gi⟩ := topk_ends (key := (id : Int → Int)) (back := .ok) (inp := t.storage) (off := 0)
    (n := 2) (k := 1) (outer := 2) (largest := true) (rows := rows) (fun _ => 77) (fun _ => 88) (by decide)
    (progOnce_runs (by decide) _) (Nat.le_refl _) (Nat.le_refl _) (by decide +kernel) (by decide)
  let run : TopkRun Int :=
    { kernel := progOnce 2 fun tid => ofWrites (topkThread id .ok t.storage 0 2 1 true tid),
      mem := topkMem 2 2 (fun _ => 77) (fun _ => 88), len := 2, outShape := [2, 1], perm := none }
  refine ⟨t, run, rfl, rfl, rfl, rfl, M, ⟨vs, Layout.fromShape [2, 1]⟩, ⟨is, Layout.fromShape [2, 1]⟩, hE, ?_, ?_⟩
  · show Res.ok (_, _) = _
    rw [← ev, ← ei]
  · have := gv 0 0 (by decide) (by decide)
    show vs[0 + (0 * 1 + (0 * 1 + 0))]? = some 9
    simpa [rows] using this

end Hodu.Cuda
