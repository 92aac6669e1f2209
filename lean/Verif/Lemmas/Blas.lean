import Verif.Model.Blas
import Verif.Props.Matmul

/-! # Lemmas about the kernels built on BLAS -/

namespace Hodu.Blas
open _root_.Hodu.Spec

/-- A loop that updates one cell per turn, never the same cell twice. -/
theorem upd_fold {f : List α → β → Res (List α)} {addr : β → Nat} {h : β → α → α} (l : List β) (s : List α)
    (hf : ∀ s : List α, ∀ x ∈ l, f s x = (readC s (addr x)).bind fun c => .ok (s.set (addr x) (h x c)))
    (hn : (l.map addr).Nodup) (hs : ∀ x ∈ l, addr x < s.length) :
    ∃ s', Res.foldL f s l = .ok s' ∧ s'.length = s.length ∧
      (∀ x ∈ l, s'[addr x]? = s[addr x]?.map (h x)) ∧ ∀ p, p ∉ l.map addr → s'[p]? = s[p]? := by
  induction l generalizing s with
  | nil => exact ⟨s, rfl, rfl, by simp, fun _ _ => rfl⟩
  | cons x l ih =>
    obtain ⟨hx, hn⟩ := List.nodup_cons.mp hn
    have hlt := hs x (by simp)
    obtain ⟨s', e1, e2, e3, e4⟩ := ih (s.set (addr x) (h x s[addr x])) (fun s y hy => hf s y (by simp [hy])) hn
      (fun y hy => by simpa using hs y (by simp [hy]))
    refine ⟨s', ?_, by simpa using e2, ?_, ?_⟩
    · rw [Res.foldL, hf s x (by simp)]
      simp only [readC, List.getElem?_eq_getElem hlt, Res.ok_bind]
      exact e1
    · intro y hy
      rcases List.mem_cons.mp hy with rfl | hy
      · rw [e4 _ hx]
        simp [hlt]
      · rw [e3 y hy]
        have : addr x ≠ addr y := fun e => hx (e ▸ List.mem_map_of_mem hy)
        rw [List.getElem?_set_ne this]
    · intro p hp
      simp only [List.map_cons, List.mem_cons, not_or] at hp
      rw [e4 p hp.2, List.getElem?_set_ne (fun e => hp.1 e.symm)]

theorem flat_lt {A B a b : Nat} (ha : a < A) (hb : b < B) : a * B + b < A * B := by
  calc a * B + b < a * B + B := by omega
    _ = (a + 1) * B := (Nat.succ_mul a B).symm
    _ ≤ A * B := Nat.mul_le_mul_right _ ha

/-- The value of one cell of a product. -/
abbrev cellSum (zero : α) (add mul : α → α → α) (A B : List α) (K : Nat) (la ra : Nat → Nat) : α :=
  (List.range K).foldl (fun acc k => add acc (prodAt zero mul A B (la k) (ra k))) zero

/-- `beta * c + v` for `beta` 0 or 1. -/
abbrev upd (beta : Bool) (add : α → α → α) (c v : α) : α := if beta then add c v else v

/-- `gemm` into the rows of a matrix stored without gaps from `c0` on. -/
theorem gemm_ok {zero : α} {add mul : α → α → α} {ta tb beta : Bool} {M N K a0 lda b0 ldb c0 : Nat}
    {A B C : List α} (hl : legal ta tb M N K lda ldb N = true)
    (hA : ∀ i k, i < M → k < K → opAddr ta a0 lda i k < A.length)
    (hB : ∀ k j, k < K → j < N → opAddr tb b0 ldb k j < B.length) (hC : c0 + M * N ≤ C.length) :
    ∃ C', gemm zero add mul ta tb M N K A a0 lda B b0 ldb beta C c0 N = .ok C' ∧ C'.length = C.length ∧
      (∀ i j, i < M → j < N → C'[c0 + (i * N + j)]? = C[c0 + (i * N + j)]?.map fun c =>
        upd beta add c (cellSum zero add mul A B K (fun k => opAddr ta a0 lda i k)
          (fun k => opAddr tb b0 ldb k j))) ∧
      ∀ p, p < c0 ∨ c0 + M * N ≤ p → C'[p]? = C[p]? := by
  unfold gemm
  rw [if_pos hl]
  obtain ⟨C', e1, e2, e3, e4⟩ := upd_fold
    (f := gemmCell zero add mul ta tb K A a0 lda B b0 ldb beta c0 N)
    (addr := fun p : Nat × Nat => c0 + (p.1 * N + p.2))
    (h := fun p c => upd beta add c (cellSum zero add mul A B K (fun k => opAddr ta a0 lda p.1 k)
      (fun k => opAddr tb b0 ldb k p.2))) (tilePairs M N) C (by
      rintro s ⟨i, j⟩ hp
      obtain ⟨hi, hj⟩ := mem_tilePairs.mp hp
      unfold gemmCell
      rw [dotSum_ok (fun k hk => hA i k hi hk) (fun k hk => hB k j hk hj), Res.ok_bind]
      rw [Nat.add_assoc]) (by
      refine List.Nodup.map_on ?_ (tilePairs_nodup M N)
      rintro ⟨i, j⟩ h1 ⟨i', j'⟩ h2 h
      have h1 := (mem_tilePairs.mp h1).2
      have h2 := (mem_tilePairs.mp h2).2
      obtain ⟨rfl, rfl⟩ := flat_inj h1 h2 (by simpa using h)
      rfl) (by
      rintro ⟨i, j⟩ hp
      obtain ⟨hi, hj⟩ := mem_tilePairs.mp hp
      have := flat_lt hi hj
      show c0 + (i * N + j) < _
      omega)
  refine ⟨C', e1, e2, fun i j hi hj => e3 (i, j) (mem_tilePairs.mpr ⟨hi, hj⟩), fun p hp => e4 p ?_⟩
  intro hm
  obtain ⟨⟨i, j⟩, hij, rfl⟩ := List.mem_map.mp hm
  obtain ⟨hi, hj⟩ := mem_tilePairs.mp hij
  have := flat_lt hi hj
  dsimp only at hp
  omega

/-- The rows (or, if the other stride is 1, the columns) of a matrix with these strides do not overlap:
then it has the form BLAS expects. -/
def Spec.Apart (s0 s1 rows cols : Nat) : Prop :=
  (s1 = 1 → cols ≤ s0 ∨ rows ≤ 1) ∧ (s1 ≠ 1 → s0 = 1 → rows ≤ s1 ∨ cols ≤ 1)
open Blas.Spec

theorem opAddr_leading {s0 s1 rows cols base r c : Nat} (hu : usable s0 s1 = true) (h : Apart s0 s1 rows cols)
    (hr : r < rows) (hc : c < cols) :
    opAddr (transposed s1) base (leading s0 s1 rows cols) r c = base + r * s0 + c * s1 := by
  unfold opAddr transposed leading usable at *
  by_cases h1 : s1 = 1
  · subst h1
    simp only [beq_self_eq_true, Bool.not_true, Bool.false_eq_true, if_false, if_true, Nat.mul_one]
    split
    · rcases h.1 rfl with h | h
      · omega
      · have : r = 0 := by omega
        subst this
        omega
    · rfl
  · have h0 : s0 = 1 := by simpa [h1] using hu
    subst h0
    simp only [beq_iff_eq, h1, if_false, Nat.mul_one]
    rw [if_pos (by simpa using h1)]
    split
    · rcases h.2 h1 rfl with h | h
      · omega
      · have : c = 0 := by omega
        subst this
        omega
    · omega

theorem leading_ge {s0 s1 rows cols : Nat} :
    (if transposed s1 then rows else cols) ≤ leading s0 s1 rows cols := by
  unfold transposed leading
  by_cases h1 : s1 = 1 <;> simp [h1] <;> split <;> omega

/-- `gemm` called the way the matrix kernels do. -/
theorem gemm_prod {zero : α} {add mul : α → α → α} {M N K a0 l0 l1 b0 r0 r1 c0 : Nat} {A B C : List α}
    (hul : usable l0 l1 = true) (hur : usable r0 r1 = true) (hl : Apart l0 l1 M K) (hr : Apart r0 r1 K N)
    (hK : 0 < K) (hA : ∀ i k, i < M → k < K → a0 + i * l0 + k * l1 < A.length)
    (hB : ∀ k j, k < K → j < N → b0 + k * r0 + j * r1 < B.length) (hC : c0 + M * N ≤ C.length) :
    ∃ C', gemm zero add mul (transposed l1) (transposed r1) M N K A a0 (leading l0 l1 M K) B b0
        (leading r0 r1 K N) false C c0 N = .ok C' ∧ C'.length = C.length ∧
      (∀ i j, i < M → j < N → C'[c0 + (i * N + j)]? = some (cellSum zero add mul A B K
        (fun k => a0 + i * l0 + k * l1) (fun k => b0 + k * r0 + j * r1))) ∧
      ∀ p, p < c0 ∨ c0 + M * N ≤ p → C'[p]? = C[p]? := by
  by_cases h0 : M = 0 ∨ N = 0
  · refine ⟨C, ?_, rfl, fun i j hi hj => by omega, fun _ _ => rfl⟩
    unfold gemm
    have : tilePairs M N = [] := by
      rcases h0 with rfl | rfl <;> simp [tilePairs]
    rw [this]
    split <;> rfl
  · obtain ⟨C', e1, e2, e3, e4⟩ := gemm_ok (zero := zero) (add := add) (mul := mul) (ta := transposed l1)
      (tb := transposed r1) (beta := false) (M := M) (N := N) (K := K) (a0 := a0) (lda := leading l0 l1 M K)
      (b0 := b0) (ldb := leading r0 r1 K N) (c0 := c0) (A := A) (B := B) (C := C) (by
        have h1 := leading_ge (s0 := l0) (s1 := l1) (rows := M) (cols := K)
        have h2 := leading_ge (s0 := r0) (s1 := r1) (rows := K) (cols := N)
        unfold legal
        simp only [Bool.and_eq_true, decide_eq_true_eq]
        refine ⟨⟨Nat.max_le.mpr ⟨Nat.le_trans ?_ h1, h1⟩, Nat.max_le.mpr ⟨Nat.le_trans ?_ h2, h2⟩⟩, by omega⟩ <;>
          split <;> omega)
      (fun i k hi hk => by rw [opAddr_leading hul hl hi hk]; exact hA i k hi hk)
      (fun k j hk hj => by rw [opAddr_leading hur hr hk hj]; exact hB k j hk hj) hC
    refine ⟨C', e1, e2, fun i j hi hj => ?_, e4⟩
    have hlt := flat_lt hi hj
    rw [e3 i j hi hj, List.getElem?_eq_getElem (by omega)]
    simp only [upd, Bool.false_eq_true, if_false, Option.map_some]
    congr 1
    apply List.foldl_ext
    intro acc k hk
    have hk : k < K := by simpa using hk
    dsimp only
    rw [opAddr_leading hul hl hi hk, opAddr_leading hur hr hk hj]

/-- A loop of `gemm`-like turns, turn `b` filling block `b` of the result. -/
theorem blocks_fold {f : List α → Nat → Res (List α)} {S : Nat} {V : Nat → Nat → α} (B : Nat) (C : List α)
    (hC : C.length = B * S)
    (hf : ∀ (C : List α) b, b < B → C.length = B * S → ∃ C', f C b = .ok C' ∧ C'.length = C.length ∧
      (∀ q, q < S → C'[b * S + q]? = some (V b q)) ∧
      ∀ p, p < b * S ∨ b * S + S ≤ p → C'[p]? = C[p]?) :
    ∃ C', Res.foldL f C (List.range B) = .ok C' ∧ C'.length = B * S ∧
      ∀ b q, b < B → q < S → C'[b * S + q]? = some (V b q) := by
  have key : ∀ n, n ≤ B → ∃ C', Res.foldL f C (List.range n) = .ok C' ∧ C'.length = B * S ∧
      ∀ b q, b < n → q < S → C'[b * S + q]? = some (V b q) := by
    intro n
    induction n with
    | zero => exact fun _ => ⟨C, rfl, hC, by simp⟩
    | succ n ih =>
      intro hn
      obtain ⟨C1, e1, e2, e3⟩ := ih (by omega)
      obtain ⟨C2, g1, g2, g3, g4⟩ := hf C1 n (by omega) e2
      refine ⟨C2, ?_, by omega, ?_⟩
      · rw [List.range_succ, foldL_append, e1, Res.ok_bind, Res.foldL, g1, Res.ok_bind, Res.foldL]
      · intro b q hb hq
        by_cases h : b = n
        · subst h; exact g3 q hq
        · rw [g4, e3 b q (by omega) hq]
          left
          have : (b + 1) * S ≤ n * S := Nat.mul_le_mul_right _ (by omega)
          rw [Nat.succ_mul] at this
          omega
  exact key B (Nat.le_refl B)

/-! ## Batches -/

/-- The batch index at which the kernel reads an operand when it computes batch `bi` of the result: the
coordinates in reverse order, with 0 for unit dimensions. -/
def Spec.readAt (batch bi : List Nat) : List Nat :=
  List.zipWith (fun d i => if d = 1 then 0 else i) batch bi.reverse
open Blas.Spec

theorem batch_fold {dims strides batch bi : List Nat} {M K : Nat} (hd : dims = batch ++ [M, K])
    (hs : strides.length = dims.length) (hb : InRange bi batch) (n off : Nat) (hn : n ≤ batch.length) :
    ∃ r, ((List.range n).reverse.map (· + 1)).foldl (batchStep dims strides batch)
      (.ok (rowMajor (batch.take n) (bi.take n), off)) =
      .ok (r, off + dot ((readAt batch bi).drop (batch.length - n))
        ((strides.take batch.length).drop (batch.length - n))) := by
  have hl := hb.length
  have hdl : dims.length = batch.length + 2 := by rw [hd]; simp
  induction n generalizing off with
  | zero =>
    refine ⟨rowMajor (batch.take 0) (bi.take 0), ?_⟩
    have : (readAt batch bi).drop (batch.length - 0) = [] := by
      apply List.drop_eq_nil_of_le
      simp [readAt, hl]
    rw [this]
    simp [dot]
  | succ n ih =>
    have hnb : n < batch.length := hn
    have hnl : n < bi.length := by omega
    have hlt := (inRange_iff.mp hb).2 n (by omega)
    rw [List.range_succ, List.reverse_append, List.reverse_singleton, List.singleton_append, List.map_cons,
      List.foldl_cons]
    have hrm : rowMajor (batch.take (n + 1)) (bi.take (n + 1)) =
        rowMajor (batch.take n) (bi.take n) * batch[n] + bi[n] := by
      rw [List.take_succ_eq_append_getElem hnb, List.take_succ_eq_append_getElem hnl,
        rowMajor_append (by simp; omega)]
      simp [rowMajor, numel]
    have hstep : batchStep dims strides batch (.ok (rowMajor (batch.take (n + 1)) (bi.take (n + 1)), off)) (n + 1) =
        .ok (rowMajor (batch.take n) (bi.take n), off +
          (if batch[batch.length - 1 - n] = 1 then 0 else bi[n]) * strides[batch.length - 1 - n]) := by
      have hbn : bi[n] < batch[n] := by
        simpa [List.getD_eq_getElem?_getD, hnl, hnb] using hlt
      have e1 : dims.length - 2 - (n + 1) = batch.length - 1 - n := by omega
      have e2 : dims[batch.length - 1 - n]? = some batch[batch.length - 1 - n] := by
        rw [hd, List.getElem?_append_left (by omega), List.getElem?_eq_getElem]
      simp only [batchStep, Res.ok_bind, Nat.add_sub_cancel, readC, List.getElem?_eq_getElem hnb, e1]
      rw [if_neg (by omega), if_neg (by omega), e2, List.getElem?_eq_getElem (by omega), hrm]
      simp only [Res.ok_bind]
      rw [Nat.add_comm (_ * _) bi[n], Nat.add_mul_mod_self_right, Nat.mod_eq_of_lt hbn,
        Nat.add_mul_div_right _ _ (by omega), Nat.div_eq_of_lt hbn, Nat.zero_add]
    rw [hstep]
    obtain ⟨r, hr⟩ := ih _ (by omega)
    refine ⟨r, ?_⟩
    rw [hr, Nat.add_assoc]
    have hz : batch.length - (n + 1) < (readAt batch bi).length := by simp [readAt, hl]; omega
    have ht : batch.length - (n + 1) < (strides.take batch.length).length := by simp; omega
    rw [List.drop_eq_getElem_cons hz, List.drop_eq_getElem_cons ht, dot,
      show batch.length - (n + 1) + 1 = batch.length - n by omega]
    simp only [readAt, List.getElem_zipWith, List.getElem_reverse, List.getElem_take,
      show batch.length - (n + 1) = batch.length - 1 - n by omega,
      show bi.length - 1 - (batch.length - 1 - n) = n by omega]

theorem batchOffset_eq {dims strides batch bi : List Nat} {M K : Nat} (hd : dims = batch ++ [M, K])
    (hs : strides.length = dims.length) (hb : InRange bi batch) :
    batchOffset dims strides batch (rowMajor batch bi) =
      .ok (dot (readAt batch bi) (strides.take batch.length)) := by
  obtain ⟨r, hr⟩ := batch_fold hd hs hb batch.length 0 (Nat.le_refl _)
  rw [List.take_length, ← hb.length, List.take_length, hb.length] at hr
  unfold batchOffset
  rw [hr]
  simp [Res.map]

/-- The batch loop. -/
theorem batch_cells {zero : α} {add mul : α → α → α} {lhs rhs buf : List α} {m : MatmulMeta} {B : Nat}
    {la lb : Nat → Nat} {l0 l1 r0 r1 : Nat} (h1 : m.ls.getD (m.ld.length - 2) 0 = l0)
    (h2 : m.ls.getD (m.ld.length - 1) 0 = l1) (h3 : m.rs.getD (m.rd.length - 2) 0 = r0)
    (h4 : m.rs.getD (m.rd.length - 1) 0 = r1) (hul : usable l0 l1 = true) (hur : usable r0 r1 = true)
    (hl : Apart l0 l1 m.M m.K) (hr : Apart r0 r1 m.K m.N) (hK : 0 < m.K)
    (hla : ∀ b, b < B → batchOffset m.ld m.ls m.batch b = .ok (la b))
    (hlb : ∀ b, b < B → batchOffset m.rd m.rs m.batch b = .ok (lb b))
    (hA : ∀ b i k, b < B → i < m.M → k < m.K → m.lo + la b + i * l0 + k * l1 < lhs.length)
    (hB : ∀ b k j, b < B → k < m.K → j < m.N → m.ro + lb b + k * r0 + j * r1 < rhs.length)
    (hbuf : buf.length = B * (m.M * m.N)) :
    ∃ s, Res.foldL (batchGemm zero add mul lhs rhs m) buf (List.range B) = .ok s ∧
      s.length = B * (m.M * m.N) ∧ ∀ b i j, b < B → i < m.M → j < m.N →
        s[b * (m.M * m.N) + (i * m.N + j)]? = some (cellSum zero add mul lhs rhs m.K
          (fun k => m.lo + la b + i * l0 + k * l1) (fun k => m.ro + lb b + k * r0 + j * r1)) := by
  obtain ⟨s, e1, e2, e3⟩ := blocks_fold (f := batchGemm zero add mul lhs rhs m) (S := m.M * m.N)
    (V := fun b q => cellSum zero add mul lhs rhs m.K
          (fun k => m.lo + la b + q / m.N * l0 + k * l1) (fun k => m.ro + lb b + k * r0 + q % m.N * r1))
    B buf hbuf (by
      intro C b hb hC
      have hbS : b * (m.M * m.N) + m.M * m.N ≤ C.length := by
        rw [hC, ← Nat.succ_mul]
        exact Nat.mul_le_mul_right _ hb
      obtain ⟨C', g1, g2, g3, g4⟩ := gemm_prod (zero := zero) (add := add) (mul := mul) hul hur hl hr hK
        (fun i k => hA b i k hb) (fun k j => hB b k j hb) hbS
      refine ⟨C', ?_, g2, ?_, g4⟩
      · unfold batchGemm
        simp only [h1, h2, h3, h4, hla b hb, hlb b hb, Res.ok_bind]
        exact g1
      · intro q hq
        have hN : 0 < m.N := Nat.pos_of_ne_zero (by intro h; simp [h] at hq)
        have := g3 (q / m.N) (q % m.N) (Nat.div_lt_of_lt_mul (by rwa [Nat.mul_comm] at hq)) (Nat.mod_lt _ hN)
        rwa [Nat.mul_comm (q / m.N), Nat.div_add_mod] at this)
  refine ⟨s, e1, e2, fun b i j hb hi hj => ?_⟩
  have := e3 b (i * m.N + j) hb (flat_lt hi hj)
  rwa [Nat.add_comm (i * m.N) j, Nat.add_mul_div_right _ _ (by omega), Nat.div_eq_of_lt hj, Nat.zero_add,
    Nat.add_mul_mod_self_right, Nat.mod_eq_of_lt hj, Nat.add_comm j] at this

end Hodu.Blas
