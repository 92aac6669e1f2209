import Verif.Model.WindowRules
import Verif.Lemmas.Compose
import Verif.Props.Window
import Verif.Props.MatmulGrad
import Verif.Props.Cumsum

/-!
# C84: the backward rules of the sliding-window reductions
-/

namespace Hodu
open Spec

/-! ## Specification -/

/-- The windows cut the input into blocks, one per output position, or there is one output position with stride 1 (per
dimension): every input element lies in exactly one window. -/
def Spec.Tiles : List Nat → List (Nat × Nat) → List Nat → List Nat → List Nat → Prop
  | d :: ds, (lo, _) :: ps, w :: ws, s :: ss, o :: os =>
    0 < s ∧ (lo = 0 ∧ w = s ∧ d = o * s ∨ o = 1 ∧ s = 1 ∧ lo + d ≤ w) ∧ Tiles ds ps ws ss os
  | [], [], [], [], [] => True
  | _, _, _, _, _ => False

/-- `gx` is the gradient of `f` at `g`: adjoint to `f` for all inputs of the shape. -/
def Spec.IsLinearVjp [CommSemiring R] (f : Tensor R → Res (Tensor R)) (inDims : List Nat) (g gx : Tensor R) : Prop :=
  gx.WF ∧ gx.dims = inDims ∧
  ∀ x', x'.WF → x'.dims = inDims → ∃ y, f x' = .ok y ∧ y.dims = g.dims ∧ inner g y = inner gx x'

/-! ## Repeating elements -/

/-- A tensor of shape `d` with elements `F`, in any layout. -/
structure Rd (t : Tensor α) (d : List Nat) (F : List Nat → α) : Prop where
  wf : t.WF
  dims : t.dims = d
  vals : ∀ idx, InRange idx d → t.elem idx = some (F idx)

/-- Not a contiguous tensor behind the front of its buffer. -/
def FrontOrStrided (t : Tensor α) : Prop := t.layout.isContiguous = false ∨ t.layout.offset = 0

theorem Rd.val {t : Tensor α} {d : List Nat} {F : List Nat → α} (h : Rd t d F) (ho : FrontOrStrided t) : Val t d F :=
  ⟨h.wf, h.dims, ho, h.vals⟩

theorem Rd.reshape {t : Tensor α} {d nd : List Nat} {F : List Nat → α} (h : Rd t d F) (hn : numel nd = numel d) :
    ∃ r, t.reshape nd = .ok r ∧ Rd r nd (fun j => F (unravel d (rowMajor nd j))) ∧
      (FrontOrStrided t → FrontOrStrided r) := by
  obtain ⟨s, o, c1, c2, c3⟩ := contiguous_spec h.wf
  have hnt : numel nd = numel t.dims := by rw [h.dims]; exact hn
  have hr : t.reshape nd = .ok ⟨s, ⟨nd, Layout.computeStrides nd, o⟩⟩ := by
    have h1 : t.layout.size = shapeSize nd := by
      rw [Layout.size, shapeSize_eq, shapeSize_eq]; exact hnt.symm
    have h2 : (⟨t.dims, Layout.computeStrides t.dims, o⟩ : Layout).size = shapeSize nd := by
      rw [Layout.size, shapeSize_eq, shapeSize_eq]; exact hnt.symm
    have h3 : (⟨t.dims, Layout.computeStrides t.dims, o⟩ : Layout).isContiguous = true :=
      isContiguous_computeStrides _ _
    simp [Tensor.reshape, h1, Tensor.viewVia, c1, Layout.reshape, h2, h3]
  obtain ⟨g1, g2⟩ := reshape_like h.wf c2 hnt
  refine ⟨_, hr, ⟨g1, rfl, ?_⟩, ?_⟩
  · intro j hj
    have hlt : rowMajor nd j < numel d := by rw [← hn]; exact rowMajor_lt hj
    rw [g2 (unravel d (rowMajor nd j)) j (by rw [h.dims]; exact unravel_inRange hlt) hj
      (by rw [h.dims]; exact rowMajor_unravel hlt)]
    exact h.vals _ (unravel_inRange hlt)
  · intro ho
    right
    show o = 0
    rcases c3 with ⟨c3, _⟩ | ⟨_, c3, c4⟩
    · exact c3
    · rcases ho with hoff | hoff
      · rw [hoff] at c4; simp at c4
      · omega

theorem Rd.broadcast {t : Tensor α} {d target : List Nat} {F : List Nat → α} (h : Rd t d F)
    (hb : BroadcastsTo d target) :
    ∃ r, t.broadcast target = .ok r ∧ Rd r target (fun i => F (broadcastIndex d i)) ∧
      (FrontOrStrided t → FrontOrStrided r) := by
  obtain ⟨r, h1, h2, h3, h4⟩ := (C05_broadcast h.wf target).2 (by rw [h.dims]; exact hb)
  refine ⟨r, h1, ⟨h3, h2, fun idx hi => ?_⟩, fun ho => ?_⟩
  · obtain ⟨g1, g2⟩ := h4 idx hi
    rw [g2, h.dims, h.vals _ (by rw [h.dims] at g1; exact g1)]
  · obtain ⟨r', e1, e2, e3⟩ := (h.val ho).broadcast hb
    rw [h1] at e1
    cases e1
    exact Or.inr e3

theorem getD_mid (a b : List Nat) (n : Nat) : (a ++ n :: b).getD a.length 0 = n := by
  simp [List.getD_eq_getElem?_getD]

theorem set_mid (a b : List Nat) (n m : Nat) : (a ++ n :: b).set a.length m = a ++ m :: b := by
  simp

/-- Repeating the elements along one dimension. -/
theorem upsampleStep_rd {t : Tensor α} {a b : List Nat} {n s : Nat} {F : List Nat → α}
    (h : Rd t (a ++ n :: b) F) (hs : 0 < s) :
    ∃ r, upsampleStep a.length s t = .ok r ∧ (FrontOrStrided t → FrontOrStrided r) ∧
      Rd r (a ++ (n * s) :: b) (fun idx => F (idx.take a.length ++
        (idx.getD a.length 0 / s) :: idx.drop (a.length + 1))) := by
  have hform : ∀ (m : Nat) (idx : List Nat), InRange idx (a ++ m :: b) → ∃ x i y, idx = x ++ i :: y ∧
      x.length = a.length ∧ InRange x a ∧ i < m ∧ InRange y b := by
    intro m idx hi
    obtain ⟨x, i, y, rfl, h2, h3, h4, h5⟩ := inRange_split (k := a.length) (n := m) (by simp) hi
    refine ⟨x, i, y, rfl, h2, by simpa using h4, h3, ?_⟩
    simpa using h5
  unfold upsampleStep
  by_cases h1 : 1 < s
  · rw [if_pos h1, h.dims]
    have hins : (a ++ n :: b).insertIdx (a.length + 1) 1 = a ++ n :: 1 :: b := by
      clear h hform
      induction a with
      | nil => rfl
      | cons c a ih => simp only [List.cons_append, List.length_cons, List.insertIdx_succ_cons, ih]
    have hset : (a ++ n :: 1 :: b).set (a.length + 1) s = a ++ n :: s :: b := by
      rw [show a ++ n :: 1 :: b = (a ++ [n]) ++ 1 :: b by simp, show a.length + 1 = (a ++ [n]).length by simp,
        set_mid]
      simp
    rw [hins, hset, getD_mid, set_mid]
    have e1 : numel (a ++ n :: 1 :: b) = numel (a ++ n :: b) := by simp [numel_append, numel]
    have e2 : numel (a ++ (n * s) :: b) = numel (a ++ n :: s :: b) := by
      simp [numel_append, numel, Nat.mul_assoc]
    obtain ⟨r1, p1, p2, p3⟩ := h.reshape e1
    obtain ⟨r2, q1, q2, q3⟩ := p2.broadcast (target := a ++ n :: s :: b) (by
      refine ⟨by simp, fun k d hk => ?_⟩
      simp only [List.length_append, List.length_cons, Nat.sub_self, Nat.add_zero]
      by_cases hk1 : k = a.length + 1
      · left
        subst hk1
        rw [List.getElem?_append_right (by omega), show a.length + 1 - a.length = 1 by omega] at hk
        simpa using hk.symm
      · right
        rw [← hset, List.getElem?_set_ne (by omega)]
        exact hk)
    obtain ⟨r3, u1, u2, u3⟩ := q2.reshape e2
    refine ⟨r3, by rw [p1, Res.ok_bind, q1, Res.ok_bind, u1], fun ho => u3 (q3 (p3 ho)), u2.wf, u2.dims, ?_⟩
    intro idx hi
    rw [u2.vals idx hi]
    obtain ⟨x, m, y, rfl, hx, hxa, hm, hyb⟩ := hform _ idx hi
    have hdiv : m / s < n := by rw [Nat.div_lt_iff_lt_mul hs]; exact hm
    have hmod : m % s < s := Nat.mod_lt _ hs
    have hin : InRange (x ++ (m / s) :: (m % s) :: y) (a ++ n :: s :: b) :=
      (inRange_append hx).mpr ⟨hxa, hdiv, hmod, hyb⟩
    have hin2 : InRange (x ++ (m / s) :: y) (a ++ n :: b) := (inRange_append hx).mpr ⟨hxa, hdiv, hyb⟩
    have f1 : rowMajor (a ++ (n * s) :: b) (x ++ m :: y) =
        rowMajor (a ++ n :: s :: b) (x ++ (m / s) :: (m % s) :: y) := by
      rw [rowMajor_append hx, rowMajor_append hx]
      simp only [rowMajor, numel]
      have := Nat.div_add_mod m s
      have h5 : m * numel b = (s * (m / s) + m % s) * numel b := by rw [this]
      rw [h5, Nat.add_mul]
      ring
    have f2 : broadcastIndex (a ++ n :: 1 :: b) (x ++ (m / s) :: (m % s) :: y) = x ++ (m / s) :: 0 :: y := by
      unfold broadcastIndex
      have hl : (x ++ (m / s) :: (m % s) :: y).length - (a ++ n :: 1 :: b).length = 0 := by
        have := hyb.length
        simp; omega
      rw [hl, List.drop_zero, List.zipWith_append hx.symm, List.zipWith_cons_cons, List.zipWith_cons_cons]
      have gen : ∀ (c z : List Nat), InRange z c → List.zipWith (fun d i => if d = 1 then 0 else i) c z = z := by
        intro c
        induction c with
        | nil => intro z hz; cases z with | nil => rfl | cons _ _ => exact absurd hz id
        | cons d c ih =>
          intro z hz
          cases z with
          | nil => exact absurd hz id
          | cons i z =>
            rw [List.zipWith_cons_cons, ih z hz.2]
            split
            · have := hz.1; congr 1; omega
            · rfl
      rw [gen a x hxa, gen b y hyb, if_pos rfl]
      congr 2
      split
      · rename_i hn1
        rw [hn1] at hdiv
        exact (Nat.lt_one_iff.mp hdiv).symm
      · rfl
    have f3 : rowMajor (a ++ n :: 1 :: b) (x ++ (m / s) :: 0 :: y) = rowMajor (a ++ n :: b) (x ++ (m / s) :: y) := by
      rw [rowMajor_append hx, rowMajor_append hx]
      simp [rowMajor, numel]
    rw [f1, unravel_rowMajor hin, f2, f3, unravel_rowMajor hin2]
    congr 2
    rw [← hx]
    simp [List.getD_eq_getElem?_getD]
  · have hs1 : s = 1 := by omega
    subst hs1
    rw [if_neg h1]
    refine ⟨t, rfl, id, h.wf, by rw [h.dims, Nat.mul_one], fun idx hi => ?_⟩
    rw [Nat.mul_one] at hi
    rw [h.vals idx hi]
    obtain ⟨x, m, y, rfl, hx, _⟩ := hform _ idx hi
    congr 2
    rw [← hx]
    simp [List.getD_eq_getElem?_getD]

/-- Repeating the elements along all dimensions. -/
theorem upsample_rd {t : Tensor α} {a b ss : List Nat} {F : List Nat → α} (h : Rd t (a ++ b) F)
    (hl : ss.length = b.length) (hs : ∀ s ∈ ss, 0 < s) :
    ∃ r, upsample a.length ss t = .ok r ∧ (FrontOrStrided t → FrontOrStrided r) ∧
      Rd r (a ++ List.zipWith (· * ·) b ss) (fun idx => F (idx.take a.length ++
        List.zipWith (· / ·) (idx.drop a.length) ss)) := by
  induction ss generalizing a b with
  | nil =>
    have hb : b = [] := List.eq_nil_of_length_eq_zero hl.symm
    subst hb
    refine ⟨t, rfl, id, h.wf, by rw [h.dims]; rfl, fun idx hi => ?_⟩
    have : idx.length = a.length := by simpa using hi.length
    rw [h.vals idx (by simpa using hi), ← this]
    simp
  | cons s ss ih =>
    cases b with
    | nil => simp at hl
    | cons n b =>
      obtain ⟨r1, p1, p2, p3⟩ := ih (a := a ++ [n]) (b := b) (by simpa using h) (by simpa using hl)
        (fun s hs' => hs s (by simp [hs']))
      have p3' : Rd r1 (a ++ n :: List.zipWith (· * ·) b ss) (fun idx => F (idx.take (a ++ [n]).length ++
        List.zipWith (· / ·) (idx.drop (a ++ [n]).length) ss)) := by simpa using p3
      obtain ⟨r2, q1, q2, q3⟩ := upsampleStep_rd p3' (hs s (by simp))
      refine ⟨r2, ?_, fun ho => q2 (p2 ho), q3.wf, q3.dims, fun idx hi => ?_⟩
      · rw [upsample]
        rw [show a.length + 1 = (a ++ [n]).length by simp, p1, Res.ok_bind, q1]
      · rw [q3.vals idx hi]
        obtain ⟨x, i, y, rfl, h2, _⟩ := inRange_split (k := a.length) (n := n * s) (by simp) hi
        congr 2
        rw [show (a ++ [n]).length = x.length + 1 by simp [h2], ← h2]
        simp [List.getD_eq_getElem?_getD, List.take_append, List.drop_append,
          List.take_of_length_le (Nat.le_succ x.length), List.drop_eq_nil_of_le (Nat.le_succ x.length)]

/-! ## Which window an element lies in -/

/-- The output position whose window has the input element. -/
def windowOf (os ss idx : List Nat) : List Nat :=
  List.zipWith (· / ·) (broadcastIndex (List.zipWith (· * ·) os ss) idx) ss

theorem Spec.Tiles.lengths {ds ws ss os : List Nat} {ps : List (Nat × Nat)} (h : Tiles ds ps ws ss os) :
    ps.length = ds.length ∧ ws.length = ds.length ∧ ss.length = ds.length ∧ os.length = ds.length ∧
      ∀ s ∈ ss, 0 < s := by
  induction ds generalizing ps ws ss os with
  | nil =>
    cases ps <;> cases ws <;> cases ss <;> cases os <;> first | exact absurd h id | simp
  | cons d ds ih =>
    cases ps <;> cases ws <;> cases ss <;> cases os <;> first | exact absurd h id | skip
    obtain ⟨h1, h2, h3⟩ := h
    obtain ⟨e1, e2, e3, e4, e5⟩ := ih h3
    refine ⟨by simp [e1], by simp [e2], by simp [e3], by simp [e4], fun s hs => ?_⟩
    rcases List.mem_cons.mp hs with rfl | hs
    · exact h1
    · exact e5 s hs

theorem Spec.Tiles.broadcasts {ds ws ss os : List Nat} {ps : List (Nat × Nat)} (h : Tiles ds ps ws ss os) :
    BroadcastsTo (List.zipWith (· * ·) os ss) ds := by
  have hx := h.lengths
  have e3 := hx.2.2.1
  have e4 := hx.2.2.2.1
  have hl : (List.zipWith (· * ·) os ss).length = ds.length := by simp [e3, e4]
  refine ⟨by omega, ?_⟩
  rw [hl, Nat.sub_self]
  clear hl e3 e4 hx
  induction ds generalizing ps ws ss os with
  | nil =>
    cases ps <;> cases ws <;> cases ss <;> cases os <;> first | exact absurd h id | simp
  | cons d ds ih =>
    cases ps <;> cases ws <;> cases ss <;> cases os <;> first | exact absurd h id | skip
    obtain ⟨h1, h2, h3⟩ := h
    intro k e hk
    cases k with
    | zero =>
      simp only [List.zipWith_cons_cons, List.getElem?_cons_zero, Option.some.injEq, Nat.add_zero] at hk ⊢
      rcases h2 with ⟨_, _, h2⟩ | ⟨h2, h2', _⟩
      · exact Or.inr (by rw [h2, hk])
      · left; rw [← hk, h2, h2']
    | succ k => simpa using ih h3 k e (by simpa using hk)

theorem Spec.Tiles.window {ds ws ss os idx : List Nat} {ps : List (Nat × Nat)} (h : Tiles ds ps ws ss os)
    (hi : InRange idx ds) : InRange (windowOf os ss idx) os ∧
      ∀ o, InRange o os → (InWindow ps ss ws o idx ↔ o = windowOf os ss idx) := by
  have hlen := h.lengths
  have hb : ∀ (ds os ss idx : List Nat), InRange idx ds → os.length = ds.length → ss.length = ds.length →
      windowOf os ss idx = List.zipWith (· / ·)
        (List.zipWith (fun d i => if d = 1 then 0 else i) (List.zipWith (· * ·) os ss) idx) ss := by
    intro ds os ss idx hi h1 h2
    unfold windowOf broadcastIndex
    have : idx.length - (List.zipWith (· * ·) os ss).length = 0 := by
      rw [hi.length]; simp [h1, h2]
    rw [this, List.drop_zero]
  rw [hb ds os ss idx hi hlen.2.2.2.1 hlen.2.2.1]
  clear hlen hb
  induction ds generalizing ps ws ss os idx with
  | nil =>
    obtain rfl : idx = [] := List.eq_nil_of_length_eq_zero hi.length
    cases ps <;> cases ws <;> cases ss <;> cases os <;> first | exact absurd h id | skip
    refine ⟨trivial, fun o ho => ?_⟩
    obtain rfl : o = [] := List.eq_nil_of_length_eq_zero ho.length
    simp [InWindow]
  | cons d ds ih =>
    cases ps with
    | nil => exact absurd h id
    | cons q ps =>
    cases ws with
    | nil => exact absurd h id
    | cons w ws =>
    cases ss with
    | nil => exact absurd h id
    | cons s ss =>
    cases os with
    | nil => exact absurd h id
    | cons m os =>
    cases idx with
    | nil => exact absurd hi id
    | cons i idx =>
    obtain ⟨lo, hi'⟩ := q
    obtain ⟨h1, h2, h3⟩ := h
    obtain ⟨hid, hir⟩ := hi
    obtain ⟨g1, g2⟩ := ih h3 hir
    simp only [List.zipWith_cons_cons]
    have hc : (if m * s = 1 then 0 else i) / s < m ∧
        ∀ o, o < m → ((o * s ≤ i + lo ∧ i + lo < o * s + w) ↔ o = (if m * s = 1 then 0 else i) / s) := by
      rcases h2 with ⟨rfl, rfl, rfl⟩ | ⟨rfl, rfl, h2⟩
      · have e : (if m * w = 1 then 0 else i) = i := by split <;> omega
        rw [e, Nat.div_lt_iff_lt_mul h1]
        refine ⟨hid, fun o _ => ?_⟩
        rw [Nat.add_zero]
        constructor
        · rintro ⟨ha, hb⟩
          symm
          rw [Nat.div_eq_iff h1]
          constructor
          · rw [Nat.mul_comm]; rw [Nat.mul_comm] at ha; omega
          · rw [Nat.mul_comm]; rw [Nat.mul_comm] at hb; omega
        · intro ho
          have := Nat.div_add_mod i w
          have hm := Nat.mod_lt i h1
          rw [← ho, Nat.mul_comm] at this
          omega
      · refine ⟨by simp, fun o ho => ?_⟩
        simp; omega
    refine ⟨⟨hc.1, g1⟩, fun o ho => ?_⟩
    cases o with
    | nil => exact absurd ho id
    | cons x o =>
      simp only [InWindow, List.cons.injEq]
      rw [hc.2 x ho.1, g2 o ho.2]

/-- The upstream gradient (or the output), repeated over the windows. -/
theorem windowSumVjp_rd {g : Tensor α} {ds ws ss : List Nat} {ps : List (Nat × Nat)} {G : List Nat → α}
    {os : List Nat} (hg : Rd g os G) (h : Tiles ds ps ws ss os) :
    ∃ r, windowSumVjp g ds ss = .ok r ∧ (FrontOrStrided g → FrontOrStrided r) ∧
      Rd r ds (fun idx => G (windowOf os ss idx)) := by
  obtain ⟨_, _, e3, e4, e5⟩ := h.lengths
  obtain ⟨u, h1, h2, h3⟩ := upsample_rd (a := []) (b := os) (ss := ss) hg (by omega) e5
  simp only [List.length_nil, List.nil_append, List.take_zero, List.drop_zero] at h1 h3
  obtain ⟨r, q1, q2, q3⟩ := h3.broadcast h.broadcasts
  exact ⟨r, by rw [windowSumVjp, h1, Res.ok_bind, q1], fun ho => q3 (h2 ho), q2⟩

theorem Spec.Tiles.fits {ds ws ss os : List Nat} {ps : List (Nat × Nat)} (h : Tiles ds ps ws ss os)
    (hc : WindowCount ds ps ws ss os) (hp : ∀ o ∈ os, 0 < o) : WindowFits ds ps ws ss := by
  induction ds generalizing ps ws ss os with
  | nil => trivial
  | cons d ds ih =>
    cases ps <;> cases ws <;> cases ss <;> cases os <;> first | exact absurd h id | skip
    obtain ⟨h1, h2, h3⟩ := h
    obtain ⟨c1, c2⟩ := hc
    have := (c1 0).mp (hp _ (by simp))
    exact ⟨⟨by omega, h1⟩, ih h3 c2 fun o ho => hp o (by simp [ho])⟩

theorem windowCount_unique {ds ws ss a b : List Nat} {ps : List (Nat × Nat)} (ha : WindowCount ds ps ws ss a)
    (hb : WindowCount ds ps ws ss b) : a = b := by
  induction ds generalizing ps ws ss a b with
  | nil =>
    cases ps <;> cases ws <;> cases ss <;> cases a <;> cases b <;>
      first | rfl | exact absurd ha id | exact absurd hb id
  | cons d ds ih =>
    cases ps <;> cases ws <;> cases ss <;> cases a <;> cases b <;>
      first | exact absurd ha id | exact absurd hb id | skip
    rename_i x a y b
    rw [ih ha.2 hb.2]
    congr 1
    have h1 := (ha.1 y).trans (hb.1 y).symm
    have h2 := (ha.1 x).trans (hb.1 x).symm
    omega

/-- The shapes for which the rules of C84 are right: the recorded arguments, the shape of the result, and windows that
cover every input element exactly once. -/
structure Spec.TiledWindow (ds : List Nat) (ps : List (Nat × Nat)) (ws ss os : List Nat) : Prop where
  rank : ds.length ≤ 16
  tiles : Tiles ds ps ws ss os
  count : WindowCount ds ps ws ss os
  pos : ∀ o ∈ os, 0 < o

theorem rd_of_wf [Zero M] {t : Tensor M} (h : t.WF) : Rd t t.dims (fun i => (t.elem i).getD 0) := by
  refine ⟨h, rfl, fun i hi => ?_⟩
  obtain ⟨x, hx⟩ := h.get hi
  simp [hx]

theorem sum_pick [AddCommMonoid M] {os : List Nat} {o : List Nat} (ho : InRange o os) (p : List Nat → Prop)
    [DecidablePred p] (hp : ∀ q, InRange q os → (p q ↔ q = o)) (G : List Nat → M) :
    (lsum (indices os) fun q => if p q then G q else 0) = G o := by
  have := sum_map_unique (f := fun q => if p q then G q else 0) (indices_nodup os) (mem_indices.mpr ho)
    (fun q hq hne => if_neg fun hpq => hne ((hp q (mem_indices.mp hq)).mp hpq))
  rw [lsum, this]
  exact if_pos ((hp o ho).mpr rfl)

/-! ## The property -/

/-- **C84, sum**: where the windows tile the input, the rule returns the gradient of the windowed sum, for an upstream
gradient of any layout. -/
theorem C84_sum_partial [CommSemiring R] {g : Tensor R} {ds ws ss : List Nat} {ps : List (Nat × Nat)}
    (hg : g.WF) (ht : TiledWindow ds ps ws ss g.dims) :
    ∃ r, windowSumVjp g ds ss = .ok r ∧
      IsLinearVjp (fun x => x.windowFold (· + ·) 0 ws ss ps) ds g r := by
  obtain ⟨e1, e2, e3, e4, e5⟩ := ht.tiles.lengths
  obtain ⟨r, h1, _, h3⟩ := windowSumVjp_rd (rd_of_wf hg) ht.tiles
  refine ⟨r, h1, h3.wf, h3.dims, fun x' hx' hd => ?_⟩
  subst hd
  obtain ⟨y, y1, y2, y3, y4⟩ := C83_sum_partial hx' (rd_of_wf hx').vals ht.rank e2 e3 e1
    (ht.tiles.fits ht.count ht.pos)
  have hyd : y.dims = g.dims := windowCount_unique y3 ht.count
  refine ⟨y, y1, hyd, ?_⟩
  unfold inner sumOver
  rw [h3.dims]
  have hl : ∀ o ∈ indices g.dims, (g.elem o).getD 0 * (y.elem o).getD 0 =
      lsum (indices x'.dims) fun i => if InWindow ps ss ws o i then (g.elem o).getD 0 * (x'.elem i).getD 0 else 0 := by
    intro o ho
    rw [y4 o (by rw [hyd]; exact mem_indices.mp ho), Option.getD_some, mul_lsum]
    exact lsum_congr fun i _ => by split <;> simp
  rw [List.map_congr_left hl]
  show lsum (indices g.dims) (fun o => lsum (indices x'.dims) fun i =>
    if InWindow ps ss ws o i then (g.elem o).getD 0 * (x'.elem i).getD 0 else 0) = _
  rw [lsum_comm]
  apply lsum_congr
  intro i hi
  have hi := mem_indices.mp hi
  obtain ⟨w1, w2⟩ := ht.tiles.window hi
  rw [sum_pick w1 (fun o => InWindow ps ss ws o i) w2 (fun o => (g.elem o).getD 0 * (x'.elem i).getD 0),
    h3.vals i hi]
  rfl

/-- Concrete case: two rows of four, cut into blocks of one row and two columns. -/
example : TiledWindow [2, 4] [(0, 0), (0, 0)] [1, 2] [1, 2] [2, 2] := by
  refine ⟨by decide, ?_, ?_, by decide⟩
  · simp [Tiles]
  · refine ⟨fun o => ?_, fun o => ?_, trivial⟩ <;> constructor <;> omega

example : windowSumVjp (⟨[10, 20, 30, 40], Layout.fromShape [2, 2]⟩ : Tensor Rat) [2, 4] [1, 2] =
    .ok ⟨[10, 10, 20, 20, 30, 30, 40, 40], ⟨[2, 4], [4, 1], 0⟩⟩ := by decide +kernel

/-- **C84, mean**: where the windows tile the input and the factor is the reciprocal of the window's size, the rule
returns the gradient of the windowed mean. -/
theorem C84_mean_partial [Field K] {g : Tensor K} {ds ws ss : List Nat} {ps : List (Nat × Nat)} (hg : g.WF)
    (hgo : FrontOrStrided g) (ht : TiledWindow ds ps ws ss g.dims) (cores : Nat) (fill c : K)
    (hc : c * (numel ws : K) = 1) :
    ∃ r, windowMeanVjp cores (· * ·) fill c g ds ss = .ok r ∧
      IsLinearVjp (fun x => x.windowMean 0 (· + ·) (fun a n => a / (n : K)) ws ss ps) ds g r := by
  obtain ⟨e1, e2, e3, e4, e5⟩ := ht.tiles.lengths
  obtain ⟨u, h1, h2, h3⟩ := windowSumVjp_rd (rd_of_wf hg) ht.tiles
  obtain ⟨r, q1, q2⟩ := (h3.val (h2 hgo)).unary cores (fun v => v * c) fill
  refine ⟨r, by rw [windowMeanVjp, h1, Res.ok_bind, q1], q2.wf, q2.dims, fun x' hx' hd => ?_⟩
  subst hd
  obtain ⟨y, y1, y2, y3, y4⟩ := C83_mean_partial hx' (rd_of_wf hx').vals ht.rank e2 e3 e1
    (ht.tiles.fits ht.count ht.pos)
  have hyd : y.dims = g.dims := windowCount_unique y3 ht.count
  refine ⟨y, y1, hyd, ?_⟩
  unfold inner sumOver
  rw [q2.dims]
  have hdiv : ∀ a : K, a / (numel ws : K) = a * c := by
    intro a
    have hne : (numel ws : K) ≠ 0 := fun h0 => by rw [h0, mul_zero] at hc; exact zero_ne_one hc
    rw [div_eq_iff hne, mul_assoc, hc, mul_one]
  have hl : ∀ o ∈ indices g.dims, (g.elem o).getD 0 * (y.elem o).getD 0 =
      lsum (indices x'.dims) fun i =>
        if InWindow ps ss ws o i then (g.elem o).getD 0 * c * (x'.elem i).getD 0 else 0 := by
    intro o ho
    rw [y4 o (by rw [hyd]; exact mem_indices.mp ho), Option.getD_some, hdiv, mul_comm _ c, ← mul_assoc, mul_lsum]
    exact lsum_congr fun i _ => by split <;> simp
  rw [List.map_congr_left hl]
  show lsum (indices g.dims) (fun o => lsum (indices x'.dims) fun i =>
    if InWindow ps ss ws o i then (g.elem o).getD 0 * c * (x'.elem i).getD 0 else 0) = _
  rw [lsum_comm]
  apply lsum_congr
  intro i hi
  have hi := mem_indices.mp hi
  obtain ⟨w1, w2⟩ := ht.tiles.window hi
  rw [sum_pick w1 (fun o => InWindow ps ss ws o i) w2 (fun o => (g.elem o).getD 0 * c * (x'.elem i).getD 0),
    q2.vals i hi]
  rfl

/-- Concrete case: the mean over blocks of two; the factor is one half. -/
example : (1 / 2 : Rat) * (numel [1, 2] : Nat) = 1 ∧
    windowMeanVjp 1 (· * ·) 0 (1 / 2) (⟨[10, 20, 30, 40], Layout.fromShape [2, 2]⟩ : Tensor Rat) [2, 4] [1, 2] =
      .ok ⟨[5, 5, 10, 10, 15, 15, 20, 20], Layout.fromShape [2, 4]⟩ := by decide +kernel

theorem windowMaxVjp_val [Zero V] [Mul V] [One V] {x out g : Tensor V} {ds ws ss os : List Nat}
    {ps : List (Nat × Nat)} {X O G : List Nat → V} (hx : Val x ds X) (ho : Val out os O) (hg : Val g os G)
    (hpos : ∀ d ∈ ds, 0 < d) (ht : Tiles ds ps ws ss os) (cores : Nat) (fill : V) (eq : V → V → Bool) :
    ∃ r, windowMaxVjp cores (· * ·) eq (fun b => if b then 1 else 0) fill x out g ss = .ok r ∧
      Val r ds (fun idx => G (windowOf os ss idx) * if eq (X idx) (O (windowOf os ss idx)) then 1 else 0) := by
  obtain ⟨uo, a1, a2, a3⟩ := windowSumVjp_rd ⟨ho.wf, ho.dims, ho.vals⟩ ht
  obtain ⟨ug, b1, b2, b3⟩ := windowSumVjp_rd ⟨hg.wf, hg.dims, hg.vals⟩ ht
  obtain ⟨m, m1, m2⟩ := hx.compare (a3.val (a2 ho.off)) hpos eq
  obtain ⟨mf, f1, f2⟩ := m2.unary cores (fun b => if b then (1 : V) else 0) fill
  obtain ⟨r, r1, r2⟩ := (b3.val (b2 hg.off)).binary_same f2 hpos cores (· * ·) fill
  refine ⟨r, ?_, r2⟩
  simp only [windowMaxVjp, hx.dims, a1, b1, Res.ok_bind, m1, f1]
  exact r1

/-- **C84, max**: where the windows tile the input, every element that is a largest of its window receives the gradient
of that window, and every other element receives zero.  (With several largest elements the code's choice is to give the
whole gradient to each of them: `C84_ties`.) -/
theorem C84_max_partial [Semiring V] [LinearOrder V] {x out g : Tensor V} {ws ss : List Nat}
    {ps : List (Nat × Nat)} {X G : List Nat → V} (init : V) (hx : x.WF) (hxv : Reads x X) (hxo : FrontOrStrided x)
    (hg : g.WF) (hgv : Reads g G) (hgo : FrontOrStrided g) (hinit : ∀ idx, InRange idx x.dims → init ≤ X idx)
    (hpos : ∀ d ∈ x.dims, 0 < d) (ht : TiledWindow x.dims ps ws ss g.dims)
    (hout : x.windowFold (cMax fun a b => decide (b < a)) init ws ss ps = .ok out) (cores : Nat) (fill : V) :
    ∃ r, windowMaxVjp cores (· * ·) (fun a b => decide (a = b)) (fun b => if b then 1 else 0) fill x out g ss = .ok r ∧
      r.WF ∧ r.dims = x.dims ∧
      ∀ o idx, InRange o g.dims → InRange idx x.dims → InWindow ps ss ws o idx →
        ((∀ j, InRange j x.dims → InWindow ps ss ws o j → X j ≤ X idx) → r.elem idx = some (G o)) ∧
        ((∃ j, InRange j x.dims ∧ InWindow ps ss ws o j ∧ X idx < X j) → r.elem idx = some 0) := by
  obtain ⟨e1, e2, e3, e4, e5⟩ := ht.tiles.lengths
  have hf := ht.tiles.fits ht.count ht.pos
  obtain ⟨y, y1, y2, y3, y4⟩ := C83_max_partial init hx hxv hinit ht.rank e2 e3 e1 hf
  obtain ⟨y', z1, _, z3, _, _⟩ := C83_fold_partial init (accStep (cMax fun a b => decide (b < a)) init)
    (fun a _ => a) hx ht.rank e2 e3 e1 hf
  obtain rfl : y = out := by rw [hout] at y1; simpa using y1.symm
  obtain rfl : y' = y := by
    have : x.windowFold (cMax fun a b => decide (b < a)) init ws ss ps = .ok y' := z1
    rw [hout] at this; simpa using this.symm
  have hyd : y'.dims = g.dims := windowCount_unique y3 ht.count
  have hyo : FrontOrStrided y' := Or.inr (by rw [z3]; rfl)
  have hyv := rd_of_wf y2
  rw [hyd] at hyv
  obtain ⟨r, r1, r2⟩ := windowMaxVjp_val ⟨hx, rfl, hxo, hxv⟩ (hyv.val hyo) ⟨hg, rfl, hgo, hgv⟩ hpos ht.tiles
    cores fill (fun a b => decide (a = b))
  refine ⟨r, r1, r2.wf, r2.dims, fun o idx ho hi hw => ?_⟩
  obtain ⟨w1, w2⟩ := ht.tiles.window hi
  have hoe := (w2 o ho).mp hw
  obtain ⟨v, v1, v2, v3, _⟩ := y4 o (by rw [hyd]; exact ho)
  obtain ⟨k, k1, k2, k3⟩ := v3 ⟨idx, hi, hw⟩
  rw [r2.vals idx hi, ← hoe, v1, Option.getD_some]
  constructor
  · intro hall
    have : X idx = v := le_antisymm (v2 idx hi hw) (k3 ▸ hall k k1 k2)
    simp [this]
  · rintro ⟨j, j1, j2, j3⟩
    have : X idx ≠ v := fun h0 => absurd (v2 j j1 j2) (by rw [← h0]; exact not_le.mpr j3)
    simp [this]

/-- **C84, min**: likewise for the smallest elements. -/
theorem C84_min_partial [Semiring V] [LinearOrder V] {x out g : Tensor V} {ws ss : List Nat}
    {ps : List (Nat × Nat)} {X G : List Nat → V} (init : V) (hx : x.WF) (hxv : Reads x X) (hxo : FrontOrStrided x)
    (hg : g.WF) (hgv : Reads g G) (hgo : FrontOrStrided g) (hinit : ∀ idx, InRange idx x.dims → X idx ≤ init)
    (hpos : ∀ d ∈ x.dims, 0 < d) (ht : TiledWindow x.dims ps ws ss g.dims)
    (hout : x.windowFold (cMax fun a b => decide (a < b)) init ws ss ps = .ok out) (cores : Nat) (fill : V) :
    ∃ r, windowMaxVjp cores (· * ·) (fun a b => decide (a = b)) (fun b => if b then 1 else 0) fill x out g ss = .ok r ∧
      r.WF ∧ r.dims = x.dims ∧
      ∀ o idx, InRange o g.dims → InRange idx x.dims → InWindow ps ss ws o idx →
        ((∀ j, InRange j x.dims → InWindow ps ss ws o j → X idx ≤ X j) → r.elem idx = some (G o)) ∧
        ((∃ j, InRange j x.dims ∧ InWindow ps ss ws o j ∧ X j < X idx) → r.elem idx = some 0) := by
  obtain ⟨e1, e2, e3, e4, e5⟩ := ht.tiles.lengths
  have hf := ht.tiles.fits ht.count ht.pos
  obtain ⟨y, y1, y2, y3, y4⟩ := C83_min_partial init hx hxv hinit ht.rank e2 e3 e1 hf
  obtain ⟨y', z1, _, z3, _, _⟩ := C83_fold_partial init (accStep (cMax fun a b => decide (a < b)) init)
    (fun a _ => a) hx ht.rank e2 e3 e1 hf
  obtain rfl : y = out := by rw [hout] at y1; simpa using y1.symm
  obtain rfl : y' = y := by
    have : x.windowFold (cMax fun a b => decide (a < b)) init ws ss ps = .ok y' := z1
    rw [hout] at this; simpa using this.symm
  have hyd : y'.dims = g.dims := windowCount_unique y3 ht.count
  have hyo : FrontOrStrided y' := Or.inr (by rw [z3]; rfl)
  have hyv := rd_of_wf y2
  rw [hyd] at hyv
  obtain ⟨r, r1, r2⟩ := windowMaxVjp_val ⟨hx, rfl, hxo, hxv⟩ (hyv.val hyo) ⟨hg, rfl, hgo, hgv⟩ hpos ht.tiles
    cores fill (fun a b => decide (a = b))
  refine ⟨r, r1, r2.wf, r2.dims, fun o idx ho hi hw => ?_⟩
  obtain ⟨w1, w2⟩ := ht.tiles.window hi
  have hoe := (w2 o ho).mp hw
  obtain ⟨v, v1, v2, v3, _⟩ := y4 o (by rw [hyd]; exact ho)
  obtain ⟨k, k1, k2, k3⟩ := v3 ⟨idx, hi, hw⟩
  rw [r2.vals idx hi, ← hoe, v1, Option.getD_some]
  constructor
  · intro hall
    have : X idx = v := le_antisymm (k3 ▸ hall k k1 k2) (v2 idx hi hw)
    simp [this]
  · rintro ⟨j, j1, j2, j3⟩
    have : X idx ≠ v := fun h0 => absurd (v2 j j1 j2) (by rw [← h0]; exact not_le.mpr j3)
    simp [this]

/-- Concrete case: blocks of two of `[1, 5, 7, 2]`; the largest elements are the second and the third. -/
example : (⟨[1, 5, 7, 2], Layout.fromShape [4]⟩ : Tensor Rat).windowFold (cMax fun a b => decide (b < a)) (-100)
      [2] [2] [(0, 0)] = .ok ⟨[5, 7], Layout.fromShape [2]⟩ ∧
    windowMaxVjp 1 (· * ·) (fun a b => decide (a = b)) (fun b => if b then 1 else 0) 0
      (⟨[1, 5, 7, 2], Layout.fromShape [4]⟩ : Tensor Rat) ⟨[5, 7], Layout.fromShape [2]⟩
      ⟨[10, 20], Layout.fromShape [2]⟩ [2] = .ok ⟨[0, 10, 20, 0], Layout.fromShape [4]⟩ := by decide +kernel

/-! ## Where the rules fail -/

/-- Overlapping windows: three elements, windows of two, stride one, one element of padding in front.  The forward
operator is `y = [x0, x0 + x1, x1 + x2]`, so that the gradient of an upstream `[1, 2, 4]` is `[3, 6, 4]`; the rule returns
the upstream gradient unchanged. -/
theorem C84_overlap :
    (⟨[1, 10, 100], Layout.fromShape [3]⟩ : Tensor Rat).windowFold (· + ·) 0 [2] [1] [(1, 0)] =
      .ok ⟨[1, 11, 110], Layout.fromShape [3]⟩ ∧
    windowSumVjp (⟨[1, 2, 4], Layout.fromShape [3]⟩ : Tensor Rat) [3] [1] =
      .ok ⟨[1, 2, 4], Layout.fromShape [3]⟩ := by decide +kernel

/-- A remainder: five elements in blocks of two.  The forward operator accepts it (the last element is in no window);
the rule returns an error. -/
theorem C84_remainder :
    (⟨[1, 2, 3, 4, 5], Layout.fromShape [5]⟩ : Tensor Rat).windowFold (· + ·) 0 [2] [2] [(0, 0)] =
      .ok ⟨[3, 7], Layout.fromShape [2]⟩ ∧
    windowSumVjp (⟨[1, 1], Layout.fromShape [2]⟩ : Tensor Rat) [5] [2] = .err := by decide +kernel

/-- Overlapping windows without padding, the usual case of stride one: the rule returns an error. -/
theorem C84_stride_one :
    (⟨[1, 2, 3], Layout.fromShape [3]⟩ : Tensor Rat).windowFold (· + ·) 0 [2] [1] [(0, 0)] =
      .ok ⟨[3, 5], Layout.fromShape [2]⟩ ∧
    windowSumVjp (⟨[1, 1], Layout.fromShape [2]⟩ : Tensor Rat) [3] [1] = .err := by decide +kernel

/-- Two largest elements in a window both receive the whole gradient. -/
theorem C84_ties :
    windowMaxVjp 1 (· * ·) (fun a b => decide (a = b)) (fun b => if b then 1 else 0) 0
      (⟨[5, 5, 1, 2], Layout.fromShape [4]⟩ : Tensor Rat) ⟨[5, 2], Layout.fromShape [2]⟩
      ⟨[10, 20], Layout.fromShape [2]⟩ [2] = .ok ⟨[10, 10, 0, 20], Layout.fromShape [4]⟩ := by decide +kernel

/-- Without the tiling hypothesis the rule for sums does not return the gradient. -/
theorem C84_full_false : ¬ ∀ (g : Tensor Rat) (ds ws ss : List Nat) (ps : List (Nat × Nat)), g.WF →
    WindowFits ds ps ws ss → WindowCount ds ps ws ss g.dims →
    ∃ r, windowSumVjp g ds ss = .ok r ∧ IsLinearVjp (fun x => x.windowFold (· + ·) 0 ws ss ps) ds g r := by
  intro h
  obtain ⟨r, h1, _, _, h4⟩ := h ⟨[1, 2, 4], Layout.fromShape [3]⟩ [3] [2] [1] [(1, 0)] (fresh_wf (by decide))
    ⟨⟨by decide, by decide⟩, trivial⟩ ⟨fun o => by constructor <;> intro h0 <;> simp at * <;> omega,
      trivial⟩
  rw [C84_overlap.2] at h1
  obtain rfl : _ = r := by simpa using h1
  obtain ⟨y, y1, _, y3⟩ := h4 ⟨[1, 10, 100], Layout.fromShape [3]⟩ (fresh_wf (by decide)) rfl
  dsimp only at y1
  rw [C84_overlap.1] at y1
  obtain rfl : _ = y := by simpa using y1
  revert y3
  decide +kernel

end Hodu
