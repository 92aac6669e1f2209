import Verif.Props.EinsumParse
import Verif.Props.SumToShape
import Verif.Props.Indexing
import Verif.Lemmas.Meta

/-!
# C27: einsum computes the sum of products
-/

namespace Hodu
open Spec

/-! ## Specification -/

/-- The value of label `l` when the output labels have coordinates `o` and the summed labels `c`. -/
def Spec.labelValue (out : List Char) (o : List Nat) (summed : List Char) (c : List Nat) (l : Char) : Nat :=
  ((out.zip o).lookup l).getD (((summed.zip c).lookup l).getD 0)

/-! ## Decomposition loops -/

/-- Setting the positions `ids` to `idx`; of repeated positions the first one wins. -/
def putVals (vals : List Nat) : List Nat → List Nat → List Nat
  | id :: ids, i :: idx => (putVals vals ids idx).set id i
  | _, _ => vals

theorem putVals_length (vals ids idx : List Nat) : (putVals vals ids idx).length = vals.length := by
  induction ids generalizing idx with
  | nil => simp [putVals]
  | cons id ids ih => cases idx <;> simp [putVals, ih]

theorem putVals_get {vals ids idx : List Nat} {k : Nat} (hl : ids.length = idx.length) (hk : k < vals.length) :
    (putVals vals ids idx)[k]? = some (((ids.zip idx).lookup k).getD (vals.getD k 0)) := by
  induction ids generalizing idx with
  | nil => simp [putVals, hk]
  | cons id ids ih =>
    cases idx with
    | nil => simp at hl
    | cons i idx =>
      simp only [putVals, List.zip_cons_cons, List.lookup_cons]
      by_cases h : k = id
      · subst h
        rw [List.getElem?_set_self (by rw [putVals_length]; exact hk)]
        simp
      · rw [List.getElem?_set_ne (by omega), ih (by simpa using hl)]
        have : (k == id) = false := by simp [h]
        simp [this]

theorem einsumCoords_ok {vals dims ids idx : List Nat} {q : Nat} (hi : InRange idx dims)
    (hl : ids.length = dims.length) (hb : ∀ id ∈ ids, id < vals.length) :
    einsumCoords vals (dims.zip ids) (q * numel dims + rowMajor dims idx) = .ok (putVals vals ids idx, q) := by
  induction dims generalizing ids idx q with
  | nil =>
    cases idx with
    | cons _ _ => exact absurd hi (by simp [InRange])
    | nil =>
      cases ids with
      | nil => simp [einsumCoords, putVals, numel, rowMajor]
      | cons _ _ => simp at hl
  | cons d ds ih =>
    cases idx with
    | nil => exact absurd hi (by simp [InRange])
    | cons i is =>
      cases ids with
      | nil => simp at hl
      | cons id ids =>
        obtain ⟨h1, h2⟩ := hi
        have e : q * numel (d :: ds) + rowMajor (d :: ds) (i :: is) = (q * d + i) * numel ds + rowMajor ds is := by
          simp only [numel, rowMajor]; ring
        rw [List.zip_cons_cons, einsumCoords, e, ih h2 (by simpa using hl) (fun x hx => hb x (by simp [hx])),
          Res.ok_bind, if_neg (by omega), if_pos (by rw [putVals_length]; exact hb id (by simp))]
        simp only [putVals]
        have e1 : (q * d + i) % d = i := by
          rw [Nat.add_comm, Nat.add_mul_mod_self_right, Nat.mod_eq_of_lt h1]
        have e2 : (q * d + i) / d = q := by
          rw [Nat.add_comm, Nat.add_mul_div_right _ _ (by omega), Nat.div_eq_of_lt h1, Nat.zero_add]
        rw [e1, e2]

theorem einsumFlat_ok {vals ids ss : List Nat} (acc : Nat) (hb : ∀ id ∈ ids, id < vals.length) :
    einsumFlat vals ids ss acc = .ok (acc + dot (ids.map (vals.getD · 0)) ss) := by
  induction ids generalizing ss acc with
  | nil => simp [einsumFlat, dot]
  | cons id ids ih =>
    cases ss with
    | nil => simp [einsumFlat, dot]
    | cons s ss =>
      have h := hb id (by simp)
      rw [einsumFlat, readC_ok h, Res.ok_bind, ih _ (fun x hx => hb x (by simp [hx]))]
      simp [dot, h, Nat.add_assoc]

/-- An operand with the index ids of its dimensions. -/
def einsumInputOf (p : Tensor α × List Nat) : EinsumInput := ⟨p.1.layout.strides, p.1.layout.offset, p.2⟩

theorem einsumProduct_ok {ld : α → A} {mul : A → A → A} {vals : List Nat} {L : List (Tensor α × List Nat)}
    {xs : List α} (hb : ∀ p ∈ L, ∀ id ∈ p.2, id < vals.length)
    (hx : L.map (fun p => p.1.elem (p.2.map (vals.getD · 0))) = xs.map some) (pre : List (List α)) (acc : A) :
    einsumProduct ld mul (pre ++ L.map (·.1.storage)) vals acc pre.length (L.map einsumInputOf) =
      .ok (xs.foldl (fun a x => mul a (ld x)) acc) := by
  induction L generalizing xs pre acc with
  | nil =>
    cases xs with
    | nil => rfl
    | cons _ _ => simp at hx
  | cons p L ih =>
    cases xs with
    | nil => simp at hx
    | cons x xs =>
      simp only [List.map_cons, List.cons.injEq] at hx
      obtain ⟨hx1, hx2⟩ := hx
      simp only [List.map_cons, einsumProduct]
      have hr : readC (pre ++ p.1.storage :: L.map (·.1.storage)) pre.length = .ok p.1.storage := by
        rw [readC_eq_ok]; simp
      rw [hr, Res.ok_bind]
      simp only [einsumInputOf]
      rw [einsumFlat_ok 0 (hb p (by simp)), Res.ok_bind, Nat.zero_add, readC_eq_ok.mpr hx1, Res.ok_bind]
      have := ih (fun q hq => hb q (by simp [hq])) hx2 (pre ++ [p.1.storage]) (mul acc (ld x))
      simp only [List.append_assoc, List.singleton_append, List.length_append, List.length_cons,
        List.length_nil, Nat.zero_add] at this
      exact this

/-- The summation loop: the label values outside the summed labels stay, so every term is as expected. -/
theorem einsumSum_ok {add : A → A → A} {body : List Nat → Nat → Res (List Nat × A)} {Inv : List Nat → Prop}
    {term : Nat → A} {l : List Nat}
    (h : ∀ v, Inv v → ∀ i ∈ l, ∃ v', body v i = .ok (v', term i) ∧ Inv v') {v : List Nat} (hv : Inv v) (acc : A) :
    ∃ v', Res.foldL (fun (s : List Nat × A) i => (body s.1 i).bind fun r => .ok (r.1, add s.2 r.2)) (v, acc) l =
      .ok (v', (l.map term).foldl add acc) := by
  induction l generalizing v acc with
  | nil => exact ⟨v, rfl⟩
  | cons i is ih =>
    obtain ⟨v', h1, h2⟩ := h v hv i (by simp)
    obtain ⟨v'', h3⟩ := ih (fun w hw j hj => h w hw j (by simp [hj])) h2 (add acc (term i))
    refine ⟨v'', ?_⟩
    simp only [Res.foldL, h1, Res.ok_bind, List.map_cons, List.foldl_cons]
    exact h3

/-! ## Metadata -/

/-- The metadata of one operand. -/
def einsumSection (p : Tensor α × List Nat) : List Nat :=
  p.1.dims.length :: (p.1.dims ++ (p.1.layout.strides ++ (p.1.layout.offset :: p.2)))

theorem slice16_ok {md mid rest : List Nat} {s n : Nat} (h : At md s (mid ++ rest)) (hn : mid.length = n)
    (h16 : n ≤ 16) : slice16 md s n = .ok mid := by
  unfold slice16
  rw [if_neg (by omega), h.slice hn]

theorem einsumReadInputs_ok {md rest : List Nat} {L : List (Tensor α × List Nat)} {pos : Nat}
    (h : At md pos (L.flatMap einsumSection ++ rest))
    (hL : ∀ p ∈ L, p.1.layout.strides.length = p.1.dims.length ∧ p.2.length = p.1.dims.length ∧
      p.1.dims.length ≤ 16) :
    ∃ pos', einsumReadInputs md L.length pos = .ok (L.map einsumInputOf, pos') ∧ At md pos' rest := by
  induction L generalizing pos with
  | nil => exact ⟨pos, rfl, by simpa using h⟩
  | cons p L ih =>
    obtain ⟨h1, h2, h3⟩ := hL p (by simp)
    have e : (p :: L).flatMap einsumSection ++ rest = p.1.dims.length :: (p.1.dims ++ (p.1.layout.strides ++
        (p.1.layout.offset :: (p.2 ++ (L.flatMap einsumSection ++ rest))))) := by
      simp [einsumSection, List.append_assoc]
    rw [e] at h
    have a1 := h.next (pos + 1) rfl
    have a2 := a1.skip (n := p.1.dims.length) rfl (pos + 1 + p.1.dims.length) rfl
    have a3 := a2.skip (n := p.1.dims.length) h1 (pos + 1 + p.1.dims.length + p.1.dims.length) rfl
    have a4 := a3.next (pos + 1 + p.1.dims.length + p.1.dims.length + 1) rfl
    have a5 := a4.skip (n := p.1.dims.length) h2
      (pos + 1 + p.1.dims.length + p.1.dims.length + 1 + p.1.dims.length) rfl
    obtain ⟨pos', h4, h5⟩ := ih a5 (fun q hq => hL q (by simp [hq]))
    refine ⟨pos', ?_, h5⟩
    rw [List.length_cons, einsumReadInputs, h.read, Res.ok_bind, slice16_ok a1 rfl h3, Res.ok_bind,
      slice16_ok a2 h1 h3, Res.ok_bind, a3.read, Res.ok_bind, slice16_ok a4 h2 h3, Res.ok_bind, h4, Res.ok_bind]
    rfl

theorem einsumParse_ok {nOut : Nat} {out cids sizes oids : List Nat} {L : List (Tensor α × List Nat)}
    (hL : ∀ p ∈ L, p.1.layout.strides.length = p.1.dims.length ∧ p.2.length = p.1.dims.length ∧
      p.1.dims.length ≤ 16) (h4 : L.length ≤ 4) (ho : out.length ≤ 16) (hs : sizes.length ≤ 16)
    (hc : cids.length ≤ 16) (hoi : oids.length = out.length) :
    einsumParse (nOut :: L.length :: sizes.length :: cids.length :: out.length ::
      (out ++ (L.flatMap einsumSection ++ (cids ++ (sizes ++ oids))))) =
      .ok ⟨nOut, out, L.map einsumInputOf, cids, sizes, oids⟩ := by
  have a0 := At.start (nOut :: L.length :: sizes.length :: cids.length :: out.length ::
      (out ++ (L.flatMap einsumSection ++ (cids ++ (sizes ++ oids)))))
  generalize hmd : nOut :: L.length :: sizes.length :: cids.length :: out.length ::
      (out ++ (L.flatMap einsumSection ++ (cids ++ (sizes ++ oids)))) = md at a0 ⊢
  have a0 : At md 0 (nOut :: L.length :: sizes.length :: cids.length :: out.length ::
      (out ++ (L.flatMap einsumSection ++ (cids ++ (sizes ++ oids))))) := by rw [hmd]; exact a0
  have a1 := a0.next 1 rfl
  have a2 := a1.next 2 rfl
  have a3 := a2.next 3 rfl
  have a4 := a3.next 4 rfl
  have a5 := a4.next 5 rfl
  have a6 := a5.skip rfl (5 + out.length) rfl
  obtain ⟨pos, hp, a7⟩ := einsumReadInputs_ok a6 hL
  have a8 := a7.skip rfl (pos + cids.length) rfl
  have a9 := a8.skip rfl (pos + cids.length + sizes.length) rfl
  have a9' : At md (pos + cids.length + sizes.length) (oids ++ []) := by simpa using a9
  unfold einsumParse
  rw [a0.read, Res.ok_bind, a1.read, Res.ok_bind, a2.read, Res.ok_bind, a3.read, Res.ok_bind, a4.read,
    Res.ok_bind, slice16_ok a5 rfl ho, Res.ok_bind, if_neg (by omega), hp, Res.ok_bind]
  simp only
  rw [slice16_ok a7 rfl hc, Res.ok_bind, slice16_ok a8 rfl hs, Res.ok_bind, slice16_ok a9' hoi ho, Res.ok_bind]

/-! ## Labels -/

theorem lookup_zip_map {ids : Char → Nat} {labels : List Char} {xs : List Nat} {l : Char}
    (hinj : ∀ c ∈ labels, ids c = ids l → c = l) :
    ((labels.map ids).zip xs).lookup (ids l) = (labels.zip xs).lookup l := by
  induction labels generalizing xs with
  | nil => rfl
  | cons c cs ih =>
    cases xs with
    | nil => rfl
    | cons x xs =>
      simp only [List.map_cons, List.zip_cons_cons, List.lookup_cons]
      rw [ih (fun d hd => hinj d (by simp [hd]))]
      by_cases h : l = c
      · subst h; simp
      · have h1 : (l == c) = false := by simp [h]
        have h2 : (ids l == ids c) = false := by
          simp only [beq_eq_false_iff_ne, ne_eq]
          intro e
          exact h (hinj c (by simp) e.symm).symm
        rw [h1, h2]

theorem lookup_zip_none {labels : List Char} {xs : List Nat} {l : Char} (h : l ∉ labels) :
    (labels.zip xs).lookup l = none := by
  induction labels generalizing xs with
  | nil => rfl
  | cons c cs ih =>
    cases xs with
    | nil => rfl
    | cons x xs =>
      simp only [List.mem_cons, not_or] at h
      have h1 : (l == c) = false := by simp [h.1]
      simp only [List.zip_cons_cons, List.lookup_cons, h1, ih h.2]

theorem lookup_zip_mem {f : Char → Nat} {labels : List Char} {xs : List Nat} {k v : Nat}
    (h : ((labels.map f).zip xs).lookup k = some v) : ∃ d ∈ labels, f d = k := by
  induction labels generalizing xs with
  | nil => simp at h
  | cons c cs ih =>
    cases xs with
    | nil => simp at h
    | cons x xs =>
      by_cases hc : k = f c
      · exact ⟨c, by simp, hc.symm⟩
      · have h1 : (k == f c) = false := by simp [hc]
        simp only [List.map_cons, List.zip_cons_cons, List.lookup_cons, h1] at h
        obtain ⟨d, hd, e⟩ := ih h
        exact ⟨d, by simp [hd], e⟩

theorem lookup_zip_lt {labels : List Char} {size : Char → Nat} {xs : List Nat} {l : Char}
    (hx : InRange xs (labels.map size)) (h : l ∈ labels) :
    ∃ v, (labels.zip xs).lookup l = some v ∧ v < size l := by
  induction labels generalizing xs with
  | nil => simp at h
  | cons c cs ih =>
    cases xs with
    | nil => exact absurd hx (by simp [InRange])
    | cons x xs =>
      obtain ⟨h1, h2⟩ := hx
      simp only [List.zip_cons_cons, List.lookup_cons]
      by_cases hc : l = c
      · subst hc
        exact ⟨x, by simp, h1⟩
      · have h3 : (l == c) = false := by simp [hc]
        simp only [h3]
        exact ih h2 (by simpa [hc] using h)

theorem idxOf_inj {all : List Char} {c d : Char} (hc : c ∈ all) (h : all.idxOf c = all.idxOf d) : c = d := by
  have h1 : all.idxOf c < all.length := List.idxOf_lt_length_iff.mpr hc
  have e1 : all[all.idxOf c]'h1 = c := List.getElem_idxOf h1
  have h2 : all.idxOf d < all.length := by omega
  have e2 : all[all.idxOf d]'h2 = d := List.getElem_idxOf h2
  rw [← e1, ← e2]
  simp only [h]

theorem einsumSections_ok {p : ParsedEinsum} {i : Nat} {ts : List (Tensor α)} {subs : List (List Char)}
    (hs : p.inputs.drop i = subs) (hl : ts.length = subs.length) (hm : ∀ s ∈ subs, ∀ c ∈ s, c ∈ p.all) :
    einsumSections p i (ts.map (·.layout)) =
      .ok ((ts.zip (subs.map fun s => s.map p.all.idxOf)).flatMap einsumSection) := by
  induction ts generalizing i subs with
  | nil =>
    rfl
  | cons t ts ih =>
    cases subs with
    | nil => simp at hl
    | cons s ss =>
      have hi : p.inputs[i]? = some s := by
        have := congrArg (fun l => l[0]?) hs
        simpa using this
      have hd : p.inputs.drop (i + 1) = ss := by
        rw [← List.drop_drop, hs]; rfl
      have hmap : Res.mapL p.id s = .ok (s.map p.all.idxOf) := by
        apply Res.mapL_eq_ok_of
        intro c hc
        unfold ParsedEinsum.id
        rw [if_pos (List.idxOf_lt_length_iff.mpr (hm s (by simp) c hc))]
      rw [List.map_cons, einsumSections, ParsedEinsum.dimToIndex, readR_eq_ok.mpr hi, Res.ok_bind, hmap,
        Res.ok_bind, ih hd (by simpa using hl) (fun s' hs' => hm s' (by simp [hs'])), Res.ok_bind]
      simp [einsumSection, Tensor.dims]

theorem mapL_id {p : ParsedEinsum} {l : List Char} (h : ∀ c ∈ l, c ∈ p.all) :
    Res.mapL p.id l = .ok (l.map p.all.idxOf) := by
  apply Res.mapL_eq_ok_of
  intro c hc
  unfold ParsedEinsum.id
  rw [if_pos (List.idxOf_lt_length_iff.mpr (h c hc))]

theorem mapL_size {p : ParsedEinsum} {l : List Char} (h : ∀ c ∈ l, (p.sizes.lookup c).isSome) :
    Res.mapL p.size l = .ok (l.map fun c => (p.sizes.lookup c).getD 0) := by
  apply Res.mapL_eq_ok_of
  intro c hc
  obtain ⟨n, hn⟩ := Option.isSome_iff_exists.mp (h c hc)
  simp [ParsedEinsum.size, hn]

/-- C27 for the backend call with the layouts of all operands (at most 4 operands, ranks and number of
labels at most 16, no output dimension of size 0; the operands may be any views): the element at output
index `o` is the sum, over all coordinates `c` of the summed labels, of the product of the operands' elements
at the label values.  If an output label is repeated its first coordinate counts.
Missing: `Tensor::einsum` itself, which hands over the wrong layouts (see below), and the limits above. -/
theorem C27_kernel_partial (zero one : A) (add mul : A → A → A) (ld : α → A) (st : A → β)
    {eq : List Char} {ts : List (Tensor α)} {p : ParsedEinsum}
    (hp : ParsedEinsum.parse eq (ts.map (·.dims)) = .ok p) (hw : ∀ t ∈ ts, t.WF) (h4 : ts.length ≤ 4)
    (hrank : ∀ t ∈ ts, t.dims.length ≤ 16) (hall : p.all.length ≤ 16) (hout : p.output.length ≤ 16)
    (hne : ∀ c ∈ p.output, ¬ LabelSize p.inputs (ts.map (·.dims)) c 0) :
    ∃ (r : Tensor β) (cdims : List Nat),
      callEinsum zero one add mul ld st (ts.map (·.storage)) (ts.map (·.layout)) p = .ok r ∧ r.WF ∧
      p.outputShape = .ok r.dims ∧ cdims.length = p.contraction.length ∧
      (∀ (j : Nat) (c : Char), p.contraction[j]? = some c →
        ∃ n, cdims[j]? = some n ∧ LabelSize p.inputs (ts.map (·.dims)) c n) ∧
      ∀ o, InRange o r.dims → ∃ X : List Nat → List α,
        (∀ c, InRange c cdims → (ts.zip p.inputs).map (fun q =>
          q.1.elem (q.2.map (labelValue p.output o p.contraction c))) = (X c).map some) ∧
        r.elem o = some (st (((allIndices cdims).map fun c =>
          (X c).foldl (fun a x => mul a (ld x)) one).foldl add zero)) := by
  have hs := C26_sound hp
  -- sizes
  let size : Char → Nat := fun c => (p.sizes.lookup c).getD 0
  have hsize : ∀ c n, LabelSize p.inputs (ts.map (·.dims)) c n → p.sizes.lookup c = some n ∧ size c = n := by
    intro c n h
    have := (hs.sizes c n).mpr h
    exact ⟨this, by simp [size, this]⟩
  have hhas : ∀ c, c ∈ p.all → (p.sizes.lookup c).isSome ∧ LabelSize p.inputs (ts.map (·.dims)) c (size c) := by
    intro c hc
    obtain ⟨n, hn⟩ := (label_has_size hs.operands hs.ranks).mp ((hs.labels c).mp hc)
    obtain ⟨h1, h2⟩ := hsize c n hn
    exact ⟨by simp [h1], by rw [h2]; exact hn⟩
  have hoall : ∀ c ∈ p.output, c ∈ p.all := fun c hc => (hs.labels c).mpr (hs.outputLabels c hc)
  have hcall : ∀ c ∈ p.contraction, c ∈ p.all := fun c hc => (hs.labels c).mpr ((hs.summed c).mp hc).1
  have hsall : ∀ s ∈ p.inputs, ∀ c ∈ s, c ∈ p.all := fun s hs' c hc => (hs.labels c).mpr ⟨s, hs', hc⟩
  have hinlen : ts.length = p.inputs.length := by rw [hs.operands]; simp
  have hnodup : p.all.Nodup := hs.sorted.imp (fun h => by
    intro e; subst e; exact absurd h (Char.lt_irrefl _))
  have hclen : p.contraction.length ≤ 16 := by
    have hn : p.contraction.Nodup := hs.summedSorted.imp (fun h => by
      intro e; subst e; exact absurd h (Char.lt_irrefl _))
    have := (List.subperm_of_subset hn hcall).length_le
    omega
  have hshape : p.outputShape = .ok (p.output.map size) :=
    mapL_size fun c hc => (hhas c (hoall c hc)).1
  -- the operands with the index ids of their dimensions
  let L : List (Tensor α × List Nat) := ts.zip (p.inputs.map fun s => s.map p.all.idxOf)
  have hL1 : L.map (·.1.storage) = ts.map (·.storage) := by
    have : L.map Prod.fst = ts := List.map_fst_zip (by simp [hinlen])
    calc L.map (·.1.storage) = (L.map Prod.fst).map (·.storage) := by rw [List.map_map]; rfl
      _ = _ := by rw [this]
  have hpair : ∀ t s, (t, s) ∈ ts.zip p.inputs → t.dims = s.map size ∧ (∀ c ∈ s, c ∈ p.all) := by
    intro t s hm
    obtain ⟨i, hi⟩ := List.mem_iff_getElem?.mp hm
    rw [List.getElem?_zip_eq_some] at hi
    have hd : (ts.map (·.dims))[i]? = some t.dims := by rw [List.getElem?_map, hi.1]; rfl
    have hlen := hs.ranks i s t.dims hi.2 hd
    refine ⟨?_, hsall s (List.mem_of_getElem? hi.2)⟩
    apply List.ext_getElem?
    intro j
    by_cases hj : j < s.length
    · have e1 : t.dims[j]? = some (t.dims[j]'(by omega)) := List.getElem?_eq_getElem _
      have e2 : s[j]? = some s[j] := List.getElem?_eq_getElem _
      rw [List.getElem?_map, e2, e1, Option.map_some, (hsize _ _ ⟨i, j, s, t.dims, hi.2, hd, e2, e1⟩).2]
    · rw [List.getElem?_eq_none (by omega), List.getElem?_eq_none (by simpa using hj)]
  have hLmem : ∀ q ∈ L, ∃ s, (q.1, s) ∈ ts.zip p.inputs ∧ q.2 = s.map p.all.idxOf := by
    intro q hq
    have : q ∈ (ts.zip p.inputs).map (Prod.map id fun s => s.map p.all.idxOf) := by
      rw [← List.zip_map_right]; exact hq
    rw [List.mem_map] at this
    obtain ⟨⟨t, s⟩, h1, rfl⟩ := this
    exact ⟨s, h1, rfl⟩
  have hL : ∀ q ∈ L, q.1.layout.strides.length = q.1.dims.length ∧ q.2.length = q.1.dims.length ∧
      q.1.dims.length ≤ 16 := by
    intro q hq
    obtain ⟨s, h1, h2⟩ := hLmem q hq
    have ht := (List.of_mem_zip h1).1
    refine ⟨(hw _ ht).1, ?_, hrank _ ht⟩
    rw [h2, (hpair _ _ h1).1]; simp
  have hLlen : L.length = ts.length := by simp [L, hinlen]
  have hout0 : ∀ c ∈ p.output, 0 < size c := by
    intro c hc
    rcases Nat.eq_zero_or_pos (size c) with h | h
    · have := (hhas c (hoall c hc)).2
      rw [h] at this
      exact absurd this (hne c hc)
    · exact h
  have hnum : 0 < numel (p.output.map size) := by
    have : ∀ l : List Char, (∀ c ∈ l, 0 < size c) → 0 < numel (l.map size) := by
      intro l
      induction l with
      | nil => simp [numel]
      | cons c cs ih =>
        intro h
        exact Nat.mul_pos (h c (by simp)) (ih (fun d hd => h d (by simp [hd])))
    exact this _ hout0
  -- metadata and its decoding
  have hmd : einsumMetadata p (ts.map (·.layout)) (p.output.map size) =
      .ok (numel (p.output.map size) :: L.length :: (p.all.map size).length ::
        (p.contraction.map p.all.idxOf).length :: (p.output.map size).length ::
        (p.output.map size ++ (L.flatMap einsumSection ++ (p.contraction.map p.all.idxOf ++
          (p.all.map size ++ p.output.map p.all.idxOf))))) := by
    unfold einsumMetadata
    rw [einsumSections_ok (subs := p.inputs) rfl hinlen hsall, Res.ok_bind, mapL_id hcall, Res.ok_bind,
      mapL_size (fun c hc => (hhas c hc).1), Res.ok_bind, mapL_id hoall, Res.ok_bind, shapeSize_eq,
      Nat.max_eq_left hnum]
    simp only [List.length_map, hLlen]
    rfl
  have hparse := einsumParse_ok (nOut := numel (p.output.map size)) (out := p.output.map size)
    (cids := p.contraction.map p.all.idxOf) (sizes := p.all.map size) (oids := p.output.map p.all.idxOf) hL
    (by omega) (by simpa using hout) (by simpa using hall) (by simpa using hclen) (by simp)
  have hcsz : Res.mapL (readC (p.all.map size)) (p.contraction.map p.all.idxOf) =
      .ok (p.contraction.map size) := by
    have : ∀ l : List Char, (∀ c ∈ l, c ∈ p.all) →
        Res.mapL (readC (p.all.map size)) (l.map p.all.idxOf) = .ok (l.map size) := by
      intro l
      induction l with
      | nil => intro _; rfl
      | cons c cs ih =>
        intro h
        have hc : p.all.idxOf c < p.all.length := List.idxOf_lt_length_iff.mpr (h c (by simp))
        have hr : readC (p.all.map size) (p.all.idxOf c) = .ok (size c) := by
          rw [readC_eq_ok, List.getElem?_map, List.getElem?_eq_getElem hc, List.getElem_idxOf hc]; rfl
        rw [List.map_cons, Res.mapL, hr, Res.ok_bind, ih (fun d hd => h d (by simp [hd]))]
        rfl
    exact this _ hcall
  have hid16 : ∀ l : List Char, (∀ c ∈ l, c ∈ p.all) → ∀ id ∈ l.map p.all.idxOf, id < 16 := by
    intro l h id hid
    obtain ⟨c, hc, rfl⟩ := List.mem_map.mp hid
    have : p.all.idxOf c < p.all.length := List.idxOf_lt_length_iff.mpr (h c hc)
    omega
  -- the terms
  have hterm : ∀ o, InRange o (p.output.map size) → ∃ X : List Nat → List α, ∀ c,
      InRange c (p.contraction.map size) → (ts.zip p.inputs).map (fun q =>
        q.1.elem (q.2.map (labelValue p.output o p.contraction c))) = (X c).map some := by
    intro o ho
    have hex : ∀ c, ∃ x : List α, InRange c (p.contraction.map size) → (ts.zip p.inputs).map (fun q =>
        q.1.elem (q.2.map (labelValue p.output o p.contraction c))) = x.map some := by
      intro c
      by_cases hc : InRange c (p.contraction.map size)
      · obtain ⟨x, hx⟩ := exists_vals (L := ts.zip p.inputs) (f := fun q =>
          q.1.elem (q.2.map (labelValue p.output o p.contraction c))) (fun q hq => by
            obtain ⟨t, s⟩ := q
            obtain ⟨h1, h2⟩ := hpair t s hq
            apply Option.isSome_iff_exists.mp
            apply (hw t (List.of_mem_zip hq).1).2
            rw [h1, inRange_iff]
            refine ⟨by simp, fun k hk hk' => ?_⟩
            simp only [List.getElem_map]
            have hks : k < s.length := by simpa using hk
            have hm := h2 s[k] (List.getElem_mem _)
            by_cases hom : s[k]'(by simpa using hk) ∈ p.output
            · obtain ⟨v, hv, hlt⟩ := lookup_zip_lt ho hom
              simp only [labelValue, hv, Option.getD_some]
              exact hlt
            · have hcm := (hs.summed _).mpr ⟨(hs.labels _).mp hm, hom⟩
              obtain ⟨v, hv, hlt⟩ := lookup_zip_lt hc hcm
              simp only [labelValue, lookup_zip_none hom, Option.getD_none, hv, Option.getD_some]
              exact hlt)
        exact ⟨x, fun _ => hx⟩
      · exact ⟨[], fun h => absurd h hc⟩
    exact ⟨fun c => (hex c).choose, fun c => (hex c).choose_spec⟩
  -- one output element
  have hval : ∀ o, InRange o (p.output.map size) → ∀ X : List Nat → List α, (∀ c,
      InRange c (p.contraction.map size) → (ts.zip p.inputs).map (fun q =>
        q.1.elem (q.2.map (labelValue p.output o p.contraction c))) = (X c).map some) →
      ((einsumCoords (List.replicate 16 0) ((p.output.map size).zip (p.output.map p.all.idxOf))
        (rowMajor (p.output.map size) o)).bind fun r =>
      (Res.foldL (fun (s : List Nat × A) cIdx =>
        (einsumCoords s.1 ((p.contraction.map size).zip (p.contraction.map p.all.idxOf)) cIdx).bind fun v =>
        (einsumProduct ld mul (ts.map (·.storage)) v.1 one 0 (L.map einsumInputOf)).bind fun p =>
          .ok (v.1, add s.2 p))
        ((r.1, zero) : List Nat × A) (List.range (numel (p.contraction.map size)))).bind fun s =>
          .ok (st s.2)) = .ok (st (((allIndices (p.contraction.map size)).map fun c =>
          (X c).foldl (fun a x => mul a (ld x)) one).foldl add zero)) := by
    intro o ho X hX
    have hc0 := einsumCoords_ok (vals := List.replicate 16 0) (ids := p.output.map p.all.idxOf) (q := 0) ho
      (by simp) (by simpa using hid16 _ hoall)
    rw [Nat.zero_mul, Nat.zero_add] at hc0
    rw [hc0, Res.ok_bind]
    simp only
    let base := putVals (List.replicate 16 0) (p.output.map p.all.idxOf) o
    have hbase : base.length = 16 := by simp [base, putVals_length]
    obtain ⟨v', hv'⟩ := einsumSum_ok (add := add)
      (body := fun w cIdx =>
        (einsumCoords w ((p.contraction.map size).zip (p.contraction.map p.all.idxOf)) cIdx).bind fun v =>
        (einsumProduct ld mul (ts.map (·.storage)) v.1 one 0 (L.map einsumInputOf)).bind fun p => .ok (v.1, p))
      (Inv := fun w => w.length = 16 ∧ ∀ k, k ∉ p.contraction.map p.all.idxOf → w[k]? = base[k]?)
      (term := fun i => (X (unravel (p.contraction.map size) i)).foldl (fun a x => mul a (ld x)) one)
      (l := List.range (numel (p.contraction.map size)))
      (fun w hw' i hi => by
        obtain ⟨hw1, hw2⟩ := hw'
        rw [List.mem_range] at hi
        have hc := unravel_inRange hi
        have hcl : (p.contraction.map p.all.idxOf).length = (unravel (p.contraction.map size) i).length := by
          rw [hc.length]; simp
        have h1 := einsumCoords_ok (vals := w) (ids := p.contraction.map p.all.idxOf) (q := 0) hc
          (by simp) (by rw [hw1]; exact hid16 _ hcall)
        rw [Nat.zero_mul, Nat.zero_add, rowMajor_unravel hi] at h1
        generalize hcdef : unravel (p.contraction.map size) i = c at *
        let w' := putVals w (p.contraction.map p.all.idxOf) c
        have hw'len : w'.length = 16 := by simp [w', putVals_length, hw1]
        -- the value of every label
        have hlab : ∀ l ∈ p.all, w'.getD (p.all.idxOf l) 0 = labelValue p.output o p.contraction c l := by
          intro l hl
          have hl16 : p.all.idxOf l < 16 := by
            have : p.all.idxOf l < p.all.length := List.idxOf_lt_length_iff.mpr hl
            omega
          have hg : w'[p.all.idxOf l]? = some ((((p.contraction.map p.all.idxOf).zip c).lookup
              (p.all.idxOf l)).getD (w.getD (p.all.idxOf l) 0)) :=
            putVals_get hcl (by omega)
          rw [List.getD_eq_getElem?_getD, hg, Option.getD_some,
            lookup_zip_map (fun d hd e => idxOf_inj (hcall d hd) e)]
          unfold labelValue
          by_cases hom : l ∈ p.output
          · have hnc : l ∉ p.contraction := fun h => ((hs.summed l).mp h).2 hom
            have hnid : p.all.idxOf l ∉ p.contraction.map p.all.idxOf := by
              intro h
              obtain ⟨d, hd, he⟩ := List.mem_map.mp h
              exact hnc (idxOf_inj (hcall d hd) he ▸ hd)
            rw [lookup_zip_none hnc, Option.getD_none, List.getD_eq_getElem?_getD, hw2 _ hnid]
            have hol : (p.output.map p.all.idxOf).length = o.length := by rw [ho.length]; simp
            have hb : base[p.all.idxOf l]? = _ := putVals_get (vals := List.replicate 16 0) hol (by simpa using hl16)
            rw [hb, Option.getD_some, lookup_zip_map (fun d hd e => idxOf_inj (hoall d hd) e)]
            obtain ⟨v, hv, _⟩ := lookup_zip_lt ho hom
            rw [hv, Option.getD_some, Option.getD_some]
          · have hcm := (hs.summed l).mpr ⟨(hs.labels l).mp hl, hom⟩
            obtain ⟨v, hv, _⟩ := lookup_zip_lt hc hcm
            rw [lookup_zip_none hom, hv, Option.getD_some, Option.getD_none, Option.getD_some]
        have hprod := einsumProduct_ok (ld := ld) (mul := mul) (vals := w') (L := L) (xs := X c)
          (fun q hq id hid => by
            obtain ⟨s, hs1, hs2⟩ := hLmem q hq
            rw [hs2] at hid
            rw [hw'len]
            exact hid16 s (hpair _ _ hs1).2 id hid)
          (by
            rw [← hX c hc]
            have e : L = (ts.zip p.inputs).map (Prod.map id fun s => s.map p.all.idxOf) := by
              rw [← List.zip_map_right]
            rw [e, List.map_map]
            apply List.map_congr_left
            intro q hq
            obtain ⟨t, s⟩ := q
            simp only [Function.comp_apply, Prod.map_apply, id_eq, List.map_map]
            congr 1
            apply List.map_congr_left
            intro l hl
            exact hlab l ((hpair t s hq).2 l hl))
          [] one
        rw [List.nil_append, hL1, List.length_nil] at hprod
        refine ⟨w', ?_, hw'len, ?_⟩
        · rw [h1, Res.ok_bind]
          simp only
          rw [hprod, Res.ok_bind]
        · intro k hk
          by_cases hk16 : k < 16
          · have hg : w'[k]? = some ((((p.contraction.map p.all.idxOf).zip c).lookup k).getD (w.getD k 0)) :=
              putVals_get hcl (by omega)
            have hnone : ((p.contraction.map p.all.idxOf).zip c).lookup k = none := by
              cases hq : ((p.contraction.map p.all.idxOf).zip c).lookup k with
              | none => rfl
              | some v =>
                obtain ⟨d, hd, e⟩ := lookup_zip_mem hq
                exact absurd (List.mem_map.mpr ⟨d, hd, e⟩) hk
            rw [hg, hnone, Option.getD_none, ← hw2 k hk, List.getD_eq_getElem?_getD,
              List.getElem?_eq_getElem (by omega), Option.getD_some]
          · rw [List.getElem?_eq_none (by omega), List.getElem?_eq_none (by omega)])
      (v := base) ⟨hbase, fun _ _ => rfl⟩ zero
    have hbody : (fun (s : List Nat × A) cIdx =>
        (einsumCoords s.1 ((p.contraction.map size).zip (p.contraction.map p.all.idxOf)) cIdx).bind fun v =>
        (einsumProduct ld mul (ts.map (·.storage)) v.1 one 0 (L.map einsumInputOf)).bind fun p =>
          (Res.ok (v.1, add s.2 p) : Res (List Nat × A))) =
        (fun (s : List Nat × A) i => (((einsumCoords s.1 ((p.contraction.map size).zip
          (p.contraction.map p.all.idxOf)) i).bind fun v =>
        (einsumProduct ld mul (ts.map (·.storage)) v.1 one 0 (L.map einsumInputOf)).bind fun p =>
          (Res.ok (v.1, p) : Res (List Nat × A))).bind fun r => .ok (r.1, add s.2 r.2))) := by
      funext s i
      cases einsumCoords s.1 ((p.contraction.map size).zip (p.contraction.map p.all.idxOf)) i with
      | ok v =>
        simp only [Res.ok_bind]
        cases einsumProduct ld mul (ts.map (·.storage)) v.1 one 0 (L.map einsumInputOf) <;> rfl
      | err => rfl
      | panic => rfl
      | ub => rfl
    rw [hbody, hv', Res.ok_bind]
    simp only [allIndices, List.map_map]
    rfl
  obtain ⟨zs, hz1, hz2, hz3⟩ := runLoop_elem (out := p.output.map size) (val := fun outIdx =>
      ((einsumCoords (List.replicate 16 0) ((p.output.map size).zip (p.output.map p.all.idxOf))
        outIdx).bind fun r =>
      (Res.foldL (fun (s : List Nat × A) cIdx =>
        (einsumCoords s.1 ((p.contraction.map size).zip (p.contraction.map p.all.idxOf)) cIdx).bind fun v =>
        (einsumProduct ld mul (ts.map (·.storage)) v.1 one 0 (L.map einsumInputOf)).bind fun p =>
          .ok (v.1, add s.2 p))
        ((r.1, zero) : List Nat × A) (List.range (numel (p.contraction.map size)))).bind fun s =>
          .ok (st s.2))) (fun o ho => by
      obtain ⟨X, hX⟩ := hterm o ho
      exact ⟨_, hval o ho X hX⟩)
  refine ⟨⟨zs, Layout.fromShape (p.output.map size)⟩, p.contraction.map size, ?_, fresh_wf hz2.symm, hshape,
    by simp, ?_, ?_⟩
  · unfold callEinsum
    rw [hshape, Res.ok_bind, hmd, Res.ok_bind]
    unfold einsumKernel
    rw [hparse, Res.ok_bind]
    simp only
    rw [hcsz, Res.ok_bind]
    simp only [shapeSize_eq]
    rw [if_neg (by omega)]
    have e : (p.contraction.map size).foldl (· * ·) 1 = numel (p.contraction.map size) := by
      rw [foldl_mul_eq, Nat.one_mul]
    rw [e, hz1, Res.ok_bind]
  · intro j c hj
    exact ⟨size c, by rw [List.getElem?_map, hj]; rfl, (hhas c (hcall c (List.mem_of_getElem? hj))).2⟩
  · intro o ho
    obtain ⟨X, hX⟩ := hterm o ho
    exact ⟨X, hX, hz3 o ho _ (hval o ho X hX)⟩

/-- Integer instance for the examples. -/
def exEinsum (eq : String) (ts : List (Tensor Int)) : Res (Tensor Int) :=
  (ParsedEinsum.parse eq.toList (ts.map (·.dims))).bind fun p =>
    callEinsum 0 1 (· + ·) (· * ·) id id (ts.map (·.storage)) (ts.map (·.layout)) p

/-- A 2×2 matrix stored after one unrelated element, and a transposed view. -/
def exA : Tensor Int := ⟨[99, 1, 2, 3, 4], ⟨[2, 2], [2, 1], 1⟩⟩

/-- See `exA`. -/
def exB : Tensor Int := ⟨[5, 6, 7, 8], ⟨[2, 2], [1, 2], 0⟩⟩

theorem exA_wf : exA.WF := by
  refine ⟨rfl, fun idx hi => ?_⟩
  obtain ⟨i, j, rfl, hi, hj⟩ : ∃ i j, idx = [i, j] ∧ i < 2 ∧ j < 2 := by
    match idx, hi with
    | [i, j], h => exact ⟨i, j, rfl, h.1, h.2.1⟩
  interval_cases i <;> interval_cases j <;> decide

theorem exB_wf : exB.WF := by
  refine ⟨rfl, fun idx hi => ?_⟩
  obtain ⟨i, j, rfl, hi, hj⟩ : ∃ i j, idx = [i, j] ∧ i < 2 ∧ j < 2 := by
    match idx, hi with
    | [i, j], h => exact ⟨i, j, rfl, h.1, h.2.1⟩
  interval_cases i <;> interval_cases j <;> decide

example : exEinsum "ij,jk->ik" [exA, exB] = .ok ⟨[17, 23, 39, 53], Layout.fromShape [2, 2]⟩ := by
  decide +kernel

example : exEinsum "ii->" [exA] = .ok ⟨[5], Layout.fromShape []⟩ := by decide +kernel

example : exEinsum "ij->iij" [exB] = .ok ⟨[5, 7, 5, 7, 6, 8, 6, 8], Layout.fromShape [2, 2, 2]⟩ := by
  decide +kernel

/-- The hypotheses of `C27_kernel_partial` hold for the product of `exA` and `exB`. -/
example : ∃ (r : Tensor Int), exEinsum "ij,jk->ik" [exA, exB] = .ok r ∧ r.WF := by
  have hp : ParsedEinsum.parse "ij,jk->ik".toList ([exA, exB].map (·.dims)) =
    .ok ⟨[['i', 'j'], ['j', 'k']], ['i', 'k'], ['j'], ['i', 'j', 'k'], [('i', 2), ('j', 2), ('k', 2)]⟩ := by
    decide +kernel
  obtain ⟨r, _, h1, h2, _⟩ := C27_kernel_partial (0 : Int) 1 (· + ·) (· * ·) id id hp
    (by
      intro t ht
      simp only [List.mem_cons, List.not_mem_nil, or_false] at ht
      rcases ht with rfl | rfl
      · exact exA_wf
      · exact exB_wf)
    (by decide) (by decide) (by decide) (by decide) (by
      intro c hc h
      have := ((C26_sound hp).sizes c 0).mpr h
      simp only [List.mem_cons, List.not_mem_nil, or_false] at hc
      rcases hc with rfl | rfl <;> exact absurd this (by decide))
  refine ⟨r, ?_, h2⟩
  unfold exEinsum
  rw [hp, Res.ok_bind]
  exact h1

/-! ## `Tensor::einsum` -/

theorem kernel_without_inputs (zero one : A) (add mul : A → A → A) (ld : α → A) (st : A → β)
    (bufs bufs' : List (List α)) (outLen : Nat) {md : List Nat} (h : readC md 1 = .ok 0) :
    einsumKernel zero one add mul ld st bufs outLen md = einsumKernel zero one add mul ld st bufs' outLen md := by
  unfold einsumKernel
  cases hp : einsumParse md with
  | ok m =>
    have hi : m.inputs = [] := by
      unfold einsumParse at hp
      simp only [Res.bind_eq_ok] at hp
      obtain ⟨_, _, n, hn, _, _, _, _, _, _, _, _, hp⟩ := hp
      rw [h] at hn
      injection hn with hn
      subst hn
      rw [if_neg (by omega)] at hp
      simp only [einsumReadInputs, Res.ok_bind, Res.bind_eq_ok] at hp
      obtain ⟨_, _, _, _, _, _, hp⟩ := hp
      injection hp with hp
      rw [← hp]
    simp only [Res.ok_bind, hi, einsumProduct]
  | err => rfl
  | panic => rfl
  | ub => rfl

theorem Res.bind_congr_ok {γ δ : Type} {x : Res γ} {f g : γ → Res δ}
    (h : ∀ a, x = .ok a → f a = g a) : x.bind f = x.bind g := by
  cases x with
  | ok a => exact h a rfl
  | err => rfl
  | panic => rfl
  | ub => rfl

/-- C27 is false of `Tensor::einsum` with one operand: the layout of the first operand is never passed on,
the kernel sees no operand at all, and the result only depends on the shape. -/
theorem C27_one_operand_ignored (zero one : A) (add mul : A → A → A) (ld : α → A) (st : A → β)
    (eq : List Char) {t t' : Tensor α} (h : t.dims = t'.dims) :
    Tensor.einsum zero one add mul ld st eq [t] = Tensor.einsum zero one add mul ld st eq [t'] := by
  unfold Tensor.einsum
  simp only [List.length_cons, List.length_nil, Nat.zero_add, List.map_cons, List.map_nil, List.drop_succ_cons,
    List.drop_nil, h]
  rw [if_neg (by omega), if_neg (by omega), if_neg (by omega), if_neg (by omega)]
  refine Res.bind_congr_ok fun p _ => ?_
  simp only [callEinsum]
  refine Res.bind_congr_ok fun out _ => ?_
  refine Res.bind_congr_ok fun md hm => ?_
  have h1 : readC md 1 = .ok 0 := by
    unfold einsumMetadata at hm
    simp only [Res.bind_eq_ok] at hm
    obtain ⟨_, _, _, _, _, _, _, _, hm⟩ := hm
    injection hm with hm
    rw [← hm]
    rfl
  rw [kernel_without_inputs zero one add mul ld st [t.storage] [t'.storage] _ h1]

/-- In particular the trace of `[[1, 2], [3, 4]]` comes out as 2. -/
theorem C27_trace_wrong : Tensor.einsum (0 : Int) 1 (· + ·) (· * ·) id id "ii->".toList
    [⟨[1, 2, 3, 4], Layout.fromShape [2, 2]⟩] = .ok ⟨[2], Layout.fromShape []⟩ := by decide +kernel

/-- With two operands the kernel sees the first storage with the layout of the second operand: the dot
product of `[1, 2]` and `[3, 4]` comes out as 3. -/
theorem C27_dot_wrong : Tensor.einsum (0 : Int) 1 (· + ·) (· * ·) id id "i,i->".toList
    [⟨[1, 2], Layout.fromShape [2]⟩, ⟨[3, 4], Layout.fromShape [2]⟩] = .ok ⟨[3], Layout.fromShape []⟩ := by
  decide +kernel

/-- An output without elements: the kernel is told to compute one element, divides by the size 0 and
writes to an empty buffer. -/
theorem C27_empty_output_ub : exEinsum "i->i" [⟨[], Layout.fromShape [0]⟩] = .ub := by decide +kernel

/-- More than 16 labels overrun the label arrays of the kernel. -/
theorem C27_many_labels_ub :
    exEinsum "abcdefgh,ijklmnopq->" [⟨[1], Layout.fromShape [1, 1, 1, 1, 1, 1, 1, 1]⟩,
      ⟨[1], Layout.fromShape [1, 1, 1, 1, 1, 1, 1, 1, 1]⟩] = .ub := by
  let all : List Char := ['a', 'b', 'c', 'd', 'e', 'f', 'g', 'h', 'i', 'j', 'k', 'l', 'm', 'n', 'o', 'p', 'q']
  have hp : ParsedEinsum.parse "abcdefgh,ijklmnopq->".toList
      [[1, 1, 1, 1, 1, 1, 1, 1], [1, 1, 1, 1, 1, 1, 1, 1, 1]] =
      .ok ⟨[all.take 8, all.drop 8], [], all, all, all.map fun c => (c, 1)⟩ := by
    decide +kernel
  unfold exEinsum
  rw [show ([⟨[1], Layout.fromShape [1, 1, 1, 1, 1, 1, 1, 1]⟩,
      ⟨[1], Layout.fromShape [1, 1, 1, 1, 1, 1, 1, 1, 1]⟩] : List (Tensor Int)).map (·.dims) =
      [[1, 1, 1, 1, 1, 1, 1, 1], [1, 1, 1, 1, 1, 1, 1, 1, 1]] from rfl, hp, Res.ok_bind]
  decide +kernel

end Hodu
