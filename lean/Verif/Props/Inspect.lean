import Verif.Model.Inspect
import Verif.Props.RunCli

/-!
# C137: `hodu inspect`
-/

namespace Hodu.Inspect

open _root_.Hodu _root_.Hodu.Spec Hodu.Cli

/-! ## The summary -/

theorem bump_mem {t : List (String × Nat)} (hnd : (t.map (·.1)).Nodup) (c : String) :
    ((bump t c).map (·.1)).Nodup ∧ (∀ x, x ∈ (bump t c).map (·.1) ↔ x = c ∨ x ∈ t.map (·.1)) ∧
    ((bump t c).map (·.2)).sum = (t.map (·.2)).sum + 1 ∧
    ∀ d k, (d, k) ∈ bump t c ↔ if d = c then (k = 1 ∧ c ∉ t.map (·.1)) ∨ ∃ j, (c, j) ∈ t ∧ k = j + 1 else (d, k) ∈ t := by
  induction t with
  | nil =>
    refine ⟨by simp [bump], by simp [bump], by simp [bump], fun d k => ?_⟩
    by_cases h : d = c <;> simp [bump, h]
  | cons a t ih =>
    obtain ⟨a, n⟩ := a
    rw [List.map_cons, List.nodup_cons] at hnd
    obtain ⟨i1, i2, i3, i4⟩ := ih hnd.2
    have hna : ∀ j, (a, j) ∉ t := fun j hj => hnd.1 (List.mem_map.mpr ⟨(a, j), hj, rfl⟩)
    by_cases hac : a = c
    · subst hac
      refine ⟨by simpa [bump] using hnd, by simp [bump], by simp [bump]; omega, fun d k => ?_⟩
      by_cases h : d = a
      · subst h
        simp [bump, hna]
      · simp [bump, h]
    · refine ⟨?_, ?_, ?_, fun d k => ?_⟩
      · rw [bump, if_neg hac, List.map_cons, List.nodup_cons]
        refine ⟨fun h => ?_, i1⟩
        rcases (i2 a).mp h with h | h
        · exact hac h
        · exact hnd.1 h
      · intro x
        rw [bump, if_neg hac, List.map_cons, List.mem_cons, i2, List.map_cons, List.mem_cons]
        tauto
      · rw [bump, if_neg hac, List.map_cons, List.sum_cons, i3, List.map_cons, List.sum_cons]
        omega
      · rw [bump, if_neg hac, List.mem_cons, i4]
        have hca : ¬ c = a := fun h => hac h.symm
        by_cases h : d = c
        · subst h
          simp [hca]
        · simp [h]

theorem tally_spec (nodes : List String) :
    ((tally nodes).map (·.1)).Nodup ∧ ((tally nodes).map (·.2)).sum = nodes.length ∧
    (∀ c, c ∈ (tally nodes).map (·.1) ↔ c ∈ nodes) ∧
    ∀ c k, (c, k) ∈ tally nodes ↔ k = nodes.count c ∧ c ∈ nodes := by
  induction nodes using List.reverseRecOn with
  | nil => simp [tally]
  | append_singleton l c ih =>
    obtain ⟨i1, i2, i3, i4⟩ := ih
    have ht : tally (l ++ [c]) = bump (tally l) c := by simp [tally, List.foldl_append]
    obtain ⟨b1, b2, b3, b4⟩ := bump_mem i1 c
    rw [ht]
    refine ⟨b1, by rw [b3, i2]; simp, fun x => by rw [b2, i3]; simp [or_comm], fun d k => ?_⟩
    rw [b4]
    by_cases h : d = c
    · subst h
      rw [if_pos rfl, i3]
      simp only [i4]
      constructor
      · rintro (⟨rfl, h⟩ | ⟨j, ⟨rfl, -⟩, rfl⟩)
        · simp [List.count_eq_zero_of_not_mem h]
        · simp
      · rintro ⟨rfl, -⟩
        by_cases h : d ∈ l
        · exact Or.inr ⟨_, ⟨rfl, h⟩, by simp⟩
        · exact Or.inl ⟨by simp [List.count_eq_zero_of_not_mem h], h⟩
    · have hc : ¬ c = d := fun e => h e.symm
      rw [if_neg h, i4]
      simp [List.count_append, h, hc]

/-- **C137, the operations (partial).**  Whatever order the hash map gives its entries in, the summary lists every category of the
snapshot's nodes once, with the number of nodes of that category and nothing else; the numbers descend and add up to the number of nodes.
Missing: the order of categories with the same number is not determined, C137_order_false. -/
theorem C137_summary_partial (nodes : List String) (order : List (String × Nat)) (h : order.Perm (tally nodes)) :
    (∀ c k, (c, k) ∈ summary order ↔ k = nodes.count c ∧ c ∈ nodes) ∧ ((summary order).map (·.1)).Nodup ∧
    (summary order).Pairwise (fun a b => b.2 ≤ a.2) ∧ ((summary order).map (·.2)).sum = nodes.length := by
  have hp : (summary order).Perm (tally nodes) := (List.mergeSort_perm _ _).trans h
  obtain ⟨t1, t2, -, t4⟩ := tally_spec nodes
  refine ⟨fun c k => by rw [hp.mem_iff, t4], ((hp.map _).nodup_iff).mpr t1, ?_, by rw [(hp.map _).sum_eq, t2]⟩
  have := List.pairwise_mergeSort (le := fun (a b : String × Nat) => decide (b.2 ≤ a.2))
    (fun a b c => by simp only [decide_eq_true_eq]; omega)
    (fun a b => by simp only [Bool.or_eq_true, decide_eq_true_eq]; omega) order
  exact this.imp fun h => by simpa using h

/-- **C137, refuted for the order.**  Two categories with one node each are listed in either order, for the same snapshot. -/
theorem C137_order_false : ∃ o1 o2 : List (String × Nat), o1.Perm (tally ["Unary", "Matrix"]) ∧
    o2.Perm (tally ["Unary", "Matrix"]) ∧ summary o1 ≠ summary o2 :=
  ⟨[("Unary", 1), ("Matrix", 1)], [("Matrix", 1), ("Unary", 1)], by decide, by decide, by
    simp [summary, List.mergeSort]⟩

/-- C137 on five nodes. -/
example : summary (tally ["Matrix", "Unary", "Unary", "Shape", "Unary"]) = [("Unary", 3), ("Matrix", 1), ("Shape", 1)] ∧
    ("Unary", 3) ∈ summary (tally ["Matrix", "Unary", "Unary", "Shape", "Unary"]) :=
  ⟨by simp [summary, tally, bump, List.mergeSort], ((C137_summary_partial _ _ (.refl _)).1 "Unary" 3).mpr (by decide)⟩

/-! ## Sizes -/

theorem round2_near {n u : Nat} (hu : 0 < u) : 2 * (100 * n) ≤ 2 * (round2 n u * u) + u ∧ 2 * (round2 n u * u) ≤ 2 * (100 * n) + u := by
  have h := Nat.div_add_mod (100 * n) u
  have hr := Nat.mod_lt (100 * n) hu
  have hm : 100 * n / u * u = u * (100 * n / u) := Nat.mul_comm _ _
  have hs : (100 * n / u + 1) * u = u * (100 * n / u) + u := by rw [Nat.add_mul, hm, Nat.one_mul]
  simp only [round2]
  split_ifs
  all_goals (try rw [hs]); (try rw [hm]); omega

theorem round2_mono {n m u : Nat} (h : n ≤ m) : round2 n u ≤ round2 m u := by
  have hd : 100 * n / u ≤ 100 * m / u := Nat.div_le_div_right (by omega)
  rcases Nat.lt_or_ge (100 * n / u) (100 * m / u) with hlt | hge
  · simp only [round2]
    split_ifs <;> omega
  · have he : 100 * n / u = 100 * m / u := by omega
    have h1 := Nat.div_add_mod (100 * n) u
    have h2 := Nat.div_add_mod (100 * m) u
    have hr : 100 * n % u ≤ 100 * m % u := by rw [he] at h1; omega
    simp only [round2, he]
    split_ifs <;> omega

/-- Rounding stays at or below a multiple of the unit that the value is below. -/
theorem round2_le {n u k : Nat} (hu : 0 < u) (h : n ≤ k * u) : round2 n u ≤ 100 * k := by
  have h1 := round2_mono (u := u) h
  have : 100 * (k * u) = 100 * k * u := by ring
  have h2 : round2 (k * u) u = 100 * k := by
    simp only [round2, this, Nat.mul_div_cancel _ hu, Nat.mul_mod_left]
    rw [if_pos (by omega)]
  omega

theorem round2_ge {n u k : Nat} (hu : 0 < u) (h : k * u ≤ n) : 100 * k ≤ round2 n u := by
  have h1 := round2_mono (u := u) h
  have : 100 * (k * u) = 100 * k * u := by ring
  have h2 : round2 (k * u) u = 100 * k := by
    simp only [round2, this, Nat.mul_div_cancel _ hu, Nat.mul_mod_left]
    rw [if_pos (by omega)]
  omega

/-- **C137, sizes (partial).**  What is shown is within half a hundredth of the unit of the number of bytes, the unit is the largest of B, KB,
MB and GB that is at most that number (B for less), and more bytes never show as less.  Missing: the number before the unit may be 1024.00,
C137_size_false. -/
theorem C137_size_partial (n m : Nat) :
    (2 * (100 * n) ≤ 2 * ((formatBytes n).hundredths * (formatBytes n).unit) + (formatBytes n).unit ∧
      2 * ((formatBytes n).hundredths * (formatBytes n).unit) ≤ 2 * (100 * n) + (formatBytes n).unit) ∧
    ((formatBytes n).unit ∈ [1, 2 ^ 10, 2 ^ 20, 2 ^ 30] ∧ ((formatBytes n).unit ≤ n ∨ (formatBytes n).unit = 1) ∧
      ∀ u ∈ [1, 2 ^ 10, 2 ^ 20, 2 ^ 30], u ≤ n → u ≤ (formatBytes n).unit) ∧
    (n ≤ m → (formatBytes n).hundredths * (formatBytes n).unit ≤ (formatBytes m).hundredths * (formatBytes m).unit) := by
  refine ⟨?_, ?_, fun h => ?_⟩
  · unfold formatBytes
    split_ifs
    · exact round2_near (by norm_num)
    · exact round2_near (by norm_num)
    · exact round2_near (by norm_num)
    · constructor <;> simp
  · unfold formatBytes
    split_ifs with h1 h2 h3
    · exact ⟨by simp, Or.inl h1, fun u hu _ => by
        simp only [List.mem_cons, List.not_mem_nil, or_false] at hu
        rcases hu with rfl | rfl | rfl | rfl <;> norm_num⟩
    · exact ⟨by simp, Or.inl h2, fun u hu hun => by
        simp only [List.mem_cons, List.not_mem_nil, or_false] at hu
        rcases hu with rfl | rfl | rfl | rfl <;> first | exact absurd hun (by norm_num at h1 ⊢; omega) | norm_num⟩
    · exact ⟨by simp, Or.inl h3, fun u hu hun => by
        simp only [List.mem_cons, List.not_mem_nil, or_false] at hu
        rcases hu with rfl | rfl | rfl | rfl <;> first | exact absurd hun (by norm_num at h1 h2 ⊢; omega) | norm_num⟩
    · exact ⟨by simp, Or.inr rfl, fun u hu hun => by
        simp only [List.mem_cons, List.not_mem_nil, or_false] at hu
        rcases hu with rfl | rfl | rfl | rfl <;> first | exact absurd hun (by norm_num at h1 h2 h3 ⊢; omega) | norm_num⟩
  · have a1 := @round2_mono n m (1024 * 1024 * 1024) h
    have a2 := @round2_mono n m (1024 * 1024) h
    have a3 := @round2_mono n m 1024 h
    have b1 : n ≤ 1024 * (1024 * 1024) → _ := @round2_le n (1024 * 1024) 1024 (by norm_num)
    have b2 : n ≤ 1024 * 1024 → _ := @round2_le n 1024 1024 (by norm_num)
    have c1 : 1 * (1024 * 1024 * 1024) ≤ m → _ := @round2_ge m (1024 * 1024 * 1024) 1 (by norm_num)
    have c2 : 1 * (1024 * 1024) ≤ m → _ := @round2_ge m (1024 * 1024) 1 (by norm_num)
    have c3 : 1 * 1024 ≤ m → _ := @round2_ge m 1024 1 (by norm_num)
    norm_num only at a1 a2 a3 b1 b2 c1 c2 c3
    unfold formatBytes
    norm_num only
    split_ifs <;> simp only <;> omega

theorem round2_tie {n u : Nat} (hu : 0 < u)
    (h : 2 * (round2 n u * u) + u = 2 * (100 * n) ∨ 2 * (round2 n u * u) = 2 * (100 * n) + u) : round2 n u % 2 = 0 := by
  have hd := Nat.div_add_mod (100 * n) u
  have hr := Nat.mod_lt (100 * n) hu
  have hm : 100 * n / u * u = u * (100 * n / u) := Nat.mul_comm _ _
  have hs : (100 * n / u + 1) * u = u * (100 * n / u) + u := by rw [Nat.add_mul, hm, Nat.one_mul]
  revert h
  simp only [round2]
  split_ifs
  all_goals (try rw [hs]); (try rw [hm]); omega

/-- **C137, ties.**  A number of bytes half-way between two hundredths of its unit shows the even one. -/
theorem C137_ties (n : Nat)
    (h : 2 * ((formatBytes n).hundredths * (formatBytes n).unit) + (formatBytes n).unit = 2 * (100 * n) ∨
      2 * ((formatBytes n).hundredths * (formatBytes n).unit) = 2 * (100 * n) + (formatBytes n).unit) :
    (formatBytes n).hundredths % 2 = 0 := by
  revert h
  unfold formatBytes
  split_ifs
  · exact round2_tie (by norm_num)
  · exact round2_tie (by norm_num)
  · exact round2_tie (by norm_num)
  · simp only
    omega

/-- C137 on 2^20 + 2^17 bytes, 1.125 MB, which show as 1.12 MB. -/
example : (formatBytes (2 ^ 20 + 2 ^ 17)).hundredths % 2 = 0 := C137_ties _ (by decide)

/-- **C137, refuted for the unit.**  One byte less than a megabyte is shown as 1024.00 KB. -/
theorem C137_size_false : formatBytes (2 ^ 20 - 1) = ⟨102400, 1024⟩ ∧ formatBytes (2 ^ 30 - 1) = ⟨102400, 2 ^ 20⟩ := by decide

/-- C137 on 1536 bytes (1.50 KB) and 1029 bytes (1.00 KB). -/
example : formatBytes 1536 = ⟨150, 1024⟩ ∧ formatBytes 1029 = ⟨100, 1024⟩ ∧
    (formatBytes 1029).hundredths * (formatBytes 1029).unit ≤ (formatBytes 1536).hundredths * (formatBytes 1536).unit :=
  ⟨by decide, by decide, (C137_size_partial 1029 1536).2.2 (by decide)⟩

/-! ## Tensor files -/

/-- **C137, tensor files.**  Inspecting a saved tensor shows its shape and type, the product of its dimensions, and that number times the
size of an element. -/
theorem C137_tensor {d : TensorData} (h : Cli.Spec.Valid d) (hf : Cli.Spec.Fits d) :
    ∃ bs, saveTensorData d = .ok (.bytes bs) ∧
      inspectHdt bs = .ok ⟨d.shape, d.dtype.toCore, d.shape.prod, d.shape.prod * d.dtype.toCore.sizeInBytes⟩ := by
  obtain ⟨bs, h1, h2, -⟩ := hdt_back h hf
  refine ⟨bs, h1, ?_⟩
  simp only [loadTensorData] at h2
  obtain ⟨x, hx, h2⟩ := Res.bind_eq_ok.mp h2
  obtain ⟨data, hd, h2⟩ := Res.bind_eq_ok.mp h2
  have e := Res.ok.inj h2
  have e1 : data = d.data := congrArg TensorData.data e
  have e2 : x.2.dims = d.shape := congrArg TensorData.shape e
  have e3 : x.1 = d.dtype.toCore := by
    have := congrArg TensorData.dtype e
    simp only at this
    rw [← this]
    cases x.1 <;> rfl
  rw [e3] at hd
  have hl := h.length
  have hn : numel d.shape = d.shape.prod := by
    generalize d.shape = l
    induction l with
    | nil => rfl
    | cons a l ih => rw [numel, List.prod_cons, ih]
  simp only [inspectHdt, hx, Res.ok_bind, tensorInfo, hd, e1, e2, e3, hl, hn, List.prod_eq_foldl]

/-- C137 on a tensor of two by three bytes. -/
example : ∃ bs, saveTensorData ⟨[1, 2, 3, 4, 5, 6], [2, 3], .u8⟩ = .ok (.bytes bs) ∧
    inspectHdt bs = .ok ⟨[2, 3], .u8, 6, 6⟩ :=
  C137_tensor (d := ⟨[1, 2, 3, 4, 5, 6], [2, 3], .u8⟩) ⟨by decide, by decide, by decide⟩ ⟨by decide, by decide, by decide⟩

end Hodu.Inspect
