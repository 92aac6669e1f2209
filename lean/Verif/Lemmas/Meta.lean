import Verif.Lemmas.Kernels

/-!
# Decoding a metadata vector step by step

`At md s rest` says that `rest` is what remains of `md` from position `s` on.
-/

namespace Hodu

/-- `rest` is the part of `md` starting at `s`. -/
def At (md : List Nat) (s : Nat) (rest : List Nat) : Prop := ∃ pre, md = pre ++ rest ∧ pre.length = s

theorem At.start (md : List Nat) : At md 0 md := ⟨[], rfl, rfl⟩

theorem At.read {md rest : List Nat} {s x : Nat} (h : At md s (x :: rest)) : readC md s = .ok x := by
  obtain ⟨pre, rfl, rfl⟩ := h
  exact readC_mid _ _ _ _ rfl

theorem At.next {md rest : List Nat} {s x : Nat} (h : At md s (x :: rest)) (s' : Nat)
    (hs : s' = s + 1) : At md s' rest := by
  obtain ⟨pre, rfl, rfl⟩ := h
  exact ⟨pre ++ [x], by simp, by simp [hs]⟩

theorem At.slice {md mid rest : List Nat} {s n : Nat} (h : At md s (mid ++ rest))
    (hn : mid.length = n) : sliceC md s n = .ok mid := by
  obtain ⟨pre, rfl, rfl⟩ := h
  rw [← List.append_assoc]
  exact sliceC_mid _ _ _ _ _ rfl hn.symm

theorem At.skip {md mid rest : List Nat} {s n : Nat} (h : At md s (mid ++ rest))
    (hn : mid.length = n) (s' : Nat) (hs : s' = s + n) : At md s' rest := by
  obtain ⟨pre, rfl, rfl⟩ := h
  exact ⟨pre ++ mid, by simp, by simp [hs, hn]⟩

end Hodu
