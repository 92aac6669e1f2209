import Verif.Lemmas.Compose
import Verif.Model.GradRules

/-!
# Evaluation of the element-wise backward rules

On tensors of one shape a rule computes its scalar expression at every position; a rule that
multiplies boolean tensors fails.
-/

namespace Hodu
open Spec

variable {α : Type}

/-- The scalar expression of a rule. -/
def Ex.scalar (A : FOps α) (env : List α) : Ex → Option α
  | .leaf i => env[i]?
  | .like c e => (e.scalar A env).map fun _ => A.cst c
  | .un o e => (e.scalar A env).map (A.un o)
  | .bin o a b => (a.scalar A env).bind fun x => (b.scalar A env).map fun y => A.bin o x y
  | .scal o e c => (e.scalar A env).map fun x => A.bin o x (A.cst c)
  | .mask o e c => (e.scalar A env).map fun x => A.ofBool (A.cmp o x (A.cst c))
  | .cmp o a b => (a.scalar A env).bind fun x =>
      (b.scalar A env).map fun y => A.ofBool (A.cmp o x y)
  | .mulBool _ _ => none

/-- Every leaf of the rule exists. -/
def Ex.Closed (n : Nat) : Ex → Prop
  | .leaf i => i < n
  | .like _ e | .un _ e | .scal _ e _ | .mask _ e _ => e.Closed n
  | .bin _ a b | .cmp _ a b | .mulBool a b => a.Closed n ∧ b.Closed n

instance decClosed (n : Nat) : (e : Ex) → Decidable (e.Closed n)
  | .leaf i => inferInstanceAs (Decidable (i < n))
  | .like _ e | .un _ e | .scal _ e _ | .mask _ e _ => decClosed n e
  | .bin _ a b | .cmp _ a b | .mulBool a b =>
    haveI := decClosed n a
    haveI := decClosed n b
    inferInstanceAs (Decidable (a.Closed n ∧ b.Closed n))

/-- No product of boolean tensors. -/
def Ex.noBool : Ex → Bool
  | .leaf _ => true
  | .like _ e | .un _ e | .scal _ e _ | .mask _ e _ => e.noBool
  | .bin _ a b | .cmp _ a b => a.noBool && b.noBool
  | .mulBool _ _ => false

theorem getElem?_rowMajor_replicate {d idx : List Nat} (c : α) (hi : InRange idx d) :
    (List.replicate (numel d) c)[rowMajor d idx]? = some c := by
  rw [List.getElem?_replicate, if_pos (rowMajor_lt hi)]

/-- A rule on tensors of one shape: it fails if it multiplies boolean tensors, and otherwise its value
at every position is its scalar expression there. -/
theorem Ex.run_val (A : FOps α) (cores : Nat) (fill : α) {d : List Nat} (hpd : ∀ y ∈ d, 0 < y)
    {ts : List (Tensor α)} {Fs : List (List Nat → α)} (hts : List.Forall₂ (fun t F => Val t d F) ts Fs)
    (e : Ex) (hc : e.Closed ts.length) :
    (e.noBool = false → e.run A cores fill ts = .err) ∧
    (e.noBool = true → ∃ (r : Tensor α) (F : List Nat → α), e.run A cores fill ts = .ok r ∧ Val r d F ∧
      ∀ j, e.scalar A (Fs.map fun G => G j) = some (F j)) := by
  induction e with
  | leaf i =>
    refine ⟨by simp [noBool], fun _ => ?_⟩
    have hi : i < ts.length := hc
    have hi' : i < Fs.length := by rw [← hts.length_eq]; exact hi
    refine ⟨ts[i], Fs[i], ?_, ?_, fun j => ?_⟩
    · simp [run, List.getElem?_eq_getElem hi]
    · exact List.Forall₂.get hts hi hi'
    · simp [scalar, hi']
  | like c e ih =>
    obtain ⟨h1, h2⟩ := ih hc
    refine ⟨fun h => by simp only [run, h1 h, Res.err_bind], fun h => ?_⟩
    obtain ⟨r, F, h3, h4, h5⟩ := h2 h
    refine ⟨⟨List.replicate (shapeSize r.dims) (A.cst c), Layout.fromShape r.dims⟩,
      fun _ => A.cst c, ?_, ?_, fun j => ?_⟩
    · simp only [run, h3, Res.ok_bind]
    · rw [h4.dims, shapeSize_eq]
      exact Val.fresh (by simp) fun idx hi => getElem?_rowMajor_replicate _ hi
    · simp [scalar, h5 j]
  | un o e ih =>
    obtain ⟨h1, h2⟩ := ih hc
    refine ⟨fun h => by simp only [run, h1 h, Res.err_bind], fun h => ?_⟩
    obtain ⟨r, F, h3, h4, h5⟩ := h2 h
    obtain ⟨s, h6, h7⟩ := h4.unary cores (A.un o) fill
    exact ⟨s, _, by simp only [run, h3, Res.ok_bind, h6], h7, fun j => by simp [scalar, h5 j]⟩
  | bin o a b iha ihb =>
    obtain ⟨a1, a2⟩ := iha hc.1
    obtain ⟨b1, b2⟩ := ihb hc.2
    constructor
    · intro h
      simp only [noBool, Bool.and_eq_false_iff] at h
      cases ha : a.noBool with
      | false => simp only [run, a1 ha, Res.err_bind]
      | true =>
        obtain ⟨r, F, h3, _, _⟩ := a2 ha
        have hb : b.noBool = false := by rcases h with h | h <;> simp_all
        simp only [run, h3, Res.ok_bind, b1 hb, Res.err_bind]
    · intro h
      simp only [noBool, Bool.and_eq_true] at h
      obtain ⟨r, F, h3, h4, h5⟩ := a2 h.1
      obtain ⟨s, G, h6, h7, h8⟩ := b2 h.2
      obtain ⟨u, h9, h10⟩ := h4.binary_same h7 hpd cores (A.bin o) fill
      exact ⟨u, _, by simp only [run, h3, h6, Res.ok_bind, h9], h10,
        fun j => by simp [scalar, h5 j, h8 j]⟩
  | scal o e c ih =>
    obtain ⟨h1, h2⟩ := ih hc
    refine ⟨fun h => by simp only [run, h1 h, Res.err_bind], fun h => ?_⟩
    obtain ⟨r, F, h3, h4, h5⟩ := h2 h
    obtain ⟨s, h6, h7⟩ := h4.unary cores (fun x => A.bin o x (A.cst c)) fill
    exact ⟨s, _, by simp only [run, h3, Res.ok_bind, h6], h7, fun j => by simp [scalar, h5 j]⟩
  | mask o e c ih =>
    obtain ⟨h1, h2⟩ := ih hc
    refine ⟨fun h => by simp only [run, h1 h, Res.err_bind], fun h => ?_⟩
    obtain ⟨r, F, h3, h4, h5⟩ := h2 h
    obtain ⟨m, h6, h7⟩ := h4.unary cores (fun x => A.cmp o x (A.cst c)) false
    obtain ⟨s, h8, h9⟩ := h7.unary cores A.ofBool fill
    exact ⟨s, _, by simp only [run, h3, Res.ok_bind, h6, h8], h9, fun j => by simp [scalar, h5 j]⟩
  | cmp o a b iha ihb =>
    obtain ⟨a1, a2⟩ := iha hc.1
    obtain ⟨b1, b2⟩ := ihb hc.2
    constructor
    · intro h
      simp only [noBool, Bool.and_eq_false_iff] at h
      cases ha : a.noBool with
      | false => simp only [run, a1 ha, Res.err_bind]
      | true =>
        obtain ⟨r, F, h3, _, _⟩ := a2 ha
        have hb : b.noBool = false := by rcases h with h | h <;> simp_all
        simp only [run, h3, Res.ok_bind, b1 hb, Res.err_bind]
    · intro h
      simp only [noBool, Bool.and_eq_true] at h
      obtain ⟨r, F, h3, h4, h5⟩ := a2 h.1
      obtain ⟨s, G, h6, h7, h8⟩ := b2 h.2
      obtain ⟨m, h9, h10⟩ := h4.compare h7 hpd (A.cmp o)
      obtain ⟨u, h11, h12⟩ := h10.unary cores A.ofBool fill
      exact ⟨u, _, by simp only [run, h3, h6, Res.ok_bind, h9, h11], h12,
        fun j => by simp [scalar, h5 j, h8 j]⟩
  | mulBool a b iha ihb =>
    obtain ⟨a1, a2⟩ := iha hc.1
    obtain ⟨b1, b2⟩ := ihb hc.2
    refine ⟨fun _ => ?_, by simp [noBool]⟩
    cases ha : a.noBool with
    | false => simp only [run, a1 ha, Res.err_bind]
    | true =>
      obtain ⟨r, F, h3, _, _⟩ := a2 ha
      cases hb : b.noBool with
      | false => simp only [run, h3, Res.ok_bind, b1 hb, Res.err_bind]
      | true =>
        obtain ⟨s, G, h6, _, _⟩ := b2 hb
        simp only [run, h3, h6, Res.ok_bind]

end Hodu
