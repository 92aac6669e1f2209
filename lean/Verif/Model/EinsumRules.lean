import Verif.Model.Einsum

/-!
# Backward rule of einsum

Transcription of `crates/hodu_core/src/tensor/gradient/vjp_einsum.rs`.
-/

namespace Hodu

variable {α A : Type}

/-- The equation of the gradient of operand `i`, vjp_einsum.rs:43-62: the output labels and the labels of the
other operands, separated by commas, then an arrow and the labels of operand `i`. -/
def einsumGradEq (p : ParsedEinsum) (i : Nat) : List Char :=
  [','].intercalate (p.output :: p.inputs.eraseIdx i) ++ ('-' :: '>' :: p.inputs.getD i [])

/-- The gradient of operand `i` (one turn of the loop), vjp_einsum.rs:33-68: `p` are the recorded labels, `ts` the
operands and `g` the upstream gradient. -/
def einsumGrad (zero one : A) (add mul : A → A → A) (ld : α → A) (st : A → α) (p : ParsedEinsum)
    (ts : List (Tensor α)) (g : Tensor α) (i : Nat) : Res (Tensor α) :=
  Tensor.einsum zero one add mul ld st (einsumGradEq p i) (g :: ts.eraseIdx i)

/-- `EinsumOp::compute_vjp`, vjp_einsum.rs:10-74. -/
def einsumVjp (zero one : A) (add mul : A → A → A) (ld : α → A) (st : A → α) (p : ParsedEinsum)
    (ts : List (Tensor α)) (g : Tensor α) : Res (List (Tensor α)) :=
  Res.mapL (einsumGrad zero one add mul ld st p ts g) (List.range ts.length)

end Hodu
