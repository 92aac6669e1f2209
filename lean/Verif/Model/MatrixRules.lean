import Verif.Model.Matmul
import Verif.Model.ShapeRules

/-!
# Backward rules of the matrix products

Transcription of `crates/hodu_core/src/tensor/gradient/vjp_matrix.rs`.
-/

namespace Hodu

variable {α : Type}

/-- `Tensor::dot`, tensor/ops/matrix.rs:225-299 (eager branch): as `matmul` up to rank 2, an error
above. -/
def Tensor.dotOp (cores : Nat) (zero : α) (add mul : α → α → α) (a b : Tensor α) : Res (Tensor α) :=
  if a.dims.length ≤ 2 ∧ b.dims.length ≤ 2 then a.matmul cores zero add mul b else .err

/-- `MatrixOp::Matmul`, vjp_matrix.rs:17-46, for the recorded operands `a` and `b`. -/
def matmulVjp (cores : Nat) (zero : α) (add mul : α → α → α) (a b g : Tensor α) :
    Res (Tensor α × Tensor α) :=
  (b.transpose (-2) (-1)).bind fun bt => (g.matmul cores zero add mul bt).bind fun ra =>
  (a.transpose (-2) (-1)).bind fun at' => (at'.matmul cores zero add mul g).bind fun rb =>
  (ra.sumToShape add zero a.dims).bind fun da => (rb.sumToShape add zero b.dims).bind fun db =>
  .ok (da, db)

/-- `MatrixOp::Dot`, vjp_matrix.rs:47-69. -/
def dotVjp (cores : Nat) (zero : α) (add mul : α → α → α) (a b g : Tensor α) :
    Res (Tensor α × Tensor α) :=
  (b.transpose (-2) (-1)).bind fun bt => (g.dotOp cores zero add mul bt).bind fun da =>
  (a.transpose (-2) (-1)).bind fun at' => (at'.dotOp cores zero add mul g).bind fun db =>
  .ok (da, db)

/-- What the tape computes for one batched `matmul` of `a` and `b` (tensor/ops/matrix.rs:155-223): the
product was recorded on the operands broadcast to the common batch shape `batch` (with the shapes
`batch ++ [m, k]` and `batch ++ [k, n]`), each broadcast as an operation of its own. -/
def matmulGrad (cores : Nat) (zero : α) (add mul : α → α → α) (a b g : Tensor α) (batch : List Nat)
    (m k n : Nat) : Res (Tensor α × Tensor α) :=
  (a.broadcast (batch ++ [m, k])).bind fun a' => (b.broadcast (batch ++ [k, n])).bind fun b' =>
  (matmulVjp cores zero add mul a' b' g).bind fun d =>
  (broadcastVjp add zero d.1 a.dims).bind fun da => (broadcastVjp add zero d.2 b.dims).bind fun db =>
  .ok (da, db)

end Hodu
