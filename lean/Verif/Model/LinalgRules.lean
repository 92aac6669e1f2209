import Verif.Model.Linalg
import Verif.Model.MatrixRules

/-!
# Backward rules of det, inv and trace

Transcription of `crates/hodu_core/src/tensor/gradient/vjp_linalg.rs`.
-/

namespace Hodu

variable {α : Type}

/-- `LinalgOp::Det`, vjp_linalg.rs:17-47, for the recorded input `x` and output `y`. -/
def detVjp (o : Arith α) (cores : Nat) (fill : α) (x y g : Tensor α) : Res (Tensor α) :=
  (x.inv o).bind fun a => (a.transpose (-2) (-1)).bind fun at' =>
  (Tensor.binary cores o.mul fill g y).bind fun s => (s.unsqueeze (-1)).bind fun s1 =>
  (s1.unsqueeze (-1)).bind fun s2 => Tensor.binary cores o.mul fill at' s2

/-- `LinalgOp::Inv`, vjp_linalg.rs:48-69, for the recorded output `y`. -/
def invVjp (o : Arith α) (cores : Nat) (fill : α) (y g : Tensor α) : Res (Tensor α) :=
  (y.transpose (-2) (-1)).bind fun yt => (yt.matmul cores o.zero o.add o.mul g).bind fun t =>
  (t.matmul cores o.zero o.add o.mul yt).bind fun r => r.unary cores o.neg fill

/-- `Tensor::eye`, tensor/creation.rs:306-339. -/
def Tensor.eye (zero one : α) (n : Nat) : Tensor α :=
  ⟨(List.range (n * n)).map fun k => if k / n = k % n then one else zero, Layout.fromShape [n, n]⟩

/-- `LinalgOp::Trace`, vjp_linalg.rs:70-98, for an input of shape `inDims`. -/
def traceVjp (cores : Nat) (mul : α → α → α) (zero one fill : α) (g : Tensor α) (inDims : List Nat) :
    Res (Tensor α) :=
  (g.unsqueeze (-1)).bind fun s1 => (s1.unsqueeze (-1)).bind fun s2 =>
  Tensor.binary cores mul fill (Tensor.eye zero one (inDims.getD (inDims.length - 1) 0)) s2

end Hodu
