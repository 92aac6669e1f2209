import Verif.Model.Typed

/-!
# Model of the loss functions

crates/hodu_nn/src/losses/*.rs: `forward` of every loss, as programs of the operations of
Model/Typed.lean.  The parameters of a loss (`delta`, `beta`, `margin`, `epsilon`) are scalars with
their own element type.  Literals that are not natural numbers are parameters of the model.
-/

namespace Hodu

variable {α : Type}

/-- `shape[0]` of a tensor: panics for a scalar (types/shape.rs, `Index`). -/
def TT.dim0 (x : TT α) : Res Nat :=
  match x.dims with
  | [] => .panic
  | n :: _ => .ok n

namespace Rt

variable (E : Rt α)

/-- `Tensor::log_softmax`, tensor/ops/normalization.rs:24-42. -/
def logSoftmax (x : TT α) (d : Int) : Res (TT α) :=
  let k : List Int := [(softmaxAxis x.dims.length d : Int)]
  (E.red .max k true x).bind fun m =>
    (E.bin .sub x m).bind fun sh =>
    (E.un .exp sh).bind fun ex =>
    (E.red .sum k true ex).bind fun s => (E.un .ln s).bind fun l => E.bin .sub sh l

/-- `Tensor::gather` on a tensor of numbers, tensor/ops/indexing.rs:178-251; indices are `i32`. -/
def gather (x : TT α) (dim : Int) (ix : Tensor Int) : Res (TT α) :=
  match x with
  | .num dt t => (t.gather (E.A.cst .zero) dim ix).bind fun r => .ok (.num dt r)
  | .bool t => (t.gather false dim ix).bind fun r => .ok (.bool r)

/-- `Tensor::squeeze`, tensor/ops/shape.rs (any element type). -/
def _root_.Hodu.TT.squeeze (x : TT α) (ds : List Int) : Res (TT α) :=
  match x with
  | .num dt t => (t.squeeze ds).bind fun r => .ok (.num dt r)
  | .bool t => (t.squeeze ds).bind fun r => .ok (.bool r)

/-- `MSELoss::forward`, losses/mse.rs:13-22. -/
def mse (pred target : TT α) : Res (TT α) :=
  (E.bin .sub pred target).bind fun diff =>
    (E.scal .pow diff (E.nat 2 diff.dtype)).bind fun sq =>
    (E.red .sum [] false sq).bind fun s => E.scal .div s (E.nat (shapeSize sq.dims) sq.dtype)

/-- `MAELoss::forward`, losses/mae.rs:13-22.  `Scalar::new(usize)` is a `u32` (scalar.rs, `From<usize>`). -/
def mae (pred target : TT α) : Res (TT α) :=
  (E.bin .sub pred target).bind fun diff =>
    (E.un .abs diff).bind fun a =>
    pred.dim0.bind fun n =>
    (E.red .sum [] false a).bind fun s => E.scal .div s (E.nat n .u32)

/-- `HuberLoss::forward`, losses/huber.rs:15-37.  `halfSq` stands for
`delta.powi(2) / Scalar::from_f32(2.0, delta.dtype())`. -/
def huber (delta halfSq : Sc α) (pred target : TT α) : Res (TT α) :=
  (E.bin .sub pred target).bind fun diff =>
    (E.un .abs diff).bind fun a =>
    (E.scal .pow diff (E.nat 2 diff.dtype)).bind fun sq =>
    (E.scal .div sq (E.nat 2 diff.dtype)).bind fun quad =>
    (E.scal .mul a delta).bind fun ad =>
    (E.scal .sub ad halfSq).bind fun lin =>
    (E.cmpScal .le a delta).bind fun mask =>
    (E.bin .mul mask quad).bind fun q =>
    (E.lnot mask).bind fun nm =>
    (E.bin .mul nm lin).bind fun l =>
    (E.bin .add q l).bind fun loss =>
    pred.dim0.bind fun n =>
    (E.red .sum [] false loss).bind fun s => E.scal .div s (E.nat n diff.dtype)

/-- `SmoothL1Loss::forward`, losses/smooth_l1.rs:35-55. -/
def smoothL1 (beta : Sc α) (half : α) (pred target : TT α) : Res (TT α) :=
  let dt := pred.dtype
  (E.bin .sub pred target).bind fun diff =>
    (E.un .abs diff).bind fun a =>
    let b := E.toS beta dt
    (E.un .square diff).bind fun sq =>
    (E.scal .mul sq ⟨dt, half⟩).bind fun hs =>
    (E.scal .div hs b).bind fun quad =>
    (E.scal .sub a ⟨dt, E.A.bin .mul b.val half⟩).bind fun lin =>
    (E.cmpScal .lt a b).bind fun mask =>
    (E.bin .mul mask quad).bind fun q =>
    (E.lnot mask).bind fun nm =>
    (E.bin .mul nm lin).bind fun l =>
    (E.bin .add q l).bind fun loss => E.red .mean [] false loss

/-- `CosineEmbeddingLoss::forward`, losses/cosine_embedding.rs:39-74; `eps` is `1e-8`, `negOne` is
`-1.0`. -/
def cosineEmbedding (margin : Sc α) (eps negOne : α) (x1 x2 y : TT α) : Res (TT α) :=
  let dt := x1.dtype
  (E.bin .mul x1 x2).bind fun p =>
    (E.red .sum [-1] false p).bind fun dp =>
    (E.un .square x1).bind fun s1 =>
    (E.red .sum [-1] false s1).bind fun t1 => (E.un .sqrt t1).bind fun n1 =>
    (E.un .square x2).bind fun s2 =>
    (E.red .sum [-1] false s2).bind fun t2 => (E.un .sqrt t2).bind fun n2 =>
    (E.bin .mul n1 n2).bind fun np =>
    (E.scal .add np ⟨dt, eps⟩).bind fun np' =>
    (E.bin .div dp np').bind fun cos =>
    (E.scal .mul cos ⟨dt, negOne⟩).bind fun nc =>
    (E.scal .add nc (E.one dt)).bind fun lp =>
    (E.scal .sub cos (E.toS margin dt)).bind fun cm =>
    (E.scal .maximum cm (E.zero dt)).bind fun ln =>
    (E.cmpScal .eq y (E.one dt)).bind fun mask =>
    (E.bin .mul mask lp).bind fun a =>
    (E.lnot mask).bind fun nm =>
    (E.bin .mul nm ln).bind fun b =>
    (E.bin .add a b).bind fun loss => E.red .mean [] false loss

/-- `NLLLoss::forward`, losses/nll.rs:25-45: the target is unsqueezed at the end whatever `dim` is. -/
def nll (dim : Int) (logProbs : TT α) (target : Tensor Int) : Res (TT α) :=
  let g := if dim < 0 then (logProbs.dims.length : Int) + dim else dim
  (target.unsqueeze (-1)).bind fun ix =>
    (E.gather logProbs g ix).bind fun r =>
    (TT.squeeze r [-1]).bind fun r =>
    (E.un .neg r).bind fun r => E.red .mean [] false r

/-- `CrossEntropyLoss::forward`, losses/cross_entropy.rs:25-48. -/
def crossEntropy (dim : Int) (logits : TT α) (target : Tensor Int) : Res (TT α) :=
  (E.logSoftmax logits dim).bind fun lp => E.nll dim lp target

/-- `KLDivLoss::forward`, losses/kl_div.rs:33-53: the divisor is an `f32`. -/
def klDiv (logTarget : Bool) (input target : TT α) : Res (TT α) :=
  (if logTarget then
    (E.un .exp target).bind fun p => (E.bin .sub target input).bind fun df => E.bin .mul p df
  else
    (E.un .ln target).bind fun l => (E.bin .mul target l).bind fun tl =>
      (E.bin .mul target input).bind fun ti => E.bin .sub tl ti).bind fun loss =>
  (E.red .sum [] false loss).bind fun s => input.dim0.bind fun n => E.scal .div s (E.nat n .f32)

/-- `BCELoss::forward`, losses/binary_cross_entropy.rs:29-54. -/
def bce (eps : Sc α) (pred target : TT α) : Res (TT α) :=
  (E.clamp pred eps ⟨eps.dt, E.A.bin .sub (E.A.cst .one) eps.val⟩).bind fun pc =>
    (E.un .ln pc).bind fun lp =>
    (E.bin .mul target lp).bind fun t1 =>
    (E.bin .sub (E.onesLike target) target).bind fun omt =>
    (E.bin .sub (E.onesLike pc) pc).bind fun omp =>
    (E.un .ln omp).bind fun lomp =>
    (E.bin .mul omt lomp).bind fun t2 =>
    (E.bin .add t1 t2).bind fun s =>
    (E.un .neg s).bind fun b => E.red .mean [] false b

/-- `BCEWithLogitsLoss::forward`, losses/binary_cross_entropy.rs:65-83. -/
def bceWithLogits (logits target : TT α) : Res (TT α) :=
  (E.bin .maximum logits (E.zerosLike logits)).bind fun mx =>
    (E.un .abs logits).bind fun a =>
    (E.un .neg a).bind fun na =>
    (E.un .exp na).bind fun e =>
    (E.scal .add e (E.one na.dtype)).bind fun e1 =>
    (E.un .ln e1).bind fun lt =>
    (E.bin .mul logits target).bind fun tt =>
    (E.bin .sub mx tt).bind fun l =>
    (E.bin .add l lt).bind fun loss => E.red .mean [] false loss

end Rt

end Hodu
