import Verif.Model.Typed

/-!
# Model of the dropout and activation layers

crates/hodu_nn/src/modules/dropout.rs and crates/hodu_nn/src/modules/activation.rs, as programs of the operations of
Model/Typed.lean.  The random numbers are an argument; the mode (`get_state()`, hodu_nn/src/lib.rs:41-60) too.

Left out: gradient bookkeeping, `ReLU`, `Sigmoid`, `Tanh`, `Gelu`, `Softplus`, `SiLU`, `Swish` and `Mish`, which are calls
of one unary operation each.
-/

namespace Hodu

variable {α : Type}

namespace Rt

variable (E : Rt α)

/-- `Tensor::rand_uniform_like(tensor, low, high)`, tensor/creation.rs:344-373: the element type is the one of the bounds.
The numbers are an argument. -/
def randLike (dt : DType) (rnd : List α) (x : TT α) : TT α := .num dt ⟨rnd, Layout.fromShape x.dims⟩

/-- `Dropout::forward`, modules/dropout.rs:15-28.  `lit` is the type of the literals `0.0` and `1.0` as scalars: `f64` if
the crate is built with that feature, else `f32` (scalar.rs:1079-1090). -/
def dropout (lit : DType) (train : Bool) (p : Sc α) (rnd : List α) (x : TT α) : Res (TT α) :=
  if !train then .ok x
  else
    (E.cmpScal .gt (randLike lit rnd x) p).bind fun m =>
    (E.toDtype m x.dtype).bind fun mask =>
    let scale : Sc α := ⟨.f32, E.A.bin .div (E.A.cst .one) (E.A.bin .sub (E.A.cst .one) (E.toS p .f32).val)⟩
    (E.scal .mul mask scale).bind fun sm => E.bin .mul x sm

/-- `RReLU::forward`, modules/activation.rs:221-245. -/
def rrelu (train : Bool) (lower upper : Sc α) (rnd : List α) (x : TT α) : Res (TT α) :=
  let alpha := if train then randLike .f32 rnd x
    else TT.fullLike x (E.toS ⟨.f32, E.A.bin .div (E.A.bin .add (E.toS lower .f32).val (E.toS upper .f32).val)
      (E.A.ofNat 2)⟩ x.dtype)
  (E.cmpScal .gt x (E.zero x.dtype)).bind fun mp =>
    (E.cmpScal .le x (E.zero x.dtype)).bind fun mn =>
    (E.toDtype mp x.dtype).bind fun mp =>
    (E.bin .mul x mp).bind fun pos =>
    (E.bin .mul x alpha).bind fun ax =>
    (E.toDtype mn x.dtype).bind fun mn =>
    (E.bin .mul ax mn).bind fun neg => E.bin .add pos neg

/-- `forward` of `LeakyReLU`, `ELU` and `PReLU`, modules/activation.rs:155-158, 177-180, 197-200, through
`unary_scalar_op!`, tensor/ops/unary.rs:103-163: `f x c` is what the kernel would compute. -/
def paramActivation (op : Dispatch.UnaryScalarOp) (f : α → α → α) (c : Sc α) (x : TT α) : Res (TT α) :=
  if Dispatch.validate x.dtype (.unaryScalar op) = false then .err
  else match x with
    | .num dt s =>
      (s.unary E.cores (fun x => f x (E.toS c dt).val) E.fill).bind fun r =>
        (Dispatch.backend (.unaryScalar op) dt).bind fun _ => .ok (.num dt r)
    | .bool _ => .err

end Rt

end Hodu
