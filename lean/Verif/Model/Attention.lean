import Verif.Model.Norm

/-!
# Model of the linear layer and of attention

crates/hodu_nn/src/modules/linear.rs and crates/hodu_nn/src/modules/attention.rs, as programs of the
operations of Model/Typed.lean.

Left out: gradient bookkeeping, initialisation of the weights, and dropout of the attention weights
(`scaled_dot_product_attention` outside of training mode, or with `dropout_p = 0`).
-/

namespace Hodu

variable {α : Type}

/-- `Tensor::transpose`, tensor/ops/shape.rs (any element type). -/
def TT.transpose (x : TT α) (a b : Int) : Res (TT α) :=
  match x with
  | .num dt t => (t.transpose a b).bind fun r => .ok (.num dt r)
  | .bool t => (t.transpose a b).bind fun r => .ok (.bool r)

namespace Rt

variable (E : Rt α)

/-- `Tensor::matmul`, tensor/ops/matrix.rs:13-93.  Simplification: every rank asks for a `matmul`
kernel (vectors and matrices use `dot`, registered for the same element types). -/
def matmul (a b : TT α) : Res (TT α) :=
  if a.dtype ≠ b.dtype then .err
  else if Dispatch.validate a.dtype (.matrix .matmul) = false then .err
  else match a, b with
    | .num dt s, .num _ t =>
      (s.matmul E.cores (E.A.cst .zero) (E.A.bin .add) (E.A.bin .mul) t).bind fun r =>
        (Dispatch.backend (.matrix .matmul) dt).bind fun _ => .ok (.num dt r)
    | _, _ => .err

/-- `Tensor::softmax`, tensor/ops/normalization.rs:4-22. -/
def softmax (x : TT α) (d : Int) : Res (TT α) :=
  let k : List Int := [(softmaxAxis x.dims.length d : Int)]
  (E.red .max k true x).bind fun m =>
    (E.bin .sub x m).bind fun sh =>
    (E.un .exp sh).bind fun ex =>
    (E.red .sum k true ex).bind fun s => E.bin .div ex s

/-- The product with a transposed weight and the optional bias: `Linear::forward`,
modules/linear.rs:37-46 (`transpose(-2, -1)`), and `MultiheadAttention::linear`,
modules/attention.rs:298-308 (`transpose(0, 1)`). -/
def linear (p q : Int) (w : TT α) (b : Option (TT α)) (x : TT α) : Res (TT α) :=
  (w.transpose p q).bind fun wt =>
    (E.matmul x wt).bind fun o =>
    match b with
    | none => .ok o
    | some b => E.bin .add o b

/-- `Tensor::arange(0, n, 1)` of type `i32`, tensor/creation.rs:199-244: an empty range is rejected.
Simplification: the code computes the numbers in `f32`, exact below `2 ^ 24`. -/
def arange32 (n : Nat) : Res (TT α) :=
  if n = 0 then .err
  else .ok (.num .i32 ⟨(List.range n).map fun k => E.A.ofNat k, Layout.fromShape [n]⟩)

/-- `create_causal_mask`, modules/attention.rs:72-82. -/
def causalMask (m n : Nat) : Res (TT α) :=
  (E.arange32 m).bind fun r => (TT.reshape r [m, 1]).bind fun rows =>
  (E.arange32 n).bind fun c => (TT.reshape c [1, n]).bind fun cols =>
  (TT.broadcast rows [m, n]).bind fun rb => (TT.broadcast cols [m, n]).bind fun cb =>
    E.cmp .gt cb rb

/-- `1.0 / d_k.sqrt()` with `d_k` the last dimension of the query (1 for a scalar),
modules/attention.rs:33-34: an `f64`. -/
def attnScale (q : TT α) : Sc α :=
  ⟨.f64, E.A.bin .div (E.A.cst .one) (E.A.un .sqrt (E.A.ofNat (q.dims.getLastD 1)))⟩

/-- Lines 36-46: the scaled scores and the causal mask.  `ninf` stands for `get_neg_inf`
(lines 85-93), an `f64`.  `attn_weights.ndim() - 2` underflows for scores of rank 1. -/
def attnScores (ninf : α) (q k : TT α) (causal : Bool) : Res (TT α) :=
  (TT.transpose k (-2) (-1)).bind fun kt =>
    (E.matmul q kt).bind fun s =>
    (E.scal .mul s (E.attnScale q)).bind fun s =>
    if causal then
      if s.dims.length < 2 then .panic
      else (E.causalMask (s.dims.getD (s.dims.length - 2) 0) (s.dims.getD (s.dims.length - 1) 0)).bind
        fun m => E.maskedFill s m ⟨.f64, ninf⟩
    else .ok s

/-- Lines 48-54: the attention mask. -/
def attnMask (ninf : α) (mask : Option (TT α)) (s : TT α) : Res (TT α) :=
  match mask with
  | none => .ok s
  | some m => (E.cmpScal .eq m ⟨.f64, E.A.cst .zero⟩).bind fun z => E.maskedFill s z ⟨.f64, ninf⟩

/-- `scaled_dot_product_attention`, modules/attention.rs:25-69, outside of training mode. -/
def attention (ninf : α) (q k v : TT α) (mask : Option (TT α)) (causal : Bool) : Res (TT α) :=
  (E.attnScores ninf q k causal).bind fun s =>
    (E.attnMask ninf mask s).bind fun s =>
    (E.softmax s (-1)).bind fun w => E.matmul w v

/-- `MultiheadAttention`, modules/attention.rs:115-141: weight and bias of the four projections, and
the sizes. -/
structure Mha (α : Type) where
  q : TT α × Option (TT α)
  k : TT α × Option (TT α)
  v : TT α × Option (TT α)
  o : TT α × Option (TT α)
  embed : Nat
  heads : Nat
  headDim : Nat

/-- `reshape([b, s, heads, head_dim])?.transpose(1, 2)`, modules/attention.rs:264-273. -/
def Mha.split (L : Mha α) (b s : Nat) (x : TT α) : Res (TT α) :=
  (x.reshape [b, s, L.heads, L.headDim]).bind fun y => y.transpose 1 2

/-- `forward_qkv`, modules/attention.rs:247-286. -/
def mha (L : Mha α) (ninf : α) (query key value : TT α) (mask : Option (TT α)) (causal : Bool) :
    Res (TT α) :=
  (readR query.dims 0).bind fun b => (readR query.dims 1).bind fun s =>
  (readR key.dims 1).bind fun t =>
  (E.linear 0 1 L.q.1 L.q.2 query).bind fun q =>
  (E.linear 0 1 L.k.1 L.k.2 key).bind fun k =>
  (E.linear 0 1 L.v.1 L.v.2 value).bind fun v =>
  (L.split b s q).bind fun q => (L.split b t k).bind fun k => (L.split b t v).bind fun v =>
  (E.attention ninf q k v mask causal).bind fun o =>
  (o.transpose 1 2).bind fun o => (o.reshape [b, s, L.embed]).bind fun o =>
    E.linear 0 1 L.o.1 L.o.2 o

end Rt

end Hodu
