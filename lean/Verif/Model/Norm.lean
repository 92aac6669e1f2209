import Verif.Model.Losses

/-!
# Model of the normalization layers

crates/hodu_nn/src/modules/norm.rs: `forward` of every layer, as programs of the operations of
Model/Typed.lean.  The layers of one kind for inputs of different rank are one definition here, with the
number `nd` of spatial dimensions as a parameter; the code writes the axes and shapes out.

Left out: gradient bookkeeping (the running statistics of batch normalization are not detached from the
graph of the batch they were computed from).
-/

namespace Hodu

variable {α : Type}

/-- `Tensor::reshape`, tensor/ops/shape.rs (any element type). -/
def TT.reshape (x : TT α) (d : List Nat) : Res (TT α) :=
  match x with
  | .num dt t => (t.reshape d).bind fun r => .ok (.num dt r)
  | .bool t => (t.reshape d).bind fun r => .ok (.bool r)

/-- Weight and bias of a layer (`gamma`, `beta`); absent without `affine`. -/
abbrev Affine (α : Type) := Option (TT α × TT α)

namespace Rt

variable (E : Rt α)

/-- The axes `n, .., n + m - 1`. -/
def axesFrom (n m : Nat) : List Int := (List.range' n m).map fun (k : Nat) => (k : Int)

/-- The last two lines of every `forward`: `normalized * gamma + beta`, norm.rs:167-168, 309-310,
447-448, 550-551, 693, 779, 867, 955. -/
def affine (x : TT α) : Affine α → Res (TT α)
  | none => .ok x
  | some (g, b) => (E.bin .mul x g).bind fun s => E.bin .add s b

/-- The same with `gamma` and `beta` reshaped to `s`, norm.rs:151-168, 304-310, 442-448, 684-693,
775-779, 863-867, 951-955. -/
def affineReshaped (s : List Nat) (x : TT α) : Affine α → Res (TT α)
  | none => .ok x
  | some (g, b) =>
    (TT.reshape g s).bind fun g' => (TT.reshape b s).bind fun b' => E.affine x (some (g', b'))

/-- `(x - mean) / sqrt(var + eps)`, norm.rs:141-144, 292-295, 434-437. -/
def standardize (eps : Sc α) (x mean var : TT α) : Res (TT α) :=
  (E.bin .sub x mean).bind fun c =>
    (E.scal .add var (E.toS eps x.dtype)).bind fun v =>
    (E.un .sqrt v).bind fun std => E.bin .div c std

/-! ## Batch normalization -/

/-- The configuration of `BatchNorm1D`, `BatchNorm2D`, `BatchNorm3D` (`nd` = 1, 2, 3), norm.rs:8-54,
187-232, 329-374. -/
structure BatchNorm (α : Type) where
  nd : Nat
  features : Nat
  eps : Sc α
  momentum : Sc α
  aff : Affine α

/-- The axes of the statistics, norm.rs:61-83, 247-251, 389-393: all but the channels.  `BatchNorm1D`
takes rank 2 and 3; in training mode other ranks are rejected (67-72). -/
def BatchNorm.axes (L : BatchNorm α) (rank : Nat) : Option (List Int) :=
  if L.nd = 1 then
    if rank = 2 then some [0] else if rank = 3 then some [0, 2] else none
  else if rank = L.nd + 2 then some (0 :: axesFrom 2 L.nd) else none

/-- The shape the statistics are broadcast from, norm.rs:119-129, 151-165, 281-282, 304-305, 423-424,
442-443. -/
def BatchNorm.shape (L : BatchNorm α) (rank : Nat) : List Nat :=
  if L.nd = 1 then (if rank = 2 then [1, L.features] else [1, L.features, 1])
  else 1 :: L.features :: List.replicate L.nd 1

/-- `normalize`, norm.rs:137-172, 290-314, 432-452. -/
def bnNormalize (L : BatchNorm α) (x mean var : TT α) : Res (TT α) :=
  (E.standardize L.eps x mean var).bind fun n => E.affineReshaped (L.shape x.dims.length) n L.aff

/-- One running statistic: `momentum * r + (1 - momentum) * s`, norm.rs:91-102, 258-269, 400-411. -/
def bnUpdate (L : BatchNorm α) (dt : DType) (r s : TT α) : Res (TT α) :=
  let m := E.toS L.momentum dt
  (TT.reshape s [L.features]).bind fun s' =>
    (E.scal .mul r m).bind fun a =>
    (E.scal .mul s' ⟨dt, E.A.bin .sub (E.A.cst .one) m.val⟩).bind fun b => E.bin .add a b

/-- `forward` in training mode, norm.rs:59-112, 245-275, 387-417: the output, the new running mean and
the new running variance. -/
def bnTrain (L : BatchNorm α) (rm rv x : TT α) : Res (TT α × TT α × TT α) :=
  match L.axes x.dims.length with
  | none => .err
  | some ax =>
    (E.red .mean ax true x).bind fun mean =>
      (E.bin .sub x mean).bind fun c =>
      (E.bin .mul c c).bind fun sq =>
      (E.red .mean ax true sq).bind fun var =>
      (E.bnUpdate L rm.dtype rm mean).bind fun rm' =>
      (E.bnUpdate L rm.dtype rv var).bind fun rv' =>
      (E.bnNormalize L x mean var).bind fun out => .ok (out, rm', rv')

/-- `forward` in evaluation mode, norm.rs:113-135, 276-287, 418-429.  `BatchNorm1D` does not check the
rank here. -/
def bnEval (L : BatchNorm α) (rm rv x : TT α) : Res (TT α) :=
  if L.nd ≠ 1 ∧ x.dims.length ≠ L.nd + 2 then .err
  else
    (TT.reshape rm (L.shape x.dims.length)).bind fun mean =>
      (TT.reshape rv (L.shape x.dims.length)).bind fun var => E.bnNormalize L x mean var

/-! ## Normalization within an example -/

/-- Standardize along axes: mean, variance as the mean of the squared deviations (`mul` in `LayerNorm`,
`square` in the others), norm.rs:533-541, 662-671, 764-770, 852-858, 940-946. -/
def standardizeAlong (bySquare : Bool) (eps : Sc α) (ax : List Int) (x : TT α) : Res (TT α) :=
  (E.red .mean ax true x).bind fun mean =>
    (E.bin .sub x mean).bind fun c =>
    (if bySquare then E.un .square c else E.bin .mul c c).bind fun sq =>
    (E.red .mean ax true sq).bind fun var =>
    (E.scal .add var (E.toS eps x.dtype)).bind fun v =>
    (E.un .sqrt v).bind fun std => E.bin .div c std

/-- The check of `LayerNorm` and `RMSNorm` that the last dimensions are `normalized_shape`,
norm.rs:509-527, 1013-1031. -/
def endsWith (d ns : List Nat) : Bool := decide (ns.length ≤ d.length) && d.drop (d.length - ns.length) == ns

/-- `LayerNorm::forward`, norm.rs:507-556. -/
def layerNorm (ns : List Nat) (eps : Sc α) (aff : Affine α) (x : TT α) : Res (TT α) :=
  if endsWith x.dims ns then
    (E.standardizeAlong false eps (axesFrom (x.dims.length - ns.length) ns.length) x).bind fun n =>
      E.affine n aff
  else .err

/-- `RMSNorm::forward`, norm.rs:1012-1050. -/
def rmsNorm (ns : List Nat) (eps : Sc α) (gamma x : TT α) : Res (TT α) :=
  if endsWith x.dims ns then
    (E.un .square x).bind fun sq =>
      (E.red .mean (axesFrom (x.dims.length - ns.length) ns.length) true sq).bind fun ms =>
      (E.scal .add ms (E.toS eps x.dtype)).bind fun v =>
      (E.un .sqrt v).bind fun rms =>
      (E.bin .div x rms).bind fun n => E.bin .mul n gamma
  else .err

/-- `InstanceNorm1D/2D/3D::forward` (`nd` = 1, 2, 3), norm.rs:753-784, 841-872, 929-960. -/
def instanceNorm (nd features : Nat) (eps : Sc α) (aff : Affine α) (x : TT α) : Res (TT α) :=
  if x.dims.length ≠ nd + 2 then .err
  else
    (E.standardizeAlong true eps (axesFrom 2 nd) x).bind fun n =>
      E.affineReshaped (1 :: features :: List.replicate nd 1) n aff

/-- `GroupNorm::forward`, norm.rs:634-698; `new` (605-610) panics unless the number of groups divides the
number of channels, which includes `num_groups = 0` for a positive number of channels. -/
def groupNorm (groups channels : Nat) (eps : Sc α) (aff : Affine α) (x : TT α) : Res (TT α) :=
  match x.dims with
  | n :: c :: sp =>
    if c ≠ channels then .err
    else
      let s := n :: groups :: c / groups :: sp
      (TT.reshape x s).bind fun y =>
        (E.standardizeAlong true eps (axesFrom 2 (sp.length + 1)) y).bind fun z =>
        (TT.reshape z (n :: c :: sp)).bind fun z' =>
        E.affineReshaped (1 :: channels :: List.replicate sp.length 1) z' aff
  | _ => .err

end Rt

end Hodu
