import Verif.Model.Reduce

/-!
# Model of the backward rules of element-wise operators and reductions, and of softmax

crates/hodu_core/src/tensor/gradient/{vjp_unary,vjp_binary,vjp_reduce,vjp_utils}.rs,
crates/hodu_core/src/tensor/ops/normalization.rs.  The rules are programs made of tensor operations;
they are modelled as such, on top of the models of those operations.  The element arithmetic is a
parameter (`FOps`).  dtypes are modelled only as far as the rules depend on them: a comparison yields
a boolean tensor, which `to_dtype` turns into numbers and which `mul` rejects.
-/

namespace Hodu

/-- `enum UnaryOp`, crates/hodu_core/src/ops.rs:156-208. -/
inductive UOp where
  | neg | abs | sign | softsign | square | sqrt | recip
  | relu | sigmoid | hardsigmoid | gelu | softplus | silu | hardsilu | mish | selu | celu
  | sin | cos | tan | asin | acos | atan
  | sinh | cosh | tanh | asinh | acosh | atanh
  | exp | exp2 | exp10 | ln | log2 | log10
  | ceil | floor | round | erf
  deriving Repr, DecidableEq

/-- `enum BinaryOp`, crates/hodu_core/src/ops.rs. -/
inductive BOp where
  | add | sub | mul | div | rem | pow | maximum | minimum
  deriving Repr, DecidableEq

/-- The comparisons used by the rules (`CmpOp` / `CmpScalarOp`). -/
inductive COp where
  | lt | le | gt | ge | eq
  deriving Repr, DecidableEq

/-- The constants the rules build with `Scalar::from_f32` (rounded to `f32`, then converted to the
tensor's dtype).  `arg` is the scalar operand of an operation with a scalar, `argInv` and `argPred`
are its reciprocal and predecessor as vjp_unary.rs:475-533 and 541-553 compute them. -/
inductive GConst where
  | zero | one | half | oneSixth
  | gelu | geluCoeff | threeGeluCoeff
  | seluAlpha | seluScale
  | ln10 | ln2 | twoOverSqrtPi
  | arg | argInv | argPred
  deriving Repr, DecidableEq

/-- Element arithmetic of one floating-point dtype: the kernels of ops_unary.c:545-1110,
ops_binary.c and ops_reduce.c on single elements.  `lowest`/`highest` are the start values of the max
and min reductions (`-FLT_MAX`, `FLT_MAX` and their analogues, ops_reduce.c:360-700). -/
structure FOps (α : Type) where
  un : UOp → α → α
  bin : BOp → α → α → α
  cmp : COp → α → α → Bool
  cst : GConst → α
  ofNat : Nat → α
  lowest : α
  highest : α

variable {α : Type}

/-- `Scalar::zero(dtype)`. -/
abbrev FOps.zero (A : FOps α) : α := A.cst .zero

/-- Conversion of a boolean to a number: `cast_bool_to_*`, ops_cast.c:100-116 (`x != 0`). -/
def FOps.ofBool (A : FOps α) (b : Bool) : α := if b then A.cst .one else A.cst .zero

/-! ## Element-wise rules as expressions -/

/-- A straight-line program of tensor operations, as the rules of vjp_unary.rs and vjp_binary.rs are:
`leaf i` is one of the given tensors, the other constructors are the helpers of vjp_utils.rs. -/
inductive Ex where
  /-- one of the given tensors -/
  | leaf (i : Nat)
  /-- `create_ones_like_tensor`, vjp_utils.rs:198-203; `create_zeros_like_tensor`, 191-196 -/
  | like (c : GConst) (e : Ex)
  /-- the unary helpers, vjp_utils.rs:85-162 -/
  | un (o : UOp) (e : Ex)
  /-- the binary helpers, vjp_utils.rs:9-37 -/
  | bin (o : BOp) (a b : Ex)
  /-- the scalar helpers with a constant of the rule, vjp_utils.rs:165-182 -/
  | scal (o : BOp) (e : Ex) (c : GConst)
  /-- a comparison with a constant, vjp_utils.rs:65-83, followed by `to_dtype` -/
  | mask (o : COp) (e : Ex) (c : GConst)
  /-- a comparison of two tensors, vjp_utils.rs:40-62, followed by `to_dtype` -/
  | cmp (o : COp) (a b : Ex)
  /-- `create_mul_tensor` of two comparisons, without `to_dtype`: a product of BOOL tensors, which
  `validate_dtype_for_op` rejects (utils/valid.rs:95-99) -/
  | mulBool (a b : Ex)
  deriving Repr, DecidableEq

/-- Running a rule.  Operations are performed in the order of evaluation; `cores` is the number of
CPU cores (see `Tensor.unary`), every allocated buffer is filled with `fill`. -/
def Ex.run (A : FOps α) (cores : Nat) (fill : α) (env : List (Tensor α)) : Ex → Res (Tensor α)
  | .leaf i => match env[i]? with
    | some t => .ok t
    | none => .panic
  | .like c e => (e.run A cores fill env).bind fun t =>
      .ok ⟨List.replicate (shapeSize t.dims) (A.cst c), Layout.fromShape t.dims⟩
  | .un o e => (e.run A cores fill env).bind fun t => t.unary cores (A.un o) fill
  | .bin o a b => (a.run A cores fill env).bind fun s => (b.run A cores fill env).bind fun t =>
      Tensor.binary cores (A.bin o) fill s t
  | .scal o e c => (e.run A cores fill env).bind fun t =>
      t.unary cores (fun x => A.bin o x (A.cst c)) fill
  | .mask o e c => (e.run A cores fill env).bind fun t =>
      (t.unary cores (fun x => A.cmp o x (A.cst c)) false).bind fun m => m.unary cores A.ofBool fill
  | .cmp o a b => (a.run A cores fill env).bind fun s => (b.run A cores fill env).bind fun t =>
      (Tensor.binaryBool (A.cmp o) s t).bind fun m => m.unary cores A.ofBool fill
  | .mulBool a b => (a.run A cores fill env).bind fun _ => (b.run A cores fill env).bind fun _ => .err

/-- Leaf 0: the input of the operation. -/
abbrev Ex.x : Ex := .leaf 0
/-- Leaf 1: the recorded output. -/
abbrev Ex.out : Ex := .leaf 1
/-- Leaf 2: the gradient of the output. -/
abbrev Ex.g : Ex := .leaf 2
/-- `create_ones_like_tensor(input)`. -/
abbrev Ex.ones : Ex := .like .one .x
/-- `create_mul_tensor`. -/
abbrev Ex.mul (a b : Ex) : Ex := .bin .mul a b
/-- `create_add_tensor`. -/
abbrev Ex.add (a b : Ex) : Ex := .bin .add a b
/-- `create_sub_tensor`. -/
abbrev Ex.sub (a b : Ex) : Ex := .bin .sub a b
/-- `create_div_tensor`. -/
abbrev Ex.div (a b : Ex) : Ex := .bin .div a b

/-- `z` of the GELU rule, vjp_unary.rs:94-101. -/
def geluZ : Ex :=
  .scal .mul (.add .x (.scal .mul (.mul (.mul .x .x) .x) .geluCoeff)) .gelu

/-- `tanh(ln(1 + exp(x)))` of the Mish rule, vjp_unary.rs:184-189. -/
def mishT : Ex := .un .tanh (.un .ln (.add .ones (.un .exp .x)))

/-- `UnaryOp::compute_vjp`, tensor/gradient/vjp_unary.rs:10-437: the gradient of the input. -/
def unaryRule : UOp → Ex
  | .neg => .un .neg .g
  | .abs => .mul .g (.un .sign .x)
  | .sign => .like .zero .x
  | .softsign =>
    .mul .g (.un .recip (.mul (.add .ones (.un .abs .x)) (.add .ones (.un .abs .x))))
  | .square => .mul .g (.add .x .x)
  | .relu => .mul .g (.mask .gt .x .zero)
  | .sigmoid => .mul .g (.mul .out (.sub (.like .one .out) .out))
  | .hardsigmoid =>
    .mul .g (.scal .mul (.mulBool (.mask .gt .out .zero) (.mask .lt .out .one)) .oneSixth)
  | .gelu =>
    .mul .g (.add (.scal .mul (.add .ones (.un .tanh geluZ)) .half)
      (.mul (.mul (.scal .mul .x .half) (.sub .ones (.mul (.un .tanh geluZ) (.un .tanh geluZ))))
        (.scal .mul (.add .ones (.scal .mul (.mul .x .x) .threeGeluCoeff)) .gelu)))
  | .silu =>
    .mul .g (.mul (.un .sigmoid .x) (.add .ones (.mul .x (.sub .ones (.un .sigmoid .x)))))
  | .hardsilu =>
    .mul .g (.add (.un .hardsigmoid .x) (.scal .mul (.mul .x
      (.mulBool (.mask .gt (.un .hardsigmoid .x) .zero) (.mask .lt (.un .hardsigmoid .x) .one)))
      .oneSixth))
  | .mish =>
    .mul .g (.add mishT (.mul .x (.mul (.sub .ones (.mul mishT mishT)) (.un .sigmoid .x))))
  | .selu =>
    .mul .g (.add (.scal .mul (.mask .gt .x .zero) .seluScale)
      (.mul (.mask .le .x .zero) (.scal .mul (.scal .mul (.un .exp .x) .seluAlpha) .seluScale)))
  | .celu => .mul .g (.add (.mask .gt .x .zero) (.mul (.mask .le .x .zero) (.un .exp .x)))
  | .sin => .mul .g (.un .cos .x)
  | .cos => .mul .g (.un .neg (.un .sin .x))
  | .tan => .mul .g (.scal .add (.mul .out .out) .one)
  | .asin => .mul .g (.un .recip (.un .sqrt (.un .neg (.scal .sub (.mul .x .x) .one))))
  | .acos => .mul .g (.un .neg (.un .recip (.un .sqrt (.un .neg (.scal .sub (.mul .x .x) .one)))))
  | .atan => .mul .g (.un .recip (.scal .add (.mul .x .x) .one))
  | .sinh => .mul .g (.un .cosh .x)
  | .cosh => .mul .g (.un .sinh .x)
  | .tanh => .mul .g (.sub .ones (.mul .out .out))
  | .asinh => .mul .g (.un .recip (.un .sqrt (.scal .add (.mul .x .x) .one)))
  | .acosh => .mul .g (.un .recip (.un .sqrt (.scal .sub (.mul .x .x) .one)))
  | .atanh => .mul .g (.un .recip (.un .neg (.scal .sub (.mul .x .x) .one)))
  | .ln => .mul .g (.un .recip .x)
  | .log10 => .mul .g (.un .recip (.scal .mul .x .ln10))
  | .log2 => .mul .g (.un .recip (.scal .mul .x .ln2))
  | .exp => .mul .g .out
  | .exp10 => .mul .g (.scal .mul .out .ln10)
  | .exp2 => .mul .g (.scal .mul .out .ln2)
  | .softplus => .mul .g (.un .sigmoid .x)
  | .recip => .mul .g (.un .neg (.un .recip (.mul .x .x)))
  | .sqrt => .mul .g (.scal .mul (.un .recip .out) .half)
  | .ceil => .like .zero .x
  | .floor => .like .zero .x
  | .round => .like .zero .x
  | .erf => .mul .g (.scal .mul (.un .exp (.un .neg (.mul .x .x))) .twoOverSqrtPi)

/-- Which unary operations are recorded on the tape at all: `validate_requires_grad_for_op`,
utils/valid.rs:409-430. -/
def unaryDiff : UOp → Bool
  | .abs | .sign | .ceil | .floor | .round => false
  | _ => true

/-- `compute_vjp` of a unary operation on the recorded tensors. -/
def unaryVjp (A : FOps α) (cores : Nat) (fill : α) (o : UOp) (x out g : Tensor α) : Res (Tensor α) :=
  (unaryRule o).run A cores fill [x, out, g]

/-- `enum UnaryScalarOp`, crates/hodu_core/src/ops.rs. -/
inductive SOp where
  | add | sub | mul | div | rem | pow | maximum | minimum | leakyRelu | elu | prelu
  deriving Repr, DecidableEq

/-- `UnaryScalarOp::compute_vjp`, tensor/gradient/vjp_unary.rs:458-622, as expressions. -/
def scalarRule : SOp → Ex
  | .add => .g
  | .sub => .g
  | .mul => .scal .mul .g .arg
  | .div => .scal .mul .g .argInv
  | .rem => .g
  | .pow => .mul .g (.scal .mul (.scal .pow .x .argPred) .arg)
  | .maximum => .mul .g (.mask .ge .x .arg)
  | .minimum => .mul .g (.mask .le .x .arg)
  | .leakyRelu => .mul .g (.add (.mask .gt .x .zero) (.scal .mul (.mask .le .x .zero) .arg))
  | .elu =>
    .mul .g (.add (.mask .gt .x .zero) (.mul (.mask .le .x .zero) (.scal .mul (.un .exp .x) .arg)))
  | .prelu =>
    .mul .g (.add (.mask .gt .x .zero) (.mul (.mask .le .x .zero) (.scal .mul .ones .arg)))

/-- `compute_vjp` of an operation with a scalar; `tiny` is the test `v.abs() < EPSILON` of the
scalar's type (vjp_unary.rs:476, 485, 494, ...). -/
def scalarVjp (A : FOps α) (cores : Nat) (fill : α) (tiny : Bool) (o : SOp) (x out g : Tensor α) :
    Res (Tensor α) :=
  if o = .div ∧ tiny = true then .err else (scalarRule o).run A cores fill [x, out, g]

/-! ## Binary operators -/

/-- Leaves of the binary rules: 0 and 1 the inputs, 2 the output, 3 its gradient. -/
abbrev Ex.bx : Ex := .leaf 0
/-- Second input. -/
abbrev Ex.by' : Ex := .leaf 1
/-- Output. -/
abbrev Ex.bo : Ex := .leaf 2
/-- Gradient of the output. -/
abbrev Ex.bg : Ex := .leaf 3

/-- The two gradients before `sum_to_shape`, `BinaryOp::compute_vjp`,
tensor/gradient/vjp_binary.rs:23-107. -/
def binaryRule : BOp → Ex × Ex
  | .add => (.bg, .bg)
  | .sub => (.bg, .un .neg .bg)
  | .mul => (.mul .bg .by', .mul .bg .bx)
  | .div => (.div .bg .by', .un .neg (.div (.mul .bg .bx) (.mul .by' .by')))
  | .rem => (.bg, .un .neg (.mul .bg (.un .floor (.div .bx .by'))))
  | .pow => (.mul .bg (.mul .by' (.bin .pow .bx (.scal .sub .by' .one))),
      .mul .bg (.mul .bo (.un .ln .bx)))
  | .maximum => (.mul .bg (.cmp .ge .bx .by'), .mul .bg (.cmp .gt .by' .bx))
  | .minimum => (.mul .bg (.cmp .le .bx .by'), .mul .bg (.cmp .lt .by' .bx))

/-- `BinaryOp::compute_vjp`, tensor/gradient/vjp_binary.rs:10-109: both gradients, summed to the
shapes of the inputs (`create_sum_to_shape_tensor`, vjp_utils.rs:185-188). -/
def binaryVjp (A : FOps α) (cores : Nat) (fill : α) (o : BOp) (x y out g : Tensor α) :
    Res (Tensor α × Tensor α) :=
  ((binaryRule o).1.run A cores fill [x, y, out, g]).bind fun ra =>
  ((binaryRule o).2.run A cores fill [x, y, out, g]).bind fun rb =>
  (ra.sumToShape (A.bin .add) (A.cst .zero) x.dims).bind fun ga =>
  (rb.sumToShape (A.bin .add) (A.cst .zero) y.dims).bind fun gb => .ok (ga, gb)

/-! ## Reductions -/

/-- The differentiable operations of `enum ReduceOp`; the others are rejected
(vjp_reduce.rs:157-160). -/
inductive ROp where
  | sum | mean | max | min | prod | std | var | norm | logsum | logsumexp
  deriving Repr, DecidableEq

/-- `acc += val`, ops_reduce.c (sum kernels): sum of a list of elements. -/
def FOps.sumL (A : FOps α) (vs : List α) : α := vs.foldl (A.bin .add) (A.cst .zero)

/-- `if (val > max_val) max_val = val`, ops_reduce.c:360-500, 2140-2155. -/
def FOps.maxL (A : FOps α) (vs : List α) : α :=
  vs.foldl (fun acc v => if A.cmp .gt v acc then v else acc) A.lowest

/-- `if (val < min_val) min_val = val`, ops_reduce.c:570-700. -/
def FOps.minL (A : FOps α) (vs : List α) : α :=
  vs.foldl (fun acc v => if A.cmp .lt v acc then v else acc) A.highest

/-- `E[x²] - E[x]²`, ops_reduce.c:904-912, 1108-1116. -/
def FOps.varL (A : FOps α) (vs : List α) : α :=
  let n := A.ofNat vs.length
  let mean := A.bin .div (A.sumL vs) n
  A.bin .sub (A.bin .div (A.sumL (vs.map fun v => A.bin .mul v v)) n) (A.bin .mul mean mean)

/-- The value a reduction kernel computes from the elements of one output cell (ops_reduce.c: sum,
mean 1452-1472, max 360-560, min, prod 795-808, std 831-915, var 1033-1118, norm 1518-1600, logsum
1938-1955, logsumexp 2080-2178).  Simplified: the SIMD variants (see C21) and the detour of the norm
through `float`. -/
def FOps.redL (A : FOps α) : ROp → List α → α
  | .sum, vs => A.sumL vs
  | .mean, vs => A.bin .div (A.sumL vs) (A.ofNat vs.length)
  | .max, vs => A.maxL vs
  | .min, vs => A.minL vs
  | .prod, vs => vs.foldl (A.bin .mul) (A.cst .one)
  | .var, vs => A.varL vs
  | .std, vs => A.un .sqrt (A.varL vs)
  | .norm, vs => A.un .sqrt (A.sumL (vs.map fun v => A.bin .mul v v))
  | .logsum, vs => A.un .ln (A.sumL vs)
  | .logsumexp, vs =>
    let m := A.maxL vs
    A.bin .add m (A.un .ln (A.sumL (vs.map fun v => A.un .exp (A.bin .sub v m))))

/-- A reduction of the library: `Tensor::sum`, `mean`, ..., tensor/ops/reduce.rs:11-130. -/
def Tensor.red (A : FOps α) (o : ROp) (t : Tensor α) (dims : List Int) (keep : Bool) :
    Res (Tensor α) := t.reduce (A.redL o) dims keep

/-- `dims` as recorded on the tape and read back, vjp_reduce.rs:29-33. -/
def vjpDims (rank : Nat) (dims : List Nat) : List Nat :=
  if dims.isEmpty then List.range rank else dims

/-- Number of reduced elements, vjp_reduce.rs:45-48, 80-83, 99-102; an axis out of range panics, but
the recorded axes are those of a reduction that succeeded. -/
def reduceCount (shape : List Nat) (K : List Nat) : Nat :=
  (K.map fun k => shape.getD k 1).foldl (· * ·) 1

/-- `ReduceOp::compute_vjp`, tensor/gradient/vjp_reduce.rs:10-162: gradient of the input `x` of a
reduction with the recorded axes `dims`, given its output and the output's gradient. -/
def reduceVjp (A : FOps α) (cores : Nat) (fill : α) (o : ROp) (x out g : Tensor α)
    (dims : List Nat) : Res (Tensor α) :=
  let K := vjpDims x.dims.length dims
  let Ki := K.map Int.ofNat
  let mul := Tensor.binary cores (A.bin .mul) fill
  let div := Tensor.binary cores (A.bin .div) fill
  let sub := Tensor.binary cores (A.bin .sub) fill
  let scale (c : α) (t : Tensor α) := t.unary cores (fun v => A.bin .mul v c) fill
  match o with
  | .sum => g.broadcast x.dims
  | .mean =>
    (scale (A.bin .div (A.cst .one) (A.ofNat (reduceCount x.dims K))) g).bind fun s =>
      s.broadcast x.dims
  | .prod =>
    (out.broadcast x.dims).bind fun bo => (div bo x).bind fun d =>
      (g.broadcast x.dims).bind fun bg => mul d bg
  | .norm =>
    (out.broadcast x.dims).bind fun bo => (div x bo).bind fun d =>
      (g.broadcast x.dims).bind fun bg => mul d bg
  | .var =>
    (x.red A .mean Ki false).bind fun m => (m.broadcast x.dims).bind fun bm =>
      (sub x bm).bind fun diff =>
      (scale (A.bin .div (A.bin .add (A.cst .one) (A.cst .one))
        (A.ofNat (reduceCount x.dims K))) diff).bind fun d =>
      (g.broadcast x.dims).bind fun bg => mul d bg
  | .std =>
    (x.red A .mean Ki false).bind fun m => (m.broadcast x.dims).bind fun bm =>
      (sub x bm).bind fun diff => (out.broadcast x.dims).bind fun bs =>
      (div diff bs).bind fun q =>
      (scale (A.bin .div (A.cst .one) (A.ofNat (reduceCount x.dims K))) q).bind fun d =>
      (g.broadcast x.dims).bind fun bg => mul d bg
  | .max | .min =>
    (out.broadcast x.dims).bind fun bo =>
      (Tensor.binaryBool (A.cmp .eq) x bo).bind fun m =>
      (m.unary cores A.ofBool fill).bind fun mf =>
      (mf.red A .sum Ki true).bind fun c => (c.broadcast x.dims).bind fun bc =>
      (g.broadcast x.dims).bind fun bg => (mul bg mf).bind fun mg => div mg bc
  | .logsum =>
    (out.unary cores (A.un .exp) fill).bind fun s => (s.broadcast x.dims).bind fun bs =>
      (bs.unary cores (A.un .recip) fill).bind fun d =>
      (g.broadcast x.dims).bind fun bg => mul d bg
  | .logsumexp =>
    (x.unary cores (A.un .exp) fill).bind fun ex => (out.unary cores (A.un .exp) fill).bind fun s =>
      (s.broadcast x.dims).bind fun bs => (div ex bs).bind fun q =>
      (g.broadcast x.dims).bind fun bg => mul q bg

/-! ## Softmax -/

/-- The axis as computed in tensor/ops/normalization.rs:6-13: `(ndim + d) as u32 as usize`. -/
def softmaxAxis (rank : Nat) (d : Int) : Nat :=
  ((if d < 0 then (rank : Int) + d else d) % 2 ^ 32).toNat

/-- `Tensor::softmax`, tensor/ops/normalization.rs:4-22. -/
def Tensor.softmax (A : FOps α) (cores : Nat) (fill : α) (t : Tensor α) (d : Int) : Res (Tensor α) :=
  let k : List Int := [(softmaxAxis t.dims.length d : Int)]
  (t.red A .max k true).bind fun m =>
    (Tensor.binary cores (A.bin .sub) fill t m).bind fun sh =>
    (sh.unary cores (A.un .exp) fill).bind fun ex =>
    (ex.red A .sum k true).bind fun s => Tensor.binary cores (A.bin .div) fill ex s

/-- `Tensor::log_softmax`, tensor/ops/normalization.rs:24-42. -/
def Tensor.logSoftmax (A : FOps α) (cores : Nat) (fill : α) (t : Tensor α) (d : Int) :
    Res (Tensor α) :=
  let k : List Int := [(softmaxAxis t.dims.length d : Int)]
  (t.red A .max k true).bind fun m =>
    (Tensor.binary cores (A.bin .sub) fill t m).bind fun sh =>
    (sh.unary cores (A.un .exp) fill).bind fun ex =>
    (ex.red A .sum k true).bind fun s => (s.unary cores (A.un .ln) fill).bind fun l =>
    Tensor.binary cores (A.bin .sub) fill sh l

end Hodu
