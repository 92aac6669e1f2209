import Verif.Model.DType
import Verif.Model.GradRules

/-!
# Model of the path from an operation and an element type to a kernel

Three layers decide whether a call of a tensor operation runs a kernel:

1. `validate_dtype_for_op` (crates/hodu_core/src/utils/valid.rs:91-390) accepts or rejects the pair
   (operation, element type); the public method returns `Err` on rejection;
2. the CPU back end (crates/hodu_core/src/be_cpu/storage/ops_*.rs) matches on the storage variant
   (some variants have no arm: `Err`) and builds the name of the kernel with `format!`;
3. the kernel crate (crates/hodu_cpu_kernels/src/kernels/ops_*.rs) matches that name against the
   names its macros declare; an unknown name panics.

`validate_dtype_for_device` accepts every element type on the CPU (utils/valid.rs:9-28).  All optional
element types are taken to be enabled.  Operations that run no kernel (views, slices) are left out.
What a kernel computes is modelled elsewhere; here a kernel is its name.  `BOp` and `UOp` are the
enumerations `BinaryOp` and `UnaryOp` of ops.rs (Model/GradRules.lean).
-/

namespace Hodu.Dispatch

open Hodu

/-- `Display for BinaryOp`, ops.rs:21-34. -/
def _root_.Hodu.BOp.name : BOp → String
  | .add => "add"
  | .sub => "sub"
  | .mul => "mul"
  | .div => "div"
  | .rem => "rem"
  | .pow => "pow"
  | .maximum => "maximum"
  | .minimum => "minimum"

/-- `BinaryLogicalOp`, crates/hodu_core/src/ops.rs:44-48. -/
inductive BinaryLogicalOp where
  | logicalAnd | logicalOr | logicalXor
  deriving Repr, DecidableEq

/-- `Display for BinaryLogicalOp`, ops.rs:50-58. -/
def BinaryLogicalOp.name : BinaryLogicalOp → String
  | .logicalAnd => "logical_and"
  | .logicalOr => "logical_or"
  | .logicalXor => "logical_xor"

/-- `BitwiseBinaryOp`, crates/hodu_core/src/ops.rs:68-74. -/
inductive BitwiseBinaryOp where
  | shl | shr | band | bor | bxor
  deriving Repr, DecidableEq

/-- `Display for BitwiseBinaryOp`, ops.rs:76-86. -/
def BitwiseBinaryOp.name : BitwiseBinaryOp → String
  | .shl => "shl"
  | .shr => "shr"
  | .band => "bitwise_and"
  | .bor => "bitwise_or"
  | .bxor => "bitwise_xor"

/-- `CmpOp`, crates/hodu_core/src/ops.rs:96-103. -/
inductive CmpOp where
  | eq | ne | lt | le | gt | ge
  deriving Repr, DecidableEq

/-- `Display for CmpOp`, ops.rs:105-116. -/
def CmpOp.name : CmpOp → String
  | .eq => "eq"
  | .ne => "ne"
  | .lt => "lt"
  | .le => "le"
  | .gt => "gt"
  | .ge => "ge"

/-- `CmpScalarOp`, crates/hodu_core/src/ops.rs:126-133. -/
inductive CmpScalarOp where
  | eqScalar | neScalar | ltScalar | leScalar | gtScalar | geScalar
  deriving Repr, DecidableEq

/-- `Display for CmpScalarOp`, ops.rs:135-146. -/
def CmpScalarOp.name : CmpScalarOp → String
  | .eqScalar => "eq_scalar"
  | .neScalar => "ne_scalar"
  | .ltScalar => "lt_scalar"
  | .leScalar => "le_scalar"
  | .gtScalar => "gt_scalar"
  | .geScalar => "ge_scalar"

/-- `Display for UnaryOp`, ops.rs:210-255. -/
def _root_.Hodu.UOp.name : UOp → String
  | .neg => "neg"
  | .abs => "abs"
  | .sign => "sign"
  | .softsign => "softsign"
  | .square => "square"
  | .sqrt => "sqrt"
  | .recip => "recip"
  | .relu => "relu"
  | .sigmoid => "sigmoid"
  | .hardsigmoid => "hardsigmoid"
  | .gelu => "gelu"
  | .softplus => "softplus"
  | .silu => "silu"
  | .hardsilu => "hardsilu"
  | .mish => "mish"
  | .selu => "selu"
  | .celu => "celu"
  | .sin => "sin"
  | .cos => "cos"
  | .tan => "tan"
  | .asin => "asin"
  | .acos => "acos"
  | .atan => "atan"
  | .sinh => "sinh"
  | .cosh => "cosh"
  | .tanh => "tanh"
  | .asinh => "asinh"
  | .acosh => "acosh"
  | .atanh => "atanh"
  | .exp => "exp"
  | .exp2 => "exp2"
  | .exp10 => "exp10"
  | .ln => "ln"
  | .log2 => "log2"
  | .log10 => "log10"
  | .ceil => "ceil"
  | .floor => "floor"
  | .round => "round"
  | .erf => "erf"

/-- `UnaryLogicalOp`, crates/hodu_core/src/ops.rs:264-269. -/
inductive UnaryLogicalOp where
  | logicalNot | isNan | isInf | isFinite
  deriving Repr, DecidableEq

/-- `Display for UnaryLogicalOp`, ops.rs:271-280. -/
def UnaryLogicalOp.name : UnaryLogicalOp → String
  | .logicalNot => "logical_not"
  | .isNan => "isnan"
  | .isInf => "isinf"
  | .isFinite => "isfinite"

/-- `BitwiseUnaryOp`, crates/hodu_core/src/ops.rs:290-292. -/
inductive BitwiseUnaryOp where
  | bnot
  deriving Repr, DecidableEq

/-- `Display for BitwiseUnaryOp`, ops.rs:294-300. -/
def BitwiseUnaryOp.name : BitwiseUnaryOp → String
  | .bnot => "bitwise_not"

/-- `BitwiseUnaryScalarOp`, crates/hodu_core/src/ops.rs:310-313. -/
inductive BitwiseUnaryScalarOp where
  | shlScalar | shrScalar
  deriving Repr, DecidableEq

/-- `Display for BitwiseUnaryScalarOp`, ops.rs:315-322. -/
def BitwiseUnaryScalarOp.name : BitwiseUnaryScalarOp → String
  | .shlScalar => "shl_scalar"
  | .shrScalar => "shr_scalar"

/-- `UnaryScalarOp`, crates/hodu_core/src/ops.rs:332-345. -/
inductive UnaryScalarOp where
  | addScalar | subScalar | mulScalar | divScalar | remScalar | powScalar | maximumScalar | minimumScalar | leakyRelu | elu | prelu
  deriving Repr, DecidableEq

/-- `Display for UnaryScalarOp`, ops.rs:347-363. -/
def UnaryScalarOp.name : UnaryScalarOp → String
  | .addScalar => "add_scalar"
  | .subScalar => "sub_scalar"
  | .mulScalar => "mul_scalar"
  | .divScalar => "div_scalar"
  | .remScalar => "rem_scalar"
  | .powScalar => "pow_scalar"
  | .maximumScalar => "maximum_scalar"
  | .minimumScalar => "minimum_scalar"
  | .leakyRelu => "leaky_relu"
  | .elu => "elu"
  | .prelu => "prelu"

/-- `MatrixOp`, crates/hodu_core/src/ops.rs:373-376. -/
inductive MatrixOp where
  | matmul | dot
  deriving Repr, DecidableEq

/-- `Display for MatrixOp`, ops.rs:378-385. -/
def MatrixOp.name : MatrixOp → String
  | .matmul => "matmul"
  | .dot => "dot"

/-- `LinalgOp`, crates/hodu_core/src/ops.rs:395-400. -/
inductive LinalgOp where
  | det | inv | trace
  deriving Repr, DecidableEq

/-- `Display for LinalgOp`, ops.rs:402-410. -/
def LinalgOp.name : LinalgOp → String
  | .det => "det"
  | .inv => "inv"
  | .trace => "trace"

/-- `ReduceOp`, crates/hodu_core/src/ops.rs:420-435. -/
inductive ReduceOp where
  | sum | mean | max | min | prod | std | var | norm | logSum | logSumExp | argMax | argMin | any | all
  deriving Repr, DecidableEq

/-- `Display for ReduceOp`, ops.rs:437-456. -/
def ReduceOp.name : ReduceOp → String
  | .sum => "sum"
  | .mean => "mean"
  | .max => "max"
  | .min => "min"
  | .prod => "prod"
  | .std => "std"
  | .var => "var"
  | .norm => "norm"
  | .logSum => "logsum"
  | .logSumExp => "logsumexp"
  | .argMax => "argmax"
  | .argMin => "argmin"
  | .any => "any"
  | .all => "all"

/-- `ScatterOp`, crates/hodu_core/src/ops.rs:506-518 (the four scatter variants of `IndexingOp`). -/
inductive ScatterOp where
  | scatter | scatterAdd | scatterMax | scatterMin
  deriving Repr, DecidableEq

/-- `Display for ScatterOp`, ops.rs:520-536. -/
def ScatterOp.name : ScatterOp → String
  | .scatter => "scatter"
  | .scatterAdd => "scatter_add"
  | .scatterMax => "scatter_max"
  | .scatterMin => "scatter_min"

/-- `ConvOp`, crates/hodu_core/src/ops.rs:546-559. -/
inductive ConvOp where
  | conv1d | conv2d | conv3d | convTranspose1d | convTranspose2d | convTranspose3d | conv1dGradWeight | conv2dGradWeight | conv3dGradWeight | convTranspose1dGradWeight | convTranspose2dGradWeight | convTranspose3dGradWeight
  deriving Repr, DecidableEq

/-- `Display for ConvOp`, ops.rs:561-578. -/
def ConvOp.name : ConvOp → String
  | .conv1d => "conv1d"
  | .conv2d => "conv2d"
  | .conv3d => "conv3d"
  | .convTranspose1d => "conv_transpose1d"
  | .convTranspose2d => "conv_transpose2d"
  | .convTranspose3d => "conv_transpose3d"
  | .conv1dGradWeight => "conv1d_grad_weight"
  | .conv2dGradWeight => "conv2d_grad_weight"
  | .conv3dGradWeight => "conv3d_grad_weight"
  | .convTranspose1dGradWeight => "conv_transpose1d_grad_weight"
  | .convTranspose2dGradWeight => "conv_transpose2d_grad_weight"
  | .convTranspose3dGradWeight => "conv_transpose3d_grad_weight"

/-- `WindowingOp`, crates/hodu_core/src/ops.rs:588-593. -/
inductive WindowingOp where
  | windowMax | windowMean | windowSum | windowMin
  deriving Repr, DecidableEq

/-- `Display for WindowingOp`, ops.rs:595-604. -/
def WindowingOp.name : WindowingOp → String
  | .windowMax => "reduce_window_max"
  | .windowMean => "reduce_window_mean"
  | .windowSum => "reduce_window_sum"
  | .windowMin => "reduce_window_min"

/-- `PaddingOp`, crates/hodu_core/src/ops.rs:634-639. -/
inductive PaddingOp where
  | padConstant | padReflect | padReplicate | padCircular
  deriving Repr, DecidableEq

/-- `Display for PaddingOp`, ops.rs:641-650. -/
def PaddingOp.name : PaddingOp → String
  | .padConstant => "pad_constant"
  | .padReflect => "pad_reflect"
  | .padReplicate => "pad_replicate"
  | .padCircular => "pad_circular"

/-- The kernel-backed part of `Op`, ops.rs:832-862.  `onehot` carries the element type of its result
(tensor/ops/indexing.rs), `cast` its target. -/
inductive Op where
  | binary (o : BOp) | binaryLogical (o : BinaryLogicalOp) | bitwiseBinary (o : BitwiseBinaryOp)
  | cmp (o : CmpOp) | cmpScalar (o : CmpScalarOp) | unary (o : UOp) | unaryLogical (o : UnaryLogicalOp)
  | bitwiseUnary (o : BitwiseUnaryOp) | bitwiseUnaryScalar (o : BitwiseUnaryScalarOp)
  | unaryScalar (o : UnaryScalarOp) | matrix (o : MatrixOp) | linalg (o : LinalgOp) | reduce (o : ReduceOp)
  | concat | split | indexSelect | indexPut | gather | scatter (o : ScatterOp)
  | onehot (out : DType) | nonzero | unique | compress
  | conv (o : ConvOp) | windowing (o : WindowingOp) | padding (o : PaddingOp)
  | cumsum | topk | einsum | resize | flip | contiguous | cast (dst : DType)
  deriving Repr, DecidableEq

/-- `dtype == DType::BOOL || dtype.is_uint() || dtype.is_int()`, the test of every float-only branch,
utils/valid.rs:101-103 and others. -/
def notFloat (dt : DType) : Bool := dt.isBool || dt.isUint || dt.isInt

/-- `validate_dtype_for_op`, utils/valid.rs:91-390 (`true`: accepted). -/
def validate (dt : DType) : Op → Bool
  | .binary .add | .binary .sub | .binary .mul | .binary .rem => !dt.isBool
  | .binary .div | .binary .pow => !notFloat dt
  | .binary .maximum | .binary .minimum => !dt.isBool
  | .binaryLogical _ => true
  | .bitwiseBinary _ => !(dt.isBool || dt.isFloat)
  | .cmp .eq | .cmp .ne => true
  | .cmp _ => !dt.isBool
  | .cmpScalar .eqScalar | .cmpScalar .neScalar => true
  | .cmpScalar _ => !dt.isBool
  | .unary .neg | .unary .abs | .unary .sign | .unary .softsign => !(dt.isBool || dt.isUint)
  | .unary .square => !dt.isBool
  | .unary .relu => !(dt.isBool || dt.isUint)
  | .unary _ => !notFloat dt
  | .unaryLogical .logicalNot => true
  | .unaryLogical _ => !notFloat dt
  | .bitwiseUnary _ | .bitwiseUnaryScalar _ => !(dt.isBool || dt.isFloat)
  | .unaryScalar .addScalar | .unaryScalar .subScalar | .unaryScalar .mulScalar
  | .unaryScalar .remScalar => !dt.isBool
  | .unaryScalar .divScalar | .unaryScalar .powScalar => !notFloat dt
  | .unaryScalar .maximumScalar | .unaryScalar .minimumScalar => !dt.isBool
  | .unaryScalar _ => !notFloat dt
  | .matrix _ | .linalg _ => !dt.isBool
  | .reduce .sum | .reduce .prod | .reduce .max | .reduce .min => !dt.isBool
  | .reduce .argMax | .reduce .argMin | .reduce .any | .reduce .all => true
  | .reduce _ => !notFloat dt
  | .concat | .split | .indexSelect | .indexPut | .gather | .scatter .scatter => true
  | .scatter _ => !dt.isBool
  | .onehot _ => dt == .i32
  | .nonzero | .unique | .compress => true
  | .conv _ => !notFloat dt
  | .windowing .windowMean => !notFloat dt
  | .windowing _ => !dt.isBool
  | .padding _ => true
  | .cumsum | .topk | .einsum => !dt.isBool
  | .resize => !notFloat dt
  | .flip | .contiguous | .cast _ => true

/-- All fifteen element types (the order of the macros, e.g. kernels/ops_unary.rs:226-240). -/
def allTypes : List DType :=
  [.bool, .f8e4m3, .f8e5m2, .bf16, .f16, .f32, .f64, .u8, .u16, .u32, .u64, .i8, .i16, .i32, .i64]

/-- The types of the `numeric` arms (everything but `bool`), e.g. kernels/ops_reduce.rs:155-168. -/
def numTypes : List DType :=
  [.f8e4m3, .f8e5m2, .bf16, .f16, .f32, .f64, .i8, .i16, .i32, .i64, .u8, .u16, .u32, .u64]

/-- The six float types, e.g. kernels/ops_unary.rs:259-266. -/
def floatTypes : List DType := [.f8e4m3, .f8e5m2, .bf16, .f16, .f32, .f64]

/-- The eight integer types, e.g. kernels/ops_bitwise.rs:100-128. -/
def intTypes : List DType := [.u8, .u16, .u32, .u64, .i8, .i16, .i32, .i64]

/-- The types of the signed arms, kernels/ops_unary.rs:244-256. -/
def signedTypes : List DType :=
  [.bool, .f8e4m3, .f8e5m2, .bf16, .f16, .f32, .f64, .i8, .i16, .i32, .i64]

/-- Storage variants that have an arm in the back end function of the operation; the others fall
through to `_ => Err(BackendError)`.  be_cpu/storage/: ops_binary.rs:10-330 (all), ops_bitwise.rs
(integers), ops_unary.rs (all), ops_matrix.rs and ops_linalg.rs (no BOOL), ops_reduce.rs:90-115
(no BOOL), ops_concat_split.rs (all), ops_indexing.rs (all), ops_conv.rs (floats),
ops_windowing.rs:120-150 (all), ops_padding.rs (all), ops_scan.rs, ops_sort.rs, ops_einsum.rs
(no BOOL), ops_resize.rs (floats), ops_shape_memory.rs (all), be_cpu/storage.rs:693-768 (all). -/
def hostArms : Op → List DType
  | .bitwiseBinary _ | .bitwiseUnary _ | .bitwiseUnaryScalar _ => intTypes
  | .matrix _ | .linalg _ | .reduce _ | .cumsum | .topk | .einsum => numTypes
  | .conv _ | .resize => floatTypes
  | _ => allTypes

/-- `format!("hodu_cpu_{}_{}", op, dtype)`, e.g. be_cpu/storage/ops_unary.rs:103. -/
def kname (op : String) (dt : DType) : String := "hodu_cpu_" ++ op ++ "_" ++ dt.name

/-- `format!("hodu_cpu_cast_{}_to_{}", …)`, be_cpu/storage.rs:705. -/
def castName (src dst : DType) : String := "hodu_cpu_cast_" ++ src.name ++ "_to_" ++ dst.name

/-- A dispatch table as its macro declares it: rows of operation names with the types they expand to. -/
abbrev Table := List (List String × List DType)

/-- The string patterns a table expands to (`concat!("hodu_cpu_", stringify!($op), "_f32") => …`),
e.g. kernels/ops_unary.rs:225-266. -/
def Table.names (t : Table) : List String :=
  t.flatMap fun row => row.1.flatMap fun o => row.2.map fun dt => kname o dt

/-- kernels/ops_unary.rs:304-323 (`declare_and_dispatch_unary!`), first three groups. -/
def unaryTable : Table :=
  [ (["abs", "sign", "softsign", "square", "sqrt", "recip", "logical_not"], allTypes),
    (["neg"], signedTypes),
    (["relu", "sigmoid", "hardsigmoid", "gelu", "softplus", "silu", "hardsilu", "mish", "selu", "celu",
      "sin", "cos", "tan", "asin", "acos", "atan", "sinh", "cosh", "tanh", "asinh", "acosh", "atanh",
      "exp", "exp2", "exp10", "ln", "log2", "log10", "ceil", "floor", "round", "erf",
      "isnan", "isinf", "isfinite"], floatTypes) ]

/-- kernels/ops_unary.rs:324-328, the scalar group. -/
def unaryScalarTable : Table :=
  [ (["add_scalar", "sub_scalar", "mul_scalar", "div_scalar", "pow_scalar", "maximum_scalar",
      "minimum_scalar", "eq_scalar", "ne_scalar", "lt_scalar", "le_scalar", "gt_scalar", "ge_scalar"],
     allTypes) ]

/-- kernels/ops_binary.rs:173-191. -/
def binaryTable : Table :=
  [ (["add", "sub", "mul", "div", "pow", "maximum", "minimum", "logical_and", "logical_or",
      "logical_xor", "eq", "ne", "lt", "le", "gt", "ge"], allTypes) ]

/-- kernels/ops_bitwise.rs:181 (binary), 184 (unary), 264 (scalar shifts). -/
def bitwiseBinaryTable : Table :=
  [ (["shl", "shr", "bitwise_and", "bitwise_or", "bitwise_xor"], intTypes) ]
/-- kernels/ops_bitwise.rs:184. -/
def bitwiseUnaryTable : Table := [ (["bitwise_not"], intTypes) ]
/-- kernels/ops_bitwise.rs:264. -/
def bitwiseScalarTable : Table := [ (["shl_scalar", "shr_scalar"], intTypes) ]

/-- kernels/ops_matrix.rs:140-192, one table per entry point (`dispatch_matmul`, `dispatch_dot`). -/
def matrixTable : MatrixOp → Table
  | .matmul => [ (["matmul"], numTypes) ]
  | .dot => [ (["dot"], numTypes) ]

/-- kernels/ops_linalg.rs:170-246. -/
def linalgTable : LinalgOp → Table
  | .det => [ (["det"], numTypes) ]
  | .inv => [ (["inv"], numTypes) ]
  | .trace => [ (["trace"], numTypes) ]

/-- The arms that run a reduction kernel, kernels/ops_reduce.rs:151-229. -/
def reduceTable : Table :=
  [ (["sum", "max", "min", "prod"], numTypes),
    (["std", "var", "mean", "norm", "logsum", "logsumexp"], floatTypes),
    (["argmax", "argmin", "any", "all"], allTypes) ]

/-- The closing list of kernels/ops_reduce.rs:232-379 (`if !matches!(name, …) { panic! }`), evaluated
after the kernel ran.  For `argmax`, `argmin`, `any` and `all` it does not list `f64`. -/
def reduceKnown : Table :=
  [ (["sum", "max", "min", "prod"], numTypes),
    (["mean", "std", "var", "norm", "logsum", "logsumexp"], floatTypes),
    (["argmax", "argmin", "any", "all"],
     [.bool, .f8e4m3, .f8e5m2, .bf16, .f16, .f32, .i8, .i16, .i32, .i64, .u8, .u16, .u32, .u64]) ]

/-- kernels/ops_conv.rs: the arms of `call_ops_conv` (up to 501). -/
def convTable : Table :=
  [ (["conv1d", "conv2d", "conv3d", "conv_transpose1d", "conv_transpose2d", "conv_transpose3d"],
     floatTypes) ]

/-- kernels/ops_conv.rs: the arms of `call_ops_conv_grad_weight` (up to 677). -/
def convGradTable : Table :=
  [ (["conv1d_grad_weight", "conv2d_grad_weight", "conv3d_grad_weight", "conv_transpose1d_grad_weight",
      "conv_transpose2d_grad_weight", "conv_transpose3d_grad_weight"], floatTypes) ]

/-- Which entry point a convolution goes to, be_cpu/storage/ops_conv.rs:25-60, 277-310. -/
def ConvOp.isGrad : ConvOp → Bool
  | .conv1dGradWeight | .conv2dGradWeight | .conv3dGradWeight
  | .convTranspose1dGradWeight | .convTranspose2dGradWeight | .convTranspose3dGradWeight => true
  | _ => false

/-- kernels/ops_windowing.rs:60-168. -/
def windowTable : Table :=
  [ (["reduce_window_max", "reduce_window_sum", "reduce_window_min"], numTypes),
    (["reduce_window_mean"], floatTypes) ]

/-- kernels/ops_padding.rs:130-252, one table per entry point, chosen by be_cpu/storage/ops_padding.rs:80-230. -/
def paddingTable : PaddingOp → Table
  | .padConstant => [ (["pad_constant"], allTypes) ]
  | .padReflect => [ (["pad_reflect"], allTypes) ]
  | .padReplicate => [ (["pad_replicate"], allTypes) ]
  | .padCircular => [ (["pad_circular"], allTypes) ]

/-- kernels/ops_cast.rs:114-131. -/
def castNames : List String := allTypes.flatMap fun s => allTypes.map fun t => castName s t

/-- A dispatch function: the arm whose pattern is the name, else `panic!` (e.g. kernels/ops_unary.rs:268). -/
def lookup (names : List String) (name : String) : Res (List String) :=
  if name ∈ names then .ok [name] else .panic

/-- `dispatch_reduce`, kernels/ops_reduce.rs:222-382: three `match`es that ignore unknown names, then
the panic unless the name is listed. -/
def dispatchReduce (name : String) : Res (List String) :=
  let ran := if name ∈ reduceTable.names then [name] else []
  if name ∈ reduceKnown.names then .ok ran else .panic

/-- The kernel call of the back end, with the name built by the host (be_cpu/storage/ops_*.rs).  All four scatter variants request `hodu_cpu_scatter_{dtype}` (be_cpu/storage/ops_indexing.rs:457);
`nonzero` runs a counting and a filling kernel (ops_indexing.rs:644-687); `onehot` is named after the
type of the result (ops_indexing.rs:591); a cast to the same type is a copy (be_cpu/storage.rs:694-696),
and a copy of contiguous data is a `clone` without a kernel (storage.rs:719-721; not distinguished here).
The result lists the kernels that ran. -/
def callKernel (op : Op) (dt : DType) : Res (List String) :=
  match op with
  | .binary o => lookup binaryTable.names (kname o.name dt)
  | .binaryLogical o => lookup binaryTable.names (kname o.name dt)
  | .cmp o => lookup binaryTable.names (kname o.name dt)
  | .bitwiseBinary o => lookup bitwiseBinaryTable.names (kname o.name dt)
  | .bitwiseUnary o => lookup bitwiseUnaryTable.names (kname o.name dt)
  | .bitwiseUnaryScalar o => lookup bitwiseScalarTable.names (kname o.name dt)
  | .cmpScalar o => lookup unaryScalarTable.names (kname o.name dt)
  | .unaryScalar o => lookup unaryScalarTable.names (kname o.name dt)
  | .unary o => lookup unaryTable.names (kname o.name dt)
  | .unaryLogical o => lookup unaryTable.names (kname o.name dt)
  | .matrix o => lookup (matrixTable o).names (kname o.name dt)
  | .linalg o => lookup (linalgTable o).names (kname o.name dt)
  | .reduce o => dispatchReduce (kname o.name dt)
  | .concat => lookup (Table.names [(["concat"], allTypes)]) (kname "concat" dt)
  | .split => lookup (Table.names [(["split"], allTypes)]) (kname "split" dt)
  | .indexSelect => lookup (Table.names [(["index_select"], allTypes)]) (kname "index_select" dt)
  | .indexPut => lookup (Table.names [(["index_put"], allTypes)]) (kname "index_put" dt)
  | .gather => lookup (Table.names [(["gather"], allTypes)]) (kname "gather" dt)
  | .scatter _ => lookup (Table.names [(["scatter"], allTypes)]) (kname "scatter" dt)
  | .onehot out => lookup (Table.names [(["onehot"], allTypes)]) (kname "onehot" out)
  | .nonzero =>
    (lookup (Table.names [(["nonzero_count"], allTypes)]) (kname "nonzero_count" dt)).bind fun a =>
    (lookup (Table.names [(["nonzero_fill"], allTypes)]) (kname "nonzero_fill" dt)).map fun b => a ++ b
  | .unique => lookup (Table.names [(["unique"], allTypes)]) (kname "unique" dt)
  | .compress => lookup (Table.names [(["compress"], allTypes)]) (kname "compress" dt)
  | .conv o =>
    if o.isGrad then lookup convGradTable.names (kname o.name dt)
    else lookup convTable.names (kname o.name dt)
  | .windowing o => lookup windowTable.names (kname o.name dt)
  | .padding o => lookup (paddingTable o).names (kname o.name dt)
  | .cumsum => lookup (Table.names [(["cumsum"], numTypes)]) (kname "cumsum" dt)
  | .topk => lookup (Table.names [(["topk"], numTypes)]) (kname "topk" dt)
  | .einsum => lookup (Table.names [(["einsum"], numTypes)]) (kname "einsum" dt)
  | .resize => lookup (Table.names [(["resize"], floatTypes)]) (kname "resize" dt)
  | .flip => lookup (Table.names [(["flip"], allTypes)]) (kname "flip" dt)
  | .contiguous => lookup (Table.names [(["contiguous"], allTypes)]) (kname "contiguous" dt)
  | .cast dst =>
    if dt = dst then lookup (Table.names [(["contiguous"], allTypes)]) (kname "contiguous" dt)
    else lookup castNames (castName dt dst)

/-- A back end function: `Err` unless the storage variant has an arm, then the kernel
(be_cpu/storage/ops_*.rs, e.g. ops_reduce.rs:90-115). -/
def backend (op : Op) (dt : DType) : Res (List String) :=
  if dt ∈ hostArms op then callKernel op dt else .err

/-- A public operation on the CPU: validation (`?`), then the back end.  tensor/ops/*.rs, e.g.
tensor/ops/unary.rs (validation first, then `storage.call_ops_unary`). -/
def run (op : Op) (dt : DType) : Res (List String) :=
  if validate dt op then backend op dt else .err

end Hodu.Dispatch
