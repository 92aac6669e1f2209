import Verif.Basic
import Mathlib.Data.List.Nodup

/-!
# The caches in front of the kernels

* `cache/kernel.rs` keeps one leaked string for every kernel name, and `be_cuda/device.rs` one device for every id: both look
  under the read lock, and again under the write lock before they create.
* `hodu_metal_kernels/src/kernel.rs` keeps libraries and pipelines, under write locks held for the whole call.
* `hodu_cuda_kernels/src/kernel.rs` keeps modules and functions, and releases the locks between looking and inserting.

A critical section is one step of the model (`RwLock` lets a writer in only alone), calls are interleaved in any way.  Hash maps
are association lists with the newest entry first.  Poisoned locks are not modelled: nothing panics while one is held.
-/

namespace Hodu.KernelCache

/-! ## Double-checked caches -/

/-- Where a call of `get_or_insert` is (cache/kernel.rs:25-57; `CudaDevice::get`, be_cuda/device.rs:30-65): before the first look,
between the two locks, or returned with the object (`none`: an error). -/
inductive Call (K : Type)
  | enter (k : K)
  | slow (k : K)
  | done (k : K) (obj : Option Nat)
  deriving DecidableEq

/-- The cache (cache/kernel.rs:12-14, be_cuda/device.rs:20), the objects created so far (an object is its position in `made`, which holds
what it was created for: the leaked string, the id of the device) and the calls. -/
structure DState (K : Type) where
  cache : List (K × Nat)
  made : List K
  calls : List (Call K)

/-- No entry, no call (cache/kernel.rs:18-22). -/
def DState.init (K : Type) : DState K := ⟨[], [], []⟩

section
variable {K : Type} [DecidableEq K]

/-- The look under the read lock (cache/kernel.rs:27-33, be_cuda/device.rs:32-38). -/
def look (s : DState K) (k : K) : Call K :=
  match s.cache.lookup k with
  | some o => .done k (some o)
  | none => .slow k

/-- The part under the write lock (cache/kernel.rs:36-56, be_cuda/device.rs:41-64): look again, create, insert.  `works` says whether the
creation succeeds: the leak of a string always does, `CudaContext::new` may not. -/
def create (s : DState K) (k : K) (works : Bool) : DState K × Call K :=
  match s.cache.lookup k with
  | some o => (s, .done k (some o))
  | none =>
    if works then (⟨(k, s.made.length) :: s.cache, s.made ++ [k], s.calls⟩, .done k (some s.made.length))
    else (s, .done k none)

/-- A step: somebody calls, a call looks, or a call creates (cache/kernel.rs:25-57).  `mayFail` is `false` for the names and
`true` for the devices. -/
inductive DStep (mayFail : Bool) : DState K → DState K → Prop
  | call (s : DState K) (k : K) : DStep mayFail s { s with calls := s.calls ++ [.enter k] }
  | look (s : DState K) (i : Nat) (k : K) (h : s.calls[i]? = some (.enter k)) :
      DStep mayFail s { s with calls := s.calls.set i (look s k) }
  | create (s : DState K) (i : Nat) (k : K) (works : Bool) (h : s.calls[i]? = some (.slow k))
      (hw : works = false → mayFail = true) :
      DStep mayFail s { (create s k works).1 with calls := s.calls.set i (create s k works).2 }

/-- The states some interleaving leads to. -/
inductive DReach (mayFail : Bool) : DState K → Prop
  | init : DReach mayFail (DState.init K)
  | step {s s' : DState K} (h : DReach mayFail s) (hs : DStep mayFail s s') : DReach mayFail s'

end

/-! ## Libraries and pipelines of Metal -/

/-- `enum Source` (hodu_metal_kernels/src/source.rs:133-153). -/
inductive Source
  | binary | bitwise | cast | concatSplit | conv | einsum | indexing | linalg | matrix | memory | padding | reduce | resize | scan
  | shapeMemory | sort | storage | unary | windowing
  deriving DecidableEq

/-- A compiled pipeline: the source, the function and the constants it was compiled from. -/
structure Pipe (N C : Type) where
  source : Source
  name : N
  consts : C
  deriving DecidableEq

/-- `struct Kernels` (hodu_metal_kernels/src/kernel.rs:58-62): the libraries by source, the pipelines by name and constants. -/
structure MState (N C : Type) where
  libraries : List (Source × Source)
  pipelines : List ((N × C) × Pipe N C)

/-- What the device does during a call: does the source compile, and does the function become a pipeline. -/
structure Device where
  compiles : Bool
  links : Bool

/-- One call of `load_pipeline_with_constants`. -/
structure Req (N C : Type) where
  source : Source
  name : N
  consts : C
  device : Device

section
variable {N C : Type} [DecidableEq N] [DecidableEq C]

/-- `load_library` (hodu_metal_kernels/src/kernel.rs:103-121); a library is the source it was compiled from. -/
def loadLibrary (d : Device) (s : MState N C) (src : Source) : MState N C × Res Source :=
  match s.libraries.lookup src with
  | some l => (s, .ok l)
  | none => if d.compiles then ({ s with libraries := (src, src) :: s.libraries }, .ok src) else (s, .err)

/-- `load_pipeline_with_constants` (hodu_metal_kernels/src/kernel.rs:137-160) with `load_function` (:123-132); `has` says which
functions a source contains. -/
def loadPipeline (has : Source → N → Bool) (s : MState N C) (r : Req N C) : MState N C × Res (Pipe N C) :=
  match s.pipelines.lookup (r.name, r.consts) with
  | some p => (s, .ok p)
  | none =>
    match loadLibrary r.device s r.source with
    | (s, .ok l) =>
      if has l r.name = false then (s, .err)
      else if r.device.links = false then (s, .err)
      else ({ s with pipelines := ((r.name, r.consts), ⟨l, r.name, r.consts⟩) :: s.pipelines }, .ok ⟨l, r.name, r.consts⟩)
    | (s, _) => (s, .err)

/-- Calls one after the other, as the locks have ordered them, with their answers (hodu_metal_kernels/src/kernel.rs:144). -/
def loadAll (has : Source → N → Bool) : MState N C → List (Req N C) → MState N C × List (Res (Pipe N C))
  | s, [] => (s, [])
  | s, r :: rs =>
    let a := loadPipeline has s r
    let b := loadAll has a.1 rs
    (b.1, a.2 :: b.2)

end

/-- The types a kernel constant is named after (hodu_metal_kernels/src/kernels/macros.rs:13-24). -/
def typeNames : List String := ["bool", "bf16", "f16", "f32", "u8", "u16", "u32", "u64", "i8", "i16", "i32", "i64"]

/-- The operations in the `ops!` lists of hodu_metal_kernels/src/kernels/*.rs, under the source their hosts load them from
(ops_binary.rs:12, ops_bitwise.rs:12, ops_concat_split.rs:12, ops_conv.rs:12, ops_einsum.rs:15, ops_indexing.rs:12, ops_linalg.rs:12,
ops_matrix.rs:12, ops_memory.rs:12, ops_padding.rs:20, ops_reduce.rs:12, ops_resize.rs:12, ops_scan.rs:17, ops_shape_memory.rs:17,
ops_sort.rs:17, storage.rs:12, ops_unary.rs:12, ops_windowing.rs:12). -/
def opLists : List (Source × List String) := [
  (.binary, ["add", "sub", "mul", "div", "rem", "pow", "minimum", "maximum", "eq", "ne", "le", "lt", "ge", "gt",
    "logical_and", "logical_or", "logical_xor"]),
  (.bitwise, ["shl", "shr", "bitwise_and", "bitwise_or", "bitwise_xor", "bitwise_not", "shl_scalar", "shr_scalar"]),
  (.concatSplit, ["concat", "split"]),
  (.conv, ["conv1d", "conv2d", "conv3d", "conv_transpose1d", "conv_transpose2d", "conv_transpose3d",
    "conv1d_grad_weight", "conv2d_grad_weight", "conv3d_grad_weight", "conv_transpose1d_grad_weight",
    "conv_transpose2d_grad_weight", "conv_transpose3d_grad_weight"]),
  (.einsum, ["einsum"]),
  (.indexing, ["index_select", "index_put", "gather", "scatter", "scatter_add", "scatter_max", "scatter_min",
    "onehot", "nonzero_count", "nonzero_fill", "unique_sort", "unique_bitonic_step", "unique_count",
    "unique_mark", "unique_build", "compress"]),
  (.linalg, ["det", "inv", "trace"]),
  (.matrix, ["matmul", "dot"]),
  (.memory, ["contiguous", "copy"]),
  (.padding, ["pad_constant", "pad_reflect", "pad_replicate", "pad_circular"]),
  (.reduce, ["sum", "max", "min", "prod", "mean", "norm", "logsum", "logsumexp", "argmax", "argmin", "any", "all"]),
  (.resize, ["resize"]),
  (.scan, ["cumsum"]),
  (.shapeMemory, ["flip"]),
  (.sort, ["topk"]),
  (.storage, ["const_set"]),
  (.unary, ["eq_scalar", "ne_scalar", "lt_scalar", "le_scalar", "gt_scalar", "ge_scalar", "neg", "abs", "sign",
    "softsign", "square", "sqrt", "recip", "relu", "sigmoid", "hardsigmoid", "gelu", "softplus", "silu",
    "hardsilu", "mish", "selu", "celu", "sin", "cos", "tan", "asin", "acos", "atan", "sinh", "cosh",
    "tanh", "asinh", "acosh", "atanh", "exp", "exp2", "exp10", "ln", "log2", "log10", "ceil", "floor",
    "round", "erf", "logical_not", "isnan", "isinf", "isfinite", "add_scalar", "sub_scalar",
    "mul_scalar", "div_scalar", "rem_scalar", "pow_scalar", "maximum_scalar", "minimum_scalar",
    "leaky_relu", "elu", "prelu"]),
  (.windowing, ["reduce_window_max", "reduce_window_min", "reduce_window_sum", "reduce_window_mean"])]

/-- The operations with their sources; a cast is the operation `cast_{from}_to` (be_metal/storage.rs:548), of the source
`Cast` (hodu_metal_kernels/src/kernels/ops_cast.rs:54). -/
def ops : List (Source × List Char) :=
  (opLists.flatMap fun p => p.2.map fun o => (p.1, o.toList)) ++
    typeNames.map fun t => (.cast, "cast_".toList ++ t.toList ++ "_to".toList)

/-- The name of a kernel (hodu_metal_kernels/src/kernels/macros.rs:13-24; the `format!`s of be_metal/storage). -/
def kernelName (op ty : List Char) : List Char := "hodu_metal_".toList ++ (op ++ '_' :: ty)

/-! ## Modules and functions of CUDA -/

/-- A function: the number of the module it was taken from, its source and its name. -/
structure Fn (S N : Type) where
  module_ : Nat
  source : S
  name : N
  deriving DecidableEq

/-- Where a call of `load_function` is (hodu_cuda_kernels/src/kernel.rs:172-213): before the first look, after it (:185), after the look for
the module (:191-192), after `load_ptx` (:193), with a module not yet inserted (:196), with a module (:201), with a function not yet
inserted (:207), returned. -/
inductive CCall (S N : Type)
  | enter (s : S) (n : N)
  | noFn (s : S) (n : N)
  | noMod (s : S) (n : N)
  | ptx (s : S) (n : N)
  | newMod (s : S) (n : N) (m : Nat)
  | mod (s : S) (n : N) (m : Nat)
  | newFn (s : S) (n : N) (f : Fn S N)
  | done (s : S) (n : N) (f : Option (Fn S N))
  deriving DecidableEq

/-- `struct Kernels` (hodu_cuda_kernels/src/kernel.rs:103-107) and the calls; `loaded` holds the source of every module `load_module` has
returned, by its number. -/
structure CState (S N : Type) where
  ptxs : List S
  modules : List (S × Nat)
  functions : List ((S × N) × Fn S N)
  loaded : List S
  calls : List (CCall S N)

/-- Empty caches (hodu_cuda_kernels/src/kernel.rs:120-129). -/
def CState.init (S N : Type) : CState S N := ⟨[], [], [], [], []⟩

section
variable {S N : Type} [DecidableEq S] [DecidableEq N]

/-- `load_ptx` (hodu_cuda_kernels/src/kernel.rs:156-170). -/
def loadPtx (ptxs : List S) (s : S) : List S := if s ∈ ptxs then ptxs else s :: ptxs

/-- A step of a call that is at `c` (hodu_cuda_kernels/src/kernel.rs:172-213): the new caches and where the call is then.  `works` is the
answer of the driver (`load_module`), `has` the functions in a module of a source; a function is taken from the source its module was
loaded from. -/
def cmove (has : S → N → Bool) (works : Bool) (st : CState S N) : CCall S N → CState S N × CCall S N
  | .enter s n =>
    match st.functions.lookup (s, n) with
    | some f => (st, .done s n (some f))
    | none => (st, .noFn s n)
  | .noFn s n =>
    match st.modules.lookup s with
    | some m => (st, .mod s n m)
    | none => (st, .noMod s n)
  | .noMod s n => ({ st with ptxs := loadPtx st.ptxs s }, .ptx s n)
  | .ptx s n =>
    if works then ({ st with loaded := st.loaded ++ [s] }, .newMod s n st.loaded.length) else (st, .done s n none)
  | .newMod s n m => ({ st with modules := (s, m) :: st.modules }, .mod s n m)
  | .mod s n m =>
    match st.loaded[m]? with
    | some src => if has src n then (st, .newFn s n ⟨m, src, n⟩) else (st, .done s n none)
    | none => (st, .done s n none)
  | .newFn s n f => ({ st with functions := ((s, n), f) :: st.functions }, .done s n (some f))
  | .done s n f => (st, .done s n f)

/-- Has a call returned. -/
def CCall.isDone : CCall S N → Bool
  | .done _ _ _ => true
  | _ => false

/-- A step: somebody calls, or a call that has not returned goes on (hodu_cuda_kernels/src/kernel.rs:172-213); `mayFail`: the driver may refuse a
module. -/
inductive CStep (has : S → N → Bool) (mayFail : Bool) : CState S N → CState S N → Prop
  | call (st : CState S N) (s : S) (n : N) : CStep has mayFail st { st with calls := st.calls ++ [.enter s n] }
  | move (st : CState S N) (i : Nat) (c : CCall S N) (works : Bool) (h : st.calls[i]? = some c) (hd : c.isDone = false)
      (hw : works = false → mayFail = true) :
      CStep has mayFail st { (cmove has works st c).1 with calls := st.calls.set i (cmove has works st c).2 }

/-- The states some interleaving leads to. -/
inductive CReach (has : S → N → Bool) (mayFail : Bool) : CState S N → Prop
  | init : CReach has mayFail (CState.init S N)
  | step {s s' : CState S N} (h : CReach has mayFail s) (hs : CStep has mayFail s s') : CReach has mayFail s'

end

end Hodu.KernelCache
