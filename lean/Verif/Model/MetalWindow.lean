import Verif.Model.MetalMove
import Verif.Model.CudaWindow
import Verif.Model.IntOps

/-!
# Model of reduce_window, einsum and resize on Metal

Device side: crates/hodu_metal_kernels/kernels/ops_windowing.metal, ops_einsum.metal, ops_resize.metal.  Launches:
crates/hodu_metal_kernels/src/kernels/ops_windowing.rs, ops_einsum.rs, ops_resize.rs.  Hosts:
crates/hodu_core/src/be_metal/storage/ops_windowing.rs, ops_einsum.rs, ops_resize.rs.

The sources are compiled with `MTLMathMode::Fast` (crates/hodu_metal_kernels/src/kernel.rs:112): what the arithmetic on
floats yields is a parameter.  Einsum and resize commit the command buffer of the thread and wait
(ops_einsum.rs:47-48, ops_resize.rs:68-69); what that does to later calls is in Model/MetalQueue.
-/

namespace Hodu.Metal

open _root_.Hodu Hodu.Cuda

variable {α β A : Type}

/-- Launch of a kernel whose counter is a `size_t`, ops_resize.metal:118 and src/kernels/ops_resize.rs: the step
`threads_per_grid` is a `uint`, the sum does not wrap. -/
def launchStride64 (maxThreads n : Nat) (val : Nat → Res β) : Res (Loop β) :=
  (linearSplit maxThreads n).bind fun threads =>
    .ok { threads := threads, start := u32, next := fun i => i + u32 threads, bound := n, val := val, dst := fun i => i }

/-! ## reduce_window -/

/-- The four operations, `WindowingOp`. Used in ops_windowing.metal:180-232. -/
inductive WindowOp
  | max
  | min
  | sum
  | mean
  deriving DecidableEq

/-- The kernels of ops_windowing.metal:180-232; the mean has none for integers. -/
def windowTypes : WindowOp → List DType
  | .mean => [.bf16, .f16, .f32]
  | _ => [.bf16, .f16, .f32, .u8, .u16, .u32, .u64, .i8, .i16, .i32, .i64]

/-- Body of the loop over the window, ops_windowing.metal:57-100, 136-170: `step acc none` is what happens outside of
the input.  `step` may be undefined (signed overflow). -/
def windowAcc (step : A → Option α → Res A) (inp : List α) (dims inStrides strides pad : List Nat) (off : Nat)
    (oc : List Nat) (acc : A) (wc : List Nat) : Res A :=
  match cWindowPos pad 0 dims strides oc wc with
  | none => step acc none
  | some ic => (readC inp (cFlat off ic inStrides)).bind fun v => step acc (some v)

/-- The element computed for output position `k`, ops_windowing.metal:38-103, 124-173, by a thread that does not
overrun its coordinate arrays of 16 entries.  The accumulator has the type of the elements. -/
def windowVal (init : A) (step : A → Option α → Res A) (fin : A → Nat → β) (inp : List α)
    (dims inStrides window strides pad out : List Nat) (off k : Nat) : Res β :=
  guard16 dims.length <|
    (Res.foldL (fun acc w => windowAcc step inp dims inStrides strides pad off (cUnravel out k).1 acc
      (cUnravel window w).1) init (List.range (shapeSize window))).map fun acc => fin acc (shapeSize window)

/-- `hodu_metal_reduce_window_*`, ops_windowing.metal:22-104, 107-175. -/
def windowLoop (maxThreads : Nat) (init : A) (step : A → Option α → Res A) (fin : A → Nat → β) (inp : List α)
    (md : List Nat) : Res (Loop β) :=
  (readC md 0).bind fun n =>
  (readC md 1).bind fun nd =>
  (sliceC md 2 nd).bind fun dims =>
  (sliceC md (2 + nd) nd).bind fun inStrides =>
  (readC md (2 + 2 * nd)).bind fun off =>
  (sliceC md (3 + 2 * nd) nd).bind fun window =>
  (sliceC md (3 + 3 * nd) nd).bind fun strides =>
  (sliceC md (3 + 4 * nd) (2 * nd)).bind fun pad =>
  (sliceC md (3 + 6 * nd) nd).bind fun out =>
    launchStride maxThreads n (windowVal init step fin inp dims inStrides window strides pad out off)

/-- `Tensor::reduce_window`, tensor/ops/windowing.rs:10-127 (eager branch), with `call_ops_reduce_window`,
be_metal/storage/ops_windowing.rs:10-112.  The host computes the shape once more (58-76). -/
def reduceWindowMetal (maxThreads : Nat) (op : WindowOp) (ty : DType) (init : A) (step : A → Option α → Res A)
    (fin : A → Nat → β) (t : Tensor α) (window strides : List Nat) (pad : List (Nat × Nat)) : Res (Launched β) :=
  if window.length ≠ t.dims.length then .err
  else if strides.length ≠ t.dims.length then .err
  else if pad.length ≠ t.dims.length then .err
  else
    (windowOut t.dims pad window strides).bind fun out =>
      if ty ∉ windowTypes op then .err
      else
        (windowLoop maxThreads init step fin t.storage (windowMetadata t.layout window strides (flatPad pad) out)).bind
          fun l => .ok ⟨l, shapeSize out, out⟩

/-- The initial value of an integer kernel, ops_windowing.metal:184-191, 201-208, 217-224. -/
def windowInit (ty : IntOps.Ty) : WindowOp → Int
  | .max => ty.lo
  | .min => ty.hi
  | _ => 0

/-- `ACCUMULATE` of an integer kernel, ops_windowing.metal:86-100, 184-224: outside of the input the value is the
initial one, converted to the type. -/
def windowIntStep (ty : IntOps.Ty) (op : WindowOp) (acc : Int) (v : Option Int) : Res Int :=
  let x := v.getD (windowInit ty op)
  match op with
  | .max => IntOps.metal ty .max acc x
  | .min => IntOps.metal ty .min acc x
  | _ => IntOps.metal ty .add acc x

/-! ## einsum -/

/-- The kernels of ops_einsum.metal:129-139. -/
def einsumTypes : List DType := [.bf16, .f16, .f32, .u8, .u16, .u32, .u64, .i8, .i16, .i32, .i64]

/-- `hodu_metal_einsum_*`, ops_einsum.metal:74-127: one element per thread; the metadata is decoded by all threads
(`parse_einsum_metadata`, 29-72, is that of the CPU) and the arithmetic is that of the element type.  Launched by
src/kernels/ops_einsum.rs for the number of elements the metadata says. -/
def einsumLoop (maxThreads : Nat) (zero one : A) (add mul : A → A → A) (ld : α → A) (st : A → β)
    (bufs : List (List α)) (md : List Nat) : Res (Loop β) :=
  (einsumParse md).bind fun m =>
  (Res.mapL (readC m.sizes) m.contractionIds).bind fun csizes =>
    launchOnce maxThreads m.numOut (einsumVal zero one add mul ld st bufs m csizes)

/-- `call_ops_einsum`, be_metal/storage/ops_einsum.rs:7-51. -/
def callEinsumMetal (maxThreads : Nat) (ty : DType) (zero one : A) (add mul : A → A → A) (ld : α → A) (st : A → β)
    (bufs : List (List α)) (layouts : List Layout) (p : ParsedEinsum) : Res (Launched β) :=
  p.outputShape.bind fun out =>
  (einsumMetadata p layouts out).bind fun md =>
  if ty ∉ einsumTypes then .err
  else
    (einsumLoop maxThreads zero one add mul ld st bufs md).bind fun l => .ok ⟨l, shapeSize out, out⟩

/-- `Tensor::einsum`, tensor/ops/einsum.rs:42-136 (eager branch): the first layout is left out, as on the CPU. -/
def einsumMetal (maxThreads : Nat) (ty : DType) (zero one : A) (add mul : A → A → A) (ld : α → A) (st : A → β)
    (equation : List Char) (ts : List (Tensor α)) : Res (Launched β) :=
  if ts.length = 0 then .err
  else if 4 < ts.length then .err
  else (ParsedEinsum.parse equation (ts.map (·.dims))).bind fun p =>
    callEinsumMetal maxThreads ty zero one add mul ld st (ts.map (·.storage)) ((ts.drop 1).map (·.layout)) p

/-! ## resize -/

/-- The kernels of ops_resize.metal:253-255. -/
def resizeTypes : List DType := [.bf16, .f16, .f32]

/-- The spatial dimensions of one output position, ops_resize.metal:131-135, 140-143, 167-172.  `tc` is
`transform_coord` (35-57) as the compiler makes it under fast math. -/
def coordAxes (tc : Nat → Nat → Nat → Nat → ℚ) (code : Nat) :
    List Nat → List Nat → List Nat → List Nat → List ResizeAxis
  | n :: ns, s :: ss, m :: ms, o :: os => ⟨n, tc code n m o, s⟩ :: coordAxes tc code ns ss ms os
  | _, _, _, _ => []

/-- One output element, ops_resize.metal:118-249: `out_coords` has 8 entries.  `lin` and `cub` are the interpolations
(163-164, 207-213, 92-98). -/
def resizeVal (tc : Nat → Nat → Nat → Nat → ℚ) (lin cub : ℚ → List A → A) (fl : ℚ → ℚ) (ld : α → A) (st : A → α)
    (inp : List α) (shape strides out : List Nat) (off mode coord nearest k : Nat) : Res α :=
  if 8 < shape.length then .ub
  else
    let oc := (cUnravel out k).1
    let base := off + oc.getD 0 0 * strides.getD 0 0 + oc.getD 1 0 * strides.getD 1 0
    let axes := coordAxes tc coord (shape.drop 2) (strides.drop 2) (out.drop 2) (oc.drop 2)
    if mode = 1 ∧ (shape.length = 4 ∨ shape.length = 5) then (interpAt fl ld lin [0, 1] inp axes base).map st
    else if mode = 2 ∧ shape.length = 4 then (interpAt fl ld cub [-1, 0, 1, 2] inp axes base).map st
    else readC inp (nearestAt fl nearest axes base)

/-- `hodu_metal_resize_*`, ops_resize.metal:100-251. -/
def resizeLoop (maxThreads : Nat) (tc : Nat → Nat → Nat → Nat → ℚ) (lin cub : ℚ → List A → A) (fl : ℚ → ℚ)
    (ld : α → A) (st : A → α) (inp : List α) (md : List Nat) : Res (Loop α) :=
  (readC md 0).bind fun n =>
  (readC md 1).bind fun nd =>
  (sliceC md 2 nd).bind fun shape =>
  (sliceC md (2 + nd) nd).bind fun strides =>
  (readC md (2 + 2 * nd)).bind fun off =>
  (sliceC md (3 + 2 * nd) nd).bind fun out =>
  (readC md (3 + 3 * nd)).bind fun mode =>
  (readC md (4 + 3 * nd)).bind fun coord =>
  (readC md (5 + 3 * nd)).bind fun nearest =>
    launchStride64 maxThreads n (resizeVal tc lin cub fl ld st inp shape strides out off mode coord nearest)

/-- `Tensor::resize`, tensor/ops/resize.rs:33-159 (eager branch, strings already parsed) with `call_ops_resize`,
be_metal/storage/ops_resize.rs:10-72. -/
def resizeMetal (maxThreads : Nat) (ty : DType) (tc : Nat → Nat → Nat → Nat → ℚ) (lin cub : ℚ → List A → A)
    (fl : ℚ → ℚ) (ld : α → A) (st : A → α) (t : Tensor α) (outs : List Nat) (mode : ResizeMode) (coord : ResizeCoord)
    (nearest : ResizeNearest) : Res (Launched α) :=
  if t.dims.length ≠ 4 ∧ t.dims.length ≠ 5 then .err
  else if outs.length ≠ t.dims.length - 2 then .err
  else if ty ∉ resizeTypes then .err
  else
    let out := t.dims.getD 0 0 :: t.dims.getD 1 0 :: outs
    (resizeLoop maxThreads tc lin cub fl ld st t.storage
      (resizeMetadata t.layout out mode.code coord.code nearest.code)).bind fun l => .ok ⟨l, shapeSize out, out⟩

end Hodu.Metal
