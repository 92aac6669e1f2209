import Verif.Model.CudaMove
import Verif.Model.Window
import Verif.Model.Einsum
import Verif.Model.Resize
import Verif.Model.Cast
import Verif.Model.Creation

/-!
# Model of reduce_window, einsum and resize on CUDA

Device side: crates/hodu_cuda_kernels/kernels/ops_windowing.cu, ops_einsum.cu, ops_resize.cu, math.cuh.  Launches:
crates/hodu_cuda_kernels/src/kernels/ops_windowing.rs, ops_einsum.rs, ops_resize.rs.  Host:
crates/hodu_core/src/be_cuda/storage/ops_windowing.rs, ops_einsum.rs, ops_resize.rs.

The kernels are compiled with `--fmad=true` (crates/hodu_cuda_kernels/build.rs:50): a product that is added or subtracted
at once is not rounded.
-/

namespace Hodu.Cuda

open _root_.Hodu

variable {α β A : Type}

/-! ## reduce_window -/

/-- One element of `REDUCE_WINDOW_OP` and `REDUCE_WINDOW_MEAN_OP`, ops_windowing.cu:21-67, 85-127: the coordinate arrays
have 16 entries.  The accumulator is a `float` for every element type; `step` converts an element to it, `fin` back. -/
def windowVal (init : A) (step : A → Option α → A) (fin : A → Nat → β) (inp : List α)
    (dims inStrides window strides pad out : List Nat) (off k : Nat) : Res β :=
  guard16 dims.length <|
    (Res.foldL (fun acc w => windowStep step inp dims inStrides strides pad off (cUnravel out k).1 acc
      (cUnravel window w).1) init (List.range (shapeSize window))).map fun acc => fin acc (shapeSize window)

/-- `hodu_cuda_reduce_window_*`, ops_windowing.cu:7-129. -/
def windowLoop (init : A) (step : A → Option α → A) (fin : A → Nat → β) (inp : List α) (md : List Nat) :
    Res (Loop β) :=
  (readC md 0).bind fun n =>
  (readC md 1).bind fun nd =>
  (sliceC md 2 nd).bind fun dims =>
  (sliceC md (2 + nd) nd).bind fun inStrides =>
  (readC md (2 + 2 * nd)).bind fun off =>
  (sliceC md (2 + 2 * nd + 1) nd).bind fun window =>
  (sliceC md (2 + 3 * nd + 1) nd).bind fun strides =>
  (sliceC md (2 + 4 * nd + 1) (2 * nd)).bind fun pad =>
  (sliceC md (2 + 6 * nd + 1) nd).bind fun out =>
    .ok (gridLoop n (windowVal init step fin inp dims inStrides window strides pad out off) fun i => i)

/-- The types with an arm in be_cuda/storage/ops_windowing.rs:106-127 (`f64` with its feature). -/
def windowArms : List DType := [.f32, .f64, .f16]

/-- `Tensor::reduce_window`, tensor/ops/windowing.rs:10-127 (eager branch), with `call_ops_reduce_window`,
be_cuda/storage/ops_windowing.rs:10-128. -/
def reduceWindowCuda (ty : DType) (init : A) (step : A → Option α → A) (fin : A → Nat → β) (t : Tensor α)
    (window strides : List Nat) (pad : List (Nat × Nat)) : Res (Launched β) :=
  if window.length ≠ t.dims.length then .err
  else if strides.length ≠ t.dims.length then .err
  else if pad.length ≠ t.dims.length then .err
  else
    (windowOut t.dims pad window strides).bind fun out =>
      if ty ∉ windowArms then .err
      else
        (windowLoop init step fin t.storage (windowMetadata t.layout window strides (flatPad pad) out)).bind fun l =>
          .ok ⟨l, shapeSize out, out⟩

/-- `__half(x)` of a `float`, math.cuh:54: to the nearest, as the hardware does; patterns. -/
def floatToHalf (b : Nat) : Nat :=
  let p := b % 2 ^ 31
  b / 2 ^ 31 * 2 ^ 15 + (if p < Flt.f32.top then min (Flt.enc Flt.f16 (Flt.mag Flt.f32 p) 1) Flt.f16.top
    else if p = Flt.f32.top then Flt.f16.top else Flt.f16.top + 2 ^ 9)

/-- `sum += to_float(x)` of `REDUCE_WINDOW_MEAN_OP` for `__half`, ops_windowing.cu:119-125. -/
def halfSumStep (acc : Nat) (v : Option Nat) : Nat :=
  v.elim acc fun x => Creation.fadd acc (Flt.smallToFloat Flt.cF16 x)

/-- `from_float(sum / (float)window_size)` for `__half`, ops_windowing.cu:127. -/
def halfMean (acc n : Nat) : Nat := floatToHalf (Creation.fdiv acc (Cast.intToFloat Flt.f32 n))

/-- `acc = maximum(acc, val)` for `double`, ops_windowing.cu:28, 54-65, 141-142: `float acc`, `float val`; patterns.  `none` is the
padding. -/
def doubleMaxStep (acc : Nat) (v : Option Nat) : Nat :=
  cMax Flt.f32gt acc (v.elim 0xFF800000 Cast.doubleToFloat)

/-! ## einsum -/

/-- One element of `EINSUM_OP` and `EINSUM_OP_FLOAT`, ops_einsum.cu:85-127, 139-181. -/
def einsumVal (zero one : A) (add mul : A → A → A) (ld : α → A) (st : A → β) (bufs : List (List α)) (m : EinsumMeta)
    (csizes : List Nat) (k : Nat) : Res β :=
  (einsumCoords (List.replicate 16 0) (m.outShape.zip m.outIds) k).bind fun r =>
  (Res.foldL (fun s cIdx =>
      (einsumCoords s.1 (csizes.zip m.contractionIds) cIdx).bind fun v =>
      (einsumProduct ld mul bufs v.1 one 0 m.inputs).bind fun p => .ok (v.1, add s.2 p))
    ((r.1, zero) : List Nat × A) (List.range (csizes.foldl (· * ·) 1))).bind fun s => .ok (st s.2)

/-- `hodu_cuda_einsum_*`, ops_einsum.cu:76-182: no loop, every thread computes at most one element.  All threads decode the
metadata (`parse_einsum_metadata`, 32-74, is that of the CPU). -/
def einsumLoop (zero one : A) (add mul : A → A → A) (ld : α → A) (st : A → β) (bufs : List (List α)) (md : List Nat) :
    Res (Loop β) :=
  (einsumParse md).bind fun m =>
  (Res.mapL (readC m.sizes) m.contractionIds).bind fun csizes =>
    .ok (onceLoop m.numOut (einsumVal zero one add mul ld st bufs m csizes))

/-- `call_ops_einsum`, be_cuda/storage/ops_einsum.rs:11-147: a buffer of the size of the output shape. -/
def callEinsumCuda (zero one : A) (add mul : A → A → A) (ld : α → A) (st : A → β) (bufs : List (List α))
    (layouts : List Layout) (p : ParsedEinsum) : Res (Launched β) :=
  p.outputShape.bind fun out =>
  (einsumMetadata p layouts out).bind fun md =>
  (einsumLoop zero one add mul ld st bufs md).bind fun l => .ok ⟨l, shapeSize out, out⟩

/-- `Tensor::einsum`, tensor/ops/einsum.rs:42-136 (eager branch): the first layout is left out, as on the CPU. -/
def einsumCuda (zero one : A) (add mul : A → A → A) (ld : α → A) (st : A → β) (equation : List Char)
    (ts : List (Tensor α)) : Res (Launched β) :=
  if ts.length = 0 then .err
  else if 4 < ts.length then .err
  else (ParsedEinsum.parse equation (ts.map (·.dims))).bind fun p =>
    callEinsumCuda zero one add mul ld st (ts.map (·.storage)) ((ts.drop 1).map (·.layout)) p

/-! ## resize -/

/-- `transform_coord`, ops_resize.cu:24-46: `(out_coord + 0.5f) * scale - 0.5f` is one fused operation. -/
def fusedCoord (fl : ℚ → ℚ) (code : Nat) (inp out o : Nat) : ℚ :=
  if inp = out then fl o
  else
    let scale := fl (fl inp / fl out)
    if code = 0 then fl (fl (fl o + 1 / 2) * scale - 1 / 2)
    else if code = 1 then fl (fl o * scale)
    else if code = 2 then
      if out = 1 then 0 else fl (fl (fl o * fl ((inp - 1 : Nat) : ℚ)) / fl ((out - 1 : Nat) : ℚ))
    else if code = 3 then
      if out = 1 then 0 else fl (fl (fl o + 1 / 2) * scale - 1 / 2)
    else fl (fl o * scale)

/-- The spatial dimensions of one output position. Used in ops_resize.cu:128-246. -/
def fusedAxes (fl : ℚ → ℚ) (code : Nat) : List Nat → List Nat → List Nat → List Nat → List ResizeAxis
  | n :: ns, s :: ss, m :: ms, o :: os => ⟨n, fusedCoord fl code n m o, s⟩ :: fusedAxes fl code ns ss ms os
  | _, _, _, _ => []

/-- One output element, ops_resize.cu:118-257.  `lin` and `cub` are the interpolations `(1.0f - f) * a + f * b` and
`cubic_interp` (81-87), for the compiler to contract. -/
def resizeVal (lin cub : ℚ → List A → A) (fl : ℚ → ℚ) (ld : α → A) (st : A → α) (inp : List α)
    (shape strides out : List Nat) (off mode coord nearest k : Nat) : Res α :=
  if 8 < shape.length then .ub
  else
    let oc := (cUnravel out k).1
    let base := off + oc.getD 0 0 * strides.getD 0 0 + oc.getD 1 0 * strides.getD 1 0
    let axes := fusedAxes fl coord (shape.drop 2) (strides.drop 2) (out.drop 2) (oc.drop 2)
    if mode = 1 ∧ (shape.length = 4 ∨ shape.length = 5) then (interpAt fl ld lin [0, 1] inp axes base).map st
    else if mode = 2 ∧ shape.length = 4 then (interpAt fl ld cub [-1, 0, 1, 2] inp axes base).map st
    else readC inp (nearestAt fl nearest axes base)

/-- `hodu_cuda_resize_*`, ops_resize.cu:100-259. -/
def resizeLoop (lin cub : ℚ → List A → A) (fl : ℚ → ℚ) (ld : α → A) (st : A → α) (inp : List α) (md : List Nat) :
    Res (Loop α) :=
  (readC md 0).bind fun n =>
  (readC md 1).bind fun nd =>
  (sliceC md 2 nd).bind fun shape =>
  (sliceC md (2 + nd) nd).bind fun strides =>
  (readC md (2 + 2 * nd)).bind fun off =>
  (sliceC md (3 + 2 * nd) nd).bind fun out =>
  (readC md (3 + 3 * nd)).bind fun mode =>
  (readC md (4 + 3 * nd)).bind fun coord =>
  (readC md (5 + 3 * nd)).bind fun nearest =>
    .ok (gridLoop n (resizeVal lin cub fl ld st inp shape strides out off mode coord nearest) fun i => i)

/-- `Tensor::resize`, tensor/ops/resize.rs:33-159 (eager branch, strings already parsed) with `call_ops_resize`,
be_cuda/storage/ops_resize.rs:10-93 (there is an arm for every float type). -/
def resizeCuda (lin cub : ℚ → List A → A) (fl : ℚ → ℚ) (ld : α → A) (st : A → α) (t : Tensor α) (outs : List Nat)
    (mode : ResizeMode) (coord : ResizeCoord) (nearest : ResizeNearest) : Res (Launched α) :=
  if t.dims.length ≠ 4 ∧ t.dims.length ≠ 5 then .err
  else if outs.length ≠ t.dims.length - 2 then .err
  else
    let out := t.dims.getD 0 0 :: t.dims.getD 1 0 :: outs
    (resizeLoop lin cub fl ld st t.storage (resizeMetadata t.layout out mode.code coord.code nearest.code)).bind
      fun l => .ok ⟨l, shapeSize out, out⟩

end Hodu.Cuda
