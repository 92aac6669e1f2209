import Verif.Model.Matmul
import Verif.Model.SmallFloat

/-!
# Model of the sliding-window reductions

Host side: crates/hodu_core/src/tensor/ops/windowing.rs, be_cpu/storage/ops_windowing.rs,
op_metadatas.rs:1247-1301.  Kernels: crates/hodu_cpu_kernels/kernels/ops_windowing.c.

The accumulation of the kernels is a parameter; its instances are written out below.  Not modelled: the parsing of the
name of the reduction (windowing.rs:24-37), wrap-around of `size_t` products.
-/

namespace Hodu

/-- The loop that computes the output dimensions, tensor/ops/windowing.rs:66-70.  `padded_size - window` underflows
when the window is larger and the division by the stride panics when it is 0. -/
def windowOut : List Nat → List (Nat × Nat) → List Nat → List Nat → Res (List Nat)
  | d :: ds, (lo, hi) :: ps, w :: ws, s :: ss =>
    if d + lo + hi < w then .panic
    else if s = 0 then .panic
    else (windowOut ds ps ws ss).map (((d + lo + hi - w) / s + 1) :: ·)
  | _, _, _, _ => .ok []

/-- The loop that flattens the padding, tensor/ops/windowing.rs:73-77. -/
def flatPad : List (Nat × Nat) → List Nat
  | [] => []
  | (lo, hi) :: ps => lo :: hi :: flatPad ps

/-- `reduce_window_metadata`, op_metadatas.rs:1251-1301. -/
def windowMetadata (l : Layout) (window strides pad out : List Nat) : List Nat :=
  [shapeSize out, l.ndim] ++ l.dims ++ l.strides ++ [l.offset] ++ window ++ strides ++ pad ++ out

/-- The loop over the dimensions that turns an output position and a window position into input coordinates,
ops_windowing.c:90-105 (161-176 in the mean); `padding[i * 2]` is read for dimension `i`. -/
def cWindowPos (pad : List Nat) : Nat → List Nat → List Nat → List Nat → List Nat → Option (List Nat)
  | i, d :: ds, s :: ss, o :: os, w :: ws =>
    if o * s + w < pad.getD (i * 2) 0 then none
    else if d ≤ o * s + w - pad.getD (i * 2) 0 then none
    else (cWindowPos pad (i + 1) ds ss os ws).map ((o * s + w - pad.getD (i * 2) 0) :: ·)
  | _, _, _, _, _ => some []

/-- Body of the loop over the window, ops_windowing.c:80-115 and 152-185: `step acc none` is what happens outside of
the input. -/
def windowStep (step : A → Option α → A) (inp : List α) (dims inStrides strides pad : List Nat) (off : Nat)
    (oc : List Nat) (acc : A) (wc : List Nat) : Res A :=
  match cWindowPos pad 0 dims strides oc wc with
  | none => .ok (step acc none)
  | some ic => (readC inp (cFlat off ic inStrides)).map fun v => step acc (some v)

/-- `REDUCE_WINDOW_OP` and `REDUCE_WINDOW_MEAN_OP`, ops_windowing.c:48-121, 134-193: the coordinate arrays have 16
entries (64, 81, 91). -/
def windowKernel (init : A) (step : A → Option α → A) (fin : A → Nat → β) (inp : List α) (md : List Nat) :
    Res (List β) :=
  (readC md 0).bind fun n =>
  (readC md 1).bind fun nd =>
  (sliceC md 2 nd).bind fun dims =>
  (sliceC md (2 + nd) nd).bind fun inStrides =>
  (readC md (2 + 2 * nd)).bind fun off =>
  (sliceC md (2 + 2 * nd + 1) nd).bind fun window =>
  (sliceC md (2 + 3 * nd + 1) nd).bind fun strides =>
  (sliceC md (2 + 4 * nd + 1) (2 * nd)).bind fun pad =>
  (sliceC md (2 + 6 * nd + 1) nd).bind fun out =>
  if 16 < nd ∧ 0 < n then .ub
  else
    runLoop n fun k =>
      (Res.foldL (fun acc w => windowStep step inp dims inStrides strides pad off (cUnravel out k).1 acc
        (cUnravel window w).1) init (List.range (shapeSize window))).map fun acc => fin acc (shapeSize window)

/-- `Tensor::reduce_window`, tensor/ops/windowing.rs:10-127 (eager branch) with `call_ops_reduce_window`,
be_cpu/storage/ops_windowing.rs:25-155, which repeats the checks and the output shape.  The lengths are checked before
the output shape is computed; the check of the padded size in the backend (87-92) comes too late to matter. -/
def Tensor.reduceWindow (init : A) (step : A → Option α → A) (fin : A → Nat → β) (t : Tensor α)
    (window strides : List Nat) (pad : List (Nat × Nat)) : Res (Tensor β) :=
  if window.length ≠ t.dims.length then .err
  else if strides.length ≠ t.dims.length then .err
  else if pad.length ≠ t.dims.length then .err
  else
    (windowOut t.dims pad window strides).bind fun out =>
      (windowKernel init step fin t.storage
        (windowMetadata t.layout window strides (flatPad pad) out)).bind fun s =>
        .ok { storage := s, layout := Layout.fromShape out }

/-- `REDUCE_WINDOW_OP` with accumulation `op`, ops_windowing.c:108-115: a position in the padding contributes the
initial value. -/
def accStep (op : α → α → α) (init : α) (acc : α) (v : Option α) : α := op acc (v.getD init)

/-- The kernels `sum_*`, `max_*`, `min_*`, ops_windowing.c:196-257. -/
def Tensor.windowFold (op : α → α → α) (init : α) (t : Tensor α) (window strides : List Nat)
    (pad : List (Nat × Nat)) : Res (Tensor α) :=
  t.reduceWindow init (accStep op init) (fun a _ => a) window strides pad

/-- `MAX(a, b)`, and `MIN(a, b)` with `<` for `gt`, ops_windowing.c:10-11. -/
def cMax (gt : α → α → Bool) (a b : α) : α := if gt a b then a else b

/-- Accumulation of `REDUCE_WINDOW_MEAN_OP`, ops_windowing.c:178-184: positions in the padding are skipped. -/
def sumStep (add : α → α → α) (acc : α) (v : Option α) : α := v.elim acc (add acc)

/-- The kernels `mean_*`, ops_windowing.c:134-193: `sum / (OUT_TYPE)window_size`. -/
def Tensor.windowMean (zero : α) (add : α → α → α) (div : α → Nat → α) (t : Tensor α) (window strides : List Nat)
    (pad : List (Nat × Nat)) : Res (Tensor α) :=
  t.reduceWindow zero (sumStep add) div window strides pad

namespace Flt

/-- `a > b` on patterns of `float`s. Used in t_f8e4m3.h:140, t_f8e5m2.h:140. -/
def f32gt (a b : Nat) : Bool :=
  let mag := fun x => x % 2 ^ 31
  let neg := fun x => x / 2 ^ 31 == 1
  if 255 * 2 ^ 23 < mag a ∨ 255 * 2 ^ 23 < mag b then false
  else if neg a then (if neg b then decide (mag a < mag b) else false)
  else if neg b then decide (0 < mag a ∨ 0 < mag b) else decide (mag b < mag a)

/-- `f8e4m3_max`, t_f8e4m3.h:137-141; `f8e5m2_max`, t_f8e5m2.h:137-141; `f16_max`, t_f16.h:119-123. -/
def smallMax (c : SmallFmt) (a b : Nat) : Nat :=
  let x := smallToFloat c a
  let y := smallToFloat c b
  floatToSmall c (if f32gt x y then x else y)

/-- `F8E4M3_NEG_INF` and `F8E5M2_NEG_INF`, t_f8e4m3.h:20, t_f8e5m2.h:20. -/
def f8NegInf : Nat := 0xFF

/-- `sum += (OUT_TYPE)input[idx]` when the types are `uint16_t` (`f16_t`, `bf16_t`), ops_windowing.c:183. -/
def u16add (a b : Nat) : Nat := (a + b) % 2 ^ 16

/-- `sum / (OUT_TYPE)window_size` when the type is `uint16_t`, ops_windowing.c:189 (for a window of fewer than `2 ^ 16`
positions; otherwise the divisor may be 0). -/
def u16div (a n : Nat) : Nat := a / (n % 2 ^ 16)

end Flt

end Hodu
