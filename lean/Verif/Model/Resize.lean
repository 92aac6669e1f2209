import Verif.Model.Reduce
import Mathlib.Data.Rat.Floor

/-!
# Model of resize

Host side: crates/hodu_core/src/tensor/ops/resize.rs, be_cpu/storage/ops_resize.rs, op_metadatas.rs:1319-1360.  Kernel:
crates/hodu_cpu_kernels/kernels/ops_resize.c.  `IMPL_RESIZE` (84-255) and `IMPL_RESIZE_CONVERT` (260-410) are the same text
up to the conversions `ld` to and `st` from `float`.

Simplifications: coordinates are rationals, `fl` rounds the result of every operation on them to `float` (no contraction of
operations); the casts `(int)` and `(size_t)` are exact (coordinates below `2 ^ 31`).
-/

namespace Hodu

/-- `ResizeMode`, hodu_core/src/op_params.rs; numbers in ops_resize.h:11-13. -/
inductive ResizeMode where
  | nearest | linear | cubic
  deriving Repr, DecidableEq

/-- `ResizeCoordTransform`, hodu_core/src/op_params.rs; numbers in ops_resize.h:16-19. -/
inductive ResizeCoord where
  | halfPixel | asymmetric | alignCorners | pytorchHalfPixel
  deriving Repr, DecidableEq

/-- `ResizeNearestMode`, hodu_core/src/op_params.rs; numbers in ops_resize.h:22-25. -/
inductive ResizeNearest where
  | floor | ceil | preferFloor | preferCeil
  deriving Repr, DecidableEq

/-- `mode_val`, be_cpu/storage/ops_resize.rs:18-22. -/
def ResizeMode.code : ResizeMode → Nat
  | .nearest => 0
  | .linear => 1
  | .cubic => 2

/-- `coord_transform_val`, be_cpu/storage/ops_resize.rs:24-29. -/
def ResizeCoord.code : ResizeCoord → Nat
  | .halfPixel => 0
  | .asymmetric => 1
  | .alignCorners => 2
  | .pytorchHalfPixel => 3

/-- `nearest_mode_val`, be_cpu/storage/ops_resize.rs:31-36. -/
def ResizeNearest.code : ResizeNearest → Nat
  | .floor => 0
  | .ceil => 1
  | .preferFloor => 2
  | .preferCeil => 3

/-- The parsing of the mode, tensor/ops/resize.rs:61-73 (ASCII lower-casing). -/
def ResizeMode.parse (s : String) : Option ResizeMode :=
  let e := s.map Char.toLower
  if e = "nearest" then some .nearest
  else if e = "linear" ∨ e = "bilinear" ∨ e = "trilinear" then some .linear
  else if e = "cubic" ∨ e = "bicubic" then some .cubic
  else none

/-- The parsing of the coordinate transformation, tensor/ops/resize.rs:75-88. -/
def ResizeCoord.parse (s : String) : Option ResizeCoord :=
  let e := s.map Char.toLower
  if e = "half_pixel" then some .halfPixel
  else if e = "asymmetric" then some .asymmetric
  else if e = "align_corners" then some .alignCorners
  else if e = "pytorch_half_pixel" then some .pytorchHalfPixel
  else none

/-- The parsing of the rounding, tensor/ops/resize.rs:90-103. -/
def ResizeNearest.parse (s : String) : Option ResizeNearest :=
  let e := s.map Char.toLower
  if e = "floor" then some .floor
  else if e = "ceil" then some .ceil
  else if e = "round_prefer_floor" then some .preferFloor
  else if e = "round_prefer_ceil" then some .preferCeil
  else none

/-- `transform_coord`, ops_resize.c:17-42; an unknown number is treated as `asymmetric`. -/
def transformCoord (fl : ℚ → ℚ) (code : Nat) (inp out o : Nat) : ℚ :=
  if inp = out then fl o
  else
    let scale := fl (fl inp / fl out)
    if code = 0 then fl (fl (fl (fl o + 1 / 2) * scale) - 1 / 2)
    else if code = 1 then fl (fl o * scale)
    else if code = 2 then
      if out = 1 then 0 else fl (fl (fl o * fl ((inp - 1 : Nat) : ℚ)) / fl ((out - 1 : Nat) : ℚ))
    else if code = 3 then
      if out = 1 then 0 else fl (fl (fl (fl o + 1 / 2) * scale) - 1 / 2)
    else fl (fl o * scale)

/-- `roundf`: to the nearest integer, halves away from 0.  Used in ops_resize.c:53-56. -/
def roundHalfAway (c : ℚ) : Int := if 0 ≤ c then ⌊c + 1 / 2⌋ else ⌈c - 1 / 2⌉

/-- The rounding of `round_nearest`, ops_resize.c:45-60. -/
def roundBy (fl : ℚ → ℚ) (code : Nat) (c : ℚ) : Int :=
  if code = 0 then ⌊c⌋
  else if code = 1 then ⌈c⌉
  else if code = 2 then (if c = fl ((⌊c⌋ : ℚ) + 1 / 2) then ⌊c⌋ else roundHalfAway c)
  else if code = 3 then roundHalfAway c
  else ⌊c⌋

/-- `round_nearest(coord, in_shape[d] - 1, nearest_mode)`, ops_resize.c:44-67, for a dimension of size `n`; for `n = 0` the
subtraction wraps around and nothing is clamped from above. -/
def roundNearest (fl : ℚ → ℚ) (code n : Nat) (c : ℚ) : Nat :=
  if roundBy fl code c < 0 then 0
  else if 0 < n ∧ fl ((n - 1 : Nat) : ℚ) < (roundBy fl code c : ℚ) then n - 1
  else (roundBy fl code c).toNat

/-- `clamp_idx(idx, in_shape[d] - 1)`, ops_resize.c:78-84, for a dimension of size `n` (0 as above). -/
def clampIdx (idx : Int) (n : Nat) : Nat :=
  if idx < 0 then 0 else if 0 < n ∧ n - 1 < idx.toNat then n - 1 else idx.toNat

/-- The `float` arithmetic of the interpolation. Used in ops_resize.c:69-76, 141-142, 194-200. -/
structure ResizeArith (A : Type) where
  add : A → A → A
  sub : A → A → A
  mul : A → A → A
  cst : ℚ → A

variable {α A : Type}

/-- `(1.0f - f) * a + f * b`, ops_resize.c:141-142, 194-200. -/
def ResizeArith.lerp (R : ResizeArith A) (fl : ℚ → ℚ) (f : ℚ) : List A → A
  | [a, b] => R.add (R.mul (R.cst (fl (1 - f))) a) (R.mul (R.cst f) b)
  | _ => R.cst 0

/-- `cubic_interp`, ops_resize.c:69-76. -/
def ResizeArith.cubic (R : ResizeArith A) (t : ℚ) : List A → A
  | [p0, p1, p2, p3] =>
    let a := R.add (R.sub (R.add (R.mul (R.cst (-1 / 2)) p0) (R.mul (R.cst (3 / 2)) p1)) (R.mul (R.cst (3 / 2)) p2))
      (R.mul (R.cst (1 / 2)) p3)
    let b := R.sub (R.add (R.sub p0 (R.mul (R.cst (5 / 2)) p1)) (R.mul (R.cst 2) p2)) (R.mul (R.cst (1 / 2)) p3)
    let c := R.add (R.mul (R.cst (-1 / 2)) p0) (R.mul (R.cst (1 / 2)) p2)
    let x := R.cst t
    R.add (R.add (R.add (R.mul (R.mul (R.mul a x) x) x) (R.mul (R.mul b x) x)) (R.mul c x)) p1
  | _ => R.cst 0

/-- The coordinate, size and stride of one spatial dimension. Used in ops_resize.c:124-228. -/
structure ResizeAxis where
  size : Nat
  coord : ℚ
  stride : Nat

/-- The interpolation along the spatial dimensions, the last one first: linear for two (136-157) and for three dimensions
(158-206), cubic for two (207-228), ops_resize.c.  `offs` are the neighbours read in every dimension, `comb` combines them for
the fraction `coord - floor(coord)`. -/
def interpAt (fl : ℚ → ℚ) (ld : α → A) (comb : ℚ → List A → A) (offs : List Int) (inp : List α) :
    List ResizeAxis → Nat → Res A
  | [], base => (readC inp base).map ld
  | ax :: rest, base =>
    (Res.mapL (fun j => interpAt fl ld comb offs inp rest (base + clampIdx (⌊ax.coord⌋ + j) ax.size * ax.stride)) offs).map
      (comb (fl (ax.coord - ⌊ax.coord⌋)))

/-- The loop of the nearest neighbour, ops_resize.c:124-135, 229-240. -/
def nearestAt (fl : ℚ → ℚ) (code : Nat) : List ResizeAxis → Nat → Nat
  | [], base => base
  | ax :: rest, base => nearestAt fl code rest (base + roundNearest fl code ax.size ax.coord * ax.stride)

/-- The spatial dimensions of one output position. Used in ops_resize.c:124-228. -/
def resizeAxes (fl : ℚ → ℚ) (code : Nat) : List Nat → List Nat → List Nat → List Nat → List ResizeAxis
  | n :: ns, s :: ss, m :: ms, o :: os => ⟨n, transformCoord fl code n m o, s⟩ :: resizeAxes fl code ns ss ms os
  | _, _, _, _ => []

/-- One output element, ops_resize.c:113-242. -/
def resizeCell (R : ResizeArith A) (fl : ℚ → ℚ) (ld : α → A) (st : A → α) (inp : List α)
    (shape strides out : List Nat) (off mode coord nearest k : Nat) : Res α :=
  let oc := (cUnravel out k).1
  let base := off + oc.getD 0 0 * strides.getD 0 0 + oc.getD 1 0 * strides.getD 1 0
  let axes := resizeAxes fl coord (shape.drop 2) (strides.drop 2) (out.drop 2) (oc.drop 2)
  if mode = 1 ∧ (shape.length = 4 ∨ shape.length = 5) then
    (interpAt fl ld (R.lerp fl) [0, 1] inp axes base).map st
  else if mode = 2 ∧ shape.length = 4 then
    (interpAt fl ld R.cubic [-1, 0, 1, 2] inp axes base).map st
  else readC inp (nearestAt fl nearest axes base)

/-- `resize_metadata`, op_metadatas.rs:1319-1360. -/
def resizeMetadata (l : Layout) (out : List Nat) (mode coord nearest : Nat) : List Nat :=
  [shapeSize out, l.ndim] ++ l.dims ++ l.strides ++ [l.offset] ++ out ++ [mode, coord, nearest]

/-- `hodu_cpu_resize_*`, ops_resize.c:86-244, 262-410. -/
def resizeKernel (R : ResizeArith A) (fl : ℚ → ℚ) (ld : α → A) (st : A → α) (inp : List α) (md : List Nat) :
    Res (List α) :=
  (readC md 0).bind fun n =>
  (readC md 1).bind fun nd =>
  (sliceC md 2 nd).bind fun shape =>
  (sliceC md (2 + nd) nd).bind fun strides =>
  (readC md (2 + 2 * nd)).bind fun off =>
  (sliceC md (3 + 2 * nd) nd).bind fun out =>
  (readC md (3 + 3 * nd)).bind fun mode =>
  (readC md (4 + 3 * nd)).bind fun coord =>
  (readC md (5 + 3 * nd)).bind fun nearest =>
    runLoop n (resizeCell R fl ld st inp shape strides out off mode coord nearest)

/-- `Tensor::resize`, tensor/ops/resize.rs:33-159 (eager branch, strings already parsed) with `call_ops_resize`,
be_cpu/storage/ops_resize.rs:10-74. -/
def Tensor.resize (R : ResizeArith A) (fl : ℚ → ℚ) (ld : α → A) (st : A → α) (t : Tensor α) (outs : List Nat)
    (mode : ResizeMode) (coord : ResizeCoord) (nearest : ResizeNearest) : Res (Tensor α) :=
  if t.dims.length ≠ 4 ∧ t.dims.length ≠ 5 then .err
  else if outs.length ≠ t.dims.length - 2 then .err
  else
    let out := t.dims.getD 0 0 :: t.dims.getD 1 0 :: outs
    (resizeKernel R fl ld st t.storage (resizeMetadata t.layout out mode.code coord.code nearest.code)).bind fun s =>
      .ok ⟨s, Layout.fromShape out⟩

end Hodu
