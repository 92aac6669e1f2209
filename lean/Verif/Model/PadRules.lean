import Verif.Model.Move
import Verif.Model.Reduce
import Verif.Model.Pooling
import Verif.Model.Resize

/-!
# Backward rules of padding and resizing

Transcription of `crates/hodu_core/src/tensor/gradient/vjp_padding.rs` and `vjp_resize.rs`.  `add`, `zero` are the addition and
the zero of the element type, `cores`, `fill` the parameters of the element-wise kernels.

Simplification: a subtraction of sizes that goes below 0 panics (overflow checks on).
-/

namespace Hodu

variable {α A : Type}

/-- The ranges of the original input in every dimension, vjp_padding.rs:58-61, 257-260. -/
def centerBounds (padding : List (Nat × Nat)) (inDims : List Nat) : List (Nat × Nat) :=
  List.zipWith (fun p d => (p.1, p.1 + d)) padding inDims

/-- `slice_center`, vjp_padding.rs:56-64. -/
def sliceCenter (g : Tensor α) (inDims : List Nat) (padding : List (Nat × Nat)) : Res (Tensor α) :=
  sliceAll 0 (centerBounds padding inDims) g

/-- `slice_single_dim`, vjp_padding.rs:235-237. -/
def sliceSingle (t : Tensor α) (k a b : Nat) : Res (Tensor α) := t.slice k a (some b) 1

/-- `slice_dim`, vjp_padding.rs:240-264: the range `a..b` of dimension `k`, the centre of all others. -/
def sliceDim (g : Tensor α) (k a b : Nat) (padding : List (Nat × Nat)) (inDims : List Nat) : Res (Tensor α) :=
  sliceAll 0 ((centerBounds padding inDims).set k (a, b)) g

/-- `replace_single_dim`, vjp_padding.rs:267-310 (there is always a part next to the replacement if it is not the whole
dimension). -/
def replaceSingle (t : Tensor α) (k a b : Nat) (rep : Tensor α) : Res (Tensor α) :=
  (readR t.dims k).bind fun n =>
    if a = 0 ∧ b = n then .ok rep
    else
      (if 0 < a then (sliceSingle t k 0 a).map (fun x => [x]) else .ok []).bind fun before =>
      (if b < n then (sliceSingle t k b n).map (fun x => [x]) else .ok []).bind fun after =>
        Tensor.concat (before ++ [rep] ++ after) k

/-- `target = slice(grad_input, a..b); added = target + part; replace(grad_input, a..b, added)`, e.g.
vjp_padding.rs:105-107, 131-133. -/
def addAtRange (add : α → α → α) (cores : Nat) (fill : α) (acc : Tensor α) (k a b : Nat) (part : Tensor α) :
    Res (Tensor α) :=
  (sliceSingle acc k a b).bind fun target =>
  (Tensor.binary cores add fill target part).bind fun added =>
    replaceSingle acc k a b added

/-- `flipped_slice`, vjp_padding.rs:94-103: the last `len` positions. -/
def keepLast (t : Tensor α) (k len : Nat) : Res (Tensor α) :=
  (readR t.dims k).bind fun m => if len < m then sliceSingle t k (m - len) m else .ok t

/-- `flipped_slice`, vjp_padding.rs:125-129: the first `len` positions. -/
def keepFirst (t : Tensor α) (k len : Nat) : Res (Tensor α) :=
  (readR t.dims k).bind fun m => if len < m then sliceSingle t k 0 len else .ok t

/-- Size, width before and width after of dimension `k`, vjp_padding.rs:76-77 (panics outside of the lists). -/
def padAt (padding : List (Nat × Nat)) (inDims : List Nat) (k : Nat) : Res (Nat × Nat × Nat) :=
  (readR padding k).bind fun p => (readR inDims k).bind fun n => .ok (n, p.1, p.2)

/-- The body of the loop of `compute_reflect_grad`, vjp_padding.rs:75-135. -/
def reflectStep (add : α → α → α) (cores : Nat) (fill : α) (g : Tensor α) (inDims : List Nat) (padding : List (Nat × Nat))
    (k : Nat) (acc : Tensor α) : Res (Tensor α) :=
  (padAt padding inDims k).bind fun (n, before, after) =>
    (if 0 < before ∧ 1 < n then
      (sliceDim g k 0 before padding inDims).bind fun part =>
      (part.flip [(k : Int)]).bind fun flipped =>
      (keepLast flipped k (min before (n - 1))).bind fun kept =>
        addAtRange add cores fill acc k 1 (1 + min before (n - 1)) kept
    else .ok acc).bind fun acc =>
    if 0 < after ∧ 1 < n then
      (readR g.dims k).bind fun out =>
      (sliceDim g k (out - after) out padding inDims).bind fun part =>
      (part.flip [(k : Int)]).bind fun flipped =>
      (keepFirst flipped k (min after (n - 1))).bind fun kept =>
        addAtRange add cores fill acc k (n - 1 - min after (n - 1)) (n - 1 - min after (n - 1) + min after (n - 1)) kept
    else .ok acc

/-- The body of the loop of `compute_replicate_grad`, vjp_padding.rs:151-185. -/
def replicateStep (add : α → α → α) (zero : α) (cores : Nat) (fill : α) (g : Tensor α) (inDims : List Nat)
    (padding : List (Nat × Nat)) (k : Nat) (acc : Tensor α) : Res (Tensor α) :=
  (padAt padding inDims k).bind fun (n, before, after) =>
    (if 0 < before then
      (sliceDim g k 0 before padding inDims).bind fun part =>
      (part.sum add zero [(k : Int)] true).bind fun s =>
        addAtRange add cores fill acc k 0 1 s
    else .ok acc).bind fun acc =>
    if 0 < after then
      (readR g.dims k).bind fun out =>
      (sliceDim g k (out - after) out padding inDims).bind fun part =>
      (part.sum add zero [(k : Int)] true).bind fun s =>
        if n = 0 then .panic else addAtRange add cores fill acc k (n - 1) n s
    else .ok acc

/-- The body of the loop of `compute_circular_grad`, vjp_padding.rs:197-231. -/
def circularStep (add : α → α → α) (cores : Nat) (fill : α) (g : Tensor α) (inDims : List Nat) (padding : List (Nat × Nat))
    (k : Nat) (acc : Tensor α) : Res (Tensor α) :=
  (padAt padding inDims k).bind fun (n, before, after) =>
    (if 0 < before then
      (sliceDim g k 0 before padding inDims).bind fun part =>
        if n < before then .panic else addAtRange add cores fill acc k (n - before) n part
    else .ok acc).bind fun acc =>
    if 0 < after then
      (readR g.dims k).bind fun out =>
      (sliceDim g k (out - after) out padding inDims).bind fun part =>
        addAtRange add cores fill acc k 0 after part
    else .ok acc

/-- `for dim in 0..ndim`, vjp_padding.rs:75, 151, 197. -/
def dimLoop (step : Nat → Tensor α → Res (Tensor α)) : List Nat → Tensor α → Res (Tensor α)
  | [], acc => .ok acc
  | k :: ks, acc => (step k acc).bind (dimLoop step ks)

/-- `PaddingOp::compute_vjp`, vjp_padding.rs:10-53. -/
def padVjp (add : α → α → α) (zero : α) (cores : Nat) (fill : α) (mode : PadMode) (g : Tensor α) (inDims : List Nat)
    (padding : List (Nat × Nat)) : Res (Tensor α) :=
  (sliceCenter g inDims padding).bind fun c =>
    match mode with
    | .constant => .ok c
    | .reflect => dimLoop (reflectStep add cores fill g inDims padding) (List.range inDims.length) c
    | .replicate => dimLoop (replicateStep add zero cores fill g inDims padding) (List.range inDims.length) c
    | .circular => dimLoop (circularStep add cores fill g inDims padding) (List.range inDims.length) c

/-- `backward_mode`, vjp_resize.rs:43-47. -/
def ResizeMode.backward : ResizeMode → ResizeMode
  | .nearest => .linear
  | .linear => .linear
  | .cubic => .cubic

/-- `ResizeOp::compute_vjp`, vjp_resize.rs:9-74. -/
def resizeVjp (R : ResizeArith A) (fl : ℚ → ℚ) (ld : α → A) (st : A → α) (g : Tensor α) (inDims : List Nat)
    (mode : ResizeMode) (coord : ResizeCoord) (nearest : ResizeNearest) : Res (Tensor α) :=
  g.resize R fl ld st (inDims.drop 2) mode.backward coord nearest

end Hodu
