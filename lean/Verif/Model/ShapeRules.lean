import Verif.Model.Reduce
import Verif.Model.Indexing
import Verif.Model.ScanSort

/-!
# Backward rules of the shape, movement and scan operators

Transcription of `crates/hodu_core/src/tensor/gradient/vjp_shape.rs`, `vjp_shape_memory.rs`,
`vjp_scan.rs` and `vjp_concat_split.rs`.  Each rule receives what the tape hands it: the shape of the
recorded input, the upstream gradient as a tensor of any layout, and the recorded parameters.
-/

namespace Hodu

variable {α : Type}

/-- `Tensor::zeros` (tensor/creation.rs: a fresh buffer in row-major layout). -/
def Tensor.zeros (zero : α) (dims : List Nat) : Tensor α :=
  ⟨List.replicate (shapeSize dims) zero, Layout.fromShape dims⟩

/-- `ShapeOp::Reshape`, `Flatten`, `Squeeze` and `Unsqueeze`, vjp_shape.rs:23-42: the upstream gradient
reshaped to the input's shape. -/
def reshapeVjp (g : Tensor α) (inDims : List Nat) : Res (Tensor α) := g.reshape inDims

/-- `ShapeOp::Broadcast`, vjp_shape.rs:43-71. -/
def broadcastVjp (add : α → α → α) (zero : α) (g : Tensor α) (inDims : List Nat) : Res (Tensor α) :=
  (sumLeading add zero (g.dims.length - inDims.length) g).bind fun r =>
    (sumUnit add zero 0 (inDims.zip r.dims) r).bind fun s => s.reshape inDims

/-- The axes the transpose rule decides on, vjp_shape.rs:85-111, for shapes of equal rank `n ≥ 2`: the
last two, written as non-negative numbers if the shapes look swapped there, else `(-2, -1)`. -/
def transposeGuess (inDims gDims : List Nat) : Int × Int :=
  let n := inDims.length
  if inDims.getD (n - 1) 0 = gDims.getD (n - 2) 0 ∧ inDims.getD (n - 2) 0 = gDims.getD (n - 1) 0 ∧
      inDims.take (n - 2) = gDims.take (n - 2) then
    (((n - 2 : Nat) : Int), ((n - 1 : Nat) : Int))
  else (-2, -1)

/-- `ShapeOp::Transpose`, vjp_shape.rs:72-114. -/
def transposeVjp (g : Tensor α) (inDims : List Nat) : Res (Tensor α) :=
  if inDims.length ≠ g.dims.length then .err
  else if inDims.length < 2 then .ok g
  else g.transpose (transposeGuess inDims g.dims).1 (transposeGuess inDims g.dims).2

/-- The recovered permutation, vjp_shape.rs:127-139: entry `i` is the first position `j` of the
gradient's shape with the size of input dimension `i` that is not yet taken, 0 if there is none. -/
def permForward (inDims gDims : List Nat) : List Nat :=
  (List.range inDims.length).foldl (fun acc i =>
    acc ++ [((List.range inDims.length).find? fun j =>
      inDims.getD i 0 == gDims.getD j 0 && !acc.contains j).getD 0]) []

/-- `inverse_perm`, vjp_shape.rs:142-145. -/
def permInverse (fwd : List Nat) : List Nat :=
  fwd.zipIdx.foldl (fun inv p => inv.set p.1 p.2) (List.replicate fwd.length 0)

/-- `ShapeOp::Permute`, vjp_shape.rs:115-150. -/
def permuteVjp (g : Tensor α) (inDims : List Nat) : Res (Tensor α) :=
  if inDims.length ≠ g.dims.length then .err
  else g.permute ((permInverse (permForward inDims g.dims)).map Int.ofNat)

/-- The index list of the slice rule, vjp_shape.rs:191-205, with `fuel` bounding the loop. -/
def sliceIndices (n stop step : Int) : Nat → Int → List Int
  | 0, _ => []
  | fuel + 1, i =>
    if 0 < step then
      if i < stop ∧ i < n then i :: sliceIndices n stop step fuel (i + step) else []
    else if stop < i ∧ 0 ≤ i then i :: sliceIndices n stop step fuel (i + step) else []

/-- `end_idx`, vjp_shape.rs:186-188. -/
def sliceEndIdx (n : Int) (stop : Option Int) (step : Int) : Int :=
  match stop with
  | some e => if e < 0 then n + e else e
  | none => if 0 < step then n else -1

/-- `ShapeScalarsOp::Slice`, vjp_shape.rs:154-235.  `dim` is the recorded axis as the caller wrote it;
`dim.to_i32() as usize` of a negative axis is far outside the shape, so that indexing the shape
panics.  A step of 0 is rejected by the forward operation.  The loop pushes at most
`|start| + n` indices for a positive step (from a negative `start_idx` upwards), and at most
`start_idx + 1` for a negative one; `fuel` is that many. -/
def sliceVjp (add max min : α → α → α) (zero : α) (g : Tensor α) (inDims : List Nat) (dim start : Int)
    (stop : Option Int) (step : Int) : Res (Tensor α) :=
  if dim < 0 then .panic
  else
    (readR inDims dim.toNat).bind fun n =>
      let startIdx := if start < 0 then (n : Int) + start else start
      let is := sliceIndices n (sliceEndIdx n stop step) step (startIdx.natAbs + n + 1) startIdx
      if g.dims.length ≠ inDims.length then .err
      else
        (readR g.dims dim.toNat).bind fun gn =>
          if gn ≠ is.length then .err
          else (Tensor.zeros zero inDims).scatterWith add max min .add dim
            ⟨is, Layout.fromShape [is.length]⟩ g

/-- `ShapeMemoryOp::Flip`, vjp_shape_memory.rs:10-34; the recorded axes are already resolved
(tensor/ops/shape_memory.rs:15-28). -/
def flipVjp (g : Tensor α) (axes : List Nat) : Res (Tensor α) := g.flip (axes.map Int.ofNat)

/-- `ScanOp::CumSum`, vjp_scan.rs:10-36; the recorded axis is already resolved
(tensor/ops/scan.rs:15-21). -/
def cumsumVjp (fill zero : α) (add : α → α → α) (g : Tensor α) (axis : Nat) : Res (Tensor α) :=
  (g.flip [(axis : Int)]).bind fun f =>
    (f.cumsum fill zero add axis).bind fun c => c.flip [(axis : Int)]

/-- `Scalar::to_usize` of a recorded axis, scalar.rs:824-870: negative integers become 0. -/
def scalarToUsize (d : Int) : Nat := d.toNat

/-- `ConcatOp`, vjp_concat_split.rs:9-35.  `dim` is the recorded axis as the caller wrote it
(tensor/ops/concat_split.rs:63, 102). -/
def concatVjp (g : Tensor α) (inDims : List (List Nat)) (dim : Int) : Res (List (Tensor α)) :=
  (Res.mapL (fun ds => readR ds (scalarToUsize dim)) inDims).bind fun sizes => g.split sizes dim

/-- The pieces of the split rule, vjp_concat_split.rs:62-76, from output `i` on. -/
def splitPieces (zero : α) (g : Tensor α) (inDims : List Nat) (dim out : Nat) :
    Nat → List Nat → Res (List (Tensor α))
  | _, [] => .ok []
  | i, size :: sizes =>
    (show Res (Tensor α) from if i = out then .ok g
      else if dim < inDims.length then .ok (Tensor.zeros zero (inDims.set dim size)) else .panic).bind
      fun p => (splitPieces zero g inDims dim out (i + 1) sizes).bind fun ps => .ok (p :: ps)

/-- `SplitOp`, vjp_concat_split.rs:37-83, for output number `out`. -/
def splitVjp (zero : α) (g : Tensor α) (inDims sizes : List Nat) (dim : Int) (out : Nat) :
    Res (Tensor α) :=
  (splitPieces zero g inDims (scalarToUsize dim) out 0 sizes).bind fun ps =>
    Tensor.concat ps (scalarToUsize dim : Nat)

end Hodu
