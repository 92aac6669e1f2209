import Verif.Model.ReadBack

/-!
# Nested arrays

Transcription of `IntoFlattened`, crates/hodu_core/src/into/flatten.rs, `Tensor::new` and `Tensor::from_slice`,
crates/hodu_core/src/tensor/creation.rs:50-94, and of `to_vec1d` to `to_vec8d`, crates/hodu_core/src/tensor/vec.rs:23-304.

The source repeats every function for each depth (up to eight); here the depth is a parameter.  Vectors, references to arrays and
slices of slices hold the same data and differ in how they report their shape.
-/

namespace Hodu

/-- `Vec<Vec<...<T>>>` with `k` levels (flatten.rs:38-324), also `&[&[...[T]]]` (flatten.rs:638-984) and `&[[[T; N]; M]; L]`
(flatten.rs:397-592). -/
def Nest (α : Type) : Nat → Type
  | 0 => α
  | k + 1 => List (Nest α k)

/-- `IntoFlattened::to_flatten_vec` (e.g. flatten.rs:58-65, 85-97, 416-422, 640-646). -/
def Nest.flat : (k : Nat) → Nest α k → List α
  | 0, x => [x]
  | k + 1, x => List.flatMap (Nest.flat k) x

/-- `self[0].len(), self[0][0].len(), ...` (e.g. flatten.rs:102, 140, 183-189): indexing an empty vector panics. -/
def Nest.firstLens : (k : Nat) → Nest α k → Res (List Nat)
  | 0, _ => .ok []
  | 1, x => .ok [List.length x]
  | k + 2, x => match (x : List (Nest α (k + 1))) with
    | [] => .panic
    | y :: ys => (Nest.firstLens (k + 1) y).bind fun s => .ok ((y :: ys).length :: s)

/-- `get_shape_vec` of a vector (flatten.rs:23-25, 43-45, 66-72, 98-104, 136-142, ..., 366-381): zeros when the outermost vector is
empty. -/
def Nest.vecShape : (k : Nat) → Nest α k → Res (List Nat)
  | 0, _ => .ok []
  | k + 1, x => match (x : List (Nest α k)) with
    | [] => .ok (List.replicate (k + 1) 0)
    | y :: ys => Nest.firstLens (k + 1) (y :: ys : List (Nest α k))

/-- `get_shape_vec` of slices of slices (flatten.rs:647-653, 674-682, 706-716, ..., 1006-1077): zeros from the first empty slice on. -/
def Nest.sliceShape : (k : Nat) → Nest α k → List Nat
  | 0, _ => []
  | k + 1, x => match (x : List (Nest α k)) with
    | [] => List.replicate (k + 1) 0
    | y :: ys => (y :: ys).length :: Nest.sliceShape k y

/-- `Tensor::new`, creation.rs:50-66, given the shape that the data reports: the amount of data is not compared with it. -/
def Tensor.ofData (shape : Res (List Nat)) (data : List α) : Res (Tensor α) :=
  shape.bind fun d => .ok { storage := data, layout := Layout.fromShape d }

/-- `Tensor::new` of a nested vector. -/
def Tensor.newVec (k : Nat) (x : Nest α k) : Res (Tensor α) := Tensor.ofData (Nest.vecShape k x) (Nest.flat k x)

/-- `Tensor::new` of slices of slices. -/
def Tensor.newSlices (k : Nat) (x : Nest α k) : Res (Tensor α) := Tensor.ofData (.ok (Nest.sliceShape k x)) (Nest.flat k x)

/-- `Tensor::new` of a reference to nested arrays with the lengths `ns`, which are part of the type (flatten.rs:402-404, ...,
624-626). -/
def Tensor.newArray (ns : List Nat) (x : Nest α ns.length) : Res (Tensor α) := Tensor.ofData (.ok ns) (Nest.flat _ x)

/-- `Tensor::from_slice`, creation.rs:68-94: only the sizes of the reported and the given shape are compared. -/
def Tensor.fromNested (shape : Res (List Nat)) (data : List α) (d : List Nat) : Res (Tensor α) :=
  shape.bind fun s => if shapeSize d ≠ shapeSize s then .err else .ok { storage := data, layout := Layout.fromShape d }

/-- The loops of `to_vec2d` to `to_vec8d` (vec.rs:44-53, 66-80, 92-110, ..., 262-303) from a position on: `stride1` is the product
of the remaining sizes. -/
def Nest.build (data : List α) : (d : List Nat) → Nat → Res (Nest α d.length)
  | [], _ => .err
  | [n], start => sliceR data start n
  | n :: m :: ds, start => Res.mapL (fun i => Nest.build data (m :: ds) (start + i * shapeSize (m :: ds))) (List.range n)

/-- `to_vec1d` to `to_vec8d` after the check of the rank, vec.rs:31, 44-53, ...: `to_vec1d` returns what `to_flatten_vec` returns. -/
def Nest.ofFlat (data : List α) : (d : List Nat) → Res (Nest α d.length)
  | [] => .err
  | [_] => .ok data
  | n :: m :: ds => Nest.build data (n :: m :: ds) 0

/-- `to_vec1d` to `to_vec8d`, vec.rs:23-304 (for the tensor's own element type). -/
def Tensor.toVec (k : Nat) (t : Tensor α) : Res (Nest α k) :=
  if h : t.dims.length = k then h ▸ Nest.ofFlat t.toFlattenVec t.dims else .err

end Hodu
