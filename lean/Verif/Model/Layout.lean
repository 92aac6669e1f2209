import Verif.Basic
import Mathlib.Data.List.Sort

/-!
# Model of `Shape` and `Layout`

Models crates/hodu_core/src/types/shape.rs and crates/hodu_core/src/types/layout.rs.

Simplifications, valid for the whole file: `usize` is `Nat` (no overflow of size and stride
products); `i32` is `Int`, with overflow of the arithmetic in `slice` checked explicitly (an
overflow is a `panic`, as in a debug build); `SmallVec<[usize; 8]>` is `List Nat`.
-/

namespace Hodu

/-- `Layout { shape, strides, offset }`, types/layout.rs:15-19 (shape inlined as its `dims`). -/
structure Layout where
  dims : List Nat
  strides : List Nat
  offset : Nat
  deriving Repr, DecidableEq

/-- `Shape::size`, types/shape.rs:68-70: `dims.iter().product()`. -/
def shapeSize (dims : List Nat) : Nat := dims.foldl (· * ·) 1

/-- An `as usize` cast of a signed integer on a 64-bit target (used for `(ndim as i32 + dim) as
usize`, types/layout.rs:209-213, 257-261, 436-440): negative values wrap to huge ones. -/
def castUsize (x : Int) : Nat := (x % 2 ^ 64).toNat

/-- `x as i32` for a `usize` (types/layout.rs:450): keeps the low 32 bits. -/
def castI32 (n : Nat) : Int := ((n : Int) + 2 ^ 31) % 2 ^ 32 - 2 ^ 31

/-- Result of an `i32` arithmetic operation: a value outside the type's range panics (debug build).
Used for the arithmetic of types/layout.rs:453-489. -/
def i32 (x : Int) : Res Int :=
  if -2 ^ 31 ≤ x ∧ x < 2 ^ 31 then .ok x else .panic

/-- `i32::clamp(lo, hi)` (types/layout.rs:472-477): panics if `lo > hi`. -/
def clampI32 (x lo hi : Int) : Res Int :=
  if hi < lo then .panic else if x < lo then .ok lo else if hi < x then .ok hi else .ok x

/-- `Shape::normalize_axis`, types/shape.rs:121-130. -/
def normalizeAxis (dims : List Nat) (axis : Int) : Option Nat :=
  let ndim : Int := dims.length
  let normalized := if axis < 0 then ndim + axis else axis
  if 0 ≤ normalized ∧ normalized < ndim then some normalized.toNat else none

/-- `Shape::can_broadcast_to`, types/shape.rs:80-94.  The index loop over `self.dims` with
`target_idx = i + offset` is a walk over `dims` zipped with `target` after dropping `offset`. -/
def canBroadcastTo (dims target : List Nat) : Bool :=
  if target.length < dims.length then false
  else
    let offset := target.length - dims.length
    (dims.zip (target.drop offset)).all fun (d, t) => !(d != 1 && d != t)

/-- One iteration of the loop of `Shape::broadcast_shape`, types/shape.rs:102-113. -/
def broadcastShapeAt (lhs rhs : List Nat) (maxNdim i : Nat) : Option Nat :=
  let lhsIdx := lhs.length - (maxNdim - i)
  let rhsIdx := rhs.length - (maxNdim - i)
  let lhsDim := (lhs[lhsIdx]?).getD 1
  let rhsDim := (rhs[rhsIdx]?).getD 1
  if lhsDim ≠ rhsDim ∧ lhsDim ≠ 1 ∧ rhsDim ≠ 1 then none else some (max lhsDim rhsDim)

/-- `Shape::broadcast_shape`, types/shape.rs:98-117 (`saturating_sub` is `Nat` subtraction). -/
def broadcastShape (lhs rhs : List Nat) : Option (List Nat) :=
  let maxNdim := max lhs.length rhs.length
  (List.range maxNdim).mapM (broadcastShapeAt lhs rhs maxNdim)

namespace Layout

/-- `Layout::size`, types/layout.rs:80-82. -/
def size (l : Layout) : Nat := shapeSize l.dims

/-- `Layout::ndim`, types/layout.rs:61-63. -/
abbrev ndim (l : Layout) : Nat := l.dims.length

/-- `Layout::compute_strides`, types/layout.rs:123-134: the loop `strides[i] = strides[i+1] *
shape[i+1]` from the last dimension down, written as recursion on the shape. -/
def computeStrides : List Nat → List Nat
  | [] => []
  | [_] => [1]
  | _ :: d :: ds =>
    let rest := computeStrides (d :: ds)
    (rest.headD 1 * d) :: rest

/-- `Layout::from_shape`, types/layout.rs:32-39. -/
def fromShape (dims : List Nat) : Layout :=
  { dims := dims, strides := computeStrides dims, offset := 0 }

/-- Loop of `Layout::is_contiguous`, types/layout.rs:111-117, over `(dim, stride)` pairs from the
last dimension to the first. -/
def isContiguousLoop (expected : Nat) : List (Nat × Nat) → Bool
  | [] => true
  | (d, s) :: rest => if s ≠ expected then false else isContiguousLoop (expected * d) rest

/-- `Layout::is_contiguous`, types/layout.rs:105-120. -/
def isContiguous (l : Layout) : Bool :=
  isContiguousLoop 1 (l.dims.zip l.strides).reverse

/-- `Layout::reshape`, types/layout.rs:137-165. -/
def reshape (l : Layout) (newDims : List Nat) : Res Layout :=
  if l.size ≠ shapeSize newDims then .err
  else if !l.isContiguous then .err
  else .ok { dims := newDims, strides := computeStrides newDims, offset := l.offset }

/-- `Layout::flatten`, types/layout.rs:168-186. -/
def flatten (l : Layout) : Res Layout :=
  if !l.isContiguous then .err
  else .ok { dims := [l.size], strides := computeStrides [l.size], offset := l.offset }

/-- Validation loop of `Layout::squeeze`, types/layout.rs:208-227. -/
def squeezeAxes (dims : List Nat) : List Int → Res (List Nat)
  | [] => .ok []
  | dim :: rest =>
    let actual := if dim < 0 then castUsize ((dims.length : Int) + dim) else castUsize dim
    match dims[actual]? with
    | none => .err
    | some d => if d ≠ 1 then .err else (squeezeAxes dims rest).bind fun as => .ok (actual :: as)

/-- Removal loop of `Layout::squeeze`, types/layout.rs:233-236: `Vec::remove` panics when the index
is past the end. -/
def removeAll (dims : List Nat) : List Nat → Res (List Nat)
  | [] => .ok dims
  | i :: rest => if i < dims.length then removeAll (dims.eraseIdx i) rest else .panic

/-- `Layout::squeeze`, types/layout.rs:193-249.  The axes are sorted and removed from the largest to
the smallest (229-236); sorting natural numbers has one result, computed here by insertion sort. -/
def squeeze (l : Layout) (dimsToSqueeze : List Int) : Res Layout :=
  if !l.isContiguous then .err
  else
    (if dimsToSqueeze.isEmpty then .ok (l.dims.filter (· != 1))
     else (squeezeAxes l.dims dimsToSqueeze).bind fun actual =>
       removeAll l.dims (actual.insertionSort (· ≤ ·)).reverse).bind fun newDims =>
    .ok { dims := newDims, strides := computeStrides newDims, offset := l.offset }

/-- `Layout::unsqueeze`, types/layout.rs:252-288. -/
def unsqueeze (l : Layout) (dim : Int) : Res Layout :=
  let actual := if dim < 0 then castUsize ((l.ndim : Int) + dim + 1) else castUsize dim
  if l.ndim < actual then .err
  else
    let newDims := l.dims.insertIdx actual 1
    if !l.isContiguous then .err
    else .ok { dims := newDims, strides := computeStrides newDims, offset := l.offset }

/-- Loop of `Layout::broadcast_to`, types/layout.rs:311-331, over the padded source dimensions, the
source strides (`none` for a padded position) and the target dimensions. -/
def broadcastStrides : List Nat → List (Option Nat) → List Nat → Res (List Nat)
  | src :: srcs, st :: sts, tgt :: tgts =>
    if src = tgt then
      (broadcastStrides srcs sts tgts).bind fun r => .ok (st.getD 0 :: r)
    else if src = 1 then
      (broadcastStrides srcs sts tgts).bind fun r => .ok (0 :: r)
    else .err
  | _, _, _ => .ok []

/-- `Layout::broadcast_to`, types/layout.rs:291-337. -/
def broadcastTo (l : Layout) (target : List Nat) : Res Layout :=
  if target.length < l.ndim then .err
  else
    let rankDiff := target.length - l.ndim
    let padded := List.replicate rankDiff 1 ++ l.dims
    let strides := List.replicate rankDiff none ++ l.strides.map some
    (broadcastStrides padded strides target).bind fun s =>
      .ok { dims := target, strides := s, offset := l.offset }

/-- `Layout::broadcast_layouts`, types/layout.rs:340-349. -/
def broadcastLayouts (l r : Layout) : Res (Layout × Layout) :=
  match broadcastShape l.dims r.dims with
  | none => .err
  | some s => (l.broadcastTo s).bind fun l' => (r.broadcastTo s).bind fun r' => .ok (l', r')

/-- `slice::swap`, as used in types/layout.rs:373-374 (indices are in range there). -/
def swapAt (xs : List Nat) (i j : Nat) : List Nat :=
  match xs[i]?, xs[j]? with
  | some a, some b => (xs.set i b).set j a
  | _, _ => xs

/-- `Layout::transpose`, types/layout.rs:352-380. -/
def transpose (l : Layout) (dim1 dim2 : Int) : Res Layout :=
  if l.ndim < 2 then .err
  else match normalizeAxis l.dims dim1, normalizeAxis l.dims dim2 with
    | some d1, some d2 =>
      .ok { dims := swapAt l.dims d1 d2, strides := swapAt l.strides d1 d2, offset := l.offset }
    | _, _ => .err

/-- Validation loop of `Layout::permute`, types/layout.rs:399-412; `seen` is the list of axes
already accepted. -/
def permuteAxes (dims : List Nat) (seen : List Nat) : List Int → Res (List Nat)
  | [] => .ok []
  | a :: rest =>
    match normalizeAxis dims a with
    | none => .err
    | some k =>
      if k ∈ seen then .err
      else (permuteAxes dims (k :: seen) rest).bind fun as => .ok (k :: as)

/-- `Layout::permute`, types/layout.rs:383-429. -/
def permute (l : Layout) (axes : List Int) : Res Layout :=
  if axes.length ≠ l.ndim then .err
  else (permuteAxes l.dims [] axes).bind fun as =>
    (Res.mapL (readR l.dims) as).bind fun nd =>
    (Res.mapL (readR l.strides) as).bind fun ns =>
    .ok { dims := nd, strides := ns, offset := l.offset }

/-- Normalised start of `Layout::slice`, types/layout.rs:453. -/
def sliceStartIdx (dimSize start : Int) : Res Int :=
  if start < 0 then i32 (dimSize + start) else .ok start

/-- Normalised end of `Layout::slice`, types/layout.rs:454-469. -/
def sliceEndIdx (dimSize : Int) (stop : Option Int) (step : Int) : Res Int :=
  match stop with
  | some e => if e < 0 then i32 (dimSize + e) else .ok e
  | none => if step > 0 then .ok dimSize else .ok (-1)

/-- Number of positions selected by `Layout::slice`, types/layout.rs:480-490. -/
def sliceCount (cs ce step : Int) : Res Int :=
  if step > 0 then
    if ce > cs then
      (i32 (ce - cs)).bind fun a => (i32 (a + step)).bind fun b => (i32 (b - 1)).bind fun c =>
      .ok (c.tdiv step)
    else .ok 0
  else if cs > ce then
    (i32 (cs - ce)).bind fun a => (i32 (-step)).bind fun n => (i32 (a + n)).bind fun b =>
    (i32 (b - 1)).bind fun c => .ok (c.tdiv n)
  else .ok 0

/-- Size computation of `Layout::slice`, types/layout.rs:453-494: normalisation, clamping and the
number of selected positions; returns `(clamped_start, new_size)`. -/
def sliceBounds (dimSize start : Int) (stop : Option Int) (step : Int) : Res (Int × Int) :=
  (sliceStartIdx dimSize start).bind fun startIdx =>
  (sliceEndIdx dimSize stop step).bind fun endIdx =>
  (clampI32 startIdx 0 dimSize).bind fun cs =>
  (if step > 0 then clampI32 endIdx 0 dimSize else clampI32 endIdx (-1) (dimSize - 1)).bind fun ce =>
  (sliceCount cs ce step).bind fun newSize =>
  if newSize ≤ 0 then .err else .ok (cs, newSize)

/-- `Layout::slice`, types/layout.rs:432-511. -/
def slice (l : Layout) (dim start : Int) (stop : Option Int) (step : Int) : Res Layout :=
  let actual := if dim < 0 then castUsize ((l.ndim : Int) + dim) else castUsize dim
  match l.dims[actual]?, l.strides[actual]? with
  | some d, some st =>
    if step = 0 then .err
    else (sliceBounds (castI32 d) start stop step).bind fun (cs, n) =>
      .ok { dims := l.dims.set actual n.toNat,
            strides := l.strides.set actual (st * step.natAbs),
            offset := l.offset + cs.toNat * st }
  | _, _ => .err

end Layout
end Hodu
