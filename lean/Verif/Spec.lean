/-!
# Specification vocabulary: index spaces

These definitions say what a user means by "index", "row-major order" and "element at an index".
They do not use any definition of the model.
-/

namespace Hodu.Spec

/-- `InRange idx dims`: `idx` has one coordinate per dimension, each below the dimension's size. -/
def InRange : List Nat → List Nat → Prop
  | [], [] => True
  | i :: is, d :: ds => i < d ∧ InRange is ds
  | _, _ => False

/-- Number of elements of a shape. -/
def numel : List Nat → Nat
  | [] => 1
  | d :: ds => d * numel ds

/-- Row-major position of a multi-index: the last coordinate runs fastest. -/
def rowMajor : List Nat → List Nat → Nat
  | _ :: ds, i :: is => i * numel ds + rowMajor ds is
  | _, _ => 0

/-- The multi-index at a row-major position (inverse of `rowMajor`, see `Lemmas/Index.lean`). -/
def unravel : List Nat → Nat → List Nat
  | [], _ => []
  | _ :: ds, n => n / numel ds :: unravel ds (n % numel ds)

/-- `Σ idx_k * stride_k`. -/
def dot : List Nat → List Nat → Nat
  | i :: is, s :: ss => i * s + dot is ss
  | _, _ => 0

/-- `InRange` is decidable (used only to evaluate concrete examples). -/
def decInRange : (idx dims : List Nat) → Decidable (InRange idx dims)
  | [], [] => isTrue trivial
  | [], _ :: _ => isFalse (fun h => h)
  | _ :: _, [] => isFalse (fun h => h)
  | i :: is, d :: ds =>
    have := decInRange is ds
    inferInstanceAs (Decidable (i < d ∧ InRange is ds))

instance (idx dims : List Nat) : Decidable (InRange idx dims) := decInRange idx dims

/-- The values of the API's `i32` parameters. -/
def I32 (x : Int) : Prop := -2 ^ 31 ≤ x ∧ x < 2 ^ 31

/-- `IsAxis n d k`: the user-supplied axis `d` (negative values count from the end) names dimension
`k` of a tensor of rank `n`. -/
def IsAxis (n : Nat) (d : Int) (k : Nat) : Prop := k < n ∧ (d = k ∨ d = (k : Int) - n)

/-- Python-style resolution of a slice bound in a dimension of size `d`: negative values count from
the end, then the value is clamped to `0..d`. -/
def sliceBound (d : Nat) (x : Int) : Nat :=
  if x < 0 then ((d : Int) + x).toNat else min x.toNat d

/-- The sizes that remain after removing the dimensions whose positions are listed in `axes`;
positions are counted from `k`. -/
def dropAxes (axes : List Nat) (k : Nat) : List Nat → List Nat
  | [] => []
  | d :: ds => if k ∈ axes then dropAxes axes (k + 1) ds else d :: dropAxes axes (k + 1) ds

/-- A shape broadcasts to a target shape: aligned from the right every dimension is 1 or equal to
the target's. -/
def BroadcastsTo (dims target : List Nat) : Prop :=
  dims.length ≤ target.length ∧
    ∀ (k : Nat) (d : Nat), dims[k]? = some d →
      d = 1 ∨ target[k + (target.length - dims.length)]? = some d

/-- The source index a broadcast index refers to: surplus leading coordinates are dropped and the
coordinate of a unit dimension is 0. -/
def broadcastIndex (dims idx : List Nat) : List Nat :=
  List.zipWith (fun d i => if d = 1 then 0 else i) dims (idx.drop (idx.length - dims.length))

end Hodu.Spec
