import Verif.Model.Select

/-!
# Shapes that are only known when the graph runs

Transcription of crates/hodu_core/src/types/{dim,symbolic_shape,symbolic_layout,dynamic_registry}.rs and of the capture branches of
`nonzero`, `unique` and `compress`, crates/hodu_core/src/tensor/ops/indexing.rs:688-723, 763-806, 917-972.  Sizes are unbounded numbers
(the products of the code are of type `usize`).
-/

namespace Hodu.Sym

/-- `Dim`, dim.rs:45-51. -/
inductive Dim where
  | concrete (size : Nat)
  | dynamic (id : Nat) (bound : Option Nat)
  deriving DecidableEq, Repr

/-- `Dim::is_concrete`, dim.rs:80-83. -/
def Dim.isConcrete : Dim → Bool
  | .concrete _ => true
  | .dynamic _ _ => false

/-- `Dim::is_dynamic`, dim.rs:74-77. -/
def Dim.isDynamic : Dim → Bool
  | .concrete _ => false
  | .dynamic _ _ => true

/-- `Dim::concrete_size`, dim.rs:86-92. -/
def Dim.concreteSize : Dim → Option Nat
  | .concrete n => some n
  | .dynamic _ _ => none

/-- `Dim::allocation_size`, dim.rs:97-103. -/
def Dim.allocationSize : Dim → Option Nat
  | .concrete n => some n
  | .dynamic _ b => b

/-- `Dim::dynamic_id`, dim.rs:106-112. -/
def Dim.dynamicId : Dim → Option Nat
  | .concrete _ => none
  | .dynamic id _ => some id

/-- The `n`-th id the process hands out, dim.rs:5, 14-16: a 32-bit counter. -/
def nthId (n : Nat) : Nat := n % 2 ^ 32

/-- `SymbolicShape::from_concrete` and `concrete`, symbolic_shape.rs:27-38. -/
def fromDims (d : List Nat) : List Dim := d.map .concrete

/-- `SymbolicShape::is_fully_concrete`, symbolic_shape.rs:53-56. -/
def isFullyConcrete (s : List Dim) : Bool := s.all (·.isConcrete)

/-- `SymbolicShape::is_dynamic`, symbolic_shape.rs:59-62. -/
def isDynamic (s : List Dim) : Bool := s.any (·.isDynamic)

/-- `SymbolicShape::to_concrete`, symbolic_shape.rs:65-72. -/
def toConcrete (s : List Dim) : Option (List Nat) :=
  if isFullyConcrete s then some (s.filterMap (·.concreteSize)) else none

/-- `SymbolicShape::size`, symbolic_shape.rs:75-81. -/
def size (s : List Dim) : Option Nat :=
  if isFullyConcrete s then some ((s.filterMap (·.concreteSize)).foldl (· * ·) 1) else none

/-- `SymbolicShape::max_size`, symbolic_shape.rs:85-90: the fold stops at the first dimension without a bound. -/
def maxSize (s : List Dim) : Option Nat :=
  s.foldlM (fun acc d => d.allocationSize.map (acc * ·)) 1

/-- `SymbolicShape::to_max_shape`, symbolic_shape.rs:94-97. -/
def toMaxShape (s : List Dim) : Option (List Nat) := s.mapM (·.allocationSize)

/-- `SymbolicShape::dynamic_dim_ids`, symbolic_shape.rs:100-102. -/
def dynamicDimIds (s : List Dim) : List Nat := s.filterMap (·.dynamicId)

/-- `SymbolicShape::dim_size`, symbolic_shape.rs:110-117: a negative sum becomes a huge `usize`. -/
def dimSize (s : List Dim) (index : Int) : Option Nat :=
  let i := if index < 0 then castUsize (s.length + index) else index.toNat
  (s[i]?).bind (·.concreteSize)

/-- `SymbolicLayout`, symbolic_layout.rs:14-19. -/
structure Layout' where
  shape : List Dim
  strides : List Nat
  offset : Nat
  deriving DecidableEq, Repr

/-- `SymbolicLayout::compute_strides`, symbolic_layout.rs:121-133; the loop runs from the last dimension to the first and does not look at
the size of the first. -/
def computeStrides : List Dim → Option (List Nat)
  | [] => some []
  | [_] => some [1]
  | _ :: d :: ds => (computeStrides (d :: ds)).bind fun rest => d.allocationSize.bind fun k => some (rest.headD 1 * k :: rest)

/-- `SymbolicLayout::from_shape`, symbolic_layout.rs:34-44. -/
def Layout'.fromShape (s : List Dim) : Option Layout' :=
  (maxSize s).bind fun _ => (computeStrides s).bind fun st => some ⟨s, st, 0⟩

/-- `SymbolicLayout::new`, symbolic_layout.rs:23-29. -/
def Layout'.new (s : List Dim) (st : List Nat) : Layout' := ⟨s, st, 0⟩

/-- `SymbolicLayout::from_concrete`, symbolic_layout.rs:47-53. -/
def Layout'.fromConcrete (l : Layout) : Layout' := ⟨fromDims l.dims, l.strides, l.offset⟩

/-- `SymbolicLayout::buffer_size`, symbolic_layout.rs:97-99. -/
def Layout'.bufferSize (l : Layout') : Option Nat := (maxSize l.shape).map (l.offset + ·)

/-- `SymbolicLayout::to_concrete`, symbolic_layout.rs:102-109; `Layout::new`, layout.rs, has offset 0. -/
def Layout'.toConcrete (l : Layout') : Option Layout :=
  if isFullyConcrete l.shape then (Sym.toConcrete l.shape).map fun d => ⟨d, l.strides, 0⟩ else none

/-- `SymbolicLayout::to_max_layout`, symbolic_layout.rs:113-116. -/
def Layout'.toMaxLayout (l : Layout') : Option Layout := (toMaxShape l.shape).map fun d => ⟨d, l.strides, 0⟩

/-- `SymbolicLayout::with_dim`, symbolic_layout.rs:141-158. -/
def Layout'.withDim (l : Layout') (i : Nat) (d : Dim) : Option Layout' :=
  if l.shape.length ≤ i then none
  else (computeStrides (l.shape.set i d)).map fun st => ⟨l.shape.set i d, st, l.offset⟩

/-! ## The registry of resolved dimensions -/

/-- Calls on the registry, dynamic_registry.rs:15-36. -/
inductive Call where
  | resolve (id value : Nat)
  | clear

/-- `RESOLVED_DIMS`, dynamic_registry.rs:6-9, as the function it represents, after one more call. -/
def step (m : Nat → Option Nat) : Call → Nat → Option Nat
  | .resolve id v => fun i => if i = id then some v else m i
  | .clear => fun _ => none

/-- `get_resolved_dimension`, dynamic_registry.rs:24-26, after some calls. -/
def getAfter (cs : List Call) (id : Nat) : Option Nat := (cs.foldl step fun _ => none) id

/-! ## Captured operations with data-dependent shapes -/

/-- Capture branch of `nonzero`, tensor/ops/indexing.rs:688-723: the layout of the recorded tensor and its symbolic layout.  The
`expect`s panic. -/
def captureNonzero (l : Layout) (id : Nat) : Res (Layout × Layout') :=
  match Layout'.fromShape [.dynamic id (some l.size), .concrete l.ndim] with
  | none => .panic
  | some s => match s.toMaxLayout with
    | none => .panic
    | some m => .ok (m, s)

/-- Capture branch of `unique`, tensor/ops/indexing.rs:763-806: the layouts of values, inverse and counts, and the symbolic one. -/
def captureUnique (l : Layout) (id : Nat) : Res (Layout × Layout × Layout × Layout') :=
  match Layout'.fromShape [.dynamic id (some l.size)] with
  | none => .panic
  | some s => match s.toMaxLayout with
    | none => .panic
    | some m => .ok (m, Layout.fromShape [l.size], m, s)

/-- Capture branch of `compress`, tensor/ops/indexing.rs:873-912 (axis), 917-972. -/
def captureCompress (t : Tensor α) (cond : Tensor Bool) (axis : Option Int) (id : Nat) : Res (Layout × Layout') :=
  if cond.dims.length ≠ 1 then .err
  else (compressAxis t cond.layout.size axis).bind fun a =>
    let k := cond.layout.size
    let maxDims := match a with
      | some a => t.dims.set a k
      | none => [k]
    let dims := match a with
      | some a => (fromDims t.dims).set a (.dynamic id (some k))
      | none => [.dynamic id (some k)]
    match Layout'.fromShape dims with
    | none => .panic
    | some s => .ok (Layout.fromShape maxDims, s)

end Hodu.Sym
