import Verif.Model.Layout
import Mathlib.Logic.Function.Basic

/-!
# Capturing operations and building a snapshot

Models `crates/hodu_core/src/snapshot/capture/{board,storage}.rs`, `Tensor::input`
(`crates/hodu_core/src/tensor/creation_static.rs`), `create_builder_tensor`
(`crates/hodu_core/src/tensor/internal.rs`) and how the operations of
`crates/hodu_core/src/tensor/ops/*.rs` behave while a board is open.

Simplifications: one thread (`ACTIVE_BOARD` is thread-local); an operation with its parameters is an
element of an arbitrary type `O`, a tensor's contents an element of an arbitrary type `V`; dtypes
are part of `O` or `V`; symbolic layouts are not modelled; `HashSet`s are lists.
-/

namespace Hodu.Cap

/-- crates/hodu_core/src/snapshot/capture/board.rs:39-48 `CapturedOp` -/
structure COp (O : Type) where
  op : O
  ins : List Nat
  out : Nat
  inLayouts : List Layout
  outLayout : Layout

/-- crates/hodu_core/src/snapshot/capture/board.rs:22-28 `CapturedInput`, and after renumbering
crates/hodu_core/src/snapshot.rs:16-23 `SnapshotInput`. -/
structure Inp where
  name : String
  id : Nat
  dims : List Nat

/-- crates/hodu_core/src/snapshot/capture/board.rs:51-57 `CaptureBoard_`, with `CapturedTarget`
(32-35). -/
structure Board (O : Type) where
  inputs : List Inp
  targets : List (String × Nat)
  ops : List (COp O)

/-- crates/hodu_core/src/tensor/core.rs:98-108 `Tensor_`: the contents (none for a builder tensor,
internal.rs:77-93) and the layout. -/
structure Tn (V : Type) where
  val : Option V
  layout : Layout

/-- `TENSOR_COUNTER` (tensor/core.rs:18), `TENSORS` (tensor/registry.rs:6), `BOARDS` and
`ACTIVE_BOARD` (capture/storage.rs:15-20), and the board counter (board.rs:16). -/
structure St (O V : Type) where
  next : Nat
  reg : Nat → Option (Tn V)
  nextBoard : Nat
  boards : Nat → Option (Board O)
  active : Option Nat

variable {O V : Type}

/-- A fresh process. -/
def init : St O V :=
  { next := 0, reg := fun _ => none, nextBoard := 0, boards := fun _ => none, active := none }

/-- Inserting a tensor, tensor/internal.rs:31-35. -/
def insert (st : St O V) (t : Tn V) : St O V :=
  { st with next := st.next + 1, reg := Function.update st.reg st.next (some t) }

/-- `layout`, tensor/core.rs:138-140: a scalar layout when the entry is gone. -/
def layoutOf (st : St O V) (i : Nat) : Layout :=
  match st.reg i with
  | some t => t.layout
  | none => Layout.fromShape []

/-- `BOARDS.get_mut(&id)` and a change (capture/storage.rs:62-64, 71-75, 115-117): nothing when the
board is gone. -/
def onBoard (st : St O V) (b : Nat) (f : Board O → Board O) : St O V :=
  match st.boards b with
  | some bd => { st with boards := Function.update st.boards b (some (f bd)) }
  | none => st

/-- What a program does. -/
inductive Step (O V : Type) where
  /-- a run-time tensor, made by a constructor or by operations outside of a board -/
  | const (v : V) (layout : Layout)
  /-- `CaptureBoard::new` -/
  | board
  | open (b : Nat)
  | close
  | input (name : String) (dims : List Nat)
  /-- an operation while a board is open -/
  | op (o : O) (ins : List Nat) (layout : Layout)
  /-- a builder tensor no captured operation produces: the second and third result of `unique`
  (tensor/ops/indexing.rs:786-789) -/
  | hidden (layout : Layout)
  | target (b : Nat) (name : String) (i : Nat)
  /-- the last handle of a run-time tensor goes away (tensor/core.rs:56-94) -/
  | drop (i : Nat)
  /-- `set_`, tensor/ops/cast_memory.rs:85-102 -/
  | set (i j : Nat)

/-- One step. -/
def step (st : St O V) : Step O V → St O V
  | .const v l => insert st { val := some v, layout := l }
  -- capture/board.rs:88-99 `new`
  | .board => { st with nextBoard := st.nextBoard + 1,
                        boards := Function.update st.boards st.nextBoard
                          (some { inputs := [], targets := [], ops := [] }) }
  -- capture/board.rs:121-127 `open`, `close`
  | .open b => { st with active := some b }
  | .close => { st with active := none }
  -- tensor/creation_static.rs:9-35 `input`, capture/storage.rs:68-77, board.rs:60-69
  | .input name dims =>
    match st.active with
    | none => st
    | some b =>
      onBoard (insert st { val := none, layout := Layout.fromShape dims }) b fun bd =>
        { bd with inputs := bd.inputs ++ [{ name := name, id := st.next, dims := dims }] }
  -- e.g. tensor/ops/binary.rs:23-39, capture/storage.rs:79-120, board.rs:79-81
  | .op o ins l =>
    match st.active with
    | none => st
    | some b =>
      onBoard (insert st { val := none, layout := l }) b fun bd =>
        { bd with ops := bd.ops ++ [{ op := o, ins := ins, out := st.next,
                                      inLayouts := ins.map (layoutOf st), outLayout := l }] }
  | .hidden l => insert st { val := none, layout := l }
  -- capture/board.rs:114-119 `with_target`, storage.rs:61-65, board.rs:71-77
  | .target b name i => onBoard st b fun bd => { bd with targets := bd.targets ++ [(name, i)] }
  -- tensor/core.rs:47-96; builder tensors stay (`is_runtime`, core.rs:58)
  | .drop i =>
    match st.reg i with
    | some t => if t.val.isSome then { st with reg := Function.update st.reg i none } else st
    | none => st
  -- tensor/ops/cast_memory.rs:85-102
  | .set i j =>
    match st.reg i, st.reg j with
    | some _, some t => { st with reg := Function.update st.reg i (some t) }
    | _, _ => st

/-- A history. -/
def run (st : St O V) (l : List (Step O V)) : St O V := l.foldl step st

/-- The inputs of the first captured operation that produces `i`, capture/board.rs:211-218. -/
def producerIns (ops : List (COp O)) (i : Nat) : List Nat :=
  match ops.find? (fun op => op.out == i) with
  | some op => op.ins
  | none => []

/-- The loop of capture/board.rs:206-219; the top of `to_visit` is the head.  `fuel` bounds the
number of turns; `fuelOf` is enough (`reach_closed`). -/
def visit (ops : List (COp O)) : Nat → List Nat → List Nat → List Nat
  | 0, reach, _ => reach
  | _ + 1, reach, [] => reach
  | fuel + 1, reach, i :: rest =>
    if i ∈ reach then visit ops fuel reach rest
    else visit ops fuel (i :: reach) ((producerIns ops i).reverse ++ rest)

/-- Enough turns for `visit`: every visit pops one, and each operation pushes its inputs once. -/
def fuelOf (targets : List (String × Nat)) (ops : List (COp O)) : Nat :=
  targets.length + (ops.map fun op => op.ins.length).sum

/-- capture/board.rs:198-222 `compute_reachable` -/
def reachable (targets : List (String × Nat)) (ops : List (COp O)) : List Nat :=
  visit ops (fuelOf targets ops) [] (targets.map (·.2)).reverse

/-- capture/board.rs:136-141: `filtered_ops` -/
def keptOps (bd : Board O) : List (COp O) :=
  bd.ops.filter fun op => op.out ∈ reachable bd.targets bd.ops

/-- All ids the snapshot mentions, capture/board.rs:227-239. -/
def mentioned (bd : Board O) : List Nat :=
  bd.inputs.map (·.id) ++ bd.targets.map (·.2) ++
    (keptOps bd).flatMap fun op => op.ins ++ [op.out]

/-- capture/board.rs:224-247 `compute_id_offset` -/
def idOffset (bd : Board O) : Nat :=
  match mentioned bd with
  | [] => 0
  | i :: l => l.foldl min i

/-- capture/board.rs:249-268 `find_constants` -/
def constantIds (bd : Board O) : List Nat :=
  ((keptOps bd).flatMap (·.ins)).filter fun i =>
    i ∈ reachable bd.targets bd.ops && !(bd.inputs.map (·.id)).contains i &&
      !((keptOps bd).map (·.out)).contains i

/-- crates/hodu_core/src/snapshot.rs:36-68 `SnapshotConstant`, `SnapshotNode`, `Snapshot`.  A constant
has the contents in logical order and the dims, no strides. -/
structure Snap (O V : Type) where
  inputs : List Inp
  constants : List (Nat × V × List Nat)
  targets : List (String × Nat)
  nodes : List (COp O)

/-- One constant, capture/board.rs:283-323: a tensor without contents is left out silently
(`.ok()?` inside `filter_map`). -/
def extractOne (st : St O V) (offset i : Nat) : Option (Nat × V × List Nat) :=
  match st.reg i with
  | some t => t.val.map fun v => (i - offset, v, t.layout.dims)
  | none => none

/-- capture/board.rs:133-196 `capture` of a board that is still there, with `extract_constants`
(270-324). -/
def snapshotOf (st : St O V) (bd : Board O) : Snap O V :=
  let off := idOffset bd
  { inputs := bd.inputs.map fun p => { p with id := p.id - off }
    constants := (constantIds bd).filterMap (extractOne st off)
    targets := bd.targets.map fun p => (p.1, p.2 - off)
    nodes := (keptOps bd).map fun op =>
      { op with ins := op.ins.map (· - off), out := op.out - off } }

/-- capture/board.rs:133-134: `take_board(..).expect(..)` -/
def capture (st : St O V) (b : Nat) : Res (St O V × Snap O V) :=
  match st.boards b with
  | none => .panic
  | some bd => .ok ({ st with boards := Function.update st.boards b none }, snapshotOf st bd)

end Hodu.Cap
