import Verif.Model.Attention
import Verif.Model.Embedding
import Verif.Model.Losses
import Verif.Model.Move

/-!
# Model of the recurrent networks

crates/hodu_nn/src/modules/rnn.rs, as programs of the operations of Model/Typed.lean.

Left out: gradient bookkeeping and the initialisation of the weights.  The three loops over time and layers
(`RNN`, `LSTM`, `GRU`) are the same text up to the state that is kept; they are modelled once.
-/

namespace Hodu

variable {α : Type}

/-- `Tensor::slice`, tensor/ops/shape.rs:451-519 (any element type). -/
def TT.slice (x : TT α) (dim start : Int) (stop : Option Int) (step : Int) : Res (TT α) :=
  match x with
  | .num dt t => (t.slice dim start stop step).bind fun r => .ok (.num dt r)
  | .bool t => (t.slice dim start stop step).bind fun r => .ok (.bool r)

/-- The numeric tensors of a list of tensors that all have type `dt`: `validate_same_dtype` as used by
`Tensor::concat`, tensor/ops/concat_split.rs:34. -/
def TT.allNum (dt : DType) : List (TT α) → Option (List (Tensor α))
  | [] => some []
  | .num dt' t :: rest => if dt' = dt then (allNum dt rest).map (t :: ·) else none
  | .bool _ :: _ => none

/-- `Tensor::stack`, tensor/ops/concat_split.rs:114-128.  Simplification: tensors of booleans are rejected
(no caller modelled here stacks them). -/
def TT.stack (xs : List (TT α)) (dim : Int) : Res (TT α) :=
  match xs with
  | .num dt t :: rest =>
    match TT.allNum dt (.num dt t :: rest) with
    | some ts => (Tensor.stack ts dim).bind fun r => .ok (.num dt r)
    | none => .err
  | _ => .err

/-- The parameters of a cell: `RNNCell`, `LSTMCell`, `GRUCell`, modules/rnn.rs:15-23, 314-322, 620-627. -/
structure Cell (α : Type) where
  wih : TT α
  whh : TT α
  bih : Option (TT α)
  bhh : Option (TT α)
  hidden : Nat

namespace Rt

variable (E : Rt α)

/-- `h = h.add(bias)?` if there is a bias, modules/rnn.rs:98-100 and its copies. -/
def addBias (x : TT α) (b : Option (TT α)) : Res (TT α) :=
  match b with
  | none => .ok x
  | some b => E.bin .add x b

/-- `W_ih x + b_ih + W_hh h + b_hh`, modules/rnn.rs:95-109 and 382-390. -/
def preact (c : Cell α) (x h : TT α) : Res (TT α) :=
  (E.linear (-2) (-1) c.wih c.bih x).bind fun g =>
  (E.linear (-2) (-1) c.whh none h).bind fun k =>
  (E.bin .add g k).bind fun g => E.addBias g c.bhh

/-- `RNNCell::forward_step`, modules/rnn.rs:94-116; `relu` is the choice of nonlinearity. -/
def rnnStep (relu : Bool) (c : Cell α) (x h : TT α) : Res (TT α) :=
  (E.preact c x h).bind fun g => E.un (if relu then .relu else .tanh) g

/-- `gates.slice(1, k * hs, Some((k + 1) * hs), 1)`, modules/rnn.rs:393-396 and 700-706. -/
def gate (hs k : Nat) (g : TT α) : Res (TT α) :=
  g.slice 1 ((k * hs : Nat) : Int) (some (((k + 1) * hs : Nat) : Int)) 1

/-- `LSTMCell::forward_step`, modules/rnn.rs:379-405. -/
def lstmStep (cell : Cell α) (x : TT α) (hc : TT α × TT α) : Res (TT α × TT α) :=
  (E.preact cell x hc.1).bind fun gates =>
  ((gate cell.hidden 0 gates).bind (E.un .sigmoid)).bind fun i =>
  ((gate cell.hidden 1 gates).bind (E.un .sigmoid)).bind fun f =>
  ((gate cell.hidden 2 gates).bind (E.un .tanh)).bind fun g =>
  ((gate cell.hidden 3 gates).bind (E.un .sigmoid)).bind fun o =>
  (E.bin .mul f hc.2).bind fun fc =>
  (E.bin .mul i g).bind fun ig =>
  (E.bin .add fc ig).bind fun c' =>
  (E.un .tanh c').bind fun tc =>
  (E.bin .mul o tc).bind fun h' => .ok (h', c')

/-- `GRUCell::forward_step`, modules/rnn.rs:684-723. -/
def gruStep (cell : Cell α) (x h : TT α) : Res (TT α) :=
  (E.linear (-2) (-1) cell.wih cell.bih x).bind fun gi =>
  (E.linear (-2) (-1) cell.whh cell.bhh h).bind fun gh =>
  (gate cell.hidden 0 gi).bind fun gir =>
  (gate cell.hidden 1 gi).bind fun giz =>
  (gate cell.hidden 2 gi).bind fun gin =>
  (gate cell.hidden 0 gh).bind fun ghr =>
  (gate cell.hidden 1 gh).bind fun ghz =>
  (gate cell.hidden 2 gh).bind fun ghn =>
  ((E.bin .add gir ghr).bind (E.un .sigmoid)).bind fun r =>
  ((E.bin .add giz ghz).bind (E.un .sigmoid)).bind fun z =>
  (E.bin .mul r ghn).bind fun rn =>
  ((E.bin .add gin rn).bind (E.un .tanh)).bind fun n =>
  (E.un .neg z).bind fun nz =>
  (E.scal .add nz (E.one h.dtype)).bind fun omz =>
  (E.bin .mul omz n).bind fun a =>
  (E.bin .mul z h).bind fun b => E.bin .add a b

/-- Row `i` of a sequence: `index_select(0, [i])` and `squeeze([0])`, modules/rnn.rs:224-225, 243-244 and
their copies. -/
def row (x : TT α) (i : Nat) : Res (TT α) :=
  (E.indexSelect x 0 ⟨[(i : Int)], Layout.fromShape [1]⟩).bind fun r => r.squeeze [0]

/-- The initial states of the layers, modules/rnn.rs:220-236 and its copies. -/
def initStates (layers B hidden : Nat) (dt : DType) (h0 : Option (TT α)) : Res (List (TT α)) :=
  match h0 with
  | some h => Res.mapL (E.row h) (List.range layers)
  | none => .ok (List.replicate layers (TT.full [B, hidden] (E.zero dt)))

section

variable {C S : Type} (step : C → TT α → S → Res S) (out : S → TT α)

/-- The loop over the layers at one time, modules/rnn.rs:247-252 and its copies: the new state of a layer
is the input of the next one.  The code indexes the list of states, which has one entry per layer. -/
def layerLoop : List C → TT α → List S → Res (TT α × List S)
  | [], x, ss => .ok (x, ss)
  | _ :: _, _, [] => .panic
  | c :: cs, x, s :: ss =>
    (step c x s).bind fun s' =>
    (layerLoop cs (out s') ss).bind fun (y, ss') => .ok (y, s' :: ss')

/-- The loop over the times `t, t + 1, ..`, modules/rnn.rs:241-255 and its copies: the outputs, and the
states after the last time. -/
def timeLoop (cells : List C) (x : TT α) : Nat → Nat → List S → Res (List (TT α) × List S)
  | 0, _, ss => .ok ([], ss)
  | n + 1, t, ss =>
    (E.row x t).bind fun xt =>
    (layerLoop step out cells xt ss).bind fun (y, ss') =>
    (timeLoop cells x n (t + 1) ss').bind fun (ys, fin) => .ok (y :: ys, fin)

/-- The common part of the three `forward_with_state`, modules/rnn.rs:206-275, 488-582, 804-872: the
output and the list of final states.  `init` makes the initial states from the batch size and the element
type. -/
def sequence (batchFirst : Bool) (cells : List C) (init : Nat → DType → Res (List S)) (x : TT α) :
    Res (TT α × List S) :=
  match x.dims with
  | d0 :: d1 :: _ =>
    let T := if batchFirst then d1 else d0
    let B := if batchFirst then d0 else d1
    (if batchFirst then x.transpose 0 1 else .ok x).bind fun x =>
    (init B x.dtype).bind fun ss =>
    (E.timeLoop step out cells x T 0 ss).bind fun (ys, fin) =>
    (TT.stack ys 0).bind fun o => .ok (o, fin)
  | _ => .panic

end

/-- The final transposition, modules/rnn.rs:265-270 and its copies. -/
def orient (batchFirst : Bool) (o : TT α) : Res (TT α) := if batchFirst then o.transpose 0 1 else .ok o

/-- `RNN::forward_with_state`, modules/rnn.rs:206-275. -/
def rnn (relu batchFirst : Bool) (hidden : Nat) (cells : List (Cell α)) (x : TT α) (h0 : Option (TT α)) :
    Res (TT α × TT α) :=
  (E.sequence (E.rnnStep relu) id batchFirst cells
    (fun B dt => E.initStates cells.length B hidden dt h0) x).bind fun (o, fin) =>
  (TT.stack fin 0).bind fun hn => (orient batchFirst o).bind fun o => .ok (o, hn)

/-- `GRU::forward_with_state`, modules/rnn.rs:804-872. -/
def gru (batchFirst : Bool) (hidden : Nat) (cells : List (Cell α)) (x : TT α) (h0 : Option (TT α)) :
    Res (TT α × TT α) :=
  (E.sequence E.gruStep id batchFirst cells
    (fun B dt => E.initStates cells.length B hidden dt h0) x).bind fun (o, fin) =>
  (TT.stack fin 0).bind fun hn => (orient batchFirst o).bind fun o => .ok (o, hn)

/-- `LSTM::forward_with_state`, modules/rnn.rs:488-582. -/
def lstm (batchFirst : Bool) (hidden : Nat) (cells : List (Cell α)) (x : TT α) (h0 c0 : Option (TT α)) :
    Res (TT α × TT α × TT α) :=
  (E.sequence E.lstmStep Prod.fst batchFirst cells
    (fun B dt => (E.initStates cells.length B hidden dt h0).bind fun hs =>
      (E.initStates cells.length B hidden dt c0).bind fun cs => .ok (hs.zip cs)) x).bind fun (o, fin) =>
  (TT.stack (fin.map Prod.fst) 0).bind fun hn =>
  (TT.stack (fin.map Prod.snd) 0).bind fun cn =>
  (orient batchFirst o).bind fun o => .ok (o, hn, cn)

end Rt

end Hodu
