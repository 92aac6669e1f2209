import Verif.Model.RunCli

/-!
# Model of `hodu inspect`

From hodu-cli/src/commands/inspect.rs: the summary of the operations of a snapshot, the sizes in bytes, and the facts about a tensor file.
Colours and the layout of the lines are not modelled.
-/

namespace Hodu.Inspect

open _root_.Hodu Hodu.Cli

/-- `*categories.entry(cat).or_insert(0) += 1`, inspect.rs:159-162, on the entries of the map. -/
def bump (t : List (String × Nat)) (c : String) : List (String × Nat) :=
  match t with
  | [] => [(c, 1)]
  | (d, k) :: r => if d = c then (d, k + 1) :: r else (d, k) :: bump r c

/-- The loop over the nodes, inspect.rs:158-162; a node is given by `get_op_category` of its operation (441-473). -/
def tally (nodes : List String) : List (String × Nat) := nodes.foldl bump []

/-- `sort_by(|a, b| b.1.cmp(&a.1))`, inspect.rs:164-165: a stable sort of the entries in the order the hash map gives them. -/
def summary (order : List (String × Nat)) : List (String × Nat) := order.mergeSort fun a b => decide (b.2 ≤ a.2)

/-- What `format_bytes` shows: hundredths of a unit, and the unit in bytes. -/
structure Shown where
  hundredths : Nat
  unit : Nat
  deriving DecidableEq

/-- `{:.2}` of `bytes as f64 / unit as f64` (inspect.rs:480-486): rounded to the nearest, ties to even.  Exact below 2^53 bytes, where the
conversion and the division by a power of two are; above, this leaves out the rounding of the conversion. -/
def round2 (n unit : Nat) : Nat :=
  let q := 100 * n / unit
  let r := 100 * n % unit
  if 2 * r < unit then q else if unit < 2 * r then q + 1 else if q % 2 = 0 then q else q + 1

/-- `format_bytes`, inspect.rs:475-489 (also `format_size`, hodu-cli/src/commands/clean.rs:96-110). -/
def formatBytes (n : Nat) : Shown :=
  if 1024 * 1024 * 1024 ≤ n then ⟨round2 n (1024 * 1024 * 1024), 1024 * 1024 * 1024⟩
  else if 1024 * 1024 ≤ n then ⟨round2 n (1024 * 1024), 1024 * 1024⟩
  else if 1024 ≤ n then ⟨round2 n 1024, 1024⟩
  else ⟨100 * n, 1⟩

/-- The facts of `print_tensor_info`, inspect.rs:202-240. -/
structure Info where
  shape : List Nat
  dtype : DType
  numel : Nat
  bytes : Nat
  deriving DecidableEq

/-- `print_tensor_info`, inspect.rs:202-208; no bytes when they cannot be read. -/
def tensorInfo (x : DType × Tensor Nat) : Info :=
  ⟨x.2.dims, x.1, x.2.dims.foldl (· * ·) 1, match x.2.toBytes x.1 with | .ok b => b.length | _ => 0⟩

/-- `inspect_hdt`, inspect.rs:191-194. -/
def inspectHdt (bs : List Nat) : Res Info := (hdtDeserialize bs).bind fun x => .ok (tensorInfo x)

end Hodu.Inspect
