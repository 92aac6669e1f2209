import Verif.Model.ReadBack
import Verif.Model.Nested

/-!
# Model of printing tensors

Transcription of crates/hodu_core/src/tensor/display.rs.  How one value becomes text (`format_value_with_precision`) is a parameter, except
for `format_float`, which is modelled on its own.
-/

namespace Hodu.Display

open _root_.Hodu

/-- A piece of output: fixed text, or a value with the width it is padded to. -/
inductive Tok (α : Type) where
  | lit (s : String)
  | cell (v : α) (width : Nat)
  deriving DecidableEq, Repr

/-- `{formatted:width$}`, display.rs:251, 262: a string is padded with blanks on its right. -/
def padded (s : List Char) (width : Nat) : List Char := s ++ List.replicate (width - s.length) ' '

/-- The characters written for one piece. -/
def Tok.text (fmt : α → List Char) : Tok α → List Char
  | .lit s => s.toList
  | .cell v w => padded (fmt v) w

/-- The characters written. -/
def textOf (fmt : α → List Char) (ts : List (Tok α)) : List Char := ts.flatMap (Tok.text fmt)

/-- `MAX_ELEMENTS_PER_DIM`, display.rs:23. -/
def maxPerDim : Nat := 4

/-- `(show_start, show_end)`, display.rs:231-235, 272-276, 361-365. -/
def window (n : Nat) : Nat × Nat := if n ≤ maxPerDim * 2 then (n, 0) else (maxPerDim, maxPerDim)

/-- The numbers of the entries printed before the dots, display.rs:244, 294, 367. -/
def headIx (n : Nat) : List Nat := List.range (min (window n).1 n)

/-- The numbers of the entries printed after the dots, display.rs:258-259, 324-325, 378-379. -/
def tailIx (n : Nat) : List Nat :=
  if 0 < (window n).2 ∧ (window n).1 + (window n).2 < n then (List.range (window n).2).map (n - (window n).2 + ·) else []

/-- Whether dots are printed, display.rs:254, 314, 374. -/
def hasDots (n : Nat) : Bool := decide ((window n).1 + (window n).2 < n)

/-- `.map(|val| val.format_value…().len()).max().unwrap_or(0)`, display.rs:237-242. -/
def maxWidth (fmt : α → List Char) (data : List α) : Nat := (data.map fun v => (fmt v).length).foldl max 0

/-- `data.iter().enumerate()…` and `data.iter().skip(…)` in the loops over a row, display.rs:244-252, 258-264: the entry, if there is
one. -/
def cellAt (data : List α) (w i : Nat) : List (Tok α) := (data[i]?.map fun v => Tok.cell v w).toList

/-- The arm for one dimension, display.rs:228-267: the number of entries is the length of the data. -/
def row (fmt : α → List Char) (data : List α) (width : Option Nat) : List (Tok α) :=
  let w := width.getD (maxWidth fmt data)
  .lit "[" ::
    ((headIx data.length).flatMap (fun i => (if 0 < i then [Tok.lit ", "] else []) ++ cellAt data w i) ++
      (if hasDots data.length then [Tok.lit ", ... "] else []) ++
      (tailIx data.length).flatMap (fun i => Tok.lit ", " :: cellAt data w i) ++ [Tok.lit "]"])

/-- The width of the columns of a matrix, display.rs:278-292: the first three rows and columns only. -/
def cornerWidth (fmt : α → List Char) (data : List α) (rows cols sub : Nat) : Nat :=
  ((List.range (min rows 3)).flatMap fun i => (List.range (min cols 3)).map fun j =>
    match data[i * sub + j]? with
    | some v => (fmt v).length
    | none => 0).foldl max 0

/-- `write!(f, ",\n{}", " ".repeat(depth + 1))` or `", "`, display.rs:296-300, 326-330. -/
def sepTok (depth : Nat) : Tok α :=
  if depth < 2 then .lit (String.ofList (',' :: '\n' :: List.replicate (depth + 1) ' ')) else .lit ", "

/-- The dots of the outer dimensions, display.rs:315-320. -/
def dotsToks (depth : Nat) : List (Tok α) := if depth < 2 then [sepTok depth, .lit "..."] else [.lit ", ... "]

/-- A loop that writes one part after the other, ending at the first failure. -/
def collect (f : Nat → Res (List β)) : List Nat → Res (List β)
  | [] => .ok []
  | i :: is => (f i).bind fun x => (collect f is).bind fun y => .ok (x ++ y)

/-- `display_tensor_data`, display.rs:195-346: `stride / shape[0]` panics for an empty dimension (269), the slices past the end of the
data (304, 334). -/
def display (fmt : α → List Char) : (shape : List Nat) → (data : List α) → (stride depth : Nat) → (width : Option Nat) →
    Res (List (Tok α))
  | [], data, _, _, _ =>
    match data with
    | [] => .panic
    | v :: _ => .ok [.cell v 0]
  | [_], data, _, _, width => .ok (row fmt data width)
  | d :: e :: rest, data, stride, depth, _ =>
    if d = 0 then .panic
    else
      let sub := stride / d
      let width := if rest.isEmpty then some (cornerWidth fmt data d e sub) else none
      let part := fun i => (sliceR data (i * sub) sub).bind fun s => display fmt (e :: rest) s sub (depth + 1) width
      (collect (fun i => (part i).bind fun p => .ok ((if 0 < i then [sepTok depth] else []) ++ p)) (headIx d)).bind fun front =>
        (collect (fun i => (part i).bind fun p => .ok (sepTok depth :: p)) (tailIx d)).bind fun back =>
          .ok (.lit "[" :: (front ++ (if hasDots d then dotsToks depth else []) ++ back ++ [.lit "]"]))

/-- `impl Display for Tensor`, display.rs:387-409 and the other types, for a tensor with storage whose vector is of its own type. -/
def displayTensor (fmt : α → List Char) (t : Tensor α) : Res (List (Tok α)) :=
  display fmt t.dims t.toFlattenVec t.layout.size 0 none

/-- `debug_format_data`, display.rs:348-385. -/
def debugData (data : List α) (shape : List Nat) : List (Tok α) :=
  match (shape.isEmpty || shape.all (· == 1)), data with
  | true, v :: _ => [.cell v 0]
  | _, _ =>
    .lit "[" ::
      ((headIx data.length).flatMap (fun i => (if 0 < i then [Tok.lit ", "] else []) ++ cellAt data 0 i) ++
        (if hasDots data.length then [Tok.lit ", ... "] else []) ++
        (tailIx data.length).flatMap (fun i => Tok.lit ", " :: cellAt data 0 i) ++ [Tok.lit "]"])

/-- `trim_end_matches(c)`. -/
def trimEnd (c : Char) (s : List Char) : List Char := (s.reverse.dropWhile (· == c)).reverse

/-- `format_float` of a finite value that is not an integer, display.rs:33-39, given `format!("{val:.6}")`. -/
def trimFloat (formatted : List Char) : List Char :=
  let trimmed := trimEnd '.' (trimEnd '0' formatted)
  if trimmed.contains '.' then trimmed else trimmed ++ ['.']

/-- `format!("{:.6}")` of a value that is rounded to `r` millionths, the sign given on its own: an integer part, a point and six digits. -/
def fixed6 (neg : Bool) (r : Nat) : List Char :=
  (if neg then ['-'] else []) ++ Nat.toDigits 10 (r / 10 ^ 6) ++
    '.' :: (List.range 6).map fun k => Nat.digitChar (r / 10 ^ (5 - k) % 10)

end Hodu.Display
