import Verif.Model.Conv
import Verif.Model.Reduce
import Verif.Model.Window
import Mathlib.Data.Rat.Floor

/-!
# Model of the pooling layers

crates/hodu_nn/src/modules/pooling.rs.  The variants for 1, 2 and 3 spatial dimensions are the same text up to the
number of dimensions; each family is modelled once.

Left out: gradient bookkeeping, the element type (C74 says which types have the kernels), `output_ratio` of the
fractional pooling (781-789, 872-883), which only computes the output sizes.
-/

namespace Hodu

/-- `forward` of `AvgPool1D`, `2D`, `3D` and `MaxPool1D`, `2D`, `3D`, modules/pooling.rs:273-290, 313-335, 358-381,
404-422, 445-467, 490-513: `sp` spatial dimensions, `window` is `reduce_window` with the name of the reduction. -/
def Tensor.pool (window : Tensor α → List Nat → List Nat → List (Nat × Nat) → Res (Tensor β))
    (sp kernel stride padding : Nat) (t : Tensor α) : Res (Tensor β) :=
  if t.dims.length ≠ sp + 2 then .err
  else
    window t (1 :: 1 :: List.replicate sp kernel) (1 :: 1 :: List.replicate sp stride)
      ((0, 0) :: (0, 0) :: List.replicate sp (padding, padding))

/-- Stride and kernel size of an adaptive pooling, modules/pooling.rs:28-29, 155-156.  `output_size - 1`
underflows for 0.  Simplification: `(input as f64 / output as f64).floor()` is the exact quotient (it is for sizes below
`2 ^ 53`). -/
def adaptiveStep (len out : Nat) : Res (Nat × Nat) :=
  if out = 0 then .panic else .ok (len / out, len - (out - 1) * (len / out))

/-- The same for all spatial dimensions, modules/pooling.rs:68-71, 111-116, 195-198, 238-243. -/
def adaptiveSteps : List Nat → List Nat → Res (List (Nat × Nat))
  | d :: ds, o :: os => (adaptiveStep d o).bind fun p => (adaptiveSteps ds os).bind fun ps => .ok (p :: ps)
  | _, _ => .ok []

/-- `forward` of `AdaptiveAvgPool1D`, `2D`, `3D` and `AdaptiveMaxPool1D`, `2D`, `3D`, modules/pooling.rs:14-36, 53-78,
95-123, 140-163, 180-205, 222-250. -/
def Tensor.adaptivePool (window : Tensor α → List Nat → List Nat → List (Nat × Nat) → Res (Tensor β))
    (outs : List Nat) (t : Tensor α) : Res (Tensor β) :=
  if t.dims.length ≠ outs.length + 2 then .err
  else
    (adaptiveSteps (t.dims.drop 2) outs).bind fun ps =>
      window t (1 :: 1 :: ps.map Prod.snd) (1 :: 1 :: ps.map Prod.fst)
        (List.replicate (outs.length + 2) (0, 0))

/-- `forward` of `GlobalAvgPool1D`, `2D`, `3D` and `GlobalMaxPool1D`, `2D`, `3D`, modules/pooling.rs:535-545, 569-579,
603-613, 641-651, 675-685, 709-719. -/
def Tensor.globalPool (red : Tensor α → List Int → Bool → Res (Tensor β)) (sp : Nat) (t : Tensor α) :
    Res (Tensor β) :=
  if t.dims.length ≠ sp + 2 then .err else red t ((List.range sp).map fun (i : Nat) => (i : Int) + 2) true

/-- `f64::round` of a number that is not negative: to the nearest integer, halves away from 0.
Used in modules/pooling.rs:941. -/
def roundAway (x : ℚ) : Nat := ⌊x + 1 / 2⌋₊

/-- `generate_fractional_sequence`, modules/pooling.rs:936-951; `fl` rounds an exact result to `f64`. -/
def fracSeq (fl : ℚ → ℚ) (inp out : Nat) : List Nat :=
  let alpha := fl ((inp : ℚ) / out)
  ((List.range (out + 1)).map fun (i : Nat) => min (roundAway (fl (alpha * i))) inp).set out inp

/-- The chain of `slice` calls, modules/pooling.rs:809-813, 908-913, from dimension `k` on. -/
def sliceAll : Nat → List (Nat × Nat) → Tensor α → Res (Tensor α)
  | _, [], t => .ok t
  | k, (a, b) :: rest, t => (t.slice k a (some b) 1).bind (sliceAll (k + 1) rest)

/-- `h_sequence[i]`, `h_sequence[i + 1]` and so on, modules/pooling.rs:801-806, 897-906 (the sequences have an entry more
than the loops have steps). -/
def regionAt : List (List Nat) → List Nat → List (Nat × Nat)
  | s :: ss, i :: is => (s.getD i 0, s.getD (i + 1) 0) :: regionAt ss is
  | _, _ => []

/-- `forward` of `FractionalMaxPool2D` and `FractionalMaxPool3D` with `output_size`, modules/pooling.rs:767-826, 857-926;
`comb` is the accumulation of the reduction (`max`). -/
def Tensor.fractionalPool (fl : ℚ → ℚ) (comb : List α → β) (outs : List Nat) (t : Tensor α) : Res (Tensor β) :=
  if t.dims.length ≠ outs.length + 2 then .err
  else
    let seqs := List.zipWith (fracSeq fl) (t.dims.drop 2) outs
    let shape := t.dims.take 2 ++ outs
    (Res.mapL (fun idx =>
      (sliceAll 0 ((idx.take 2).map (fun b => (b, b + 1)) ++ regionAt seqs (idx.drop 2)) t).bind fun region =>
        region.reduce comb ((List.range t.dims.length).map fun (i : Nat) => (i : Int)) false) (loops shape)).bind fun rs =>
      (Tensor.stack rs 0).bind fun s => s.reshape shape

end Hodu
