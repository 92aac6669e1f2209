import Verif.Model.Tensor
import Verif.Model.Matmul

/-!
# Model of einsum

Models crates/hodu_core/src/einsum.rs (`ParsedEinsum`), `einsum_metadata`
(crates/hodu_core/src/op_metadatas.rs:1502-1566), the CPU kernel
(crates/hodu_cpu_kernels/kernels/ops_einsum.c) and `Tensor::einsum`
(crates/hodu_core/src/tensor/ops/einsum.rs).

A `&str` is its list of characters.  A `HashMap<char, usize>` is an association list without repeated
keys; only look-ups and the sorted list of its keys are used by the code.
-/

namespace Hodu

/-- Put a character in front of the first part. -/
def consHead (c : Char) : List (List Char) → List (List Char)
  | [] => [[c]]
  | p :: ps => (c :: p) :: ps

/-- `str::split(sep)` for a one-character separator, as used in einsum.rs:30. -/
def splitChar (sep : Char) : List Char → List (List Char)
  | [] => [[]]
  | c :: cs => if c = sep then [] :: splitChar sep cs else consHead c (splitChar sep cs)

/-- `str::split("->")`, einsum.rs:19: non-overlapping occurrences from the left. -/
def splitArrow : List Char → List (List Char)
  | [] => [[]]
  | [c] => [[c]]
  | c :: c' :: cs =>
    if c = '-' ∧ c' = '>' then [] :: splitArrow cs else consHead c (splitArrow (c' :: cs))

/-- `ParsedEinsum`, einsum.rs:5-12. -/
structure ParsedEinsum where
  inputs : List (List Char)
  output : List Char
  contraction : List Char
  all : List Char
  sizes : List (Char × Nat)
  deriving Repr, DecidableEq

/-- The loop filling `index_sizes`, einsum.rs:50-66, over the pairs (label, size) in order. -/
def einsumSizes (m : List (Char × Nat)) : List (Char × Nat) → Res (List (Char × Nat))
  | [] => .ok m
  | (c, d) :: rest =>
    match m.lookup c with
    | some e => if e ≠ d then .err else einsumSizes m rest
    | none => einsumSizes (m ++ [(c, d)]) rest

/-- Insertion into a sorted list. Part of the model of `sort`, einsum.rs:69. -/
def insertChar (c : Char) : List Char → List Char
  | [] => [c]
  | d :: ds => if c ≤ d then c :: d :: ds else d :: insertChar c ds

/-- `all_indices.sort()`, einsum.rs:69 (the keys are distinct, so every sorting algorithm gives the same
list). -/
def sortChars (l : List Char) : List Char := l.foldr insertChar []

/-- The rank check, einsum.rs:40-48. -/
def einsumRanks : List (List Char) → List (List Nat) → Bool
  | s :: ss, d :: ds => s.length = d.length && einsumRanks ss ds
  | _, _ => true

/-- The pairs visited by einsum.rs:51-54: every label with the size of its dimension. -/
def einsumPairs (ins : List (List Char)) (shapes : List (List Nat)) : List (Char × Nat) :=
  (ins.zip shapes).flatMap fun p => p.1.zip p.2

/-- The operand part and the output part, einsum.rs:18-28. -/
def einsumSplit (equation : List Char) : Res (List Char × Option (List Char)) :=
  match splitArrow equation with
  | [a] => .ok (a, none)
  | [a, b] => .ok (a, some b)
  | _ => .err

/-- The output labels, einsum.rs:78-86. `index_counts` (71-76) is the number of occurrences in the
operands. -/
def einsumOutput (ins : List (List Char)) (all : List Char) : Option (List Char) → List Char
  | some o => o
  | none => all.filter fun c => ins.flatten.count c = 1

/-- `ParsedEinsum::parse`, einsum.rs:15-109. -/
def ParsedEinsum.parse (equation : List Char) (shapes : List (List Nat)) : Res ParsedEinsum :=
  (einsumSplit (equation.filter (· ≠ ' '))).bind fun io =>
  let ins := splitChar ',' io.1
  if ins.length ≠ shapes.length then .err
  else if einsumRanks ins shapes = false then .err
  else (einsumSizes [] (einsumPairs ins shapes)).bind fun sizes =>
    let all := sortChars (sizes.map Prod.fst)
    let output := einsumOutput ins all io.2
    if output.any (fun c => (sizes.lookup c).isNone) then .err
    else .ok ⟨ins, output, all.filter (fun c => !output.contains c), all, sizes⟩

/-- `self.index_sizes[c]`: panics without an entry (einsum.rs:112, 159). -/
def ParsedEinsum.size (p : ParsedEinsum) (c : Char) : Res Nat :=
  match p.sizes.lookup c with
  | some n => .ok n
  | none => .panic

/-- `compute_output_shape`, einsum.rs:111-114. -/
def ParsedEinsum.outputShape (p : ParsedEinsum) : Res (List Nat) := Res.mapL p.size p.output

/-- `self.all_indices.iter().position(|a| a == c).unwrap()`, einsum.rs:143, 150, 157. -/
def ParsedEinsum.id (p : ParsedEinsum) (c : Char) : Res Nat :=
  if p.all.idxOf c < p.all.length then .ok (p.all.idxOf c) else .panic

/-- `get_dim_to_index_map`, einsum.rs:139-144. -/
def ParsedEinsum.dimToIndex (p : ParsedEinsum) (i : Nat) : Res (List Nat) :=
  (readR p.inputs i).bind fun subs => Res.mapL p.id subs

/-- The per-input sections of `einsum_metadata`, op_metadatas.rs:1529-1553, from input `i` on. -/
def einsumSections (p : ParsedEinsum) : Nat → List Layout → Res (List Nat)
  | _, [] => .ok []
  | i, l :: ls =>
    (p.dimToIndex i).bind fun m =>
    (einsumSections p (i + 1) ls).bind fun rest =>
    .ok (l.dims.length :: (l.dims ++ (l.strides ++ (l.offset :: (m ++ rest)))))

/-- `einsum_metadata`, op_metadatas.rs:1502-1566. -/
def einsumMetadata (p : ParsedEinsum) (layouts : List Layout) (out : List Nat) : Res (List Nat) :=
  (einsumSections p 0 layouts).bind fun secs =>
  (Res.mapL p.id p.contraction).bind fun cids =>
  (Res.mapL p.size p.all).bind fun sizes =>
  (Res.mapL p.id p.output).bind fun oids =>
  .ok (max (shapeSize out) 1 :: layouts.length :: p.all.length :: p.contraction.length :: out.length ::
    (out ++ (secs ++ (cids ++ (sizes ++ oids)))))

/-- One entry of `meta.inputs`, ops_einsum.c:15-21. -/
structure EinsumInput where
  strides : List Nat
  offset : Nat
  dimToIndex : List Nat
  deriving Repr, DecidableEq

/-- `EinsumMeta`, ops_einsum.c:8-25. -/
structure EinsumMeta where
  numOut : Nat
  outShape : List Nat
  inputs : List EinsumInput
  contractionIds : List Nat
  sizes : List Nat
  outIds : List Nat
  deriving Repr, DecidableEq

/-- Copying `n` entries into an array of 16 (`MAX_DIMS`, `MAX_INDICES`, ops_einsum.c:5-6). -/
def slice16 (md : List Nat) (pos n : Nat) : Res (List Nat) := if 16 < n then .ub else sliceC md pos n

/-- The input loop of `parse_metadata`, ops_einsum.c:40-57; returns the position after it. -/
def einsumReadInputs (md : List Nat) : Nat → Nat → Res (List EinsumInput × Nat)
  | 0, pos => .ok ([], pos)
  | n + 1, pos =>
    (readC md pos).bind fun nd =>
    (slice16 md (pos + 1) nd).bind fun _ =>
    (slice16 md (pos + 1 + nd) nd).bind fun strides =>
    (readC md (pos + 1 + nd + nd)).bind fun offset =>
    (slice16 md (pos + 1 + nd + nd + 1) nd).bind fun map =>
    (einsumReadInputs md n (pos + 1 + nd + nd + 1 + nd)).bind fun r =>
    .ok (⟨strides, offset, map⟩ :: r.1, r.2)

/-- `parse_metadata`, ops_einsum.c:27-70; more than 4 inputs overrun `inputs[MAX_INPUTS]`. -/
def einsumParse (md : List Nat) : Res EinsumMeta :=
  (readC md 0).bind fun numOut =>
  (readC md 1).bind fun numInputs =>
  (readC md 2).bind fun numTotal =>
  (readC md 3).bind fun numContr =>
  (readC md 4).bind fun outNd =>
  (slice16 md 5 outNd).bind fun outShape =>
  if 4 < numInputs then .ub
  else (einsumReadInputs md numInputs (5 + outNd)).bind fun r =>
    (slice16 md r.2 numContr).bind fun cids =>
    (slice16 md (r.2 + numContr) numTotal).bind fun sizes =>
    (slice16 md (r.2 + numContr + numTotal) outNd).bind fun oids =>
    .ok ⟨numOut, outShape, r.1, cids, sizes, oids⟩

/-- The decomposition loops ops_einsum.c:87-92 and 97-103 over (size, index id), last entry first:
`vals[id] = tmp % size; tmp /= size`.  A zero size divides by zero. -/
def einsumCoords (vals : List Nat) : List (Nat × Nat) → Nat → Res (List Nat × Nat)
  | [], tmp => .ok (vals, tmp)
  | (sz, id) :: rest, tmp =>
    (einsumCoords vals rest tmp).bind fun r =>
    if sz = 0 then .ub
    else if id < r.1.length then .ok (r.1.set id (r.2 % sz), r.2 / sz) else .ub

/-- The flat index of one input, ops_einsum.c:108-112. -/
def einsumFlat (vals : List Nat) : List Nat → List Nat → Nat → Res Nat
  | id :: ids, s :: ss, acc =>
    (readC vals id).bind fun v => einsumFlat vals ids ss (acc + v * s)
  | _, _, acc => .ok acc

/-- The product over the inputs, ops_einsum.c:105-114 (`ld` is the conversion of the half-precision
variants, 139-180). -/
def einsumProduct (ld : α → A) (mul : A → A → A) (bufs : List (List α)) (vals : List Nat) :
    A → Nat → List EinsumInput → Res A
  | acc, _, [] => .ok acc
  | acc, i, m :: ms =>
    (readC bufs i).bind fun buf =>
    (einsumFlat vals m.dimToIndex m.strides 0).bind fun at_ =>
    (readC buf (m.offset + at_)).bind fun x =>
    einsumProduct ld mul bufs vals (mul acc (ld x)) (i + 1) ms

/-- `hodu_cpu_einsum_*`, ops_einsum.c:72-119 and 132-180, into an output buffer of `outLen` cells. -/
def einsumKernel (zero one : A) (add mul : A → A → A) (ld : α → A) (st : A → β)
    (bufs : List (List α)) (outLen : Nat) (md : List Nat) : Res (List β) :=
  (einsumParse md).bind fun m =>
  (Res.mapL (readC m.sizes) m.contractionIds).bind fun csizes =>
  let nc := csizes.foldl (· * ·) 1
  if outLen < m.numOut then .ub
  else runLoop m.numOut fun outIdx =>
    (einsumCoords (List.replicate 16 0) (m.outShape.zip m.outIds) outIdx).bind fun r =>
    (Res.foldL (fun s cIdx =>
        (einsumCoords s.1 (csizes.zip m.contractionIds) cIdx).bind fun v =>
        (einsumProduct ld mul bufs v.1 one 0 m.inputs).bind fun p => .ok (v.1, add s.2 p))
      ((r.1, zero) : List Nat × A) (List.range nc)).bind fun s => .ok (st s.2)

/-- `call_ops_einsum`, be_cpu/storage/ops_einsum.rs:10-74. -/
def callEinsum (zero one : A) (add mul : A → A → A) (ld : α → A) (st : A → β)
    (bufs : List (List α)) (layouts : List Layout) (p : ParsedEinsum) : Res (Tensor β) :=
  p.outputShape.bind fun out =>
  (einsumMetadata p layouts out).bind fun md =>
  (einsumKernel zero one add mul ld st bufs (shapeSize out) md).bind fun zs =>
  .ok ⟨zs, Layout.fromShape out⟩

/-- `Tensor::einsum`, tensor/ops/einsum.rs:42-136 (eager branch): the layouts handed to the backend are
those of the operands *after the first* (104, 109-124). -/
def Tensor.einsum (zero one : A) (add mul : A → A → A) (ld : α → A) (st : A → β)
    (equation : List Char) (ts : List (Tensor α)) : Res (Tensor β) :=
  if ts.length = 0 then .err
  else if 4 < ts.length then .err
  else (ParsedEinsum.parse equation (ts.map (·.dims))).bind fun p =>
    callEinsum zero one add mul ld st (ts.map (·.storage)) ((ts.drop 1).map (·.layout)) p

end Hodu
