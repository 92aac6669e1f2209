import Verif.Model.Move

/-!
# Model of crates/hodu_datasets

The random generator is a parameter: `draw i` is the outcome of `rng.random_range(0..=i)`, of which only
`draw i ≤ i` is known.  For the data loader the generator is re-seeded every epoch, so it gets the seed too.
Items and batches are arbitrary types; the tensor dataset is the instance at the end.
-/

namespace Hodu

/-- `Vec::swap(i, j)`: panics outside the vector (used in sampler.rs:47, 62, dataloader.rs:195,
dataset.rs:146). -/
def swapR (l : List α) (i j : Nat) : Res (List α) :=
  (readR l i).bind fun a => (readR l j).bind fun b => .ok ((l.set i b).set j a)

/-- The Fisher-Yates loop `for i in (1..length).rev()`, sampler.rs:45-48, 60-63, dataloader.rs:193-196,
dataset.rs:144-147: `fuel = i` iterations are left, the next one is at position `i`. -/
def shuffleFrom (draw : Nat → Nat) : Nat → List α → Res (List α)
  | 0, l => .ok l
  | i + 1, l => (swapR l (i + 1) (draw (i + 1))).bind fun l' => shuffleFrom draw i l'

/-- The whole shuffle of a vector. -/
def shuffle (draw : Nat → Nat) (l : List α) : Res (List α) := shuffleFrom draw (l.length - 1) l

/-- `SequentialSampler::iter`, sampler.rs:22-24. -/
def sequentialSampler (n : Nat) : List Nat := List.range n

/-- `RandomSampler::new`, sampler.rs:36-51, and its `iter`. -/
def randomSampler (draw : Nat → Nat) (n : Nat) : Res (List Nat) := shuffle draw (List.range n)

/-- `RandomSampler::with_indices`, sampler.rs:53-66. -/
def randomSamplerWith (draw : Nat → Nat) (l : List Nat) : Res (List Nat) := shuffle draw l

/-- `slice::chunks(n)` for `n > 0`; `fuel` bounds the number of chunks. -/
def chunksFuel (n : Nat) : Nat → List α → List (List α)
  | 0, _ => []
  | fuel + 1, l => if l.isEmpty then [] else l.take n :: chunksFuel n fuel (l.drop n)

/-- The loop of `BatchSampler::batches`, sampler.rs:118-123: stops at the first short chunk with `drop_last`. -/
def keepBatches (size : Nat) (dropLast : Bool) : List (List α) → List (List α)
  | [] => []
  | c :: cs => if dropLast && decide (c.length < size) then [] else c :: keepBatches size dropLast cs

/-- `BatchSampler::batches`, sampler.rs:114-126; `chunks(0)` panics. -/
def batchSampler (indices : List Nat) (size : Nat) (dropLast : Bool) : Res (List (List Nat)) :=
  if size = 0 then .panic
  else .ok (keepBatches size dropLast (chunksFuel size indices.length indices))

/-! ## Data loader -/

/-- `DataLoader`, dataloader.rs:138-148, without the dataset and the collate function, which are arguments
of `next_batch`; `n` is `dataset.len()`.  `start_idx + batch_size` cannot overflow `usize`: a loader with
`0 < current_idx < n` has `batch_size < n`. -/
structure Loader where
  n : Nat
  batchSize : Nat
  shuffle : Bool
  dropLast : Bool
  indices : List Nat
  cur : Nat
  seed : Option Nat
  epoch : Nat
  deriving Repr, DecidableEq

/-- `shuffle_indices`, dataloader.rs:185-197.  `seed + epoch` is `u64` arithmetic: it panics on overflow
(debug build). -/
def Loader.shuffleIndices (rng : Nat → Nat → Nat) (l : Loader) : Res Loader :=
  let s := l.seed.getD 0 + l.epoch
  if 2 ^ 64 ≤ s then .panic
  else (Hodu.shuffle (rng s) l.indices).bind fun ix => .ok { l with indices := ix }

/-- `new_with_config`, dataloader.rs:155-183. -/
def Loader.new (rng : Nat → Nat → Nat) (n batchSize : Nat) (shuffle dropLast : Bool) (seed : Option Nat) :
    Res Loader :=
  let l : Loader := ⟨n, batchSize, shuffle, dropLast, List.range n, 0, seed, 0⟩
  if shuffle then l.shuffleIndices rng else .ok l

/-- `num_batches`, dataloader.rs:207-214; division by zero panics. -/
def Loader.numBatches (l : Loader) : Res Nat :=
  if l.batchSize = 0 then .panic
  else if l.dropLast then .ok (l.n / l.batchSize)
  else .ok ((l.n + l.batchSize - 1) / l.batchSize)

/-- `reset`, dataloader.rs:216-222 (`epoch += 1` is `u64` arithmetic). -/
def Loader.reset (rng : Nat → Nat → Nat) (l : Loader) : Res Loader :=
  if 2 ^ 64 ≤ l.epoch + 1 then .panic
  else
    let l := { l with cur := 0, epoch := l.epoch + 1 }
    if l.shuffle then l.shuffleIndices rng else .ok l

/-- `has_next`, dataloader.rs:224-235. -/
def Loader.hasNext (l : Loader) : Bool :=
  if l.n ≤ l.cur then false
  else if l.dropLast then decide (l.batchSize ≤ l.n - l.cur) else true

/-- The slice `&self.indices[start_idx..end_idx]`, dataloader.rs:242-245; panics if out of range. -/
def Loader.batchIndices (l : Loader) : Res (List Nat) :=
  let stop := min (l.cur + l.batchSize) l.n
  if l.indices.length < stop then .panic else .ok ((l.indices.take stop).drop l.cur)

/-- `next_batch`, dataloader.rs:237-256: the result and the loader afterwards.  The position moves only after
all items were fetched. -/
def Loader.nextBatch (get : Nat → Res ι) (collate : List ι → Res β) (l : Loader) : Res (Option β) × Loader :=
  if l.hasNext = false then (.ok none, l)
  else match l.batchIndices with
    | .ok ix =>
      match Res.mapL get ix with
      | .ok items => ((collate items).map some, { l with cur := min (l.cur + l.batchSize) l.n })
      | .err => (.err, l)
      | .panic => (.panic, l)
      | .ub => (.ub, l)
    | .err => (.err, l)
    | .panic => (.panic, l)
    | .ub => (.ub, l)

/-- `for batch in loader.iter_batches()`, dataloader.rs:258-277: batches until `None` (at most `fuel`),
stopping at the first failure. -/
def Loader.run (get : Nat → Res ι) (collate : List ι → Res β) : Nat → Loader → Res (List β × Loader)
  | 0, l => .ok ([], l)
  | fuel + 1, l =>
    match l.nextBatch get collate with
    | (.ok none, l') => .ok ([], l')
    | (.ok (some b), l') => (Loader.run get collate fuel l').bind fun r => .ok (b :: r.1, r.2)
    | (.err, _) => .err
    | (.panic, _) => .panic
    | (.ub, _) => .ub

/-! ## Datasets -/

/-- `Subset::get`, dataset.rs:69-78. -/
def subsetGet (get : Nat → Res ι) (indices : List Nat) (i : Nat) : Res ι :=
  match indices[i]? with
  | some j => get j
  | none => .err

/-- `cumulative_sizes`, dataset.rs:88-99. -/
def cumulativeSizes (total : Nat) : List Nat → List Nat
  | [] => []
  | n :: ns => (total + n) :: cumulativeSizes (total + n) ns

/-- The search loop of `ConcatDataset::get`, dataset.rs:114-125; `unreachable!()` panics. -/
def concatFindData (get : Nat → Nat → Res ι) (cum : List Nat) (index : Nat) : Nat → List Nat → Res ι
  | _, [] => .panic
  | i, c :: cs =>
    if index < c then
      (if i = 0 then .ok index
       else (readR cum (i - 1)).bind fun p => if p ≤ index then .ok (index - p) else .panic).bind fun j => get i j
    else concatFindData get cum index (i + 1) cs

/-- `ConcatDataset::get`, dataset.rs:101-126, over member lengths `lens`; `get i j` is item `j` of member `i`. -/
def concatDatasetGet (get : Nat → Nat → Res ι) (lens : List Nat) (index : Nat) : Res ι :=
  let cum := cumulativeSizes 0 lens
  if cum.getLast?.getD 0 ≤ index then .err
  else concatFindData get cum index 0 cum

/-- Rounding a natural number to 24 significant bits, ties to even: the result of an `f32` operation
whose exact value is `x` times a power of two (no overflow, no subnormals). -/
def round24 (x : Nat) : Nat :=
  if x < 2 ^ 24 then x
  else
    let k := Nat.log2 x - 23
    let q := x / 2 ^ k
    let r := x % 2 ^ k
    if 2 * r < 2 ^ k ∨ (2 * r = 2 ^ k ∧ q % 2 = 0) then q * 2 ^ k else (q + 1) * 2 ^ k

/-- `(total_len as f32 * train_size) as usize`, dataset.rs:137, for `train_size = m / 2^k`, `m < 2^24`. -/
def trainLen (n m k : Nat) : Nat := round24 (round24 n * m) / 2 ^ k

/-- `random_split`, dataset.rs:129-156, after `train_len` was computed: the two index vectors.  Slicing
beyond the vector panics. -/
def randomSplitAt (draw : Nat → Nat) (n train : Nat) : Res (List Nat × List Nat) :=
  (Hodu.shuffle draw (List.range n)).bind fun ix =>
    if ix.length < train then .panic else .ok (ix.take train, ix.drop train)

/-- `random_split` with `train_size = m / 2^k`, dataset.rs:129-156. -/
def randomSplit (draw : Nat → Nat) (n m k : Nat) : Res (List Nat × List Nat) :=
  randomSplitAt draw n (trainLen n m k)

/-- `TensorDataset::get` for a dataset without labels, dataset.rs:37-50: `slice(0, i, i+1, 1)` and
`squeeze([0])`. -/
def tensorDatasetGet (data : Tensor α) (i : Nat) : Res (Tensor α) :=
  (data.slice 0 i (some (i + 1 : Nat)) 1).bind fun s => s.squeeze [0]

/-- `default_collate` for single tensors, dataloader.rs:8-28. -/
def defaultCollate (items : List (Tensor α)) : Res (Tensor α) :=
  if items.isEmpty then .err else Tensor.stack items 0

end Hodu
