import Verif.Model.CudaProg
import Verif.Model.Select

/-!
# Model of `unique` on CUDA

Device side: crates/hodu_cuda_kernels/kernels/ops_indexing.cu:657-882.  Launches:
crates/hodu_cuda_kernels/src/kernels/ops_indexing.rs:421-665.  Host:
crates/hodu_core/src/be_cuda/storage/ops_indexing.rs:695-962.

One memory holds all buffers of the operation; the launches follow each other (the host waits after each).
`less` and `eq` are `COMPARE_LESS` and `COMPARE_EQ` of the element type, `maxVal` its padding `MAX_VAL`.
Simplified: dtype dispatch and errors of the driver are left out.
-/

namespace Hodu.Cuda

/-- A cell of a buffer of elements, or of a buffer of `int32_t` or `uint32_t` (ops_indexing.cu:676, 789-791). -/
inductive Cell (α : Type) where
  | val (v : α)
  | int (n : Int)
  deriving DecidableEq, Repr

/-- The buffers of be_cuda/storage/ops_indexing.rs:733-826: `$input`. -/
abbrev bInput : Nat := 0
/-- `sorted_values`, 733. -/
abbrev bSorted : Nat := 1
/-- `sorted_indices`, 734. -/
abbrev bOrder : Nat := 2
/-- `count_buffer`, 769. -/
abbrev bCount : Nat := 3
/-- `marks`, 801. -/
abbrev bMarks : Nat := 4
/-- `unique_idx`, 806. -/
abbrev bUid : Nat := 5
/-- `values_buffer`, 811. -/
abbrev bValues : Nat := 6
/-- `inverse_buffer`, 812. -/
abbrev bInverse : Nat := 7
/-- `counts_buffer`, 813. -/
abbrev bCounts : Nat := 8

/-- `unique_sort`, ops_indexing.cu:682-692. -/
def uniqueSortProg (maxVal : α) (numEls offset : Nat) (tid : Nat) : Prog (Cell α) :=
  if tid < numEls then
    .load (bInput, offset + tid) fun v =>
    .store (bSorted, tid) v <|
    .store (bOrder, tid) (.int (castI32 tid)) .done
  else
    .store (bSorted, tid) (.val maxVal) <|
    .store (bOrder, tid) (.int (castI32 tid)) .done

/-- `unique_bitonic_step`, ops_indexing.cu:705-726. -/
def bitonicProg (less : α → α → Bool) (padded k j : Nat) (i : Nat) : Prog (Cell α) :=
  let ixj := i ^^^ j
  if i < ixj ∧ ixj < padded then
    .load (bSorted, i) fun ci =>
    .load (bSorted, ixj) fun cj =>
      match ci, cj with
      | .val vi, .val vj =>
        let l := less vi vj
        if (if i &&& k = 0 then !l else l) then
          .store (bSorted, i) cj <|
          .store (bSorted, ixj) ci <|
          .load (bOrder, i) fun ti =>
          .load (bOrder, ixj) fun tj =>
          .store (bOrder, i) tj <|
          .store (bOrder, ixj) ti .done
        else .done
      | _, _ => .ub
  else .done

/-- `atomicAdd(count, 1)` on `unsigned int`, ops_indexing.cu:738, and on `int32_t`, 810 (two's complement
wrap-around of the hardware; both below the wrap in what is proved). -/
def inc : Cell α → Cell α
  | .int n => .int (n + 1)
  | c => c

/-- `unique_count`, ops_indexing.cu:735-746. -/
def uniqueCountProg (eq : α → α → Bool) (tid : Nat) : Prog (Cell α) :=
  if tid = 0 then .atomic (bCount, 0) inc .done
  else
    .load (bSorted, tid) fun c =>
    .load (bSorted, tid - 1) fun p =>
      match c, p with
      | .val c, .val p => if eq c p then .done else .atomic (bCount, 0) inc .done
      | _, _ => .ub

/-- `unique_mark`, ops_indexing.cu:756-766. -/
def uniqueMarkProg (eq : α → α → Bool) (tid : Nat) : Prog (Cell α) :=
  if tid = 0 then .store (bMarks, tid) (.int 1) .done
  else
    .load (bSorted, tid) fun c =>
    .load (bSorted, tid - 1) fun p =>
      match c, p with
      | .val c, .val p => .store (bMarks, tid) (.int (if eq c p then 0 else 1)) .done
      | _, _ => .ub

/-- The loop of `unique_prefix_sum`, ops_indexing.cu:775-784, from index `i` on with `r` rounds left. -/
def prefixFrom : Nat → Nat → Int → Prog (Cell α)
  | 0, _, _ => .done
  | r + 1, i, sum =>
    .load (bMarks, i) fun
      | .int n =>
        if n ≠ 0 then .store (bUid, i) (.int sum) (prefixFrom r (i + 1) (sum + 1))
        else .store (bUid, i) (.int (sum - 1)) (prefixFrom r (i + 1) sum)
      | .val _ => .ub

/-- `unique_build`, ops_indexing.cu:796-811. -/
def uniqueBuildProg (tid : Nat) : Prog (Cell α) :=
  .load (bUid, tid) fun cu =>
  .load (bOrder, tid) fun co =>
    match cu, co with
    | .int uid, .int orig =>
      if uid < 0 ∨ orig < 0 then .ub
      else
        .store (bInverse, orig.toNat) (.int uid) <|
        .load (bMarks, tid) fun
          | .int mk =>
            let counts : Prog (Cell α) := .atomic (bCounts, uid.toNat) inc .done
            if mk ≠ 0 then .load (bSorted, tid) fun v => .store (bValues, uid.toNat) v counts
            else counts
          | .val _ => .ub
    | _, _ => .ub

/-- Launch of `unique_prefix_sum` with one thread, src/kernels/ops_indexing.rs:598-602 and
ops_indexing.cu:772-773. -/
def prefixKernel (numEls : Nat) : PKernel (Cell α) :=
  { threads := 1, start := fun _ => 0, next := fun i => i + 1, bound := 1, prog := fun _ => prefixFrom numEls 0 0 }

/-! ## Host -/

/-- `while j >= 1 { ...; j /= 2; }`, be_cuda/storage/ops_indexing.rs:751-764; `r` is the number of bits of `usize`. -/
def halves : Nat → Nat → List Nat
  | 0, _ => []
  | r + 1, j => if 1 ≤ j then j :: halves r (j / 2) else []

/-- `while k <= padded_size { ...; k *= 2; }`, be_cuda/storage/ops_indexing.rs:749-766. -/
def bitonicPairs (padded : Nat) : Nat → Nat → List (Nat × Nat)
  | 0, _ => []
  | r + 1, k => if k ≤ padded then (halves 64 (k / 2)).map (fun j => (k, j)) ++ bitonicPairs padded r (k * 2) else []

/-- The first of `p`, `2 * p`, ... that is at least `n` (for `next_power_of_two`, op_metadatas.rs:974). -/
def pow2From : Nat → Nat → Nat → Nat
  | 0, p, _ => p
  | r + 1, p, n => if n ≤ p then p else pow2From r (2 * p) n

/-- `usize::next_power_of_two`, op_metadatas.rs:974: the first power of two that is at least `n`. -/
def nextPow2 (n : Nat) : Nat := pow2From 64 1 n

/-- `alloc_zeros`, e.g. be_cuda/storage/ops_indexing.rs:733: a buffer `b` of `n` cells. -/
def Mem.alloc (m : Mem V) (b n : Nat) (v : V) : Mem V :=
  fun a => if a.1 = b then (if a.2 < n then some v else none) else m a

/-- A buffer with contents: the input, be_cuda/storage/ops_indexing.rs:739. -/
def Mem.ofBuf (b : Nat) (xs : List V) : Mem V := fun a => if a.1 = b then xs[a.2]? else none

/-- The position past the loop (for `PSt.allDone`, ops_indexing.cu:705-727). -/
def PPc.isDone : PPc V → Bool
  | .done => true
  | _ => false

/-- All threads have finished (what `synchronize` waits for, be_cuda/storage/ops_indexing.rs:745). -/
def PSt.allDone (s : PSt V) (threads : Nat) : Bool := (List.range threads).all fun t => (s.pc t).isDone

/-- Launch and `synchronize`, e.g. be_cuda/storage/ops_indexing.rs:736-745, with the interleaving `sched`;
`none` if it does not bring the kernel to its end. -/
def PKernel.launch (k : PKernel V) (m : Mem V) (sched : List Nat) : Res (Option (Mem V)) :=
  (k.exec m sched).bind fun s => .ok (if s.allDone k.threads then some s.mem else none)

/-- Launches one after the other, each with its interleaving, be_cuda/storage/ops_indexing.rs:748-766. -/
def runAll : List (PKernel V) → List (List Nat) → Mem V → Res (Option (Mem V))
  | [], _, m => .ok (some m)
  | k :: ks, scheds, m =>
    (k.launch m (scheds.headD [])).bind fun
      | none => .ok none
      | some m' => runAll ks scheds.tail m'

/-- The kernels up to the count, be_cuda/storage/ops_indexing.rs:736-778. -/
def uniqueKernels1 (less eq : α → α → Bool) (maxVal : α) (numEls offset padded : Nat) : List (PKernel (Cell α)) :=
  [progGrid64 padded (uniqueSortProg maxVal numEls offset)] ++
  (bitonicPairs padded 64 2).map (fun kj => progGrid64 padded (bitonicProg less padded kj.1 kj.2)) ++
  [progGrid64 numEls (uniqueCountProg eq)]

/-- The kernels after the count, be_cuda/storage/ops_indexing.rs:802-828. -/
def uniqueKernels2 (eq : α → α → Bool) (numEls : Nat) : List (PKernel (Cell α)) :=
  [progGrid64 numEls (uniqueMarkProg eq), prefixKernel numEls, progGrid64 numEls uniqueBuildProg]

/-- `call_unique`, be_cuda/storage/ops_indexing.rs:695-962: the number of distinct values and the memory with
`values_buffer`, `inverse_buffer` and `counts_buffer`; `none` if the interleavings `s1`, `s2` leave a
kernel unfinished. -/
def callUniqueCuda (less eq : α → α → Bool) (zero maxVal : α) (l : Layout) (input : List α)
    (s1 s2 : List (List Nat)) : Res (Option (Nat × Mem (Cell α))) :=
  let numEls := shapeSize l.dims
  if numEls = 0 then .ok (some (0, fun _ => none))
  else
    let padded := nextPow2 numEls
    let m := (((Mem.ofBuf bInput (input.map .val)).alloc bSorted padded (.val zero)).alloc bOrder padded
      (.int 0)).alloc bCount 1 (.int 0)
    (runAll (uniqueKernels1 less eq maxVal numEls l.offset padded) s1 m).bind fun
      | none => .ok none
      | some m =>
        match m (bCount, 0) with
        | some (.int c) =>
          let count := c.toNat
          if count = 0 then .ok (some (0, fun _ => none))
          else
            let m := (((((m.alloc bMarks numEls (.int 0)).alloc bUid numEls (.int 0)).alloc bValues count
              (.val zero)).alloc bInverse numEls (.int 0)).alloc bCounts count (.int 0))
            (runAll (uniqueKernels2 eq numEls) s2 m).bind fun
              | none => .ok none
              | some m => .ok (some (count, m))
        | _ => .ub

end Hodu.Cuda
