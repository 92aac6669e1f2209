import Verif.Model.Cuda
import Verif.Model.Indexing

/-!
# Model of the CUDA kernels that update cells atomically

Device side: crates/hodu_cuda_kernels/kernels/atomic.cuh and the scatter kernels of ops_indexing.cu.
Launch: crates/hodu_cuda_kernels/src/kernels/ops_indexing.rs:224-264.  Host:
crates/hodu_core/src/be_cuda/storage/ops_indexing.rs:330-448.

As in Model/Cuda an execution is a list of thread numbers, each entry one step.  A load, a store, an
`atomicCAS` and a native atomic each are one step.  Memory is a list of words; an allocation starts at a
multiple of four bytes and its last word is taken to be whole.
-/

namespace Hodu.Cuda

/-! ## Threads -/

/-- How a cell is updated: a native atomic or a plain store (one instruction), e.g. `atomicAdd`,
atomic.cuh:68, `out[...] = ...`, ops_indexing.cu:180; or a loop around `atomicCAS`, e.g. atomic.cuh:86-93. -/
inductive Way where
  | single
  | casLoop
  deriving DecidableEq, Repr

/-- A kernel whose thread `t` runs `for (i = start(t); i < bound; i = next(i))` and updates at most one
cell per index, ops_indexing.cu:199-228. -/
structure Rmw (W V : Type) where
  threads : Nat
  start : Nat → Nat
  next : Nat → Nat
  bound : Nat
  /-- cell and operand of an index; `none`: `continue` -/
  job : Nat → Res (Option (Nat × V))
  /-- the word a cell lies in -/
  word : Nat → Nat
  /-- the word with the cell updated -/
  upd : Nat → W → V → W
  way : Way

/-- Where a thread is: at the test of the loop, about to load the word (or to run the single instruction),
about to compare and swap with the word assumed, or past the loop (atomic.cuh:86-93). -/
inductive RPc (W V : Type) where
  | head (i : Nat)
  | load (i c : Nat) (v : V)
  | cas (i c : Nat) (v : V) (assumed : W)
  | done
  deriving DecidableEq

/-- Memory and position of every thread (ops_indexing.cu:199-228). -/
structure RSt (W V : Type) where
  mem : List W
  pc : Nat → RPc W V

/-- Thread `t` moves to `p` (a step of ops_indexing.cu:199-228). -/
def RSt.goto (s : RSt W V) (t : Nat) (p : RPc W V) : RSt W V := { s with pc := Function.update s.pc t p }

/-- One step of thread `t`: ops_indexing.cu:199-228 with the update of atomic.cuh.  `atomicCAS` returns the
word it found; if that is not the assumed one the loop starts over with it (atomic.cuh:88, 92-93). -/
def Rmw.step [DecidableEq W] (k : Rmw W V) (s : RSt W V) (t : Nat) : Res (RSt W V) :=
  match s.pc t with
  | .head i =>
    if i < k.bound then (k.job i).bind fun
      | none => .ok (s.goto t (.head (k.next i)))
      | some (c, v) => .ok (s.goto t (.load i c v))
    else .ok (s.goto t .done)
  | .load i c v =>
    (readC s.mem (k.word c)).bind fun w =>
      match k.way with
      | .single => .ok { (s.goto t (.head (k.next i))) with mem := s.mem.set (k.word c) (k.upd c w v) }
      | .casLoop => .ok (s.goto t (.cas i c v w))
  | .cas i c v assumed =>
    (readC s.mem (k.word c)).bind fun w =>
      if w = assumed then
        .ok { (s.goto t (.head (k.next i))) with mem := s.mem.set (k.word c) (k.upd c assumed v) }
      else .ok (s.goto t (.cas i c v w))
  | .done => .ok s

/-- Launch: every thread is at its first test (ops_indexing.cu:199). -/
def Rmw.init (k : Rmw W V) (mem : List W) : RSt W V :=
  { mem := mem, pc := fun t => if t < k.threads then .head (k.start t) else .done }

/-- An execution of ops_indexing.cu:199-228: the threads of `sched` take one step each, in that order. -/
def Rmw.exec [DecidableEq W] (k : Rmw W V) (mem : List W) (sched : List Nat) : Res (RSt W V) :=
  Res.foldL k.step (k.init mem) sched

/-- No thread is left in the loop of ops_indexing.cu:199-228. -/
def RSt.finished (s : RSt W V) : Prop := ∀ t, s.pc t = .done

/-- A grid-stride loop over `numEls` indices, launched with blocks of 256,
src/kernels/ops_indexing.rs:245-253. -/
def rmwGrid (numEls : Nat) (job : Nat → Res (Option (Nat × V))) (word : Nat → Nat) (upd : Nat → W → V → W)
    (way : Way) : Rmw W V :=
  { threads := 256 * gridSize numEls, start := threadStart, next := advance (gridSize numEls)
    bound := numEls, job := job, word := word, upd := upd, way := way }

/-! ## Cells smaller than a word -/

/-- A bit pattern of `b` bits placed at `shift` in a word of 32 bits: `(assumed & ~mask) | (new << shift)`
with `mask = (2 ^ b - 1) << shift`, atomic.cuh:84, 91 (`b = 8`), 99, 106 (`b = 16`). -/
def putLane (b shift : Nat) (w v : Nat) : Nat :=
  (w &&& ((2 ^ 32 - 1) ^^^ ((2 ^ b - 1) <<< shift))) ||| (v <<< shift)

/-- The bit pattern at `shift`: `(assumed >> shift) & (2 ^ b - 1)`, atomic.cuh:89, 104. -/
def getLane (b shift : Nat) (w : Nat) : Nat := (w >>> shift) &&& (2 ^ b - 1)

/-- The word of byte address `4 * q + r`: `base = addr & ~3`, atomic.cuh:81, 97, for cells of `size` bytes. -/
def laneWord (size c : Nat) : Nat := size * c / 4

/-- The shift of an 8-bit cell: `(addr & 3) * 8`, atomic.cuh:82-83. -/
def shift8 (c : Nat) : Nat := (c &&& 3) * 8

/-- The shift of a 16-bit cell: `(addr & 2) ? 16 : 0`, atomic.cuh:98. -/
def shift16 (c : Nat) : Nat := if (2 * c) &&& 2 ≠ 0 then 16 else 0

/-- `atomic_{add,max,min}_{i8,u8}`, atomic.cuh:80-94, 124-138, 245-259, 291-305, 419-433, 465-479: `op` on bit patterns of 8 bits. -/
def upd8 (op : Nat → Nat → Nat) (c : Nat) (w v : Nat) : Nat :=
  putLane 8 (shift8 c) w (op (getLane 8 (shift8 c) w) v)

/-- `atomic_{add,max,min}_{i16,u16,f16,bf16}`, atomic.cuh:38-66,
96-110, 140-154, 193-221, 261-275, 307-321, 367-395, 435-449, 481-495: `op` on bit patterns of 16
bits. -/
def upd16 (op : Nat → Nat → Nat) (c : Nat) (w v : Nat) : Nat :=
  putLane 16 (shift16 c) w (op (getLane 16 (shift16 c) w) v)

/-- `atomic_{add,max,min}_{f8e4m3,f8e5m2}`, atomic.cuh:8-36, 163-191, 337-365: the current value is read from the byte
`addr & 3`, but the 16 bits at `(addr & 2) ? 16 : 0` are replaced, by the new byte and the byte that lies
behind it on the stack (`*((uint16_t *)&updated)`), here `junk`. -/
def updF8 (op : Nat → Nat → Nat) (junk : Nat) (c : Nat) (w v : Nat) : Nat :=
  putLane 16 (if c &&& 2 ≠ 0 then 16 else 0) w (op (getLane 8 (shift8 c) w) v ||| (junk <<< 8))

/-- Addition on bit patterns of `b` bits, signed or not: `current + value`, converted back (atomic.cuh:90,
105, 134, 149). -/
def addBits (b x y : Nat) : Nat := (x + y) % 2 ^ b

/-- Signed value of a bit pattern (`int8_t`, `int16_t`, atomic.cuh:89, 104). -/
def signedBits (b x : Nat) : Int := if x < 2 ^ (b - 1) then x else (x : Int) - 2 ^ b

/-- `(current > value) ? current : value` on signed patterns, atomic.cuh:255, 270. -/
def maxSigned (b x y : Nat) : Nat := if signedBits b y < signedBits b x then x else y

/-- `(current > value) ? current : value` on unsigned patterns, atomic.cuh:301, 316. -/
def maxUnsigned (x y : Nat) : Nat := if y < x then x else y

/-- `(current < value) ? current : value` on signed patterns, atomic.cuh:429, 444. -/
def minSigned (b x y : Nat) : Nat := if signedBits b x < signedBits b y then x else y

/-- `(current < value) ? current : value` on unsigned patterns, atomic.cuh:475, 490. -/
def minUnsigned (x y : Nat) : Nat := if x < y then x else y

/-! ## Scatter -/

/-- What index `id` does in the scatter kernels, ops_indexing.cu:154-180 (the same in 201-227, 248-274, 295-321):
the local arrays have 16 entries, the cell is found with the strides and the offset of the input. -/
def scatterJob (m : ScatterMeta) (indices : List Int) (src : List V) (id : Nat) : Res (Option (Nat × V)) :=
  if 16 < m.shape.length then .ub
  else
    let idx := (cUnravel m.srcShape id).1
    (readC indices (cFlat m.ioffset idx m.istrides)).bind fun v =>
    (readC m.shape m.dim).bind fun n =>
    (wrapIndex v n).bind fun
      | none => .ok none
      | some j =>
        (readC src (cFlat m.soffset idx m.srcStrides)).bind fun x =>
          .ok (some (cFlat m.offset (idx.set m.dim j) m.strides, x))

/-- `hodu_cuda_scatter*_<type>`, ops_indexing.cu:137-324, launched by src/kernels/ops_indexing.rs:224-264.
The argument `input` is not read. -/
def scatterCuda (indices : List Int) (src : List V) (md : List Nat) (word : Nat → Nat) (upd : Nat → W → V → W)
    (way : Way) : Res (Rmw W V) :=
  (decodeScatter md).bind fun m => .ok (rmwGrid m.numEls (scatterJob m indices src) word upd way)

/-- `call_ops_scatter` of the CUDA storage, be_cuda/storage/ops_indexing.rs:330-448, for one element type:
the kernel is `hodu_cuda_scatter_<dtype>` for every op (379).  The output buffer it is run on has
`num_els` elements and is not initialised (399); the copy of the input (391-397) goes into an argument the
kernel does not read. -/
def callOpsScatterCuda (_op : ScatterOp) (l ix src : Layout) (dim : Nat) (indices : List Int) (vals : List V) :
    Res (Rmw V V) :=
  scatterCuda indices vals (scatterMetadata l ix src dim) (fun c => c) (fun _ _ x => x) .single

end Hodu.Cuda
