import Verif.Basic

/-!
# Command buffers and pooled buffers of the Metal back end

A Metal operation does not run when it is called: it is appended to a command buffer of the calling
thread, which is committed to the one queue of the device later (when it is full, or when a tensor is
read back).  Output buffers come from a pool, which hands out every buffer no tensor holds any more,
also when commands that were not executed yet still read it.  This file models that machinery as a
transition system with three kinds of steps: a call made by a thread, a step of the GPU, and the end
of a wait.  `/repo/crates/hodu_core/src/be_metal/device.rs`,
`/repo/crates/hodu_core/src/be_metal/storage.rs`,
`/repo/crates/hodu_metal_kernels/src/metal/commands.rs`.

Simplifications.  The contents of a buffer are one value `V`; a kernel is a function of the contents of
its inputs.  A call (allocation, fetching the command buffer, encoding) is one step; only waiting is
separate, and a GPU step between the parts of a call commutes with them.  The GPU runs committed command
buffers one after the other in the order in which their places were reserved by `enqueue` or `commit`
(Metal's contract for one queue, with the hazard tracking that `StorageModeShared` buffers have by
default, lib.rs:13-14).  Buffers are numbered in the order of their creation and a number is never used
twice, also when `drop_unused_buffers` (device.rs:71-82) lets go of them: a command buffer retains the
buffers of its commands, so the memory is not reused before they were executed.  `Tensor` handles are
names; binding a name again leaves the old storage alive, as shadowing does.
-/

namespace Hodu.Metal

/-- `usize::next_power_of_two` (no overflow): the least power of two that is not below `n`, 1 for 0. -/
def nextPow2 (n : Nat) : Nat := if n ≤ 1 then 1 else 2 ^ (Nat.log2 (n - 1) + 1)

/-- `buf_size`.  `/repo/crates/hodu_core/src/be_metal/device.rs:167-169`. -/
def bufSize (size : Nat) : Nat := nextPow2 (size - 1)

/-- The two loops of `find_available_buffer` over one entry of the map: the last free buffer of the
entry.  `free b` is `Arc::strong_count(b) == 1`.  `/repo/crates/hodu_core/src/be_metal/device.rs:175-183`. -/
def lastFree (free : Nat → Bool) (bs : List Nat) : Option Nat :=
  bs.foldl (fun acc b => if free b then some b else acc) none

/-- `find_available_buffer`; the pool lists the entries of the `HashMap` in the order of its iterator,
`best` is the pair of the buffer and its size (`usize::MAX` at the start is `none`).
`/repo/crates/hodu_core/src/be_metal/device.rs:171-186`. -/
def findBest (size : Nat) (free : Nat → Bool) (pool : List (Nat × List Nat)) : Option (Nat × Nat) :=
  pool.foldl (fun best e =>
    if size ≤ e.1 ∧ (∀ q, best = some q → e.1 < q.2) then
      match lastFree free e.2 with
      | some b => some (b, e.1)
      | none => best
    else best) none

/-- `buffers.entry(size).or_insert(vec![]).push(b)`.
`/repo/crates/hodu_core/src/be_metal/device.rs:117-121`, `158-163`. -/
def pushPool (size b : Nat) : List (Nat × List Nat) → List (Nat × List Nat)
  | [] => [(size, [b])]
  | e :: es => if e.1 = size then (e.1, e.2 ++ [b]) :: es else e :: pushPool size b es

/-- `MTLCommandBufferStatus`, without errors; `scheduled` is part of `committed`.
`/repo/crates/hodu_metal_kernels/src/metal/commands.rs:102-119`. -/
inductive Status where
  | notEnqueued
  | enqueued
  | committed
  | completed
deriving DecidableEq, Repr

/-- One encoder: a kernel with the buffers it reads and the buffer it writes.
`/repo/crates/hodu_metal_kernels/src/kernels/ops_unary.rs:263-289`. -/
structure Cmd (V : Type) where
  srcs : List Nat
  dst : Nat
  f : List V → V

/-- `CommandBuffer`.  `/repo/crates/hodu_metal_kernels/src/metal/command_buffer.rs:7-10`. -/
structure CB (V : Type) where
  status : Status
  cmds : List (Cmd V)

/-- A `MetalStorage` held by a tensor: its buffer, `count`, and the size of the element type.
`/repo/crates/hodu_core/src/be_metal/storage.rs:36-41`. -/
structure Handle where
  name : Nat
  buf : Nat
  count : Nat
  esz : Nat
deriving DecidableEq, Repr

/-- A thread inside a wait: the command buffer it waits for, whether it holds the lock of `commands`
(device.rs:93-97: it does in `wait_until_completed` of the device, it does not when an operation waits
for its own command buffer), and the buffer that is read afterwards. -/
structure Wait where
  tid : Nat
  cb : Nat
  locked : Bool
  tmp : Option Nat
deriving DecidableEq, Repr

/-- The device: buffers, pool, handles, command buffers, the queue of those that have a place and are not
completed, and the values read so far.
`/repo/crates/hodu_core/src/be_metal/device.rs:26-33`,
`/repo/crates/hodu_metal_kernels/src/metal/commands.rs:14-34`. -/
structure State (V : Type) where
  mem : Nat → V
  cap : Nat → Nat
  next : Nat
  pool : List (Nat × List Nat)
  live : List Handle
  cbs : Nat → CB V
  ncb : Nat
  cur : Nat → Option Nat
  idx : Nat
  queue : List Nat
  waits : List Wait
  out : List V

/-- Update of a function at one point (assignment to memory or to a map entry). -/
def upd {α : Type} (f : Nat → α) (i : Nat) (a : α) : Nat → α := fun j => if j = i then a else f j

/-- Calls a thread makes.  `upload` is `from_cpu_storage` (storage.rs:91-121), `op` is an operation that
encodes one kernel (ops_unary.rs, ops_binary.rs, …), `opSync` one that also commits and waits
(ops_shape_memory.rs:31-32, ops_scan.rs:31-32, ops_sort.rs:46-47, ops_einsum.rs:47-48,
ops_resize.rs:68-69, ops_indexing.rs), `set` is `const_set` (storage.rs:166-227), `read` is `to_cpu`
(storage.rs:76-89), `clone` and `drop` those of `MetalStorage`. -/
inductive Instr (V : Type) where
  | upload (h : Nat) (v : V) (n esz : Nat)
  | op (h : Nat) (srcs : List Nat) (f : List V → V) (n esz : Nat)
  | opSync (h : Nat) (srcs : List Nat) (f : List V → V) (n esz : Nat)
  | set (h : Nat) (f : List V → V)
  | clone (h h' : Nat)
  | drop (h : Nat)
  | read (h : Nat)

/-- Steps: a call of thread `t`, a step of the GPU, the end of thread `t`'s wait. -/
inductive Event (V : Type) where
  | host (t : Nat) (i : Instr V)
  | gpu
  | resume (t : Nat)

/-- Outcome of a step: the next state, `blocked` when the step is not possible now (the thread waits, the
lock is held, the GPU has nothing to run, a name is not bound), `fault` when a contract is broken (a
command encoded into or a commit of a committed command buffer, a kernel writing past its buffer, a
panic). -/
inductive Out (V : Type) where
  | next (s : State V)
  | blocked
  | fault

/-- Sequencing of outcomes. -/
def Out.bind {V : Type} (o : Out V) (f : State V → Out V) : Out V :=
  match o with
  | .next s => f s
  | .blocked => .blocked
  | .fault => .fault

variable {V : Type}

/-- `Arc::strong_count(b) == 1`: no storage and no pending read back holds the buffer. -/
def State.free (s : State V) (b : Nat) : Bool :=
  s.live.all (fun h => h.buf != b) && s.waits.all (fun w => w.tmp != some b)

/-- `MetalStorage` of a name. -/
def State.find (s : State V) (h : Nat) : Option Handle := s.live.find? (fun e => e.name == h)

/-- `allocate_buffer`: a free buffer of the pool that is large enough, else a new one of `buf_size` bytes
with whatever contents.  `/repo/crates/hodu_core/src/be_metal/device.rs:151-165`. -/
def State.alloc (s : State V) (size : Nat) : Nat × State V :=
  match findBest size s.free s.pool with
  | some (b, _) => (b, s)
  | none =>
    (s.next, { s with
      cap := upd s.cap s.next (bufSize size)
      pool := pushPool (bufSize size) s.next s.pool
      next := s.next + 1 })

/-- `new_buffer_with_data`: a new buffer of exactly the size of the data.
`/repo/crates/hodu_core/src/be_metal/device.rs:112-124`. -/
def State.newData (s : State V) (size : Nat) (v : V) : Nat × State V :=
  (s.next, { s with
    mem := upd s.mem s.next v
    cap := upd s.cap s.next size
    pool := pushPool size s.next s.pool
    next := s.next + 1 })

/-- `create_command_buffer`.  `/repo/crates/hodu_metal_kernels/src/metal/commands.rs:39-44`. -/
def State.newCb (s : State V) (t : Nat) : State V :=
  { s with
    cbs := upd s.cbs s.ncb ⟨.notEnqueued, []⟩
    ncb := s.ncb + 1
    cur := upd s.cur t (some s.ncb) }

/-- `commit`: a second commit breaks the contract of `MTLCommandBuffer`.
`/repo/crates/hodu_metal_kernels/src/metal/command_buffer.rs:31-33`. -/
def State.commit (s : State V) (c : Nat) : Out V :=
  match (s.cbs c).status with
  | .committed => .fault
  | .completed => .fault
  | _ => .next { s with
      cbs := upd s.cbs c ⟨.committed, (s.cbs c).cmds⟩
      queue := if c ∈ s.queue then s.queue else s.queue ++ [c] }

/-- `drop_unused_buffers`.  `/repo/crates/hodu_core/src/be_metal/device.rs:71-82`. -/
def State.dropUnused (s : State V) : State V :=
  { s with pool := s.pool.map (fun e => (e.1, e.2.filter (fun b => !s.free b))) }

/-- `compute_per_buffer` without the environment variable.
`/repo/crates/hodu_metal_kernels/src/metal/commands.rs:54-57`. -/
def computePerBuffer : Nat := 50

/-- The command buffer of the thread, created on first use.
`/repo/crates/hodu_metal_kernels/src/metal/commands.rs:67-75`. -/
def State.ensureCb (s : State V) (t : Nat) : State V :=
  match s.cur t with
  | some _ => s
  | none => s.newCb t

/-- `command_buffer`, both of `Commands` and of the device: the thread's command buffer, committed and
replaced when the counter all threads share has passed the limit.
`/repo/crates/hodu_metal_kernels/src/metal/commands.rs:66-86`,
`/repo/crates/hodu_core/src/be_metal/device.rs:84-91`. -/
def State.commandBuffer (s : State V) (t : Nat) : Out V :=
  let s := s.ensureCb t
  if computePerBuffer < s.idx then
    match s.cur t with
    | none => .fault
    | some c => (s.commit c).bind fun s =>
      let s := s.newCb t
      .next { s.dropUnused with idx := 1 }
  else .next { s with idx := s.idx + 1 }

/-- Encoding one kernel into the thread's command buffer; not allowed once it is committed.
`/repo/crates/hodu_metal_kernels/src/metal/command_buffer.rs:20-29`. -/
def State.encode (s : State V) (t : Nat) (k : Cmd V) : Out V :=
  match s.cur t with
  | none => .fault
  | some c =>
    match (s.cbs c).status with
    | .committed => .fault
    | .completed => .fault
    | st => .next { s with cbs := upd s.cbs c ⟨st, (s.cbs c).cmds ++ [k]⟩ }

/-- Allocation of the output, fetching of the command buffer, the launch and the binding of the result.
`linear_split` divides by the width of the thread groups, which is 0 for no elements; a kernel that
writes more bytes than the buffer has is out of bounds.
`/repo/crates/hodu_core/src/be_metal/storage/ops_unary.rs:105-139`,
`/repo/crates/hodu_metal_kernels/src/utils.rs:8-24`. -/
def State.launch (s : State V) (t h : Nat) (srcs : List Nat) (f : List V → V) (n esz : Nat) : Out V :=
  let (b, s) := s.alloc (n * esz)
  (s.commandBuffer t).bind fun s =>
  if n = 0 then .fault
  else if s.cap b < n * esz then .fault
  else (s.encode t ⟨srcs, b, f⟩).bind fun s =>
  .next { s with live := ⟨h, b, n, esz⟩ :: s.live }

/-- `wait_until_completed` of the device: the thread's command buffer is replaced by a new one, committed
if it was not, and waited for while the lock is held.
`/repo/crates/hodu_metal_kernels/src/metal/commands.rs:88-129`,
`/repo/crates/hodu_core/src/be_metal/device.rs:93-97`. -/
def State.waitAll (s : State V) (t : Nat) (tmp : Option Nat) : Out V :=
  match s.cur t with
  | none => .fault
  | some c =>
    let s := s.newCb t
    let o := match (s.cbs c).status with
      | .notEnqueued => s.commit c
      | .enqueued => s.commit c
      | _ => .next s
    o.bind fun s => .next { s with waits := ⟨t, c, true, tmp⟩ :: s.waits }

/-- Is some thread inside `wait_until_completed` of the device, with the lock of `commands`? -/
def State.locked (s : State V) : Bool := s.waits.any (·.locked)

/-- A call of thread `t` that is not waiting. -/
def State.call (s : State V) (t : Nat) : Instr V → Out V
  | .upload h v n esz =>
    let (b, s) := s.newData (n * esz) v
    .next { s with live := ⟨h, b, n, esz⟩ :: s.live }
  | .clone h h' =>
    match s.find h with
    | none => .blocked
    | some e => .next { s with live := { e with name := h' } :: s.live }
  | .drop h => .next { s with live := s.live.eraseP (fun e => e.name == h) }
  | .op h srcs f n esz =>
    if s.locked then .blocked else
    match srcs.mapM s.find with
    | none => .blocked
    | some es => s.launch t h (es.map (·.buf)) f n esz
  | .opSync h srcs f n esz =>
    if s.locked then .blocked else
    match srcs.mapM s.find with
    | none => .blocked
    | some es => (s.launch t h (es.map (·.buf)) f n esz).bind fun s =>
      match s.cur t with
      | none => .fault
      | some c => (s.commit c).bind fun s =>
        .next { s with waits := ⟨t, c, false, none⟩ :: s.waits }
  | .set h f =>
    if s.locked then .blocked else
    match s.find h with
    | none => .blocked
    | some e => (s.commandBuffer t).bind fun s =>
      if e.count = 0 then .fault
      else s.encode t ⟨[e.buf], e.buf, f⟩
  | .read h =>
    if s.locked then .blocked else
    match s.find h with
    | none => .blocked
    | some e =>
      let (b, s) := s.alloc (e.count * e.esz)
      (s.commandBuffer t).bind fun s =>
      if s.cap b < e.count * e.esz then .fault
      else (s.encode t ⟨[e.buf], b, fun vs => vs.headD (s.mem b)⟩).bind fun s =>
      s.waitAll t (some b)

/-- Execution of one kernel. -/
def Cmd.run (k : Cmd V) (mem : Nat → V) : Nat → V := upd mem k.dst (k.f (k.srcs.map mem))

/-- The GPU executes the next kernel of the command buffer at the head of the queue, if that is
committed, or completes it. -/
def State.gpu (s : State V) : Out V :=
  match s.queue with
  | [] => .blocked
  | c :: q =>
    match (s.cbs c).status with
    | .committed =>
      match (s.cbs c).cmds with
      | k :: ks => .next { s with mem := k.run s.mem, cbs := upd s.cbs c ⟨.committed, ks⟩ }
      | [] => .next { s with cbs := upd s.cbs c ⟨.completed, []⟩, queue := q }
    | _ => .blocked

/-- The end of a wait: `to_cpu` reads the buffer it copied to.
`/repo/crates/hodu_core/src/be_metal/storage.rs:43-48`, `87-88`. -/
def State.resume (s : State V) (t : Nat) : Out V :=
  match s.waits.find? (fun w => w.tid == t) with
  | none => .blocked
  | some w =>
    match (s.cbs w.cb).status with
    | .completed => .next { s with
        waits := s.waits.eraseP (fun w => w.tid == t)
        out := match w.tmp with
          | some b => s.out ++ [s.mem b]
          | none => s.out }
    | _ => .blocked

/-- One step. -/
def State.step (s : State V) : Event V → Out V
  | .host t i => if s.waits.any (fun w => w.tid == t) then .blocked else s.call t i
  | .gpu => s.gpu
  | .resume t => s.resume t

/-- A run. -/
def exec : List (Event V) → State V → Out V
  | [], s => .next s
  | e :: es, s => (s.step e).bind (exec es)

/-- `METAL_DEVICE`, created by thread `t`: one command buffer, with a place in the queue.
`/repo/crates/hodu_core/src/be_metal/device.rs:36-49`,
`/repo/crates/hodu_metal_kernels/src/metal/commands.rs:47-64`. -/
def init (t : Nat) (mem : Nat → V) : State V where
  mem := mem
  cap := fun _ => 0
  next := 0
  pool := []
  live := []
  cbs := fun _ => ⟨.enqueued, []⟩
  ncb := 1
  cur := upd (fun _ => none) t (some 0)
  idx := 0
  queue := [0]
  waits := []
  out := []

end Hodu.Metal
