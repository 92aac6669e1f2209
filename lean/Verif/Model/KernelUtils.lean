import Verif.Basic

/-!
# Model of the C kernel helpers

Models crates/hodu_cpu_kernels/kernels/utils.h and thread_utils.h.  `size_t` is `Nat`.
-/

namespace Hodu

/-- Loop of `is_contiguous`, kernels/utils.h:16-26, over `(dim, stride)` pairs from the last
dimension to the first; dimensions of size at most 1 are skipped. -/
def cContigLoop (acc : Nat) : List (Nat × Nat) → Bool
  | [] => true
  | (d, s) :: rest => if 1 < d ∧ acc ≠ s then false else cContigLoop (acc * d) rest

/-- `is_contiguous(num_dims, dims, strides)`, kernels/utils.h:16-26. -/
def cIsContiguous (dims strides : List Nat) : Bool := cContigLoop 1 (dims.zip strides).reverse

/-- Loop of `get_strided_index`, kernels/utils.h:29-38, from the last dimension to the first. -/
def stridedIndexLoop (idx acc : Nat) : List (Nat × Nat) → Nat
  | [] => acc
  | (d, s) :: rest => stridedIndexLoop (idx / d) (acc + (idx % d) * s) rest

/-- `get_strided_index(idx, num_dims, dims, strides)`, kernels/utils.h:29-38. -/
def getStridedIndex (idx : Nat) (dims strides : List Nat) : Nat :=
  stridedIndexLoop idx 0 (dims.zip strides).reverse

/-- `get_optimal_threads(workload_size, min_work_per_thread)`, kernels/thread_utils.h:47-56, with
the machine's core count as a parameter. -/
def getOptimalThreads (cores workload minWork : Nat) : Nat :=
  if workload < minWork * 2 then 1
  else
    let optimal := workload / minWork
    if optimal < cores then optimal else cores

end Hodu
