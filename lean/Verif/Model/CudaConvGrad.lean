import Verif.Model.CudaConv

/-!
# Model of the weight gradients of the convolutions on CUDA

Device side: crates/hodu_cuda_kernels/kernels/ops_conv.cu:327-762.  Launch:
crates/hodu_cuda_kernels/src/kernels/ops_conv.rs:98-135.  Host:
crates/hodu_core/src/be_cuda/storage/ops_conv.rs:141-265.

A thread handles elements of the output gradient; for each it runs loops over the input channels and kernel positions
and adds one product to one weight atomically per turn.  The turns of all elements are numbered
`element * taps + tap`.  Simplified: the element of the gradient is read in every turn instead of once before them (it is
in a buffer nobody writes); the loops take no step of their own.  Not modelled: wrap-around of `size_t` products.
-/

namespace Hodu.Cuda

open _root_.Hodu

variable {α A V W : Type}

/-- A loop over elements with counter steps `start` and `adv`, around loops of `taps` turns: the turns are the indices
`element * taps + tap`.  The shape of ops_conv.cu:354-379, 411-449, 488-538 and of ops_conv.metal:586-611, 683-716,
796-840. -/
def rmwLoops (threads : Nat) (start adv : Nat → Nat) (total taps : Nat) (job : Nat → Nat → Res (Option (Nat × V)))
    (word : Nat → Nat) (upd : Nat → W → V → W) (way : Way) : Rmw W V :=
  { threads := threads
    start := fun t => start t * taps
    next := fun i => if i % taps + 1 = taps then adv (i / taps) * taps else i + 1
    bound := total * taps
    job := fun i => job (i / taps) (i % taps)
    word := word, upd := upd, way := way }

/-- A grid-stride loop `for (uint32_t idx = ...; idx < total; idx += blockDim.x * gridDim.x)` around loops of `taps`
turns, ops_conv.cu:354-379, 411-449, 488-538, launched with `grid` blocks of 256. -/
def rmwNested (grid total taps : Nat) (job : Nat → Nat → Res (Option (Nat × V))) (word : Nat → Nat)
    (upd : Nat → W → V → W) (way : Way) : Rmw W V :=
  rmwLoops (256 * grid) threadStart (advance grid) total taps job word upd way

/-- One turn of `CONV1D_GRAD_WEIGHT_OP`, `2D`, `3D`, ops_conv.cu:356-377, 413-446, 490-535: element `idx` of the output
gradient, turn `tap` of the loops over `ic` and the kernel positions; the cell of the weight and the product. -/
def gradJobCuda (mul : A → A → A) (ld : α → A) (st : A → V) (inp g : List α) (m : ConvGradMeta) (idx tap : Nat) :
    Res (Option (Nat × V)) :=
  match cUnravel (m.outC :: m.axes.map (·.o)) idx with
  | (oc :: o, b) =>
    (readC g (cFlat m.gOff (b :: oc :: o) m.gs)).bind fun gv =>
    (readC (loops (m.inC :: m.axes.map (·.k))) tap).bind fun
      | ic :: k => (cTaps (·.n) m.axes o k).bind fun
        | none => .ok none
        | some i =>
          (readC inp (m.inOff + cOffset (m.inC :: m.axes.map (·.n)) (b :: ic :: i))).bind fun x =>
            .ok (some (cOffset (m.inC :: m.axes.map (·.k)) (oc :: ic :: k), st (mul (ld x) (ld gv))))
      | [] => .ok none
  | ([], _) => .ok none

/-- One turn of `CONV_TRANSPOSE1D_GRAD_WEIGHT_OP`, `2D`, `3D`, ops_conv.cu:569-595, 630-668, 715-761: also over the
elements of the output gradient (the CPU kernel runs over the input), the input position is found by division. -/
def gradTJobCuda (mul : A → A → A) (ld : α → A) (st : A → V) (inp g : List α) (m : ConvGradMeta) (idx tap : Nat) :
    Res (Option (Nat × V)) :=
  match cUnravel (m.outC :: m.axes.map (·.o)) idx with
  | (oc :: o, b) =>
    (readC g (cFlat m.gOff (b :: oc :: o) m.gs)).bind fun gv =>
    (readC (loops (m.inC :: m.axes.map (·.k))) tap).bind fun
      | ic :: k => (backTaps m.axes o k).bind fun
        | none => .ok none
        | some i =>
          (readC inp (m.inOff + cOffset (m.inC :: m.axes.map (·.n)) (b :: ic :: i))).bind fun x =>
            .ok (some (cOffset (m.outC :: m.axes.map (·.k)) (ic :: oc :: k), st (mul (ld x) (ld gv))))
      | [] => .ok none
  | ([], _) => .ok none

/-- `hodu_cuda_conv{,_transpose}{1,2,3}d_grad_weight_<type>`, ops_conv.cu:327-762, launched by
src/kernels/ops_conv.rs:113-120: as many blocks as the *weight* asks for, `metadata[0]`, while the loop runs over
`batch * out_channels * out_width …` (353, 410, 487, 566, 627, 711). -/
def gradLoopCuda (job : ConvGradMeta → Nat → Nat → Res (Option (Nat × V))) (word : Nat → Nat) (upd : Nat → W → V → W)
    (way : Way) (nsp : Nat) (md : List Nat) : Res (Rmw W V) :=
  (decodeConvGrad nsp md).bind fun m =>
    .ok (rmwNested (gridSize m.numEls) (shapeSize ([m.batch, m.outC] ++ m.axes.map (·.o)))
      (loops (m.inC :: m.axes.map (·.k))).length (job m) word upd way)

/-- A launched gradient kernel: the kernel, the length of its output buffer in elements and the shape of the result.
The buffer comes from `device.new_buffer`, be_cuda/storage/ops_conv.rs:184, which does not initialise it
(be_cuda/device.rs:91-101); the kernel adds to what is there. -/
structure GradLaunch (W V : Type) where
  kernel : Rmw W V
  len : Nat
  dims : List Nat

/-- `Tensor::conv{1,2,3}d_grad_weight` and `conv_transpose{1,2,3}d_grad_weight` (eager branch) on CUDA,
tensor/ops/conv.rs:807-1327; `call_ops_conv_grad_weight`, be_cuda/storage/ops_conv.rs:141-265: only the ranks are
checked; for other types than the six there is no kernel. -/
def convGradWCuda (ty : DType) (job : ConvGradMeta → Nat → Nat → Res (Option (Nat × V))) (word : Nat → Nat)
    (upd : Nat → W → V → W) (way : Way) (nsp : Nat) (x g : Layout) (wdims : List Nat) (s p d : Nat) :
    Res (GradLaunch W V) :=
  if x.dims.length ≠ 2 + nsp ∨ g.dims.length ≠ 2 + nsp ∨ wdims.length ≠ 2 + nsp then .err
  else if ty ∉ convTypes then .err
  else (gradLoopCuda job word upd way nsp (convGradMetadata x g wdims (List.replicate nsp s) (List.replicate nsp p)
    (List.replicate nsp d) nsp)).bind fun k => .ok ⟨k, shapeSize wdims, wdims⟩

end Hodu.Cuda
