import Verif.Model.MetalMove
import Verif.Model.CudaConvGrad

/-!
# Model of the convolutions on Metal

Device side: crates/hodu_metal_kernels/kernels/ops_conv.metal, headers/atomic.metal.  Launches:
crates/hodu_metal_kernels/src/kernels/ops_conv.rs.  Host: crates/hodu_core/src/be_metal/storage/ops_conv.rs.

The kernels add up in the type of the elements.  They are compiled with `MTLMathMode::Fast`
(crates/hodu_metal_kernels/src/kernel.rs:112): the arithmetic is a parameter.
Not modelled: wrap-around of `size_t` products; that the addition on `float` reads its cell without an atomic operation
before it compares and swaps (headers/atomic.metal:54-61).
-/

namespace Hodu.Metal

open _root_.Hodu Hodu.Cuda

variable {α V W : Type}

/-- The element types with a kernel: ops_conv.metal:77-79, 166-168, 278-280, 343-345, 423-425, 523-525, 613-615, 718-720,
842-844, 935-937, 1042-1044, 1170-1172. -/
def convTypes : List DType := [.bf16, .f16, .f32]

/-- `hodu_metal_conv1d_*`, `conv2d_*`, `conv3d_*`, ops_conv.metal:34-280: the body is the text of the CPU kernel
(`convCell`). -/
def convLoop (maxThreads : Nat) (zero : α) (add mul : α → α → α) (nsp : Nat) (inp w : List α) (md : List Nat) :
    Res (Loop α) :=
  (decodeConv nsp md).bind fun m => launchStride maxThreads m.numEls (convCell zero add mul inp w m)

/-- `hodu_metal_conv_transpose1d_*`, `2d`, `3d`, ops_conv.metal:297-525: the body is the text of the CUDA kernel
(`convTVal`), without conversions. -/
def convTLoop (maxThreads : Nat) (zero : α) (add mul : α → α → α) (nsp : Nat) (inp w : List α) (md : List Nat) :
    Res (Loop α) :=
  (decodeConv nsp md).bind fun m => launchStride maxThreads m.numEls (convTVal zero add mul id id inp w m)

/-- `call_ops_conv`, be_metal/storage/ops_conv.rs:11-125: the output size is computed with the formula of the convolution
for every operation (41-52).  Where there is no kernel of the name, `load_pipeline` reports it
(src/kernels/ops_conv.rs:112).  Gives the kernel and the number of elements of the storage. -/
def callConvMetal (ty : DType) (loop : List Nat → Res (Loop α)) (x w : Layout) (s p d : Nat) : Res (Loop α × Nat) :=
  let nsp := x.dims.length - 2
  (convSizes (convOutSize · · s p d) (x.dims.drop 2) (w.dims.drop 2)).bind fun outs =>
    let out := [x.dims.getD 0 0, w.dims.getD 0 0] ++ outs
    if ty ∉ convTypes then .err
    else (loop (convMetadata x w (List.replicate nsp s) (List.replicate nsp p) (List.replicate nsp d) out)).bind
      fun l => .ok (l, shapeSize out)

/-- `Tensor::conv1d`, `conv2d`, `conv3d` (eager branch) on Metal, tensor/ops/conv.rs:17-136, 138-262, 264-393. -/
def convMetal (maxThreads : Nat) (ty : DType) (zero : α) (add mul : α → α → α) (nsp : Nat) (x w : Tensor α)
    (s p d : Nat) : Res (Launched α) :=
  if x.dims.length ≠ 2 + nsp ∨ w.dims.length ≠ 2 + nsp then .err
  else if x.dims.getD 1 0 ≠ w.dims.getD 1 0 then .err
  else (convSizes (convOutSize · · s p d) (x.dims.drop 2) (w.dims.drop 2)).bind fun outs =>
    (callConvMetal ty (convLoop maxThreads zero add mul nsp x.storage w.storage) x.layout w.layout s p d).bind fun l =>
      .ok ⟨l.1, l.2, [x.dims.getD 0 0, w.dims.getD 0 0] ++ outs⟩

/-- `Tensor::conv_transpose1d`, `2d`, `3d` (eager branch) on Metal, tensor/ops/conv.rs:395-524, 526-661, 663-804. -/
def convTMetal (maxThreads : Nat) (ty : DType) (zero : α) (add mul : α → α → α) (nsp : Nat) (x w : Tensor α)
    (s p op d : Nat) : Res (Launched α) :=
  if x.dims.length ≠ 2 + nsp ∨ w.dims.length ≠ 2 + nsp then .err
  else if x.dims.getD 1 0 ≠ w.dims.getD 1 0 then .err
  else (convSizes (convTOutSize · · s p op d) (x.dims.drop 2) (w.dims.drop 2)).bind fun outs =>
    (callConvMetal ty (convTLoop maxThreads zero add mul nsp x.storage w.storage) x.layout w.layout s p d).bind fun l =>
      .ok ⟨l.1, l.2, [x.dims.getD 0 0, w.dims.getD 0 0] ++ outs⟩

/-- `hodu_metal_conv{,_transpose}{1,2,3}d_grad_weight_<type>`, ops_conv.metal:553-1172, launched by
src/kernels/ops_conv.rs:151-184: as many threads as the *weight* asks for, `metadata[0]`, while the loop runs over
`batch * out_channels * out_width …` (585, 682, 795, 904, 1004, 1119).  The bodies are the text of the CUDA kernels
(`gradJobCuda`, `gradTJobCuda`). -/
def gradLoopMetal (maxThreads : Nat) (job : ConvGradMeta → Nat → Nat → Res (Option (Nat × V))) (word : Nat → Nat)
    (upd : Nat → W → V → W) (way : Way) (nsp : Nat) (md : List Nat) : Res (Rmw W V) :=
  (decodeConvGrad nsp md).bind fun m => (linearSplit maxThreads m.numEls).bind fun threads =>
    .ok (rmwLoops threads u32 (fun i => u32 (i + u32 threads)) (shapeSize ([m.batch, m.outC] ++ m.axes.map (·.o)))
      (loops (m.inC :: m.axes.map (·.k))).length (job m) word upd way)

/-- `Tensor::conv{1,2,3}d_grad_weight` and `conv_transpose{1,2,3}d_grad_weight` (eager branch) on Metal,
tensor/ops/conv.rs:807-1327; `call_ops_conv_grad_weight`, be_metal/storage/ops_conv.rs:128-192.  The buffer comes from
`device.new_buffer` (167): what is in it is what the tensor that held it before left there. -/
def convGradWMetal (maxThreads : Nat) (ty : DType) (job : ConvGradMeta → Nat → Nat → Res (Option (Nat × V)))
    (word : Nat → Nat) (upd : Nat → W → V → W) (way : Way) (nsp : Nat) (x g : Layout) (wdims : List Nat) (s p d : Nat) :
    Res (GradLaunch W V) :=
  if x.dims.length ≠ 2 + nsp ∨ g.dims.length ≠ 2 + nsp ∨ wdims.length ≠ 2 + nsp then .err
  else if ty ∉ convTypes then .err
  else (gradLoopMetal maxThreads job word upd way nsp (convGradMetadata x g wdims (List.replicate nsp s)
    (List.replicate nsp p) (List.replicate nsp d) nsp)).bind fun k => .ok ⟨k, shapeSize wdims, wdims⟩

end Hodu.Metal
