import Verif.Model.CudaMove
import Verif.Model.CudaAtomic
import Verif.Model.Conv
import Verif.Model.Cast
import Verif.Model.Creation

/-!
# Model of the convolutions on CUDA

Device side: crates/hodu_cuda_kernels/kernels/ops_conv.cu.  Launches:
crates/hodu_cuda_kernels/src/kernels/ops_conv.rs.  Host: crates/hodu_core/src/be_cuda/storage/ops_conv.rs.

As in Model/Conv the copies for 1, 2 and 3 spatial dimensions are written once.  All kernels compute with `float`:
`ld` is `to_float`, `st` is `from_float` (math.cuh).  The kernels are compiled with `--fmad=true`
(crates/hodu_cuda_kernels/build.rs:50), so `sum += x * y` rounds once: the arithmetic is a parameter, and the fused
operation is the case of a `mul` that does not round.
Not modelled: wrap-around of `size_t` products.
-/

namespace Hodu.Cuda

open _root_.Hodu

variable {α β A : Type}

/-! ## Forward -/

/-- One output element of `CONV1D_OP`, `CONV2D_OP`, `CONV3D_OP`, ops_conv.cu:24-41, 67-91, 123-158: the text of the CPU
kernel (`convCell`) with the elements converted as they are read. -/
def convVal (zero : A) (add mul : A → A → A) (ld : α → A) (st : A → β) (inp w : List α) (m : ConvMeta) (k : Nat) :
    Res β :=
  (convCell zero add mul (inp.map ld) (w.map ld) m k).map st

/-- `hodu_cuda_conv1d_*`, `conv2d_*`, `conv3d_*`, ops_conv.cu:8-160. -/
def convLoop (zero : A) (add mul : A → A → A) (ld : α → A) (st : A → β) (nsp : Nat) (inp w : List α)
    (md : List Nat) : Res (Loop β) :=
  (decodeConv nsp md).bind fun m =>
    .ok (gridLoop m.numEls (convVal zero add mul ld st inp w m) fun i => i)

/-- `const int tmp = (int)ow + (int)padding - (int)(kw * dilation);`, ops_conv.cu:184, 232-233, 293-295. -/
def backTmp (a : ConvAxis) (o k : Nat) : Res Int :=
  (cInt (castI32 o + castI32 a.p)).bind fun y => cInt (y - castI32 (k * a.d))

/-- The tests `tmp % (int)stride == 0` and `iw >= 0 && iw < (int)in_width` with `iw = tmp / (int)stride`,
ops_conv.cu:185-187, 234-237, 296-302.  Simplified: the remainder is taken for every axis, also when the test of an
earlier axis has failed (this matters for a stride of 0 only, which the host does not let through). -/
def backTaps : List ConvAxis → List Nat → List Nat → Res (Option (List Nat))
  | a :: as, o :: os, k :: ks =>
    (backTmp a o k).bind fun t => (backTaps as os ks).bind fun r =>
      if castI32 a.s = 0 then .ub
      else .ok (if t.tmod (castI32 a.s) = 0 ∧ 0 ≤ t.tdiv (castI32 a.s) ∧ t.tdiv (castI32 a.s) < castI32 a.n then
        r.map ((t.tdiv (castI32 a.s)).toNat :: ·) else none)
  | _, _, _ => .ok (some [])

/-- One kernel position of the transposed kernels, ops_conv.cu:184-195, 232-246, 293-316: the weight is indexed with the
input channel first, as on the CPU. -/
def convTStepCuda (add mul : A → A → A) (inp w : List A) (m : ConvMeta) (b oc : Nat) (o : List Nat) (acc : A) :
    List Nat → Res A
  | ic :: k => (backTaps m.axes o k).bind fun
    | none => .ok acc
    | some i =>
      (readBoth mul inp w (m.inOff + cOffset (m.inC :: m.axes.map (·.n)) (b :: ic :: i))
        (m.wOff + cOffset (m.outC :: m.axes.map (·.k)) (ic :: oc :: k))).map (add acc)
  | [] => .ok acc

/-- One output element of the transposed kernels, ops_conv.cu:178-198, 224-251, 283-323: a sum over the kernel positions
(the CPU kernel adds into the output from every input element instead). -/
def convTVal (zero : A) (add mul : A → A → A) (ld : α → A) (st : A → β) (inp w : List α) (m : ConvMeta) (idx : Nat) :
    Res β :=
  match cUnravel (m.outC :: m.axes.map (·.o)) idx with
  | (oc :: o, b) =>
    (Res.foldL (convTStepCuda add mul (inp.map ld) (w.map ld) m b oc o) zero
      (loops (m.inC :: m.axes.map (·.k)))).map st
  | ([], _) => .ok (st zero)

/-- `hodu_cuda_conv_transpose1d_*`, `2d`, `3d`, ops_conv.cu:162-325. -/
def convTLoop (zero : A) (add mul : A → A → A) (ld : α → A) (st : A → β) (nsp : Nat) (inp w : List α)
    (md : List Nat) : Res (Loop β) :=
  (decodeConv nsp md).bind fun m =>
    .ok (gridLoop m.numEls (convTVal zero add mul ld st inp w m) fun i => i)

/-- The element types with a kernel, ops_conv.cu:768-868.  The host has arms for all types (be_cuda/storage/ops_conv.rs:
109-137); for the others `load_function` finds no kernel of the name (src/kernels/ops_conv.rs:37). -/
def convTypes : List DType := [.f8e4m3, .f8e5m2, .bf16, .f16, .f32, .f64]

/-- `call_ops_conv`, be_cuda/storage/ops_conv.rs:11-139: the output size is computed with the formula of the convolution
for every operation, also the transposed ones (35-40).  Gives the kernel and the length of its buffer. -/
def callConvCuda (ty : DType) (loop : List Nat → Res (Loop β)) (x w : Layout) (s p d : Nat) :
    Res (Loop β × Nat) :=
  let nsp := x.dims.length - 2
  (convSizes (convOutSize · · s p d) (x.dims.drop 2) (w.dims.drop 2)).bind fun outs =>
    let out := [x.dims.getD 0 0, w.dims.getD 0 0] ++ outs
    if ty ∉ convTypes then .err
    else (loop (convMetadata x w (List.replicate nsp s) (List.replicate nsp p) (List.replicate nsp d) out)).bind
      fun l => .ok (l, shapeSize out)

/-- `Tensor::conv1d`, `conv2d`, `conv3d` (eager branch) on CUDA, tensor/ops/conv.rs:17-136, 138-262, 264-393. -/
def convCuda (ty : DType) (zero : A) (add mul : A → A → A) (ld : α → A) (st : A → β) (nsp : Nat) (x w : Tensor α)
    (s p d : Nat) : Res (Launched β) :=
  if x.dims.length ≠ 2 + nsp ∨ w.dims.length ≠ 2 + nsp then .err
  else if x.dims.getD 1 0 ≠ w.dims.getD 1 0 then .err
  else (convSizes (convOutSize · · s p d) (x.dims.drop 2) (w.dims.drop 2)).bind fun outs =>
    (callConvCuda ty (convLoop zero add mul ld st nsp x.storage w.storage) x.layout w.layout s p d).bind fun l =>
      .ok ⟨l.1, l.2, [x.dims.getD 0 0, w.dims.getD 0 0] ++ outs⟩

/-- `Tensor::conv_transpose1d`, `2d`, `3d` (eager branch) on CUDA, tensor/ops/conv.rs:395-524, 526-661, 663-804. -/
def convTCuda (ty : DType) (zero : A) (add mul : A → A → A) (ld : α → A) (st : A → β) (nsp : Nat) (x w : Tensor α)
    (s p op d : Nat) : Res (Launched β) :=
  if x.dims.length ≠ 2 + nsp ∨ w.dims.length ≠ 2 + nsp then .err
  else if x.dims.getD 1 0 ≠ w.dims.getD 1 0 then .err
  else (convSizes (convTOutSize · · s p op d) (x.dims.drop 2) (w.dims.drop 2)).bind fun outs =>
    (callConvCuda ty (convTLoop zero add mul ld st nsp x.storage w.storage) x.layout w.layout s p d).bind fun l =>
      .ok ⟨l.1, l.2, [x.dims.getD 0 0, w.dims.getD 0 0] ++ outs⟩

/-- The convolution of `double`s: converted to `float`, added up in `float`, converted back (ops_conv.cu:27, 37, 41 with
math.cuh); patterns. -/
def convDouble (nsp : Nat) (x w : Tensor Nat) (s p d : Nat) : Res (Launched Nat) :=
  convCuda .f64 0 Creation.fadd Creation.fmul Cast.doubleToFloat Cast.floatToDouble nsp x w s p d

end Hodu.Cuda
