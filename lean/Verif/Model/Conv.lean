import Verif.Model.Matmul

/-!
# Model of the convolutions

Host side: crates/hodu_core/src/tensor/ops/conv.rs, be_cpu/storage/ops_conv.rs,
op_metadatas.rs:1040-1242, tensor/gradient/vjp_conv.rs.
Kernels: crates/hodu_cpu_kernels/kernels/ops_conv.c.

The code has one copy of every function for 1, 2 and 3 spatial dimensions.  The copies differ in the
number of spatial dimensions only, so the host functions and the loop bodies are written once, over
the list of spatial axes; the metadata is decoded separately for 1, 2 and 3 dimensions because there
the positions differ.  The "exotic" variants of the kernels (f8, f16, bf16) have the same text with
the arithmetic replaced by functions: here the arithmetic is a parameter anyway.
The BLAS variants (ops_conv_openblas.c, ops_conv_blas_aarch64_apple_darwin.c) are in Model/Blas.lean.
Not modelled: wrap-around of `size_t` products.
-/

namespace Hodu

/-! ## Pieces shared by the kernels -/

/-- Nested loops `for (i0 = 0; i0 < d0; i0++) for (i1 = 0; i1 < d1; i1++) ...`, e.g.
ops_conv.c:207-209: the tuples of loop variables in the order they are visited. -/
def loops : List Nat → List (List Nat)
  | [] => [[]]
  | d :: ds => (List.range d).flatMap fun i => (loops ds).map (i :: ·)

/-- Result of an `int` addition or subtraction: overflow is undefined (C11 6.5). -/
def cInt (x : Int) : Res Int := if -2 ^ 31 ≤ x ∧ x < 2 ^ 31 then .ok x else .ub

/-- One spatial axis of a convolution: sizes of the input, the kernel and the output, stride, padding
and dilation (e.g. `in_width`, `kernel_width`, `out_width`, `stride`, `padding`, `dilation` of
ops_conv.c:45-50). -/
structure ConvAxis where
  n : Nat
  k : Nat
  o : Nat
  s : Nat
  p : Nat
  d : Nat
  deriving Repr, DecidableEq

/-- `const int iw = (int)(ow * stride) - (int)padding + (int)(kw * dilation);`, ops_conv.c:64, 210-213,
383-388, 543, 674-677, 840-845. -/
def cTap (a : ConvAxis) (x k : Nat) : Res Int :=
  (cInt (castI32 (x * a.s) - castI32 a.p)).bind fun y => cInt (y + castI32 (k * a.d))

/-- All spatial positions of one tap and the test `iw >= 0 && iw < (int)in_width && ...`,
ops_conv.c:65, 214, 389-390, 544, 678-679, 846-848; `size` says which bound is tested (the input size for the
convolutions, the output size for the transposed ones). -/
def cTaps (size : ConvAxis → Nat) : List ConvAxis → List Nat → List Nat → Res (Option (List Nat))
  | a :: as, x :: xs, k :: ks =>
    (cTap a x k).bind fun i => (cTaps size as xs ks).bind fun r =>
      .ok (if 0 ≤ i ∧ i < castI32 (size a) then r.map (i.toNat :: ·) else none)
  | _, _, _ => .ok (some [])

/-- Offset expressions such as `b * in_channels * in_height * in_width + ic * in_height * in_width +
ih * in_width + iw`, ops_conv.c:66-70, 215-222, 391-402; `sizes` are the sizes of the later
coordinates. -/
def cOffset : List Nat → List Nat → Nat
  | sizes, i :: is => i * shapeSize sizes + cOffset sizes.tail is
  | _, [] => 0

/-- Fields decoded by the forward kernels. -/
structure ConvMeta where
  numEls : Nat
  batch : Nat
  inC : Nat
  outC : Nat
  axes : List ConvAxis
  inOff : Nat
  wOff : Nat
  deriving Repr, DecidableEq

/-- Prologue of `CONV1D_OP` and `CONV_TRANSPOSE1D_OP`, ops_conv.c:41-52, 523-537. -/
def decodeConv1 (md : List Nat) : Res ConvMeta :=
  (readC md 0).bind fun numEls => (readC md 1).bind fun batch => (readC md 2).bind fun inC =>
  (readC md 3).bind fun outC => (readC md 4).bind fun iw => (readC md 5).bind fun kw =>
  (readC md 6).bind fun ow => (readC md 7).bind fun sw => (readC md 8).bind fun pw =>
  (readC md 9).bind fun dw => (readC md 10).bind fun inOff => (readC md 11).bind fun wOff =>
  .ok ⟨numEls, batch, inC, outC, [⟨iw, kw, ow, sw, pw, dw⟩], inOff, wOff⟩

/-- Prologue of `CONV2D_OP` and `CONV_TRANSPOSE2D_OP`, ops_conv.c:179-196, 646-666. -/
def decodeConv2 (md : List Nat) : Res ConvMeta :=
  (readC md 0).bind fun numEls => (readC md 1).bind fun batch => (readC md 2).bind fun inC =>
  (readC md 3).bind fun outC => (readC md 4).bind fun ih => (readC md 5).bind fun iw =>
  (readC md 6).bind fun kh => (readC md 7).bind fun kw => (readC md 8).bind fun oh =>
  (readC md 9).bind fun ow => (readC md 10).bind fun sh => (readC md 11).bind fun sw =>
  (readC md 12).bind fun ph => (readC md 13).bind fun pw => (readC md 14).bind fun dh =>
  (readC md 15).bind fun dw => (readC md 16).bind fun inOff => (readC md 17).bind fun wOff =>
  .ok ⟨numEls, batch, inC, outC, [⟨ih, kh, oh, sh, ph, dh⟩, ⟨iw, kw, ow, sw, pw, dw⟩], inOff, wOff⟩

/-- Prologue of `CONV3D_OP` and `CONV_TRANSPOSE3D_OP`, ops_conv.c:344-367, 804-830. -/
def decodeConv3 (md : List Nat) : Res ConvMeta :=
  (readC md 0).bind fun numEls => (readC md 1).bind fun batch => (readC md 2).bind fun inC =>
  (readC md 3).bind fun outC => (readC md 4).bind fun id => (readC md 5).bind fun ih =>
  (readC md 6).bind fun iw => (readC md 7).bind fun kd => (readC md 8).bind fun kh =>
  (readC md 9).bind fun kw => (readC md 10).bind fun od => (readC md 11).bind fun oh =>
  (readC md 12).bind fun ow => (readC md 13).bind fun sd => (readC md 14).bind fun sh =>
  (readC md 15).bind fun sw => (readC md 16).bind fun pd => (readC md 17).bind fun ph =>
  (readC md 18).bind fun pw => (readC md 19).bind fun dd => (readC md 20).bind fun dh =>
  (readC md 21).bind fun dw => (readC md 22).bind fun inOff => (readC md 23).bind fun wOff =>
  .ok ⟨numEls, batch, inC, outC,
    [⟨id, kd, od, sd, pd, dd⟩, ⟨ih, kh, oh, sh, ph, dh⟩, ⟨iw, kw, ow, sw, pw, dw⟩], inOff, wOff⟩

/-- The kernel chosen by the operation name (`hodu_cpu_conv1d_*`, `conv2d`, `conv3d`), and with it the
decoding. -/
def decodeConv (nsp : Nat) (md : List Nat) : Res ConvMeta :=
  if nsp = 1 then decodeConv1 md else if nsp = 2 then decodeConv2 md else decodeConv3 md

/-- `conv1d_metadata`, `conv2d_metadata`, `conv3d_metadata`, op_metadatas.rs:1040-1181. -/
def convMetadata (l w : Layout) (stride pad dil out : List Nat) : List Nat :=
  [shapeSize out, out.getD 0 0, l.dims.getD 1 0, out.getD 1 0] ++ l.dims.drop 2 ++ w.dims.drop 2 ++
    out.drop 2 ++ stride ++ pad ++ dil ++ [l.offset, w.offset]

/-! ## Forward kernels -/

/-- One tap of the forward kernels, ops_conv.c:64-72, 210-223, 383-404. -/
def convStep (add mul : α → α → α) (inp w : List α) (m : ConvMeta) (b oc : Nat) (o : List Nat)
    (acc : α) : List Nat → Res α
  | ic :: k => (cTaps (·.n) m.axes o k).bind fun
    | none => .ok acc
    | some i =>
      (readBoth mul inp w (m.inOff + cOffset (m.inC :: m.axes.map (·.n)) (b :: ic :: i))
        (m.wOff + cOffset (m.inC :: m.axes.map (·.k)) (oc :: ic :: k))).map (add acc)
  | [] => .ok acc

/-- One output element, ops_conv.c:56-76, 200-227, 371-409: the coordinates are peeled off `idx` from
the last one; what remains is the batch index. -/
def convCell (zero : α) (add mul : α → α → α) (inp w : List α) (m : ConvMeta) (idx : Nat) : Res α :=
  match cUnravel (m.outC :: m.axes.map (·.o)) idx with
  | (oc :: o, b) =>
    Res.foldL (convStep add mul inp w m b oc o) zero (loops (m.inC :: m.axes.map (·.k)))
  | ([], _) => .ok zero

/-- `hodu_cpu_conv1d_*`, `hodu_cpu_conv2d_*`, `hodu_cpu_conv3d_*`, ops_conv.c:34-77, 172-228, 337-410. -/
def convKernel (zero : α) (add mul : α → α → α) (nsp : Nat) (inp w : List α) (md : List Nat) :
    Res (List α) :=
  (decodeConv nsp md).bind fun m => runLoop m.numEls (convCell zero add mul inp w m)

/-- The body of the transposed kernels for one input element and one kernel position, ops_conv.c:
543-556, 674-696, 840-873: `for (oc ...) output[output_idx] += input[input_idx] * weight[weight_idx];`.
The weight is indexed with the input channel first. -/
def convTStep (add mul : α → α → α) (inp w : List α) (m : ConvMeta) (out : List α) :
    List Nat → Res (List α)
  | b :: ic :: ik =>
    let i := ik.take m.axes.length
    let k := ik.drop m.axes.length
    (cTaps (·.o) m.axes i k).bind fun
    | none => .ok out
    | some o => Res.foldL (mulAcc add mul inp w) out ((List.range m.outC).map fun oc =>
        (cOffset (m.outC :: m.axes.map (·.o)) (b :: oc :: o),
          m.inOff + cOffset (m.inC :: m.axes.map (·.n)) (b :: ic :: i),
          m.wOff + cOffset (m.outC :: m.axes.map (·.k)) (ic :: oc :: k)))
  | _ => .ok out

/-- `hodu_cpu_conv_transpose1d_*`, `2d`, `3d`, ops_conv.c:516-561, 639-703, 797-883. -/
def convTKernel (zero : α) (add mul : α → α → α) (nsp : Nat) (inp w : List α) (md : List Nat) :
    Res (List α) :=
  (decodeConv nsp md).bind fun m =>
    Res.foldL (convTStep add mul inp w m) (List.replicate m.numEls zero)
      (loops ([m.batch, m.inC] ++ m.axes.map (·.n) ++ m.axes.map (·.k)))

/-! ## Weight-gradient kernels -/

/-- `conv_grad_weight_metadata`, op_metadatas.rs:1187-1242. -/
def convGradMetadata (l g : Layout) (wdims stride pad dil : List Nat) (nsp : Nat) : List Nat :=
  [shapeSize wdims, l.ndim, nsp] ++ l.dims ++ g.dims ++ wdims ++ l.strides ++ g.strides ++
    [l.offset, g.offset] ++ stride ++ pad ++ dil

/-- Fields decoded by the weight-gradient kernels; `gs` are the strides of the output gradient.  The
strides of the input are in the vector but are not read. -/
structure ConvGradMeta where
  numEls : Nat
  batch : Nat
  inC : Nat
  outC : Nat
  axes : List ConvAxis
  gs : List Nat
  inOff : Nat
  gOff : Nat
  deriving Repr, DecidableEq

/-- Prologue of `CONV1D_GRAD_WEIGHT_OP` and `CONV_TRANSPOSE1D_GRAD_WEIGHT_OP`, ops_conv.c:1024-1046,
1634-1656. -/
def decodeConvGrad1 (md : List Nat) : Res ConvGradMeta :=
  (readC md 0).bind fun numEls => (readC md 1).bind fun nd => (readC md 2).bind fun sp =>
  (readC md 3).bind fun batch => (readC md 4).bind fun inC => (readC md 5).bind fun iw =>
  (readC md (3 + nd + 1)).bind fun outC => (readC md (3 + nd + 2)).bind fun ow =>
  (readC md (3 + 2 * nd + 2)).bind fun kw =>
  (readC md (3 + 4 * nd)).bind fun gb => (readC md (3 + 4 * nd + 1)).bind fun gc =>
  (readC md (3 + 4 * nd + 2)).bind fun gw =>
  (readC md (3 + 5 * nd)).bind fun inOff => (readC md (3 + 5 * nd + 1)).bind fun gOff =>
  (readC md (3 + 5 * nd + 2)).bind fun sw => (readC md (3 + 5 * nd + 2 + sp)).bind fun pw =>
  (readC md (3 + 5 * nd + 2 + 2 * sp)).bind fun dw =>
  .ok ⟨numEls, batch, inC, outC, [⟨iw, kw, ow, sw, pw, dw⟩], [gb, gc, gw], inOff, gOff⟩

/-- Prologue of `CONV2D_GRAD_WEIGHT_OP` and `CONV_TRANSPOSE2D_GRAD_WEIGHT_OP`, ops_conv.c:1192-1220,
1784-1812. -/
def decodeConvGrad2 (md : List Nat) : Res ConvGradMeta :=
  (readC md 0).bind fun numEls => (readC md 1).bind fun nd => (readC md 2).bind fun sp =>
  (readC md 3).bind fun batch => (readC md 4).bind fun inC => (readC md 5).bind fun ih =>
  (readC md 6).bind fun iw =>
  (readC md (3 + nd + 1)).bind fun outC => (readC md (3 + nd + 2)).bind fun oh =>
  (readC md (3 + nd + 3)).bind fun ow =>
  (readC md (3 + 2 * nd + 2)).bind fun kh => (readC md (3 + 2 * nd + 3)).bind fun kw =>
  (readC md (3 + 4 * nd)).bind fun gb => (readC md (3 + 4 * nd + 1)).bind fun gc =>
  (readC md (3 + 4 * nd + 2)).bind fun gh => (readC md (3 + 4 * nd + 3)).bind fun gw =>
  (readC md (3 + 5 * nd)).bind fun inOff => (readC md (3 + 5 * nd + 1)).bind fun gOff =>
  (readC md (3 + 5 * nd + 2)).bind fun sh => (readC md (3 + 5 * nd + 2 + 1)).bind fun sw =>
  (readC md (3 + 5 * nd + 2 + sp)).bind fun ph => (readC md (3 + 5 * nd + 2 + sp + 1)).bind fun pw =>
  (readC md (3 + 5 * nd + 2 + 2 * sp)).bind fun dh =>
  (readC md (3 + 5 * nd + 2 + 2 * sp + 1)).bind fun dw =>
  .ok ⟨numEls, batch, inC, outC, [⟨ih, kh, oh, sh, ph, dh⟩, ⟨iw, kw, ow, sw, pw, dw⟩],
    [gb, gc, gh, gw], inOff, gOff⟩

/-- Prologue of `CONV3D_GRAD_WEIGHT_OP` and `CONV_TRANSPOSE3D_GRAD_WEIGHT_OP`, ops_conv.c:1404-1439,
1970-2005. -/
def decodeConvGrad3 (md : List Nat) : Res ConvGradMeta :=
  (readC md 0).bind fun numEls => (readC md 1).bind fun nd => (readC md 2).bind fun sp =>
  (readC md 3).bind fun batch => (readC md 4).bind fun inC => (readC md 5).bind fun id =>
  (readC md 6).bind fun ih => (readC md 7).bind fun iw =>
  (readC md (3 + nd + 1)).bind fun outC => (readC md (3 + nd + 2)).bind fun od =>
  (readC md (3 + nd + 3)).bind fun oh => (readC md (3 + nd + 4)).bind fun ow =>
  (readC md (3 + 2 * nd + 2)).bind fun kd => (readC md (3 + 2 * nd + 3)).bind fun kh =>
  (readC md (3 + 2 * nd + 4)).bind fun kw =>
  (readC md (3 + 4 * nd)).bind fun gb => (readC md (3 + 4 * nd + 1)).bind fun gc =>
  (readC md (3 + 4 * nd + 2)).bind fun gd => (readC md (3 + 4 * nd + 3)).bind fun gh =>
  (readC md (3 + 4 * nd + 4)).bind fun gw =>
  (readC md (3 + 5 * nd)).bind fun inOff => (readC md (3 + 5 * nd + 1)).bind fun gOff =>
  (readC md (3 + 5 * nd + 2)).bind fun sd => (readC md (3 + 5 * nd + 2 + 1)).bind fun sh =>
  (readC md (3 + 5 * nd + 2 + 2)).bind fun sw =>
  (readC md (3 + 5 * nd + 2 + sp)).bind fun pd => (readC md (3 + 5 * nd + 2 + sp + 1)).bind fun ph =>
  (readC md (3 + 5 * nd + 2 + sp + 2)).bind fun pw =>
  (readC md (3 + 5 * nd + 2 + 2 * sp)).bind fun dd =>
  (readC md (3 + 5 * nd + 2 + 2 * sp + 1)).bind fun dh =>
  (readC md (3 + 5 * nd + 2 + 2 * sp + 2)).bind fun dw =>
  .ok ⟨numEls, batch, inC, outC,
    [⟨id, kd, od, sd, pd, dd⟩, ⟨ih, kh, oh, sh, ph, dh⟩, ⟨iw, kw, ow, sw, pw, dw⟩],
    [gb, gc, gd, gh, gw], inOff, gOff⟩

/-- The kernel chosen by the operation name, and with it the decoding. -/
def decodeConvGrad (nsp : Nat) (md : List Nat) : Res ConvGradMeta :=
  if nsp = 1 then decodeConvGrad1 md else if nsp = 2 then decodeConvGrad2 md else decodeConvGrad3 md

/-- One tap of the weight-gradient kernels, ops_conv.c:1059-1069, 1237-1252, 1458-1483: read the input,
multiply by the gradient value `gv`, add to the cell of the weight (`ATOMIC_ADD_FN`; one thread). -/
def convGradTap (add mul : α → α → α) (inp : List α) (m : ConvGradMeta) (b oc : Nat) (o : List Nat)
    (gv : α) (out : List α) : List Nat → Res (List α)
  | ic :: k => (cTaps (·.n) m.axes o k).bind fun
    | none => .ok out
    | some i =>
      (readC inp (m.inOff + cOffset (m.inC :: m.axes.map (·.n)) (b :: ic :: i))).bind fun x =>
      let wi := cOffset (m.inC :: m.axes.map (·.k)) (oc :: ic :: k)
      (readC out wi).bind fun c => .ok (out.set wi (add c (mul x gv)))
  | [] => .ok out

/-- One element of the output gradient, ops_conv.c:1051-1072, 1228-1256, 1448-1488. -/
def convGradStep (add mul : α → α → α) (inp g : List α) (m : ConvGradMeta) (out : List α) :
    List Nat → Res (List α)
  | b :: oc :: o =>
    (readC g (cFlat m.gOff (b :: oc :: o) m.gs)).bind fun gv =>
      Res.foldL (convGradTap add mul inp m b oc o gv) out (loops (m.inC :: m.axes.map (·.k)))
  | _ => .ok out

/-- `hodu_cpu_conv1d_grad_weight_*`, `2d`, `3d`, ops_conv.c:1015-1075, 1183-1261, 1395-1495. -/
def convGradKernel (zero : α) (add mul : α → α → α) (nsp : Nat) (inp g : List α) (md : List Nat) :
    Res (List α) :=
  (decodeConvGrad nsp md).bind fun m =>
    Res.foldL (convGradStep add mul inp g m) (List.replicate m.numEls zero)
      (loops ([m.batch, m.outC] ++ m.axes.map (·.o)))

/-- One tap of the transposed weight-gradient kernels, ops_conv.c:1668-1679, 1828-1844, 2024-2049. -/
def convTGradTap (add mul : α → α → α) (g : List α) (m : ConvGradMeta) (b ic : Nat) (i : List Nat)
    (xv : α) (out : List α) : List Nat → Res (List α)
  | oc :: k => (cTaps (·.o) m.axes i k).bind fun
    | none => .ok out
    | some o =>
      (readC g (cFlat m.gOff (b :: oc :: o) m.gs)).bind fun gv =>
      let wi := cOffset (m.outC :: m.axes.map (·.k)) (ic :: oc :: k)
      (readC out wi).bind fun c => .ok (out.set wi (add c (mul xv gv)))
  | [] => .ok out

/-- One element of the input, ops_conv.c:1661-1682, 1820-1848, 2014-2054. -/
def convTGradStep (add mul : α → α → α) (inp g : List α) (m : ConvGradMeta) (out : List α) :
    List Nat → Res (List α)
  | b :: ic :: i =>
    (readC inp (m.inOff + cOffset (m.inC :: m.axes.map (·.n)) (b :: ic :: i))).bind fun xv =>
      Res.foldL (convTGradTap add mul g m b ic i xv) out (loops (m.outC :: m.axes.map (·.k)))
  | _ => .ok out

/-- `hodu_cpu_conv_transpose1d_grad_weight_*`, `2d`, `3d`, ops_conv.c:1625-1685, 1775-1853, 1961-2061. -/
def convTGradKernel (zero : α) (add mul : α → α → α) (nsp : Nat) (inp g : List α) (md : List Nat) :
    Res (List α) :=
  (decodeConvGrad nsp md).bind fun m =>
    Res.foldL (convTGradStep add mul inp g m) (List.replicate m.numEls zero)
      (loops ([m.batch, m.inC] ++ m.axes.map (·.n)))

/-! ## Host side -/

/-- `(n + 2 * padding - dilation * (k - 1) - 1) / stride + 1`, conv.rs:61, 184-185, 312-314 and
ops_conv.rs:108, 144-145, 188-190: `usize` subtractions that go below zero and a zero stride panic. -/
def convOutSize (n k s p d : Nat) : Res Nat :=
  (subUsize k 1).bind fun k1 => (subUsize (n + 2 * p) (d * k1)).bind fun a =>
  (subUsize a 1).bind fun b => if s = 0 then .panic else .ok (b / s + 1)

/-- `(n - 1) * stride - 2 * padding + dilation * (k - 1) + output_padding + 1`, conv.rs:447-448,
580-583, 719-724; the backend (ops_conv.rs:105, 139-140, 182-184) computes the same with no
`output_padding`. -/
def convTOutSize (n k s p op d : Nat) : Res Nat :=
  (subUsize n 1).bind fun n1 => (subUsize (n1 * s) (2 * p)).bind fun a =>
  (subUsize k 1).bind fun k1 => .ok (a + d * k1 + op + 1)

/-- Output sizes of all spatial dimensions. -/
def convSizes (f : Nat → Nat → Res Nat) : List Nat → List Nat → Res (List Nat)
  | n :: ns, k :: ks => (f n k).bind fun o => (convSizes f ns ks).bind fun os => .ok (o :: os)
  | _, _ => .ok []

/-- `call_ops_conv`, be_cpu/storage/ops_conv.rs:25-259, with the output size and the kernel of the
operation as parameters: ranks, channels, output shape, metadata, kernel. -/
def callOpsConv (size : Nat → Nat → Res Nat) (kernel : List α → List α → List Nat → Res (List α))
    (nsp : Nat) (x w : Tensor α) (s p d : Nat) : Res (List α) :=
  if x.dims.length ≠ 2 + nsp ∨ w.dims.length ≠ 2 + nsp then .err
  else if w.dims.getD 1 0 ≠ x.dims.getD 1 0 then .err
  else (convSizes size (x.dims.drop 2) (w.dims.drop 2)).bind fun outs =>
    kernel x.storage w.storage (convMetadata x.layout w.layout (List.replicate nsp s)
      (List.replicate nsp p) (List.replicate nsp d) ([x.dims.getD 0 0, w.dims.getD 0 0] ++ outs))

/-- `Tensor::conv1d`, `conv2d`, `conv3d` (eager branch), tensor/ops/conv.rs:17-136, 138-262, 264-393,
for `nsp = 1, 2, 3`: the layouts of the operands go to the backend as they are. -/
def Tensor.conv (zero : α) (add mul : α → α → α) (nsp : Nat) (x w : Tensor α) (s p d : Nat) :
    Res (Tensor α) :=
  if x.dims.length ≠ 2 + nsp ∨ w.dims.length ≠ 2 + nsp then .err
  else if x.dims.getD 1 0 ≠ w.dims.getD 1 0 then .err
  else (convSizes (convOutSize · · s p d) (x.dims.drop 2) (w.dims.drop 2)).bind fun outs =>
    (callOpsConv (convOutSize · · s p d) (convKernel zero add mul nsp) nsp x w s p d).bind fun st =>
      .ok ⟨st, Layout.fromShape ([x.dims.getD 0 0, w.dims.getD 0 0] ++ outs)⟩

/-- `Tensor::conv_transpose1d`, `2d`, `3d` (eager branch), tensor/ops/conv.rs:395-524, 526-661,
663-804.  The documented weight shape is `[out_channels, in_channels, ...]`. -/
def Tensor.convT (zero : α) (add mul : α → α → α) (nsp : Nat) (x w : Tensor α) (s p op d : Nat) :
    Res (Tensor α) :=
  if x.dims.length ≠ 2 + nsp ∨ w.dims.length ≠ 2 + nsp then .err
  else if x.dims.getD 1 0 ≠ w.dims.getD 1 0 then .err
  else (convSizes (convTOutSize · · s p op d) (x.dims.drop 2) (w.dims.drop 2)).bind fun outs =>
    (callOpsConv (convTOutSize · · s p 0 d) (convTKernel zero add mul nsp) nsp x w s p d).bind fun st =>
      .ok ⟨st, Layout.fromShape ([x.dims.getD 0 0, w.dims.getD 0 0] ++ outs)⟩

/-- `Tensor::conv1d_grad_weight`, `2d`, `3d` (eager branch), tensor/ops/conv.rs:807-891, 893-978,
980-1066; `call_ops_conv_grad_weight`, be_cpu/storage/ops_conv.rs:277-385.  Only the ranks are
checked. -/
def Tensor.convGradW (zero : α) (add mul : α → α → α) (nsp : Nat) (x g : Tensor α) (wdims : List Nat)
    (s p d : Nat) : Res (Tensor α) :=
  if x.dims.length ≠ 2 + nsp ∨ g.dims.length ≠ 2 + nsp ∨ wdims.length ≠ 2 + nsp then .err
  else (convGradKernel zero add mul nsp x.storage g.storage (convGradMetadata x.layout g.layout wdims
    (List.replicate nsp s) (List.replicate nsp p) (List.replicate nsp d) nsp)).bind fun st =>
      .ok ⟨st, Layout.fromShape wdims⟩

/-- `Tensor::conv_transpose1d_grad_weight`, `2d`, `3d` (eager branch), tensor/ops/conv.rs:1068-1152,
1154-1239, 1241-1327. -/
def Tensor.convTGradW (zero : α) (add mul : α → α → α) (nsp : Nat) (x g : Tensor α) (wdims : List Nat)
    (s p d : Nat) : Res (Tensor α) :=
  if x.dims.length ≠ 2 + nsp ∨ g.dims.length ≠ 2 + nsp ∨ wdims.length ≠ 2 + nsp then .err
  else (convTGradKernel zero add mul nsp x.storage g.storage (convGradMetadata x.layout g.layout wdims
    (List.replicate nsp s) (List.replicate nsp p) (List.replicate nsp d) nsp)).bind fun st =>
      .ok ⟨st, Layout.fromShape wdims⟩

/-- `ConvOp::Conv1d`, `Conv2d`, `Conv3d` of `compute_vjp`, tensor/gradient/vjp_conv.rs:16-137: the
gradients of the input and of the weight. -/
def Tensor.convVjp (zero : α) (add mul : α → α → α) (nsp : Nat) (x w g : Tensor α) (s p d : Nat) :
    Res (Tensor α × Tensor α) :=
  (w.transpose 0 1).bind fun wt =>
  (g.convT zero add mul nsp wt s p 0 d).bind fun gx =>
  (x.convGradW zero add mul nsp g ([w.dims.getD 0 0, x.dims.getD 1 0] ++ w.dims.drop 2) s p d).bind
    fun gw => .ok (gx, gw)

/-- `ConvOp::ConvTranspose1d`, `2d`, `3d` of `compute_vjp`, tensor/gradient/vjp_conv.rs:139-261. -/
def Tensor.convTVjp (zero : α) (add mul : α → α → α) (nsp : Nat) (x w g : Tensor α) (s p d : Nat) :
    Res (Tensor α × Tensor α) :=
  (g.conv zero add mul nsp w s p d).bind fun gx =>
  (x.convTGradW zero add mul nsp g ([x.dims.getD 1 0, w.dims.getD 0 0] ++ w.dims.drop 2) s p d).bind
    fun gw => .ok (gx, gw)

end Hodu
