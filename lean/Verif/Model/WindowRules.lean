import Verif.Model.Window

/-!
# Backward rules of the sliding-window reductions

Transcription of crates/hodu_core/src/tensor/gradient/vjp_windowing.rs.
-/

namespace Hodu

/-- One iteration of the loop over the strides, vjp_windowing.rs:45-69 (90-108, 123-141): repeat every slice along
dimension `k` `stride` times.  The lists of shape and strides have the same length, so that `insert` does not panic. -/
def upsampleStep (k stride : Nat) (t : Tensor α) : Res (Tensor α) :=
  if 1 < stride then
    (t.reshape (t.dims.insertIdx (k + 1) 1)).bind fun e =>
    (e.broadcast ((t.dims.insertIdx (k + 1) 1).set (k + 1) stride)).bind fun b =>
      b.reshape (t.dims.set k (t.dims.getD k 0 * stride))
  else .ok t

/-- The loop over the strides, last dimension first, vjp_windowing.rs:45-69 (90-108, 123-141); `k` is the dimension of
the first stride given. -/
def upsample : Nat → List Nat → Tensor α → Res (Tensor α)
  | _, [], t => .ok t
  | k, s :: ss, t => (upsample (k + 1) ss t).bind (upsampleStep k s)

/-- `WindowingOp::ReduceWindowSum`, vjp_windowing.rs:117-145. -/
def windowSumVjp (g : Tensor α) (inDims strides : List Nat) : Res (Tensor α) :=
  (upsample 0 strides g).bind fun u => u.broadcast inDims

/-- `WindowingOp::ReduceWindowMean`, vjp_windowing.rs:84-116; `scale` is `1.0 / window_size` computed in `f32` and
converted to the element type. -/
def windowMeanVjp (cores : Nat) (mul : α → α → α) (fill scale : α) (g : Tensor α) (inDims strides : List Nat) :
    Res (Tensor α) :=
  (windowSumVjp g inDims strides).bind fun u => u.unary cores (fun v => mul v scale) fill

/-- `WindowingOp::ReduceWindowMax` and `ReduceWindowMin`, vjp_windowing.rs:32-83: the upstream gradient, repeated over
the window, where the input equals the output repeated over the window. -/
def windowMaxVjp (cores : Nat) (mul : α → α → α) (eq : α → α → Bool) (ofBool : Bool → α) (fill : α)
    (x out g : Tensor α) (strides : List Nat) : Res (Tensor α) :=
  (windowSumVjp out x.dims strides).bind fun uo =>
  (windowSumVjp g x.dims strides).bind fun ug =>
  (Tensor.binaryBool eq x uo).bind fun m =>
  (m.unary cores ofBool fill).bind fun mf => Tensor.binary cores mul fill ug mf

end Hodu
