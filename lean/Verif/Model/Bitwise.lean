import Verif.Model.Tensor

/-!
# Bitwise operations

Transcription of `crates/hodu_core/src/tensor/ops/bitwise.rs`, `be_cpu/storage/ops_bitwise.rs` and
`crates/hodu_cpu_kernels/kernels/ops_bitwise.c`.

An element is the bit pattern of an integer type, `BitVec w` with a flag for signed types.  The C expressions are those of
C11 (`-std=c11`, build.rs:38): operands narrower than `int` are promoted to `int`; a shift by a negative count or by at least the
width of the promoted left operand, and a left shift of a signed value that is negative or leaves the type, are undefined (C11
6.5.7).  Choices left to the implementation are those of GCC and Clang: `int` has 32 bits, numbers are two's complement, `>>` of
a negative number is arithmetic, conversion to a narrower signed type is modulo.
-/

namespace Hodu

/-! ## C expressions -/

/-- Value of a bit pattern of a signed or unsigned type (types.h:24-34). -/
def cVal (s : Bool) (x : BitVec w) : Int := if s then x.toInt else x.toNat

/-- Width after the integer promotions (C11 6.3.1.1). -/
def promWidth (w : Nat) : Nat := if w < 32 then 32 else w

/-- Signedness after the integer promotions: everything narrower than `int` becomes `int`. -/
def promSigned (w : Nat) (s : Bool) : Bool := if w < 32 then true else s

/-- Promotion of an operand, as a bit pattern. -/
def promote (s : Bool) (x : BitVec w) : BitVec (promWidth w) := BitVec.ofInt _ (cVal s x)

/-- Conversion of the result to `TYPE` in `out[i] = FUNC` (ops_bitwise.c:79, 95). -/
def demote (x : BitVec v) : BitVec w := BitVec.setWidth w x

/-- `x & y`, ops_bitwise.c:272 and the like. -/
def cAnd (s : Bool) (x y : BitVec w) : Res (BitVec w) := .ok (demote (promote s x &&& promote s y))

/-- `x | y`, ops_bitwise.c:273. -/
def cOr (s : Bool) (x y : BitVec w) : Res (BitVec w) := .ok (demote (promote s x ||| promote s y))

/-- `x ^ y`, ops_bitwise.c:274. -/
def cXor (s : Bool) (x y : BitVec w) : Res (BitVec w) := .ok (demote (promote s x ^^^ promote s y))

/-- `~x`, ops_bitwise.c:275. -/
def cNot (s : Bool) (x : BitVec w) : Res (BitVec w) := .ok (demote (~~~ promote s x))

/-- `x << n` for a count with the value `n`, ops_bitwise.c:270, 342. -/
def cShl (s : Bool) (x : BitVec w) (n : Int) : Res (BitVec w) :=
  if n < 0 ∨ (promWidth w : Int) ≤ n then .ub
  else if promSigned w s = true ∧ (cVal s x < 0 ∨ 2 ^ (promWidth w - 1) ≤ cVal s x * 2 ^ n.toNat) then .ub
  else .ok (demote (promote s x <<< n.toNat))

/-- `x >> n` for a count with the value `n`, ops_bitwise.c:271, 343. -/
def cShr (s : Bool) (x : BitVec w) (n : Int) : Res (BitVec w) :=
  if n < 0 ∨ (promWidth w : Int) ≤ n then .ub
  else .ok (demote (if promSigned w s then (promote s x).sshiftRight n.toNat else promote s x >>> n.toNat))

/-! ## Kernels -/

/-- First index of worker `t`, ops_bitwise.c:66. -/
def bitStart (n T t : Nat) : Nat := t * (n / T)

/-- One past the last index of worker `t`: the last worker takes the remainder, ops_bitwise.c:67-68. -/
def bitEnd (n T t : Nat) : Nat := if t = T - 1 then (t + 1) * (n / T) + n % T else (t + 1) * (n / T)

/-- The loop over all elements of contiguous operands, on one or several threads, ops_bitwise.c:49-81. -/
def bitLoop (cores n : Nat) (val : Nat → Res β) (buf : List β) : Res (List β) :=
  let T := getOptimalThreads cores n 100000
  if 1 < T then
    (Res.mapL (fun t => workerWrites val (bitStart n T t) (bitEnd n T t)) (List.range T)).bind fun ws =>
      applyWrites buf ws.flatten
  else runLoop n val

/-- `IMPL_BINARY_BITWISE_OP`, ops_bitwise.c:31-98: the strided loop takes the coordinates of both operands from the left shape. -/
def bitBinaryKernel (cores : Nat) (f : α → α → Res β) (l r : List α) (md : List Nat) (buf : List β) : Res (List β) :=
  (decodeBinary md).bind fun m =>
    let both := fun li ri => (readC l li).bind fun x => (readC r ri).bind fun y => f x y
    if cIsContiguous m.lhsDims m.lhsStrides && cIsContiguous m.rhsDims m.rhsStrides then
      bitLoop cores m.numEls (fun i => both (m.lhsOffset + i) (m.rhsOffset + i)) buf
    else
      runLoop m.numEls fun i => both (m.lhsOffset + getStridedIndex i m.lhsDims m.lhsStrides)
        (m.rhsOffset + getStridedIndex i m.lhsDims m.rhsStrides)

/-- Decoding prologue of `IMPL_UNARY_BITWISE_OP` and `IMPL_SCALAR_SHIFT_OP`, ops_bitwise.c:128-132, 211-215: unlike the other
unary kernels the offset is read for every rank. -/
def decodeBitUnary (md : List Nat) : Res UnaryMeta := do
  let n ← readC md 0
  let nd ← readC md 1
  let dims ← sliceC md 2 nd
  let strides ← sliceC md (2 + nd) nd
  let offset ← readC md (2 + 2 * nd)
  .ok { numEls := n, dims := dims, strides := strides, offset := offset }

/-- `IMPL_UNARY_BITWISE_OP`, ops_bitwise.c:123-179, and `IMPL_SCALAR_SHIFT_OP`, ops_bitwise.c:206-263. -/
def bitUnaryKernel (cores : Nat) (f : α → Res β) (inp : List α) (md : List Nat) (buf : List β) : Res (List β) :=
  (decodeBitUnary md).bind fun m =>
    if cIsContiguous m.dims m.strides then bitLoop cores m.numEls (fun i => (readC inp (m.offset + i)).bind f) buf
    else runLoop m.numEls fun i => (readC inp (m.offset + getStridedIndex i m.dims m.strides)).bind f

/-! ## Host -/

/-- `bitwise_binary_op!`, tensor/ops/bitwise.rs:11-60 (eager branch), `call_ops_bitwise_binary`,
be_cpu/storage/ops_bitwise.rs:10-95, for operands of the same integer type. -/
def Tensor.bitBinary (cores : Nat) (f : α → α → Res α) (fill : α) (a b : Tensor α) : Res (Tensor α) :=
  (Tensor.broadcast2 a b).bind fun (l, r) =>
    (bitBinaryKernel cores f l.storage r.storage (binaryMetadata l.layout r.layout l.layout)
      (List.replicate l.layout.size fill)).bind fun s =>
    .ok { storage := s, layout := l.layout }

/-- `bitwise_unary_op!`, tensor/ops/bitwise.rs:62-97, and `bitwise_scalar_shift_op!`, bitwise.rs:99-142 (eager branches), with
`call_ops_bitwise_unary`, `call_ops_bitwise_unary_scalar`, be_cpu/storage/ops_bitwise.rs:97-257.  The result's layout is that of
the input (bitwise.rs:91, 136). -/
def Tensor.bitUnary (cores : Nat) (f : α → Res α) (fill : α) (t : Tensor α) : Res (Tensor α) :=
  (bitUnaryKernel cores f t.storage (unaryMetadata t.layout t.layout) (List.replicate t.layout.size fill)).bind fun s =>
    .ok { storage := s, layout := t.layout }

/-- The element operation of each binary operator, ops_bitwise.c:270-335. -/
inductive BitOp where
  | shl | shr | band | bor | bxor

/-- `FUNC` of a binary operator for a type of width `w`; the count of a shift has the type of the left operand. -/
def BitOp.eval (s : Bool) (o : BitOp) (x y : BitVec w) : Res (BitVec w) :=
  match o with
  | .shl => cShl s x (cVal s y)
  | .shr => cShr s x (cVal s y)
  | .band => cAnd s x y
  | .bor => cOr s x y
  | .bxor => cXor s x y

/-- `bitwise_not`, `shl_scalar` and `shr_scalar` with their `u32` count, bitwise.rs:153-156. -/
inductive UnBitOp where
  | not | shl (n : Nat) | shr (n : Nat)

/-- `FUNC` of a unary operator or of a shift by a scalar, ops_bitwise.c:275, 342-343. -/
def UnBitOp.eval (s : Bool) (o : UnBitOp) (x : BitVec w) : Res (BitVec w) :=
  match o with
  | .not => cNot s x
  | .shl n => cShl s x n
  | .shr n => cShr s x n

end Hodu
