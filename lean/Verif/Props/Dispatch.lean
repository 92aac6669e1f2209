import Verif.Model.Dispatch

/-!
# C74: an operation and element type that pass validation run the kernel of that operation

Model: `Verif/Model/Dispatch.lean`.  The enumerations are finite, so the case analysis is complete: the
theorems range over every operation and every one of the fifteen element types.
-/

namespace Hodu

open Dispatch

namespace Spec

/-- The kernels an operation has to run on an element type: the one that carries the name of the
operation and of the element type (`nonzero`: counting, then filling; `onehot`: the type of the result;
a cast that changes the type: the conversion between the two types, otherwise a copy). -/
def ownKernels (op : Dispatch.Op) (dt : DType) : List String :=
  let k (s : String) := ["hodu_cpu_" ++ s ++ "_" ++ dt.name]
  match op with
  | .binary o => k o.name | .binaryLogical o => k o.name | .bitwiseBinary o => k o.name
  | .cmp o => k o.name | .cmpScalar o => k o.name | .unary o => k o.name | .unaryLogical o => k o.name
  | .bitwiseUnary o => k o.name | .bitwiseUnaryScalar o => k o.name | .unaryScalar o => k o.name
  | .matrix o => k o.name | .linalg o => k o.name | .reduce o => k o.name | .scatter o => k o.name
  | .conv o => k o.name | .windowing o => k o.name | .padding o => k o.name
  | .concat => k "concat" | .split => k "split" | .indexSelect => k "index_select"
  | .indexPut => k "index_put" | .gather => k "gather" | .unique => k "unique" | .compress => k "compress"
  | .onehot out => ["hodu_cpu_" ++ "onehot" ++ "_" ++ out.name]
  | .nonzero => k "nonzero_count" ++ k "nonzero_fill"
  | .cumsum => k "cumsum" | .topk => k "topk" | .einsum => k "einsum" | .resize => k "resize"
  | .flip => k "flip" | .contiguous => k "contiguous"
  | .cast dst =>
    if dt = dst then k "contiguous" else ["hodu_cpu_cast_" ++ dt.name ++ "_to_" ++ dst.name]

/-- Pairs that validation accepts and for which no kernel is registered: the call panics. -/
def NoKernel (op : Dispatch.Op) (dt : DType) : Bool :=
  match op with
  | .binary .rem | .unaryScalar .remScalar => true
  | .unaryScalar .leakyRelu | .unaryScalar .elu | .unaryScalar .prelu => true
  | .unary .relu => dt.isInt
  | .reduce .argMax | .reduce .argMin | .reduce .any | .reduce .all => dt == .f64
  | _ => false

/-- Pairs that validation accepts and the back end rejects. -/
def BackendRejects (op : Dispatch.Op) (dt : DType) : Bool :=
  match op with
  | .reduce .argMax | .reduce .argMin | .reduce .any | .reduce .all => dt.isBool
  | _ => false

/-- Operations that run the kernel of another operation. -/
def WrongKernel (op : Dispatch.Op) : Bool :=
  match op with
  | .scatter .scatterAdd | .scatter .scatterMax | .scatter .scatterMin => true
  | _ => false

end Spec

/-! ### Membership in a table without comparing names -/

theorem Dispatch.Table.mem_names {t : Table} {r : List String × List DType} {o : String} {dt : DType}
    (hr : r ∈ t) (ho : o ∈ r.1) (hd : dt ∈ r.2) : kname o dt ∈ t.names := by
  simp only [Table.names, List.mem_flatMap, List.mem_map]
  exact ⟨r, hr, o, ho, dt, hd, rfl⟩

/-- Some row of the table has the operation and the type. -/
def Dispatch.Table.covers (t : Table) (o : String) (dt : DType) : Bool :=
  t.any fun r => r.1.contains o && r.2.contains dt

theorem Dispatch.Table.names_of_covers {t : Table} {o : String} {dt : DType}
    (h : t.covers o dt = true) : kname o dt ∈ t.names := by
  simp only [covers, List.any_eq_true, Bool.and_eq_true, List.contains_iff_mem] at h
  obtain ⟨r, hr, ho, hd⟩ := h
  exact mem_names hr ho hd

theorem Dispatch.lookup_of_covers {t : Table} {o : String} {dt : DType}
    (h : t.covers o dt = true) : lookup t.names (kname o dt) = .ok [kname o dt] := by
  simp [lookup, Table.names_of_covers h]

theorem Dispatch.reduce_of_covers {o : String} {dt : DType}
    (h : reduceTable.covers o dt = true) (hk : reduceKnown.covers o dt = true) :
    dispatchReduce (kname o dt) = .ok [kname o dt] := by
  simp [dispatchReduce, Table.names_of_covers h, Table.names_of_covers hk]

theorem Dispatch.mem_allTypes (dt : DType) : dt ∈ allTypes := by cases dt <;> decide

theorem Dispatch.mem_castNames (a b : DType) : castName a b ∈ castNames := by
  simp only [castNames, List.mem_flatMap, List.mem_map]
  exact ⟨a, mem_allTypes a, b, mem_allTypes b, rfl⟩

theorem Dispatch.lookup_cast (a b : DType) : lookup castNames (castName a b) = .ok [castName a b] :=
  if_pos (mem_castNames a b)

theorem Dispatch.single_covers (o : String) (dt : DType) :
    Table.covers [([o], allTypes)] o dt = true := by
  simp [Table.covers, mem_allTypes]

instance decAllDType (p : DType → Prop) [DecidablePred p] : Decidable (∀ dt, p dt) :=
  decidable_of_iff (∀ dt ∈ allTypes, p dt)
    ⟨fun h dt => h dt (mem_allTypes dt), fun h dt _ => h dt⟩

/-! ### Every accepted, non-exceptional pair is in its table (complete case analysis) -/

theorem Dispatch.hostArms_ok (op : Op) (dt : DType) (hv : validate dt op = true)
    (hb : Spec.BackendRejects op dt = false) : dt ∈ hostArms op := by
  cases op
  case reduce o => cases o <;> revert dt <;> decide +kernel
  all_goals
    first
      | exact mem_allTypes dt
      | (clear hb; simp only [validate, hostArms] at hv ⊢; revert dt; decide +kernel)

theorem Dispatch.scatter_arms (o : ScatterOp) (dt : DType) : dt ∈ hostArms (.scatter o) := mem_allTypes dt

theorem Dispatch.binary_covers (o : BOp) : ∀ dt, validate dt (.binary o) = true →
    Spec.NoKernel (.binary o) dt = false → binaryTable.covers o.name dt = true := by
  cases o <;> decide +kernel

theorem Dispatch.binaryLogical_covers (o : BinaryLogicalOp) :
    ∀ dt, binaryTable.covers o.name dt = true := by cases o <;> decide +kernel

theorem Dispatch.cmp_covers (o : CmpOp) : ∀ dt, binaryTable.covers o.name dt = true := by
  cases o <;> decide +kernel

theorem Dispatch.bitwiseBinary_covers (o : BitwiseBinaryOp) : ∀ dt ∈ intTypes,
    bitwiseBinaryTable.covers o.name dt = true := by cases o <;> decide +kernel

theorem Dispatch.bitwiseUnary_covers (o : BitwiseUnaryOp) : ∀ dt ∈ intTypes,
    bitwiseUnaryTable.covers o.name dt = true := by cases o <;> decide +kernel

theorem Dispatch.bitwiseScalar_covers (o : BitwiseUnaryScalarOp) : ∀ dt ∈ intTypes,
    bitwiseScalarTable.covers o.name dt = true := by cases o <;> decide +kernel

theorem Dispatch.cmpScalar_covers (o : CmpScalarOp) : ∀ dt, unaryScalarTable.covers o.name dt = true := by
  cases o <;> decide +kernel

theorem Dispatch.unaryScalar_covers (o : UnaryScalarOp) : ∀ dt,
    Spec.NoKernel (.unaryScalar o) dt = false → unaryScalarTable.covers o.name dt = true := by
  cases o <;> decide +kernel

theorem Dispatch.unary_covers (o : UOp) : ∀ dt, validate dt (.unary o) = true →
    Spec.NoKernel (.unary o) dt = false → unaryTable.covers o.name dt = true := by
  cases o <;> decide +kernel

theorem Dispatch.unaryLogical_covers (o : UnaryLogicalOp) : ∀ dt, validate dt (.unaryLogical o) = true →
    unaryTable.covers o.name dt = true := by
  cases o <;> decide +kernel

theorem Dispatch.matrix_covers (o : MatrixOp) : ∀ dt ∈ numTypes,
    (matrixTable o).covers o.name dt = true := by cases o <;> decide +kernel

theorem Dispatch.linalg_covers (o : LinalgOp) : ∀ dt ∈ numTypes,
    (linalgTable o).covers o.name dt = true := by cases o <;> decide +kernel

theorem Dispatch.reduce_covers (o : ReduceOp) : ∀ dt, validate dt (.reduce o) = true →
    Spec.NoKernel (.reduce o) dt = false →
    reduceTable.covers o.name dt = true ∧ reduceKnown.covers o.name dt = true := by
  cases o <;> decide +kernel

theorem Dispatch.conv_covers (o : ConvOp) : ∀ dt ∈ floatTypes,
    (if o.isGrad then convGradTable else convTable).covers o.name dt = true := by
  cases o <;> decide +kernel

theorem Dispatch.window_covers (o : WindowingOp) : ∀ dt, validate dt (.windowing o) = true →
    windowTable.covers o.name dt = true := by cases o <;> decide +kernel

theorem Dispatch.padding_covers (o : PaddingOp) : ∀ dt, (paddingTable o).covers o.name dt = true := by
  cases o <;> decide +kernel

theorem Dispatch.numSingle_covers (o : String) (dt : DType) (h : dt ∈ numTypes) :
    Table.covers [([o], numTypes)] o dt = true := by simp [Table.covers, h]

theorem Dispatch.floatSingle_covers (o : String) (dt : DType) (h : dt ∈ floatTypes) :
    Table.covers [([o], floatTypes)] o dt = true := by simp [Table.covers, h]

/-! ### The property -/

/-- C74: every pair validation accepts runs exactly the kernel of that operation and element type. -/
def Spec.C74_full : Prop := ∀ op dt, validate dt op = true → run op dt = .ok (Spec.ownKernels op dt)

/-- C74 outside the three exceptional families: a pair that passes validation runs exactly the kernel
named after the operation and the element type. -/
theorem C74_dispatch_partial (op : Op) (dt : DType) (hv : validate dt op = true)
    (hn : Spec.NoKernel op dt = false) (hb : Spec.BackendRejects op dt = false)
    (hw : Spec.WrongKernel op = false) : run op dt = .ok (Spec.ownKernels op dt) := by
  have ha := hostArms_ok op dt hv hb
  rw [run, if_pos hv, backend, if_pos ha]
  unfold callKernel
  cases op
  case binary o => exact lookup_of_covers (binary_covers o dt hv hn)
  case binaryLogical o => exact lookup_of_covers (binaryLogical_covers o dt)
  case bitwiseBinary o => exact lookup_of_covers (bitwiseBinary_covers o dt ha)
  case cmp o => exact lookup_of_covers (cmp_covers o dt)
  case cmpScalar o => exact lookup_of_covers (cmpScalar_covers o dt)
  case unary o => exact lookup_of_covers (unary_covers o dt hv hn)
  case unaryLogical o => exact lookup_of_covers (unaryLogical_covers o dt hv)
  case bitwiseUnary o => exact lookup_of_covers (bitwiseUnary_covers o dt ha)
  case bitwiseUnaryScalar o => exact lookup_of_covers (bitwiseScalar_covers o dt ha)
  case unaryScalar o => exact lookup_of_covers (unaryScalar_covers o dt hn)
  case matrix o => exact lookup_of_covers (matrix_covers o dt ha)
  case linalg o => exact lookup_of_covers (linalg_covers o dt ha)
  case reduce o => exact reduce_of_covers (reduce_covers o dt hv hn).1 (reduce_covers o dt hv hn).2
  case scatter o =>
    cases o
    case scatter => exact lookup_of_covers (single_covers _ dt)
    all_goals simp [Spec.WrongKernel] at hw
  case conv o =>
    have h := conv_covers o dt ha
    dsimp only
    split <;> rename_i hg <;> simp only [hg] at h <;> exact lookup_of_covers h
  case windowing o => exact lookup_of_covers (window_covers o dt hv)
  case padding o => exact lookup_of_covers (padding_covers o dt)
  case onehot out => exact lookup_of_covers (single_covers _ out)
  case nonzero =>
    have h1 := lookup_of_covers (single_covers "nonzero_count" dt)
    have h2 := lookup_of_covers (single_covers "nonzero_fill" dt)
    dsimp only
    rw [h1, h2]; rfl
  case cumsum => exact lookup_of_covers (numSingle_covers _ dt ha)
  case topk => exact lookup_of_covers (numSingle_covers _ dt ha)
  case einsum => exact lookup_of_covers (numSingle_covers _ dt ha)
  case resize => exact lookup_of_covers (floatSingle_covers _ dt ha)
  case cast dst =>
    dsimp only [Spec.ownKernels]
    split
    · exact lookup_of_covers (single_covers _ dt)
    · exact lookup_cast dt dst
  all_goals exact lookup_of_covers (single_covers _ dt)

/-- Validation accepts `f32` tensors for `exp` and the kernel `hodu_cpu_exp_f32` runs. -/
example : run (.unary .exp) .f32 = .ok ["hodu_cpu_exp_f32"] :=
  C74_dispatch_partial (.unary .exp) .f32 rfl rfl rfl rfl

example : run (.cast .i64) .bool = .ok ["hodu_cpu_cast_bool_to_i64"] :=
  C74_dispatch_partial (.cast .i64) .bool rfl rfl rfl rfl

/-! ### The exceptions are real -/

/-- Every accepted pair of the first family panics: no kernel with the requested name is registered
(or, for `argmax`, `argmin`, `any` and `all` on `f64`, the kernel runs and the call panics afterwards). -/
theorem C74_panics (op : Op) (dt : DType) (hv : validate dt op = true)
    (hn : Spec.NoKernel op dt = true) : run op dt = .panic := by
  cases op
  case binary o =>
    cases o <;> first | (simp [Spec.NoKernel] at hn; done) | (revert dt; decide +kernel)
  case unary o =>
    cases o <;> first | (simp [Spec.NoKernel] at hn; done) | (revert dt; decide +kernel)
  case unaryScalar o =>
    cases o <;> first | (simp [Spec.NoKernel] at hn; done) | (revert dt; decide +kernel)
  case reduce o =>
    cases o <;> first | (simp [Spec.NoKernel] at hn; done) | (revert dt; decide +kernel)
  all_goals simp [Spec.NoKernel] at hn

/-- `rem` passes validation on `f32`. -/
example : validate .f32 (.binary .rem) = true ∧ Spec.NoKernel (.binary .rem) .f32 = true := ⟨rfl, rfl⟩

/-- Every accepted pair of the second family is rejected by the back end. -/
theorem C74_rejects (op : Op) (dt : DType) (hb : Spec.BackendRejects op dt = true) :
    run op dt = .err := by
  cases op
  case reduce o =>
    cases o <;> first | (simp [Spec.BackendRejects] at hb; done) | (revert dt; decide +kernel)
  all_goals simp [Spec.BackendRejects] at hb

example : validate .bool (.reduce .any) = true ∧ Spec.BackendRejects (.reduce .any) .bool = true :=
  ⟨rfl, rfl⟩

/-- The accumulating scatters run the plain scatter kernel, on every type they accept. -/
theorem C74_wrong_kernel (op : Op) (dt : DType) (hv : validate dt op = true)
    (hw : Spec.WrongKernel op = true) : run op dt = .ok ["hodu_cpu_scatter_" ++ dt.name] := by
  cases op
  case scatter o =>
    cases o
    case scatter => simp [Spec.WrongKernel] at hw
    all_goals
      rw [run, if_pos hv, backend, if_pos (scatter_arms _ dt)]
      refine (lookup_of_covers (single_covers "scatter" dt)).trans ?_
      revert dt
      decide +kernel
  all_goals simp [Spec.WrongKernel] at hw

example : validate .f32 (.scatter .scatterAdd) = true ∧ Spec.WrongKernel (.scatter .scatterAdd) = true :=
  ⟨rfl, rfl⟩

/-- Exactly which accepted pairs run their own kernel. -/
theorem C74_dispatch_iff (op : Op) (dt : DType) (hv : validate dt op = true) :
    run op dt = .ok (Spec.ownKernels op dt) ↔
      Spec.NoKernel op dt = false ∧ Spec.BackendRejects op dt = false ∧ Spec.WrongKernel op = false := by
  refine ⟨fun h => ⟨?_, ?_, ?_⟩, fun ⟨a, b, c⟩ => C74_dispatch_partial op dt hv a b c⟩
  · rw [← Bool.not_eq_true]
    intro hn
    rw [C74_panics op dt hv hn] at h
    exact absurd h (by simp)
  · rw [← Bool.not_eq_true]
    intro hb
    rw [C74_rejects op dt hb] at h
    exact absurd h (by simp)
  · rw [← Bool.not_eq_true]
    intro hw
    rw [C74_wrong_kernel op dt hv hw] at h
    revert h
    cases op
    case scatter o =>
      clear hv
      cases o
      case scatter => simp [Spec.WrongKernel] at hw
      all_goals revert dt; decide +kernel
    all_goals simp [Spec.WrongKernel] at hw

/-- C74 is false as stated: `rem` on `f32`, `relu` on `i32`, `leaky_relu` on `f32` and `argmax` on `f64`
pass validation and panic; `any` on `bool` is rejected by the back end; `scatter_add` overwrites. -/
theorem C74_full_false : ¬ Spec.C74_full := by
  intro h
  have := h (.binary .rem) .f32 rfl
  rw [C74_panics _ _ rfl rfl] at this
  exact absurd this (by simp)

end Hodu
