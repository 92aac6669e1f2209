/-!
# Outcomes of modelled calls

`Res` is the outcome of a modelled Rust/C call.  It replaces `HoduResult<T>`
(crates/hodu_core/src/error.rs) and makes the two kinds of failure that Rust's types do not show
explicit: a panic and C undefined behaviour (an out-of-bounds access in a kernel).
Simplification: error payloads (messages, offending shapes) are dropped.
-/

namespace Hodu

/-- Outcome of a modelled call.  Models `HoduResult<T>` (crates/hodu_core/src/error.rs) plus the
two outcomes outside of it: `panic` (Rust panic) and `ub` (C access outside a buffer). -/
inductive Res (α : Type u) where
  | ok (a : α)
  | err
  | panic
  | ub
  deriving Repr, DecidableEq

namespace Res

variable {α β : Type u}

/-- Sequencing: Rust's `?` (and plain call sequence for panics / C faults). -/
def bind (x : Res α) (f : α → Res β) : Res β :=
  match x with
  | ok a => f a
  | err => err
  | panic => panic
  | ub => ub

/-- Post-processing of a successful result: Rust's `Result::map`. -/
def map (f : α → β) : Res α → Res β
  | ok a => ok (f a)
  | err => err
  | panic => panic
  | ub => ub

instance : Monad Res where
  pure := ok
  bind := bind
  map := map

@[simp] theorem bind_def (x : Res α) (f : α → Res β) : (x >>= f) = x.bind f := rfl
@[simp] theorem pure_def (a : α) : (pure a : Res α) = ok a := rfl
@[simp] theorem ok_bind (a : α) (f : α → Res β) : ((ok a : Res α).bind f) = f a := rfl
@[simp] theorem err_bind (f : α → Res β) : ((err : Res α).bind f) = err := rfl
@[simp] theorem panic_bind (f : α → Res β) : ((panic : Res α).bind f) = panic := rfl
@[simp] theorem ub_bind (f : α → Res β) : ((ub : Res α).bind f) = ub := rfl

theorem bind_eq_ok {x : Res α} {f : α → Res β} {b : β} :
    x.bind f = ok b ↔ ∃ a, x = ok a ∧ f a = ok b := by
  cases x <;> simp [bind]

theorem map_eq_ok {x : Res α} {f : α → β} {b : β} :
    x.map f = ok b ↔ ∃ a, x = ok a ∧ f a = b := by
  cases x <;> simp [map]

/-- `mapM` written out: run `f` over a list in order, stopping at the first failure.  This is the
shape of a C loop `for (i = 0; i < n; i++) out[i] = ...` whose body may fault. -/
def mapL (f : α → Res β) : List α → Res (List β)
  | [] => ok []
  | a :: as => (f a).bind fun b => (mapL f as).bind fun bs => ok (b :: bs)

theorem mapL_eq_ok_of {f : α → Res β} {g : α → β} {l : List α}
    (h : ∀ a ∈ l, f a = ok (g a)) : mapL f l = ok (l.map g) := by
  induction l with
  | nil => rfl
  | cons a as ih =>
    have h1 := h a (by simp)
    have h2 := ih (fun x hx => h x (by simp [hx]))
    simp [mapL, h1, h2]

theorem mapL_ok_inv {f : α → Res β} {l : List α} {bs : List β} (h : mapL f l = ok bs) :
    bs.length = l.length ∧ ∀ i (hi : i < l.length) (hb : i < bs.length), f l[i] = ok bs[i] := by
  induction l generalizing bs with
  | nil => simp [mapL] at h; subst h; simp
  | cons a as ih =>
    simp only [mapL, bind_eq_ok] at h
    obtain ⟨b, hb, bs', hbs, heq⟩ := h
    cases heq
    obtain ⟨hl, hi⟩ := ih hbs
    refine ⟨by simp [hl], ?_⟩
    intro i h1 h2
    cases i with
    | zero => simpa using hb
    | succ i => simpa using hi i (by simpa using h1) (by simpa using h2)

end Res

/-- A C read `buf[i]`: undefined behaviour outside the buffer.  Models every `l[...]`, `in[...]`
access in crates/hodu_cpu_kernels/kernels/*.c. -/
def readC (buf : List α) (i : Nat) : Res α :=
  match buf[i]? with
  | some a => .ok a
  | none => .ub

theorem readC_ok {buf : List α} {i : Nat} (h : i < buf.length) : readC buf i = .ok buf[i] := by
  simp [readC, h]

theorem readC_eq_ok {buf : List α} {i : Nat} {a : α} : readC buf i = .ok a ↔ buf[i]? = some a := by
  unfold readC; cases buf[i]? <;> simp

/-- A Rust index `v[i]`: panics outside the vector.  Models `self.shape[i]`, `self.strides[i]`,
`dims[i]` ... in crates/hodu_core/src. -/
def readR (buf : List α) (i : Nat) : Res α :=
  match buf[i]? with
  | some a => .ok a
  | none => .panic

theorem readR_ok {buf : List α} {i : Nat} (h : i < buf.length) : readR buf i = .ok buf[i] := by
  simp [readR, h]

theorem readR_eq_ok {buf : List α} {i : Nat} {a : α} : readR buf i = .ok a ↔ buf[i]? = some a := by
  unfold readR; cases buf[i]? <;> simp

end Hodu
