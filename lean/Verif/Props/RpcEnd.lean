import Verif.Props.PluginServer
import Verif.Props.RpcLag

/-!
# C56: what a handler returns is what the call returns

The response of `PluginServer` written by serde (`encodeResponse`) and read back by the client.
-/

namespace Hodu.Rpc

/-- crates/hodu_plugin/src/rpc.rs:47-53 written by serde -/
def encodeId : ReqId → Json
  | .number n => .int n
  | .string s => .str s

/-- crates/hodu_plugin/src/rpc.rs:55-62 written by serde: `data` is skipped when absent. -/
def encodeError (e : RpcError) : Json :=
  .obj ([("code", .int e.code), ("message", .str e.message)] ++
    (match e.data with | some d => [("data", d)] | none => []))

/-- crates/hodu_plugin/src/rpc.rs:27-36 written by serde: `result` and `error` are skipped when
absent (but written when present and `null`). -/
def encodeResponse (r : Response) : Json :=
  .obj ([("jsonrpc", .str "2.0")] ++
    (match r.result with | some v => [("result", v)] | none => []) ++
    (match r.error with | some e => [("error", encodeError e)] | none => []) ++
    [("id", encodeId r.id)])

/-- What the client should report for what the handler returned: the value, or the error. -/
def ReportOf {R : Type} (dec : Json → Option R) :
    Except RpcError Json → Except ClientError R → Prop
  | .ok v, o => ∃ x, dec v = some x ∧ o = .ok x
  | .error e, o => o = .error (.rpc e)

theorem decodeId_encodeId (n : Int) (h1 : -2 ^ 63 ≤ n) (h2 : n < 2 ^ 63) :
    decodeId (encodeId (.number n)) = some (.number n) := by
  simp only [encodeId, decodeId]
  rw [if_pos ⟨h1, h2⟩]

theorem decode_encode_ok (v : Json) (n : Int) (h1 : -2 ^ 63 ≤ n) (h2 : n < 2 ^ 63) :
    decodeResponse (encodeResponse ⟨some v, none, .number n⟩) =
      some ⟨(match v with | .null => none | w => some w), none, .number n⟩ := by
  have hid := decodeId_encodeId n h1 h2
  unfold decodeResponse encodeResponse
  simp [member, optError]
  cases v <;> simp [optMember, hid]

/-- An error a handler can return: its code is an `i32`, and its data, if any, is not `null`. -/
def RpcError.Sendable (e : RpcError) : Prop :=
  -2 ^ 31 ≤ e.code ∧ e.code < 2 ^ 31 ∧ e.data ≠ some .null

theorem decodeError_encodeError (e : RpcError) (h : e.Sendable) :
    decodeError (encodeError e) = some e := by
  obtain ⟨c, m, d⟩ := e
  obtain ⟨h1, h2, h3⟩ := h
  unfold decodeError encodeError
  cases d with
  | none =>
    simp [member, optMember]
    norm_num at h1 h2
    omega
  | some d =>
    simp [member]
    cases d <;> simp [optMember] at h3 ⊢ <;> (norm_num at h1 h2; omega)

theorem decode_encode_error (e : RpcError) (h : e.Sendable) (n : Int) (h1 : -2 ^ 63 ≤ n)
    (h2 : n < 2 ^ 63) :
    decodeResponse (encodeResponse ⟨none, some e, .number n⟩) =
      some ⟨none, some e, .number n⟩ := by
  have hid := decodeId_encodeId n h1 h2
  have he := decodeError_encodeError e h
  have ho : ∃ fs, encodeError e = .obj fs := ⟨_, rfl⟩
  obtain ⟨fs, ho⟩ := ho
  unfold decodeResponse encodeResponse
  simp [member, optMember]
  rw [ho] at he ⊢
  simp [optError, he, hid]

/-- **C56 (part).**  When the plugin server answers the request of a call with what its handler
returned (`respond`), and that text is read back by the client, then the call reports it: the
handler's value, unless that is `null`, or the handler's error.
Missing: handlers that return `()` (see `C56_full_false`). -/
theorem C56_report_partial {R : Type} (dec : Json → Option R) (n : Int) (h1 : -2 ^ 63 ≤ n)
    (h2 : n < 2 ^ 63) (res : Except RpcError Json)
    (hok : ∀ v, res = .ok v → v ≠ .null ∧ (dec v).isSome)
    (herr : ∀ e, res = .error e → e.Sendable) :
    ReportOf dec res (onResponse dec n (encodeResponse (Server.respond (.number n) res))) := by
  cases res with
  | ok v =>
    obtain ⟨hv, hd⟩ := hok v rfl
    obtain ⟨x, hx⟩ := Option.isSome_iff_exists.mp hd
    refine ⟨x, hx, ?_⟩
    unfold onResponse Server.respond
    rw [decode_encode_ok v n h1 h2]
    cases v with
    | null => exact absurd rfl hv
    | _ => simp [hx]
  | error e =>
    show onResponse dec n (encodeResponse ⟨none, some e, .number n⟩) = .error (.rpc e)
    unfold onResponse
    rw [decode_encode_error e (herr e rfl) n h1 h2]
    simp

/-- C56_report_partial applies to a handler returning 7. -/
example : onResponse exDec 3 (encodeResponse (Server.respond (.number 3) (.ok (.int 7)))) =
    .ok 7 := rfl

/-- **C56 is false of the code.**  A handler that succeeds with `()` (serialised as `null`) makes
every call fail with `NoResult`, also where the caller ignores the value (`save_model`,
`save_tensor`, `build` decode into `serde_json::Value`, which accepts anything). -/
theorem C56_full_false : ¬ ∀ (n : Int) (res : Except RpcError Json), -2 ^ 63 ≤ n → n < 2 ^ 63 →
    (∀ e, res = .error e → e.Sendable) →
    ReportOf (some : Json → Option Json) res
      (onResponse some n (encodeResponse (Server.respond (.number n) res))) := by
  intro h
  obtain ⟨x, -, hx⟩ := h 1 (.ok .null) (by norm_num) (by norm_num) (by intro e he; cases he)
  cases hx

end Hodu.Rpc
