import Mathlib.Data.List.Basic

/-!
# JSON-RPC between the command line and a plugin process

Models `crates/hodu_plugin/src/rpc.rs` (message types and how serde reads them) and
`crates/hodu_plugin_runtime/src/client.rs` (`PluginClient::call`, `CancellationHandle::cancel`,
`is_protocol_compatible`).

What is not modelled: the text of JSON (a parser `String → Option Json` is a parameter of every
definition, so the theorems hold for every parser), and the interior of a cancel, which another
thread performs: it is one atomic step here, while in the code its atomic load, its atomic
`fetch_add` and its write to stdin may be separated by steps of the calling thread.
-/

namespace Hodu.Rpc

/-- A JSON text after lexing, objects still as the list of the members in the order of the text
(so with possible duplicates).  `int` is an integer literal, `float` any other number. -/
inductive Json where
  | null
  | bool (b : Bool)
  | int (n : Int)
  | float (x : Nat)
  | str (s : String)
  | arr (l : List Json)
  | obj (fields : List (String × Json))

/-- crates/hodu_plugin/src/rpc.rs:47-53 `RequestId` -/
inductive ReqId where
  | number (n : Int)
  | string (s : String)
  deriving DecidableEq

/-- crates/hodu_plugin/src/rpc.rs:55-62 `RpcError` -/
structure RpcError where
  code : Int
  message : String
  data : Option Json

/-- crates/hodu_plugin/src/rpc.rs:27-36 `Response` -/
structure Response where
  result : Option Json
  error : Option RpcError
  id : ReqId

/-- What serde's derived map visitor sees of one member: absent, once, or more than once (which
is an error for a known field). -/
inductive Member where
  | missing
  | one (v : Json)
  | dup

/-- Looks one member up the way a derived `Deserialize` does (rpc.rs:18-62 derive it). -/
def member (k : String) (fields : List (String × Json)) : Member :=
  match fields.filter (fun f => f.1 == k) with
  | [] => .missing
  | [f] => .one f.2
  | _ => .dup

/-- An `Option<Value>` member: absent and `null` both read as `None`
(rpc.rs:31-32, 60-61: serde treats a missing `Option` field as `None`, and `null` as `None`). -/
def optMember (m : Member) : Option (Option Json) :=
  match m with
  | .missing => some none
  | .one .null => some none
  | .one v => some (some v)
  | .dup => none

/-- crates/hodu_plugin/src/rpc.rs:47-53: the untagged enum tries an `i64`, then a string. -/
def decodeId (j : Json) : Option ReqId :=
  match j with
  | .int n => if -2 ^ 63 ≤ n ∧ n < 2 ^ 63 then some (.number n) else none
  | .str s => some (.string s)
  | _ => none

/-- crates/hodu_plugin/src/rpc.rs:55-62: `code: i32`, `message: String`, `data: Option<Value>`.
Simplification: serde would also accept an array `[code, message, data]` here. -/
def decodeError (j : Json) : Option RpcError :=
  match j with
  | .obj fs =>
    match member "code" fs, member "message" fs, optMember (member "data" fs) with
    | .one (.int n), .one (.str s), some d =>
      if -2 ^ 31 ≤ n ∧ n < 2 ^ 31 then some ⟨n, s, d⟩ else none
    | _, _, _ => none
  | _ => none

/-- crates/hodu_plugin/src/rpc.rs:33-34 `error: Option<RpcError>` -/
def optError (m : Member) : Option (Option RpcError) :=
  match m with
  | .missing => some none
  | .one .null => some none
  | .one v => (decodeError v).map some
  | .dup => none

/-- crates/hodu_plugin/src/rpc.rs:27-36, used at client.rs:323.  The client only gets here for
objects (it has found a member `id`), so the array form serde also accepts is left out. -/
def decodeResponse (j : Json) : Option Response :=
  match j with
  | .obj fs =>
    match member "jsonrpc" fs, optMember (member "result" fs), optError (member "error" fs),
        member "id" fs with
    | .one (.str _), some r, some e, .one i => (decodeId i).map fun i => ⟨r, e, i⟩
    | _, _, _, _ => none
  | _ => none

/-- `value.get("id").is_some()` on the parsed `serde_json::Value` (client.rs:312): only objects
have members; a member present with the value `null` counts as present. -/
def hasId (j : Json) : Bool :=
  match j with
  | .obj fs => fs.any fun f => f.1 == "id"
  | _ => false

/-- crates/hodu_plugin_runtime/src/client.rs:364-377, the errors `call` can return -/
inductive ClientError where
  | io
  | parse
  | connectionClosed
  | idMismatch
  | noResult
  | rpc (e : RpcError)
  | timeout

/-- A request written to the plugin's stdin (crates/hodu_plugin/src/rpc.rs:18-25). -/
structure Sent where
  id : Int
  method : String
  params : Option Json

/-- crates/hodu_plugin_runtime/src/client.rs:59-66: the two shared counters; `sent` is the log of
the requests written so far (a ghost, the code does not keep it). -/
structure Client where
  nextId : Int
  currentId : Int
  sent : List Sent

/-- crates/hodu_plugin_runtime/src/client.rs:98-99 -/
def Client.new : Client := ⟨1, 0, []⟩

/-- `AtomicI64::fetch_add` wraps around. -/
def wrapI64 (n : Int) : Int := Int.bmod n (2 ^ 64)

/-- Something that happens while a call waits: `recv_timeout` returns (client.rs:296-301), or
another thread cancels (client.rs:33-56). -/
inductive Event where
  | line (l : String)
  | ioError
  | timeout
  | disconnected
  | cancel

/-- crates/hodu_plugin_runtime/src/client.rs:33-56 `CancellationHandle::cancel`, with a
successful write. -/
def Client.cancel (c : Client) : Client :=
  if c.currentId = 0 then c
  else
    { c with
      nextId := wrapI64 (c.nextId + 1)
      sent := c.sent ++ [⟨c.nextId, "$/cancel", some (.obj [("id", .int c.currentId)])⟩] }

/-- crates/hodu_plugin_runtime/src/client.rs:155-167 `shutdown`, with a successful write. -/
def Client.shutdown (c : Client) : Client :=
  { c with
    nextId := wrapI64 (c.nextId + 1)
    sent := c.sent ++ [⟨c.nextId, "shutdown", none⟩] }

/-- crates/hodu_plugin_runtime/src/client.rs:323-337: what a call makes of a line that has an
`id`.  `dec` is `serde_json::from_value::<R>`. -/
def onResponse {R : Type} (dec : Json → Option R) (id : Int) (j : Json) : Except ClientError R :=
  match decodeResponse j with
  | none => .error .parse
  | some r =>
    if r.id ≠ .number id then .error .idMismatch
    else
      match r.error with
      | some e => .error (.rpc e)
      | none =>
        match r.result with
        | none => .error .noResult
        | some v =>
          match dec v with
          | none => .error .parse
          | some x => .ok x

/-- crates/hodu_plugin_runtime/src/client.rs:294-338, the loop of `call`, over the events in the
order in which they happen; also returns the events not yet looked at.  `none`: still waiting. -/
def recvLoop {R : Type} (parse : String → Option Json) (dec : Json → Option R) (id : Int) :
    Client → List Event → Client × Option (Except ClientError R) × List Event
  | c, [] => (c, none, [])
  | c, .cancel :: es => recvLoop parse dec id c.cancel es
  | c, .ioError :: es => (c, some (.error .io), es)
  | c, .timeout :: es => (c, some (.error .timeout), es)
  | c, .disconnected :: es => (c, some (.error .connectionClosed), es)
  | c, .line l :: es =>
    if l = "" then (c, some (.error .connectionClosed), es)
    else
      match parse l with
      | none => (c, some (.error .parse), es)
      | some j =>
        if hasId j then ({ c with currentId := 0 }, some (onResponse dec id j), es)
        else recvLoop parse dec id c es

/-- crates/hodu_plugin_runtime/src/client.rs:263-292 and the loop: `sendOk` says whether the
write to stdin succeeds (289-291).  Serialising the parameters (274-277) is taken to succeed. -/
def Client.call {R : Type} (parse : String → Option Json) (dec : Json → Option R) (c : Client)
    (method : String) (params : Option Json) (sendOk : Bool) (es : List Event) :
    Client × Option (Except ClientError R) × List Event :=
  let c1 : Client := { c with nextId := wrapI64 (c.nextId + 1), currentId := c.nextId }
  if sendOk then
    recvLoop parse dec c.nextId { c1 with sent := c1.sent ++ [⟨c.nextId, method, params⟩] } es
  else (c1, some (.error .io), es)

/-! ## Protocol versions -/

/-- `str::split('.')` (client.rs:383-384): always at least one piece. -/
def splitDot : List Char → List (List Char)
  | [] => [[]]
  | c :: cs =>
    if c = '.' then [] :: splitDot cs
    else
      match splitDot cs with
      | [] => [[c]]
      | p :: ps => (c :: p) :: ps

/-- Value of one ASCII digit. -/
def digit? (c : Char) : Option Nat :=
  if '0'.toNat ≤ c.toNat ∧ c.toNat ≤ '9'.toNat then some (c.toNat - '0'.toNat) else none

/-- The digits of `u32::from_str`, most significant first; overflow is an error. -/
def parseDigits : Nat → List Char → Option Nat
  | acc, [] => some acc
  | acc, c :: cs =>
    match digit? c with
    | none => none
    | some d => if acc * 10 + d < 2 ^ 32 then parseDigits (acc * 10 + d) cs else none

/-- `str::parse::<u32>` (client.rs:383-384): an optional `+`, then at least one digit. -/
def parseU32 (cs : List Char) : Option Nat :=
  match cs with
  | '+' :: c :: rest => parseDigits 0 (c :: rest)
  | c :: rest => if c = '+' then none else parseDigits 0 (c :: rest)
  | [] => none

/-- client.rs:383-393: the numeric pieces, the first two of them with default `0`. -/
def versionKey (v : List Char) : Nat × Nat :=
  let parts := (splitDot v).filterMap parseU32
  (parts.head?.getD 0, parts[1]?.getD 0)

/-- crates/hodu_plugin_runtime/src/client.rs:382-402 `is_protocol_compatible` -/
def isProtocolCompatible (v1 v2 : List Char) : Bool :=
  let k1 := versionKey v1
  let k2 := versionKey v2
  if k1.1 = 0 ∨ k2.1 = 0 then k1.1 == k2.1 && k1.2 == k2.2
  else k1.1 == k2.1

end Hodu.Rpc
