import Verif.Model.Rpc

/-!
# The plugin side of the protocol

Models `hodu-plugin-sdk/src/server.rs` (`PluginServer::run`, `handle_message`,
`handle_initialize`, the wrappers made by `method` and `method_no_params`).

The text of JSON is a parameter (`parseReq`, what `serde_json::from_str::<Request>` makes of a
line), and so is what the registered handlers do.  A handler may panic, which ends the process.
Writing to stdout is taken to succeed; printing a response is one line.
-/

namespace Hodu.Server

open Hodu.Rpc

/-- crates/hodu_plugin/src/rpc.rs:17-25 `Request` (the version field is read and not used) -/
structure Request where
  method : String
  params : Option Json
  id : ReqId

/-- What one run of a registered handler does: the notification lines it prints
(server.rs:23-42) and then its result, `none` for a panic. -/
structure Handled where
  notes : List String
  result : Option (Except RpcError Json)

/-- hodu-plugin-sdk/src/server.rs:62-75: the registered handlers by method name, already wrapped
(`method` 111-136 and `method_no_params` 139-157 make a function of the raw parameters), the flag
`initialized`, and the fixed answer to `initialize` (232-243). -/
structure State where
  handlers : String → Option (Option Json → Handled)
  initialized : Bool
  initParams : Json → Bool
  initResult : Json

/-- What one line of input did: the notifications printed, the response, if any, and whether a
registered handler ran. -/
structure Effect where
  notes : List String
  response : Option Response
  ranHandler : Bool

/-- How a line leaves the server: still running, exited or crashed. -/
inductive Next where
  | go (s : State)
  | stop

/-- crates/hodu_plugin/src/rpc.rs:296-303 `Response::error` -/
def errorResponse (id : ReqId) (code : Int) (msg : String) : Response :=
  ⟨none, some ⟨code, msg, none⟩, id⟩

/-- hodu-plugin-sdk/src/server.rs:214-217 and rpc.rs:287-303: the response for a result. -/
def respond (id : ReqId) : Except RpcError Json → Response
  | .ok v => ⟨some v, none, id⟩
  | .error e => ⟨none, some e, id⟩

/-- hodu-plugin-sdk/src/server.rs:220-244 `handle_initialize`; `initParams v` says whether
`serde_json::from_value::<InitializeParams>(v)` succeeds. -/
def handleInitialize (s : State) (params : Option Json) : State × Except RpcError Json :=
  if s.initialized then (s, .error ⟨-32600, "Already initialized", none⟩)
  else
    match params with
    | none => (s, .error ⟨-32602, "Missing params", none⟩)
    | some v =>
      if s.initParams v then ({ s with initialized := true }, .ok s.initResult)
      else (s, .error ⟨-32602, "invalid", none⟩)

/-- hodu-plugin-sdk/src/server.rs:182-218 `handle_message`: `req` is the parsed line, `none` when
it does not parse. -/
def handleMessage (s : State) (req : Option Request) : Next × Effect :=
  match req with
  | none => (.go s, ⟨[], some (errorResponse (.number 0) (-32700) "parse error"), false⟩)
  | some r =>
    if r.method = "initialize" then
      let x := handleInitialize s r.params
      (.go x.1, ⟨[], some (respond r.id x.2), false⟩)
    else if r.method = "shutdown" then (.stop, ⟨[], none, false⟩)
    else if s.initialized = false then
      (.go s, ⟨[], some (errorResponse r.id (-32600) "Server not initialized"), false⟩)
    else
      match s.handlers r.method with
      | none => (.go s, ⟨[], some (errorResponse r.id (-32601) "Method not found"), false⟩)
      | some h =>
        match (h r.params).result with
        | none => (.stop, ⟨(h r.params).notes, none, true⟩)
        | some x => (.go s, ⟨(h r.params).notes, some (respond r.id x), true⟩)

/-- hodu-plugin-sdk/src/server.rs:160-180 `run`: the input is a list of lines, `none` standing
for a line that cannot be read (I/O error or invalid UTF-8, line 166).  Returns what every line
that was read and is not empty did, in order. -/
def run (parseReq : String → Option Request) : State → List (Option String) → List (String × Effect)
  | _, [] => []
  | _, none :: _ => []
  | s, some l :: ls =>
    if l = "" then run parseReq s ls
    else
      match handleMessage s (parseReq l) with
      | (.go s', e) => (l, e) :: run parseReq s' ls
      | (.stop, e) => [(l, e)]

end Hodu.Server
