import Verif.Model.JsonText

/-!
# The gRPC service

crates/protocol/src/proto/remote_runner.RemoteRunner.rs: the client's and the server's stubs of the four methods, around the messages and
the codec of `Verif.Model.Wire` and `Verif.Model.JsonText`.  What is modelled of tonic 0.9: a call is a path and a request message, its
answer a list of messages and a status; a message longer than the limit is refused by whoever receives it (the limit is
4 MB on both sides, as no other is configured: lines 71, 220-221, client.rs:12 and runner_server.rs:31).  Not modelled: framing,
compression, metadata, the texts of tonic's own errors, answers that never end.
-/

namespace AstroRun.Wire

/-- The methods of the service: crates/protocol/build.rs:8-13. -/
inductive Method
  | getRunnerMetadata | run | sendEvent | callBeforeRunStepHook
  deriving DecidableEq, Repr

/-- `tonic::Status`: the gRPC code and the text. -/
structure Status where
  code : Nat
  message : String := ""
  deriving DecidableEq, Repr

/-- The type of the request: remote_runner.RemoteRunner.rs:84, 115, 138, 160. -/
@[reducible] def Method.Req (Pl : Type) : Method → Type
  | .getRunnerMetadata => Unit
  | .run => Context
  | .sendEvent => ProtocolEvent Pl
  | .callBeforeRunStepHook => Command

/-- The type of the answer: remote_runner.RemoteRunner.rs:86, 117, 139, 161.  For `Run` it is a stream (203-207), whose items may be
errors. -/
@[reducible] def Method.Answer : Method → Type
  | .getRunnerMetadata => RunnerMeta
  | .run => List (Except Status RunResponse)
  | .sendEvent => Unit
  | .callBeforeRunStepHook => Command

/-- crates/protocol/src/lib.rs:6-7 (`Empty`), as an object. -/
def encEmpty (_ : Unit) : Json := .obj []
def decEmpty (v : Json) : Option Unit := (fieldsOf [] v).map fun _ => ()

/-- What the client's codec writes: remote_runner.RemoteRunner.rs:101, 130, 151, 173. -/
def Method.encReq {Pl : Type} (x : Ext Pl) : (m : Method) → m.Req Pl → Json
  | .getRunnerMetadata => encEmpty
  | .run => encContext
  | .sendEvent => encEvent x
  | .callBeforeRunStepHook => encCommand

/-- What the server's codec reads: remote_runner.RemoteRunner.rs:312, 356, 400, 444. -/
def Method.decReq {Pl : Type} (x : Ext Pl) : (m : Method) → Json → Option (m.Req Pl)
  | .getRunnerMetadata => decEmpty
  | .run => decContext
  | .sendEvent => decEvent x
  | .callBeforeRunStepHook => decCommand

/-- The path the client's method asks for: remote_runner.RemoteRunner.rs:102-104, 131-133, 152-154, 174-176. -/
def Method.path : Method → String
  | .getRunnerMetadata => "/remote_runner.RemoteRunner/GetRunnerMetadata"
  | .run => "/remote_runner.RemoteRunner/Run"
  | .sendEvent => "/remote_runner.RemoteRunner/SendEvent"
  | .callBeforeRunStepHook => "/remote_runner.RemoteRunner/CallBeforeRunStepHook"

/-- The arm of the server's `match req.uri().path()`: remote_runner.RemoteRunner.rs:289-490; `none` is the last one (478-488). -/
def serverRoute (p : String) : Option Method :=
  if p = "/remote_runner.RemoteRunner/GetRunnerMetadata" then some .getRunnerMetadata
  else if p = "/remote_runner.RemoteRunner/Run" then some .run
  else if p = "/remote_runner.RemoteRunner/SendEvent" then some .sendEvent
  else if p = "/remote_runner.RemoteRunner/CallBeforeRunStepHook" then some .callBeforeRunStepHook
  else none

/-- tonic's limit of a received message (remote_runner.RemoteRunner.rs:71 and 255 say 4 MB). -/
def maxMessage : Nat := 4 * 1024 * 1024

/-- A message is received: tonic's limit, then json_codec.rs:25-33.  An empty message where one is needed is an error of
tonic's. -/
def receive {α : Type} (f : FloatText) (dec : Json → Option α) (msg : ByteArray) : Except Status α :=
  if msg.size > maxMessage then .error { code := 11 }
  else match codecDecode f dec msg with
    | some (some a) => .ok a
    | _ => .error { code := 13 }

/-- An answer under way: the messages and, unless all went well, a status. -/
structure Sent where
  messages : List ByteArray := []
  status : Option Status := none

/-- The server sends the items of a stream up to the first error (tonic's `server_streaming`, remote_runner.RemoteRunner.rs:365). -/
def sendItems (f : FloatText) : List (Except Status RunResponse) → Sent
  | [] => {}
  | .ok r :: rest =>
    let s := sendItems f rest
    { s with messages := codecEncode f (encResponse r) :: s.messages }
  | .error e :: _ => { status := some e }

/-- The server sends an answer: remote_runner.RemoteRunner.rs:321, 365, 409, 453. -/
def Method.send (f : FloatText) : (m : Method) → m.Answer → Sent
  | .getRunnerMetadata, r => { messages := [codecEncode f (encMeta r)] }
  | .run, items => sendItems f items
  | .sendEvent, r => { messages := [codecEncode f (encEmpty r)] }
  | .callBeforeRunStepHook, r => { messages := [codecEncode f (encCommand r)] }

/-- The client reads the one message of a unary call (tonic's `unary`, remote_runner.RemoteRunner.rs:111, 156, 184). -/
def receiveOne {α : Type} (f : FloatText) (dec : Json → Option α) (s : Sent) : Except Status α :=
  match s.messages, s.status with
  | [], some e => .error e
  | [], none => .error { code := 13 }
  | m :: _, none => receive f dec m
  | m :: _, some e => match receive f dec m with
    | .ok _ => .error e
    | .error e' => .error e'

/-- The client reads the items of a stream until the end or the first error (tonic's `Streaming`). -/
def receiveItems (f : FloatText) (status : Option Status) : List ByteArray → List (Except Status RunResponse)
  | [] => match status with
    | some e => [.error e]
    | none => []
  | m :: rest => match receive f decResponse m with
    | .ok r => .ok r :: receiveItems f status rest
    | .error e => [.error e]

/-- The client reads an answer. -/
def Method.readAnswer (f : FloatText) : (m : Method) → Sent → Except Status m.Answer
  | .getRunnerMetadata, s => receiveOne f decMeta s
  -- tonic's `server_streaming`: a status without a stream is the error of the call
  | .run, s => .ok (receiveItems f s.status s.messages)
  | .sendEvent, s => receiveOne f decEmpty s
  | .callBeforeRunStepHook, s => receiveOne f decCommand s

/-- The methods of whoever implements the service: remote_runner.RemoteRunner.rs:195-219. -/
def Handlers (Pl : Type) : Type := (m : Method) → m.Req Pl → Except Status m.Answer

/-- What the implementation was called with. -/
abbrev Called (Pl : Type) : Type := (m : Method) × m.Req Pl

/-- The server's `call`: remote_runner.RemoteRunner.rs:287-490; who is called, and what is sent: an answer, or a status alone. -/
def serve {Pl : Type} (f : FloatText) (x : Ext Pl) (h : Handlers Pl) (path : String) (request : ByteArray) :
    List (Called Pl) × Except Status Sent :=
  match serverRoute path with
  -- remote_runner.RemoteRunner.rs:478-488
  | none => ([], .error { code := 12 })
  | some m => match receive f (m.decReq x) request with
    | .error e => ([], .error e)
    | .ok q => ([⟨m, q⟩], (h m q).map (m.send f))

/-- A call through the client's stub, with the service ready or not: remote_runner.RemoteRunner.rs:82-185. -/
def rpc {Pl : Type} (f : FloatText) (x : Ext Pl) (h : Handlers Pl) (ready : Except String Unit) (m : Method)
    (q : m.Req Pl) : List (Called Pl) × Except Status m.Answer :=
  match ready with
  -- remote_runner.RemoteRunner.rs:89-99
  | .error e => ([], .error { code := 2, message := "Service was not ready: " ++ e })
  | .ok () =>
    let s := serve f x h m.path (codecEncode f (m.encReq x q))
    (s.1, s.2.bind (m.readAnswer f))

/-- What the client tells the stream of a step. -/
inductive Told
  | log (message : String)
  | error (message : String)
  | fin (r : RunResult)
  deriving DecidableEq, Repr

/-- crates/remote-runner/src/client.rs:255-284, without signals: the stream of a run is read. -/
def readRun (shown : Status → String) : List (Except Status RunResponse) → List Told
  | [] => []
  | .ok (.log _ l) :: rest => (if l.isError then .error l.message else .log l.message) :: readRun shown rest
  | .ok (.result _ r) :: rest => .fin r :: readRun shown rest
  | .error e :: _ => [.error ("Failed to run: " ++ shown e), .fin (.failed 1)]

/-- crates/remote-runner/src/client.rs:238-284 (`run`), without signals. -/
def clientRun {Pl : Type} (f : FloatText) (x : Ext Pl) (h : Handlers Pl) (ready : Except String Unit)
    (shown : Status → String) (c : Context) : List Told :=
  match (rpc f x h ready .run c).2 with
  | .error e => [.error ("Failed to run: " ++ shown e), .fin (.failed 1)]
  | .ok items => readRun shown items

end AstroRun.Wire
