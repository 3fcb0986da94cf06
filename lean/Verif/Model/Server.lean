import Verif.Model.Expr
import Verif.Model.Layout
/-
Model of a debug session: rudy-lldb/src/server.rs and rudy-lldb/src/protocol.rs.

The socket is modelled by the lines the client sends and the messages the server sends.  JSON encoding
and decoding (serde_json) is not modelled: a line is either undecodable or a decoded message.  Writing
to the socket and reading from it are assumed not to fail with an I/O error.  Log output is dropped, and
so are the texts of error messages.
-/
namespace Rudy.Server
open Rudy Rudy.Expr

/-- Models `MethodCallResult`, protocol.rs:33-42. -/
inductive CallResult where
  | simple (value : Nat) (ty : Str)
  | complex (address size : Nat) (ty : Str)

/-- Models `MethodArgument` and `ArgumentType`, protocol.rs:8-30. -/
inductive ArgType where
  | pointer | integer | bool | float
structure Arg where
  value : Str
  ty : ArgType
  size : Option Nat

/-- Models `EventRequest`, protocol.rs:86-129. -/
inductive Event where
  | readMemory (address size : Nat)
  | readRegister (name : Str)
  | readRegisterByIndex (index : Nat)
  | getFrameInfo
  | getThreadInfo
  | getBaseAddress
  | evaluateLldb (expr : Str)
  | executeMethod (address base : Nat) (args : List Arg) (retSize : Option Nat)
  | executeFunction (address : Nat) (args : List Arg) (retSize : Option Nat)
  | getVariableType (name : Str)
  | allocate (size : Nat)
  | write (address : Nat) (data : List UInt8)

/-- Models `EventResponseData`, protocol.rs:191-223. -/
inductive Answer where
  | memory (data : List UInt8)
  | register (value : Nat)
  | frame (pc sp fp : Nat)
  | thread (tid : Nat) (name : Option Str)
  | base (address : Nat)
  | expression (value : Str)
  | method (r : CallResult)
  | function (r : CallResult)
  | variableType (name : Option Str)
  | allocated (address : Nat)
  | written
  | error (message : Str)

/-- Models `ClientMessage`, protocol.rs:45-58. -/
inductive ClientMsg where
  | init (path : Str)
  | command (cmd : Str) (args : List Str)
  | answer (a : Answer)

/-- Models `ServerMessage`, protocol.rs:61-75; a result is its JSON text. -/
inductive ServerMsg where
  | event (e : Event)
  | complete (result : Str)
  | error

/-- A line sent by the client, as `read_next_message` (server.rs:65-84) sees it: `bad` is an empty line,
bytes that are not UTF-8, or anything `serde_json::from_str::<ClientMessage>` rejects. -/
inductive Line where
  | bad
  | msg (m : ClientMsg)

/-- A computation that talks to the client through `send_event_request` (server.rs:183-209): it ends
with `Ok` or `Err`, panics, or sends an event and goes on with the result of `send_event_request`
(`none` is its `Err`).  The evaluator (evaluator.rs) and rudy-db reach the socket only that way. -/
inductive Conv (α : Type) where
  | ok (a : α)
  | err
  | panic
  | ask (e : Event) (k : Option Answer → Conv α)

/-- The `?` operator. -/
def Conv.bind {α β : Type} : Conv α → (α → Conv β) → Conv β
  | .ok a, f => f a
  | .err, _ => .err
  | .panic, _ => .panic
  | .ask e k, f => .ask e fun a => (k a).bind f

/-- `Result` seen as a computation without events. -/
def Conv.ofRes {α : Type} : Res α → Conv α
  | .ok a => .ok a
  | .err => .err
  | .panic => .panic

/-- `match result { Ok(v) => f(v), Err(e) => g }`. -/
def Conv.handle {α β : Type} : Conv α → (α → Conv β) → Conv β → Conv β
  | .ok a, f, _ => f a
  | .err, _, g => g
  | .panic, _, _ => .panic
  | .ask e k, f, g => .ask e fun a => (k a).handle f g

/-- What happens at the socket, in order: the server consumes a line or sends a message. -/
inductive Step where
  | got (l : Line)
  | sent (m : ServerMsg)

/-- How a connection ends: process exit, normal return (client gone), `Err` returned from
`run_server_loop`, or a panic of the thread serving it. -/
inductive Stop where
  | exit | closed | failed | crashed
deriving DecidableEq

/-- Models `send_event_request`, server.rs:183-209, on the remaining input, and the computation that
uses it: the steps taken, the result, and the input that is left. -/
def runConv {α : Type} : Conv α → List Line → List Step × Res α × List Line
  | .ok a, ls => ([], .ok a, ls)
  | .err, ls => ([], .err, ls)
  | .panic, ls => ([], .panic, ls)
  | .ask e k, [] =>
    let r := runConv (k none) []
    (.sent (.event e) :: r.1, r.2)
  | .ask e k, l :: ls =>
    let a := match l with
      | .msg (.answer a) => some a
      | _ => none
    let r := runConv (k a) ls
    (.sent (.event e) :: .got l :: r.1, r.2)

/-- What the session needs from the rest of the program (rudy-db and evaluator.rs), for one binary:
* `eval` is `EvalContext::evaluate` with the JSON of its result, `toRef` is
  `EvalContext::evaluate_to_ref` followed by `discover_methods_for_pointer` and the JSON of the methods;
* `typeMethods` is `lookup_type_by_name` (`Ok(Some(..))` or else `none`) followed by
  `discover_methods_for_type` on the type found;
* `functions` is `discover_functions`, `allFunctions` is `discover_all_functions`. -/
structure Backend where
  eval : Expr → Conv Str
  toRef : Expr → Conv Str
  typeMethods : Str → Option (Res Str)
  functions : Str → Res Str
  allFunctions : Res Str

/-- Models `is_variable`, evaluator.rs:157-170. -/
def isVariable (name : Str) : Conv Bool :=
  .ask (.getVariableType name) fun a =>
    .ok (match a with
      | some (.variableType (some _)) => true
      | _ => false)

/-- `match debug_info.lookup_type_by_name(..) { Ok(Some(t)) => discover..?, _ => Err }`, server.rs:323-351,
356-376, 404-429. -/
def typeOnly (B : Backend) (name : Str) : Conv Str :=
  match B.typeMethods name with
  | some r => .ofRes r
  | none => .err

/-- Models `handle_methods_command`, server.rs:302-431. -/
def handleMethods (B : Backend) (input : Str) : Conv Str :=
  match parseExpression input with
  | .panic => .panic
  | .err => typeOnly B input
  | .ok e =>
    match e with
    | .var name => (isVariable name).bind fun v => if v then B.toRef e else typeOnly B name
    | .path _ => typeOnly B e.print
    | .generic _ _ => typeOnly B e.print
    | _ => B.toRef e

/-- `match result { Ok(v) => Ok(Complete{..}), Err(e) => Ok(e.into()) }`, server.rs:240-245, 258-263,
269-274. -/
def respond (c : Conv Str) : Conv ServerMsg := c.handle (fun v => .ok (.complete v)) (.ok .error)

/-- Models `handle_command`, server.rs:212-289. -/
def handleCommand (B : Backend) (cmd : Str) (args : List Str) : Conv ServerMsg :=
  if cmd = chars! "eval" ∨ cmd = chars! "print" then
    if args.isEmpty then .ok .error
    else match parseExpression (joinWith (chars! " ") args) with
      | .ok e => respond (B.eval e)
      | .err => .ok .error
      | .panic => .panic
  else if cmd = chars! "methods" then
    if args.isEmpty then .ok .error
    else respond (handleMethods B (joinWith (chars! " ") args))
  else if cmd = chars! "functions" then
    match args with
    | [] => respond (.ofRes B.allFunctions)
    | p :: _ => respond (.ofRes (B.functions p))
  else if cmd = chars! "shutdown" then .ok (.complete (chars! "{\"status\":\"shutting down\"}"))
  else .ok .error

/-- Models the loop of `run_server_loop`, server.rs:134-178; `fuel` bounds the number of iterations (an
iteration consumes at least a line, see `session`). -/
def sessionLoop (B : Backend) : (fuel : Nat) → List Line → List Step × Stop
  | 0, _ => ([], .closed)
  | _ + 1, [] => ([], .closed)
  | n + 1, l :: ls =>
    match l with
    | .bad =>
      let r := sessionLoop B n ls
      (.got l :: .sent .error :: r.1, r.2)
    | .msg (.init _) => ([.got l], .failed)
    | .msg (.answer _) => ([.got l], .failed)
    | .msg (.command cmd args) =>
      let c := runConv (handleCommand B cmd args) ls
      match c.2.1 with
      | .panic => (.got l :: c.1, .crashed)
      | .err => (.got l :: c.1, .failed)
      | .ok m =>
        if cmd = chars! "shutdown" then (.got l :: (c.1 ++ [.sent m]), .exit)
        else
          let r := sessionLoop B n c.2.2
          (.got l :: (c.1 ++ .sent m :: r.1), r.2)

/-- Models `run_server_loop`, server.rs:124-181, with `init`, server.rs:94-121; `load` is
`DebugInfo::new` on the path of the binary (rudy-db), with the rest of the program for that binary. -/
def session (load : Str → Option Backend) : List Line → List Step × Stop
  | [] => ([], .failed)
  | l :: ls =>
    match l with
    | .msg (.init path) =>
      match load path with
      | none => ([.got l], .failed)
      | some B =>
        let r := sessionLoop B (ls.length + 1) ls
        (.got l :: r.1, r.2)
    | .msg (.command cmd _) =>
      if cmd = chars! "shutdown" then
        ([.got l, .sent (.complete (chars! "{\"status\":\"shutting down\"}"))], .exit)
      else ([.got l], .failed)
    | _ => ([.got l], .failed)

end Rudy.Server
