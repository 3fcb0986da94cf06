import Verif.Model.Calls
import Verif.Model.Wire
/-
Model of what the client does with LLDB for every event of the server, and of how the server reaches the process through
such events: rudy-lldb/python/rudy_lldb.py (`_handle_event` and the handlers) and rudy-lldb/src/evaluator.rs
(`RemoteDataAccess`, `get_pc`).

LLDB is a parameter (`Lldb`): what each of its calls returns in each state of the debugger, including that it raises.
The texts of error messages are dropped, and so is debug output.
-/
namespace Rudy.Remote
open Rudy Rudy.Server Rudy.Calls Rudy.Wire

/-- A frame as LLDB shows it: `GetPC`, `GetSP`, `GetFP`, `GetRegisters`, `FindVariable` (`none`: the value is not valid;
otherwise `GetTypeName`, which may be `None`). -/
structure Frame where
  pc : Nat
  sp : Nat
  fp : Nat
  registers : List (List Reg)
  find : Str → Option (Option Str)

/-- A thread: `GetThreadID`, `GetName`, `GetSelectedFrame` (`none`: not valid). -/
structure Thread where
  tid : Nat
  name : Option Str
  frame : Option Frame

/-- What `process.ReadMemory(address, size, error)` does: it raises, or returns data (maybe `None`) with `error.Success()`
or not. -/
inductive ReadOutcome where
  | raised
  | done (data : Option (List UInt8)) (success : Bool)

/-- What `process.WriteMemory(address, data, error)` does: it raises, or returns a count with `error.Success()` or not. -/
inductive WriteOutcome where
  | raised
  | done (count : Nat) (success : Bool)

/-- What `target.EvaluateExpression(text)` does: it raises, or returns a value with `IsValid()`, `GetError().Fail()`,
`GetValueAsUnsigned()`, the load addresses (`none` is `LLDB_INVALID_ADDRESS`), `GetValue()` and `GetSummary()`. -/
inductive EvalOutcome where
  | raised
  | value (valid fail : Bool) (unsigned : Nat) (load address : Option Nat) (text summary : Option Str)

/-- LLDB, with `σ` for its states (the debugged process included). Simplification: the calls that only look something
up do not raise. -/
structure Lldb (σ : Type) where
  /-- `debugger.GetSelectedTarget()` is valid. -/
  target : σ → Bool
  /-- `target.GetProcess()` is valid. -/
  process : σ → Bool
  /-- `process.GetSelectedThread()`. -/
  thread : σ → Option Thread
  /-- `target.GetModuleAtIndex(0)`, and `GetObjectFileHeaderAddress().GetLoadAddress(target)`. -/
  mainModule : σ → Option Nat
  read : σ → Nat → Nat → ReadOutcome
  write : σ → Nat → List UInt8 → WriteOutcome × σ
  evaluate : σ → Str → EvalOutcome × σ

variable {σ α : Type}

/-- `{"type": "EventResponse", "event": "Error", ..}`. -/
def failure : Answer := .error []

/-- Models `_handle_read_memory`, rudy_lldb.py:163-190; `list(None)` raises. -/
def handleRead (L : Lldb σ) (s : σ) (address size : Nat) : Answer :=
  match L.read s address size with
  | .done (some data) true => .memory data
  | _ => failure

/-- `thread = process.GetSelectedThread()`, `frame = thread.GetSelectedFrame()`, rudy_lldb.py:197-211, 245-259, 299-313. -/
def selectedFrame (L : Lldb σ) (s : σ) : Option Frame := (L.thread s).bind Thread.frame

/-- Models `_handle_read_register`, rudy_lldb.py:192-238. -/
def handleReadRegister (L : Lldb σ) (s : σ) (name : Str) : Answer :=
  match selectedFrame L s with
  | none => failure
  | some f =>
    match readRegister f.registers name with
    | some v => .register v
    | none => failure

/-- Models `_handle_read_register_by_index`, rudy_lldb.py:240-295. -/
def handleReadRegisterByIndex (L : Lldb σ) (s : σ) (index : Nat) : Answer :=
  match selectedFrame L s with
  | none => failure
  | some f =>
    match readRegisterByIndex f.registers index with
    | some v => .register v
    | none => failure

/-- Models `_handle_get_frame_info`, rudy_lldb.py:296-332. -/
def handleFrame (L : Lldb σ) (s : σ) : Answer :=
  match selectedFrame L s with
  | none => failure
  | some f => .frame f.pc f.sp f.fp

/-- Models `_handle_get_thread_info`, rudy_lldb.py:334-357; `thread.GetName() or None` turns an empty name into `None`. -/
def handleThread (L : Lldb σ) (s : σ) : Answer :=
  match L.thread s with
  | none => failure
  | some t => .thread t.tid (t.name.filter (· ≠ []))

/-- Models `_handle_get_base_address`, rudy_lldb.py:359-392. -/
def handleBase (L : Lldb σ) (s : σ) : Answer :=
  match L.mainModule s with
  | none => failure
  | some a => .base a

/-- `str(result.GetValue() or result.GetSummary() or "")`, rudy_lldb.py:406. -/
def shownText (text summary : Option Str) : Str :=
  match text.filter (· ≠ []) with
  | some t => t
  | none => (summary.filter (· ≠ [])).getD []

/-- Models `_handle_evaluate_expression`, rudy_lldb.py:394-421: only `IsValid()` is asked. -/
def handleEvaluate (L : Lldb σ) (s : σ) (expr : Str) : Answer × σ :=
  match L.evaluate s expr with
  | (.value true _ _ _ _ text summary, s') => (.expression (shownText text summary), s')
  | (_, s') => (failure, s')

/-- The outcome of an evaluation as the calls look at it, rudy_lldb.py:488, 523, 632, 667. -/
def outcome : EvalOutcome → Outcome
  | .value true false v load address _ _ => .value v load address
  | _ => .failed []

/-- Models `_handle_execute_method`, rudy_lldb.py:423-569. -/
def handleMethod (L : Lldb σ) (s : σ) (address base : Nat) (args : List Arg) (ret : Option Nat) : Answer × σ :=
  let r := L.evaluate s (methodExpr address base args ret)
  (match callResult ret (outcome r.1) with
   | some c => .method c
   | none => failure, r.2)

/-- Models `_handle_execute_function`, rudy_lldb.py:571-713. -/
def handleFunction (L : Lldb σ) (s : σ) (address : Nat) (args : List Arg) (ret : Option Nat) : Answer × σ :=
  let r := L.evaluate s (functionExpr address args ret)
  (match callResult ret (outcome r.1) with
   | some c => .function c
   | none => failure, r.2)

/-- Models `_handle_get_variable_type`, rudy_lldb.py:715-769. -/
def handleVariable (L : Lldb σ) (s : σ) (name : Str) : Answer :=
  match selectedFrame L s with
  | none => .variableType none
  | some f =>
    match f.find name with
    | some t => .variableType t
    | none => .variableType none

/-- `f"(void*)malloc({size})"`, rudy_lldb.py:780. -/
def mallocExpr (size : Nat) : Str := chars! "(void*)malloc(" ++ Layout.natStr size ++ chars! ")"

/-- Models `_handle_allocate_memory`, rudy_lldb.py:771-804. -/
def handleAllocate (L : Lldb σ) (s : σ) (size : Nat) : Answer × σ :=
  match L.evaluate s (mallocExpr size) with
  | (.value true false v _ _ _ _, s') => (.allocated v, s')
  | (_, s') => (failure, s')

/-- Models `_handle_write_memory`, rudy_lldb.py:806-848. -/
def handleWrite (L : Lldb σ) (s : σ) (address : Nat) (data : List UInt8) : Answer × σ :=
  match L.write s address data with
  | (.done count true, s') => (if count = data.length then .written else failure, s')
  | (_, s') => (failure, s')

/-- Models `_handle_event`, rudy_lldb.py:104-161, on an event it knows. -/
def handle (L : Lldb σ) (s : σ) (e : Event) : Answer × σ :=
  if L.target s = false then (failure, s)
  else if L.process s = false then (failure, s)
  else
    match e with
    | .readMemory a n => (handleRead L s a n, s)
    | .readRegister name => (handleReadRegister L s name, s)
    | .readRegisterByIndex i => (handleReadRegisterByIndex L s i, s)
    | .getFrameInfo => (handleFrame L s, s)
    | .getThreadInfo => (handleThread L s, s)
    | .getBaseAddress => (handleBase L s, s)
    | .evaluateLldb expr => handleEvaluate L s expr
    | .executeMethod address base args ret => handleMethod L s address base args ret
    | .executeFunction address args ret => handleFunction L s address args ret
    | .getVariableType name => (handleVariable L s name, s)
    | .allocate n => handleAllocate L s n
    | .write a d => handleWrite L s a d

/-- One round of the loop of `send_command`, rudy_lldb.py:92-98, on a line of the server that is an event: what is written
back; `none`: the line is something else. An event with fields of the wrong kinds makes a handler raise. -/
def clientTurn (L : Lldb σ) (s : σ) (line : Str) : Option Str × σ :=
  match clientLine line with
  | some (.event (some e)) => let r := handle L s e; (some (clientText (.answer r.1)), r.2)
  | some (.event none) => (some (clientText (.answer failure)), s)
  | _ => (none, s)

/-- The answer `send_event_request` gets out of the text the client sends, server.rs:181-203: `none` is an error. -/
def receive (text : Str) : Option Answer :=
  match (lines text []).map serverLine with
  | .msg (.answer a) :: _ => some a
  | _ => none

/-- `send_event_request`, server.rs:181-203, with the client at the other end of the connection: the event is written as
a line of text, the client reads that line, and the server reads the line that comes back. -/
def exchange (L : Lldb σ) (s : σ) (e : Event) : Option Answer × σ :=
  match lines (serverText (.event e)) [] with
  | l :: _ =>
    match clientTurn L s l with
    | (some t, s') => (receive t, s')
    | (none, s') => (none, s')
  | [] => (none, s)

/-- A computation of the server, with the client at the other end. -/
def talk (L : Lldb σ) : Conv α → σ → Res α × σ
  | .ok a, s => (.ok a, s)
  | .err, s => (.err, s)
  | .panic, s => (.panic, s)
  | .ask e k, s => let r := exchange L s e; talk L (k r.1) r.2

/-! ### The server's side -/

/-- Models `RemoteDataAccess::read_memory`, evaluator.rs:52-61. -/
def readMemory (address size : Nat) : Conv (List UInt8) :=
  .ask (.readMemory address size) fun
    | some (.memory data) => .ok data
    | _ => .err

/-- Models `RemoteDataAccess::get_register`, evaluator.rs:67-81. -/
def getRegister (index : Nat) : Conv Nat :=
  .ask (.readRegisterByIndex index) fun
    | some (.register v) => .ok v
    | _ => .err

/-- Models `RemoteDataAccess::read_register`, evaluator.rs:35-48. -/
def getRegisterNamed (name : Str) : Conv Nat :=
  .ask (.readRegister name) fun
    | some (.register v) => .ok v
    | _ => .err

/-- Models `RemoteDataAccess::read_address`, evaluator.rs:83-89. -/
def readAddress (address : Nat) : Conv Nat :=
  (readMemory address 8).bind fun bs => if bs.length = 8 then .ok (Data.leNat bs) else .err

/-- Models `RemoteDataAccess::allocate_memory`, evaluator.rs:91-102. -/
def allocateMemory (size : Nat) : Conv Nat :=
  .ask (.allocate size) fun
    | some (.allocated a) => .ok a
    | _ => .err

/-- Models `RemoteDataAccess::write_memory`, evaluator.rs:104-118. -/
def writeMemory (address : Nat) (data : List UInt8) : Conv Unit :=
  .ask (.write address data) fun
    | some .written => .ok ()
    | _ => .err

/-- Models `EvalContext::get_pc` when it has not been asked before, evaluator.rs:138-154. -/
def getPc : Conv Nat :=
  .ask .getFrameInfo fun
    | some (.frame pc _ _) => .ok pc
    | _ => .err

/-- Models evaluator.rs:398-441 and 863-904: the answer to `ExecuteMethod`. -/
def callMethod (address base : Nat) (args : List Arg) (ret : Option Nat) : Conv CallResult :=
  .ask (.executeMethod address base args ret) fun
    | some (.method r) => .ok r
    | _ => .err

/-- Models evaluator.rs:494-535 and 998-1041: the answer to `ExecuteFunction`. -/
def callFunction (address : Nat) (args : List Arg) (ret : Option Nat) : Conv CallResult :=
  .ask (.executeFunction address args ret) fun
    | some (.function r) => .ok r
    | _ => .err

end Rudy.Remote
