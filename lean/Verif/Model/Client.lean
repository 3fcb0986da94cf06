import Verif.Model.Server
/-
Model of a connection between the LLDB command `rd` and the server, both sides running: rudy-lldb/python/rudy_lldb.py
(RudyConnection, rudy_command) and rudy-lldb/src/server.rs (run_server_loop, send_event_request).

A step is one action of one side: the user types a command, the client reads a message and acts on it, the server reads
a line or writes a message.  The steps of the two sides interleave in any order.  Each direction of the socket is a
queue of messages (Model/Wire.lean has their text).  What LLDB answers to an event is not determined: any answer at
all, or one the server cannot read (a number that does not fit 64 bits).
-/
namespace Rudy.Client
open Rudy Rudy.Server

/-- What the client answered to an event; `none` is an answer the server cannot read. -/
abbrev Exchange := Event × Option Answer

/-- A command the user has given, with the events answered for it so far. -/
structure Call where
  cmd : Str
  args : List Str
  exchanges : List Exchange

/-- A command that is over, and what it led to: the final message, or `none` if the connection was closed. -/
structure Entry where
  call : Call
  outcome : Option ServerMsg

/-- Where the thread that serves the connection is (server.rs:124-209): before `init`, at the top of the loop, in
`handle_command` (with the rest of the computation), in `send_event_request` waiting for a line, or gone. -/
inductive Srv where
  | start
  | ready (B : Backend)
  | running (B : Backend) (cmd : Str) (c : Conv ServerMsg)
  | waiting (B : Backend) (cmd : Str) (k : Option Answer → Conv ServerMsg)
  | stopped

/-- Both sides and what is under way between them.  `trace` records what the server reads and writes. -/
structure Sys where
  toServer : List Line
  toClient : List ServerMsg
  srv : Srv
  call : Option Call
  log : List Entry
  trace : List Server.Step

/-- `RudyConnection.__init__`, rudy_lldb.py:48-67: the message that opens the session is sent, nothing is read. -/
def initial (path : Str) : Sys := ⟨[.msg (.init path)], [], .start, none, [], []⟩

/-- The line an answer makes. -/
def answerLine : Option Answer → Line
  | some a => .msg (.answer a)
  | none => .bad

/-- What `send_event_request` makes of a line, server.rs:193-207. -/
def answerOf : Line → Option Answer
  | .msg (.answer a) => some a
  | _ => none

/-- A message that ends a command (`send_command`, rudy_lldb.py:99). -/
def isFinal : ServerMsg → Bool
  | .event _ => false
  | _ => true

/-- The user gives a command; `send_command` writes it, rudy_lldb.py:83-89. -/
inductive User : Sys → Sys → Prop where
  | give {s : Sys} (cmd : Str) (args : List Str) : s.call = none →
      User s { s with toServer := s.toServer ++ [.msg (.command cmd args)], call := some ⟨cmd, args, []⟩ }

/-- A step of the client or of the server. -/
inductive Internal (load : Str → Option Backend) : Sys → Sys → Prop where
  /-- `_handle_event` and `_send_message`, rudy_lldb.py:95-98. -/
  | event {s : Sys} {e : Event} {r : List ServerMsg} {c : Call} (a : Option Answer) : s.call = some c → s.toClient = .event e :: r →
      Internal load s { s with toClient := r, toServer := s.toServer ++ [answerLine a],
                               call := some { c with exchanges := c.exchanges ++ [(e, a)] } }
  /-- `return response`, rudy_lldb.py:99-100. -/
  | final {s : Sys} {m : ServerMsg} {r : List ServerMsg} {c : Call} : s.call = some c → s.toClient = m :: r → isFinal m = true →
      Internal load s { s with toClient := r, call := none, log := s.log ++ [⟨c, some m⟩] }
  /-- `raise ConnectionError`, rudy_lldb.py:79-80, caught at 1125. -/
  | closed {s : Sys} {c : Call} : s.call = some c → s.toClient = [] → s.srv = .stopped →
      Internal load s { s with call := none, log := s.log ++ [⟨c, none⟩] }
  /-- `init`, server.rs:94-107, with a binary that loads. -/
  | opened {s : Sys} {p : Str} {r : List Line} {B : Backend} : s.srv = .start → s.toServer = .msg (.init p) :: r → load p = some B →
      Internal load s { s with toServer := r, srv := .ready B, trace := s.trace ++ [.got (.msg (.init p))] }
  /-- `init`, server.rs:104-105: the binary does not load. -/
  | refused {s : Sys} {p : Str} {r : List Line} : s.srv = .start → s.toServer = .msg (.init p) :: r → load p = none →
      Internal load s { s with toServer := r, srv := .stopped, trace := s.trace ++ [.got (.msg (.init p))] }
  /-- `init`, server.rs:108-116: a shutdown. -/
  | shutdownFirst {s : Sys} {cmd : Str} {args : List Str} {r : List Line} : s.srv = .start →
      s.toServer = .msg (.command cmd args) :: r → cmd = chars! "shutdown" →
      Internal load s { s with toServer := r, srv := .stopped,
                               toClient := s.toClient ++ [.complete (chars! "{\"status\":\"shutting down\"}")],
                               trace := s.trace ++ [.got (.msg (.command cmd args)), .sent (.complete (chars! "{\"status\":\"shutting down\"}"))] }
  /-- `init`, server.rs:117-119: anything else. -/
  | badFirst {s : Sys} {l : Line} {r : List Line} : s.srv = .start → s.toServer = l :: r →
      (∀ p, l ≠ .msg (.init p)) → (∀ args, l ≠ .msg (.command (chars! "shutdown") args)) →
      Internal load s { s with toServer := r, srv := .stopped, trace := s.trace ++ [.got l] }
  /-- The top of the loop, server.rs:134-164: a command is read. -/
  | command {s : Sys} {B : Backend} {cmd : Str} {args : List Str} {r : List Line} : s.srv = .ready B →
      s.toServer = .msg (.command cmd args) :: r →
      Internal load s { s with toServer := r, srv := .running B cmd (handleCommand B cmd args),
                               trace := s.trace ++ [.got (.msg (.command cmd args))] }
  /-- The top of the loop, server.rs:142-148: an unreadable line. -/
  | unreadable {s : Sys} {B : Backend} {r : List Line} : s.srv = .ready B → s.toServer = .bad :: r →
      Internal load s { s with toServer := r, toClient := s.toClient ++ [.error], trace := s.trace ++ [.got .bad, .sent .error] }
  /-- The top of the loop, server.rs:159-164: a message out of place. -/
  | misplaced {s : Sys} {B : Backend} {m : ClientMsg} {r : List Line} : s.srv = .ready B → s.toServer = .msg m :: r →
      (∀ cmd args, m ≠ .command cmd args) →
      Internal load s { s with toServer := r, srv := .stopped, trace := s.trace ++ [.got (.msg m)] }
  /-- `send_event_request`, server.rs:183-185. -/
  | asks {s : Sys} {B : Backend} {cmd : Str} {e : Event} {k : Option Answer → Conv ServerMsg} : s.srv = .running B cmd (.ask e k) →
      Internal load s { s with toClient := s.toClient ++ [.event e], srv := .waiting B cmd k, trace := s.trace ++ [.sent (.event e)] }
  /-- `send_event_request`, server.rs:192-208. -/
  | answered {s : Sys} {B : Backend} {cmd : Str} {k : Option Answer → Conv ServerMsg} {l : Line} {r : List Line} : s.srv = .waiting B cmd k →
      s.toServer = l :: r →
      Internal load s { s with toServer := r, srv := .running B cmd (k (answerOf l)), trace := s.trace ++ [.got l] }
  /-- The end of the iteration, server.rs:166-167. -/
  | responds {s : Sys} {B : Backend} {cmd : Str} {m : ServerMsg} : s.srv = .running B cmd (.ok m) → cmd ≠ chars! "shutdown" →
      Internal load s { s with toClient := s.toClient ++ [m], srv := .ready B, trace := s.trace ++ [.sent m] }
  /-- The end of the iteration, server.rs:166-173: the process exits. -/
  | exits {s : Sys} {B : Backend} {cmd : Str} {m : ServerMsg} : s.srv = .running B cmd (.ok m) → cmd = chars! "shutdown" →
      Internal load s { s with toClient := s.toClient ++ [m], srv := .stopped, trace := s.trace ++ [.sent m] }
  /-- `?` at server.rs:164. -/
  | fails {s : Sys} {B : Backend} {cmd : Str} : s.srv = .running B cmd .err →
      Internal load s { s with srv := .stopped }
  /-- A panic ends the thread, server.rs:35. -/
  | panics {s : Sys} {B : Backend} {cmd : Str} : s.srv = .running B cmd .panic →
      Internal load s { s with srv := .stopped }

/-- The user stops a command that takes too long: `KeyboardInterrupt` is not an `Exception`, so it leaves
`send_command` (rudy_lldb.py:92-102) and `rudy_command` (1125); the connection stays. -/
inductive Interrupt : Sys → Sys → Prop where
  | stop {s : Sys} {c : Call} : s.call = some c → Interrupt s { s with call := none }

/-- States a connection can be in, without interrupts. -/
inductive Reach (load : Str → Option Backend) (path : Str) : Sys → Prop where
  | init : Reach load path (initial path)
  | user {s s' : Sys} : Reach load path s → User s s' → Reach load path s'
  | step {s s' : Sys} : Reach load path s → Internal load s s' → Reach load path s'

/-- States a connection can be in, with interrupts. -/
inductive ReachI (load : Str → Option Backend) (path : Str) : Sys → Prop where
  | init : ReachI load path (initial path)
  | user {s s' : Sys} : ReachI load path s → User s s' → ReachI load path s'
  | step {s s' : Sys} : ReachI load path s → Internal load s s' → ReachI load path s'
  | stop {s s' : Sys} : ReachI load path s → Interrupt s s' → ReachI load path s'

end Rudy.Client
