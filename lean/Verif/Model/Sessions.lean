import Verif.Model.Client
/-
Model of a server with all its connections: rudy-lldb/src/server.rs (run_server, 19-44) and the two clients that connect
to it, the LLDB command `rd` (rudy_lldb.py) and `rudy-lldb-server stop` (rudy-lldb/src/main.rs).

Each connection is served by a thread of its own (server.rs:35-41); the threads and the clients take their steps
(Model/Client.lean) in any order. What a thread can find when it opens a binary is its own parameter `load`, fixed when
the connection is made: the database is shared, but what one session reads does not depend on the others (C78).
A thread that panics or returns an error ends alone (server.rs:38-40); `std::process::exit` (server.rs:129, 171) ends all.
-/
namespace Rudy.Sessions
open Rudy Rudy.Server Rudy.Client

/-- Who has connected. -/
inductive Origin where
  | rd (path : Str)
  | stop
  | probe

/-- What a client has done when its connection is made: `RudyConnection.__init__` (rudy_lldb.py:48-67); `stop_server`
(main.rs:88-113), which sends the command and goes; `_ensure_server_running` (rudy_lldb.py:868-879), which closes the
connection at once, so that the thread ends at its first read (server.rs:97-100). -/
def Origin.begin : Origin → Sys
  | .rd path => initial path
  | .stop => ⟨[.msg (.command (chars! "shutdown") [])], [], .start, none, [], []⟩
  | .probe => ⟨[], [], .stopped, none, [], []⟩

/-- A connection. -/
structure Conn where
  load : Str → Option Backend
  origin : Origin
  sys : Sys

/-- The server process and its connections, by session number. -/
structure Server where
  alive : Bool
  conns : List Conn

/-- The thread is about to call `std::process::exit`: it has answered a `shutdown`, as the first message (server.rs:108-130)
or as a command (server.rs:166-173). -/
def Exits (s s' : Sys) : Prop :=
  s'.srv = .stopped ∧ ((∃ B m, s.srv = .running B (chars! "shutdown") (.ok m)) ∨
    (s.srv = .start ∧ ∃ args r, s.toServer = .msg (.command (chars! "shutdown") args) :: r))

/-- The connection when the process is gone: its thread takes no more steps, what it has written is still there to be
read, then the connection is closed. -/
def Conn.kill (c : Conn) : Conn := { c with sys := { c.sys with srv := .stopped } }

/-- A step of the whole. -/
inductive Step : Server → Server → Prop where
  /-- server.rs:30-43. -/
  | accept {S : Server} (load : Str → Option Backend) (o : Origin) : S.alive = true →
      Step S { S with conns := S.conns ++ [⟨load, o, o.begin⟩] }
  /-- A user gives a command. -/
  | user {S : Server} {i : Nat} {c : Conn} {p : Str} {s' : Sys} : S.conns[i]? = some c → c.origin = .rd p → User c.sys s' →
      Step S { S with conns := S.conns.set i { c with sys := s' } }
  /-- A client, or a thread of the server, does its next thing. -/
  | step {S : Server} {i : Nat} {c : Conn} {s' : Sys} : S.conns[i]? = some c → Internal c.load c.sys s' → ¬ Exits c.sys s' →
      Step S { S with conns := S.conns.set i { c with sys := s' } }
  /-- A thread ends the process. -/
  | exit {S : Server} {i : Nat} {c : Conn} {s' : Sys} : S.conns[i]? = some c → Internal c.load c.sys s' → Exits c.sys s' →
      Step S ⟨false, (S.conns.set i { c with sys := s' }).map Conn.kill⟩
  /-- `listener.accept()?`, server.rs:30: `run_server` returns and with it `main`. -/
  | acceptFails {S : Server} : S.alive = true → Step S ⟨false, S.conns.map Conn.kill⟩

/-- What can become of a server. -/
inductive Run : Server → Prop where
  | start : Run ⟨true, []⟩
  | step {S S' : Server} : Run S → Step S S' → Run S'

end Rudy.Sessions
