import Verif.Model.Server
/-
Model of the command `rd` in LLDB up to the connection: rudy-lldb/python/rudy_lldb.py (rudy_command, _get_connection,
_start_server, _ensure_server_running).  What is printed is dropped.
-/
namespace Rudy.Front
open Rudy Rudy.Server

/-- `str.isspace` of Python, the characters `str.split()` splits at: those of Rust and four separators. -/
def isPySpace (c : Char) : Bool := Expr.isWhite c || (0x1c ≤ c.toNat && c.toNat ≤ 0x1f)

/-- `str.split()` of Python, rudy_lldb.py:1008: `cur` is the word being read. -/
def splitFrom (sp : Char → Bool) : (cur : Str) → Str → List Str
  | [], [] => []
  | cur, [] => [cur]
  | [], c :: r => if sp c then splitFrom sp [] r else splitFrom sp [c] r
  | cur, c :: r => if sp c then cur :: splitFrom sp [] r else splitFrom sp (cur ++ [c]) r

/-- `command.strip().split()`, rudy_lldb.py:1008 (`strip` changes nothing that `split` would see). -/
def words (s : Str) : List Str := splitFrom isPySpace [] s

/-- `shortcodes`, rudy_lldb.py:1019-1025 and 1031-1032. -/
def expand (w : Str) : Str :=
  if w = chars! "e" then chars! "eval"
  else if w = chars! "f" then chars! "functions"
  else if w = chars! "m" then chars! "methods"
  else if w = chars! "p" then chars! "print"
  else if w = chars! "s" then chars! "status"
  else w

/-- A connection: the binary its session was opened for, and a number that tells connections apart. -/
structure Conn where
  path : Str
  id : Nat
deriving DecidableEq

/-- What a command finds when it is given: the path of the executable of the selected target (`none`: no target, or no
executable), whether the server accepts connections, whether it may be started and whether starting it works, and
whether opening a connection works. -/
structure World where
  binary : Option Str
  running : Bool
  autostart : Bool
  starts : Bool
  connects : Bool

/-- Models `_get_connection`, rudy_lldb.py:952-1003: the connection to use, and the new value of `_connection`. -/
def getConnection (conn : Option Conn) (next : Nat) (w : World) : Option Conn × Option Conn :=
  match w.binary with
  | none => (none, conn)
  | some path =>
    match conn with
    | some c => (some c, some c)
    | none =>
      if !w.running && !(w.autostart && w.starts) then (none, none)
      else if w.connects then (some ⟨path, next⟩, some ⟨path, next⟩)
      else (none, none)

/-- What a command does. -/
inductive Action where
  | usage
  | status
  | noConnection
  | send (c : Conn) (cmd : Str) (args : List Str)

/-- Models `rudy_command`, rudy_lldb.py:1006-1049: what is done, and the new value of `_connection`. -/
def rudyCommand (conn : Option Conn) (next : Nat) (w : World) (line : Str) : Action × Option Conn :=
  match words line with
  | [] => (.usage, conn)
  | sub :: args =>
    if expand sub = chars! "status" then (.status, conn)
    else
      match getConnection conn next w with
      | (none, conn') => (.noConnection, conn')
      | (some c, conn') => (.send c (expand sub) args, conn')

/-- A sequence of commands, each in its world: what each does. Connections are numbered by the commands. -/
def commands : Option Conn → Nat → List (World × Str) → List Action
  | _, _, [] => []
  | conn, n, (w, line) :: r =>
    let x := rudyCommand conn n w line
    x.1 :: commands x.2 (n + 1) r

end Rudy.Front
