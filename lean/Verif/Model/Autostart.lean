import Verif.Model.Front
/-
Model of starting the server from LLDB: rudy-lldb/python/rudy_lldb.py (`_ensure_server_running`, `_start_server`, the middle
of `_get_connection`, and the setting RUDY_AUTOSTART), and of the pipes the server is left with.

The world outside (the network, the process, time) is a state `σ` with operations that may answer anything and change
it. Printing is left out. An exception while waiting (the operations used do not raise) is left out.
-/
namespace Rudy.Autostart
open Rudy

variable {σ : Type}

/-- The world outside. -/
structure Env (σ : Type) where
  /-- `sock.connect_ex(..) == 0`, `False` on an exception. -/
  probe : σ → Bool × σ
  /-- `shutil.which`. -/
  which : Str → Bool
  /-- `subprocess.Popen`; `false`: it raises. -/
  spawn : List Str → σ → Bool × σ
  /-- `time.sleep(0.5)`. -/
  sleep : σ → σ
  /-- `process.poll() is not None`. -/
  exited : σ → Bool × σ
  /-- `process.communicate(timeout=1)`; `false`: it did not end in time. -/
  finish : σ → Bool × σ
  /-- `process.kill()`. -/
  kill : σ → σ

/-- What is done, in order. -/
inductive Act where
  | probed (up : Bool)
  | spawned (command : List Str) (works : Bool)
  | slept
  | polled (gone : Bool)
  | finished (gone : Bool)
  | killed

/-- The command line, rudy_lldb.py:887-901. `port` is `str(RUDY_PORT)`. -/
def command (E : Env σ) (host port : Str) : List Str :=
  (if E.which (chars! "rudy-lldb-server") then [chars! "rudy-lldb-server"]
   else if E.which (chars! "cargo") then
     [chars! "cargo", chars! "run", chars! "-p", chars! "rudy-lldb", chars! "--bin", chars! "rudy-lldb-server", chars! "--"]
   else [chars! "rudy-lldb-server"]) ++ [chars! "start", chars! "--port", port, chars! "--host", host]

/-- Models the loop and what follows it, rudy_lldb.py:913-945, with `n` rounds to go. -/
def wait (E : Env σ) : Nat → σ → Bool × List Act × σ
  | 0, s =>
    match E.finish s with
    | (true, s) => (false, [.finished true], s)
    | (false, s) => (false, [.finished false, .killed], E.kill s)
  | n + 1, s =>
    match E.probe (E.sleep s) with
    | (true, s) => (true, [.slept, .probed true], s)
    | (false, s) =>
      match E.exited s with
      | (true, s) => (false, [.slept, .probed false, .polled true], s)
      | (false, s) =>
        let r := wait E n s
        (r.1, [.slept, .probed false, .polled false] ++ r.2.1, r.2.2)

/-- Models `_start_server`, rudy_lldb.py:882-949. -/
def startServer (E : Env σ) (host port : Str) (s : σ) : Bool × List Act × σ :=
  match E.probe s with
  | (true, s) => (true, [.probed true], s)
  | (false, s) =>
    match E.spawn (command E host port) s with
    | (false, s) => (false, [.probed false, .spawned (command E host port) false], s)
    | (true, s) =>
      let r := wait E 10 s
      (r.1, [.probed false, .spawned (command E host port) true] ++ r.2.1, r.2.2)

/-- Models the part of `_get_connection` that makes sure there is a server, rudy_lldb.py:971-992: whether a connection is then
made, for a command given while there is (`conn`) or is not a connection. -/
def ensure (E : Env σ) (autostart conn : Bool) (host port : Str) (s : σ) : Bool × List Act × σ :=
  if conn then (true, [], s)
  else
    match E.probe s with
    | (true, s) => (true, [.probed true], s)
    | (false, s) =>
      if autostart then
        let r := startServer E host port s
        (r.1, .probed false :: r.2.1, r.2.2)
      else (false, [.probed false], s)

/-- `str.lower` on ASCII letters. -/
def lower (c : Char) : Char := if 'A' ≤ c ∧ c ≤ 'Z' then Char.ofNat (c.toNat + 32) else c

/-- Models `is_truthy`, rudy_lldb.py:24-25, on ASCII texts. -/
def truthy (x : Str) : Bool := [chars! "1", chars! "true", chars! "on", chars! "yes"].contains (x.map lower)

/-- Models `RUDY_AUTOSTART`, rudy_lldb.py:34; `none`: the variable is not set. -/
def autostart (x : Option Str) : Bool := truthy (x.getD (chars! "1"))

/-- The pipe made for the output of the server, rudy_lldb.py:906-911, of which nothing is read as long as the server runs: a
write of `n` bytes waits for room, which never comes. `none`: the writer waits for ever. -/
def pipeWrite (capacity used n : Nat) : Option Nat := if used + n ≤ capacity then some (used + n) else none

/-- What is in the pipe after some writes. -/
def pipeAfter (capacity : Nat) : Nat → List Nat → Option Nat
  | used, [] => some used
  | used, n :: ns => (pipeWrite capacity used n).bind fun u => pipeAfter capacity u ns

end Rudy.Autostart
