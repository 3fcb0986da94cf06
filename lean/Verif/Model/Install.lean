import Verif.Model.Wire
import Verif.Model.Eval
/-
Model of the command line of the server: rudy-lldb/src/main.rs (stop_server, install_lldb_client).

Files are a map from path texts to contents; reading and writing them does not fail, and different texts are different
files.  The download is a parameter.  What is printed is dropped.
-/
namespace Rudy.Install
open Rudy Rudy.Expr Rudy.Layout

/-! ### install -/

/-- Files by path. -/
abbrev Files := Str → Option Str

/-- `fs::write`. -/
def Files.write (fs : Files) (p t : Str) : Files := fun q => if q = p then some t else fs q

/-- Tilde expansion, main.rs:119-125; `home` is `$HOME`, or `.` if there is none. -/
def expandTilde (home dir : Str) : Str :=
  match dir with
  | '~' :: '/' :: rest => home ++ chars! "/" ++ rest
  | _ => dir

/-- `PathBuf::from(dir).join(name)` for a relative `name` (standard library), as text. -/
def joinPath (dir name : Str) : Str :=
  if dir = [] ∨ dir.getLast? = some '/' then dir ++ name else dir ++ chars! "/" ++ name

/-- `script_path`, main.rs:130. -/
def scriptPath (home dir : Str) : Str := joinPath (expandTilde home dir) (chars! "rudy_lldb.py")

/-- `lldbinit_path`, main.rs:207-208. -/
def initPath (home : Str) : Str := joinPath home (chars! ".lldbinit")

/-- `import_line`, main.rs:209. -/
def importLine (script : Str) : Str := chars! "command script import " ++ script

/-- `response.trim().to_lowercase().starts_with('y')`, main.rs:144 and 231-232. Simplification: only `Y` has the lower case
`y`. -/
def saysYes (response : Str) : Bool :=
  match Symbols.trim response with
  | c :: _ => c == 'y' || c == 'Y'
  | [] => false

/-- A file of a release as the listing gives it; a field that is missing or not a string is `none`. -/
structure Asset where
  name : Option Str
  url : Option Str
  deriving DecidableEq

/-- A release as the listing gives it. -/
structure Release where
  tag : Option Str
  assets : Option (List Asset)

/-- What the user answers to the two questions, and what the network gives (`none`: a failure): the listing of releases and
the contents at a URL. -/
structure World where
  overwrite : Str
  add : Str
  releases : Option (List Release)
  fetch : Str → Option Str

/-- `tag.starts_with("rudy-lldb-")`, main.rs:165-170. -/
def isOurs (r : Release) : Bool :=
  match r.tag with
  | some t => (chars! "rudy-lldb-").isPrefixOf t
  | none => false

/-- Models the download, main.rs:152-199. -/
def World.download (w : World) : Option Str :=
  w.releases.bind fun rs => (rs.find? isOurs).bind fun r => r.assets.bind fun as =>
  (as.find? fun a => a.name = some (chars! "rudy_lldb.py")).bind fun a => a.url.bind w.fetch

/-- Models the part of `install_lldb_client` about `.lldbinit`, main.rs:205-249. -/
def addImport (home script : Str) (yes : Bool) (w : World) (fs : Files) : Files :=
  match fs (initPath home) with
  | some content =>
    if Eval.containsStr content (importLine script) then fs
    else if yes || Symbols.trim w.add = [] || saysYes w.add then fs.write (initPath home) (content ++ importLine script ++ chars! "\n") else fs
  | none =>
    if yes || Symbols.trim w.add = [] || saysYes w.add then fs.write (initPath home) (importLine script ++ chars! "\n") else fs

/-- Models `install_lldb_client`, main.rs:114-259. -/
def install (home dir : Str) (skip yes : Bool) (w : World) (fs : Files) : Files :=
  let script := scriptPath home dir
  if (fs script).isSome && !yes && !saysYes w.overwrite then fs
  else
    match w.download with
    | none => fs
    | some content =>
      let fs := fs.write script content
      if skip then fs else addImport home script yes w fs

/-! ### stop -/

/-- The value of decimal digits. -/
def digitsVal (ds : Str) : Nat := ds.foldl (fun n c => n * 10 + (c.toNat - 48)) 0

/-- A number read by the address parser (standard library, `read_number`): at most `maxDigits` digits, no leading zero
unless allowed, at most `max`. -/
def readNumber (maxDigits : Option Nat) (zeroPrefix : Bool) (max : Nat) (s : Str) : Option (Nat × Str) :=
  let ds := s.takeWhile isDigit
  if ds = [] then none
  else if maxDigits.any (fun m => ds.length > m) then none
  else if !zeroPrefix && ds.head? = some '0' && ds.length > 1 then none
  else if digitsVal ds > max then none
  else some (digitsVal ds, s.dropWhile isDigit)

/-- A given character. -/
def expect (c : Char) : Str → Option Str
  | d :: r => if d = c then some r else none
  | [] => none

/-- One part of an IPv4 address. -/
def octet (s : Str) : Option (Nat × Str) := readNumber (some 3) false 255 s

/-- An IPv4 socket address (standard library): four numbers and a port, nothing after. -/
def parseV4 (s : Str) : Option (List Nat × Nat) :=
  (octet s).bind fun (a, r) => (expect '.' r).bind fun r =>
  (octet r).bind fun (b, r) => (expect '.' r).bind fun r =>
  (octet r).bind fun (c, r) => (expect '.' r).bind fun r =>
  (octet r).bind fun (d, r) => (expect ':' r).bind fun r =>
  (readNumber none true 65535 r).bind fun (p, r) => if r = [] then some ([a, b, c, d], p) else none

/-- Whether a text is a socket address (`parse::<SocketAddr>`); `v6` parses what follows the bracket an IPv6 socket address
begins with. -/
def isSocketAddr (v6 : Str → Bool) (s : Str) : Bool :=
  (parseV4 s).isSome ||
  match s with
  | '[' :: r => v6 r
  | _ => false

/-- The message `stop` sends, main.rs:99-100. -/
def stopText : Str := chars! "{\"type\":\"Command\",\"cmd\":\"shutdown\",\"args\":[]}" ++ ['\n']

/-- Models `stop_server`, main.rs:88-112: the text sent to the server, if the address can be used and the server accepts the
connection. -/
def stop (v6 : Str → Bool) (connects : Str → Bool) (host : Str) (port : Nat) : Option Str :=
  let addr := host ++ chars! ":" ++ natStr port
  if isSocketAddr v6 addr then (if connects addr then some stopText else none) else none

end Rudy.Install
