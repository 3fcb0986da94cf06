import Verif.Model.Wire
import Verif.Model.Discovery
import Verif.Model.Front
import Verif.Model.Remote
/-
Model of the results of commands and of how LLDB prints them: rudy-lldb/src/server.rs (handle_methods_command,
handle_functions_command, MethodInfo, MethodDiscoveryResult), rudy-lldb/src/evaluator.rs (EvalResult, FunctionInfo) and
rudy-lldb/python/rudy_lldb.py (rudy_command from the response on).

The results go through `serde_json::to_value` (server.rs:242, 260, 271): an object keeps its fields ordered by name
(serde_json without `preserve_order`, which the manifests do not enable). The texts of error messages are dropped, here
as in the model of the server.
-/
namespace Rudy.Listing
open Rudy Rudy.Server Rudy.Wire Rudy.Discovery
open Rudy.Layout (natStr)
open Rudy.Data (hexStr)

/-! ### The server's results -/

/-- Models `MethodInfo`, server.rs:480-487. -/
structure MethodInfo where
  name : Str
  signature : Str
  description : Option Str
  callable : Bool
  synthetic : Bool

/-- server.rs:332-341, 363-371, 387-395, 409-417: the entry of a discovered method. -/
def methodInfo (m : Method) : MethodInfo :=
  { name := m.name, signature := m.signature
    description := some (chars! "Method at address " ++ hexStr m.address)
    callable := m.callable, synthetic := m.synthetic }

/-- `MethodInfo` as JSON. -/
def encMethod (m : MethodInfo) : Json :=
  object [(chars! "callable", .bool m.callable), (chars! "description", optStr m.description),
    (chars! "is_synthetic", .bool m.synthetic), (chars! "name", .str m.name), (chars! "signature", .str m.signature)]

/-- `MethodDiscoveryResult`, server.rs:474-478, as JSON. -/
def encMethods (typeName : Str) (ms : List Method) : Json :=
  object [(chars! "methods", .arr (Jsons.ofList (ms.map fun m => encMethod (methodInfo m)))), (chars! "type_name", .str typeName)]

/-- `FunctionInfo`, evaluator.rs:1166-1180, of a discovered function (server.rs:440-447, 458-465), as JSON. -/
def encFunction (f : Found) : Json :=
  object [(chars! "address", .num f.address), (chars! "callable", .bool f.callable), (chars! "full_name", .str f.fullName),
    (chars! "module_path", .arr (Jsons.ofList (f.modulePath.map .str))), (chars! "name", .str f.name), (chars! "signature", .str f.signature)]

/-- server.rs:427-471 `handle_functions_command`: the list of functions as JSON. -/
def encFunctions (fs : List Found) : Json := .arr (Jsons.ofList (fs.map encFunction))

/-- `EvalResult`, evaluator.rs:1155-1163, as JSON. -/
def encEval (value typeName : Str) : Json := object [(chars! "type", .str typeName), (chars! "value", .str value)]

/-- The rest of the program behind a session, with what it produces instead of JSON: `lookup` is
`lookup_type_by_name` (debug_info.rs:453-455) where it yields `Ok(Some(..))`, `eval` is `EvalContext::evaluate` (value and type), `toRef`
is `EvalContext::evaluate_to_ref` (the type of the place). -/
structure Program where
  world : World
  lookup : Str → Option Target
  eval : Expr.Expr → Conv (Str × Str)
  toRef : Expr.Expr → Conv Target

/-- What the session gets from the program, server.rs:212-470; `display_name` names the type of a place (server.rs:384). -/
def Program.backend (p : Program) : Backend where
  eval e := (p.eval e).bind fun r => .ok ((encEval r.1 r.2).print serde)
  toRef e := (p.toRef e).bind fun t => (Conv.ofRes (methodsForPointer p.world t)).bind fun ms =>
    .ok ((encMethods t.layout.displayName ms).print serde)
  typeMethods n := (p.lookup n).map fun t => (methodsForType p.world t).bind fun ms => .ok ((encMethods n ms).print serde)
  functions n := (discover p.world n).bind fun fs => .ok ((encFunctions fs).print serde)
  allFunctions := (discoverAll p.world).bind fun m => .ok ((encFunctions (m.entries.map (·.2))).print serde)

/-! ### What LLDB prints -/

/-- Python's truth value of a JSON value. -/
def truthy : Json → Bool
  | .null => false
  | .bool b => b
  | .num n => n != 0
  | .str s => !s.isEmpty
  | .arr .nil => false
  | .arr (.cons _ _) => true
  | .obj .nil => false
  | .obj (.cons _ _ _) => true

/-- `str(value)` in an f-string; `other` is what Python writes for values that are no text. -/
def pyStr (other : Json → Str) : Json → Str
  | .str s => s
  | v => other v

/-- A printed line. -/
def line (s : Str) : Str := s ++ ['\n']

/-- `method.get("callable", False)` and the text for it, rudy_lldb.py:1079-1083, 1101-1105. -/
def callableText (fs : Fields) : Str :=
  if truthy ((fs.get (chars! "callable")).getD (.bool false)) then chars! " (callable)" else chars! " (not callable)"

/-- The dictionaries among the values, rudy_lldb.py:1066-1067. -/
def dicts : List Json → List Fields
  | [] => []
  | .obj fs :: r => fs :: dicts r
  | _ :: r => dicts r

/-- What iterating over a value gives, rudy_lldb.py:1066: `none` raises. The keys of a dictionary and the characters of a
text are no dictionaries and count as nothing. -/
def iterated : Json → Option (List Json)
  | .arr xs => some xs.toList
  | .obj _ => some []
  | .str _ => some []
  | _ => none

/-- `method.get("is_synthetic", False)`, rudy_lldb.py:1068. -/
def isSynthetic (fs : Fields) : Bool := truthy ((fs.get (chars! "is_synthetic")).getD (.bool false))

/-- `.get("signature", "")` in an f-string, rudy_lldb.py:1078, 1092, 1100. -/
def signatureText (other : Json → Str) (fs : Fields) : Str := pyStr other ((fs.get (chars! "signature")).getD (.str []))

/-- The printed methods, rudy_lldb.py:1057-1093; `none` if an exception is raised (before anything is printed). -/
def printMethods (other : Json → Str) (fs : Fields) : Option Str :=
  match iterated ((fs.get (chars! "methods")).getD (.arr .nil)) with
  | none => none
  | some vs =>
    let regular := (dicts vs).filter fun m => !isSynthetic m
    let synthetic := (dicts vs).filter isSynthetic
    some (line (chars! "Methods for " ++ pyStr other ((fs.get (chars! "type_name")).getD (.str (chars! "Unknown"))) ++ chars! ":") ++
      (if regular.isEmpty then line (chars! "  (no methods found)")
       else regular.flatMap fun m => line (chars! "  - " ++ signatureText other m ++ callableText m)) ++
      (if synthetic.isEmpty then []
       else line (chars! "\nSynthetic methods (debug helpers):") ++
         synthetic.flatMap fun m => line (chars! "  - " ++ signatureText other m)))

/-- `"::".join(parts)`: raises unless every part is a text. -/
def joinColons : List Json → Option Str
  | [] => some []
  | [.str s] => some s
  | .str s :: r => (joinColons r).map fun t => s ++ chars! "::" ++ t
  | _ => none

/-- One printed function, rudy_lldb.py:1098-1111; `none` if an exception is raised (`module_path + [name]` needs a list). -/
def printFunction (other : Json → Str) (fs : Fields) : Option Str :=
  let name := (fs.get (chars! "name")).getD (.str [])
  let rest := chars! ": " ++ signatureText other fs ++ callableText fs
  let path := (fs.get (chars! "module_path")).getD (.arr .nil)
  if truthy path then
    match path with
    | .arr xs => (joinColons (xs.toList ++ [name])).map fun p => line (chars! "  " ++ p ++ rest)
    | _ => none
  else some (line (chars! "  " ++ pyStr other name ++ rest))

/-- What a command prints: all of a text, the line `Error: …`, or some text and then the line `Command failed: …`. -/
inductive Printed where
  | text (t : Str)
  | error
  | failed (before : Str)

/-- The loop over the functions, rudy_lldb.py:1097-1113. -/
def printFunctions (other : Json → Str) (before : Str) : List Fields → Printed
  | [] => .text before
  | f :: fs =>
    match printFunction other f with
    | none => .failed before
    | some t => printFunctions other (before ++ t) fs

/-- The fields of a dictionary, line by line, rudy_lldb.py:1116-1118. -/
def printFields (other : Json → Str) : Fields → Str
  | .nil => []
  | .cons k v r => line (k ++ chars! ": " ++ pyStr other v) ++ printFields other r

/-- Models `rudy_command` from the response on, rudy_lldb.py:1050-1127. -/
def printed (other : Json → Str) (cmd : Str) : Option Heard → Printed
  | some (.complete r) =>
    match r with
    | .obj fs =>
      if cmd = chars! "methods" then
        match printMethods other fs with
        | some t => .text t
        | none => .failed []
      else .text (printFields other fs)
    | .arr xs =>
      if cmd = chars! "functions" then
        if xs.toList.isEmpty then .text (line (chars! "No functions found"))
        else printFunctions other (line (chars! "Found " ++ natStr xs.toList.length ++ chars! " function(s):")) (dicts xs.toList)
      else .text (line (other (.arr xs)))
    | v => .text (line (pyStr other v))
  | some (.error _) => .error
  | _ => .failed []

/-! ### From the typed line to the printed text -/

/-- The message of the server as it is written (`ServerMessage`, protocol.rs:60-75, with `write_message`, server.rs:86-92);
the result is JSON text already. Events do not end a command. -/
def endText : ServerMsg → Str
  | .complete r => chars! "{\"type\":\"Complete\",\"result\":" ++ r ++ chars! "}\n"
  | .error => serverText (.error [] none)
  | .event e => serverText (.event e)

/-- One command of a session, given in LLDB as text (rudy_lldb.py:1006-1127 with server.rs:134-178): it is sent as a line,
the server reads the line and works on it, asking LLDB on the way, its final message is written as a line, and LLDB prints
what it reads. An error or a panic outside the command closes the connection, and so does a line that is no command; a line that cannot be
read is answered with an error. `none`: nothing is sent (`rd` alone and `rd status`). -/
def rd {σ : Type} (L : Remote.Lldb σ) (other : Json → Str) (B : Backend) (s : σ) (text : Str) : Option (Printed × σ) :=
  match Front.words text with
  | [] => none
  | sub :: args =>
    if Front.expand sub = chars! "status" then none
    else
      match (lines (clientText (.command (Front.expand sub) args)) []).map serverLine with
      | .msg (.command c as) :: _ =>
        match Remote.talk L (handleCommand B c as) s with
        | (.ok m, s') =>
          match lines (endText m) [] with
          | l :: _ => some (printed other (Front.expand sub) (clientLine l), s')
          | [] => some (.failed [], s')
        | (_, s') => some (.failed [], s')
      | .bad :: _ => some (.error, s)
      | _ => some (.failed [], s)

end Rudy.Listing
