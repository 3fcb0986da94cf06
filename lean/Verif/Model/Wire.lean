import Verif.Model.Server
import Verif.Model.Symbols
/-
Model of the messages between LLDB and the server as text: rudy-lldb/src/protocol.rs (encoded by serde and
serde_json), rudy-lldb/src/server.rs (read_next_message, write_message), rudy-lldb/python/rudy_lldb.py
(_send_message, _read_message, send_command, _handle_event).

JSON (serde_json, the json module of Python) is modelled by its grammar: one parser for both sides, one printer
for each side.  Numbers are natural numbers, the only ones the messages contain.  Text is a list of characters;
its UTF-8 encoding is not modelled, nor are lone surrogates (Lean characters have none).
-/
namespace Rudy.Wire
open Rudy Rudy.Server
open Rudy.Layout (natStr)

mutual
/-- JSON values. -/
inductive Json where
  | null
  | bool (b : Bool)
  | num (n : Nat)
  | str (s : Str)
  | arr (xs : Jsons)
  | obj (fs : Fields)
/-- Elements of an array. -/
inductive Jsons where
  | nil
  | cons (v : Json) (rest : Jsons)
/-- Fields of an object. -/
inductive Fields where
  | nil
  | cons (key : Str) (v : Json) (rest : Fields)
end

/-! ### Text -/

/-- A hexadecimal digit. -/
def hexDigit (n : Nat) : Char := if n < 10 then Char.ofNat (48 + n) else Char.ofNat (87 + n)

/-- Four hexadecimal digits. -/
def hex4 (n : Nat) : Str := [hexDigit (n / 4096 % 16), hexDigit (n / 256 % 16), hexDigit (n / 16 % 16), hexDigit (n % 16)]

/-- The escapes both printers write for the characters that have a short one. -/
def shortEscape (c : Char) : Option Char :=
  if c = '"' then some '"' else if c = '\\' then some '\\' else if c = '\x08' then some 'b'
  else if c = '\x0c' then some 'f' else if c = '\n' then some 'n' else if c = '\r' then some 'r'
  else if c = '\t' then some 't' else none

/-- serde_json (`format_escaped_str_contents`): control characters are escaped, others stay. -/
def serdeEscape (c : Char) : Str :=
  match shortEscape c with
  | some e => ['\\', e]
  | none => if c.toNat < 0x20 then '\\' :: 'u' :: hex4 c.toNat else [c]

/-- Python's `json.dumps` (`ensure_ascii`): everything but printable ASCII is escaped, beyond the basic plane as a
surrogate pair. -/
def pyEscape (c : Char) : Str :=
  match shortEscape c with
  | some e => ['\\', e]
  | none =>
    if 0x20 ≤ c.toNat ∧ c.toNat ≤ 0x7e then [c]
    else if c.toNat < 0x10000 then '\\' :: 'u' :: hex4 c.toNat
    else '\\' :: 'u' :: hex4 (0xd800 + (c.toNat - 0x10000) / 0x400) ++ '\\' :: 'u' :: hex4 (0xdc00 + (c.toNat - 0x10000) % 0x400)

/-- How a side writes JSON. -/
structure Style where
  escape : Char → Str
  comma : Str
  colon : Str

/-- `serde_json::to_string`, server.rs:88. -/
def serde : Style := ⟨serdeEscape, chars! ",", chars! ":"⟩

/-- `json.dumps`, rudy_lldb.py:71. -/
def python : Style := ⟨pyEscape, chars! ", ", chars! ": "⟩

/-- A string literal. -/
def quote (st : Style) (s : Str) : Str := '"' :: (s.flatMap st.escape ++ ['"'])

mutual
/-- The text of a value. -/
def Json.print (st : Style) : Json → Str
  | .null => chars! "null"
  | .bool true => chars! "true"
  | .bool false => chars! "false"
  | .num n => natStr n
  | .str s => quote st s
  | .arr xs => '[' :: (xs.print st ++ chars! "]")
  | .obj fs => '{' :: (fs.print st ++ chars! "}")
/-- The text of the elements. -/
def Jsons.print (st : Style) : Jsons → Str
  | .nil => []
  | .cons v .nil => v.print st
  | .cons v (.cons w r) => v.print st ++ st.comma ++ Jsons.print st (.cons w r)
/-- The text of the fields. -/
def Fields.print (st : Style) : Fields → Str
  | .nil => []
  | .cons k v .nil => quote st k ++ st.colon ++ v.print st
  | .cons k v (.cons k' v' r) => quote st k ++ st.colon ++ v.print st ++ st.comma ++ Fields.print st (.cons k' v' r)
end

/-- Value of a hexadecimal digit. -/
def hexVal (c : Char) : Option Nat :=
  if '0' ≤ c ∧ c ≤ '9' then some (c.toNat - 48)
  else if 'a' ≤ c ∧ c ≤ 'f' then some (c.toNat - 87)
  else if 'A' ≤ c ∧ c ≤ 'F' then some (c.toNat - 55) else none

/-- Value of four hexadecimal digits. -/
def hexVal4 (a b c d : Char) : Option Nat :=
  match hexVal a, hexVal b, hexVal c, hexVal d with
  | some a, some b, some c, some d => some (a * 4096 + b * 256 + c * 16 + d)
  | _, _, _, _ => none

/-- The character of a short escape. -/
def unescape (c : Char) : Option Char :=
  if c = '"' then some '"' else if c = '\\' then some '\\' else if c = '/' then some '/' else if c = 'b' then some '\x08'
  else if c = 'f' then some '\x0c' else if c = 'n' then some '\n' else if c = 'r' then some '\r' else if c = 't' then some '\t' else none

/-- The character of a `\u` escape, or the first half of a surrogate pair. -/
inductive Unit16 where
  | char (c : Char)
  | high (n : Nat)
  | bad

/-- Classifies a 16-bit unit. -/
def unit16 (n : Nat) : Unit16 :=
  if n < 0xd800 ∨ 0xe000 ≤ n then .char (Char.ofNat n) else if n < 0xdc00 then .high (n - 0xd800) else .bad

/-- The rest of a string literal after the opening quote. -/
def pString : Str → Option (Str × Str)
  | [] => none
  | '"' :: r => some ([], r)
  | '\\' :: 'u' :: a :: b :: c :: d :: r =>
    match hexVal4 a b c d with
    | none => none
    | some n =>
      match unit16 n with
      | .char ch => (pString r).map fun (s, r') => (ch :: s, r')
      | .bad => none
      | .high h =>
        match r with
        | '\\' :: 'u' :: a' :: b' :: c' :: d' :: r' =>
          match hexVal4 a' b' c' d' with
          | none => none
          | some m =>
            if 0xdc00 ≤ m ∧ m < 0xe000 then
              (pString r').map fun (s, r'') => (Char.ofNat (0x10000 + h * 0x400 + (m - 0xdc00)) :: s, r'')
            else none
        | _ => none
  | '\\' :: e :: r =>
    match unescape e with
    | none => none
    | some ch => (pString r).map fun (s, r') => (ch :: s, r')
  | c :: r => if c.toNat < 0x20 ∨ c = '\\' then none else (pString r).map fun (s, r') => (c :: s, r')

/-- Blanks between tokens. -/
def skipWs (s : Str) : Str := s.dropWhile fun c => c == ' ' || c == '\t' || c == '\n' || c == '\r'

/-- A number: no sign, fraction or exponent (none occurs), no leading zero. -/
def pNumber (s : Str) : Option (Nat × Str) :=
  let ds := s.takeWhile Expr.isDigit
  let r := s.dropWhile Expr.isDigit
  if ds = [] then none
  else if ds.head? = some '0' ∧ ds ≠ ['0'] then none
  else match r.head? with
    | some '.' => none
    | some 'e' => none
    | some 'E' => none
    | _ => some (ds.foldl (fun n c => n * 10 + (c.toNat - 48)) 0, r)

mutual
/-- A value. -/
def pValue : Nat → Str → Option (Json × Str)
  | 0, _ => none
  | n + 1, s =>
    match skipWs s with
    | [] => none
    | '"' :: r => (pString r).map fun (t, r') => (.str t, r')
    | '[' :: r =>
      match skipWs r with
      | ']' :: r' => some (.arr .nil, r')
      | r' => (pElems n r').map fun (vs, r'') => (.arr vs, r'')
    | '{' :: r =>
      match skipWs r with
      | '}' :: r' => some (.obj .nil, r')
      | r' => (pFields n r').map fun (fs, r'') => (.obj fs, r'')
    | 't' :: 'r' :: 'u' :: 'e' :: r => some (.bool true, r)
    | 'f' :: 'a' :: 'l' :: 's' :: 'e' :: r => some (.bool false, r)
    | 'n' :: 'u' :: 'l' :: 'l' :: r => some (.null, r)
    | r => (pNumber r).map fun (m, r') => (.num m, r')
/-- The elements of an array up to the closing bracket. -/
def pElems : Nat → Str → Option (Jsons × Str)
  | 0, _ => none
  | n + 1, s =>
    match pValue n s with
    | none => none
    | some (v, r) =>
      match skipWs r with
      | ',' :: r' => (pElems n r').map fun (vs, r'') => (.cons v vs, r'')
      | ']' :: r' => some (.cons v .nil, r')
      | _ => none
/-- The fields of an object up to the closing brace. -/
def pFields : Nat → Str → Option (Fields × Str)
  | 0, _ => none
  | n + 1, s =>
    match skipWs s with
    | '"' :: r =>
      match pString r with
      | none => none
      | some (k, r1) =>
        match skipWs r1 with
        | ':' :: r2 =>
          match pValue n r2 with
          | none => none
          | some (v, r3) =>
            match skipWs r3 with
            | ',' :: r4 => (pFields n r4).map fun (fs, r5) => (.cons k v fs, r5)
            | '}' :: r4 => some (.cons k v .nil, r4)
            | _ => none
        | _ => none
    | _ => none
end

/-- `serde_json::from_str` (server.rs:79) and `json.loads` (rudy_lldb.py:81). -/
def parse (s : Str) : Option Json :=
  match pValue (s.length + 1) s with
  | some (j, r) => if skipWs r = [] then some j else none
  | none => none

/-! ### Objects -/

/-- The object with these fields. -/
def Fields.ofList : List (Str × Json) → Fields
  | [] => .nil
  | (k, v) :: r => .cons k v (Fields.ofList r)

/-- The array with these elements. -/
def Jsons.ofList : List Json → Jsons
  | [] => .nil
  | v :: r => .cons v (Jsons.ofList r)

/-- The elements of an array. -/
def Jsons.toList : Jsons → List Json
  | .nil => []
  | .cons v r => v :: r.toList

/-- The value of a field. Simplification: a repeated field is an error for serde and the last one counts in Python; no
message repeats a field. -/
def Fields.get (k : Str) : Fields → Option Json
  | .nil => none
  | .cons k' v r => if k' = k then some v else r.get k

/-- An object. -/
def object (fs : List (Str × Json)) : Json := .obj (Fields.ofList fs)

/-- `Option<usize>`, `Option<String>`: `None` is `null`. -/
def optNum : Option Nat → Json
  | none => .null
  | some n => .num n

/-- `Option<String>`. -/
def optStr : Option Str → Json
  | none => .null
  | some s => .str s

/-! ### Server to client -/

/-- `ArgumentType`, protocol.rs:20-29: the names of the variants. -/
def argTypeName : ArgType → Str
  | .pointer => chars! "Pointer"
  | .integer => chars! "Integer"
  | .bool => chars! "Bool"
  | .float => chars! "Float"

/-- `MethodArgument`, protocol.rs:8-17. -/
def encArg (a : Arg) : Json :=
  object [(chars! "value", .str a.value), (chars! "arg_type", .str (argTypeName a.ty)), (chars! "arg_type_size", optNum a.size)]

/-- `EventRequest`, protocol.rs:86-129, tagged by `event`. -/
def encEvent : Event → List (Str × Json)
  | .readMemory a n => [(chars! "event", .str (chars! "ReadMemory")), (chars! "address", .num a), (chars! "size", .num n)]
  | .readRegister n => [(chars! "event", .str (chars! "ReadRegister")), (chars! "name", .str n)]
  | .readRegisterByIndex i => [(chars! "event", .str (chars! "ReadRegisterByIndex")), (chars! "index", .num i)]
  | .getFrameInfo => [(chars! "event", .str (chars! "GetFrameInfo"))]
  | .getThreadInfo => [(chars! "event", .str (chars! "GetThreadInfo"))]
  | .getBaseAddress => [(chars! "event", .str (chars! "GetBaseAddress"))]
  | .evaluateLldb e => [(chars! "event", .str (chars! "EvaluateLLDBExpression")), (chars! "expr", .str e)]
  | .executeMethod a b args r => [(chars! "event", .str (chars! "ExecuteMethod")), (chars! "method_address", .num a),
      (chars! "base_address", .num b), (chars! "args", .arr (Jsons.ofList (args.map encArg))), (chars! "return_type_size", optNum r)]
  | .executeFunction a args r => [(chars! "event", .str (chars! "ExecuteFunction")), (chars! "function_address", .num a),
      (chars! "args", .arr (Jsons.ofList (args.map encArg))), (chars! "return_type_size", optNum r)]
  | .getVariableType n => [(chars! "event", .str (chars! "GetVariableType")), (chars! "name", .str n)]
  | .allocate n => [(chars! "event", .str (chars! "AllocateMemory")), (chars! "size", .num n)]
  | .write a d => [(chars! "event", .str (chars! "WriteMemory")), (chars! "address", .num a),
      (chars! "data", .arr (Jsons.ofList (d.map fun b => .num b.toNat)))]

/-- What a server message contains (`ServerMessage`, protocol.rs:60-75). -/
inductive Reply where
  | event (e : Event)
  | complete (result : Json)
  | error (text : Str) (backtrace : Option Str)

/-- `ServerMessage`, protocol.rs:60-75, tagged by `type`; the fields of the event are flattened. -/
def encReply : Reply → Json
  | .event e => object ((chars! "type", .str (chars! "Event")) :: encEvent e)
  | .complete r => object [(chars! "type", .str (chars! "Complete")), (chars! "result", r)]
  | .error t b => object [(chars! "type", .str (chars! "Error")), (chars! "error", .str t), (chars! "backtrace", optStr b)]

/-- `event_msg.get(key, default)` where a number is expected; `none` if the value is something else (using it
raises). -/
def getNum (fs : Fields) (k : Str) (dflt : Nat) : Option Nat :=
  match fs.get k with
  | none => some dflt
  | some (.num n) => some n
  | _ => none

/-- `event_msg.get(key, default)` where a text is expected. -/
def getStr (fs : Fields) (k : Str) (dflt : Str) : Option Str :=
  match fs.get k with
  | none => some dflt
  | some (.str s) => some s
  | _ => none

/-- `event_msg.get(key)` where a number or `None` is expected. -/
def getOptNum (fs : Fields) (k : Str) : Option (Option Nat) :=
  match fs.get k with
  | none => some none
  | some .null => some none
  | some (.num n) => some (some n)
  | _ => none

/-- All values, if there are no failures. -/
def allOf {α β : Type} (f : α → Option β) : List α → Option (List β)
  | [] => some []
  | a :: as => match f a, allOf f as with
    | some b, some bs => some (b :: bs)
    | _, _ => none

/-- One argument of a call, rudy_lldb.py:441-443 and 587-589 (an unknown `arg_type` is treated as an integer,
rudy_lldb.py:465-467 and 611-613). -/
def pyArg : Json → Option Arg
  | .obj fs =>
    match getStr fs (chars! "arg_type") (chars! "Integer"), getStr fs (chars! "value") (chars! "0"), getOptNum fs (chars! "arg_type_size") with
    | some t, some v, some n =>
      some ⟨v, if t = chars! "Pointer" then .pointer else if t = chars! "Bool" then .bool else if t = chars! "Float" then .float else .integer, n⟩
    | _, _, _ => none
  | _ => none

/-- `event_msg.get("args", [])`. -/
def pyArgs (fs : Fields) : Option (List Arg) :=
  match fs.get (chars! "args") with
  | none => some []
  | some (.arr xs) => allOf pyArg xs.toList
  | _ => none

/-- A byte of `bytes(data)`, rudy_lldb.py:824: it raises for values above 255. -/
def pyByte : Json → Option UInt8
  | .num n => if n < 256 then some (UInt8.ofNat n) else none
  | _ => none

/-- `event_msg.get("data", [])` and `bytes(data)`. -/
def pyData (fs : Fields) : Option (List UInt8) :=
  match fs.get (chars! "data") with
  | none => some []
  | some (.arr xs) => allOf pyByte xs.toList
  | _ => none

/-- Models the dispatch of `_handle_event`, rudy_lldb.py:104-154, with the arguments its handlers read (165-166, 194,
242, 396, 425-428, 573-575, 717, 773, 808-809): the event to be handled; `none` means the client answers with an
error. -/
def pyEvent (fs : Fields) : Option Event :=
  match fs.get (chars! "event") with
  | some (.str e) =>
    if e = chars! "ReadMemory" then
      match getNum fs (chars! "address") 0, getNum fs (chars! "size") 0 with
      | some a, some n => some (.readMemory a n)
      | _, _ => none
    else if e = chars! "ReadRegister" then (getStr fs (chars! "name") []).map .readRegister
    else if e = chars! "ReadRegisterByIndex" then (getNum fs (chars! "index") 0).map .readRegisterByIndex
    else if e = chars! "GetFrameInfo" then some .getFrameInfo
    else if e = chars! "GetThreadInfo" then some .getThreadInfo
    else if e = chars! "GetBaseAddress" then some .getBaseAddress
    else if e = chars! "EvaluateLLDBExpression" then (getStr fs (chars! "expr") []).map .evaluateLldb
    else if e = chars! "ExecuteMethod" then
      match getNum fs (chars! "method_address") 0, getNum fs (chars! "base_address") 0, pyArgs fs, getOptNum fs (chars! "return_type_size") with
      | some a, some b, some args, some r => some (.executeMethod a b args r)
      | _, _, _, _ => none
    else if e = chars! "ExecuteFunction" then
      match getNum fs (chars! "function_address") 0, pyArgs fs, getOptNum fs (chars! "return_type_size") with
      | some a, some args, some r => some (.executeFunction a args r)
      | _, _, _ => none
    else if e = chars! "GetVariableType" then (getStr fs (chars! "name") []).map .getVariableType
    else if e = chars! "AllocateMemory" then (getNum fs (chars! "size") 0).map .allocate
    else if e = chars! "WriteMemory" then
      match getNum fs (chars! "address") 0, pyData fs with
      | some a, some d => some (.write a d)
      | _, _ => none
    else none
  | _ => none

/-- What the client makes of a message (`send_command`, rudy_lldb.py:92-102): handle an event (`none`: answer with an
error), end with the result or with the text of the error, or raise. -/
inductive Heard where
  | event (e : Option Event)
  | complete (result : Json)
  | error (text : Str)
  | unknown

/-- Models the classification in `send_command`, rudy_lldb.py:92-102, with the fields `rudy_command` reads
(rudy_lldb.py:1054-1055, 1121-1122). -/
def hear : Json → Heard
  | .obj fs =>
    match fs.get (chars! "type") with
    | some (.str t) =>
      if t = chars! "Event" then .event (pyEvent fs)
      else if t = chars! "Complete" then .complete ((fs.get (chars! "result")).getD (.obj .nil))
      else if t = chars! "Error" then
        match fs.get (chars! "error") with
        | none => .error (chars! "Unknown error")
        | some (.str e) => .error e
        | _ => .unknown
      else .unknown
    | _ => .unknown
  | _ => .unknown

/-! ### Client to server -/

/-- The results of calls, rudy_lldb.py:493-498, 542-548, 637-642, 686-692. -/
def encCallResult : CallResult → Json
  | .simple v t => object [(chars! "SimpleValue", object [(chars! "value", .num v), (chars! "return_type", .str t)])]
  | .complex a n t => object [(chars! "ComplexPointer", object [(chars! "address", .num a), (chars! "size", .num n),
      (chars! "return_type", .str t)])]

/-- The fields of an answer, rudy_lldb.py:111-115 and the `return` statements of the handlers. -/
def encAnswer : Answer → List (Str × Json)
  | .memory d => [(chars! "event", .str (chars! "MemoryData")), (chars! "data", .arr (Jsons.ofList (d.map fun b => .num b.toNat)))]
  | .register v => [(chars! "event", .str (chars! "RegisterData")), (chars! "value", .num v)]
  | .frame pc sp fp => [(chars! "event", .str (chars! "FrameInfo")), (chars! "pc", .num pc), (chars! "sp", .num sp), (chars! "fp", .num fp)]
  | .thread tid name => [(chars! "event", .str (chars! "ThreadInfo")), (chars! "tid", .num tid), (chars! "name", optStr name)]
  | .base a => [(chars! "event", .str (chars! "BaseAddress")), (chars! "address", .num a)]
  | .expression v => [(chars! "event", .str (chars! "ExpressionResult")), (chars! "value", .str v)]
  | .method r => [(chars! "event", .str (chars! "MethodResult")), (chars! "result", encCallResult r)]
  | .function r => [(chars! "event", .str (chars! "FunctionResult")), (chars! "result", encCallResult r)]
  | .variableType n => [(chars! "event", .str (chars! "VariableTypeResult")), (chars! "type_name", optStr n)]
  | .allocated a => [(chars! "event", .str (chars! "MemoryAllocated")), (chars! "address", .num a)]
  | .written => [(chars! "event", .str (chars! "MemoryWritten"))]
  | .error m => [(chars! "event", .str (chars! "Error")), (chars! "message", .str m)]

/-- The messages of the client, rudy_lldb.py:63, 87, 111-115. -/
def encClient : ClientMsg → Json
  | .init p => object [(chars! "type", .str (chars! "Init")), (chars! "binary_path", .str p)]
  | .command c args => object [(chars! "type", .str (chars! "Command")), (chars! "cmd", .str c),
      (chars! "args", .arr (Jsons.ofList (args.map .str)))]
  | .answer a => object ((chars! "type", .str (chars! "EventResponse")) :: encAnswer a)

/-- A field of type `u64` or `usize`. -/
def decU64 (fs : Fields) (k : Str) : Option Nat :=
  match fs.get k with
  | some (.num n) => if n < u64Max1 then some n else none
  | _ => none

/-- A field of type `String`. -/
def decStr (fs : Fields) (k : Str) : Option Str :=
  match fs.get k with
  | some (.str s) => some s
  | _ => none

/-- A field of type `Option<String>`. -/
def decOptStr (fs : Fields) (k : Str) : Option (Option Str) :=
  match fs.get k with
  | none => some none
  | some .null => some none
  | some (.str s) => some (some s)
  | _ => none

/-- A `u8`. -/
def decByte : Json → Option UInt8
  | .num n => if n < 256 then some (UInt8.ofNat n) else none
  | _ => none

/-- A `String`. -/
def decText : Json → Option Str
  | .str s => some s
  | _ => none

/-- `MethodCallResult`, protocol.rs:32-42: an object with one field named after the variant. -/
def decCallResult : Option Json → Option CallResult
  | some (.obj (.cons k (.obj fs) .nil)) =>
    if k = chars! "SimpleValue" then
      match decU64 fs (chars! "value"), decStr fs (chars! "return_type") with
      | some v, some t => some (.simple v t)
      | _, _ => none
    else if k = chars! "ComplexPointer" then
      match decU64 fs (chars! "address"), decU64 fs (chars! "size"), decStr fs (chars! "return_type") with
      | some a, some n, some t => some (.complex a n t)
      | _, _, _ => none
    else none
  | _ => none

/-- `EventResponseData`, protocol.rs:189-223, tagged by `event`. -/
def decAnswer (fs : Fields) : Option Answer :=
  match fs.get (chars! "event") with
  | some (.str e) =>
    if e = chars! "MemoryData" then
      match fs.get (chars! "data") with
      | some (.arr xs) => (allOf decByte xs.toList).map .memory
      | _ => none
    else if e = chars! "RegisterData" then (decU64 fs (chars! "value")).map .register
    else if e = chars! "FrameInfo" then
      match decU64 fs (chars! "pc"), decU64 fs (chars! "sp"), decU64 fs (chars! "fp") with
      | some pc, some sp, some fp => some (.frame pc sp fp)
      | _, _, _ => none
    else if e = chars! "ThreadInfo" then
      match decU64 fs (chars! "tid"), decOptStr fs (chars! "name") with
      | some t, some n => some (.thread t n)
      | _, _ => none
    else if e = chars! "BaseAddress" then (decU64 fs (chars! "address")).map .base
    else if e = chars! "ExpressionResult" then (decStr fs (chars! "value")).map .expression
    else if e = chars! "MethodResult" then (decCallResult (fs.get (chars! "result"))).map .method
    else if e = chars! "FunctionResult" then (decCallResult (fs.get (chars! "result"))).map .function
    else if e = chars! "VariableTypeResult" then (decOptStr fs (chars! "type_name")).map .variableType
    else if e = chars! "MemoryAllocated" then (decU64 fs (chars! "address")).map .allocated
    else if e = chars! "MemoryWritten" then some .written
    else if e = chars! "Error" then (decStr fs (chars! "message")).map .error
    else none
  | _ => none

/-- `ClientMessage`, protocol.rs:44-58, tagged by `type`. -/
def decClient : Json → Option ClientMsg
  | .obj fs =>
    match fs.get (chars! "type") with
    | some (.str t) =>
      if t = chars! "Init" then (decStr fs (chars! "binary_path")).map .init
      else if t = chars! "Command" then
        match decStr fs (chars! "cmd"), fs.get (chars! "args") with
        | some c, some (.arr xs) => (allOf decText xs.toList).map (.command c)
        | _, _ => none
      else if t = chars! "EventResponse" then (decAnswer fs).map .answer
      else none
    | _ => none
  | _ => none

/-! ### Lines -/

/-- `BufRead::read_line` and Python's `readline` over the whole input: the lines, without their ends. -/
def lines : Str → Str → List Str
  | [], acc => if acc = [] then [] else [acc]
  | c :: r, acc => if c = '\n' then acc :: lines r [] else lines r (acc ++ [c])

/-- Models `read_next_message`, server.rs:65-84, on a line. -/
def serverLine (l : Str) : Line :=
  match Symbols.trim l with
  | [] => .bad
  | t => match (parse t).bind decClient with
    | some m => .msg m
    | none => .bad

/-- `_send_message`, rudy_lldb.py:69-73. -/
def clientText (m : ClientMsg) : Str := (encClient m).print python ++ ['\n']

/-- `write_message`, server.rs:86-92. -/
def serverText (m : Reply) : Str := (encReply m).print serde ++ ['\n']

/-- Models `_read_message`, rudy_lldb.py:75-81, and the classification: `none` is the end of the connection (an empty
line raises as well) or text that is no JSON. -/
def clientLine (l : Str) : Option Heard :=
  match Symbols.trim l with
  | [] => none
  | t => (parse t).map hear

end Rudy.Wire
