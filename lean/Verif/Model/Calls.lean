import Verif.Model.Server
import Verif.Model.Memory
/-
Model of what the client does with LLDB for the events that call code in the process and read its registers:
rudy-lldb/python/rudy_lldb.py (_handle_execute_method, _handle_execute_function, _handle_read_register,
_handle_read_register_by_index, _handle_allocate_memory).

The expressions are modelled as the texts given to `EvaluateExpression`.  What LLDB answers is a parameter.
-/
namespace Rudy.Calls
open Rudy Rudy.Server Rudy.Expr Rudy.Layout Rudy.Data

/-! ### Calls -/

/-- `f"struct Arg_{n}"`, rudy_lldb.py:447 and 593. -/
def argStruct (n : Nat) : Str := chars! "struct Arg_" ++ natStr n

/-- `arg_value.lower() in ("true", "1")`, rudy_lldb.py:460 and 606. Simplification: only ASCII letters have a lower case;
no other character has one that occurs in `true`. -/
def isTrue (v : Str) : Bool := v.map Char.toLower = chars! "true" || v = chars! "1"

/-- What is appended to `arg_types`, rudy_lldb.py:445-467 and 591-613. -/
def argType (a : Arg) : Str :=
  match a.ty, a.size with
  | .pointer, some n => argStruct n
  | .pointer, none => chars! "void*"
  | .integer, _ => chars! "unsigned long"
  | .bool, _ => chars! "int"
  | .float, _ => chars! "double"

/-- What is appended to `arg_values`, rudy_lldb.py:445-467 and 591-613. -/
def argValue (a : Arg) : Str :=
  match a.ty, a.size with
  | .pointer, some n => chars! "*((" ++ argStruct n ++ chars! "*)" ++ a.value ++ chars! ")"
  | .pointer, none => chars! "(void*)" ++ a.value
  | .integer, _ => a.value
  | .bool, _ => if isTrue a.value then chars! "1" else chars! "0"
  | .float, _ => a.value

/-- `f"struct Arg_{n} {{ unsigned char bytes[{n}]; }}"`, rudy_lldb.py:474 and 620. -/
def structDef (n : Nat) : Str := argStruct n ++ chars! " { unsigned char bytes[" ++ natStr n ++ chars! "]; }"

/-- One round of the loop of rudy_lldb.py:471-476 and 617-622. -/
def addDef (defs : List Str) (a : Arg) : List Str :=
  match a.size with
  | none => defs
  | some n => if defs.contains (structDef n) then defs else defs ++ [structDef n]

/-- `struct_defs`, rudy_lldb.py:470-476 and 616-622. -/
def structDefs (args : List Arg) : List Str := args.foldl addDef []

/-- The call, rudy_lldb.py:478-486, 507-521 (and 624-630, 651-665 for functions): the definitions, the address cast to a
function type, and the values. -/
def callText (values defs : List Str) (params : Str) (address : Nat) : (ret : Option Nat) → Str
  | none => joinWith (chars! "; ") defs ++ (if defs.isEmpty then [] else chars! "; ") ++
      chars! "((unsigned long (*)(" ++ params ++ chars! "))" ++ hexStr address ++ chars! ")" ++
      chars! "(" ++ joinWith (chars! ", ") values ++ chars! ")"
  | some n => joinWith (chars! "; ") (defs ++ [chars! "struct ReturnBuffer_" ++ natStr n ++ chars! " { unsigned char bytes[" ++ natStr n ++ chars! "]; }"]) ++
      chars! "; " ++ chars! "auto result = " ++
      chars! "((struct ReturnBuffer_" ++ natStr n ++ chars! " (*)(" ++ params ++ chars! "))" ++ hexStr address ++ chars! ")" ++
      chars! "(" ++ joinWith (chars! ", ") values ++ chars! "); &result"

/-- Models `_handle_execute_method` up to `EvaluateExpression`, rudy_lldb.py:423-521. -/
def methodExpr (address base : Nat) (args : List Arg) (ret : Option Nat) : Str :=
  let types := chars! "void*" :: args.map argType
  let values := (chars! "(void*)" ++ hexStr base) :: args.map argValue
  callText values (structDefs args) (joinWith (chars! ", ") types) address ret

/-- Models `_handle_execute_function` up to `EvaluateExpression`, rudy_lldb.py:571-665. -/
def functionExpr (address : Nat) (args : List Arg) (ret : Option Nat) : Str :=
  let types := args.map argType
  callText (args.map argValue) (structDefs args)
    (if types.isEmpty then chars! "void" else joinWith (chars! ", ") types) address ret

/-- What LLDB answers to an expression: it failed, or it has a value (`GetValueAsUnsigned`) and maybe an address
(`GetLoadAddress`, then `GetAddress().GetLoadAddress`; `none` is `LLDB_INVALID_ADDRESS`). -/
inductive Outcome where
  | failed (message : Str)
  | value (v : Nat) (load : Option Nat) (address : Option Nat)

/-- `lldb.LLDB_INVALID_ADDRESS`. -/
def invalidAddress : Nat := 2 ^ 64 - 1

/-- The result address, rudy_lldb.py:526-531 and 670-675. -/
def resultAddress (v : Nat) (load address : Option Nat) : Nat :=
  if v = 0 then
    match load with
    | some a => a
    | none => address.getD invalidAddress
  else v

/-- The result of the call, rudy_lldb.py:488-505, 523-560 (and 632-649, 667-704): `none` is an error. -/
def callResult (ret : Option Nat) : Outcome → Option CallResult
  | .failed _ => none
  | .value v load address =>
    match ret with
    | none => some (.simple v (chars! "usize"))
    | some n =>
      if resultAddress v load address ≠ invalidAddress then some (.complex (resultAddress v load address) n (chars! "complex"))
      else none

/-- Models `_handle_execute_method` and `_handle_execute_function`, rudy_lldb.py:423-705, with `lldb` for
`EvaluateExpression`; the texts of errors are dropped. -/
def handleCall (lldb : Str → Outcome) : Event → Option Answer
  | .executeMethod address base args ret =>
    match callResult ret (lldb (methodExpr address base args ret)) with
    | some r => some (.method r)
    | none => some (.error [])
  | .executeFunction address args ret =>
    match callResult ret (lldb (functionExpr address args ret)) with
    | some r => some (.function r)
    | none => some (.error [])
  | _ => none

/-! ### Registers -/

/-- A register as LLDB shows it: its name and its bytes, lowest first. -/
structure Reg where
  name : Str
  bytes : List UInt8

/-- `GetValueAsUnsigned`. Simplification: registers wider than 64 bits are cut off. -/
def asUnsigned (r : Reg) : Nat := leNat (r.bytes.take 8)

/-- `GetData().uint64s[0]`: raises if there are fewer than eight bytes. -/
def firstWord (r : Reg) : Option Nat := if 8 ≤ r.bytes.length then some (leNat (r.bytes.take 8)) else none

/-- Models `_handle_read_register`, rudy_lldb.py:192-238, on the register sets of the selected frame; `none` is an
error. -/
def readRegister (sets : List (List Reg)) (name : Str) : Option Nat :=
  (sets.flatten.find? fun r => r.name == name).map asUnsigned

/-- Models `_handle_read_register_by_index`, rudy_lldb.py:240-295, on the register sets of the selected frame; `none` is
an error. A child index out of range gives an invalid value. -/
def readRegisterByIndex : (sets : List (List Reg)) → (index : Nat) → Option Nat
  | [], _ => none
  | s :: rest, i =>
    if s.length ≥ i then
      match s[i]? with
      | some r => firstWord r
      | none => readRegisterByIndex rest i
    else readRegisterByIndex rest i

end Rudy.Calls
