import Verif.Model.Layout
/-
Model of displayed values: rudy-db/src/outputs.rs.
-/
namespace Rudy.Data
open Rudy Rudy.Layout

/-- Models `Value`, outputs.rs:66-90, with `TypedPointer` (57-64) inlined. A `BTreeMap<String, Value>`
is its list of entries in key order. -/
inductive Value where
  | scalar (ty value : Str)
  | array (ty : Str) (items : List Value)
  | struct (ty : Str) (fields : List (Str × Value))
  | tuple (ty : Str) (entries : List Value)
  | map (ty : Str) (entries : List (Value × Value))
  | pointer (address : Nat) (typeDef : TypeDef)

/-- Models `Value::map_type`, outputs.rs:93-123. -/
def Value.mapType (f : Str → Str) : Value → Value
  | .scalar ty v => .scalar (f ty) v
  | .array ty xs => .array (f ty) xs
  | .struct ty fs => .struct (f ty) fs
  | .tuple ty xs => .tuple (f ty) xs
  | .map ty es => .map (f ty) es
  | .pointer a t => .pointer a t

/-- Models `Value::prefix_type`, outputs.rs:126-129. -/
def Value.prefixType (p : Str) (v : Value) : Value := v.mapType (fun ty => p ++ ty)

/-- Models `Value::wrap_type`, outputs.rs:131-134. -/
def Value.wrapType (p : Str) (v : Value) : Value := v.mapType (fun ty => p ++ chars! "<" ++ ty ++ chars! ">")

mutual
/-- Models `Ord for Value`, outputs.rs:143-213. -/
def Value.cmp : Value → Value → Ordering
  | .scalar t1 v1, .scalar t2 v2 => (compare t1 t2).then (compare v1 v2)
  | .array t1 a, .array t2 b => (compare t1 t2).then (cmpList a b)
  | .struct t1 a, .struct t2 b => (compare t1 t2).then (cmpFields a b)
  | .tuple t1 a, .tuple t2 b => (compare t1 t2).then (cmpList a b)
  | .map t1 a, .map t2 b => (compare t1 t2).then (cmpEntries a b)
  | .pointer a _, .pointer b _ => compare a b
  | .scalar .., _ => .lt
  | .array .., .scalar .. => .gt
  | .array .., _ => .lt
  | .struct .., .scalar .. => .gt
  | .struct .., .array .. => .gt
  | .struct .., _ => .lt
  | .tuple .., .pointer .. => .lt
  | .tuple .., .map .. => .lt
  | .tuple .., _ => .gt
  | .map .., .pointer .. => .lt
  | .map .., _ => .gt
  | .pointer .., _ => .gt
/-- `Vec<Value>::cmp` (standard library): lexicographic. -/
def cmpList : List Value → List Value → Ordering
  | [], [] => .eq
  | [], _ :: _ => .lt
  | _ :: _, [] => .gt
  | x :: xs, y :: ys => (x.cmp y).then (cmpList xs ys)
/-- `BTreeMap<String, Value>::cmp` (standard library): lexicographic over the entries. -/
def cmpFields : List (Str × Value) → List (Str × Value) → Ordering
  | [], [] => .eq
  | [], _ :: _ => .lt
  | _ :: _, [] => .gt
  | (k, x) :: xs, (l, y) :: ys => ((compare k l).then (x.cmp y)).then (cmpFields xs ys)
/-- `Vec<(Value, Value)>::cmp` (standard library): lexicographic. -/
def cmpEntries : List (Value × Value) → List (Value × Value) → Ordering
  | [], [] => .eq
  | [], _ :: _ => .lt
  | _ :: _, [] => .gt
  | (k, x) :: xs, (l, y) :: ys => ((k.cmp l).then (x.cmp y)).then (cmpEntries xs ys)
end

end Rudy.Data
