import Verif.Model.Basic
/-
Model of type layouts: crates/rudy-types/src/lib.rs.

Numbers (`usize`) are natural numbers; the arithmetic of `size` is checked 64-bit arithmetic
(`mulU`), i.e. a debug build, where overflow panics.
-/
namespace Rudy.Layout
open Rudy

/-- Decimal digits, as `to_string` / `format!("{}")` print an unsigned number (lib.rs:22, 549, 610). -/
def natStr (n : Nat) : Str := Nat.toDigits 10 n

/-- Models `SmartPtrVariant`, lib.rs:685-695. -/
inductive SmartPtr where
  | box | rc | arc | refCell | mutex | rwLock | cell | unsafeCell
deriving DecidableEq, Repr

/-- Models `SmartPtrVariant::name`, lib.rs:697-710 (the derived `Debug` of lib.rs:55 prints the same
names). -/
def SmartPtr.name : SmartPtr → Str
  | .box => chars! "Box" | .rc => chars! "Rc" | .arc => chars! "Arc"
  | .refCell => chars! "RefCell" | .mutex => chars! "Mutex" | .rwLock => chars! "RwLock"
  | .cell => chars! "Cell" | .unsafeCell => chars! "UnsafeCell"

/-- Models `BTreeNodeLayout`, lib.rs:739-745. -/
structure NodeLayout where
  keysOff : Nat
  valsOff : Nat
  lenOff : Nat
  edgesOff : Nat
deriving DecidableEq, Repr

/-- Models `MapVariant`, lib.rs:747-764 (`BTreeRootLayout`, 733-737, inlined). -/
inductive MapVariant where
  | hashMap (bucketMaskOff ctrlOff itemsOff pairSize keyOff valueOff : Nat)
  | btreeMap (lengthOff rootOff nodeOff heightOff : Nat) (node : NodeLayout)
  | indexMap
deriving DecidableEq, Repr

/-- Models `MapVariant::name`, lib.rs:766-774. -/
def MapVariant.name : MapVariant → Str
  | .hashMap .. => chars! "HashMap"
  | .btreeMap .. => chars! "BTreeMap"
  | .indexMap => chars! "IndexMap"

/-- Models `DiscriminantType`, lib.rs:843-848. -/
inductive DiscTy where
  | int (size : Nat)
  | uint (size : Nat)
  | implicit
deriving DecidableEq, Repr

/-- Models `Discriminant`, lib.rs:827-831. -/
structure Disc where
  ty : DiscTy
  offset : Nat
deriving DecidableEq, Repr

/-- Models `Discriminant::size`, lib.rs:834-840. -/
def Disc.size (d : Disc) : Nat :=
  match d.ty with
  | .int s => s
  | .uint s => s
  | .implicit => 4

mutual
/-- Models `TypeDefinition<L>`, lib.rs:305-320. `loc = none` is `L = ()`; `some d` is the debug-info
entry `d` (`L = Die`). -/
inductive TypeDef where
  | mk (loc : Option Nat) (layout : Layout)
/-- Models `Layout`, lib.rs:354-382, with `PrimitiveLayout` (385-412) and `StdLayout` (614-625) and
their payload structs flattened into one type. -/
inductive Layout where
  -- PrimitiveLayout
  | array (elem : TypeDef) (length : Nat)
  | bool
  | char
  | float (size : Nat)
  | function (ret : OptTypeDef) (args : Members)
  | int (size : Nat)
  | never
  | pointer (mutable : Bool) (pointee : TypeDef)
  | reference (mutable : Bool) (pointee : TypeDef)
  | slice (elem : TypeDef) (dataOff lenOff : Nat)
  | str
  | strSlice (dataOff lenOff : Nat)
  | tuple (elems : Members) (size : Nat)
  | unit
  | uint (size : Nat)
  -- StdLayout
  | smartPtr (variant : SmartPtr) (inner : TypeDef) (innerOff dataOff : Nat)
  | map (variant : MapVariant) (key value : TypeDef)
  | option (name : Str) (disc : Disc) (someOff : Nat) (some : TypeDef) (size : Nat)
  | result (name : Str) (disc : Disc) (ok : TypeDef) (okOff : Nat) (err : TypeDef) (errOff size : Nat)
  | string (lenOff dataOff capOff : Nat) (inner : TypeDef)
  | vec (lenOff dataOff capOff : Nat) (inner : TypeDef)
  -- user types
  | struct (name : Str) (size align : Nat) (fields : Members)
  | enum (name : Str) (disc : Disc) (variants : Variants) (size : Nat)
  | cenum (name : Str) (disc : DiscTy) (variants : List (Str × Int)) (size : Nat)
  | alias (name : Str)
/-- `Vec<StructField>` (lib.rs:817-825), the `(offset, type)` list of a tuple (lib.rs:590-597; name
empty) or the argument list of a function (lib.rs:516-522; name empty, offset 0). -/
inductive Members where
  | nil
  | cons (name : Str) (offset : Nat) (ty : TypeDef) (rest : Members)
/-- `Option<TypeDefinition>`, the return type of a function, lib.rs:520. -/
inductive OptTypeDef where
  | none
  | some (ty : TypeDef)
/-- `Vec<EnumVariantLayout>`, lib.rs:857 and 861-873. -/
inductive Variants where
  | nil
  | cons (name : Str) (disc : Option Int) (ty : TypeDef) (rest : Variants)
end

deriving instance DecidableEq for TypeDef, Layout, Members, OptTypeDef, Variants

/-- The location of a type definition. -/
def TypeDef.loc : TypeDef → Option Nat
  | .mk l _ => l
/-- The layout of a type definition. -/
def TypeDef.layout : TypeDef → Layout
  | .mk _ l => l

/-- Members as a list. -/
def Members.toList : Members → List (Str × Nat × TypeDef)
  | .nil => []
  | .cons n o t r => (n, o, t) :: r.toList

/-- Variants as a list. -/
def Variants.toList : Variants → List (Str × Option Int × TypeDef)
  | .nil => []
  | .cons n d t r => (n, d, t) :: r.toList

mutual
/-- Models `TypeDefinition::display_name`, lib.rs:333-335. -/
def TypeDef.displayName : TypeDef → Str
  | .mk _ l => l.displayName
/-- Models `Layout::display_name`, lib.rs:11-79, with `FunctionLayout::display_name` (525-539),
`IntLayout`/`UnsignedIntLayout::display_name` (548-550, 609-611) and `MapLayout::display_name`
(723-730). -/
def Layout.displayName : Layout → Str
  | .array e n => chars! "[" ++ e.displayName ++ chars! "; " ++ natStr n ++ chars! "]"
  | .bool => chars! "bool"
  | .char => chars! "char"
  | .float s => chars! "f" ++ natStr (s * 8)
  | .function ret args => chars! "fn(" ++ args.displayNames ++ chars! ")" ++ ret.displaySuffix
  | .int s => chars! "i" ++ natStr (s * 8)
  | .never => chars! "!"
  | .pointer _ t => chars! "*" ++ t.displayName
  | .reference m t => chars! "&" ++ (if m then chars! "mut " else []) ++ t.displayName
  | .slice t _ _ => chars! "&[" ++ t.displayName ++ chars! "]"
  | .str => chars! "str"
  | .strSlice _ _ => chars! "&str"
  | .tuple es _ => chars! "(" ++ es.displayNames ++ chars! ")"
  | .unit => chars! "()"
  | .uint s => chars! "u" ++ natStr (s * 8)
  | .smartPtr v t _ _ => v.name ++ chars! "<" ++ t.displayName ++ chars! ">"
  | .map v k w =>
    v.name ++ chars! "<" ++ k.displayName ++ chars! ", " ++ w.displayName ++ chars! ">"
  | .option _ _ _ t _ => chars! "Option<" ++ t.displayName ++ chars! ">"
  | .result _ _ t _ e _ _ =>
    chars! "Result<" ++ t.displayName ++ chars! ", " ++ e.displayName ++ chars! ">"
  | .string .. => chars! "String"
  | .vec _ _ _ t => chars! "Vec<" ++ t.displayName ++ chars! ">"
  | .struct n _ _ _ => n
  | .enum n _ _ _ => n
  | .cenum n _ _ _ => n
  | .alias n => n
/-- Names joined by ", " (lib.rs:40-44 and 526-531). -/
def Members.displayNames : Members → Str
  | .nil => []
  | .cons _ _ t .nil => t.displayName
  | .cons _ _ t (.cons n o t' r) => t.displayName ++ chars! ", " ++ (Members.cons n o t' r).displayNames
/-- The " -> T" suffix, lib.rs:535-537. -/
def OptTypeDef.displaySuffix : OptTypeDef → Str
  | .none => []
  | .some t => chars! " -> " ++ t.displayName
end

mutual
/-- Models `TypeDefinition::size`, lib.rs:337-339. -/
def TypeDef.size : TypeDef → Res (Option Nat)
  | .mk _ l => l.size
/-- Models `Layout::size`, lib.rs:81-90, `PrimitiveLayout::size`, 415-456, and `StdLayout::size`,
628-651, on a 64-bit host: `size_of` of `usize`, `&[u8]`, `&str`, `Box<()>`, `Rc<()>`, `Arc<()>`,
`RefCell<()>`, `Mutex<()>` (Linux futex), `RwLock<()>`, `Cell<()>`, `UnsafeCell<()>`, `HashMap<(),()>`,
`BTreeMap<(),()>`, `Vec<()>` are 8, 16, 16, 8, 8, 8, 8, 8, 12, 0, 0, 48, 24, 24. `Option` is
`Some`/`None`; `unimplemented!()` is `panic`. -/
def Layout.size : Layout → Res (Option Nat)
  | .array e n =>
    match e.size with
    | .ok (some s) => (mulU s n).bind (fun x => .ok (some x))
    | .ok none => .ok none
    | .err => .err
    | .panic => .panic
  | .bool => .ok (some 1)
  | .char => .ok (some 4)
  | .float s => .ok (some s)
  | .function .. => .ok (some 8)
  | .pointer .. => .ok (some 8)
  | .reference .. => .ok (some 8)
  | .int s => .ok (some s)
  | .never => .ok (some 0)
  | .slice .. => .ok (some 16)
  | .str => .panic
  | .strSlice .. => .ok (some 16)
  | .tuple _ s => .ok (some s)
  | .unit => .ok (some 0)
  | .uint s => .ok (some s)
  | .smartPtr v _ _ _ =>
    .ok (some (match v with
      | .box => 8 | .rc => 8 | .arc => 8 | .refCell => 8 | .mutex => 8 | .rwLock => 12
      | .cell => 0 | .unsafeCell => 0))
  | .map v _ _ =>
    match v with
    | .hashMap .. => .ok (some 48)
    | .btreeMap .. => .ok (some 24)
    | .indexMap => .panic
  | .option _ _ _ _ s => .ok (some s)
  | .result _ _ _ _ _ _ s => .ok (some s)
  | .string .. => .ok (some 24)
  | .vec .. => .ok (some 24)
  | .struct _ s _ _ => .ok (some s)
  | .enum _ _ _ s => .ok (some s)
  | .cenum _ _ _ s => .ok (some s)
  | .alias _ => .ok none
end

/-- Models `Location::matches`: always false for `()` (lib.rs:347-351), equality for `Die`
(crates/rudy-dwarf/src/types/mod.rs:14-18). -/
def locMatches : Option Nat → Option Nat → Bool
  | some a, some b => a == b
  | _, _ => false

mutual
/-- Models `TypeDefinition::matching_type`, lib.rs:341-343. -/
def TypeDef.matching : TypeDef → TypeDef → Bool
  | .mk l1 a, .mk l2 b => locMatches l1 l2 || a.matching b
/-- Models `Layout::matching_type`, lib.rs:92-104, `PrimitiveLayout::matching_type`, 458-499, and
`StdLayout::matching_type`, 653-671. The arm `(Struct, Alias)` of line 97 is an instance of the arm of
line 99, because a struct's display name is its name. -/
def Layout.matching : Layout → Layout → Bool
  | .alias n, .alias m => n == m
  | .alias n, x => n == x.displayName
  | x, .alias n => n == x.displayName
  | .pointer _ a, .pointer _ b => a.matching b
  | .reference _ a, .reference _ b => a.matching b
  | .slice a _ _, .slice b _ _ => a.matching b
  | .array a _, .array b _ => a.matching b
  | .tuple as _, .tuple bs _ => as.matching bs
  | .function r as, .function q bs => r.matching q && as.matching bs
  | .bool, .bool => true
  | .char, .char => true
  | .never, .never => true
  | .str, .str => true
  | .unit, .unit => true
  | .float a, .float b => a == b
  | .int a, .int b => a == b
  | .uint a, .uint b => a == b
  | .strSlice a b, .strSlice c d => a == c && b == d
  | .smartPtr v a _ _, .smartPtr w b _ _ => decide (v = w) && a.matching b
  | .map v a b, .map w c d => decide (v = w) && a.matching c && b.matching d
  | .option _ _ _ a _, .option _ _ _ b _ => a.matching b
  | .result _ _ a _ b _ _, .result _ _ c _ d _ _ => a.matching c && b.matching d
  | .string .., .string .. => true
  | .vec _ _ _ a, .vec _ _ _ b => a.matching b
  | .struct n _ _ _, .struct m _ _ _ => n == m
  | .enum n _ _ _, .enum m _ _ _ => n == m
  | .cenum n _ _ _, .cenum m _ _ _ => n == m
  | _, _ => false
/-- Equal lengths and element-wise match (lib.rs:466-472 and 476, 482-485). -/
def Members.matching : Members → Members → Bool
  | .nil, .nil => true
  | .cons _ _ a r, .cons _ _ b s => a.matching b && r.matching s
  | _, _ => false
/-- Both absent, or both present and matching (lib.rs:477-481). -/
def OptTypeDef.matching : OptTypeDef → OptTypeDef → Bool
  | .none, .none => true
  | .some a, .some b => a.matching b
  | _, _ => false
end

mutual
/-- Models `Layout::dereferenced`, lib.rs:116-129. -/
def TypeDef.dereferenced : TypeDef → Layout
  | .mk _ l => l.dereferenced
/-- Models `Layout::dereferenced`, lib.rs:116-129. -/
def Layout.dereferenced : Layout → Layout
  | .pointer _ t => t.dereferenced
  | .reference _ t => t.dereferenced
  | l => l
end

end Rudy.Layout
