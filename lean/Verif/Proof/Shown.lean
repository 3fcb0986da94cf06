import Verif.Props.UserTypes
import Verif.Props.Enums
import Verif.Props.Maps
import Verif.Proof.TypeMono
import Verif.Model.Eval
/-
Specification vocabulary and lemmas for C76: what is printed is what the program holds.
-/
set_option linter.unusedSimpArgs false
namespace Rudy.Shown
open Rudy Rudy.Dwarf Rudy.Parse Rudy.Layout Rudy.Data Rudy.TypeRes Rudy.Eval

/-! ### Specification: values and how they are printed -/

/-- A value of the program, as far as it is printed. -/
inductive RVal where
  /-- A number, a truth value, a character, a text: printed as this. -/
  | leaf (text : Str)
  /-- The elements of a `Vec`, a slice or an array. -/
  | seq (items : List RVal)
  /-- A struct, or a variant with named fields. -/
  | record (type : Str) (fields : List (Str × RVal))
  /-- A variant with unnamed fields. -/
  | tuple (type : Str) (items : List RVal)
  /-- The entries of a map. -/
  | map (entries : List (RVal × RVal))

/-- The type name printed with a struct behind a reference or in a smart pointer says so. -/
def RVal.mark (f : Str → Str) : RVal → RVal
  | .record t fs => .record (f t) fs
  | .tuple t xs => .tuple (f t) xs
  | v => v

/-- Items on lines of their own, between `open` and `close`, two blanks in. -/
def block (opening : Str) (items : List Str) (closing : Str) : Str :=
  opening ++ chars! "\n" ++ indent (Expr.joinWith (chars! ",\n") items) ++ chars! "\n" ++ closing

mutual
/-- The text of a value. More than ten elements or entries are only counted. -/
def RVal.text : RVal → Str
  | .leaf t => t
  | .seq vs => if vs.length ≤ 10 then block (chars! "[") (texts vs) (chars! "]") else chars! "[" ++ natStr vs.length ++ chars! " items]"
  | .record t fs => block (t ++ chars! " {") (fieldTexts fs) (chars! "}")
  | .tuple t vs => block (t ++ chars! " (") (texts vs) (chars! ")")
  | .map es => if es.length ≤ 10 then block (chars! "{") (entryTexts es) (chars! "}") else chars! "{ " ++ natStr es.length ++ chars! " entries }"
/-- The texts of some values. -/
def texts : List RVal → List Str
  | [] => []
  | v :: vs => v.text :: texts vs
/-- The texts of some fields. -/
def fieldTexts : List (Str × RVal) → List Str
  | [] => []
  | (n, v) :: vs => (n ++ chars! ": " ++ v.text) :: fieldTexts vs
/-- The texts of some entries. -/
def entryTexts : List (RVal × RVal) → List Str
  | [] => []
  | (k, v) :: vs => (k.text ++ chars! ": " ++ v.text) :: entryTexts vs
end

/-! ### Specification: what the debug information says about a type -/

/-- A type as the debug information describes it; the types it is made of are given by their entries. -/
inductive Desc where
  /-- A type known by its name alone. -/
  | plain (l : Layout)
  | string (lenOff dataOff capOff byte : Nat)
  | str (dataOff lenOff : Nat)
  | vec (lenOff dataOff capOff elem : Nat)
  | slice (dataOff lenOff elem : Nat)
  | array (elem n : Nat)
  | pointer (mutable : Bool) (target : Nat)
  | reference (mutable : Bool) (target : Nat)
  /-- `Box`, `Rc`, `Arc`, `Mutex`, `RefCell`. -/
  | smart (v : SmartPtr) (innerOff dataOff inner : Nat)
  | option (name : Str) (disc : Disc) (off inner size : Nat)
  | struct (name : Str) (size align : Nat) (fields : List (Str × Nat × Nat))
  | enum (name : Str) (disc : Disc) (variants : List (Str × Option Int × Nat)) (size : Nat)
  | cenum (name : Str) (disc : DiscTy) (variants : List (Str × Int)) (size : Nat)
  | hashMap (mask ctrl items pairSize keyOff valueOff key value : Nat)
  | btreeMap (lengthOff rootOff nodeOff heightOff : Nat) (node : NodeLayout) (key value : Nat)
  /-- The elements with their offsets. -/
  | tuple (size : Nat) (elems : List (Nat × Nat))
  | result (name : Str) (disc : Disc) (okOff okTy errOff errTy size : Nat)

/-- The entries of the types a type is made of. -/
def Desc.parts : Desc → List Nat
  | .plain _ => []
  | .string _ _ _ t => [t]
  | .str _ _ => []
  | .vec _ _ _ t => [t]
  | .slice _ _ t => [t]
  | .array t _ => [t]
  | .pointer _ t => [t]
  | .reference _ t => [t]
  | .smart _ _ _ t => [t]
  | .option _ _ _ t _ => [t]
  | .struct _ _ _ fs => fs.map (·.2.2)
  | .enum _ _ vs _ => vs.map (·.2.2)
  | .cenum .. => []
  | .hashMap _ _ _ _ _ _ k v => [k, v]
  | .btreeMap _ _ _ _ _ k v => [k, v]
  | .tuple _ es => es.map (·.2)
  | .result _ _ _ t _ u _ => [t, u]

/-- Numbers, `bool`, `char`, `()`. -/
def Plain : Layout → Prop
  | .bool | .char | .unit => True
  | .int n => n ∈ [1, 2, 4, 8, 16]
  | .uint n => n ∈ [1, 2, 4, 8, 16]
  | .float n => n ∈ [4, 8]
  | _ => False

section
variable (typedef : Nat → Option Layout) (db : Db)

/-- The variant part has the discriminant `d`: an integer type by its name, at the location of the part if it has one (the compiler gives it none); or it has none, as that of an enumeration
with a single variant. Where the discriminant really is stored, `DiscStored` says. -/
def DiscDesc (part : Nat) (d : Disc) : Prop :=
  (∃ m t l, Refers db part .discr m ∧ Typed db m t ∧ typedef t = some l ∧
    ((∃ n, l = .int n ∧ d.ty = .int n) ∨ ∃ n, l = .uint n ∧ d.ty = .uint n) ∧
    (Located db part d.offset ∨ (∀ o, ¬ Located db part o) ∧ d.offset = 0)) ∨
  ((∀ m, ¬ Refers db part .discr m) ∧ d = { ty := .implicit, offset := 0 })

/-- The discriminant of the values of the type of `e` is stored at the offset of `d`: there is its member in the variant part. -/
def DiscStored (e : Nat) (d : Disc) : Prop :=
  ∃ part m, FirstChild db e (fun c => Tagged db c .variantPart) part ∧ Refers db part .discr m ∧ Located db m d.offset

/-- The type of `e` is an option of the type of `t`. -/
def OptionDesc (e t : Nat) : Prop :=
  ∃ name size part disc off, EnumEntry db e name size part ∧ DiscDesc typedef db part disc ∧ Payload db part (chars! "Some") off t

/-- The entry `v` describes the variant `r`: its name, its discriminant value, the entry of its payload. -/
def VariantDesc (v : Nat) (r : Str × Option Int × Nat) : Prop :=
  ((∃ i, r.2.1 = some i ∧ HasInt db v .discrValue i) ∨ r.2.1 = none ∧ ∀ i, ¬ HasInt db v .discrValue i) ∧
  ∃ m, FirstChild db v (fun c => Tagged db c .member) m ∧ Named db m r.1 ∧ Located db m 0 ∧ Typed db m r.2.2

/-- A smart pointer whose value is at hand or behind a pointer: `Box`. Others by their members. -/
def SmartDesc (e : Nat) : (v : SmartPtr) → (innerOff dataOff inner : Nat) → Prop
  | .box, i, d, t => Typed db e t ∧ i = 0 ∧ d = 0
  | .mutex, i, d, t => Distinct db e ∧ Param db e (chars! "T") t ∧ d = 0 ∧ i < u64Max1 ∧
      ∃ o1 o2 cell, Field db e (chars! "data") o1 cell ∧ OffOf db cell (chars! "value") o2 ∧ i = o1 + o2
  | .refCell, i, d, t => Distinct db e ∧ Param db e (chars! "T") t ∧ d = 0 ∧ i < u64Max1 ∧
      ∃ o1 o2 cell, Field db e (chars! "value") o1 cell ∧ OffOf db cell (chars! "value") o2 ∧ i = o1 + o2
  | .rc, i, d, t => Distinct db e ∧ Param db e (chars! "T") t ∧ i < u64Max1 ∧
      ∃ o1 nn o2 raw alloc, Field db e (chars! "ptr") o1 nn ∧ Field db nn (chars! "pointer") o2 raw ∧
        Typed db raw alloc ∧ OffOf db alloc (chars! "value") d ∧ i = o1 + o2
  | .arc, i, d, t => Distinct db e ∧ Param db e (chars! "T") t ∧ i < u64Max1 ∧
      ∃ o1 nn o2 raw alloc, Field db e (chars! "ptr") o1 nn ∧ Field db nn (chars! "pointer") o2 raw ∧
        Typed db raw alloc ∧ OffOf db alloc (chars! "data") d ∧ i = o1 + o2
  | _, _, _, _ => False

/-- The entry `e` describes the type. -/
def Describes (e : Nat) : Desc → Prop
  | .plain l => typedef e = some l ∧ Plain l
  | .string lenOff dataOff capOff t => (∃ a b c i, typedef e = some (.string a b c i)) ∧ ∃ v, TypeOf db e (chars! "vec") v ∧
      (∃ t1, Along db v [chars! "buf", chars! "inner", chars! "ptr"] dataOff t1) ∧ OffOf db v (chars! "len") lenOff ∧
      (∃ t2, Along db v [chars! "buf", chars! "inner", chars! "cap", chars! "__0"] capOff t2) ∧
      Param db v (chars! "T") t ∧ dataOff < u64Max1 ∧ capOff < u64Max1
  | .str dataOff lenOff => (∃ a b, typedef e = some (.strSlice a b)) ∧ OffOf db e (chars! "data_ptr") dataOff ∧
      OffOf db e (chars! "length") lenOff
  | .vec lenOff dataOff capOff t => (∃ a b c i, typedef e = some (.vec a b c i)) ∧ Distinct db e ∧
      (∃ t1, Along db e [chars! "buf", chars! "inner", chars! "ptr"] dataOff t1) ∧ OffOf db e (chars! "len") lenOff ∧
      (∃ t2, Along db e [chars! "buf", chars! "inner", chars! "cap", chars! "__0"] capOff t2) ∧
      Param db e (chars! "T") t ∧ dataOff < u64Max1 ∧ capOff < u64Max1
  | .slice dataOff lenOff t => (∃ i a b, typedef e = some (.slice i a b)) ∧
      (∃ p, Field db e (chars! "data_ptr") dataOff p ∧ Typed db p t) ∧ OffOf db e (chars! "length") lenOff
  | .array t n => Ordinary typedef e ∧ Tagged db e .arrayType ∧ Typed db e t ∧
      ∃ s, FirstChild db e (fun c => Tagged db c .subrangeType) s ∧ HasNum db s .count n
  | .pointer m t => (∃ i, typedef e = some (.pointer m i)) ∧ Typed db e t
  | .reference m t => (∃ i, typedef e = some (.reference m i)) ∧ Typed db e t
  | .smart v i d t => (∃ t0 a b, typedef e = some (.smartPtr v t0 a b)) ∧ SmartDesc db e v i d t
  | .option name disc off t size => (∃ n0 d0 o0 t0 s0, typedef e = some (.option n0 d0 o0 t0 s0)) ∧
      ∃ part, EnumEntry db e name size part ∧ DiscDesc typedef db part disc ∧ Payload db part (chars! "Some") off t
  | .struct name size align fs => Ordinary typedef e ∧ Tagged db e .structureType ∧ Named db e name ∧
      HasNum db e .byteSize size ∧ HasNum db e .alignment align ∧ ∃ cs, db.children e = .ok cs ∧
      (∀ c ∈ cs, ¬ Tagged db c .variantPart) ∧
      List.Forall₂ (fun c f => Named db c f.1 ∧ Located db c f.2.1 ∧ Typed db c f.2.2)
        (cs.filter fun c => decide (tag db c = some .member)) fs
  | .enum name disc vs size => Ordinary typedef e ∧ Tagged db e .structureType ∧ ∃ part cs,
      EnumEntry db e name size part ∧ DiscDesc typedef db part disc ∧ db.children part = .ok cs ∧
      List.Forall₂ (VariantDesc db) (cs.filter fun c => decide (tag db c = some .variant)) vs
  | .cenum name disc vs size => Ordinary typedef e ∧ Tagged db e .enumerationType ∧ Named db e name ∧
      HasNum db e .byteSize size ∧ (∃ t l, Typed db e t ∧ typedef t = some l ∧
        ((∃ n, l = .int n ∧ disc = .int n) ∨ ∃ n, l = .uint n ∧ disc = .uint n)) ∧
      ∃ cs, db.children e = .ok cs ∧ Collects (Enumerator db) cs vs
  | .hashMap mask ctrl items ps ko vo k v => (∃ m1 m2 m3 m4 m5 m6 k0 v0,
        typedef e = some (.map (.hashMap m1 m2 m3 m4 m5 m6) k0 v0)) ∧ Distinct db e ∧
      Param db e (chars! "K") k ∧ Param db e (chars! "V") v ∧
      ∃ b, TableEntry db e b ∧ HashTable db b mask ctrl items ps ko vo
  | .btreeMap lengthOff rootOff nodeOff heightOff nl k v => (∃ m1 m2 m3 m4 n0 k0 v0,
        typedef e = some (.map (.btreeMap m1 m2 m3 m4 n0) k0 v0)) ∧ Distinct db e ∧
      Param db e (chars! "K") k ∧ Param db e (chars! "V") v ∧ OffOf db e (chars! "length") lengthOff ∧
      ∃ rootTy nodeRef nodePtr leaf parentTy parentPtr internal,
        Field db e (chars! "root") rootOff rootTy ∧ OptionDesc typedef db rootTy nodeRef ∧
        OffOf db nodeRef (chars! "height") heightOff ∧ Field db nodeRef (chars! "node") nodeOff nodePtr ∧
        PointsTo db nodePtr leaf ∧ OffOf db leaf (chars! "len") nl.lenOff ∧ OffOf db leaf (chars! "keys") nl.keysOff ∧
        OffOf db leaf (chars! "vals") nl.valsOff ∧ TypeOf db leaf (chars! "parent") parentTy ∧
        OptionDesc typedef db parentTy parentPtr ∧ PointsTo db parentPtr internal ∧
        OffOf db internal (chars! "edges") nl.edgesOff
  | .tuple size es => (∃ m0 s0, typedef e = some (.tuple m0 s0)) ∧ HasNum db e .byteSize size ∧ ∃ cs, db.children e = .ok cs ∧
      List.Forall₂ (fun c x => Located db c x.1 ∧ Typed db c x.2) cs es
  | .result name disc okOff okTy errOff errTy size => (∃ n0 d0 t1 o1 t2 o2 s0, typedef e = some (.result n0 d0 t1 o1 t2 o2 s0)) ∧
      ∃ part, EnumEntry db e name size part ∧ DiscDesc typedef db part disc ∧ Payload db part (chars! "Ok") okOff okTy ∧
        Payload db part (chars! "Err") errOff errTy

/-- A type that can be told by name: what it is made of is described too, down to the user's own types. -/
inductive Known : Nat → Prop
  | user {e : Nat} : Ordinary typedef e → Known e
  | built {e : Nat} {d : Desc} : ¬ Ordinary typedef e → Describes typedef db e d → (∀ t ∈ d.parts, Known t) → Known e

/-- The type is described, and so is what it is made of. -/
def Is (e : Nat) (d : Desc) : Prop := Describes typedef db e d ∧ ∀ t ∈ d.parts, Known typedef db t

/-- The size of a value of a plain type. -/
def plainSize : Layout → Option Nat
  | .bool => some 1
  | .char => some 4
  | .unit => some 0
  | .int n => some n
  | .uint n => some n
  | .float n => some n
  | _ => none

/-- The size of the values of a type, other than arrays, `Mutex` and `RefCell`. -/
def Desc.size : Desc → Option Nat
  | .plain l => plainSize l
  | .string .. => some 24
  | .vec .. => some 24
  | .str .. => some 16
  | .slice .. => some 16
  | .pointer .. => some 8
  | .reference .. => some 8
  | .smart .box _ _ _ => some 8
  | .smart .rc _ _ _ => some 8
  | .smart .arc _ _ _ => some 8
  | .smart _ _ _ _ => none
  | .option _ _ _ _ s => some s
  | .struct _ s _ _ => some s
  | .enum _ _ _ s => some s
  | .cenum _ _ _ s => some s
  | .hashMap .. => some 48
  | .btreeMap .. => some 24
  | .tuple s _ => some s
  | .result _ _ _ _ _ _ s => some s
  | .array _ _ => none

/-- The values of the type of `e` have the size `s`; for arrays if the elements are not of a user's type. -/
inductive SizeIs : Nat → Nat → Prop
  | one {e s : Nat} {d : Desc} : Is typedef db e d → d.size = some s → SizeIs e s
  | array {e t n s : Nat} {d : Desc} : Is typedef db e (.array t n) → Is typedef db t d → ¬ Ordinary typedef t →
      d.size = some s → s * n < u64Max1 → SizeIs e (s * n)

/-! ### Specification: what memory holds -/

variable (m : Mem) (lossy : List UInt8 → Str) (floatStr : Nat → Nat → Str)

/-- Memory holds a value of a plain type at `a`, of which this is the text. -/
def HoldsPlain (a : Nat) : Layout → Str → Prop
  | .bool, t => ∃ b, m a = some b ∧ t = (if b = 0 then chars! "false" else chars! "true")
  | .char, t => ∃ c : Char, m.HoldsNat a 4 c.toNat ∧ t = ['\'', c, '\'']
  | .unit, t => t = chars! "()"
  | .int s, t => ∃ v : Int, m.HoldsInt a s v ∧ t = (toString v).toList
  | .uint s, t => ∃ v : Nat, m.HoldsNat a s v ∧ t = (toString v).toList
  | .float s, t => ∃ v : Nat, m.HoldsNat a s v ∧ t = floatStr s v
  | _, _ => False

/-- The variant a discriminant stands for: the first one that declares it, or, if none does, the first one that declares
none. -/
def Picks (vs : List (Str × Option Int × Nat)) (d : Int) (v : Str × Option Int × Nat) : Prop :=
  (∃ pre post, vs = pre ++ v :: post ∧ v.2.1 = some d ∧ ∀ w ∈ pre, w.2.1 ≠ some d) ∨
  ((∀ w ∈ vs, w.2.1 ≠ some d) ∧ ∃ pre post, vs = pre ++ v :: post ∧ v.2.1 = none ∧ ∀ w ∈ pre, w.2.1 ≠ none)

/-- Memory holds `v`, nested at most `n` levels deep, at the address `a`, as a value of the type of the entry `e`. -/
inductive Holds : (n a e : Nat) → RVal → Prop
  | plain {n a e : Nat} {l : Layout} {t : Str} : Is typedef db e (.plain l) → HoldsPlain m floatStr a l t → Holds n a e (.leaf t)
  /-- A `String`: length and pointer, and the bytes there. -/
  | string {n a e lenOff dataOff capOff t p : Nat} {bs : List UInt8} : Is typedef db e (.string lenOff dataOff capOff t) →
      m.HoldsNat (a + lenOff) 8 bs.length → m.HoldsNat (a + dataOff) 8 p → m.HoldsBytes p bs →
      a + lenOff < u64Max1 → a + dataOff < u64Max1 → Holds n a e (.leaf (chars! "\"" ++ lossy bs ++ chars! "\""))
  /-- A `&str`. -/
  | str {n a e lenOff dataOff p : Nat} {bs : List UInt8} : Is typedef db e (.str dataOff lenOff) →
      m.HoldsNat (a + lenOff) 8 bs.length → m.HoldsNat (a + dataOff) 8 p → m.HoldsBytes p bs →
      a + lenOff < u64Max1 → a + dataOff < u64Max1 → Holds n a e (.leaf (chars! "\"" ++ lossy bs ++ chars! "\""))
  /-- A `Vec`: length and pointer, and one element after the other there. -/
  | vec {n a e lenOff dataOff capOff t p s : Nat} {vs : List RVal} : Is typedef db e (.vec lenOff dataOff capOff t) →
      SizeIs typedef db t s → m.HoldsNat (a + lenOff) 8 vs.length → m.HoldsNat (a + dataOff) 8 p →
      (∀ i v, vs[i]? = some v → Holds n (p + i * s) t v) →
      a + lenOff < u64Max1 → a + dataOff < u64Max1 → p + vs.length * s < u64Max1 → vs.length * 48 < 2 ^ 63 →
      Holds (n + 1) a e (.seq vs)
  /-- A slice. -/
  | slice {n a e lenOff dataOff t p s : Nat} {vs : List RVal} : Is typedef db e (.slice dataOff lenOff t) →
      SizeIs typedef db t s → m.HoldsNat (a + lenOff) 8 vs.length → m.HoldsNat (a + dataOff) 8 p →
      (∀ i v, vs[i]? = some v → Holds n (p + i * s) t v) →
      a + lenOff < u64Max1 → a + dataOff < u64Max1 → p + vs.length * s < u64Max1 → vs.length * 48 < 2 ^ 63 →
      Holds (n + 1) a e (.seq vs)
  /-- An array: one element after the other in place. -/
  | array {n a e t s : Nat} {vs : List RVal} : Is typedef db e (.array t vs.length) → SizeIs typedef db t s →
      (∀ i v, vs[i]? = some v → Holds n (a + i * s) t v) → a + vs.length * s < u64Max1 → vs.length * 48 < 2 ^ 63 →
      Holds (n + 1) a e (.seq vs)
  /-- A reference holds the value it refers to. -/
  | reference {n a e t p : Nat} {mt : Bool} {v : RVal} : Is typedef db e (.reference mt t) → m.HoldsNat a 8 p → Holds n p t v →
      Holds n a e (v.mark fun ty => chars! "&" ++ ty)
  /-- So does a raw pointer. -/
  | pointer {n a e t p : Nat} {mt : Bool} {v : RVal} : Is typedef db e (.pointer mt t) → m.HoldsNat a 8 p → Holds n p t v →
      Holds n a e (v.mark fun ty => chars! "*" ++ ty)
  /-- A `Box` holds the value it points to. -/
  | box {n a e i d t p : Nat} {v : RVal} : Is typedef db e (.smart .box i d t) → m.HoldsNat a 8 p → Holds n p t v →
      Holds n a e (v.mark fun ty => chars! "Box<" ++ ty ++ chars! ">")
  /-- An `Rc` or `Arc` holds the value in its allocation. -/
  | shared {n a e i d t p : Nat} {k : SmartPtr} {v : RVal} : k = .rc ∨ k = .arc → Is typedef db e (.smart k i d t) →
      m.HoldsNat (a + i) 8 p → Holds n (p + d) t v → a + i < u64Max1 → p + d < u64Max1 →
      Holds n a e (v.mark fun ty => k.name ++ chars! "<" ++ ty ++ chars! ">")
  /-- A `Mutex` or `RefCell` holds the value inside. -/
  | cell {n a e i d t : Nat} {k : SmartPtr} {v : RVal} : k = .mutex ∨ k = .refCell → Is typedef db e (.smart k i d t) →
      Holds n (a + i) t v → a + i < u64Max1 →
      Holds n a e (v.mark fun ty => k.name ++ chars! "<" ++ ty ++ chars! ">")
  /-- An `Option` that is `None`: its discriminant is zero. -/
  | none {n a e off t size : Nat} {name : Str} {disc : Disc} : Is typedef db e (.option name disc off t size) →
      DiscStored db e disc → disc.size ∈ [1, 2, 4, 8] → m.HoldsNat (a + disc.offset) disc.size 0 → a + disc.offset < u64Max1 →
      Holds n a e (.leaf (chars! "None"))
  /-- An `Option` that is `Some`, with a discriminant of which the lowest byte is not zero. -/
  | some {n a e off t size d : Nat} {name : Str} {disc : Disc} {v : RVal} : Is typedef db e (.option name disc off t size) →
      DiscStored db e disc → disc.size ∈ [1, 2, 4, 8] → m.HoldsNat (a + disc.offset) disc.size d → d % 256 ≠ 0 → a + disc.offset < u64Max1 →
      Holds n (a + off) t v → a + off < u64Max1 →
      Holds n a e (v.mark fun ty => chars! "Option<" ++ ty ++ chars! ">")
  /-- A struct: its fields, printed in the order of their names. -/
  | struct {n a e size align : Nat} {name : Str} {fs : List (Str × Nat × Nat)} {vs : List (Str × Nat × Nat × RVal)} :
      Is typedef db e (.struct name size align fs) → (vs.map fun x => (x.1, x.2.1, x.2.2.1)).Perm fs →
      vs.Pairwise (fun x y => compare x.1 y.1 = .lt) →
      (∀ x ∈ vs, Holds n (a + x.2.1) x.2.2.1 x.2.2.2) → (∀ x ∈ vs, a + x.2.1 < u64Max1) →
      Holds (n + 1) a e (.record name (vs.map fun x => (x.1, x.2.2.2)))
  /-- A hash map: the entries in its occupied buckets. -/
  | hashMap {n a e mask ctrl items ps ko vo kt vt c k : Nat} {bytes : List UInt8} {vs : List (RVal × RVal)} :
      Is typedef db e (.hashMap mask ctrl items ps ko vo kt vt) →
      m.HoldsNat (a + mask) 8 c → m.HoldsNat (a + ctrl) 8 k → m.HoldsNat (a + items) 8 (occupied bytes).length →
      bytes.length = c + 1 → m.HoldsBytes k bytes → vs.length = (occupied bytes).length →
      (∀ (j b : Nat) (kv : RVal × RVal), (occupied bytes)[j]? = some b → vs[j]? = some kv →
        Holds n (bucketEntry k ps ko vo b).1 kt kv.1) →
      (∀ (j b : Nat) (kv : RVal × RVal), (occupied bytes)[j]? = some b → vs[j]? = some kv →
        Holds n (bucketEntry k ps ko vo b).2 vt kv.2) →
      c + 1 < u64Max1 → (c + 1) * ps ≤ k → ko ≤ ps → vo ≤ ps →
      a + mask < u64Max1 → a + ctrl < u64Max1 → a + items < u64Max1 →
      Holds (n + 1) a e (.map vs)
  /-- A B-tree map: the entries of its tree in order, with the root pointer first; keys and values of types told by
  name and not of size zero. -/
  | btreeMap {n a e lengthOff rootOff heightOff kt vt ks ws height : Nat} {nl : NodeLayout} {tree : BTree}
      {vs : List (RVal × RVal)} : Is typedef db e (.btreeMap lengthOff rootOff 0 heightOff nl kt vt) →
      ¬ Ordinary typedef kt → ¬ Ordinary typedef vt → SizeIs typedef db kt ks → SizeIs typedef db vt ws → 0 < ks → 0 < ws →
      Stored m nl ks ws height tree → tree.addr ≠ 0 → m.HoldsNat (a + lengthOff) 8 tree.inorder.length →
      m.HoldsNat (a + rootOff) 8 tree.addr → m.HoldsNat (a + rootOff + heightOff) 8 height →
      vs.length = tree.inorder.length →
      (∀ (j : Nat) (b : Nat × Nat) (kv : RVal × RVal), tree.inorder[j]? = some b → vs[j]? = some kv →
        Holds n (b.1 + nl.keysOff + b.2 * ks) kt kv.1) →
      (∀ (j : Nat) (b : Nat × Nat) (kv : RVal × RVal), tree.inorder[j]? = some b → vs[j]? = some kv →
        Holds n (b.1 + nl.valsOff + b.2 * ws) vt kv.2) →
      a + lengthOff < u64Max1 → a + rootOff + heightOff < u64Max1 → Holds (n + 1) a e (.map vs)
  /-- A B-tree map without entries. -/
  | btreeEmpty {n a e lengthOff rootOff nodeOff heightOff kt vt : Nat} {nl : NodeLayout} :
      Is typedef db e (.btreeMap lengthOff rootOff nodeOff heightOff nl kt vt) → m.HoldsNat (a + lengthOff) 8 0 →
      a + lengthOff < u64Max1 → Holds n a e (.map [])
  /-- A variant without fields: printed as its name. -/
  | unitVariant {n a e pt size sz al : Nat} {name vn sn : Str} {disc : Disc} {ws : List (Str × Option Int × Nat)} {d : Int}
      {dv : Option Int} : Is typedef db e (.enum name disc ws size) → DiscStored db e disc → m.HoldsDisc (a + disc.offset) disc.ty d →
      a + disc.offset < u64Max1 → Picks ws d (vn, dv, pt) → Is typedef db pt (.struct sn sz al []) → Holds n a e (.leaf vn)
  /-- A variant with named fields. -/
  | recordVariant {n a e pt size sz al : Nat} {name vn sn : Str} {disc : Disc} {ws : List (Str × Option Int × Nat)} {d : Int}
      {dv : Option Int} {fs : List (Str × Nat × Nat)} {vs : List (Str × Nat × Nat × RVal)} :
      Is typedef db e (.enum name disc ws size) → DiscStored db e disc → m.HoldsDisc (a + disc.offset) disc.ty d →
      a + disc.offset < u64Max1 → Picks ws d (vn, dv, pt) → Is typedef db pt (.struct sn sz al fs) →
      (vs.map fun x => (x.1, x.2.1, x.2.2.1)).Perm fs → vs.Pairwise (fun x y => compare x.1 y.1 = .lt) →
      (∃ x ∈ vs, ¬ (chars! "__").isPrefixOf x.1) →
      (∀ x ∈ vs, Holds n (a + x.2.1) x.2.2.1 x.2.2.2) → (∀ x ∈ vs, a + x.2.1 < u64Max1) →
      Holds (n + 1) a e (.record (name ++ chars! "::" ++ vn) (vs.map fun x => (x.1, x.2.2.2)))
  /-- A variant with unnamed fields (`__0`, `__1`, …). -/
  | tupleVariant {n a e pt size sz al : Nat} {name vn sn : Str} {disc : Disc} {ws : List (Str × Option Int × Nat)} {d : Int}
      {dv : Option Int} {fs : List (Str × Nat × Nat)} {vs : List (Str × Nat × Nat × RVal)} :
      Is typedef db e (.enum name disc ws size) → DiscStored db e disc → m.HoldsDisc (a + disc.offset) disc.ty d →
      a + disc.offset < u64Max1 → Picks ws d (vn, dv, pt) → Is typedef db pt (.struct sn sz al fs) →
      (vs.map fun x => (x.1, x.2.1, x.2.2.1)).Perm fs → vs.Pairwise (fun x y => compare x.1 y.1 = .lt) →
      vs ≠ [] → (∀ x ∈ vs, (chars! "__").isPrefixOf x.1) →
      (∀ x ∈ vs, Holds n (a + x.2.1) x.2.2.1 x.2.2.2) → (∀ x ∈ vs, a + x.2.1 < u64Max1) →
      Holds (n + 1) a e (.tuple (name ++ chars! "::" ++ vn) (vs.map fun x => x.2.2.2))
  /-- A field-less enumeration: printed as its number. -/
  | cenum {n a e size : Nat} {name vn : Str} {disc : DiscTy} {vs : List (Str × Int)} {d : Int} :
      Is typedef db e (.cenum name disc vs size) → m.HoldsDisc a disc d → (vn, d) ∈ vs → Holds n a e (.leaf (toString d).toList)

end
end Rudy.Shown
