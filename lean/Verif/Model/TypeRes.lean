import Verif.Model.Parser
import Verif.Model.Layout
/-
Model of type resolution: crates/rudy-dwarf/src/types/resolution.rs and the layout parsers
crates/rudy-dwarf/src/parser/{vec,pointers,hashmap,btreemap,option,result,enums}.rs.

`sh` stands for `shallow_resolve_type` (resolution.rs:431-447), which these functions call
recursively; the recursion is tied at the end of the file. What `get_die_typename` makes of an
entry's name (types/index.rs:13-37: a layout without locations) is the parameter `typedef`.
-/
namespace Rudy.TypeRes
open Rudy.Dwarf Rudy.Parse Rudy.Layout

/-- `shallow_resolve_type` as seen by its callers. -/
abbrev Sh := Nat → Res TypeDef

/-- A list of fields as `Members`. -/
def membersOf : List (Str × Nat × TypeDef) → Members
  | [] => .nil
  | (n, o, t) :: r => .cons n o t (membersOf r)

/-- A list of variants as `Variants`. -/
def variantsOf : List (Str × Option Int × TypeDef) → Variants
  | [] => .nil
  | (n, d, t) :: r => .cons n d t (variantsOf r)

/-- primitives.rs:357-359 `resolve_type_shallow` as a parser. -/
def resolveShallow (sh : Sh) : Parser TypeDef := fun _ e => sh e

/-- primitives.rs:318-320 `resolved_generic`. -/
def resolvedGeneric (sh : Sh) (n : Str) : Parser TypeDef := andThen (generic n) (resolveShallow sh)

/-- resolution.rs:24-28 `resolve_entry_type_shallow`. -/
def entryShallow (sh : Sh) : Parser TypeDef := fun db e => (refAttr .type db e).bind sh

/-! ### Standard library types -/

/-- `VecLayout`, rudy-types/src/lib.rs:669-676. -/
structure VecL where
  dataOff : Nat
  lenOff : Nat
  capOff : Nat
  inner : TypeDef

/-- parser/vec.rs:14-30 `vec`. -/
def vec (sh : Sh) : Parser VecL :=
  mapP (parseChildren (pair (single (fieldPathOffset [chars! "buf", chars! "inner", chars! "ptr"]))
      (pair (single (isMemberOffset (chars! "len")))
        (pair (single (fieldPathOffset [chars! "buf", chars! "inner", chars! "cap", chars! "__0"]))
          (single (resolvedGeneric sh (chars! "T")))))))
    fun r => { dataOff := r.1, lenOff := r.2.1, capOff := r.2.2.1, inner := r.2.2.2 }

/-- resolution.rs:31-38 `resolve_string_type`. -/
def stringL (sh : Sh) : Parser VecL := andThen (andThen (member (chars! "vec")) entryType) (vec sh)

/-- parser/pointers.rs:14-31 `nonnull`. -/
def nonnull : Parser Nat :=
  mapRes
    (andThen (member (chars! "pointer"))
      (both dataOffset (andThen entryType (andThen (isMemberTag .pointerType) entryType))))
    fun r => if r.1 ≠ 0 then .err else .ok r.2

/-- parser/hashmap.rs:14-63 `hashbrown_map`. -/
def hashbrown : Parser MapVariant := fun db e =>
  (andThen (member (chars! "table")) (both dataOffset entryType) db e).bind fun (tableOff, inner) =>
    (parseChildren
        (pair
          (single (andThen (generic (chars! "T"))
            (both (udataAttr .byteSize)
              (parseChildren (pair (single (isMemberOffset (chars! "__0")))
                (single (isMemberOffset (chars! "__1"))))))))
          (single (andThen (isMember (chars! "table")) (both dataOffset entryType)))) db inner).bind
      fun ((pairSize, (keyOff, valueOff)), (innerOff, raw)) =>
        (addU tableOff innerOff).bind fun tableOff =>
          (parseChildren (pair (single (isMemberOffset (chars! "bucket_mask")))
              (pair (single (isMemberOffset (chars! "ctrl"))) (single (isMemberOffset (chars! "items"))))) db raw).bind
            fun (maskOff, ctrlOff, itemsOff) =>
              (addU tableOff maskOff).bind fun maskOff => (addU tableOff ctrlOff).bind fun ctrlOff =>
                (addU tableOff itemsOff).bind fun itemsOff =>
                  .ok (.hashMap maskOff ctrlOff itemsOff pairSize keyOff valueOff)

/-- enums.rs:26-68 `enum_discriminant`: the type is that of the discriminant member, the offset is read
from the variant part itself. -/
def enumDiscriminant (sh : Sh) : Parser Disc := fun db e =>
  (filterP (refAttr .discr) db e).bind fun discr =>
    (filterP (udataAttr .dataMemberLocation) db e).bind fun off =>
      match discr with
      | some d =>
        (entryShallow sh db d).bind fun t =>
          let ty := match t.layout with
            | .int n => DiscTy.int n
            | .uint n => DiscTy.uint n
            | _ => DiscTy.implicit
          .ok { ty := ty, offset := off.getD 0 }
      | none => .ok { ty := .implicit, offset := 0 }

/-- enums.rs:70-107 `enum_variant`; the `debug_assert_eq!` on the offset panics. -/
def enumVariant (sh : Sh) : Parser (Str × Option Int × TypeDef) :=
  mapRes
    (andThen (isMemberTag .variant)
      (both (filterP (intAttr .discrValue))
        (andThen (memberByTag .member)
          (both (stringAttr .name) (both dataOffset (andThen entryType (resolveShallow sh)))))))
    fun r => if r.2.2.1 = 0 then .ok (r.2.1, r.1, r.2.2.2) else .panic

/-- enums.rs:127-166: `PartiallyParsedEnumVariant` and `named_enum_variant`. The discriminant is
looked for under `DW_AT_discr`. -/
def namedVariant (n : Str) : Parser (Option Nat × Nat × Nat) :=
  andThen (isMemberTag .variant)
    (both (filterP (udataAttr .discr)) (andThen (member n) (both dataOffset entryType)))

/-- enums.rs:168-229 `EnumNamedTupleVariant` with one field. -/
def namedTuple1 {T : Type} (n : Str) (p : Parser T) : Parser (Option Nat × Nat × T) := fun db e =>
  (namedVariant n db e).bind fun v =>
    if v.2.1 = 0 then
      (parseChildren (single (andThen (isMember (chars! "__0")) (both dataOffset (andThen entryType p)))) db
        v.2.2).bind fun r => .ok (v.1, r.1, r.2)
    else .panic

/-- option.rs:26-48 `parse_option_entry`: name, size, discriminant, and of `Some` its field's offset and
type entry. -/
def optionEntry (sh : Sh) : Parser (Str × Nat × Disc × (Nat × Nat)) :=
  both (stringAttr .name)
    (both (udataAttr .byteSize)
      (andThen (memberByTag .variantPart)
        (both (enumDiscriminant sh)
          (child (mapP (namedTuple1 (chars! "Some") identity) fun r => (r.2.1, r.2.2))))))

/-- option.rs:50-67 `OptionDefParser`. -/
def optionDef (sh : Sh) : Parser Layout := fun db e =>
  (optionEntry sh db e).bind fun (name, size, disc, (off, ty)) =>
    (sh ty).bind fun t => .ok (.option name disc off t size)

/-- result.rs:27-64 `ResultDefParser`. -/
def resultDef (sh : Sh) : Parser Layout := fun db e =>
  (both (stringAttr .name)
    (both (udataAttr .byteSize)
      (andThen (memberByTag .variantPart)
        (both (enumDiscriminant sh)
          (parseChildren
            (pair (single (namedTuple1 (chars! "Ok") (resolveShallow sh)))
              (single (namedTuple1 (chars! "Err") (resolveShallow sh)))))))) db e).bind
    fun (name, size, disc, (ok, err)) =>
      .ok (.result name disc ok.2.2 ok.2.1 err.2.2 err.2.1 size)

/-- btreemap.rs:48-134 `BTreeMapParser`. -/
def btreeMap (sh : Sh) : Parser Layout := fun db e =>
  (parseChildren
    (pair (single (resolvedGeneric sh (chars! "K")))
      (pair (single (resolvedGeneric sh (chars! "V")))
        (pair (single (andThen (isMember (chars! "root")) (both dataOffset entryType)))
          (single (andThen (isMember (chars! "length")) dataOffset))))) db e).bind
    fun (k, v, (rootOff, rootTy), lengthOff) =>
  (optionEntry sh db rootTy).bind fun (_, _, _, (_, nodeRef)) =>
  (parseChildren
    (pair (single (andThen (isMember (chars! "height")) dataOffset))
      (single (andThen (isMember (chars! "node")) (both dataOffset entryType)))) db nodeRef).bind
    fun (heightOff, (nodeOff, nodePtr)) =>
  (nonnull db nodePtr).bind fun leaf =>
  (parseChildren
    (pair (single (andThen (isMember (chars! "len")) dataOffset))
      (pair (single (andThen (isMember (chars! "keys")) dataOffset))
        (single (andThen (isMember (chars! "vals")) dataOffset)))) db leaf).bind
    fun (lenOff, keysOff, valsOff) =>
  (andThen (member (chars! "parent")) entryType db leaf).bind fun parentTy =>
  (optionEntry sh db parentTy).bind fun (_, _, _, (_, parentPtr)) =>
  (nonnull db parentPtr).bind fun internal =>
  (andThen (member (chars! "edges")) dataOffset db internal).bind fun edgesOff =>
    .ok (.map (.btreeMap lengthOff rootOff nodeOff heightOff
      { keysOff := keysOff, valsOff := valsOff, lenOff := lenOff, edgesOff := edgesOff }) k v)

/-- resolution.rs:41-74 `resolve_map_type`: `IndexMap` is unimplemented. -/
def mapType (sh : Sh) (variant : MapVariant) : Parser Layout := fun db e =>
  (parseChildren (pair (single (resolvedGeneric sh (chars! "K"))) (single (resolvedGeneric sh (chars! "V"))))
    db e).bind fun (k, v) =>
    match variant with
    | .hashMap .. =>
      let base := match andThen (member (chars! "base")) entryType db e with
        | .ok b => b
        | _ => e
      (hashbrown db base).bind fun m => .ok (.map m k v)
    | .btreeMap .. => btreeMap sh db e
    | .indexMap => .panic

/-- resolution.rs:84-110: the inner type of a smart pointer. Variants without an arm (`RwLock`) are
unimplemented. -/
def smartInner (sh : Sh) (v : SmartPtr) : Parser TypeDef := fun db e =>
  match v with
  | .box => entryShallow sh db e
  | .rwLock => .panic
  | _ => (genericTypeEntry (chars! "T") db e).bind sh

/-- resolution.rs:118-139: `Mutex`, `RefCell`, `Cell`, down to the value of the `UnsafeCell`. -/
def cellOffset (name : Str) : Parser Nat := fun db e =>
  (getMember name db e).bind fun data =>
    (udataAttr .dataMemberLocation db data).bind fun o => (refAttr .type db data).bind fun cell =>
      (memberUdata (chars! "value") .dataMemberLocation db cell).bind fun o' => addU o o'

/-- resolution.rs:149-184: `Rc` and `Arc`: the offset of the pointer, and behind it that of the data. -/
def rcOffsets (name : Str) : Parser (Nat × Nat) := fun db e =>
  (getMember (chars! "ptr") db e).bind fun ptr =>
    (udataAttr .dataMemberLocation db ptr).bind fun o => (refAttr .type db ptr).bind fun nn =>
      (getMember (chars! "pointer") db nn).bind fun pointer =>
        (udataAttr .dataMemberLocation db pointer).bind fun o' => (addU o o').bind fun off =>
          (refAttr .type db pointer).bind fun rawPtr => (refAttr .type db rawPtr).bind fun inner =>
            (memberUdata name .dataMemberLocation db inner).bind fun d => .ok (off, d)

/-- resolution.rs:113-192: the offsets of a smart pointer. -/
def smartOffsets (v : SmartPtr) : Parser (Nat × Nat) := fun db e =>
  match v with
  | .box => .ok (0, 0)
  | .mutex => (cellOffset (chars! "data") db e).bind fun o => .ok (o, 0)
  | .refCell => (cellOffset (chars! "value") db e).bind fun o => .ok (o, 0)
  | .cell => (cellOffset (chars! "value") db e).bind fun o => .ok (o, 0)
  | .unsafeCell => (memberUdata (chars! "value") .dataMemberLocation db e).bind fun o => .ok (o, 0)
  | .arc => rcOffsets (chars! "data") db e
  | .rc => rcOffsets (chars! "value") db e
  | .rwLock => .panic

/-- resolution.rs:78-204 `resolve_smart_ptr_type`. -/
def smartPtr (sh : Sh) (v : SmartPtr) : Parser Layout := fun db e =>
  (smartInner sh v db e).bind fun inner => (smartOffsets v db e).bind fun o =>
    .ok (.smartPtr v inner o.1 o.2)

/-! ### Primitive types -/

/-- resolution.rs:207-214: the elements of a tuple: every child counts. -/
def tupleElems (sh : Sh) (db : Db) : List Nat → Res (List (Str × Nat × TypeDef))
  | [] => .ok []
  | c :: cs =>
    (udataAttr .dataMemberLocation db c).bind fun o => (entryShallow sh db c).bind fun t =>
      (tupleElems sh db cs).bind fun r => .ok (([], o, t) :: r)

/-- resolution.rs:206-221 `resolve_tuple_type`. -/
def tupleType (sh : Sh) : Parser Layout := fun db e =>
  (udataAttr .byteSize db e).bind fun size => (db.children e).bind fun cs =>
    (tupleElems sh db cs).bind fun es => .ok (.tuple (membersOf es) size)

/-- resolution.rs:296-301, 517-522: the argument types of a function. -/
def argTypes (sh : Sh) (db : Db) : List Nat → Res (List (Str × Nat × TypeDef))
  | [] => .ok []
  | c :: cs =>
    if tag db c = some .formalParameter then
      (entryShallow sh db c).bind fun t => (argTypes sh db cs).bind fun r => .ok (([], 0, t) :: r)
    else argTypes sh db cs

/-- Whether a layout is the unit type. -/
def isUnit : Layout → Bool
  | .unit => true
  | _ => false

/-- resolution.rs:223-335 `resolve_primitive_type`; `none` if the layout is not a primitive one. -/
def primitive (sh : Sh) (l : Layout) : Db → Nat → Option (Res Layout) := fun db e =>
  match l with
  | .int n => some (.ok (.int n))
  | .bool => some (.ok .bool)
  | .char => some (.ok .char)
  | .float n => some (.ok (.float n))
  | .never => some (.ok .never)
  | .str => some (.ok .str)
  | .uint n => some (.ok (.uint n))
  | .unit => some (.ok .unit)
  | .strSlice _ _ => some <|
    (memberUdata (chars! "data_ptr") .dataMemberLocation db e).bind fun d =>
      (memberUdata (chars! "length") .dataMemberLocation db e).bind fun n => .ok (.strSlice d n)
  | .slice _ _ _ => some <|
    (getMember (chars! "data_ptr") db e).bind fun m =>
      (udataAttr .dataMemberLocation db m).bind fun d => (refAttr .type db m).bind fun p =>
        (entryShallow sh db p).bind fun t =>
          (memberUdata (chars! "length") .dataMemberLocation db e).bind fun n => .ok (.slice t d n)
  | .array _ n => some <| (entryShallow sh db e).bind fun t => .ok (.array t n)
  | .function ret _ => some <|
    (entryShallow sh db e).bind fun r =>
      let ret' := match ret with
        | .none => if isUnit r.layout then OptTypeDef.none else .some r
        | .some _ => .some r
      (db.children e).bind fun cs => (argTypes sh db cs).bind fun as => .ok (.function ret' (membersOf as))
  | .pointer m _ => some <| (entryShallow sh db e).bind fun t => .ok (.pointer m t)
  | .reference m _ => some <| (entryShallow sh db e).bind fun t => .ok (.reference m t)
  | .tuple _ _ => some (tupleType sh db e)
  | _ => none

/-- resolution.rs:337-425 `resolve_as_builtin_type`. -/
def builtin (sh : Sh) (typedef : Nat → Option Layout) (db : Db) (e : Nat) : Res (Option TypeDef) :=
  match typedef e with
  | none => .ok none
  | some l =>
    match primitive sh l db e with
    | some r => r.bind fun l => .ok (some (.mk (some e) l))
    | none =>
      match l with
      | .option .. => (optionDef sh db e).bind fun l => .ok (some (.mk (some e) l))
      | .vec .. => (vec sh db e).bind fun v => .ok (some (.mk (some e) (.vec v.lenOff v.dataOff v.capOff v.inner)))
      | .string .. =>
        (stringL sh db e).bind fun v => .ok (some (.mk (some e) (.string v.lenOff v.dataOff v.capOff v.inner)))
      | .map variant _ _ => (mapType sh variant db e).bind fun l => .ok (some (.mk (some e) l))
      | .result .. => (resultDef sh db e).bind fun l => .ok (some (.mk (some e) l))
      | .smartPtr v _ _ _ => (smartPtr sh v db e).bind fun l => .ok (some (.mk (some e) l))
      | _ => .ok none

/-- resolution.rs:431-447 `shallow_resolve_type`. The number bounds the depth of the recursion; running
out of it is a stack overflow, modelled as a panic. -/
def shallow (typedef : Nat → Option Layout) (db : Db) : Nat → Sh
  | 0, _ => .panic
  | n + 1, e =>
    (builtin (shallow typedef db n) typedef db e).bind fun
      | some t => .ok t
      | none =>
        .ok (.mk (some e) (.alias (match dieName db e with | .ok s => s | _ => chars! "unknown")))

/-! ### User types -/

/-- enums.rs:256-284 `EnumParser`. -/
def enumDef (sh : Sh) : Parser Layout := fun db e =>
  (both (stringAttr .name) (both (udataAttr .byteSize) (memberByTag .variantPart)) db e).bind
    fun (name, size, part) =>
      (enumDiscriminant sh db part).bind fun disc =>
        (forEachChild (enumVariant sh) db part).bind fun vs => .ok (.enum name disc (variantsOf vs) size)

/-- enums.rs:286-293 `c_enum_variant`. -/
def cEnumVariant : Parser (Str × Int) := both (stringAttr .name) (intAttr .constValue)

/-- enums.rs:295-335 `c_enum_def`. -/
def cEnumDef (sh : Sh) : Parser Layout := fun db e =>
  (both (stringAttr .name)
    (both (udataAttr .byteSize)
      (mapRes (andThen entryType (resolveShallow sh)) fun t =>
        match t.layout with
        | .int n => .ok (DiscTy.int n)
        | .uint n => .ok (DiscTy.uint n)
        | _ => .err)) db e).bind fun (name, size, ty) =>
    (forEachChild cEnumVariant db e).bind fun vs => .ok (.cenum name ty vs size)

/-- resolution.rs:466-484: the fields of a structure. -/
def structFields (sh : Sh) (db : Db) : List Nat → Res (List (Str × Nat × TypeDef))
  | [] => .ok []
  | c :: cs =>
    if tag db c = some .member then
      (dieName db c).bind fun n => (udataAttr .dataMemberLocation db c).bind fun o =>
        (refAttr .type db c).bind fun te => (sh te).bind fun t =>
          (structFields sh db cs).bind fun r => .ok ((n, o, t) :: r)
    else structFields sh db cs

/-- resolution.rs:461-494 `resolve_struct_type`. -/
def structDef (sh : Sh) : Parser Layout := fun db e =>
  (dieName db e).bind fun name => (udataAttr .byteSize db e).bind fun size =>
    (udataAttr .alignment db e).bind fun align => (db.children e).bind fun cs =>
      (structFields sh db cs).bind fun fs => .ok (.struct name size align (membersOf fs))

/-- resolution.rs:499-573 `resolve_type_offset_tracked` after the builtin types: the layout of an entry
by its tag. -/
def byTag (sh : Sh) : Parser Layout := fun db e =>
  match tag db e with
  | some .arrayType =>
    (entryShallow sh db e).bind fun t => (db.children e).bind fun cs =>
      (Res.ofOption (cs.find? fun c => decide (tag db c = some .subrangeType))).bind fun s =>
        (udataAttr .count db s).bind fun n => .ok (.array t n)
  | some .structureType =>
    (db.children e).bind fun cs =>
      if cs.any fun c => decide (tag db c = some .variantPart) then enumDef sh db e else structDef sh db e
  | some .subroutineType =>
    (match refAttr .type db e with
     | .ok t => (entryShallow sh db t).bind fun r => .ok (OptTypeDef.some r)
     | _ => .ok .none).bind fun ret =>
      (db.children e).bind fun cs => (argTypes sh db cs).bind fun as => .ok (.function ret (membersOf as))
  | some .enumerationType => cEnumDef sh db e
  | _ => .err

/-- resolution.rs:575-577 `resolve_type_offset`. -/
def resolveType (typedef : Nat → Option Layout) (db : Db) (depth : Nat) (e : Nat) : Res TypeDef :=
  (builtin (shallow typedef db depth) typedef db e).bind fun
    | some t => .ok t
    | none => (byTag (shallow typedef db depth) db e).bind fun l => .ok (.mk (some e) l)

end Rudy.TypeRes
