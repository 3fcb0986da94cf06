import Verif.Model.Symbols
import Verif.Model.TypeRes
import Verif.Model.Modules
import Verif.Model.Index
/-
Model of function and method discovery: rudy-db/src/function_discovery.rs,
crates/rudy-dwarf/src/parser/functions.rs and the signatures of crates/rudy-dwarf/src/function/mod.rs.

Logging is dropped (also the `unwrap` inside a `trace!` argument, function_discovery.rs:329, which is
only evaluated when that level is enabled).
-/
namespace Rudy.Discovery
open Rudy.Symbols Rudy.Dwarf Rudy.Parse Rudy.Layout Rudy.TypeRes Rudy.Modules

/-- What discovery reads: the symbol index, the function index of each debug file
(`symbol_index.function_index(file).by_symbol_name().get(name)`: the declaration entry), the entries
of each file, type resolution in each file (`resolve_type_offset`, and `shallow` for
`shallow_resolve_type`), whether the source position of an entry decodes, the debug files and their module indexes, the files that were eagerly indexed,
and the demangler. -/
structure World where
  index : SymbolIndex
  fnEntry : Nat → SymbolName → Option Nat
  file : Nat → Db
  resolve : Nat → Nat → Res TypeDef
  shallow : Nat → Nat → Res TypeDef
  position : Nat → Nat → Bool
  debugFiles : List Nat
  indexed : List Nat
  modules : Nat → ModuleIndex
  demangle : Str → Option SymbolName

/-! ### Functions in the debugging information (parser/functions.rs) -/

/-- functions.rs:21-25 `ParameterInfo`. -/
structure Param where
  name : Option Str
  ty : Nat

/-- functions.rs:11-18 `FunctionInfo`. -/
structure FnInfo where
  name : Str
  linkage : Option Str
  die : Nat
  params : List Param
  ret : Option Nat

/-- `.ok()` on a result that is not a panic. -/
def okOf {T : Type} : Res T → Option T
  | .ok x => some x
  | _ => none

/-- functions.rs:69-83 `parameter_parser`. -/
def parameter : Parser (Option Param) := fun db e =>
  if tag db e = some .formalParameter then
    (entryType db e).bind fun t => .ok (some { name := okOf (dieName db e), ty := t })
  else .ok none

/-- functions.rs:86-88 `parameter_list_parser`. -/
def parameterList : Parser (List Param) := mapP (forEachChild parameter) fun os => os.filterMap id

/-- functions.rs:27-50 `function_parser`. -/
def functionInfo : Parser FnInfo := fun db e =>
  (parameterList db e).bind fun ps =>
    .ok { name := (okOf (dieName db e)).getD (chars! "<anonymous>")
          linkage := okOf (stringAttr .linkageName db e)
          die := e
          params := ps
          ret := okOf (entryType db e) }

/-- functions.rs:53-66 `opt_function_parser`. -/
def optFunction : Parser (Option FnInfo) := fun db e =>
  if tag db e = some .subprogram then (functionInfo db e).bind fun f => .ok (some f) else .ok none

/-- functions.rs:91-93 `child_functions_parser`. -/
def childFunctions : Parser (List FnInfo) := mapP (forEachChild optFunction) fun os => os.filterMap id

/-! ### Functions by pattern -/

/-- `DiscoveredFunction`, rudy-db/src/lib.rs. -/
structure Found where
  name : Str
  fullName : Str
  signature : Str
  address : Nat
  callable : Bool
  modulePath : List Str
  ret : Option TypeDef
  params : List (Option Str × TypeDef)

/-- function_discovery.rs:735, 811: every function symbol, by short name and then by name. -/
def allSymbols (ix : SymbolIndex) : List Symbol :=
  ix.functions.entries.flatMap fun e => e.2.entries.map (·.2)

/-- function_discovery.rs:782-796 `function_matches_pattern`. -/
def matchesPattern (n p : SymbolName) : Bool :=
  decide (n = p) || (n.lookupName == p.lookupName && decide (p.modulePath <:+ n.modulePath))

/-- rudy-db/src/index.rs:31-59 `Index::get_function`. -/
def getFunction (w : World) (n : SymbolName) : Option (Nat × Nat) :=
  match w.index.byLookupName n.lookupName with
  | none => none
  | some m =>
    match m.get SymbolName.cmp n with
    | none => none
    | some s => (w.fnEntry s.debugFile n).map fun e => (s.debugFile, e)

/-- `[..].join(", ")`. -/
def joinComma : List Str → Str
  | [] => []
  | [s] => s
  | s :: r => s ++ chars! ", " ++ joinComma r

/-- One parameter of a signature, function_discovery.rs:919-930. -/
def paramText (i : Nat) (p : Option Str × TypeDef) : Str :=
  match p.1 with
  | some n => n ++ chars! ": " ++ p.2.displayName
  | none => '_' :: natStr i ++ chars! ": " ++ p.2.displayName

/-- `" -> T"`, unless the type is absent or `()` (function_discovery.rs:935-941). -/
def retText : Option TypeDef → Str
  | none => []
  | some t => if t.displayName = chars! "()" then [] else chars! " -> " ++ t.displayName

/-- function_discovery.rs:907-943 `build_function_signature_for_discovered`. -/
def signature (n : SymbolName) (ps : List (Option Str × TypeDef)) (ret : Option TypeDef) : Str :=
  chars! "fn " ++ n.lookupName ++ chars! "(" ++ joinComma (ps.mapIdx paramText) ++ chars! ")" ++ retText ret

/-- function_discovery.rs:876-884: every parameter type must resolve. -/
def resolveParams (resolve : Nat → Res TypeDef) : List Param → Res (List (Option Str × TypeDef))
  | [] => .ok []
  | p :: ps => (resolve p.ty).bind fun t => (resolveParams resolve ps).bind fun r => .ok ((p.name, t) :: r)

/-- function_discovery.rs:859-904 `create_discovered_function`. -/
def createFunction (w : World) (s : Symbol) (f e : Nat) : Res Found :=
  (functionInfo (w.file f) e).bind fun i =>
    (resolveParams (w.resolve f) i.params).bind fun ps =>
      (match i.ret with
       | none => Res.ok none
       | some r => (w.resolve f r).bind fun t => .ok (some t)).bind fun ret =>
        .ok { name := s.name.lookupName, fullName := s.name.display
              signature := signature s.name ps ret, address := s.address, callable := true
              modulePath := s.name.modulePath, ret := ret, params := ps }

/-- function_discovery.rs:749-758, 763-773: the entry of a function without usable debugging
information. -/
def basic (s : Symbol) : Found :=
  { name := s.name.lookupName, fullName := s.name.display
    signature := chars! "fn " ++ s.name.display ++ chars! "(?)", address := s.address, callable := false
    modulePath := s.name.modulePath, ret := none, params := [] }

/-- function_discovery.rs:738-774, 814-852: the entry of one symbol. -/
def describe (w : World) (s : Symbol) : Res Found :=
  match getFunction w s.name with
  | none => .ok (basic s)
  | some (f, e) =>
    match createFunction w s f e with
    | .ok r => .ok r
    | .err => .ok (basic s)
    | .panic => .panic

/-- The loop over the symbols. -/
def describeAll (w : World) : List Symbol → Res (List Found)
  | [] => .ok []
  | s :: ss => (describe w s).bind fun r => (describeAll w ss).bind fun rs => .ok (r :: rs)

/-- function_discovery.rs:726-780 `discover_functions`. -/
def discoverFunctions (w : World) (p : SymbolName) : Res (List Found) :=
  describeAll w ((allSymbols w.index).filter fun s => matchesPattern s.name p)

/-- rudy-db/src/debug_info.rs:797-801 `DebugInfo::discover_functions`. -/
def discover (w : World) (pattern : Str) : Res (List Found) :=
  (Res.ofOption (SymbolName.parse pattern)).bind fun p => discoverFunctions w p

/-- The loop of `discover_all_functions`, function_discovery.rs:811-854. -/
def collectAll (w : World) : List Symbol → OMap Str Found → Res (OMap Str Found)
  | [], m => .ok m
  | s :: ss, m => (describe w s).bind fun r => collectAll w ss (m.insert compare s.name.display r)

/-- function_discovery.rs:801-857 `discover_all_functions`. -/
def discoverAll (w : World) : Res (OMap Str Found) := collectAll w (allSymbols w.index) ⟨[]⟩

/-! ### Methods of a type -/

/-- function/mod.rs:319-328 `SelfType`. -/
inductive SelfType where
  | owned | borrowed | borrowedMut
deriving DecidableEq, Repr

/-- function/mod.rs:331-343 `SelfType::from_param_type`. -/
def SelfType.of : Layout → SelfType
  | .reference true _ => .borrowedMut
  | .reference false _ => .borrowed
  | _ => .owned

/-- `DiscoveredMethod`, rudy-db/src/lib.rs. -/
structure Method where
  name : Str
  fullName : Str
  signature : Str
  address : Nat
  selfType : Option SelfType
  callable : Bool
  synthetic : Bool
  ret : Option TypeDef
  params : List (Option Str × TypeDef)

/-- A located type (`DieTypeDefinition`). -/
structure Target where
  file : Nat
  off : Nat
  layout : Layout

/-- function_discovery.rs:285-304: a structure entry whose type matches. -/
def matchingStruct (resolve : Nat → Res TypeDef) (t : Target) : Parser Nat := fun db e =>
  (isMemberTag .structureType db e).bind fun d =>
    (resolve e).bind fun ty => if ty.layout.matching t.layout then .ok d else .err

/-- function_discovery.rs:326-338: the matching entries in the modules with the path in one file. -/
def inModules (w : World) (t : Target) (f : Nat) : List Die → Res (List (Nat × Nat))
  | [] => .ok []
  | m :: ms =>
    (forEachChild (matchingStruct (w.resolve f) t) (w.file f) m.off).bind fun ds =>
      (inModules w t f ms).bind fun r => .ok (ds.map (fun d => (f, d)) ++ r)

/-- function_discovery.rs:308-339: the loop over the debug files. -/
def inFiles (w : World) (t : Target) (path : List Str) : List Nat → Res (List (Nat × Nat))
  | [] => .ok []
  | f :: fs =>
    match (w.modules f).findByPath path with
    | none => inFiles w t path fs
    | some m =>
      (inModules w t f m.entries).bind fun ds => (inFiles w t path fs).bind fun r => .ok (ds ++ r)

/-- function_discovery.rs:270-342 `find_matching_type_dies`. -/
def typeDies (w : World) (t : Target) : Res (List (Nat × Nat)) :=
  match (w.modules t.file).findByOffset t.off with
  | none => .ok [(t.file, t.off)]
  | some r => inFiles w t r.path w.debugFiles

/-- function_discovery.rs:424-452: the kind of self of a function, for a type. -/
def selfOf (resolve : Nat → Res TypeDef) (t : Target) : List Param → Res (Option SelfType)
  | [] => .ok none
  | p :: _ =>
    if p.name.isSome && decide (p.name ≠ some (chars! "self")) then .ok none
    else (resolve p.ty).bind fun ty =>
      .ok (if ty.layout.dereferenced.matching t.layout then some (SelfType.of ty.layout) else none)

/-- function_discovery.rs:455-489: address, callable and full name. -/
def linkOf (w : World) (i : FnInfo) : Nat × Bool × Str :=
  match (i.linkage.bind w.demangle).bind w.index.getFunction with
  | some s => (s.address, true, s.name.display)
  | none => (0, false, i.name ++ chars! "::(direct)")

/-- function_discovery.rs:541-547: how self is printed. -/
def SelfType.text : SelfType → Str
  | .owned => chars! "self"
  | .borrowed => chars! "&self"
  | .borrowedMut => chars! "&mut self"

/-- function_discovery.rs:557-568. -/
def methodParamText (resolve : Nat → Res TypeDef) (p : Param) : Res Str :=
  match resolve p.ty with
  | .ok t => .ok (p.name.getD (chars! "_") ++ chars! ": " ++ t.displayName)
  | .err => .ok (p.name.getD (chars! "_") ++ chars! ": ?")
  | .panic => .panic

/-- function_discovery.rs:553-569: the loop over the parameters. -/
def methodParamTexts (resolve : Nat → Res TypeDef) : List Param → Res (List Str)
  | [] => .ok []
  | p :: ps => (methodParamText resolve p).bind fun s => (methodParamTexts resolve ps).bind fun r => .ok (s :: r)

/-- function_discovery.rs:575-589. -/
def methodRetText (resolve : Nat → Res TypeDef) : Option Nat → Res Str
  | none => .ok []
  | some r =>
    match resolve r with
    | .ok t => .ok (retText (some t))
    | .err => .ok (chars! " -> ?")
    | .panic => .panic

/-- function_discovery.rs:528-592 `build_function_signature`. -/
def methodSignature (resolve : Nat → Res TypeDef) (i : FnInfo) (self : Option SelfType) : Res Str :=
  (methodParamTexts resolve (i.params.drop (if self.isSome then 1 else 0))).bind fun ps =>
    (methodRetText resolve i.ret).bind fun r =>
      .ok (chars! "fn " ++ i.name ++ chars! "(" ++ joinComma ((self.map SelfType.text).toList ++ ps) ++
        chars! ")" ++ r)

/-- function_discovery.rs:505-523: the parameters, unresolvable types as `unknown`. -/
def methodParams (resolve : Nat → Res TypeDef) : List Param → Res (List (Option Str × TypeDef))
  | [] => .ok []
  | p :: ps =>
    match resolve p.ty with
    | .ok t => (methodParams resolve ps).bind fun r => .ok ((p.name, t) :: r)
    | .err => (methodParams resolve ps).bind fun r =>
        .ok ((p.name, .mk (some p.ty) (.alias (chars! "unknown"))) :: r)
    | .panic => .panic

/-- function_discovery.rs:495-499: `.ok()` of the return type. -/
def methodRet (resolve : Nat → Res TypeDef) : Option Nat → Res (Option TypeDef)
  | none => .ok none
  | some r =>
    match resolve r with
    | .ok t => .ok (some t)
    | .err => .ok none
    | .panic => .panic

/-- function_discovery.rs:418-525 `convert_function_to_method` (it always yields a method). -/
def convert (w : World) (t : Target) (f : Nat) (i : FnInfo) : Res Method :=
  (selfOf (w.resolve f) t i.params).bind fun self =>
    (methodSignature (w.resolve f) i self).bind fun sig =>
      (methodRet (w.resolve f) i.ret).bind fun ret =>
        (methodParams (w.resolve f) (i.params.drop (if self.isSome then 1 else 0))).bind fun ps =>
          .ok { name := i.name, fullName := (linkOf w i).2.2, signature := sig, address := (linkOf w i).1
                selfType := self, callable := (linkOf w i).2.1, synthetic := false, ret := ret, params := ps }

/-- The loops over functions, function_discovery.rs:390-404 and 624-642. -/
def convertAll (w : World) (t : Target) (f : Nat) : List FnInfo → Res (List Method)
  | [] => .ok []
  | i :: is => (convert w t f i).bind fun m => (convertAll w t f is).bind fun r => .ok (m :: r)

/-- function_discovery.rs:378-405: the loop over the type entries. -/
def directOf (w : World) (t : Target) : List (Nat × Nat) → Res (List Method)
  | [] => .ok []
  | (f, e) :: ds =>
    (childFunctions (w.file f) e).bind fun is => (convertAll w t f is).bind fun ms =>
      (directOf w t ds).bind fun r => .ok (ms ++ r)

/-- function_discovery.rs:347-416 `discover_direct_methods` (`None` is the empty list). -/
def directMethods (w : World) (t : Target) : Res (List Method) :=
  (typeDies w t).bind fun ds => directOf w t ds

/-- `n.starts_with("{impl#") && n.ends_with('}')`, functions.rs:143. -/
def isImplName (n : Str) : Bool := decide (chars! "{impl#" <+: n) && decide (n.getLast? = some '}')

/-- functions.rs:137-158: an impl namespace among the children of the module entry. -/
def implNamespace : Parser Nat := fun db e =>
  (isMemberTag .namespace db e).bind fun d =>
    match dieName db e with
    | .ok n => if isImplName n then .ok d else .err
    | _ => .err

/-- functions.rs:97-165 `impl_namespaces_in_module_parser`. -/
def implNamespaces (w : World) (t : Target) : Res (List Nat) :=
  match (w.modules t.file).findByOffset t.off with
  | none => .ok []
  | some r => forEachChild implNamespace (w.file t.file) r.die.off

/-- Does the text start here (`str::find` of a literal). -/
def findText (pat : Str) : Str → Option Str
  | [] => if pat = [] then some [] else none
  | c :: cs => if pat <+: (c :: cs) then some ((c :: cs).drop pat.length) else findText pat cs

/-- The text before the first `::`, or all of it. -/
def beforeColons : Str → Str
  | [] => []
  | c :: cs => if [':', ':'] <+: (c :: cs) then [] else c :: beforeColons cs

/-- function_discovery.rs:695-716 `extract_trait_from_symbol`. -/
def traitOf (s : Str) : Option Str := (findText (chars! " as ") s).map beforeColons

/-- function_discovery.rs:676-691 `enhance_method_with_trait_info`. -/
def withTrait (m : Method) : Method :=
  match traitOf m.fullName with
  | some tr => { m with fullName := m.fullName ++ chars! " (from " ++ tr ++ chars! ")" }
  | none => { m with fullName := m.fullName ++ chars! " (from trait impl)" }

/-- function_discovery.rs:618-664: the loop over the impl namespaces. -/
def traitOfNamespaces (w : World) (t : Target) : List Nat → Res (List Method)
  | [] => .ok []
  | e :: es =>
    (childFunctions (w.file t.file) e).bind fun is => (convertAll w t t.file is).bind fun ms =>
      (traitOfNamespaces w t es).bind fun r => .ok ((ms.filter (·.selfType.isSome)).map withTrait ++ r)

/-- function_discovery.rs:597-673 `discover_trait_impl_methods`. -/
def traitMethods (w : World) (t : Target) : Res (List Method) :=
  (implNamespaces w t).bind fun es => traitOfNamespaces w t es

/-- The signature texts of synthetic_methods.rs:91-178. -/
def syntheticSignature (n : Str) : Str :=
  chars! "fn " ++ n ++ chars! "(&self) -> " ++
    (if n = chars! "len" ∨ n = chars! "capacity" then chars! "usize" else chars! "bool")

/-- function_discovery.rs:246-259: the entries of the synthetic methods. -/
def syntheticEntries (l : Layout) : List Method :=
  (Data.syntheticMethods l).map fun n =>
    { name := n, fullName := l.displayName ++ chars! "::" ++ n, signature := syntheticSignature n
      address := 0, selfType := some .borrowed, callable := false, synthetic := true, ret := none, params := [] }

/-- function_discovery.rs:218-267 `discover_methods_for_type`. -/
def methodsForType (w : World) (t : Target) : Res (List Method) :=
  (directMethods w t).bind fun ds => (traitMethods w t).bind fun ts => .ok (ds ++ ts ++ syntheticEntries t.layout)

/-- rudy-db/src/debug_info.rs:746-760 `discover_methods_for_pointer`. -/
def methodsForPointer (w : World) (t : Target) : Res (List Method) :=
  (methodsForType w t).bind fun ms => .ok (ms.filter (·.selfType.isSome))

/-! ### All methods -/

/-- function/mod.rs:170-193 `FunctionSignature`, without the location text. -/
structure Sig where
  name : Str
  params : List (Option Str × TypeDef)
  ret : Option TypeDef
  self : Option SelfType

/-- function/variables.rs:126-133 `variable`; `position` tells whether the position (line 130), which
discovery does not read, decodes. -/
def variableP (shallow : Nat → Res TypeDef) (position : Nat → Bool) : Parser (Option Str × TypeDef) := fun db e =>
  (filterP (stringAttr .name) db e).bind fun n =>
    (andThen entryType (fun _ t => shallow t) db e).bind fun t =>
      if position e then .ok (n, t) else .err

/-- function/mod.rs:240-258 `function_parameter` and `function_declaration`: a parameter that does not
decode is an error. -/
def declaration (shallow : Nat → Res TypeDef) (position : Nat → Bool) :
     Parser (Str × Option TypeDef × List (Option Str × TypeDef)) :=
  both (stringAttr .name)
    (both (andThenOpt (filterP (refAttr .type)) (fun _ t => shallow t))
      (tryForEachChild
        (andThenOpt (filterP (isMemberTag .formalParameter))
          (andThen (isMemberTag .formalParameter) (variableP shallow position)))))

/-- function/mod.rs:284-299: self by the name of the first parameter. -/
def sigSelf : List (Option Str × TypeDef) → Option SelfType
  | (some n, t) :: _ =>
    if n = chars! "self" ∨ n = chars! "&self" ∨ n = chars! "&mut self" then some (SelfType.of t.layout) else none
  | _ => none

/-- function/mod.rs:260-317 `resolve_function_signature`; `specification_die` is never set
(function/index.rs:133-206). -/
def resolveSignature (w : World) (f e : Nat) : Res Sig :=
  (declaration (w.shallow f) (w.position f) (w.file f) e).bind fun (n, ret, ps) =>
    .ok { name := n, params := ps, ret := ret, self := sigSelf ps }

/-- function/mod.rs:217-234 `print_sig`. -/
def Sig.text (s : Sig) : Str :=
  chars! "fn(" ++ joinComma (s.params.map fun p => p.1.getD (chars! "_") ++ chars! ": " ++ p.2.displayName) ++
    chars! ")" ++ (match s.ret with | some r => chars! " -> " ++ r.displayName | none => [])

/-- Is the layout the alias `unknown` (function_discovery.rs:170). -/
def isUnknown : Layout → Bool
  | .alias n => decide (n = chars! "unknown")
  | _ => false

/-- function_discovery.rs:141-206: the contribution of one symbol: the type name and the method. -/
def methodOfSymbol (w : World) (s : Symbol) : Res (Option (Str × Method)) :=
  if s.debugFile ∈ w.indexed then
    match w.fnEntry s.debugFile s.name with
    | none => .ok none
    | some e =>
      match resolveSignature w s.debugFile e with
      | .panic => .panic
      | .err => .ok none
      | .ok sig =>
        match sig.params with
        | [] => .ok none
        | p :: rest =>
          if isUnknown p.2.layout.dereferenced then .ok none
          else .ok (some (p.2.layout.dereferenced.displayName,
            { name := sig.name, fullName := s.name.display, signature := sig.text, address := s.address
              selfType := sig.self, callable := true, synthetic := false, ret := sig.ret, params := rest }))
  else .ok none

/-- function_discovery.rs:141-207: the loop. -/
def groupMethods (w : World) : List Symbol → OMap Str (List Method) → Res (OMap Str (List Method))
  | [], m => .ok m
  | s :: ss, m => (methodOfSymbol w s).bind fun
    | none => groupMethods w ss m
    | some (k, x) => groupMethods w ss (m.upsert compare k [] (· ++ [x]))

/-- function_discovery.rs:121-210 `discover_all_methods`. -/
def allMethods (w : World) : Res (OMap Str (List Method)) := groupMethods w (allSymbols w.index) ⟨[]⟩

end Rudy.Discovery
