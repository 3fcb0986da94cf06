import Verif.Model.Listing
import Verif.Props.Wire
import Verif.Props.Front
import Verif.Props.Discovery
import Verif.Props.Methods
import Verif.Props.Remote
/-
C84: what LLDB prints for a command is what was found.
-/
namespace Rudy.Listing
open Rudy Rudy.Server Rudy.Wire Rudy.Discovery
open Rudy.Layout (natStr)
open Rudy.Expr (parseExpression joinWith)

/-! ### The way there and back -/

theorem sent_back (c : Str) (as : List Str) :
    (lines (clientText (.command c as)) []).map serverLine = [.msg (.command c as)] := by
  have := C67_to_server [.command c as] (by intro m hm; rw [List.mem_singleton] at hm; subst hm; exact trivial)
  simpa using this

theorem endText_complete (j : Json) : endText (.complete (j.print serde)) = serverText (.complete j) := by
  simp [endText, serverText, encReply, object, Fields.ofList, Json.print, Fields.print, quote, serde, serdeEscape, shortEscape]

theorem heard_back (j : Json) : (lines (endText (.complete (j.print serde))) []).map clientLine = [some (.complete j)] := by
  rw [endText_complete]
  have := C67_to_client [.complete j]
  simpa [meant] using this

theorem heard_error : (lines (endText .error) []).map clientLine = [some (.error [])] := by
  have := C67_to_client [.error [] none]
  simpa [meant, endText] using this

theorem rd_complete {σ : Type} {L : Remote.Lldb σ} {other : Json → Str} {B : Backend} {s s' : σ} {text sub : Str} {args : List Str} {j : Json}
    (hw : Front.words text = sub :: args) (hs : Front.expand sub ≠ chars! "status")
    (ht : Remote.talk L (handleCommand B (Front.expand sub) args) s = (.ok (.complete (j.print serde)), s')) :
    rd L other B s text = some (printed other (Front.expand sub) (some (.complete j)), s') := by
  have h1 := heard_back j
  simp only [rd, hw, if_neg hs, sent_back, ht]
  cases hl : lines (endText (.complete (j.print serde))) [] with
  | nil => rw [hl] at h1; simp at h1
  | cons l ls =>
    rw [hl] at h1
    simp only [List.map_cons, List.cons.injEq] at h1
    simp only [h1.1]

theorem rd_error {σ : Type} {L : Remote.Lldb σ} {other : Json → Str} {B : Backend} {s s' : σ} {text sub : Str} {args : List Str}
    (hw : Front.words text = sub :: args) (hs : Front.expand sub ≠ chars! "status")
    (ht : Remote.talk L (handleCommand B (Front.expand sub) args) s = (.ok .error, s')) :
    rd L other B s text = some (.error, s') := by
  have h1 := heard_error
  simp only [rd, hw, if_neg hs, sent_back, ht]
  cases hl : lines (endText .error) [] with
  | nil => rw [hl] at h1; simp at h1
  | cons l ls =>
    rw [hl] at h1
    simp only [List.map_cons, List.cons.injEq] at h1
    simp only [h1.1, printed]

theorem rd_panic {σ : Type} {L : Remote.Lldb σ} {other : Json → Str} {B : Backend} {s s' : σ} {text sub : Str} {args : List Str}
    (hw : Front.words text = sub :: args) (hs : Front.expand sub ≠ chars! "status")
    (ht : Remote.talk L (handleCommand B (Front.expand sub) args) s = (.panic, s')) :
    rd L other B s text = some (.failed [], s') := by
  simp only [rd, hw, if_neg hs, sent_back, ht]

/-! ### What the lines say -/

/-- Lines of text, each ended. -/
def page (ls : List Str) : Str := ls.flatMap fun l => l ++ ['\n']

/-- What is said about a function that can or cannot be called. -/
def callableWord (c : Bool) : Str := if c then chars! " (callable)" else chars! " (not callable)"

/-- The line of a function: its path, its signature, and whether it can be called. -/
def functionLine (f : Found) : Str :=
  chars! "  " ++ Symbols.joinSep (f.modulePath ++ [f.name]) ++ chars! ": " ++ f.signature ++ callableWord f.callable

/-- The lines for a list of functions. -/
def functionPage : List Found → List Str
  | [] => [chars! "No functions found"]
  | f :: fs => (chars! "Found " ++ natStr (fs.length + 1) ++ chars! " function(s):") :: (f :: fs).map functionLine

/-- The line of a method of the program. -/
def methodLine (m : Method) : Str := chars! "  - " ++ m.signature ++ callableWord m.callable

/-- The lines of the built-in methods: none, or a blank line, a title and a line for each. -/
def builtinLines : List Method → List Str
  | [] => []
  | ms => [] :: chars! "Synthetic methods (debug helpers):" :: ms.map fun m => chars! "  - " ++ m.signature

/-- The lines for the methods of a type: the methods of the program, and then the built-in ones. -/
def methodPage (type : Str) (ms : List Method) : List Str :=
  (chars! "Methods for " ++ type ++ chars! ":") ::
    ((match ms.filter (fun m => !m.synthetic) with
      | [] => [chars! "  (no methods found)"]
      | rs => rs.map methodLine) ++ builtinLines (ms.filter (·.synthetic)))

/-! ### Printing -/

theorem dicts_map {α : Type} (f : α → List (Str × Json)) (l : List α) :
    dicts (l.map fun a => object (f a)) = l.map fun a => Fields.ofList (f a) := by
  induction l with
  | nil => rfl
  | cons a l ih => simp only [List.map_cons, object, dicts, List.cons.injEq, true_and]; exact ih

theorem joinColons_texts (l : List Str) : joinColons (l.map .str) = some (Symbols.joinSep l) := by
  induction l with
  | nil => rfl
  | cons a l ih =>
    cases l with
    | nil => rfl
    | cons b l =>
      simp only [List.map_cons] at ih ⊢
      simp only [joinColons, ih, Option.map_some, Symbols.joinSep]
      simp

theorem printFunction_enc (other : Json → Str) (f : Found) (fs : Fields) (h : encFunction f = .obj fs) :
    printFunction other fs = some (line (functionLine f)) := by
  have h1 : fs = Fields.ofList [(chars! "address", .num f.address), (chars! "callable", .bool f.callable), (chars! "full_name", .str f.fullName),
    (chars! "module_path", .arr (Jsons.ofList (f.modulePath.map .str))), (chars! "name", .str f.name), (chars! "signature", .str f.signature)] := by
    simpa [encFunction, object] using h.symm
  subst h1
  have g1 : (Fields.ofList [(chars! "address", .num f.address), (chars! "callable", .bool f.callable), (chars! "full_name", .str f.fullName),
    (chars! "module_path", .arr (Jsons.ofList (f.modulePath.map .str))), (chars! "name", .str f.name), (chars! "signature", .str f.signature)]).get (chars! "name") = some (.str f.name) := rfl
  have g2 : (Fields.ofList [(chars! "address", .num f.address), (chars! "callable", .bool f.callable), (chars! "full_name", .str f.fullName),
    (chars! "module_path", .arr (Jsons.ofList (f.modulePath.map .str))), (chars! "name", .str f.name), (chars! "signature", .str f.signature)]).get (chars! "signature") = some (.str f.signature) := rfl
  have g3 : (Fields.ofList [(chars! "address", .num f.address), (chars! "callable", .bool f.callable), (chars! "full_name", .str f.fullName),
    (chars! "module_path", .arr (Jsons.ofList (f.modulePath.map .str))), (chars! "name", .str f.name), (chars! "signature", .str f.signature)]).get (chars! "module_path") = some (.arr (Jsons.ofList (f.modulePath.map .str))) := rfl
  have g4 : (Fields.ofList [(chars! "address", .num f.address), (chars! "callable", .bool f.callable), (chars! "full_name", .str f.fullName),
    (chars! "module_path", .arr (Jsons.ofList (f.modulePath.map .str))), (chars! "name", .str f.name), (chars! "signature", .str f.signature)]).get (chars! "callable") = some (.bool f.callable) := rfl
  simp only [printFunction, signatureText, callableText, g1, g2, g3, g4, Option.getD_some, pyStr, truthy]
  cases hm : f.modulePath with
  | nil =>
    simp only [List.map_nil, Jsons.ofList, Bool.false_eq_true, if_false, functionLine, hm, List.nil_append, Symbols.joinSep, callableWord]
    simp
  | cons a r =>
    simp only [List.map_cons, Jsons.ofList, if_true, Jsons.toList, toList_ofList]
    have hj : joinColons (Json.str a :: r.map Json.str ++ [Json.str f.name]) = some (Symbols.joinSep (a :: (r ++ [f.name]))) := by
      simpa using joinColons_texts (a :: (r ++ [f.name]))
    rw [hj]
    simp [functionLine, hm, callableWord]

theorem printFunctions_enc (other : Json → Str) (fs : List Found) (before : Str) :
    printFunctions other before (dicts (fs.map encFunction)) = .text (before ++ page (fs.map functionLine)) := by
  induction fs generalizing before with
  | nil => simp [dicts, printFunctions, page]
  | cons f fs ih =>
    simp only [List.map_cons]
    have : ∃ x, encFunction f = .obj x := ⟨_, rfl⟩
    obtain ⟨x, hx⟩ := this
    rw [hx, dicts, printFunctions, printFunction_enc other f x hx]
    simp only [ih]
    simp [page, line]

theorem printed_functions (other : Json → Str) (fs : List Found) :
    printed other (chars! "functions") (some (.complete (encFunctions fs))) = .text (page (functionPage fs)) := by
  simp only [printed, encFunctions, if_true, toList_ofList]
  cases fs with
  | nil => simp [functionPage, page, line]
  | cons f fs =>
    rw [if_neg (by simp), printFunctions_enc]
    simp [functionPage, page, line]

/-- The fields of a method as LLDB reads them. -/
def methodFields (m : Method) : Fields :=
  Fields.ofList [(chars! "callable", .bool m.callable), (chars! "description", optStr (some (chars! "Method at address " ++ Data.hexStr m.address))),
    (chars! "is_synthetic", .bool m.synthetic), (chars! "name", .str m.name), (chars! "signature", .str m.signature)]

theorem methodFields_get (m : Method) (other : Json → Str) :
    isSynthetic (methodFields m) = m.synthetic ∧ signatureText other (methodFields m) = m.signature ∧
    callableText (methodFields m) = callableWord m.callable := ⟨rfl, rfl, rfl⟩

theorem filter_fields (p : Method → Bool) (q : Fields → Bool) (h : ∀ m, q (methodFields m) = p m) (ms : List Method) :
    (ms.map methodFields).filter q = (ms.filter p).map methodFields := by
  induction ms with
  | nil => rfl
  | cons m ms ih =>
    simp only [List.map_cons, List.filter_cons, h, ih]
    split <;> rfl

theorem printed_methods (other : Json → Str) (type : Str) (ms : List Method) :
    printed other (chars! "methods") (some (.complete (encMethods type ms))) = .text (page (methodPage type ms)) := by
  have hd : dicts (ms.map fun m => encMethod (methodInfo m)) = ms.map methodFields := dicts_map _ ms
  have g1 : (Fields.ofList [(chars! "methods", .arr (Jsons.ofList (ms.map fun m => encMethod (methodInfo m)))), (chars! "type_name", Json.str type)]).get
      (chars! "methods") = some (.arr (Jsons.ofList (ms.map fun m => encMethod (methodInfo m)))) := rfl
  have g2 : (Fields.ofList [(chars! "methods", .arr (Jsons.ofList (ms.map fun m => encMethod (methodInfo m)))), (chars! "type_name", Json.str type)]).get
      (chars! "type_name") = some (.str type) := rfl
  simp only [printed, encMethods, object, if_true, printMethods, g1, g2, Option.getD_some, iterated, toList_ofList, hd, pyStr]
  rw [filter_fields (fun m => !m.synthetic) _ (fun m => rfl), filter_fields (·.synthetic) _ (fun m => rfl)]
  simp only [Printed.text.injEq, methodPage]
  have hr : ∀ rs : List Method, ((rs.map methodFields).flatMap fun m => line (chars! "  - " ++ signatureText other m ++ callableText m)) =
      page (rs.map methodLine) := by
    intro rs
    induction rs with
    | nil => rfl
    | cons m rs ih =>
      simp only [List.map_cons, List.flatMap_cons, page] at ih ⊢
      rw [ih]; rfl
  have hs : ∀ rs : List Method, ((rs.map methodFields).flatMap fun m => line (chars! "  - " ++ signatureText other m)) =
      page (rs.map fun m => chars! "  - " ++ m.signature) := by
    intro rs
    induction rs with
    | nil => rfl
    | cons m rs ih =>
      simp only [List.map_cons, List.flatMap_cons, page] at ih ⊢
      rw [ih]; rfl
  rw [hr, hs]
  have hp : ∀ (a : Str) (l : List Str), page (a :: l) = line a ++ page l := fun _ _ => rfl
  have hpa : ∀ (k l : List Str), page (k ++ l) = page k ++ page l := fun k l => by simp [page]
  rw [hp, hpa, List.append_assoc]
  congr 2
  · cases h : ms.filter (fun m => !m.synthetic) with
    | nil => rfl
    | cons a l => rfl
  · cases h : ms.filter (·.synthetic) with
    | nil => rfl
    | cons a l => rfl

/-! ### The commands -/

theorem talk_bind {σ α β : Type} (L : Remote.Lldb σ) (c : Conv α) (k : α → Conv β) (s : σ) :
    Remote.talk L (c.bind k) s = match Remote.talk L c s with
      | (.ok b, s') => Remote.talk L (k b) s'
      | (.err, s') => (.err, s')
      | (.panic, s') => (.panic, s') := by
  induction c generalizing s with
  | ok b => rfl
  | err => rfl
  | panic => rfl
  | ask e g ih => simp only [Conv.bind, Remote.talk]; exact ih _ _

theorem talk_respond {σ : Type} (L : Remote.Lldb σ) (c : Conv Str) (s : σ) :
    Remote.talk L (respond c) s = match Remote.talk L c s with
      | (.ok v, s') => (.ok (.complete v), s')
      | (.err, s') => (.ok .error, s')
      | (.panic, s') => (.panic, s') := by
  unfold respond
  induction c generalizing s with
  | ok b => rfl
  | err => rfl
  | panic => rfl
  | ask e g ih => simp only [Conv.handle, Remote.talk]; exact ih _ _

theorem talk_ofRes {σ α : Type} (L : Remote.Lldb σ) (r : Res α) (s : σ) : Remote.talk L (Conv.ofRes r) s = (r, s) := by
  cases r <;> rfl

section
variable {σ : Type} (L : Remote.Lldb σ) (other : Json → Str) (P : Program) (s : σ)

/-- C84: `rd functions pattern` prints the functions found for the pattern: how many, and a line for each, in the order in which they were
found, with its path, its signature, and whether it can be called. Nothing changes in the process. -/
theorem C84_functions (text sub pattern : Str) (more : List Str) (hw : Front.words text = sub :: pattern :: more)
    (hs : Front.expand sub = chars! "functions") (fs : List Found) (h : discover P.world pattern = .ok fs) :
    rd L other P.backend s text = some (.text (page (functionPage fs)), s) := by
  have : rd L other P.backend s text = some (printed other (Front.expand sub) (some (.complete (encFunctions fs))), s) := by
    refine rd_complete hw (by rw [hs]; decide) ?_
    rw [hs]
    simp [handleCommand, Program.backend, h, respond, Conv.ofRes, Conv.handle, Remote.talk]
  rw [this, hs, printed_functions]

/-- C84: `rd functions` alone prints all functions, in the order of their names. -/
theorem C84_all_functions (text sub : Str) (hw : Front.words text = [sub])
    (hs : Front.expand sub = chars! "functions") (m : OMap Str Found) (h : discoverAll P.world = .ok m) :
    rd L other P.backend s text = some (.text (page (functionPage (m.entries.map (·.2)))), s) := by
  have : rd L other P.backend s text = some (printed other (Front.expand sub) (some (.complete (encFunctions (m.entries.map (·.2))))), s) := by
    refine rd_complete hw (by rw [hs]; decide) ?_
    rw [hs]
    simp [handleCommand, Program.backend, h, respond, Conv.ofRes, Conv.handle, Remote.talk]
  rw [this, hs, printed_functions]

/-- C84: an error in the search is printed as an error. -/
theorem C84_functions_error (text sub pattern : Str) (more : List Str) (hw : Front.words text = sub :: pattern :: more)
    (hs : Front.expand sub = chars! "functions") (h : discover P.world pattern = .err) :
    rd L other P.backend s text = some (.error, s) := by
  refine rd_error hw (by rw [hs]; decide) ?_
  rw [hs]
  simp [handleCommand, Program.backend, h, respond, Conv.ofRes, Conv.handle, Remote.talk]

/-- The expression is one that names a place: not the name of a type (a path, with or without type arguments), and if it is a single
name, then that of a variable of the selected frame. -/
def NamesPlace (L : Remote.Lldb σ) (s : σ) : Expr.Expr → Prop
  | .path _ => False
  | .generic _ _ => False
  | .var x => Remote.Live L s ∧ ∃ f t, Remote.Selected L s f ∧ f.find x = some (some t)
  | _ => True

theorem methods_place {σ : Type} (L : Remote.Lldb σ) (B : Backend) (s : σ) (input : Str) (e : Expr.Expr)
    (hp : parseExpression input = .ok e) (hn : NamesPlace L s e) :
    Remote.talk L (handleMethods B input) s = Remote.talk L (B.toRef e) s := by
  cases e <;> simp only [handleMethods, hp]
  case path => exact hn.elim
  case generic => exact hn.elim
  case var x =>
    obtain ⟨hl, f, t, hf, hx⟩ := hn
    obtain ⟨b, hb, hi⟩ := Remote.C77_variable L hl hf x
    rw [talk_bind, hb]
    simp only [hi.2 ⟨t, hx⟩, if_true]

/-- C84: `rd methods` of an expression for a place prints the methods found for its type, under the name of the type: a line for each
method of the program, in the order in which they were found, with its signature and whether it can be called, and after them the built-in
methods. -/
theorem C84_methods_of_place (text sub a : Str) (as : List Str) (hw : Front.words text = sub :: a :: as)
    (hs : Front.expand sub = chars! "methods") (e : Expr.Expr) (hp : parseExpression (joinWith (chars! " ") (a :: as)) = .ok e)
    (hn : NamesPlace L s e) (t : Target) (s' : σ) (ht : Remote.talk L (P.toRef e) s = (.ok t, s')) (ms : List Method)
    (hm : methodsForPointer P.world t = .ok ms) :
    rd L other P.backend s text = some (.text (page (methodPage t.layout.displayName ms)), s') := by
  have : rd L other P.backend s text =
      some (printed other (Front.expand sub) (some (.complete (encMethods t.layout.displayName ms))), s') := by
    refine rd_complete hw (by rw [hs]; decide) ?_
    rw [hs]
    have h1 : handleCommand P.backend (chars! "methods") (a :: as) = respond (handleMethods P.backend (joinWith (chars! " ") (a :: as))) := rfl
    rw [h1, talk_respond, methods_place L P.backend s _ e hp hn]
    simp only [Program.backend, talk_bind, ht, hm, talk_ofRes, Remote.talk]
  rw [this, hs, printed_methods]

/-- C84: if the place cannot be evaluated, or its methods cannot be listed, an error is printed. -/
theorem C84_methods_of_place_error (text sub a : Str) (as : List Str) (hw : Front.words text = sub :: a :: as)
    (hs : Front.expand sub = chars! "methods") (e : Expr.Expr) (hp : parseExpression (joinWith (chars! " ") (a :: as)) = .ok e)
    (hn : NamesPlace L s e) (s' : σ)
    (ht : Remote.talk L (P.toRef e) s = (.err, s') ∨
      ∃ t, Remote.talk L (P.toRef e) s = (.ok t, s') ∧ methodsForPointer P.world t = .err) :
    rd L other P.backend s text = some (.error, s') := by
  refine rd_error hw (by rw [hs]; decide) ?_
  rw [hs]
  have h1 : handleCommand P.backend (chars! "methods") (a :: as) = respond (handleMethods P.backend (joinWith (chars! " ") (a :: as))) := rfl
  rw [h1, talk_respond, methods_place L P.backend s _ e hp hn]
  rcases ht with ht | ⟨t, ht, hm⟩
  · simp only [Program.backend, talk_bind, ht]
  · simp only [Program.backend, talk_bind, ht, hm, talk_ofRes]

/-- The text is taken for the name `n` of a type: it is a path, with or without type arguments (its words joined by blanks and printed
again), or a single name that no variable of the selected frame has, or no expression. -/
def NamesType (L : Remote.Lldb σ) (s : σ) (input n : Str) : Prop :=
  (∃ ps, parseExpression input = .ok (.path ps) ∧ n = (Expr.Expr.path ps).print) ∨
  (∃ b as, parseExpression input = .ok (.generic b as) ∧ n = (Expr.Expr.generic b as).print) ∨
  (parseExpression input = .ok (.var n) ∧ Remote.Live L s ∧ ∃ f, Remote.Selected L s f ∧ ∀ t, f.find n ≠ some (some t)) ∨
  (parseExpression input = .err ∧ n = input)

theorem methods_type {σ : Type} (L : Remote.Lldb σ) (B : Backend) (s : σ) (input n : Str) (hn : NamesType L s input n) :
    Remote.talk L (handleMethods B input) s = Remote.talk L (typeOnly B n) s := by
  rcases hn with ⟨ps, hp, rfl⟩ | ⟨b, as, hp, rfl⟩ | ⟨hp, hl, f, hf, hx⟩ | ⟨hp, rfl⟩
  · simp only [handleMethods, hp]
  · simp only [handleMethods, hp]
  · simp only [handleMethods, hp]
    obtain ⟨b, hb, hi⟩ := Remote.C77_variable L hl hf n
    rw [talk_bind, hb]
    cases b with
    | false => simp
    | true => exact absurd (hi.1 rfl) fun ⟨t, ht⟩ => hx t ht
  · simp only [handleMethods, hp]

/-- C84: `rd methods` of the name of a type prints the methods and the other functions of the type found under that name; nothing changes in the
process. -/
theorem C84_methods_of_type (text sub a : Str) (as : List Str) (hw : Front.words text = sub :: a :: as)
    (hs : Front.expand sub = chars! "methods") (n : Str) (hn : NamesType L s (joinWith (chars! " ") (a :: as)) n) (t : Target)
    (ht : P.lookup n = some t) (ms : List Method) (hm : methodsForType P.world t = .ok ms) :
    rd L other P.backend s text = some (.text (page (methodPage n ms)), s) := by
  have : rd L other P.backend s text = some (printed other (Front.expand sub) (some (.complete (encMethods n ms))), s) := by
    refine rd_complete hw (by rw [hs]; decide) ?_
    rw [hs]
    have h1 : handleCommand P.backend (chars! "methods") (a :: as) = respond (handleMethods P.backend (joinWith (chars! " ") (a :: as))) := rfl
    rw [h1, talk_respond, methods_type L P.backend s _ n hn]
    simp only [typeOnly, Program.backend, ht, Option.map_some, hm, Res.bind_ok, talk_ofRes]
  rw [this, hs, printed_methods]

/-- C84: a name that is neither a variable's nor a type's is answered with an error, and so is a type whose methods cannot be listed. -/
theorem C84_methods_of_type_error (text sub a : Str) (as : List Str) (hw : Front.words text = sub :: a :: as)
    (hs : Front.expand sub = chars! "methods") (n : Str) (hn : NamesType L s (joinWith (chars! " ") (a :: as)) n)
    (ht : P.lookup n = none ∨ ∃ t, P.lookup n = some t ∧ methodsForType P.world t = .err) :
    rd L other P.backend s text = some (.error, s) := by
  refine rd_error hw (by rw [hs]; decide) ?_
  rw [hs]
  have h1 : handleCommand P.backend (chars! "methods") (a :: as) = respond (handleMethods P.backend (joinWith (chars! " ") (a :: as))) := rfl
  rw [h1, talk_respond, methods_type L P.backend s _ n hn]
  rcases ht with ht | ⟨t, ht, hm⟩
  · simp only [typeOnly, Program.backend, ht, Option.map_none, Remote.talk]
  · simp only [typeOnly, Program.backend, ht, Option.map_some, hm, Res.bind_err, talk_ofRes]

/-- C84: `rd print` (and `rd eval`) prints two lines, the type of the value and the value. -/
theorem C84_value (text sub a : Str) (as : List Str) (hw : Front.words text = sub :: a :: as)
    (hs : Front.expand sub = chars! "print" ∨ Front.expand sub = chars! "eval") (e : Expr.Expr)
    (hp : parseExpression (joinWith (chars! " ") (a :: as)) = .ok e) (value type : Str) (s' : σ)
    (ht : Remote.talk L (P.eval e) s = (.ok (value, type), s')) :
    rd L other P.backend s text = some (.text (page [chars! "type: " ++ type, chars! "value: " ++ value]), s') := by
  have hc : handleCommand P.backend (Front.expand sub) (a :: as) = respond (P.backend.eval e) := by
    rcases hs with hs | hs <;> rw [hs] <;> simp [handleCommand, hp]
  have : rd L other P.backend s text = some (printed other (Front.expand sub) (some (.complete (encEval value type))), s') := by
    refine rd_complete hw (by rcases hs with hs | hs <;> rw [hs] <;> decide) ?_
    rw [hc, talk_respond]
    simp only [Program.backend, talk_bind, ht, Remote.talk]
  rw [this]
  rcases hs with hs | hs <;> rw [hs] <;>
    simp [printed, encEval, object, Fields.ofList, printFields, pyStr, page, line]

/-- C84: an expression that does not parse, or cannot be evaluated, is answered with an error. -/
theorem C84_value_error (text sub a : Str) (as : List Str) (hw : Front.words text = sub :: a :: as)
    (hs : Front.expand sub = chars! "print" ∨ Front.expand sub = chars! "eval") (s' : σ)
    (hp : (parseExpression (joinWith (chars! " ") (a :: as)) = .err ∧ s' = s) ∨
      ∃ e, parseExpression (joinWith (chars! " ") (a :: as)) = .ok e ∧ Remote.talk L (P.eval e) s = (.err, s')) :
    rd L other P.backend s text = some (.error, s') := by
  refine rd_error hw (by rcases hs with hs | hs <;> rw [hs] <;> decide) ?_
  rcases hp with ⟨hp, rfl⟩ | ⟨e, hp, he⟩
  · rcases hs with hs | hs <;> rw [hs] <;> simp [handleCommand, hp, Remote.talk]
  · have hc : handleCommand P.backend (Front.expand sub) (a :: as) = respond (P.backend.eval e) := by
      rcases hs with hs | hs <;> rw [hs] <;> simp [handleCommand, hp]
    rw [hc, talk_respond]
    simp only [Program.backend, talk_bind, he]

/-- C84: if the server crashes while it reads the expression, collects the functions or methods or evaluates the expression, `rd` says that
the command failed, without a reason; nothing is listed. -/
theorem C84_crash (text sub a : Str) (as : List Str) (hw : Front.words text = sub :: a :: as) (s' : σ)
    (h : (Front.expand sub = chars! "functions" ∧ discover P.world a = .panic ∧ s' = s) ∨
      (Front.expand sub = chars! "methods" ∧ ∃ e t, parseExpression (joinWith (chars! " ") (a :: as)) = .ok e ∧ NamesPlace L s e ∧
        Remote.talk L (P.toRef e) s = (.ok t, s') ∧ methodsForPointer P.world t = .panic) ∨
      (Front.expand sub = chars! "methods" ∧ ∃ n t, NamesType L s (joinWith (chars! " ") (a :: as)) n ∧
        P.lookup n = some t ∧ methodsForType P.world t = .panic ∧ s' = s) ∨
      ((Front.expand sub = chars! "print" ∨ Front.expand sub = chars! "eval") ∧ ∃ e,
        parseExpression (joinWith (chars! " ") (a :: as)) = .ok e ∧ Remote.talk L (P.eval e) s = (.panic, s')) ∨
      ((Front.expand sub = chars! "methods" ∨ Front.expand sub = chars! "print" ∨ Front.expand sub = chars! "eval") ∧
        parseExpression (joinWith (chars! " ") (a :: as)) = .panic ∧ s' = s)) :
    rd L other P.backend s text = some (.failed [], s') := by
  rcases h with ⟨hs, h, rfl⟩ | ⟨hs, e, t, hp, hn, ht, hm⟩ | ⟨hs, n, t, hn, ht, hm, rfl⟩ | ⟨hs, e, hp, he⟩ | ⟨hs, hp, rfl⟩
  · refine rd_panic hw (by rw [hs]; decide) ?_
    rw [hs]
    simp [handleCommand, Program.backend, h, respond, Conv.ofRes, Conv.handle, Remote.talk]
  · refine rd_panic hw (by rw [hs]; decide) ?_
    rw [hs]
    have h1 : handleCommand P.backend (chars! "methods") (a :: as) = respond (handleMethods P.backend (joinWith (chars! " ") (a :: as))) := rfl
    rw [h1, talk_respond, methods_place L P.backend s _ e hp hn]
    simp only [Program.backend, talk_bind, ht, hm, talk_ofRes]
  · refine rd_panic hw (by rw [hs]; decide) ?_
    rw [hs]
    have h1 : handleCommand P.backend (chars! "methods") (a :: as) = respond (handleMethods P.backend (joinWith (chars! " ") (a :: as))) := rfl
    rw [h1, talk_respond, methods_type L P.backend s' _ n hn]
    simp only [typeOnly, Program.backend, ht, Option.map_some, hm, Res.bind_panic, talk_ofRes]
  · refine rd_panic hw (by rcases hs with hs | hs <;> rw [hs] <;> decide) ?_
    have hc : handleCommand P.backend (Front.expand sub) (a :: as) = respond (P.backend.eval e) := by
      rcases hs with hs | hs <;> rw [hs] <;> simp [handleCommand, hp]
    rw [hc, talk_respond]
    simp only [Program.backend, talk_bind, he]
  · refine rd_panic hw (by rcases hs with hs | hs | hs <;> rw [hs] <;> decide) ?_
    rcases hs with hs | hs | hs <;> rw [hs] <;>
      simp [handleCommand, handleMethods, hp, respond, Conv.handle, Remote.talk]

/-! ### What was found is what there is -/

/-- C84 with C40: `rd functions path` prints, for a path of names, one line for each function of the program whose name is the last one of the
path and whose modules end in the others, in the order of their names; and no other line but the count. -/
theorem C84_functions_of_program (text sub : Str) (more ms : List Str) (n : Str) (hw : Front.words text = sub :: Symbols.joinSep (ms ++ [n]) :: more)
    (hs : Front.expand sub = chars! "functions") (hc : ∀ x ∈ ms, Symbols.CleanSegment x) (hn : Symbols.CleanSegment n)
    (hh : Symbols.looksLikeHash n = false) (ops : List Symbols.IndexOp) (hi : P.world.index = Symbols.buildIndex ops)
    (hp : ∀ y e outer, InForce ops y → y.name.lookupName = n → y.name.modulePath = outer ++ ms →
      P.world.fnEntry y.debugFile y.name = some e → ¬ Crashes P.world y.debugFile e) :
    ∃ syms fs, rd L other P.backend s text = some (.text (page (functionPage fs)), s) ∧ List.Forall₂ About syms fs ∧
      syms.Nodup ∧ syms.Pairwise (fun a b => a.name.cmp b.name = .lt) ∧
      ∀ y, y ∈ syms ↔ InForce ops y ∧ y.name.lookupName = n ∧ ∃ outer, y.name.modulePath = outer ++ ms := by
  obtain ⟨syms, fs, h1, h2, h3, h4, h5⟩ := C40_path_pattern P.world ops hi ms n hc hn hh hp
  exact ⟨syms, fs, C84_functions L other P s text sub _ more hw hs fs h1, h2, h4, h5, h3⟩

/-- C84 with C44: `rd methods` of an expression for a place prints, if what there is to read about its type can be read, a page on which each method is a function of the
program that takes the value (or a built-in method of it), and each function that takes the value is a method. -/
theorem C84_methods_of_program (text sub a : Str) (as : List Str) (hw : Front.words text = sub :: a :: as)
    (hs : Front.expand sub = chars! "methods") (e : Expr.Expr) (hp : parseExpression (joinWith (chars! " ") (a :: as)) = .ok e)
    (hn : NamesPlace L s e) (t : Target) (s' : σ) (ht : Remote.talk L (P.toRef e) s = (.ok t, s')) (hr : Readable P.world t)
    (hself : ∀ f d c p rest, Home P.world t f d → IsChild (P.world.file f) d c → IsFunction (P.world.file f) c (p :: rest) →
      (p.name = none ∨ p.name = some (chars! "self")) → P.world.resolve f p.ty ≠ .err) :
    ∃ ms, rd L other P.backend s text = some (.text (page (methodPage t.layout.displayName ms)), s') ∧
      (∀ m ∈ ms, BuiltIn t.layout m ∨
        ∃ f d c ps k, Home P.world t f d ∧ IsChild (P.world.file f) d c ∧ IsFunction (P.world.file f) c ps ∧ TakesSelf P.world t f ps k ∧
          m.selfType = some k ∧ Describes P.world f c ps m) := by
  obtain ⟨_, ms, hm⟩ := C44_succeeds P.world t hr hself
  exact ⟨ms, C84_methods_of_place L other P s text sub a as hw hs e hp hn t s' ht ms hm,
    C44_listed_are_methods P.world t ms hm⟩

/-! ### What is lost -/

/-- C84 fails for a pattern with a blank: only its first word is looked for, so what is printed is what there is for that word alone. -/
theorem C84_blank_in_pattern_fails (text text' sub w : Str) (more : List Str) (hw : Front.words text = sub :: w :: more)
    (hw' : Front.words text' = [sub, w]) (hs : Front.expand sub = chars! "functions") :
    rd L other P.backend s text = rd L other P.backend s text' := by
  simp only [rd, hw, hw', hs, sent_back]
  rfl

end

/-! ### A concrete session -/

/-- A program with the type `S` of `shop`; the variable `x` holds one, and its value is printed as `S`. -/
def demo : Program where
  world := shop .structureType sLayout sEntries
  lookup n := if n = chars! "m::S" then some ⟨0, 20, sLayout⟩ else none
  eval _ := .ok (chars! "S", chars! "m::S")
  toRef _ := .ok ⟨0, 20, sLayout⟩

/-- `rd m x` with the debugger of C77. -/
example (other : Json → Str) (s : Remote.Toy) :
    rd Remote.toy other demo.backend s (chars! "m x") =
      some (.text (chars! "Methods for S:\n  - fn get(&self) (callable)\n  - fn tr(&mut self) (not callable)\n"), s) := by
  exact (C84_methods_of_place Remote.toy other demo s (chars! "m x") (chars! "m") (chars! "x") [] rfl rfl (.var (chars! "x"))
    (by with_unfolding_all rfl)
    ⟨Remote.toy_ok.1 s, _, _, ⟨⟨_, rfl, rfl⟩, by decide, by decide, by decide⟩, rfl⟩ ⟨0, 20, sLayout⟩ s rfl _
    (by with_unfolding_all rfl)).trans (by with_unfolding_all rfl)

/-- `rd methods m::S`: the functions that take no value are listed too. -/
example (other : Json → Str) (s : Remote.Toy) :
    ∃ ms, rd Remote.toy other demo.backend s (chars! "methods m::S") = some (.text (page (methodPage (chars! "m::S") ms)), s) ∧
      ms.map (·.signature) = [chars! "fn get(&self)", chars! "fn new()", chars! "fn tr(&mut self)"] := by
  refine ⟨_, C84_methods_of_type Remote.toy other demo s (chars! "methods m::S") (chars! "methods") (chars! "m::S") [] rfl rfl (chars! "m::S")
    (Or.inl ⟨[chars! "m", chars! "S"], by with_unfolding_all rfl, by with_unfolding_all rfl⟩) ⟨0, 20, sLayout⟩ rfl _ (by with_unfolding_all rfl), by with_unfolding_all rfl⟩

/-- `rd f f` in the program of C40 with one function. -/
example (other : Json → Str) (s : Remote.Toy) :
    rd Remote.toy other ({ demo with world := untypedParam } : Program).backend s (chars! "f f") =
      some (.text (chars! "Found 1 function(s):\n  f: fn f(a: u32) (callable)\n"), s) :=
  (C84_functions Remote.toy other { demo with world := untypedParam } s (chars! "f f") (chars! "f") (chars! "f") [] rfl rfl _
    (by with_unfolding_all rfl)).trans (by with_unfolding_all rfl)

/-- `rd p x`. -/
example (other : Json → Str) (s : Remote.Toy) :
    rd Remote.toy other demo.backend s (chars! "p x") = some (.text (chars! "type: m::S\nvalue: S\n"), s) :=
  C84_value Remote.toy other demo s (chars! "p x") (chars! "p") (chars! "x") [] rfl (Or.inl rfl) (.var (chars! "x"))
    (by with_unfolding_all rfl) (chars! "S") (chars! "m::S") s rfl

end Rudy.Listing
