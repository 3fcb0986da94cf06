import Verif.Model.Discovery
/- Model of the account of all function symbols, rudy-db/src/function_discovery.rs:48-119. -/
namespace Rudy.Discovery
open Rudy.Symbols Rudy.Dwarf Rudy.Parse Rudy.Layout Rudy.TypeRes Rudy.Modules

/-- function_discovery.rs:23-46 `SymbolAnalysisResult`; the variants that are never built (`NotAMethod`,
`VariableResolutionError`, `TypeResolutionError`) are left out, and so is the text of the error. The file is
its number here, its name in the code. -/
inductive Analysis where
  | discovered (sig : Sig)
  | analysisError
  | noDebugInfo
  | unindexedFile (file : Nat)

/-- function_discovery.rs:68-115: one symbol; `none` is the `continue` of line 88, which stores nothing. -/
def analyse (w : World) (s : Symbol) : Res (Option Analysis) :=
  if s.debugFile ∈ w.indexed then
    match w.index.symbolsByFile.get compare s.debugFile with
    | none => .ok none
    | some _ =>
      match w.fnEntry s.debugFile s.name with
      | none => .ok (some .noDebugInfo)
      | some e =>
        match resolveSignature w s.debugFile e with
        | .ok sig => .ok (some (.discovered sig))
        | .err => .ok (some .analysisError)
        | .panic => .panic
  else .ok (some (.unindexedFile s.debugFile))

/-- function_discovery.rs:68-116: the loop. -/
def analyseAll (w : World) : List Symbol → OMap Str Analysis → Res (OMap Str Analysis)
  | [], m => .ok m
  | s :: ss, m => (analyse w s).bind fun
    | none => analyseAll w ss m
    | some a => analyseAll w ss (m.insert compare s.name.display a)

/-- function_discovery.rs:52-119 `discover_all_functions_debug`, rudy-db/src/debug_info.rs:743-745
`discover_all_methods_debug`. -/
def report (w : World) : Res (OMap Str Analysis) := analyseAll w (allSymbols w.index) ⟨[]⟩

end Rudy.Discovery
