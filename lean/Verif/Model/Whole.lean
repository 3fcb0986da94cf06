import Verif.Model.Ask
import Verif.Model.Listing
/-
The parts together: the program behind a session is the evaluator (`Model/Ask.lean`) with discovery (`Model/Discovery.lean`), variables
(`Model/Variables.lean`) and types as it gets them from the debug information. rudy-lldb/src/server.rs:205-470, evaluator.rs:129-136.

Simplification: the types the evaluator meets are in one debug file (number 0).
-/
namespace Rudy.Whole
open Rudy Rudy.Server Rudy.Layout Rudy.Eval Rudy.Discovery Rudy.Listing

/-- What is in the debugged binary and its debug information, and in the standard library (`lossy`, `floatStr`, `isFloat`). -/
structure Binary where
  world : Discovery.World
  lookup : Str → Option Discovery.Target
  vars : Vars.World
  lossy : List UInt8 → Str
  floatStr : Nat → Nat → Str
  isFloat : Str → Bool
  stack : Nat

/-- The type of a `TypedPointer` with its location (outputs.rs:57-64). Simplification: a type without a location, which no place has, is
located at 0. -/
def located (t : TypeDef) : Discovery.Target := ⟨0, t.loc.getD 0, t.layout⟩

/-- What the evaluator uses of a `DiscoveredMethod`, evaluator.rs:338-437, 786-904. -/
def ofMethod (m : Method) : Callee := ⟨m.name, m.address, m.params.map (·.2), m.ret⟩

/-- What the evaluator uses of a `DiscoveredFunction`, evaluator.rs:452-531, 915-1041. -/
def ofFunction (f : Found) : Callee := ⟨f.name, f.address, f.params.map (·.2), f.ret⟩

/-- What `EvalContext` has of the debug information (`self.debug_info`), evaluator.rs:124-136. -/
def Binary.info (b : Binary) : Ask.Info where
  resolve := b.world.resolve 0
  lossy := b.lossy
  floatStr := b.floatStr
  vars := b.vars
  methods := fun p => (methodsForPointer b.world (located p.2)).bind fun ms => .ok (ms.map ofMethod)
  functions := fun n => (discover b.world n).bind fun fs => .ok (fs.map ofFunction)
  isFloat := b.isFloat
  stack := b.stack

/-- The program behind a session, server.rs:205-470: every command gets a new `EvalContext`. -/
def Binary.program (b : Binary) : Program where
  world := b.world
  lookup := b.lookup
  eval := fun e => (Ask.evaluate b.info e).run
  toRef := fun e => (Ask.toRef b.info e).run.bind fun p => .ok (located p.2)

end Rudy.Whole
