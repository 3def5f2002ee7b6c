import Verif.Model.DefaultGrammar

/-! # Parsers with some of the modules: `src/core/index.ts` 24-47, `web/src/math_parser.rs` 36-100 -/

namespace Aftermath

/-- `ModulesCreator` and `MathModules`, `src/core/index.ts` 24-37 with `web/src/math_parser.rs` 63-160:
all modules are created once, in this order, with names from one map. The names of the built-in
rules are kept apart, since the parser needs them. -/
structure MathModules where
  names : NameMap
  builtInNames : BuiltIn
  builtIn : List Rule
  others : List (List Rule)

/-- All values of the object `MathModules`. -/
def MathModules.all (mm : MathModules) : List (List Rule) := mm.builtIn :: mm.others

/-- `src/core/index.ts` 24-37 -/
def createModules (x : Xid) : M MathModules := do
  let ((b, builtIn), m) ← builtInRules x NameMap.empty
  let (rest, m) ← declareModules x (otherModules b) m
  .ok ⟨m, b, builtIn, rest⟩

/-- `makeMathParserWith`, `src/core/index.ts` 39-45, with `ParseModuleCollectionBindings::new`,
`add_module` and `build`, `web/src/math_parser.rs` 42-64: the built-in module and after it the given
ones, in the given order. -/
def makeMathParserWith (x : Xid) (mm : MathModules) (modules : List (List Rule)) : Grammar :=
  ⟨mm.builtInNames, mm.builtIn :: modules, x.start, x.continue_⟩

end Aftermath
