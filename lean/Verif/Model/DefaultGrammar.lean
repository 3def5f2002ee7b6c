import Verif.Model.Parser
import Verif.Model.Names

/-! # The rule collections: `parser/src/rule_collections/*.rs`, put together in the order of
`parser/tests/parser_test.rs` 15-42 and of the web bindings (`web/src/math_parser.rs`)

The registration of names is threaded through as in Rust. The parsers of the rules are those
listed in `TokenParser`. Autocomplete rules are not part of this file. -/

namespace Aftermath

/-- Creating modules: a computation that may register names and may panic. -/
abbrev Register (α : Type) := NameMap → M (α × NameMap)

/-- The character predicates of the crate `unicode_ident`. -/
structure Xid where
  start : Char → Bool
  continue_ : Char → Bool

/-- `modules.with_rule_name(Self::rule_name(name))` with the `rule_name` of each collection, for
example `core_rules.rs` 31-33. -/
def withRuleName (x : Xid) (ns name : String) (m : NameMap) : M (Nat × NameMap) := do
  let p ← PathId.new x.start x.continue_ [ns.toList, name.toList]
  .ok (m.add p)

/-- A rule of a module as it stands in the source: kind, name and parser. -/
abbrev RuleDecl := RuleKind × String × TokenParser

/-- The `vec![..]` of rules of a collection: the names are registered in the order of the rules. -/
def declareRules (x : Xid) (ns : String) : List RuleDecl → Register (List Rule)
  | [], m => .ok ([], m)
  | (k, name, p) :: ds, m => do
    let (n, m) ← withRuleName x ns name m
    let (rs, m) ← declareRules x ns ds m
    .ok (⟨n, k, p⟩ :: rs, m)

/-- `just_operator_parser` of a `char` or `&str`, `make_parser.rs` 86-91 with 53-63 -/
def op (s : String) : TokenParser := .symbols [s.toList] .operator
/-- `just_operator_parser` of a `Vec<char>`, `make_parser.rs` 86-91 with 36-40 -/
def ops (s : String) : TokenParser := .symbols (s.toList.map fun c => [c]) .operator
/-- `just_symbol_parser`, `make_parser.rs` 79-84 with 53-63 -/
def sym (s : String) : TokenParser := .symbols [s.toList] .symbol

/-- `BuiltInRules::new`, `built_in_rules.rs` 40-74, and `make_rules`, 221-255. The parser of a
name-only rule is a placeholder. -/
def builtInRules (x : Xid) : Register (BuiltIn × List Rule) := fun m => do
  let (operator, m) ← withRuleName x "BuiltIn" "Operator" m
  let (whitespaces, m) ← withRuleName x "BuiltIn" "Whitespaces" m
  let (whitespace, m) ← withRuleName x "BuiltIn" "Whitespace" m
  let (sub, m) ← withRuleName x "BuiltIn" "Sub" m
  let (sup, m) ← withRuleName x "BuiltIn" "Sup" m
  let (missingOperator, m) ← withRuleName x "Error" "MissingOperator" m
  let (missingToken, m) ← withRuleName x "Error" "MissingToken" m
  let (unknownToken, m) ← withRuleName x "Error" "UnknownToken" m
  let (nothing, m) ← withRuleName x "BuiltIn" "Nothing" m
  let (fraction, m) ← withRuleName x "BuiltIn" "Fraction" m
  let (root, m) ← withRuleName x "BuiltIn" "Root" m
  let (table, m) ← withRuleName x "BuiltIn" "Table" m
  .ok ((⟨operator, whitespaces, whitespace, sub, sup, missingOperator, missingToken, unknownToken,
      nothing⟩,
    [⟨operator, .nameOnly, .variable⟩, ⟨whitespaces, .nameOnly, .variable⟩,
      ⟨whitespace, .nameOnly, .variable⟩, ⟨missingOperator, .nameOnly, .variable⟩,
      ⟨unknownToken, .nameOnly, .variable⟩, ⟨missingToken, .nameOnly, .variable⟩,
      ⟨nothing, .nameOnly, .variable⟩,
      ⟨fraction, .atom, .container .fraction⟩,
      ⟨root, .atom, .container .root⟩,
      ⟨sup, .postfix 1000, .container .sup⟩,
      ⟨sub, .postfix 1000, .container .sub⟩,
      ⟨table, .atom, .container .table⟩]), m)

/-- `core_rules.rs` 60-94 -/
def coreRules (b : BuiltIn) : List RuleDecl :=
  [(.atom, "Variable", .variable),
    (.atom, "RoundBrackets", .brackets b.operator ['('] [')']),
    (.atom, "RoundBrackets", .emptyBrackets b.operator ['('] [')'])]

/-- `arithmetic_rules.rs` 48-114 -/
def arithmeticRules : List RuleDecl :=
  [(.atom, "Number", .number),
    (.leftInfix 100, "Add", op "+"),
    (.leftInfix 100, "Subtract", op "-"),
    (.prefix 400, "Add", op "+"),
    (.prefix 400, "Subtract", op "-"),
    (.leftInfix 200, "Multiply", op "*"),
    (.leftInfix 200, "Divide", op "/"),
    (.postfix 850, "Exponent", op "^"),
    (.postfix 600, "Factorial", op "!")]

/-- `calculus_rules.rs` 45-77 -/
def calculusRules : List RuleDecl :=
  [(.atom, "Infinity", sym "∞"),
    (.prefix 100, "Lim", ops "lim"),
    (.prefix 100, "LimSup", ops "limsup"),
    (.prefix 100, "LimInf", ops "liminf"),
    (.prefix 100, "Sum", op "∑"),
    (.prefix 100, "Integral", op "∫")]

/-- `collections_rules.rs` 44-50 -/
def collectionsRules : List RuleDecl := [(.leftInfix 50, "Tuple", op ",")]

/-- `comparison_rules.rs` 46-74 -/
def comparisonRules : List RuleDecl :=
  [(.leftInfix 40, "Equals", op "="),
    (.leftInfix 50, "GreaterThan", op ">"),
    (.leftInfix 50, "LessThan", op "<"),
    (.leftInfix 50, "GreaterThanOrEquals", op "≥"),
    (.leftInfix 50, "LessThanOrEquals", op "≤")]

/-- `function_rules.rs` 44-57 -/
def functionRules (b : BuiltIn) : List RuleDecl :=
  [(.postfix 800, "FunctionApplication", .brackets b.operator ['('] [')']),
    (.postfix 800, "FunctionApplication", .emptyBrackets b.operator ['('] [')'])]

/-- `logic_rules.rs` 42-78 -/
def logicRules : List RuleDecl :=
  [(.atom, "True", sym "⊤"),
    (.atom, "False", sym "⊥"),
    (.leftInfix 100, "And", op "∧"),
    (.leftInfix 100, "Or", op "∨"),
    (.leftInfix 100, "Not", op "¬"),
    (.leftInfix 100, "Equivalent", op "⇔"),
    (.leftInfix 100, "Implies", op "⟹")]

/-- `string_rules.rs` 45-78 -/
def stringRules : List RuleDecl := [(.atom, "String", .string)]

/-- The other modules in the order in which they are added. -/
def otherModules (b : BuiltIn) : List (String × List RuleDecl) :=
  [("Core", coreRules b), ("Arithmetic", arithmeticRules), ("Calculus", calculusRules),
    ("Collections", collectionsRules), ("Comparison", comparisonRules),
    ("Function", functionRules b), ("Logic", logicRules), ("String", stringRules)]

/-- Creating the modules one after the other, `parser_test.rs` 18-25. -/
def declareModules (x : Xid) : List (String × List RuleDecl) → Register (List (List Rule))
  | [], m => .ok ([], m)
  | (ns, ds) :: rest, m => do
    let (rs, m) ← declareRules x ns ds m
    let (rss, m) ← declareModules x rest m
    .ok (rs :: rss, m)

/-- `create_parser`, `parser_test.rs` 15-42 -/
def createParser (x : Xid) : M (Grammar × NameMap) := do
  let ((b, builtIn), m) ← builtInRules x NameMap.empty
  let (rest, m) ← declareModules x (otherModules b) m
  .ok (⟨b, builtIn :: rest, x.start, x.continue_⟩, m)

end Aftermath
