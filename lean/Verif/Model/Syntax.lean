import Verif.Model.Tree

/-! # Syntax trees: `parser/src/syntax_tree/syntax_node.rs`, `syntax_node_builder.rs` and the
node makers of `rule_collections/built_in_rules.rs` -/

namespace Aftermath

/-- `syntax_node.rs` 101-107 -/
inductive LeafType
  | symbol
  | operator
  deriving DecidableEq, Repr

/-- `syntax_node.rs` 25-36 together with 56-62 and 81-87. Simplification of form only: the
three variants of `SyntaxNodeChildren` are constructors of the node, so that the node needs no
mutual recursion. The range `lo..hi` is stored in the node. The field `value` is left out: no
parser of the workspace calls `set_value`, it is always empty. Names are the numbers inside of
`SyntaxNodeNameId` (`node_type_id.rs` 13). -/
inductive SNode
  | newRows (name lo hi : Nat) (cells : List SNode) (width : Nat)
  | children (name lo hi : Nat) (cs : List SNode)
  | leaf (name lo hi : Nat) (ty : LeafType) (symbols : List Str)

/-- `syntax_node.rs` 56-62, as an argument of `SyntaxNode::new` and as the content of a
`SyntaxNodeBuilder` (`syntax_node_builder.rs` 5-11, with the empty `value`). -/
inductive SChildren
  | newRows (cells : List SNode) (width : Nat)
  | children (cs : List SNode)
  | leaf (ty : LeafType) (symbols : List Str)

namespace SNode

/-- `syntax_node.rs` 27 -/
def name : SNode → Nat
  | newRows n _ _ _ _ => n
  | children n _ _ _ => n
  | leaf n _ _ _ _ => n

/-- start of `SyntaxNode::range`, `syntax_node.rs` 145-147 -/
def lo : SNode → Nat
  | newRows _ a _ _ _ => a
  | children _ a _ _ => a
  | leaf _ a _ _ _ => a

/-- end of `SyntaxNode::range`, `syntax_node.rs` 145-147 -/
def hi : SNode → Nat
  | newRows _ _ b _ _ => b
  | children _ _ b _ => b
  | leaf _ _ b _ _ => b

/-- The struct literal at `syntax_node.rs` 114-119. -/
def make (name lo hi : Nat) : SChildren → SNode
  | .newRows cells w => newRows name lo hi cells w
  | .children cs => children name lo hi cs
  | .leaf ty syms => leaf name lo hi ty syms

/-- The loop at `syntax_node.rs` 134-138: every child has to start where the one before it
ended; returns the end of the last one. -/
def contiguousFrom (stop : Nat) : List SNode → M Nat
  | [] => .ok stop
  | c :: cs => do
    massert (stop == c.lo)
    contiguousFrom c.hi cs

/-- `SyntaxNode::get_combined_range`, `syntax_node.rs` 123-143 -/
def combinedRange : SChildren → M (Option (Nat × Nat))
  | .children (c :: cs) => do
    let stop ← contiguousFrom c.hi cs
    .ok (some (c.lo, stop))
  | _ => .ok none

/-- `SyntaxNode::new`, `syntax_node.rs` 110-120 (and `SyntaxNodeBuilder::build`,
`syntax_node_builder.rs` 32-36) -/
def new (name lo hi : Nat) (c : SChildren) : M SNode := do
  match ← combinedRange c with
  | some (s, e) => massert (decide (lo ≤ s) && decide (e ≤ hi))
  | none => .ok ()
  .ok (make name lo hi c)

end SNode

/-- The names kept by `BuiltInRules`, `built_in_rules.rs` 17-37, as far as they are used while
parsing. -/
structure BuiltIn where
  operator : Nat
  whitespaces : Nat
  whitespace : Nat
  sub : Nat
  sup : Nat
  missingOperator : Nat
  missingToken : Nat
  unknownToken : Nat
  nothing : Nat
  deriving DecidableEq, Repr

namespace BuiltIn

/-- `error_missing_token`, `built_in_rules.rs` 99-105 -/
def errorMissingToken (b : BuiltIn) (position : Nat) : M SNode :=
  SNode.new b.missingToken position position (.children [])

/-- `error_missing_operator`, `built_in_rules.rs` 107-119 -/
def errorMissingOperator (b : BuiltIn) (lo hi : Nat) (childA childB : SNode) : M SNode := do
  let missing ← b.errorMissingToken childA.hi
  SNode.new b.missingOperator lo hi (.children [childA, missing, childB])

/-- `error_unknown_token`, `built_in_rules.rs` 121-136, called with exactly one value
(`math_parser.rs` 262-265). A container panics. -/
def errorUnknownToken (b : BuiltIn) (lo hi : Nat) : Node → M SNode
  | .symbol s => SNode.new b.unknownToken lo hi (.leaf .symbol [s])
  | .container _ _ _ => .error .explicit

/-- `nothing_node`, `built_in_rules.rs` 138-140 and 174-180 -/
def nothingNode (b : BuiltIn) (position : Nat) : M SNode :=
  SNode.new b.nothing position position (.children [])

/-- `whitespace_node`, `built_in_rules.rs` 142-145 -/
def whitespaceNode (b : BuiltIn) (symbols : List Str) (lo hi : Nat) : M SNode :=
  SNode.new b.whitespace lo hi (.leaf .operator symbols)

/-- `whitespaces_node`, `built_in_rules.rs` 147-172 -/
def whitespacesNode (b : BuiltIn) (before : Option SNode) (node : SNode) (after : Option SNode)
    (lo hi : Nat) : M SNode :=
  match before, after with
  | some sb, some sa => SNode.new b.whitespaces lo hi (.children [sb, node, sa])
  | none, some sa => SNode.new b.whitespaces lo hi (.children [node, sa])
  | some sb, none => SNode.new b.whitespaces lo hi (.children [sb, node])
  | none, none => .ok node

end BuiltIn

end Aftermath
