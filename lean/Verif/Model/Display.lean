import Verif.Model.Parser
import Verif.Model.Names
import Verif.Model.Json

/-! # Printing: `input_tree/src/print_helpers.rs`, the `Display` impls of `row.rs`, `node.rs`,
`grid.rs` and `parser/src/syntax_tree/display_syntax_tree.rs`

A formatter is modelled by the text written to it; writing to a string does not fail. Integers
are printed as in `Model/Json.lean` (`natDigits`). -/

namespace Aftermath

/-- One round of `write_with_escaped_double_quotes`, `print_helpers.rs` 4-10 -/
def escapeQuotes (c : Char) : Str :=
  if c = '"' then ['\\', '"'] else if c = '\\' then ['\\', '\\'] else [c]

/-- `write_with_escaped_double_quotes`, `print_helpers.rs` 3-12 -/
def printEscaped (s : Str) : Str := s.flatMap escapeQuotes

/-- `write_with_separator`, `print_helpers.rs` 14-27, of values that are already printed -/
def printSeparated (sep : Str) : List Str → Str
  | [] => []
  | v :: vs => v ++ vs.flatMap fun v => sep ++ v

/-- `Display` of `InputNodeVariant`, `node.rs` 163-173 -/
def Variant.display : Variant → Str
  | .fraction => "frac".toList
  | .root => "root".toList
  | .sup => "sup".toList
  | .sub => "sub".toList
  | .table => "table".toList

/-- `write!(f, "{}x{}", width, height)`, `grid.rs` 92 with `size` (41-43): the
height is a division by the width. -/
def printSize (n w : Nat) : M Str :=
  if w = 0 then .error .divByZero
  else .ok (natDigits w ++ 'x' :: natDigits (n / w))

mutual
/-- `Display` of `InputNode`, `node.rs` 135-149, and of `GridVec`, `grid.rs` 90-98 -/
def Node.display : Node → M Str
  | .symbol s => .ok ('"' :: (printEscaped s ++ ['"']))
  | .container v cells w => do
    let size ← printSize cells.length w
    let rows ← cellsDisplay cells
    .ok ('(' :: (v.display ++ ' ' :: (size ++ rows ++ [')'])))
/-- the loop in `row.rs` 220-222 -/
def nodesDisplay : List Node → M Str
  | [] => .ok []
  | n :: ns => do
    let a ← n.display
    let b ← nodesDisplay ns
    .ok (' ' :: (a ++ b))
/-- the loop in `grid.rs` 93-95, over `Display` of `InputRow`, `row.rs` 217-225 -/
def cellsDisplay : List (List Node) → M Str
  | [] => .ok []
  | r :: rs => do
    let a ← nodesDisplay r
    let b ← cellsDisplay rs
    .ok (' ' :: ("(row".toList ++ a ++ ')' :: b))
end

/-- `Display` of `InputRow`, `row.rs` 217-225 -/
def rowDisplay (row : Row) : M Str := do
  let a ← nodesDisplay row
  .ok ("(row".toList ++ a ++ [')'])

/-- `Display` of `PathIdentifier`, `node_identifier.rs` 40-44 -/
def PathId.display (p : PathId) : Str := printSeparated "::".toList p

/-- The name at `display_syntax_tree.rs` 30-34; the derived `Debug` of a `SyntaxNodeNameId` is
`SyntaxNodeNameId(n)`. -/
def displayName (m : NameMap) (name : Nat) : Str :=
  match m.getReverse name with
  | some p => p.display
  | none => "<unknown SyntaxNodeNameId(".toList ++ natDigits name ++ ")>".toList

mutual
/-- `Display` of `SyntaxNodeWithDisplay`, `display_syntax_tree.rs` 26-66, and of
`SyntaxLeafNode`, 68-76. `children.is_empty()` (`syntax_node.rs` 64-72) is true for a grid without
cells and for no children, false for a leaf. -/
def SNode.display (m : NameMap) : SNode → M Str
  | .newRows name _ _ cells w => do
    if cells.isEmpty then .ok ('(' :: (displayName m name ++ [')']))
    else do
      let size ← printSize cells.length w
      let cs ← treesDisplay m cells
      .ok ('(' :: (displayName m name ++ ' ' :: (size ++ cs ++ [')'])))
  | .children name _ _ cs => do
    let cs ← treesDisplay m cs
    .ok ('(' :: (displayName m name ++ cs ++ [')']))
  | .leaf name _ _ _ symbols =>
    .ok ('(' :: (displayName m name ++ ' ' :: '"' :: (symbols.flatMap printEscaped ++
      ['"', ')'])))
/-- Every tree with a space before it. With children this is `write_with_separator` after the
`write!(f, " ")` at line 38. -/
def treesDisplay (m : NameMap) : List SNode → M Str
  | [] => .ok []
  | t :: ts => do
    let a ← t.display m
    let b ← treesDisplay m ts
    .ok (' ' :: (a ++ b))
end

end Aftermath
