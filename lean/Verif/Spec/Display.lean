import Verif.Model.Display
import Verif.Spec.Syntax

/-! # Which values can be printed, and what the printed form of a syntax tree keeps -/

namespace Aftermath

mutual
/-- All grid widths are positive. -/
def Node.widthsPos : Node → Prop
  | .symbol _ => True
  | .container _ cells w => 0 < w ∧ cellsWidthsPos cells
/-- see `Node.widthsPos` -/
def rowWidthsPos : List Node → Prop
  | [] => True
  | n :: ns => n.widthsPos ∧ rowWidthsPos ns
/-- see `Node.widthsPos` -/
def cellsWidthsPos : List (List Node) → Prop
  | [] => True
  | r :: rs => rowWidthsPos r ∧ cellsWidthsPos rs
end

mutual
/-- The same tree up to ranges, leaf types and the division of a leaf into symbols. -/
def SameTree : SNode → SNode → Prop
  | .leaf n _ _ _ ss, .leaf n' _ _ _ ss' => n = n' ∧ ss.flatten = ss'.flatten
  | .newRows n _ _ ts w, .newRows n' _ _ ts' w' => n = n' ∧ w = w' ∧ SameTrees ts ts'
  | .children n _ _ cs, .children n' _ _ cs' => n = n' ∧ SameTrees cs cs'
  | _, _ => False
/-- see `SameTree` -/
def SameTrees : List SNode → List SNode → Prop
  | [], [] => True
  | t :: ts, t' :: ts' => SameTree t t' ∧ SameTrees ts ts'
  | _, _ => False
end

mutual
/-- Every grid in the tree has a cell, and every name is in the map. -/
def Printable (m : NameMap) : SNode → Prop
  | .leaf n _ _ _ _ => m.getReverse n ≠ none
  | .newRows n _ _ ts _ => m.getReverse n ≠ none ∧ ts ≠ [] ∧ PrintableAll m ts
  | .children n _ _ cs => m.getReverse n ≠ none ∧ PrintableAll m cs
/-- see `Printable` -/
def PrintableAll (m : NameMap) : List SNode → Prop
  | [] => True
  | t :: ts => Printable m t ∧ PrintableAll m ts
end

/-- The names in the map are non-empty sequences of texts without the characters that separate
names, and no name belongs to two ids. -/
structure NameMap.Clear (m : NameMap) : Prop where
  parts : ∀ id p, m.getReverse id = some p →
    p ≠ [] ∧ ∀ s ∈ p, ∀ c ∈ s, c ≠ ':' ∧ c ≠ ' ' ∧ c ≠ ')'
  unique : ∀ id id' p, m.getReverse id = some p → m.getReverse id' = some p → id = id'

/-- The names that a rule set gives to nodes: the built-in ones, those of the rules that are more
than a name, and those of the brackets. -/
def Grammar.nodeNames (g : Grammar) : List Nat :=
  [g.builtIn.operator, g.builtIn.whitespaces, g.builtIn.whitespace, g.builtIn.sub, g.builtIn.sup,
    g.builtIn.missingOperator, g.builtIn.missingToken, g.builtIn.unknownToken] ++
  g.modules.flatten.flatMap fun r => match r.kind, r.parser with
    | .nameOnly, _ => []
    | _, .brackets n _ _ => [r.name, n]
    | _, .emptyBrackets n _ _ => [r.name, n]
    | _, _ => [r.name]

end Aftermath
