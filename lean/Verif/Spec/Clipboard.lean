import Verif.Spec.Path

/-! # Specification of clipboard contents: nesting and widths -/

namespace Aftermath

mutual
/-- How many containers are nested in the node. -/
def Node.nesting : Node → Nat
  | .symbol _ => 0
  | .container _ cells _ => cellsNesting cells + 1
/-- How many containers are nested in the row. -/
def nesting : List Node → Nat
  | [] => 0
  | n :: ns => max n.nesting (nesting ns)
/-- How many containers are nested in the cells. -/
def cellsNesting : List (List Node) → Nat
  | [] => 0
  | r :: rs => max (nesting r) (cellsNesting rs)
end

mutual
/-- All grid widths are `usize` values. Holds for every value that exists in memory. -/
def Node.widthsFit (bits : Nat) : Node → Prop
  | .symbol _ => True
  | .container _ cells w => w < 2 ^ bits ∧ cellsWidthsFit bits cells
/-- see `Node.widthsFit` -/
def widthsFit (bits : Nat) : List Node → Prop
  | [] => True
  | n :: ns => n.widthsFit bits ∧ widthsFit bits ns
/-- see `Node.widthsFit` -/
def cellsWidthsFit (bits : Nat) : List (List Node) → Prop
  | [] => True
  | r :: rs => widthsFit bits r ∧ cellsWidthsFit bits rs
end

end Aftermath
