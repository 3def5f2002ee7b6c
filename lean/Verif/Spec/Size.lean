import Verif.Model.Syntax

/-! # The size of a formula and of a syntax tree -/

namespace Aftermath

mutual
/-- The number of nodes of a syntax tree. -/
def SNode.size : SNode → Nat
  | .newRows _ _ _ ts _ => 1 + treesSize ts
  | .children _ _ _ cs => 1 + treesSize cs
  | .leaf _ _ _ _ _ => 1
/-- see `SNode.size` -/
def treesSize : List SNode → Nat
  | [] => 0
  | t :: ts => t.size + treesSize ts
end

mutual
/-- The number of symbols, containers and cells in a node, at all depths. -/
def Node.things : Node → Nat
  | .symbol _ => 1
  | .container _ cells _ => 1 + cells.length + cellsThings cells
/-- see `Node.things` -/
def rowThings : List Node → Nat
  | [] => 0
  | n :: ns => n.things + rowThings ns
/-- see `Node.things` -/
def cellsThings : List (List Node) → Nat
  | [] => 0
  | r :: rs => rowThings r + cellsThings rs
end

end Aftermath
