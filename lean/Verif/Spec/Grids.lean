import Verif.Model.Tree

/-! # Full grids -/

namespace Aftermath

mutual
/-- All grids of the node have a width, and all of their rows are full. -/
def Node.Grids : Node → Prop
  | .symbol _ => True
  | .container _ cells w => w ≠ 0 ∧ cells.length % w = 0 ∧ cellsGrids cells
/-- All grids of the row are full. -/
def rowGrids : List Node → Prop
  | [] => True
  | n :: ns => n.Grids ∧ rowGrids ns
/-- All grids in the cells are full. -/
def cellsGrids : List (List Node) → Prop
  | [] => True
  | r :: rs => rowGrids r ∧ cellsGrids rs
end

end Aftermath
