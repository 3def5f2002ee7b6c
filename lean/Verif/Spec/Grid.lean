import Verif.Model.Grid

/-! # Specification of grids by 2D coordinates -/

namespace Aftermath

/-- The cell in column `x` and row `y`, row-major. -/
def gridCell {α : Type} (g : GridVec α) (x y : Nat) : Option α :=
  if x < g.width then g.values[y * g.width + x]? else none

/-- A grid of `w` columns and `h` rows, all cells present. -/
def GridSize {α : Type} (g : GridVec α) (w h : Nat) : Prop :=
  g.width = w ∧ 0 < w ∧ g.values.length = h * w

end Aftermath
