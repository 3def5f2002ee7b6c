import Verif.Spec.Notation
import Verif.Spec.Render

/-! # Vocabulary for the effort of parsing -/

namespace Aftermath

/-- Somewhere in the formula an infix operator has a script, perhaps behind spaces. -/
def OperatorScript (root : Row) : Prop :=
  ∃ p row i k n, ∃ o : BinOp, rowAt root p = some row ∧ row[i]? = some (.symbol [o.char]) ∧
    (∀ j < k, row[i + 1 + j]? = some (.symbol [' '])) ∧ row[i + 1 + k]? = some n ∧ n.IsScript

/-- There is no opening bracket anywhere in the formula. -/
def BracketFree (root : Row) : Prop :=
  ∀ p row (i : Nat), rowAt root p = some row → row[i]? ≠ some (Node.symbol ['('])

/-- A formula whose operator has a script, which is a formula of the same kind, and so on:
`-a+b` with `-a+b` below the plus sign, with `-a+b` below that plus sign, … -/
def scriptTower : Nat → Row
  | 0 => [sy 'a']
  | n + 1 => [sy '-', sy 'a', sy '+', .container .sub [scriptTower n] 1, sy 'b']

/-- A point before brackets, in which there is a point before brackets, and so on: `.(.(.(.)))`. No
rule can read a point that stands alone. -/
def pointTower : Nat → Row
  | 0 => [sy '.']
  | n + 1 => sy '.' :: sy '(' :: (pointTower n ++ [sy ')'])

end Aftermath
