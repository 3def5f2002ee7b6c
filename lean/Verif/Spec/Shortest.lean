import Verif.Spec.Notation

/-! # How long a row is, with everything in it -/

namespace Aftermath

mutual
/-- The number of symbols and containers in a node, with itself. -/
def Node.extent : Node → Nat
  | .symbol _ => 1
  | .container _ cells _ => 1 + cellsExtent cells
/-- The number of symbols and containers in a row and in all rows within it. -/
def rowExtent : List Node → Nat
  | [] => 0
  | n :: r => n.extent + rowExtent r
/-- The same for the cells of a container. -/
def cellsExtent : List (List Node) → Nat
  | [] => 0
  | c :: cs => rowExtent c + cellsExtent cs
end

/-- Every `lim` in the formula has a script. (Without one, the `lim` and letters behind it could be taken
for `limsup` or `liminf`.) -/
def Formula.LimitsMarked : Formula → Prop
  | .number _ | .variable _ | .constant _ | .string _ | .unit => True
  | .bin _ _ _ ss a b => (∀ i, (ss i).LimitsMarked) ∧ a.LimitsMarked ∧ b.LimitsMarked
  | .pre o n _ ss a => (o = .lim → 0 < n) ∧ (∀ i, (ss i).LimitsMarked) ∧ a.LimitsMarked
  | .script _ a b | .apply a b | .fraction a b | .root a b => a.LimitsMarked ∧ b.LimitsMarked
  | .post _ a | .call a => a.LimitsMarked
  | .table _ _ cells => ∀ i, (cells i).LimitsMarked

end Aftermath
