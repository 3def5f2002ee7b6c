import Verif.Model.Parser

/-! # How deep the calls of the parser nest -/

namespace Aftermath

/-- `d` is the number of calls of `pratt_parse` that are nested in each other while the row is parsed:
with a bound of at least `d` the row is parsed, with a smaller bound it is not. -/
def ParseDepth (g : Grammar) (row : Row) (d : Nat) : Prop :=
  ∀ f, (∃ t, g.parseFuel f row = .ok t) ↔ d ≤ f

/-- A sum of `n + 1` infinities. -/
def sums : Nat → Row
  | 0 => [.symbol ['∞']]
  | n + 1 => .symbol ['∞'] :: .symbol ['+'] :: sums n

end Aftermath
