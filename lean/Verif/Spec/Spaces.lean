import Verif.Spec.Notation

/-! # Where a space can be put without a change of the meaning -/

namespace Aftermath

/-- Outside of strings, inside of a string, and inside of a string behind a backslash. -/
inductive Quote
  | out | inside | escaped
  deriving DecidableEq, Repr

/-- What a node does. -/
def Quote.next (s : Quote) (n : Node) : Quote :=
  match s with
  | .out => if n = sy '"' then .inside else .out
  | .inside => if n = sy '"' then .out else if n = sy '\\' then .escaped else .inside
  | .escaped => .inside

/-- Whether the end of the row is in a string. -/
def quoteAfter (row : Row) : Quote := row.foldl Quote.next .out

/-- The node is a character of names or of numbers. -/
def IsWordNode (x : Xid) (n : Node) : Prop :=
  ∃ c, n = sy c ∧ (x.start c = true ∨ x.continue_ c = true ∨ c.isDigit = true ∨ c = '.')

/-- The place between the two parts of a row is not in a string, not between two characters of names or
of numbers, and not in empty brackets. -/
structure Neutral (x : Xid) (p q : Row) : Prop where
  quote : quoteAfter p = .out
  word : ∀ a b, p.getLast? = some a → q.head? = some b → ¬ (IsWordNode x a ∧ IsWordNode x b)
  brackets : ¬ (p.getLast? = some (sy '(') ∧ q.head? = some (sy ')'))

/-- The second row has one space more at such a place, in the row itself or in a cell. -/
inductive AddSpace (x : Xid) : Row → Row → Prop
  | here {p q} : Neutral x p q → AddSpace x (p ++ q) (p ++ sy ' ' :: q)
  | cell {p q v cells w r r'} {i : Nat} : cells[i]? = some r → AddSpace x r r' →
      AddSpace x (p ++ .container v cells w :: q) (p ++ .container v (cells.set i r') w :: q)

/-- Spaces are added and taken away. -/
inductive SpacesApart (x : Xid) : Row → Row → Prop
  | refl (row) : SpacesApart x row row
  | add {a b c} : SpacesApart x a b → AddSpace x b c → SpacesApart x a c
  | remove {a b c} : SpacesApart x a b → AddSpace x c b → SpacesApart x a c

end Aftermath
