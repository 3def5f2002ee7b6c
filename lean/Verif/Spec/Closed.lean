import Verif.Spec.Brackets
import Verif.Spec.Notation

/-! # Characters that have a meaning -/

namespace Aftermath

/-- A digit, a character of a name, or a character with a meaning of its own. -/
def KnownChar (x : Xid) (c : Char) : Prop :=
  c.isDigit = true ∨ x.start c = true ∨ x.continue_ c = true ∨ c ∈ reservedChars

/-- All symbols of the row that are not between quotes are known characters. -/
inductive Legible (x : Xid) : Row → Prop
  | nil : Legible x []
  | container {v : Variant} {cells : List Row} {w : Nat} {r : Row} : Legible x r →
      Legible x (.container v cells w :: r)
  | known {c : Char} {r : Row} : KnownChar x c → c ≠ '"' → Legible x r → Legible x (sy c :: r)
  | quotes {l : List Str} {r : Row} : InQuotes l → Legible x r →
      Legible x (sy '"' :: (l.map Node.symbol ++ sy '"' :: r))

end Aftermath
