import Verif.Spec.Readable
import Verif.Spec.Brackets

/-! # The operator at which a formula is read

Which operators stand outside of brackets and quotes, and how tightly they bind. Nothing here uses the
parser. -/

namespace Aftermath

/-- Every infix operator outside of brackets and quotes binds more tightly than level `k`. The sign of
an operator is an infix operator if what is before it is a formula. -/
def Tighter (x : Xid) (k : Nat) (row : Row) : Prop :=
  ∀ (o : BinOp) (p q : Row), row = p ++ sy o.char :: q → Balanced 0 p → Readable x p → k < o.level

/-- Every infix operator and every prefix operator outside of brackets and quotes binds at least as
tightly as level `k`. -/
structure AsTight (x : Xid) (k : Nat) (row : Row) : Prop where
  bin : ∀ (o : BinOp) (p q : Row), row = p ++ sy o.char :: q → Balanced 0 p → Readable x p → k ≤ o.level
  pre : ∀ (o : PreOp) (p q : Row), row = p ++ (o.text.map sy ++ q) → Balanced 0 p → k ≤ o.level

end Aftermath
