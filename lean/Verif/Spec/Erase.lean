import Verif.Spec.Keys

/-! # How often Backspace or Delete has to be pressed to erase something

Specification of C101. A symbol goes with one press. Before a fraction or a root, Backspace walks
into the second cell, and once that is empty it puts the contents of the first cell into the row
around; Delete walks into the first cell and then does the same with the second. Backspace walks
into a subscript or a superscript, Delete takes it apart at once. In a table every cell is walked
through, and the empty table goes from its first (Backspace) or last (Delete) cell. -/

namespace Aftermath

/-- The presses for a container with `n` empty cells. -/
def Variant.presses (dir : HDir) (v : Variant) (n : Nat) : Nat :=
  match v, dir with
  | .sub, .right | .sup, .right => 1
  | .sub, .left | .sup, .left => 2
  | .fraction, _ | .root, _ => 2
  | .table, _ => n + 1

mutual

/-- The presses for one node. -/
def Node.presses (dir : HDir) : Node → Nat
  | .symbol _ => 1
  | .container v cells _ => v.presses dir cells.length + cellsPresses dir cells

/-- The presses for the nodes of a row. -/
def rowPresses (dir : HDir) : Row → Nat
  | [] => 0
  | n :: ns => n.presses dir + rowPresses dir ns

/-- The presses for what is in the cells. -/
def cellsPresses (dir : HDir) : List Row → Nat
  | [] => 0
  | c :: cs => rowPresses dir c + cellsPresses dir cs

end

/-- Where the caret is before `x`, which has `l` in front, is erased: behind it (Backspace) or in
front of it (Delete). -/
def eraseStart (dir : HDir) (l x : Row) : Nat :=
  match dir with
  | .left => l.length + x.length
  | .right => l.length

end Aftermath
