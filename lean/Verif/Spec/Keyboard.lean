import Verif.Model.Handler
import Verif.Spec.Keys

/-! # What can be selected with which keys -/

namespace Aftermath

variable {T : Type}

/-- Nothing is selected: the caret is a single position. -/
def MinCaret.Collapsed (m : MinCaret) : Prop := m.start = m.stop

/-- The calls that put the end of the caret on another position than its start. -/
def Op.Selects : Op → Prop
  | .selectWithCaret _ _ | .selectAll | .extendSelection _ => True
  | _ => False

/-- Moving or releasing the pointer. -/
def Event.Drags : Event → Prop
  | .pointerUp _ | .pointerCancel _ | .pointerMove _ => True
  | _ => False

/-- The calls behind the arrow keys, with and without Shift, and behind "select all". -/
inductive Op.Arrow : Op → Prop
  | move (d : Dir) : Op.Arrow (.moveCaret d .char)
  | select (d : Dir) : Op.Arrow (.selectWithCaret d .char)
  | all : Op.Arrow .selectAll

/-- The calls behind typing, deleting and the arrow keys, with and without Shift. -/
def Op.Keyed : Op → Prop
  | .moveCaret _ _ | .selectWithCaret _ _ | .removeAtCaret _ | .insertAtCaret _ => True
  | _ => False

/-- The words of the rules do not occur in the formula: no symbols next to each other in a row give
one. -/
def Wordless (rules : List AutocompleteRule) (root : Row) : Prop :=
  ∀ p row before (syms : List Str) after rule, rowAt root p = some row →
    row = before ++ syms.map Node.symbol ++ after → rule ∈ rules → syms.flatten ≠ rule.parser

/-- All symbols of the formula are of one character. -/
def SingleSymbols (root : Row) : Prop :=
  ∀ p row s, rowAt root p = some row → Node.symbol s ∈ row → s.length = 1

end Aftermath
