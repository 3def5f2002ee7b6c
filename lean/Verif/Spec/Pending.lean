import Verif.Props.Autocorrect
import Verif.Spec.Calm

/-! # The editor without autocorrection -/

namespace Aftermath

variable {T : Type}

/-- The same setting without autocomplete rules, so that nothing is ever replaced. -/
def Env.plain (env : Env T) : Env T := { env with rules := [] }

/-- The editor without the suggestion it remembers. -/
def Editor.forget (ed : Editor T) : Editor T := { ed with currentAutocomplete := none }

/-- The result of a call, without the suggestion that is remembered. -/
def outcome (x : M (Editor T)) : M (Editor T) := x.map Editor.forget

/-- A selection that does not leave the token of `k` nodes that ends at offset `o` of row `q`: it
starts in the token, or it is a selection of cells of a table. -/
def Stays (q : RowIndices) (o k : Nat) : MinSelection → Prop
  | .row rng => ¬ OutsideToken q o k ⟨rng.rowIndices, rng.start⟩
  | .grid _ => True

/-- The caret is inside of an element of the outermost row. -/
def CaretInElement (m : MinCaret) : Prop := m.start.rowIndices ≠ [] ∨ m.stop.rowIndices ≠ []

/-- The calls that may replace a completed token. -/
def Op.Corrects : Op → Prop
  | .moveCaret _ _ | .selectWithCaret _ _ | .removeAtCaret _ | .insertAtCaret _
  | .startSelection _ _ | .extendSelection _ | .paste _ _ => True
  | _ => False

/-- The calls that have nothing to do with autocompletion. -/
def Op.Unrelated : Op → Prop
  | .selectAll | .undo | .redo | .finishSelection | .getSyntaxTree | .spliceAtRange _ _
  | .finishAutocomplete false => True
  | _ => False

/-- The positions that the caller passes are valid. -/
def Op.GoodPositions (root : Row) : Op → Prop
  | .startSelection p _ | .extendSelection p => ValidPos root p
  | _ => True

/-- Where a call panics because of the token of `k` symbols that ends at offset `o` of row `q`,
when without rules it goes from `ed` to `ed0`. Either only the caret moves, out of the token, and
the token starts further to the right than it is long, or it is replaced in the outermost row while
the caret moves into an element. Or the element around the token, in the outermost row, is
dissolved. -/
def LeavePanics (ed ed0 : Editor T) (q : RowIndices) (o k : Nat) : Prop :=
  (ed0.undo = ed.undo ∧ ∃ sel, selectionOf ed.input ed0.caret = .ok sel ∧ ¬ Stays q o k sel ∧
    (k < o - k ∨ o - k = k ∧ q = [] ∧ CaretInElement ed0.caret)) ∨
  (ed0.undo ≠ ed.undo ∧ ed0.caret.start.rowIndices = [] ∧ q ≠ [])

/-- The element at index `i`, with the token in its cell `j`, is dissolved, and the row it is in
lies itself in an element, with another index than `i`. The token is then looked for in a place
that has nothing to do with it. -/
def LosesToken (ed ed0 : Editor T) (q : RowIndices) : Prop :=
  ed0.undo ≠ ed.undo ∧ ∃ p0 a b i j, ed0.caret.start.rowIndices = p0 ++ [(a, b)] ∧
    q = p0 ++ [(a, b)] ++ [(i, j)] ∧ a ≠ i

end Aftermath
