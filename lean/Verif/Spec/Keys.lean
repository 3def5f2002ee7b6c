import Verif.Spec.Edit
import Verif.Spec.Move

/-! # Specification of deleting and typing -/

namespace Aftermath

/-- The removal mode of Backspace and Delete. -/
def HDir.toMode : HDir → RemoveMode
  | .left => .left
  | .right => .right

/-- The selection shown for a caret, what `MathEditor::get_caret` (`math_editor.rs` 350-353)
returns. C12 says which selection it is. -/
def selectionOf (root : Row) (m : MinCaret) : M MinSelection := do
  let c ← Caret.fromMinimal root m
  .ok c.selection.toMinimal

/-- Backspace, Delete or removal of the selection, seen from outside: what
`MathEditor::remove_at_caret` (`math_editor.rs` 107-134) does to formula and caret, without
autocorrect and history. -/
def deleteKey (cfg : Cfg) (mode : RemoveMode) (st : Row × MinCaret) : M (Row × MinCaret) := do
  let c ← Caret.fromMinimal st.1 st.2
  match c.selection with
  | .grid _ => .error .todo
  | .row r =>
    match ← removeAtCaret cfg r mode with
    | none => .ok st
    | some (edits, p) => do
      let root' ← applyEdits cfg st.1 edits
      .ok (root', .at p)

/-- Inserting nodes, seen from outside: what `MathEditor::insert_nodes_at_caret`
(`math_editor.rs` 146-170) does to formula and caret. -/
def insertKey (cfg : Cfg) (values : List Node) (st : Row × MinCaret) : M (Row × MinCaret) := do
  let c ← Caret.fromMinimal st.1 st.2
  match c.selection with
  | .grid _ => .error .todo
  | .row r => do
    let (edits, p) ← insertAtRange r values
    let root' ← applyEdits cfg st.1 edits
    .ok (root', .at p)

/-- Typing symbols. -/
def typeKey (cfg : Cfg) (values : List Str) (st : Row × MinCaret) : M (Row × MinCaret) :=
  insertKey cfg (values.map Node.symbol) st

/-- `n` times the same deletion. -/
def deleteKeyN (cfg : Cfg) (mode : RemoveMode) : Nat → Row × MinCaret → M (Row × MinCaret)
  | 0, st => .ok st
  | n + 1, st => do
    let st ← deleteKey cfg mode st
    deleteKeyN cfg mode n st

/-- The caret is at the very start (Backspace) or end (Delete) of the root row. -/
def AtRootEdge (root : Row) (dir : HDir) (m : MinPos) : Prop :=
  m.rowIndices = [] ∧ m.offset = (match dir with | .left => 0 | .right => root.length)

/-- The caret is at the start of the first cell of a container which is not a script and has
some non-empty cell. -/
def AtFilledFirstCell (root : Row) (m : MinPos) : Prop :=
  ∃ p i row v cells w, m = ⟨p ++ [(i, 0)], 0⟩ ∧ rowAt root p = some row ∧
    row[i]? = some (.container v cells w) ∧ v ≠ .sub ∧ v ≠ .sup ∧ ∃ c ∈ cells, c ≠ []

/-- Where Backspace and Delete panic in a build with overflow checks. -/
def DeletePanics (root : Row) (dir : HDir) (m : MinPos) : Prop :=
  AtRootEdge root dir m ∨ (dir = .left ∧ AtFilledFirstCell root m)

/-- The row `row` at path `p` with the container at index `i` dissolved into its cells. -/
def Dissolved (root : Row) (p : RowIndices) (i : Nat) (cells : List Row) (root' : Row) : Prop :=
  ∃ row v w, rowAt root p = some row ∧ row[i]? = some (.container v cells w) ∧
    ReplacedAt root p row (row.take i ++ cells.flatten ++ row.drop (i + 1)) root'

/-- The symbol at index `i` of the row `p` is removed, nothing else. -/
def SymbolRemoved (root : Row) (p : RowIndices) (i : Nat) (root' : Row) : Prop :=
  ∃ row s, rowAt root p = some row ∧ row[i]? = some (.symbol s) ∧
    ReplacedAt root p row (row.take i ++ row.drop (i + 1)) root'

end Aftermath
