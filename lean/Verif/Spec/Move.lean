import Verif.Spec.Path

/-! # Specification of arrow keys -/

namespace Aftermath

/-- The collapsed caret on a position. -/
def MinCaret.at (p : MinPos) : MinCaret := ⟨p, p⟩

/-- Start of the first cell of some container. -/
def AtFirstCellStart (m : MinPos) : Prop := m.offset = 0 ∧ ∃ p i, m.rowIndices = p ++ [(i, 0)]

/-- One arrow key press in Char mode, seen from outside: rebuild the caret from its minimal
form, move it, and keep the minimal form. This is what `MathEditor::move_caret`
(`math_editor.rs` 78-90) does to the caret. -/
def press (cfg : Cfg) (root : Row) (d : Dir) (m : MinCaret) : M MinCaret := do
  let c ← Caret.fromMinimal root m
  let c ← moveCaret cfg root c d .char
  .ok c.toMinimal

/-- `n` presses of the same arrow key. -/
def pressN (cfg : Cfg) (root : Row) (d : Dir) : Nat → MinCaret → M MinCaret
  | 0, m => .ok m
  | n + 1, m => do
    let m ← press cfg root d m
    pressN cfg root d n m

end Aftermath
