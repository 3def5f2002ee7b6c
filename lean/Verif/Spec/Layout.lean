import Verif.Model.Layout
import Verif.Spec.Render

/-! # Vocabulary for places on the screen

Nothing here uses the functions of the model, only its data types. -/

namespace Aftermath

/-- The element at a path of child indices. -/
def RElem.at : RElem → List Nat → Option RElem
  | e, [] => some e
  | .mk _ _ _ cs, i :: p =>
    match cs[i]? with
    | some c => c.at p
    | none => none

/-- The rows that are entered on a path of child indices. -/
def RElem.rowPath : RElem → List Nat → RowIndices
  | _, [] => []
  | .mk _ _ _ cs, i :: p =>
    match cs[i]? with
    | some c => c.rowIndex.toList ++ c.rowPath p
    | none => []

/-- The node is a subscript or superscript together with its base. -/
def SNode.IsScript (b : BuiltIn) : SNode → Prop
  | .children n _ _ _ => n = b.sub ∨ n = b.sup
  | _ => False

mutual
/-- Somewhere in the tree a whole cell is just a base with a subscript or superscript. -/
def ScriptCell (b : BuiltIn) : SNode → Prop
  | .leaf _ _ _ _ _ => False
  | .newRows _ _ _ ts _ => (∃ t ∈ ts, t.IsScript b) ∨ ScriptCellIn b ts
  | .children _ _ _ cs => ScriptCellIn b cs
/-- see `ScriptCell` -/
def ScriptCellIn (b : BuiltIn) : List SNode → Prop
  | [] => False
  | c :: cs => ScriptCell b c ∨ ScriptCellIn b cs
end

/-- Some cell of the formula contains a subscript or superscript. -/
def ScriptInCell (root : Row) : Prop :=
  ∃ ix p row n, rowAt root (ix :: p) = some row ∧ n ∈ row ∧ n.IsScript

/-- The places of the selection exist in the formula: the range of a row, or the first and the last cell
of a grid. -/
def MinSelection.Within (row : Row) : MinSelection → Prop
  | .row rng => ValidRange row rng
  | .grid g => (∃ r, rowAt row (g.rowIndices ++ [(g.index, g.range.start)]) = some r) ∧
      ∃ r, rowAt row (g.rowIndices ++ [(g.index, max (g.range.stop - 1) g.range.start)]) = some r

/-- The point lies in the rectangle or on its border. -/
structure Rect.Contains (r : Rect) (c : Coord) : Prop where
  left : r.x ≤ c.x
  right : c.x ≤ r.x + r.width
  top : r.y ≤ c.y
  bottom : c.y ≤ r.y + r.height

end Aftermath
