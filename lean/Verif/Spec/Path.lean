import Verif.Model.Caret

/-! # Specification vocabulary: rows of a tree, valid positions, reading order

Nothing here uses the functions of the model, only its data types. -/

namespace Aftermath

/-- The row of the tree at a path, if the path exists. -/
def rowAt : Row → RowIndices → Option Row
  | r, [] => some r
  | r, (i, j) :: p =>
    match r[i]? with
    | some (.container _ cells _) =>
      match cells[j]? with
      | some c => rowAt c p
      | none => none
    | _ => none

/-- The path leads to a row of the tree. -/
def ValidPath (root : Row) (p : RowIndices) : Prop := (rowAt root p).isSome

/-- The position exists in the tree. -/
def ValidPos (root : Row) (p : MinPos) : Prop :=
  ∃ r, rowAt root p.rowIndices = some r ∧ p.offset ≤ r.length

/-- Both ends of the range exist in the tree. -/
def ValidRange (root : Row) (r : MinRange) : Prop :=
  ∃ row, rowAt root r.rowIndices = some row ∧ r.start ≤ row.length ∧ r.stop ≤ row.length

/-- Both ends of the caret exist in the tree. -/
def ValidCaret (root : Row) (c : MinCaret) : Prop := ValidPos root c.start ∧ ValidPos root c.stop

/-- Put one more path entry in front of a position. -/
def MinPos.under (ix : RowIndex) (p : MinPos) : MinPos := ⟨ix :: p.rowIndices, p.offset⟩

mutual
/-- All caret positions of a row in reading order; `i` is the index of the first node of the
(rest of the) row: the offset before a node, the positions inside it, and so on. -/
def rowPositions (i : Nat) : List Node → List MinPos
  | [] => [⟨[], i⟩]
  | n :: ns => ⟨[], i⟩ :: (nodePositions i n ++ rowPositions (i + 1) ns)
/-- All caret positions inside the node at index `i`. -/
def nodePositions (i : Nat) : Node → List MinPos
  | .symbol _ => []
  | .container _ cells _ => cellsPositions i 0 cells
/-- All caret positions inside the cells `j`, `j+1`, ... of the node at index `i`. -/
def cellsPositions (i j : Nat) : List (List Node) → List MinPos
  | [] => []
  | c :: cs => (rowPositions 0 c).map (MinPos.under (i, j)) ++ cellsPositions i (j + 1) cs
end

/-- All caret positions of a tree in reading order. -/
def positions (root : Row) : List MinPos := rowPositions 0 root

mutual
/-- The symbols of a node in reading order. -/
def Node.symbols : Node → List Str
  | .symbol s => [s]
  | .container _ cells _ => cellsSymbols cells
/-- The symbols of a row in reading order. -/
def rowSymbols : List Node → List Str
  | [] => []
  | n :: ns => n.symbols ++ rowSymbols ns
/-- The symbols of a list of cells in reading order. -/
def cellsSymbols : List (List Node) → List Str
  | [] => []
  | r :: rs => rowSymbols r ++ cellsSymbols rs
end

end Aftermath
