import Verif.Model.Syntax

/-! # What a correct syntax tree of a row is

Independent of how the parser works. -/

namespace Aftermath

mutual
/-- `t` is laid out correctly over `row`:
* a leaf covers at least one node of the row,
* a node that opens new rows covers exactly one node of the row, which is a container; it has
  one tree for each cell of the container, in order; each of those has the range
  `0..length of the cell` and is laid out correctly over that cell,
* the children of any other node follow each other without gap or overlap, from the start of
  the node to its end; a node without children has an empty range,
* no range reaches beyond the row. -/
def Shaped (row : Row) : SNode → Prop
  | .leaf _ lo hi _ _ => lo < hi ∧ hi ≤ row.length
  | .newRows _ lo hi ts w =>
    hi = lo + 1 ∧ ∃ v cells, row[lo]? = some (.container v cells w) ∧ ShapedCells cells ts
  | .children _ lo hi cs => ShapedChildren row lo hi cs
/-- see `Shaped` -/
def ShapedCells : List Row → List SNode → Prop
  | [], [] => True
  | r :: rs, t :: ts => t.lo = 0 ∧ t.hi = r.length ∧ Shaped r t ∧ ShapedCells rs ts
  | _, _ => False
/-- The trees follow each other from `lo` to `hi`. -/
def ShapedChildren (row : Row) (lo hi : Nat) : List SNode → Prop
  | [] => lo = hi ∧ hi ≤ row.length
  | c :: cs => c.lo = lo ∧ Shaped row c ∧ ShapedChildren row c.hi hi cs
end

/-- The text of a formula: characters, with brackets around grids and a separator after each
cell. The kind of a container is not part of the text; the number of columns is. -/
inductive Piece
  | char (c : Char)
  | gridOpen (width : Nat)
  | cellEnd
  | gridClose
  deriving DecidableEq, Repr

mutual
/-- The text of a node of a formula. -/
def Node.text : Node → List Piece
  | .symbol s => s.map .char
  | .container _ cells w => .gridOpen w :: cellsText cells
/-- The text of a row. -/
def rowText : List Node → List Piece
  | [] => []
  | n :: ns => n.text ++ rowText ns
/-- The text of the cells of a grid. -/
def cellsText : List (List Node) → List Piece
  | [] => [.gridClose]
  | r :: rs => rowText r ++ .cellEnd :: cellsText rs
end

mutual
/-- Reading the leaves of a syntax tree from left to right. -/
def SNode.text : SNode → List Piece
  | .leaf _ _ _ _ symbols => symbols.flatten.map .char
  | .newRows _ _ _ ts w => .gridOpen w :: treeCellsText ts
  | .children _ _ _ cs => treesText cs
/-- Reading trees one after the other. -/
def treesText : List SNode → List Piece
  | [] => []
  | c :: cs => c.text ++ treesText cs
/-- Reading the trees of the cells of a grid. -/
def treeCellsText : List SNode → List Piece
  | [] => [.gridClose]
  | t :: ts => t.text ++ .cellEnd :: treeCellsText ts
end

end Aftermath
