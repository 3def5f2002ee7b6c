import Verif.Model.Tree

/-! # Focus: `input_tree/src/focus.rs`, `focus/row_position.rs`, `focus/row_range.rs`
(without `apply_edit`), `focus/grid_range.rs` -/

namespace Aftermath

/-- `focus.rs` 22-28 and 121-125. The `Option<Box<InputFocusNode>>` of a row is folded into
the two constructors: `child row pnode pfocus pidx indices` is an `InputFocusRow` with
`parent = Some(InputFocusNode { node: pnode, parent: pfocus, index_in_parent: pidx })`. -/
inductive FocusRow
  | root (row : Row) (indices : RowIndices)
  | child (row : Row) (pnode : Node) (pfocus : FocusRow) (pidx : Nat) (indices : RowIndices)

/-- `focus.rs` 121-125 -/
structure FocusNode where
  node : Node
  parent : FocusRow
  indexInParent : Nat

namespace FocusRow

/-- `focus.rs` 85-87 -/
def row : FocusRow → Row
  | root r _ => r
  | child r _ _ _ _ => r

/-- `focus.rs` 97-99 -/
def rowIndices : FocusRow → RowIndices
  | root _ i => i
  | child _ _ _ _ i => i

/-- Assignment to the field `row_indices` (`focus.rs` 63, 152). -/
def setIndices : FocusRow → RowIndices → FocusRow
  | root r _, i => root r i
  | child r n f k _, i => child r n f k i

/-- `focus.rs` 43-45 -/
def fromRoot (r : Row) : FocusRow := root r []

/-- `focus.rs` 89-91 -/
def len (f : FocusRow) : Nat := f.row.length

/-- `focus.rs` 59-67: the parent gets the row indices back, with the last one popped
(`pop` on an empty vector does nothing, like `dropLast`). -/
def parent : FocusRow → Option FocusNode
  | root _ _ => none
  | child _ n f k i => some ⟨n, f.setIndices i.dropLast, k⟩

/-- `focus.rs` 69-74 -/
def childAt (f : FocusRow) (index : Nat) : Option FocusNode :=
  match f.row[index]? with
  | none => none
  | some n => some ⟨n, f, index⟩

/-- `focus.rs` 81-83 -/
def nodeAt (f : FocusRow) (index : Nat) : Option Node := f.row[index]?

/-- `focus.rs` 101-105; `len() - 1` is a `usize` subtraction. -/
def indexInParent (cfg : Cfg) (f : FocusRow) : M (Option Nat) := do
  let k ← usub cfg f.rowIndices.length 1
  .ok (f.rowIndices[k]?.map Prod.snd)

/-- Number of ancestors; only used to show that `move_vertical` terminates. -/
def depth : FocusRow → Nat
  | root _ _ => 0
  | child _ _ f _ _ => f.depth + 1

end FocusRow

namespace FocusNode

/-- `focus.rs` 146-160. `none` stands for `Err(self)`: the unchanged focus. -/
def childAt (f : FocusNode) (index : Nat) : M (Option FocusRow) :=
  match f.node with
  | .symbol _ => .ok none
  | .container v cells w => do
    match ← GridVec.getLinear ⟨cells, w⟩ index with
    | some row =>
      .ok (some (.child row (.container v cells w) (f.parent.setIndices []) f.indexInParent
        (f.parent.rowIndices ++ [(f.indexInParent, index)])))
    | none => .ok none

end FocusNode

namespace FocusRow

/-- `focus.rs` 47-57 -/
def walkDown : FocusRow → RowIndices → M FocusRow
  | f, [] => .ok f
  | f, (i, j) :: p => do
    let n ← mexpect (f.childAt i)
    let c ← n.childAt j
    let c ← mexpect c
    walkDown c p

end FocusRow

/-! ## Positions: `focus/row_position.rs` -/

/-- `row_position.rs` 19-22 -/
structure MinPos where
  rowIndices : RowIndices
  offset : Nat
  deriving DecidableEq, Repr

/-- `row_position.rs` 25-30 -/
structure Position where
  focus : FocusRow
  offset : Nat

namespace Position

/-- `row_position.rs` 33-36 -/
def new (f : FocusRow) (offset : Nat) : M Position :=
  if offset ≤ f.len then .ok ⟨f, offset⟩ else .error .assertion

/-- `row_position.rs` 42-47 -/
def toMinimal (p : Position) : MinPos := ⟨p.focus.rowIndices, p.offset⟩

/-- `row_position.rs` 49-51 -/
def fromMinimal (root : FocusRow) (m : MinPos) : M Position := do
  let f ← root.walkDown m.rowIndices
  new f m.offset

/-- `row_position.rs` 74-83 -/
def cmp (a b : Position) : Ordering :=
  cmpIndicesAndOffset a.focus.rowIndices a.offset b.focus.rowIndices b.offset

/-- `a <= b` through `PartialOrd`, `row_position.rs` 68-72 -/
def le (a b : Position) : Bool := a.cmp b ≠ .gt

end Position

/-! ## Ranges: `focus/row_range.rs` -/

/-- `row_range.rs` 17-21 -/
structure MinRange where
  rowIndices : RowIndices
  start : Nat
  stop : Nat
  deriving DecidableEq, Repr

/-- `row_range.rs` 25-29 -/
structure RowRange where
  focus : FocusRow
  start : Nat
  stop : Nat

namespace RowRange

/-- `row_range.rs` 32-40 -/
def new (f : FocusRow) (start stop : Nat) : M RowRange :=
  if start ≤ f.len then
    if stop ≤ f.len then .ok ⟨f, start, stop⟩ else .error .assertion
  else .error .assertion

/-- `row_range.rs` 70-72 -/
def isForwards (r : RowRange) : Bool := r.start ≤ r.stop
/-- `row_range.rs` 66-68 -/
def isCollapsed (r : RowRange) : Bool := r.start == r.stop
/-- `row_range.rs` 42-48 -/
def leftOffset (r : RowRange) : Nat := if r.isForwards then r.start else r.stop
/-- `row_range.rs` 50-56 -/
def rightOffset (r : RowRange) : Nat := if r.isForwards then r.stop else r.start
/-- `row_range.rs` 58-60; the right offset is never smaller than the left one. -/
def len (r : RowRange) : Nat := r.rightOffset - r.leftOffset
/-- `row_range.rs` 74-79 -/
def startPosition (r : RowRange) : Position := ⟨r.focus, r.start⟩
/-- `row_range.rs` 81-86 -/
def endPosition (r : RowRange) : Position := ⟨r.focus, r.stop⟩
/-- `row_range.rs` 88-94 -/
def leftPosition (r : RowRange) : Position := ⟨r.focus, r.leftOffset⟩
/-- `row_range.rs` 96-102 -/
def rightPosition (r : RowRange) : Position := ⟨r.focus, r.rightOffset⟩
/-- `row_range.rs` 104-106: slice, panics when the right offset is out of range. -/
def values (r : RowRange) : M (List Node) :=
  if r.rightOffset ≤ r.focus.row.length then
    .ok ((r.focus.row.take r.rightOffset).drop r.leftOffset)
  else .error .outOfRange
/-- `row_range.rs` 112-114 -/
def contains (r : RowRange) (p : Position) : Bool :=
  r.leftPosition.le p && p.le r.rightPosition
/-- `row_range.rs` 116-122 -/
def toMinimal (r : RowRange) : MinRange := ⟨r.focus.rowIndices, r.start, r.stop⟩
/-- `row_range.rs` 124-130 -/
def fromMinimal (root : FocusRow) (m : MinRange) : M RowRange := do
  let f ← root.walkDown m.rowIndices
  new f m.start m.stop
/-- `row_position.rs` 58-66, `From<&InputRowPosition> for InputRowRange` -/
def ofPosition (p : Position) : RowRange := ⟨p.focus, p.offset, p.offset⟩

end RowRange

/-! ## Grid ranges: `focus/grid_range.rs` -/

/-- `grid_range.rs` 27-30 -/
structure GridRange where
  focus : FocusNode
  range : GridRectangle

/-- `grid_range.rs` 19-23 -/
structure MinGridRange where
  rowIndices : RowIndices
  index : Nat
  range : GridRectangle
  deriving DecidableEq, Repr

namespace GridRange

/-- `grid_range.rs` 40-42 -/
def topLeftIndex (r : GridRange) : M (Nat × Nat) := do
  let i ← r.range.startIndex
  .ok (i.x, i.y)
/-- `grid_range.rs` 44-46 -/
def bottomRightIndex (r : GridRange) : M (Option (Nat × Nat)) := do
  let i ← r.range.endIndexInclusive
  .ok (i.map fun i => (i.x, i.y))
/-- `grid_range.rs` 63-69 -/
def toMinimal (r : GridRange) : MinGridRange :=
  ⟨r.focus.parent.rowIndices, r.focus.indexInParent, r.range⟩
/-- `grid_range.rs` 71-78 -/
def fromMinimal (root : FocusRow) (m : MinGridRange) : M GridRange := do
  let f ← root.walkDown m.rowIndices
  let n ← munwrap (f.childAt m.index)
  .ok ⟨n, m.range⟩

end GridRange

/-- `input_tree.rs` 22-48. The tree is given by its root row. -/
def rangeFromPositions (root : Row) (start stop : Position) : M RowRange := do
  let shared := getShared start.focus.rowIndices stop.focus.rowIndices
  let isForwards := start.le stop
  let startOffset := match start.focus.rowIndices[shared.length]? with
    | some ix => if isForwards then ix.1 else ix.1 + 1
    | none => start.offset
  let endOffset := match stop.focus.rowIndices[shared.length]? with
    | some ix => if isForwards then ix.1 + 1 else ix.1
    | none => stop.offset
  let f ← (FocusRow.fromRoot root).walkDown shared
  RowRange.new f startOffset endOffset

end Aftermath
