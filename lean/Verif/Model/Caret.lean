import Verif.Model.Edit

/-! # Carets, movement and primitive edits:
`caret/src/caret.rs`, `primitive/movement.rs`, `primitive/primitive_edit.rs` -/

namespace Aftermath

/-- `caret.rs` 13-16 -/
structure MinCaret where
  start : MinPos
  stop : MinPos
  deriving DecidableEq, Repr

/-- `caret.rs` 18-29 -/
def MinCaret.default : MinCaret := ⟨⟨[], 0⟩, ⟨[], 0⟩⟩

/-- `caret.rs` 114-117 -/
inductive Selection
  | row (r : RowRange)
  | grid (g : GridRange)

/-- `caret.rs` 109-112 -/
inductive MinSelection
  | row (r : MinRange)
  | grid (g : MinGridRange)
  deriving DecidableEq, Repr

/-- `caret.rs` 120-125 -/
def Selection.toMinimal : Selection → MinSelection
  | .row r => .row r.toMinimal
  | .grid g => .grid g.toMinimal

/-- `caret.rs` 127-169 -/
def Selection.fromPositions (root : Row) (start stop : Position) : M Selection := do
  let shared ← rangeFromPositions root start stop
  if shared.len ≠ 1 then .ok (.row shared)
  else
    let selected := shared.focus.nodeAt shared.leftOffset
    if (selected.map Node.hasResizableGrid) ≠ some true then .ok (.row shared)
    else
      match start.focus.rowIndices[shared.focus.rowIndices.length]?,
            stop.focus.rowIndices[shared.focus.rowIndices.length]? with
      | some a, some b => do
        massert (a.1 == shared.leftOffset)
        massert (b.1 == shared.leftOffset)
        let n ← munwrap (shared.focus.childAt a.1)
        let g ← munwrap n.node.grid
        let s ← g.size
        let rect ← GridRectangle.fromIndicesInclusive
          (Index2D.fromIndex a.2 s) (Index2D.fromIndex b.2 s) g
        .ok (.grid ⟨n, rect⟩)
      | _, _ => .ok (.row shared)

/-- `caret.rs` 31-36, without the reference to the tree. -/
structure Caret where
  start : Position
  stop : Position
  selection : Selection

/-- `caret.rs` 39-51 -/
def Caret.new (root : Row) (start stop : Position) : M Caret := do
  let s ← Selection.fromPositions root start stop
  .ok ⟨start, stop, s⟩

/-- `caret.rs` 60-65 -/
def Caret.fromMinimal (root : Row) (m : MinCaret) : M Caret := do
  let a ← Position.fromMinimal (FocusRow.fromRoot root) m.start
  let b ← Position.fromMinimal (FocusRow.fromRoot root) m.stop
  Caret.new root a b

/-- `caret.rs` 53-58 -/
def Caret.toMinimal (c : Caret) : MinCaret := ⟨c.start.toMinimal, c.stop.toMinimal⟩

/-- `caret.rs` 95-100 -/
def Caret.setSelection (root : Row) (_c : Caret) (r : RowRange) : M Caret := do
  let s ← Selection.fromPositions root r.startPosition r.endPosition
  .ok ⟨r.startPosition, r.endPosition, s⟩

/-! ## Movement: `primitive/movement.rs`
`get_caret_viewport_position` is `None` in every editor (`math_editor.rs` 60,
`NavigationSettings::new`), so the viewport argument is dropped. -/

/-- `movement.rs` 18-22 -/
inductive MoveMode
  | char
  | word
  | line
  deriving DecidableEq, Repr

/-- `movement.rs` 217-251 -/
def moveHorizontalInto (cfg : Cfg) (caret : Position) (dir : HDir) : M (Option Position) :=
  match offsetToIndex caret.focus.row caret.offset dir with
  | none => .ok none
  | some adjacentIndex => do
    let child ← munwrap (caret.focus.childAt adjacentIndex)
    match child.node with
    | .container _ cells w => do
      let row ← match dir with
        | .left => do
          let s ← GridVec.size (⟨cells, w⟩ : GridVec Row)
          let k ← usub cfg (s.1 * s.2) 1
          let r ← child.childAt k
          munwrap r
        | .right => do
          let r ← child.childAt 0
          munwrap r
      let p ← Position.new row (match dir with | .left => row.len | .right => 0)
      .ok (some p)
    | .symbol _ => do
      let o ← match dir with
        | .left => usub cfg caret.offset 1
        | .right => .ok (caret.offset + 1)
      let p ← Position.new caret.focus o
      .ok (some p)

/-- `movement.rs` 180-214 -/
def moveHorizontalBeyondEdge (cfg : Cfg) (caret : Position) (dir : HDir) :
    M (Option Position) :=
  match caret.focus.parent with
  | none => .ok none
  | some parent => do
    let idx ← caret.focus.indexInParent cfg
    let adjacentIndex ← match idx with
      | none => .ok none
      | some v =>
        match dir with
        | .left => do let k ← usub cfg v 1; .ok (some k)
        | .right => .ok (some (v + 1))
    let adjacentChild ← match adjacentIndex with
      | none => .ok none
      | some k => parent.childAt k
    match adjacentChild with
    | some c => do
      let p ← Position.new c (match dir with | .left => c.len | .right => 0)
      .ok (some p)
    | none => do
      let p ← Position.new parent.parent
        (match dir with | .left => parent.indexInParent | .right => parent.indexInParent + 1)
      .ok (some p)

theorem FocusRow.depth_setIndices (f : FocusRow) (i : RowIndices) :
    (f.setIndices i).depth = f.depth := by
  cases f <;> rfl

theorem FocusRow.depth_parent {f : FocusRow} {n : FocusNode} (h : f.parent = some n) :
    n.parent.depth < f.depth := by
  cases f with
  | root r i => cases h
  | child r pn pf k i =>
    simp only [FocusRow.parent, Option.some.injEq] at h
    subst h
    simp [FocusRow.depth_setIndices, FocusRow.depth]

/-- `movement.rs` 116-176. -/
def moveVertical (cfg : Cfg) (focus : FocusRow) (dir : VDir) : M (Option Position) :=
  match hp : focus.parent with
  | none => .ok none
  | some parent =>
    match parent.node, dir with
    | .container .sub _ _, .down => do
      let p ← Position.new parent.parent parent.indexInParent
      .ok (some p)
    | .container .sup _ _, .up => do
      let p ← Position.new parent.parent parent.indexInParent
      .ok (some p)
    | .symbol _, _ => .ok none
    | .container _ cells w, dir => do
      -- `caret.row_focus.index_in_parent()?`
      match ← focus.indexInParent cfg with
      | none => .ok none
      | some idx => do
        let s ← GridVec.size (⟨cells, w⟩ : GridVec Row)
        let xy := Index2D.fromIndex idx s
        let newXy := match dir with
          | .up => xy.subChecked (0, 1) s
          | .down => xy.addChecked (0, 1) s
        let newRow ← match newXy with
          | some xy => parent.childAt xy.toIndex
          | none => .ok none
        match newRow with
        | some r => do
          let p ← Position.new r (match dir with | .up => r.len | .down => 0)
          .ok (some p)
        | none => do
          -- `InputRowPosition::new(grandparent, Offset(0))`, its offset is not used again
          let _ ← Position.new parent.parent 0
          have : parent.parent.depth < focus.depth := FocusRow.depth_parent hp
          moveVertical cfg parent.parent dir
  termination_by focus.depth

/-- `movement.rs` 94-114 -/
def moveCaretInternal (cfg : Cfg) (caret : Position) : Dir → M (Option Position)
  | .left => do
    match ← moveHorizontalInto cfg caret .left with
    | some p => .ok (some p)
    | none => moveHorizontalBeyondEdge cfg caret .left
  | .right => do
    match ← moveHorizontalInto cfg caret .right with
    | some p => .ok (some p)
    | none => moveHorizontalBeyondEdge cfg caret .right
  | .up => moveVertical cfg caret.focus .up
  | .down => moveVertical cfg caret.focus .down

/-- `movement.rs` 59-91 -/
def moveCaretRange (cfg : Cfg) (range : RowRange) (dir : Dir) (mode : MoveMode) :
    M (Option Position) := do
  let caret := match dir with
    | .left | .up => range.leftPosition
    | .right | .down => range.rightPosition
  if mode ≠ .char then .error .todo
  else
    match ← moveCaretInternal cfg caret dir with
    | some p => .ok (some p)
    | none => if !range.isCollapsed then .ok (some caret) else .ok none

/-- `movement.rs` 46-56 -/
def moveCaret (cfg : Cfg) (root : Row) (caret : Caret) (dir : Dir) (mode : MoveMode) :
    M Caret :=
  match caret.selection with
  | .row r => do
    match ← moveCaretRange cfg r dir mode with
    | some p => caret.setSelection root (RowRange.ofPosition p)
    | none => .ok caret
  | .grid _ => .ok caret

/-! ## Primitive edits: `primitive/primitive_edit.rs` -/

/-- `primitive_edit.rs` 18-23 -/
inductive RemoveMode
  | left
  | right
  | range
  deriving DecidableEq, Repr

/-- `primitive_edit.rs` 26-42. Always `Some`. -/
def insertAtRange (caret : RowRange) (values : List Node) : M (List BasicEdit × MinPos) := do
  let (edit, range) ← replaceRange caret values
  .ok (edit, ⟨range.rowIndices, if range.start < range.stop then range.stop else range.start⟩)

/-- `primitive_edit.rs` 87-106. Always `Some`. -/
def flattenNode (node : FocusNode) (offsetInNode : Nat) : M (List BasicEdit × MinPos) := do
  let g ← mexpect node.node.grid
  let values := g.values.flatten
  let range ← RowRange.new node.parent node.indexInParent (node.indexInParent + 1)
  let (edits, position) ← removeRange range
  let (insertEdits, _) := insertAtPosition range.leftPosition values
  .ok (edits ++ insertEdits, ⟨position.rowIndices, position.offset + offsetInNode⟩)

/-- `primitive_edit.rs` 73-84 -/
def removeMove (cfg : Cfg) (caret : Position) (dir : HDir) :
    M (Option (List BasicEdit × MinPos)) := do
  match ← moveCaretRange cfg (RowRange.ofPosition caret) dir.toDir .char with
  | none => .ok none
  | some p => .ok (some ([], p.toMinimal))

/-- `primitive_edit.rs` 163-175: the general grid part. -/
def removeInGrid (cfg : Cfg) (caret : Position) (dir : HDir) (parent : FocusNode) (idx : Nat) :
    M (Option (List BasicEdit × MinPos)) :=
  match parent.node.grid with
  | none => .ok none
  | some g => do
    let atEdge ← match dir with
      | .left => .ok (idx == 0)
      | .right => do
        let s ← g.size
        let k ← usub cfg (s.1 * s.2) 1
        .ok (decide (idx ≥ k))
    if atEdge && g.values.all List.isEmpty then do
      let r ← flattenNode parent 0
      .ok (some r)
    else removeMove cfg caret dir

/-- `primitive_edit.rs` 136-175: at the start or end of a row. -/
def removeAtEdge (cfg : Cfg) (caret : Position) (dir : HDir) :
    M (Option (List BasicEdit × MinPos)) := do
  let idx ← caret.focus.indexInParent cfg
  match caret.focus.parent with
  | none => .ok none
  | some parent => do
    let idx ← munwrap idx
    match parent.node, dir with
    | .container .sub _ _, .left => do
      let r ← flattenNode parent 0
      .ok (some r)
    | .container .sup _ _, .left => do
      let r ← flattenNode parent 0
      .ok (some r)
    | .container .fraction cells w, dir =>
      if (dir = .left ∧ idx = 1) ∨ (dir = .right ∧ idx = 0) then do
        let c ← GridVec.getLinear ⟨cells, w⟩ 0
        let c ← munwrap c
        let r ← flattenNode parent c.length
        .ok (some r)
      else removeInGrid cfg caret dir parent idx
    | .container .root cells w, dir =>
      if (dir = .left ∧ idx = 1) ∨ (dir = .right ∧ idx = 0) then do
        let c ← GridVec.getLinear ⟨cells, w⟩ 0
        let c ← munwrap c
        let r ← flattenNode parent c.length
        .ok (some r)
      else removeInGrid cfg caret dir parent idx
    | _, dir => removeInGrid cfg caret dir parent idx

/-- `primitive_edit.rs` 67-176 -/
def removeAtCaretPosition (cfg : Cfg) (caret : Position) (dir : HDir) :
    M (Option (List BasicEdit × MinPos)) :=
  let adjacentNode := (offsetToIndex caret.focus.row caret.offset dir).bind fun index =>
    (caret.focus.nodeAt index).map fun node => (index, node)
  match adjacentNode with
  | some (index, .symbol _) => do
    let range ← RowRange.new caret.focus index (index + 1)
    let r ← removeRange range
    .ok (some r)
  | some (index, .container v _ _) =>
    if (v = .sub ∨ v = .sup) ∧ dir = .right then do
      let n ← munwrap (caret.focus.childAt index)
      let r ← flattenNode n 0
      .ok (some r)
    else removeMove cfg caret dir
  | none => removeAtEdge cfg caret dir

/-- `primitive_edit.rs` 44-65 -/
def removeAtCaret (cfg : Cfg) (caret : RowRange) (mode : RemoveMode) :
    M (Option (List BasicEdit × MinPos)) :=
  if !caret.isCollapsed then do
    let r ← removeRange caret
    .ok (some r)
  else
    match mode with
    | .left => removeAtCaretPosition cfg caret.startPosition .left
    | .right => removeAtCaretPosition cfg caret.startPosition .right
    | .range => do
      let r ← removeRange caret
      .ok (some r)

end Aftermath
