import Verif.Model.Focus

/-! # Edits: `input_tree/src/editing/*`, `input_tree.rs` 51-145,
`apply_edit` of ranges and positions in `focus/row_range.rs`, `focus/row_position.rs` -/

namespace Aftermath

/-- `basic_edit.rs` 22-25 -/
inductive EditType
  | delete
  | insert
  deriving DecidableEq, Repr

/-- `basic_edit.rs` 27-36 -/
def EditType.inverse : EditType → EditType
  | .delete => .insert
  | .insert => .delete

/-- `basic_edit.rs` 110-116 -/
structure RowEdit where
  editType : EditType
  position : MinPos
  values : List Node
  deriving DecidableEq

/-- `row.rs` 101-104 -/
structure ElementIndices where
  rowIndices : RowIndices
  index : Nat
  deriving DecidableEq

/-- `basic_edit.rs` 151-158 -/
structure GridEdit where
  editType : EditType
  elementIndices : ElementIndices
  direction : GridDirection
  rowOrColumn : Nat
  values : GridVec Row
  deriving DecidableEq

/-- `basic_edit.rs` 16-19 -/
inductive BasicEdit
  | row (e : RowEdit)
  | grid (e : GridEdit)
  deriving DecidableEq

/-- `basic_edit.rs` 139-148 -/
def RowEdit.inverse (e : RowEdit) : RowEdit := { e with editType := e.editType.inverse }
/-- `basic_edit.rs` 203-212 -/
def GridEdit.inverse (e : GridEdit) : GridEdit := { e with editType := e.editType.inverse }
/-- `basic_edit.rs` 99-107 -/
def BasicEdit.inverse : BasicEdit → BasicEdit
  | .row e => .row e.inverse
  | .grid e => .grid e.inverse

/-- `basic_edit.rs` 39-51 -/
def removeRange (r : RowRange) : M (List BasicEdit × MinPos) := do
  let vs ← r.values
  .ok ([.row ⟨.delete, r.leftPosition.toMinimal, vs⟩], ⟨r.focus.rowIndices, r.leftOffset⟩)

/-- `basic_edit.rs` 53-69 -/
def insertAtPosition (p : Position) (values : List Node) : List BasicEdit × MinPos :=
  ([.row ⟨.insert, p.toMinimal, values⟩], ⟨p.focus.rowIndices, p.offset + values.length⟩)

/-- `basic_edit.rs` 72-89 -/
def replaceRange (r : RowRange) (values : List Node) : M (List BasicEdit × MinRange) := do
  let (edits, _) ← removeRange r
  let (insertEdits, position) := insertAtPosition r.leftPosition values
  massert (position.rowIndices == r.focus.rowIndices)
  .ok (edits ++ insertEdits, ⟨r.focus.rowIndices, r.leftOffset, position.offset⟩)

/-- `row_indices_edit.rs` 6-25 -/
inductive RowIndicesEdit
  | rowIndexEdit (rowIndices : RowIndices) (oldOffset newOffset : Nat)
  | gridIndexEdit (elementIndices : ElementIndices) (direction : GridDirection)
      (oldOffset newOffset : Nat)

/-- `row_indices_edit.rs` 28-41 -/
def RowIndicesEdit.isInsert : RowIndicesEdit → Bool
  | .rowIndexEdit _ o n => n > o
  | .gridIndexEdit _ _ o n => n > o

/-- `basic_edit.rs` 119-130 -/
def RowEdit.getRowIndicesEdit (e : RowEdit) : RowIndicesEdit :=
  let oldOffset := e.position.offset
  let newOffset := e.position.offset + e.values.length
  match e.editType with
  | .delete => .rowIndexEdit e.position.rowIndices newOffset oldOffset
  | .insert => .rowIndexEdit e.position.rowIndices oldOffset newOffset

/-- `basic_edit.rs` 161-177; `width()`/`height()` divide by the width. -/
def GridEdit.getRowIndicesEdit (e : GridEdit) : M RowIndicesEdit := do
  let s ← e.values.size
  let oldOffset := e.rowOrColumn
  let newOffset := if e.direction = .column then e.rowOrColumn + s.1 else e.rowOrColumn + s.2
  match e.editType with
  | .delete => .ok (.gridIndexEdit e.elementIndices e.direction newOffset oldOffset)
  | .insert => .ok (.gridIndexEdit e.elementIndices e.direction oldOffset newOffset)

/-- `basic_edit.rs` 91-96 -/
def BasicEdit.getRowIndicesEdit : BasicEdit → M RowIndicesEdit
  | .row e => .ok e.getRowIndicesEdit
  | .grid e => e.getRowIndicesEdit

/-- `basic_edit.rs` 179-194 -/
def GridEdit.newGridSize (cfg : Cfg) (e : GridEdit) (old : GridVec Row) : M (Nat × Nat) := do
  let o ← old.size
  let v ← e.values.size
  match e.editType, e.direction with
  | .insert, .column => .ok (o.1 + v.1, o.2)
  | .insert, .row => .ok (o.1, o.2 + v.2)
  | .delete, .column => do let w ← usub cfg o.1 v.1; .ok (w, o.2)
  | .delete, .row => do let h ← usub cfg o.2 v.2; .ok (o.1, h)

/-- `input_tree.rs` 117-121: the loop of a column insertion. `old` and `ins` are the
remaining elements of the iterators `old_grid` and `insert_grid`. Returns the new cells. -/
def insertColumnsLoop (cfg : Cfg) (k oldW insW : Nat) :
    Nat → List Row → List Row → M (List Row)
  | 0, _, _ => .ok []
  | n + 1, old, ins => do
    let d ← usub cfg oldW k
    let old' := old.drop k
    let rest ← insertColumnsLoop cfg k oldW insW n (old'.drop d) (ins.drop insW)
    .ok (old.take k ++ ins.take insW ++ old'.take d ++ rest)

/-- `input_tree.rs` 131-135: the loop of a column deletion. `let _ = it.by_ref().skip(n)`
builds a lazy adapter and drops it: nothing is skipped. -/
def deleteColumnsLoop (cfg : Cfg) (k oldW : Nat) : Nat → List Row → M (List Row)
  | 0, _ => .ok []
  | n + 1, old => do
    let d ← usub cfg oldW k
    let old' := old.drop k
    let rest ← deleteColumnsLoop cfg k oldW n (old'.drop d)
    .ok (old.take k ++ old'.take d ++ rest)

/-- `input_tree.rs` 86-142 on the grid itself. Not modelled: `Vec::with_capacity` (104). -/
def GridEdit.applyToGrid (cfg : Cfg) (e : GridEdit) (old : GridVec Row) : M (GridVec Row) := do
  let oldSize ← old.size
  let newSize ← e.newGridSize cfg old
  let vs ← e.values.size
  let newGrid ← match e.editType, e.direction with
    | .insert, .row => do
      massert (vs.1 == oldSize.1)
      let n := vs.1 * e.rowOrColumn
      .ok (old.values.take n ++ e.values.values ++ old.values.drop n)
    | .insert, .column => do
      massert (vs.2 == oldSize.2)
      insertColumnsLoop cfg e.rowOrColumn oldSize.1 vs.1 vs.2 old.values e.values.values
    | .delete, .row => do
      massert (vs.1 == oldSize.1)
      let n := vs.1 * e.rowOrColumn
      -- line 126 is a lazy skip without effect
      .ok (old.values.take n ++ old.values.drop n)
    | .delete, .column => do
      massert (vs.2 == oldSize.2)
      deleteColumnsLoop cfg e.rowOrColumn oldSize.1 vs.2 old.values
  let g ← GridVec.fromOneDimensional newGrid newSize.1
  let s ← g.size
  massert (s.1 == newSize.1)
  massert (s.2 == newSize.2)
  .ok g

/-- `input_tree.rs` 95-142 on the row that holds the container. -/
def GridEdit.applyToRow (cfg : Cfg) (e : GridEdit) (row : Row) : M Row :=
  match row[e.elementIndices.index]? with
  | none => .error .expect
  | some n =>
    if n.hasResizableGrid then
      match n with
      | .symbol _ => .error .unwrapNone
      | .container v cells w => do
        let g ← e.applyToGrid cfg ⟨cells, w⟩
        .ok (row.set e.elementIndices.index (.container v g.values g.width))
    else .error .assertion

/-- `input_tree.rs` 69-85: `Vec::splice`, panics when the range is not inside the row. -/
def RowEdit.applyToRow (e : RowEdit) (row : Row) : M Row :=
  let start := e.position.offset
  match e.editType with
  | .insert =>
    if start ≤ row.length then .ok (row.take start ++ e.values ++ row.drop start)
    else .error .outOfRange
  | .delete =>
    if start + e.values.length ≤ row.length then
      .ok (row.take start ++ row.drop (start + e.values.length))
    else .error .outOfRange

/-- `input_tree.rs` 59-66 with `node.rs` 104-111: walk down mutably and edit the row there. -/
def editRowAt (f : Row → M Row) : Row → RowIndices → M Row
  | r, [] => f r
  | r, (i, j) :: p =>
    match r[i]? with
    | none => .error .expect
    | some (.symbol _) => .error .explicit
    | some (.container v cells w) => do
      let s ← GridVec.size ⟨cells, w⟩
      match (Index2D.fromIndex j s).toIndexChecked s with
      | none => .error .expect
      | some k =>
        match cells[k]? with
        | none => .error .expect
        | some c => do
          let c' ← editRowAt f c p
          .ok (r.set i (.container v (cells.set k c') w))

/-- `input_tree.rs` 52-144 -/
def applyEdit (cfg : Cfg) (root : Row) : BasicEdit → M Row
  | .row e => editRowAt e.applyToRow root e.position.rowIndices
  | .grid e => editRowAt (e.applyToRow cfg) root e.elementIndices.rowIndices

/-- `editable.rs` 4-8 -/
def applyEdits (cfg : Cfg) : Row → List BasicEdit → M Row
  | root, [] => .ok root
  | root, e :: es => do
    let r ← applyEdit cfg root e
    applyEdits cfg r es

/-- `row_range.rs` 133-207 -/
def MinRange.applyEdit (cfg : Cfg) (r : MinRange) (edit : BasicEdit) : M MinRange := do
  let ie ← edit.getRowIndicesEdit
  let rowIndices := match ie with
    | .rowIndexEdit ri _ _ => ri
    | .gridIndexEdit ei _ _ _ => ei.rowIndices
  if !startsWith r.rowIndices rowIndices then .ok r
  else
    let isForwards : Bool := r.start ≤ r.stop
    let start := if isForwards then r.start else r.stop
    let stop := if isForwards then r.stop else r.start
    let res : MinRange ← match ie with
      | .rowIndexEdit ri oldOffset newOffset =>
        if ie.isInsert ∧ r.rowIndices = ri then
          let delta := newOffset - oldOffset
          .ok ⟨r.rowIndices,
            if oldOffset < start then start + delta else start,
            if oldOffset ≤ stop then stop + delta else stop⟩
        else if r.rowIndices = ri then
          let delta := oldOffset - newOffset
          .ok ⟨r.rowIndices,
            if newOffset < start then max (start - delta) newOffset else start,
            if newOffset ≤ stop then max (stop - delta) newOffset else stop⟩
        else if ie.isInsert then do
          -- line 181
          let k ← usub cfg ri.length 1
          let ix ← munwrap r.rowIndices[k]?
          if oldOffset ≤ ix.1 then
            .ok ⟨r.rowIndices.set k (ix.1 + (newOffset - oldOffset), ix.2), start, stop⟩
          else .ok ⟨r.rowIndices, start, stop⟩
        else do
          -- line 188
          let k ← usub cfg ri.length 1
          let ix ← munwrap r.rowIndices[k]?
          if newOffset ≤ ix.1 ∧ ix.1 < oldOffset then .ok ⟨ri, newOffset, newOffset⟩
          else if oldOffset ≤ ix.1 then
            .ok ⟨r.rowIndices.set k (ix.1 - (oldOffset - newOffset), ix.2), start, stop⟩
          else .ok ⟨r.rowIndices, start, stop⟩
      | .gridIndexEdit _ _ _ _ => .error .todo
    if isForwards then .ok res else .ok ⟨res.rowIndices, res.stop, res.start⟩

/-- `editable.rs` 4-8 for ranges -/
def MinRange.applyEdits (cfg : Cfg) : MinRange → List BasicEdit → M MinRange
  | r, [] => .ok r
  | r, e :: es => do
    let r ← r.applyEdit cfg e
    MinRange.applyEdits cfg r es

/-- `row_position.rs` 85-96 -/
def MinPos.applyEdit (cfg : Cfg) (p : MinPos) (edit : BasicEdit) : M MinPos := do
  let r ← MinRange.applyEdit cfg ⟨p.rowIndices, p.offset, p.offset⟩ edit
  .ok ⟨r.rowIndices, r.start⟩

/-- `editable.rs` 4-8 for positions -/
def MinPos.applyEdits (cfg : Cfg) : MinPos → List BasicEdit → M MinPos
  | p, [] => .ok p
  | p, e :: es => do
    let p ← p.applyEdit cfg e
    MinPos.applyEdits cfg p es

end Aftermath
