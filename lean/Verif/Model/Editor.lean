import Verif.Model.Autocomplete
import Verif.Model.Json

/-! # The editor: `caret/src/math_editor.rs`, `editor_action_builder.rs`,
`undo_redo_manager.rs`, `primitive/caret_edit.rs` -/

namespace Aftermath

/-! ## Undo/redo manager -/

/-- `undo_redo_manager.rs` 3-19. The vectors are kept with the most recent action first
(`push` is cons, `pop` is uncons). -/
structure UndoRedo (A : Type) where
  undoStack : List A
  redoStack : List A

namespace UndoRedo
variable {A : Type}

/-- `undo_redo_manager.rs` 28-33 -/
def empty : UndoRedo A := ⟨[], []⟩

/-- `undo_redo_manager.rs` 36-39 -/
def push (m : UndoRedo A) (a : A) : UndoRedo A := ⟨a :: m.undoStack, []⟩

/-- `undo_redo_manager.rs` 42-47. `inv` is `Invertible::inverse`. -/
def undo (inv : A → A) (m : UndoRedo A) : Option (A × UndoRedo A) :=
  match m.undoStack with
  | [] => none
  | a :: rest => some (inv a, ⟨rest, a :: m.redoStack⟩)

/-- `undo_redo_manager.rs` 50-54 -/
def redo (m : UndoRedo A) : Option (A × UndoRedo A) :=
  match m.redoStack with
  | [] => none
  | a :: rest => some (a, ⟨a :: m.undoStack, rest⟩)

/-- `undo_redo_manager.rs` 56-58 -/
def canUndo (m : UndoRedo A) : Bool := !m.undoStack.isEmpty
/-- `undo_redo_manager.rs` 60-62 -/
def canRedo (m : UndoRedo A) : Bool := !m.redoStack.isEmpty

end UndoRedo

/-- `caret_edit.rs` 21-25; `UndoAction` (6-8) has this as its only variant. -/
structure CaretEdit where
  caretBefore : MinCaret
  caretAfter : MinCaret
  edits : List BasicEdit

/-- `caret_edit.rs` 36-42 -/
def CaretEdit.inverse (e : CaretEdit) : CaretEdit :=
  ⟨e.caretAfter, e.caretBefore, e.edits.reverse.map BasicEdit.inverse⟩

/-! ## Editor -/

/-- What an editor is given and never changes: the build, the parser (`math_editor.rs` 35)
as a function from rows to syntax trees `T`, and the autocomplete rules of the parser
(`parser.rs` 20). -/
structure Env (T : Type) where
  cfg : Cfg
  parse : Row → M T
  rules : List AutocompleteRule

/-- `math_editor.rs` 32-47 without the parser and the (stateless) caret mover. -/
structure Editor (T : Type) where
  input : Row
  parsed : Option T
  caret : MinCaret
  selectionMode : Option MoveMode
  currentAutocomplete : Option AutocompleteRule
  undo : UndoRedo CaretEdit

namespace Editor
variable {T : Type}

/-- `math_editor.rs` 50-62 -/
def new : Editor T := ⟨[], none, MinCaret.default, none, none, UndoRedo.empty⟩

/-- `editor_action_builder.rs` 39-53, with `caret_before` taken by `new` (18-25): no call
changes the caret between `new` and `finish`. Returns the action. -/
def finish (env : Env T) (ed : Editor T) (edits : List BasicEdit) (caretAfter : MinCaret) :
    M (Editor T × CaretEdit) := do
  let edit : CaretEdit := ⟨ed.caret, caretAfter, edits⟩
  if edits.isEmpty then .ok ({ ed with caret := caretAfter }, edit)
  else do
    let input ← applyEdits env.cfg ed.input edits
    .ok ({ ed with input := input, parsed := none, undo := ed.undo.push edit,
                   caret := caretAfter }, edit)

/-- `math_editor.rs` 336-349 -/
def getAutocomplete (env : Env T) (ed : Editor T) :
    M (Editor T × Option AutocompleteResults) := do
  let c ← Caret.fromMinimal ed.input ed.caret
  match c.selection with
  | .grid _ => .ok (ed, none)
  | .row r =>
    if r.isCollapsed then do
      let pos := r.startPosition
      let ms ← matchesAll env.rules pos.focus.row pos.offset 2
      let (cur, res) ← autocompleteStateGet ed.currentAutocomplete ms pos.toMinimal
      .ok ({ ed with currentAutocomplete := cur }, res)
    else .ok (ed, none)

/-- `math_editor.rs` 286-290 -/
def startAutocorrect (env : Env T) (ed : Editor T) : M (Editor T × Option AutocorrectAction) := do
  let (ed, res) ← ed.getAutocomplete env
  match res with
  | none => .ok (ed, none)
  | some a => do
    let x ← a.startAutocorrect
    .ok (ed, x)

/-- `math_editor.rs` 368-386 -/
def spliceAtRange (env : Env T) (ed : Editor T) (range : MinRange) (values : List Node) :
    M (Editor T) := do
  let caretBefore := ed.caret
  let r ← RowRange.fromMinimal (FocusRow.fromRoot ed.input) range
  let (edits, _) ← replaceRange r values
  let a ← ed.caret.start.applyEdits env.cfg edits
  let b ← ed.caret.stop.applyEdits env.cfg edits
  let (ed, _) ← ed.finish env edits ⟨a, b⟩
  .ok { ed with caret := caretBefore }

/-- `math_editor.rs` 292-334. The returned `Option<()>` is ignored by all callers. -/
def applyAutocorrect (env : Env T) (ed : Editor T) (ac : Option AutocorrectAction) :
    M (Editor T) :=
  match ac with
  | none => .ok ed
  | some ac => do
    let c ← Caret.fromMinimal ed.input ed.caret
    match c.selection with
    | .grid _ => .ok ed
    | .row r => do
      let caretStart := r.startPosition
      let range ← RowRange.fromMinimal (FocusRow.fromRoot ed.input) ac.caretRange
      if range.contains caretStart then .ok ed
      else do
        let vs ← range.values
        let ms ← ac.rule.matches vs range.leftOffset 1
        if ms.any RuleMatch.isComplete then
          ed.spliceAtRange env range.toMinimal ac.rule.result
        else .ok ed

/-- The common end of most calls: `finish` and then `apply_autocorrect(autocorrect.finish(..))`
(e.g. `math_editor.rs` 79-80). -/
def finishAndAutocorrect (env : Env T) (ed : Editor T) (ac : Option AutocorrectAction)
    (edits : List BasicEdit) (caretAfter : MinCaret) : M (Editor T) := do
  let (ed, action) ← ed.finish env edits caretAfter
  let ac ← autocorrectFinish env.cfg ac action.edits
  ed.applyAutocorrect env ac

/-- `math_editor.rs` 73-81 -/
def moveCaret (env : Env T) (ed : Editor T) (dir : Dir) (mode : MoveMode) : M (Editor T) := do
  let (ed, ac) ← ed.startAutocorrect env
  let c ← Caret.fromMinimal ed.input ed.caret
  let c ← Aftermath.moveCaret env.cfg ed.input c dir mode
  ed.finishAndAutocorrect env ac [] c.toMinimal

/-- `math_editor.rs` 82-106. The boolean is `is_some()` of the result. -/
def selectWithCaret (env : Env T) (ed : Editor T) (dir : Dir) (mode : MoveMode) :
    M (Editor T × Bool) := do
  let (ed, ac) ← ed.startAutocorrect env
  let c ← Caret.fromMinimal ed.input ed.caret
  match c.selection with
  | .row r => do
    match ← moveCaretRange env.cfg (RowRange.ofPosition r.endPosition) dir mode with
    | none => .ok (ed, false)
    | some p => do
      let ed ← ed.finishAndAutocorrect env ac [] ⟨ed.caret.start, p.toMinimal⟩
      .ok (ed, true)
  | .grid _ => .error .todo

/-- `math_editor.rs` 107-134 -/
def removeAtCaret (env : Env T) (ed : Editor T) (mode : RemoveMode) : M (Editor T × Bool) := do
  let (ed, ac) ← ed.startAutocorrect env
  let c ← Caret.fromMinimal ed.input ed.caret
  match c.selection with
  | .row r => do
    match ← Aftermath.removeAtCaret env.cfg r mode with
    | none => .ok (ed, false)
    | some (edits, p) => do
      let ed ← ed.finishAndAutocorrect env ac edits ⟨p, p⟩
      .ok (ed, true)
  | .grid _ => .error .todo

/-- `math_editor.rs` 146-170, followed by the callers' `apply_autocorrect` (142-144, 258-260).
`insert_at_range` always returns `Some`. -/
def insertNodes (env : Env T) (ed : Editor T) (ac : Option AutocorrectAction)
    (values : List Node) : M (Editor T) := do
  let c ← Caret.fromMinimal ed.input ed.caret
  match c.selection with
  | .row r => do
    let (edits, p) ← insertAtRange r values
    ed.finishAndAutocorrect env ac edits ⟨p, p⟩
  | .grid _ => .error .todo

/-- `math_editor.rs` 138-145 -/
def insertAtCaret (env : Env T) (ed : Editor T) (values : List Str) : M (Editor T) := do
  let (ed, ac) ← ed.startAutocorrect env
  ed.insertNodes env ac (values.map Node.symbol)

/-- `math_editor.rs` 171-182 -/
def selectAll (ed : Editor T) : Editor T :=
  { ed with caret := ⟨⟨[], 0⟩, ⟨[], ed.input.length⟩⟩ }

/-- `math_editor.rs` 193-201 -/
def applyAction (env : Env T) (ed : Editor T) (a : CaretEdit) : M (Editor T) := do
  let input ← applyEdits env.cfg ed.input a.edits
  .ok { ed with caret := a.caretAfter, input := input, parsed := none }

/-- `math_editor.rs` 183-187 -/
def undoOp (env : Env T) (ed : Editor T) : M (Editor T × Bool) :=
  match ed.undo.undo CaretEdit.inverse with
  | none => .ok (ed, false)
  | some (a, u) => do
    let ed ← ({ ed with undo := u }).applyAction env a
    .ok (ed, true)

/-- `math_editor.rs` 188-192 -/
def redoOp (env : Env T) (ed : Editor T) : M (Editor T × Bool) :=
  match ed.undo.redo with
  | none => .ok (ed, false)
  | some (a, u) => do
    let ed ← ({ ed with undo := u }).applyAction env a
    .ok (ed, true)

/-- `math_editor.rs` 203-214 -/
def startSelection (env : Env T) (ed : Editor T) (p : MinPos) (mode : MoveMode) :
    M (Editor T) := do
  let (ed, ac) ← ({ ed with selectionMode := some mode }).startAutocorrect env
  ed.finishAndAutocorrect env ac [] ⟨p, p⟩

/-- `math_editor.rs` 215-230 -/
def extendSelection (env : Env T) (ed : Editor T) (p : MinPos) : M (Editor T) := do
  let (ed, ac) ← ed.startAutocorrect env
  ed.finishAndAutocorrect env ac [] ⟨ed.caret.start, p⟩

/-- `math_editor.rs` 231-233 -/
def finishSelection (ed : Editor T) : Editor T := { ed with selectionMode := none }

/-- `math_editor.rs` 235-249 (data type `JsonInputTree`, the only one) -/
def copy (ed : Editor T) : M Str := do
  let c ← Caret.fromMinimal ed.input ed.caret
  match c.selection with
  | .row r => do
    let vs ← r.values
    .ok (serializeNodes vs)
  | .grid _ => .error .todo

/-- `math_editor.rs` 250-262. `known` tells whether a data type was given; without one
`deserialize_input_nodes` is `todo!()`. The boolean is `is_ok()` of the result. -/
def paste (env : Env T) (ed : Editor T) (data : Str) (known : Bool) : M (Editor T × Bool) := do
  let (ed, ac) ← ed.startAutocorrect env
  if known then
    match deserializeNodes env.cfg data with
    | none => .ok (ed, false)
    | some nodes => do
      let ed ← ed.insertNodes env ac nodes
      .ok (ed, true)
  else .error .todo

/-- `math_editor.rs` 267-277 -/
def finishAutocomplete (env : Env T) (ed : Editor T) (accept : Bool) : M (Editor T × Bool) :=
  if !accept then .ok (ed, false)
  else do
    let (ed, res) ← ed.getAutocomplete env
    match res with
    | none => .ok (ed, false)
    | some a => do
      let selected ← a.getSelected
      let ed ← ed.spliceAtRange env (a.getCaretRange selected) selected.rule.result
      .ok (ed, true)

/-- `math_editor.rs` 278-284 -/
def moveInAutocomplete (env : Env T) (ed : Editor T) (dir : VDir) : M (Editor T × Bool) := do
  let (ed, res) ← ed.getAutocomplete env
  match res with
  | none => .ok (ed, false)
  | some a => do
    let a ← a.moveSelection env.cfg dir
    let selected ← a.getSelected
    .ok ({ ed with currentAutocomplete := some selected.rule }, true)

/-- `math_editor.rs` 350-353 -/
def getCaret (ed : Editor T) : M MinSelection := do
  let c ← Caret.fromMinimal ed.input ed.caret
  .ok c.selection.toMinimal

/-- `math_editor.rs` 357-365 -/
def getSyntaxTree (env : Env T) (ed : Editor T) : M (Editor T × T) :=
  match ed.parsed with
  | some t => .ok (ed, t)
  | none => do
    let t ← env.parse ed.input
    .ok ({ ed with parsed := some t }, t)

end Editor

/-- The public calls of the editor (`math_editor.rs` 65-387) that can change its state. -/
inductive Op
  | moveCaret (dir : Dir) (mode : MoveMode)
  | selectWithCaret (dir : Dir) (mode : MoveMode)
  | removeAtCaret (mode : RemoveMode)
  | insertAtCaret (values : List Str)
  | selectAll
  | undo
  | redo
  | startSelection (p : MinPos) (mode : MoveMode)
  | extendSelection (p : MinPos)
  | finishSelection
  | paste (data : Str) (known : Bool)
  | openAutocomplete
  | finishAutocomplete (accept : Bool)
  | moveInAutocomplete (dir : VDir)
  | getAutocomplete
  | getSyntaxTree
  | spliceAtRange (range : MinRange) (values : List Node)

/-- The editor after a public call. -/
def Editor.step {T : Type} (env : Env T) (ed : Editor T) : Op → M (Editor T)
  | .moveCaret d m => ed.moveCaret env d m
  | .selectWithCaret d m => do let r ← ed.selectWithCaret env d m; .ok r.1
  | .removeAtCaret m => do let r ← ed.removeAtCaret env m; .ok r.1
  | .insertAtCaret vs => ed.insertAtCaret env vs
  | .selectAll => .ok ed.selectAll
  | .undo => do let r ← ed.undoOp env; .ok r.1
  | .redo => do let r ← ed.redoOp env; .ok r.1
  | .startSelection p m => ed.startSelection env p m
  | .extendSelection p => ed.extendSelection env p
  | .finishSelection => .ok ed.finishSelection
  | .paste d k => do let r ← ed.paste env d k; .ok r.1
  | .openAutocomplete => do let r ← ed.getAutocomplete env; .ok r.1
  | .finishAutocomplete a => do let r ← ed.finishAutocomplete env a; .ok r.1
  | .moveInAutocomplete d => do let r ← ed.moveInAutocomplete env d; .ok r.1
  | .getAutocomplete => do let r ← ed.getAutocomplete env; .ok r.1
  | .getSyntaxTree => do let r ← ed.getSyntaxTree env; .ok r.1
  | .spliceAtRange r vs => ed.spliceAtRange env r vs

/-- A sequence of calls, stopping at the first panic. -/
def Editor.run {T : Type} (env : Env T) : Editor T → List Op → M (Editor T)
  | ed, [] => .ok ed
  | ed, op :: ops => do
    let ed ← ed.step env op
    Editor.run env ed ops

end Aftermath
