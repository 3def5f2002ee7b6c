import Verif.Props.AllPanics

/-! # Vocabulary for how events end

Only calls of the editor end the editor (`dead`), only TypeScript code throws. What is drawn may
belong to an earlier formula `shown`: some handlers change the formula without showing it. -/

namespace Aftermath

/-- The formula and the caret fit into memory, which matters only in builds without overflow
checks. -/
def Setting.Roomy (S : Setting) (ed : Editor SNode) : Prop :=
  S.cfg.checks = false → rowFits S.cfg.bits ed.input = true ∧
    (∀ p, ValidPos ed.input p → p.rowIndices.length + 1 < 2 ^ S.cfg.bits) ∧
    ed.caret.start.rowIndices.length < 2 ^ S.cfg.bits ∧
    ed.caret.stop.rowIndices.length < 2 ^ S.cfg.bits

namespace Component

variable (S : Setting) (c : Component) (shown : Row)

/-- A call followed by showing the formula ends the editor: the call panics, or the new formula can
be shown and the caret is lost. -/
def EditKills (op : Op) : Prop :=
  op.AllPanics S.env c.editor ∨ ∃ ed', c.editor.step S.env op = .ok ed' ∧
    ¬ Unshowable S ed'.input ∧ CaretLost { c with editor := ed' }

/-- A call followed by showing the formula throws: the new formula cannot be shown. -/
def EditThrows (op : Op) : Prop :=
  ∃ ed', c.editor.step S.env op = .ok ed' ∧ Unshowable S ed'.input

/-- Drawing the caret over the formula `shown` throws: what is selected does not exist there. -/
def DrawThrows : Prop :=
  c.connected = true ∧ ∃ sel, selectionOf c.editor.input c.editor.caret = .ok sel ∧
    ¬ sel.Within shown

/-- A call followed by drawing the caret ends the editor. -/
def SelectKills (op : Op) : Prop :=
  op.AllPanics S.env c.editor ∨ ∃ ed', c.editor.step S.env op = .ok ed' ∧
    CaretLost { c with editor := ed' }

/-- A call followed by drawing the caret throws. -/
def SelectThrows (op : Op) : Prop :=
  ∃ ed', c.editor.step S.env op = .ok ed' ∧ DrawThrows { c with editor := ed' } shown

/-- `copy` panics: the caret is lost, or cells of a grid are selected. -/
def CopyPanics : Prop :=
  ∀ rng, selectionOf c.editor.input c.editor.caret ≠ .ok (.row rng)

end Component

/-- The call of a task. -/
def InputEvent.op (S : Setting) : InputEvent → Option Op
  | .deleteBackward => some (.removeAtCaret .left)
  | .deleteForward => some (.removeAtCaret .right)
  | .insertText (some data) => some (.insertAtCaret (S.browser.split data))
  | .insertText none => none
  | .other => none

namespace Component

/-- Tasks end the editor: the first one does, or it is done and the other ones do. -/
def TasksKill (S : Setting) (G : Geom) : Component → List InputEvent → Prop
  | _, [] => False
  | c, t :: ts => (∃ op, t.op S = some op ∧ c.EditKills S op) ∨
      ∃ c1, ({ c with tasks := ts } : Component).handleTask S G t = .fine c1 ∧ c1.TasksKill S G ts

/-- Tasks throw: the first one does, or it is done and the other ones do. -/
def TasksThrow (S : Setting) (G : Geom) : Component → List InputEvent → Prop
  | _, [] => False
  | c, t :: ts => (∃ op, t.op S = some op ∧ c.EditThrows S op) ∨
      ∃ c1, ({ c with tasks := ts } : Component).handleTask S G t = .fine c1 ∧ c1.TasksThrow S G ts

/-- Nothing gets too large while tasks run. -/
def TasksRoomy (S : Setting) (G : Geom) : Component → List InputEvent → Prop
  | _, [] => True
  | c, t :: ts => ∀ c1, ({ c with tasks := ts } : Component).handleTask S G t = .fine c1 →
      S.Roomy c1.editor ∧ c1.TasksRoomy S G ts

/-- Setting the attribute replaces what the syntax tree says is the whole formula. -/
def wholeRange (c : Component) : MinRange := ⟨[], c.tree.lo, c.tree.hi⟩

end Component

/-- The data of a `paste` event, `math-editor.ts` 203-213 -/
def pasted (json text : Str) : Str := if json.isEmpty then text else json

/-- What ends the editor. -/
def Event.Kills (S : Setting) (c : Component) (v : View) : Event → Prop
  | .arrow d => c.EditKills S (.moveCaret d .char)
  | .undoKey => c.EditKills S .undo
  | .redoKey => c.EditKills S .redo
  | .otherKey => ¬ Component.Unshowable S c.editor.input ∧ c.CaretLost
  | .beforeInput _ => False
  | .timer => c.TasksKill S v.after c.tasks
  | .copy => c.CopyPanics
  | .cut => c.CopyPanics ∨ c.EditKills S (.removeAtCaret .range)
  | .paste json text => (Op.paste (pasted json text) true).AllPanics S.env c.editor ∨
      deserializeNodes S.cfg (pasted json text) ≠ none ∧ c.EditKills S (.paste (pasted json text) true)
  | .pointerDown pos => ∃ p, layoutPosition v.before pos c.result = .ok p ∧
      c.EditKills S (.startSelection p .char)
  | .pointerUp pos => ∃ p, layoutPosition v.before pos c.result = .ok p ∧
      c.SelectKills S (.extendSelection p)
  | .pointerCancel pos => ∃ p, layoutPosition v.before pos c.result = .ok p ∧
      c.SelectKills S (.extendSelection p)
  | .pointerMove pos => c.pointerDown = true ∧ ∃ p, layoutPosition v.before pos c.result = .ok p ∧
      c.SelectKills S (.extendSelection p)
  | .mouseDown pos clicks => c.pointerDown = true ∧ ∃ p,
      layoutPosition v.before pos c.result = .ok p ∧
      (clicks = 2 ∧ c.SelectKills S (.startSelection p .word) ∨
        clicks = 3 ∧ c.SelectKills S (.startSelection p .line))
  | .connect d => ∃ r es, fromElement S.browser d = .ok (r, es) ∧
      ({ c with connected := true } : Component).EditKills S (.spliceAtRange c.wholeRange r)
  | .disconnect => False
  | .setAttribute d => ∃ r es, fromElement S.browser d = .ok (r, es) ∧
      c.EditKills S (.spliceAtRange c.wholeRange r)

/-- What throws, while the formula `shown` is drawn. -/
def Event.Throws (S : Setting) (c : Component) (v : View) (shown : Row) : Event → Prop
  | .arrow d => c.EditThrows S (.moveCaret d .char)
  | .undoKey => c.EditThrows S .undo
  | .redoKey => c.EditThrows S .redo
  | .otherKey => Component.Unshowable S c.editor.input
  | .beforeInput _ => False
  | .timer => c.TasksThrow S v.after c.tasks
  | .copy => False
  | .cut => ¬ c.CopyPanics ∧ c.EditThrows S (.removeAtCaret .range)
  | .paste json text => ¬ (Op.paste (pasted json text) true).AllPanics S.env c.editor ∧
      (deserializeNodes S.cfg (pasted json text) = none ∨
        c.EditThrows S (.paste (pasted json text) true))
  | .pointerDown pos => ∃ p, layoutPosition v.before pos c.result = .ok p ∧
      c.EditThrows S (.startSelection p .char)
  | .pointerUp pos => ∃ p, layoutPosition v.before pos c.result = .ok p ∧
      c.SelectThrows S shown (.extendSelection p)
  | .pointerCancel pos => ∃ p, layoutPosition v.before pos c.result = .ok p ∧
      c.SelectThrows S shown (.extendSelection p)
  | .pointerMove pos => c.pointerDown = true ∧ ∃ p, layoutPosition v.before pos c.result = .ok p ∧
      c.SelectThrows S shown (.extendSelection p)
  | .mouseDown pos clicks => c.pointerDown = true ∧ ∃ p,
      layoutPosition v.before pos c.result = .ok p ∧
      (clicks = 2 ∧ c.SelectThrows S shown (.startSelection p .word) ∨
        clicks = 3 ∧ c.SelectThrows S shown (.startSelection p .line))
  | .connect d => (∃ e, fromElement S.browser d = .error e) ∨
      ∃ r es, fromElement S.browser d = .ok (r, es) ∧
        ({ c with connected := true } : Component).EditThrows S (.spliceAtRange c.wholeRange r)
  | .disconnect => False
  | .setAttribute d => (∃ e, fromElement S.browser d = .error e) ∨
      ∃ r es, fromElement S.browser d = .ok (r, es) ∧
        c.EditThrows S (.spliceAtRange c.wholeRange r)

/-- The nodes that come from outside are well formed. -/
def Event.GoodData (S : Setting) : Event → Prop
  | .paste json text => ∀ nodes, deserializeNodes S.cfg (pasted json text) = some nodes →
      rowWf nodes = true
  | .connect d | .setAttribute d => ∀ r es, fromElement S.browser d = .ok (r, es) → rowWf r = true
  | _ => True

/-- Nothing gets too large while the event is handled. -/
def Event.Roomy (S : Setting) (c : Component) (v : View) : Event → Prop
  | .timer => c.TasksRoomy S v.after c.tasks
  | _ => True

/-- The states of the component after events with well-formed data. Exceptions are fine,
carets may be lost. -/
inductive Component.Proper (S : Setting) : Component → Prop
  | new {c : Component} (h : Component.new S = .ok c) (hr : S.Roomy c.editor) : Proper S c
  | step {c c' : Component} {v : View} {ev : Event} (h : Proper S c)
      (hs : (c.handle S v ev).left = some c') (hd : ev.GoodData S) (hr : ev.Roomy S c v)
      (hr' : S.Roomy c'.editor) : Proper S c'

end Aftermath
