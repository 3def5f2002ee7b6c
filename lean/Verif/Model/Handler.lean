import Verif.Model.Component

/-! # Exceptions in the event handlers of `src/component/math-editor.ts`

`Component.step` stops at the first exception. Here it is told apart what happens. A panic in Rust
ends a WebAssembly call in the middle, and no call works afterwards. An exception thrown by
TypeScript code leaves the component as it was at that point, and later events go on from there.
Citations without a file name are of `math-editor.ts`. -/

namespace Aftermath

/-- How the handler of an event ends. -/
inductive Handled
  | fine (c : Component)
  | thrown (c : Component)
  | dead

namespace Handled

/-- Go on unless there was an exception. -/
def bind (o : Handled) (f : Component → Handled) : Handled :=
  match o with
  | fine c => f c
  | thrown c => thrown c
  | dead => dead

/-- The component that is left, if there is one. -/
def left : Handled → Option Component
  | fine c => some c
  | thrown c => some c
  | dead => none

/-- A call of the editor: an error is a panic. -/
def call {α : Type} (m : M α) (f : α → Handled) : Handled :=
  match m with
  | .ok a => f a
  | .error _ => dead

/-- A computation in TypeScript: an error is an exception, and the component stays as it is. -/
def script {α : Type} (c : Component) (m : M α) (f : α → Handled) : Handled :=
  match m with
  | .ok a => f a
  | .error _ => thrown c

end Handled

namespace Component

/-- `renderCarets`, 365-427 -/
def drawCarets (c : Component) (G : Geom) : Handled :=
  if c.connected then
    .call c.editor.getCaret fun sel => .script c (renderCaret G c.result sel) fun _ => .fine c
  else .fine c

/-- `updateInput`, 340-363: `this.syntaxTree` is set before the renderer is called, and
`this.renderResult` after it. -/
def redraw (S : Setting) (c : Component) (G : Geom) : Handled :=
  .call (c.editor.getSyntaxTree S.env) fun (ed, t) =>
    let c := { c with editor := ed, tree := t }
    .script c (renderAll S.renderers t) fun e => ({ c with result := e }).drawCarets G

/-- The editor call of a key or a task, then `updateInput`. -/
def handleEdit (S : Setting) (c : Component) (G : Geom) (op : Op) : Handled :=
  .call (c.editor.step S.env op) fun ed => ({ c with editor := ed }).redraw S G

/-- One task, 163-178 -/
def handleTask (S : Setting) (c : Component) (G : Geom) : InputEvent → Handled
  | .deleteBackward => c.handleEdit S G (.removeAtCaret .left)
  | .deleteForward => c.handleEdit S G (.removeAtCaret .right)
  | .insertText none => .fine c
  | .insertText (some data) => c.handleEdit S G (.insertAtCaret (S.browser.split data))
  | .other => .fine c

/-- `RenderTaskQueue.run`, 38-43. A task is taken off the queue before it runs, so after an
exception the other ones are still there. -/
def handleTasks (S : Setting) (G : Geom) : Component → List InputEvent → Handled
  | c, [] => .fine c
  | c, t :: ts => (({ c with tasks := ts }).handleTask S G t).bind fun c => c.handleTasks S G ts

/-- The handler of `copy`, 182-193 -/
def handleCopy (c : Component) (f : Component → Handled) : Handled :=
  .call c.editor.copy fun data => f { c with clipboard := some data }

/-- An editor call of the pointer handlers without `updateInput`, e.g. 294-295 -/
def handleSelect (S : Setting) (c : Component) (G : Geom) (op : Op) : Handled :=
  .call (c.editor.step S.env op) fun ed => ({ c with editor := ed }).drawCarets G

/-- The handlers of `pointerup` and `pointercancel`, 245-267. `isPointerDown` is reset first. -/
def handleRelease (S : Setting) (c : Component) (v : View) (pos : Coord) : Handled :=
  let c := { c with pointerDown := false }
  .script c (layoutPosition v.before pos c.result) fun p =>
    .call (c.editor.extendSelection S.env p) fun ed =>
      ({ c with editor := ed.finishSelection }).drawCarets v.after

/-- `attributeChangedCallback`, 308-331 -/
def handleMathML (S : Setting) (c : Component) (G : Geom) (d : Dom) : Handled :=
  .script c (fromElement S.browser d) fun (root, _) =>
    .call (c.editor.spliceAtRange S.env ⟨[], c.tree.lo, c.tree.hi⟩ root) fun ed =>
      ({ c with editor := ed }).redraw S G

/-- The event handlers, see `Component.step`. An error returned by `paste`
(`aftermath-core/web/src/math_editor.rs` 89-97) is thrown after the call is over. -/
def handle (S : Setting) (c : Component) (v : View) : Event → Handled
  | .arrow d => c.handleEdit S v.after (.moveCaret d .char)
  | .undoKey => c.handleEdit S v.after .undo
  | .redoKey => c.handleEdit S v.after .redo
  | .otherKey => c.redraw S v.after
  | .beforeInput i => .fine { c with tasks := c.tasks ++ [i] }
  | .timer => c.handleTasks S v.after c.tasks
  | .copy => c.handleCopy .fine
  | .cut => c.handleCopy fun c => c.handleEdit S v.after (.removeAtCaret .range)
  | .paste json text =>
    .call (c.editor.paste S.env (if json.isEmpty then text else json) true) fun (ed, ok) =>
      let c := { c with editor := ed }
      if ok then c.redraw S v.after else .thrown c
  | .pointerDown pos =>
    .script c (layoutPosition v.before pos c.result) fun p =>
      ({ c with pointerDown := true }).handleEdit S v.after (.startSelection p .char)
  | .pointerUp pos => c.handleRelease S v pos
  | .pointerCancel pos => c.handleRelease S v pos
  | .pointerMove pos =>
    if c.pointerDown then
      .script c (layoutPosition v.before pos c.result) fun p =>
        c.handleSelect S v.after (.extendSelection p)
    else .fine c
  | .mouseDown pos clicks =>
    if c.pointerDown then
      .script c (layoutPosition v.before pos c.result) fun p =>
        if clicks = 2 then c.handleSelect S v.after (.startSelection p .word)
        else if clicks = 3 then c.handleSelect S v.after (.startSelection p .line)
        else .fine c
    else .fine c
  | .connect d => ({ c with connected := true }).handleMathML S v.after d
  | .disconnect => .fine { c with connected := false }
  | .setAttribute d => c.handleMathML S v.after d

/-- A sequence of events, going on after exceptions. `none` after a panic. -/
def handleAll (S : Setting) : Component → List (View × Event) → Option Component
  | c, [] => some c
  | c, (v, ev) :: evs => (c.handle S v ev).left.bind fun c => c.handleAll S evs

end Component

end Aftermath
