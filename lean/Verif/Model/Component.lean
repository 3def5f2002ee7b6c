import Verif.Model.Layout
import Verif.Model.MathML
import Verif.Model.DefaultGrammar
import Verif.Model.Editor

/-! # The component: `/repo/src/component/math-editor.ts`, with the autocomplete rules of
`/repo/aftermath-core/parser/src/rule_collections/*.rs`

Line numbers without a file are those of `math-editor.ts`. An exception in a handler is an error
value; what the component does after an exception is not modelled. Left out: focus, pointer capture,
events of pointers that are not primary (they are ignored, 236, 246, 257, 289), logging, styles, and
the unused autocomplete popup. -/

namespace Aftermath

/-- `get_autocomplete_rules` of each module in the order of `src/core/index.ts` 72-82, after the
built-in one (`aftermath-core/web/src/math_parser.rs` 46): `built_in_rules.rs` 257-262,
`arithmetic_rules.rs` 116-121, `calculus_rules.rs` 79-89, `collections_rules.rs` 52-57,
`comparison_rules.rs` 76-81. The modules Core, Function, Logic and String have none. The result is
reversed by `parser.rs` 26-32. -/
def shippedAutocomplete : List AutocompleteRule :=
  List.reverse [⟨['^'], [.sup []]⟩, ⟨['_'], [.sub []]⟩,
    ⟨['/'], [.fraction [] []]⟩, ⟨['s', 'q', 'r', 't'], [.root [] []]⟩,
    ⟨['i', 'n', 'f', 'i', 'n', 'i', 't', 'y'], [.symbol ['∞']]⟩,
    ⟨['l', 'i', 'm'], [.symbol ['l'], .symbol ['i'], .symbol ['m']]⟩,
    ⟨['l', 'i', 'm', 's', 'u', 'p'],
      [.symbol ['l'], .symbol ['i'], .symbol ['m'], .symbol ['s'], .symbol ['u'], .symbol ['p']]⟩,
    ⟨['l', 'i', 'm', 'i', 'n', 'f'],
      [.symbol ['l'], .symbol ['i'], .symbol ['m'], .symbol ['i'], .symbol ['n'], .symbol ['f']]⟩,
    ⟨['s', 'u', 'm'], [.symbol ['∑']]⟩,
    ⟨['i', 'n', 't', 'e', 'g', 'r', 'a', 'l'], [.symbol ['∫']]⟩,
    ⟨['i', 'n', 't', 'e', 'g', 'r', 'a', 't', 'e'], [.symbol ['∫']]⟩,
    ⟨['v', 'e', 'c', 't', 'o', 'r'], [.container .table [[]] 1]⟩,
    ⟨['m', 'a', 't', 'r', 'i', 'x'], [.container .table [[]] 1]⟩,
    ⟨['>', '='], [.symbol ['≥']]⟩, ⟨['<', '='], [.symbol ['≤']]⟩]

/-- What a component is given and never changes: the build of the editor, the parser, the renderer
(126-128) and the browser. -/
structure Setting where
  cfg : Cfg
  grammar : Grammar
  renderers : Renderers
  browser : Browser

/-- The environment of the editor made at line 73. -/
def Setting.env (S : Setting) : Env SNode := ⟨S.cfg, S.grammar.parse, shippedAutocomplete⟩

/-- What a `beforeinput` event asks for, 161-179. The data of `insertText` may be `null`. -/
inductive InputEvent
  | deleteBackward
  | deleteForward
  | insertText (data : Option Str)
  | other
  deriving DecidableEq

/-- The component, 46-56: the editor, the syntax tree and the render result that are kept between
events, the variable `isPointerDown` (233), whether it is part of a document, the tasks of the
`RenderTaskQueue` (27-44), and the data last put into the clipboard. -/
structure Component where
  editor : Editor SNode
  tree : SNode
  result : RElem
  pointerDown : Bool
  connected : Bool
  tasks : List InputEvent
  clipboard : Option Str

/-- What the browser reports about places when an event arrives and while the carets are drawn. -/
structure View where
  before : Geom
  after : Geom

/-- The events. Keys, 144-159: an arrow, Ctrl+Z, Ctrl+Y, any other. `timer` is the `run` of the task
queue (38-43). The text of `paste` is the clipboard's `application/json` and `text/plain`. -/
inductive Event
  | arrow (d : Dir)
  | undoKey
  | redoKey
  | otherKey
  | beforeInput (i : InputEvent)
  | timer
  | copy
  | cut
  | paste (json text : Str)
  | pointerDown (pos : Coord)
  | pointerUp (pos : Coord)
  | pointerCancel (pos : Coord)
  | pointerMove (pos : Coord)
  | mouseDown (pos : Coord) (clicks : Nat)
  | connect (d : Dom)
  | disconnect
  | setAttribute (d : Dom)

namespace Component

/-- `renderCarets`, 365-427 -/
def renderCarets (c : Component) (G : Geom) : M Unit :=
  if c.connected then do
    let sel ← c.editor.getCaret
    renderCaret G c.result sel
  else .ok ()

/-- `updateInput`, 340-363. The carets are drawn twice, with the same result. -/
def updateInput (S : Setting) (c : Component) (G : Geom) : M Component := do
  let (ed, t) ← c.editor.getSyntaxTree S.env
  let e ← renderAll S.renderers t
  let c := { c with editor := ed, tree := t, result := e }
  c.renderCarets G
  .ok c

/-- The editor call of a key or a task, then `updateInput`. -/
def edit (S : Setting) (c : Component) (G : Geom) (op : Op) : M Component := do
  let ed ← c.editor.step S.env op
  ({ c with editor := ed }).updateInput S G

/-- One task, 163-178 -/
def runTask (S : Setting) (c : Component) (G : Geom) : InputEvent → M Component
  | .deleteBackward => c.edit S G (.removeAtCaret .left)
  | .deleteForward => c.edit S G (.removeAtCaret .right)
  | .insertText none => .ok c
  | .insertText (some data) => c.edit S G (.insertAtCaret (S.browser.split data))
  | .other => .ok c

/-- `RenderTaskQueue.run`, 38-43 -/
def runTasks (S : Setting) (c : Component) (G : Geom) : List InputEvent → M Component
  | [] => .ok c
  | t :: ts => do
    let c ← c.runTask S G t
    c.runTasks S G ts

/-- The handler of `copy`, 182-193; `mathEditor.copy` returns an error or the data. -/
def copyData (c : Component) : M Component := do
  let data ← c.editor.copy
  .ok { c with clipboard := some data }

/-- An editor call of the pointer handlers without `updateInput`, e.g. 294-295 -/
def select (S : Setting) (c : Component) (G : Geom) (op : Op) : M Component := do
  let ed ← c.editor.step S.env op
  let c := { c with editor := ed }
  c.renderCarets G
  .ok c

/-- The handlers of `pointerup` and `pointercancel`, 245-267 -/
def release (S : Setting) (c : Component) (v : View) (pos : Coord) : M Component := do
  let p ← layoutPosition v.before pos c.result
  let ed ← c.editor.extendSelection S.env p
  let c := { c with editor := ed.finishSelection, pointerDown := false }
  c.renderCarets v.after
  .ok c

/-- `attributeChangedCallback`, 308-331 -/
def setMathML (S : Setting) (c : Component) (G : Geom) (d : Dom) : M Component := do
  let ed ← c.editor.setMathML S.env S.browser c.tree.lo c.tree.hi d
  ({ c with editor := ed }).updateInput S G

/-- The event handlers: keys 144-159, `beforeinput` 161-180, clipboard 182-220, pointer 235-296,
callbacks 299-331. An error returned by `paste` (`aftermath-core/web/src/math_editor.rs` 89-97) is
thrown as an exception. -/
def step (S : Setting) (c : Component) (v : View) : Event → M Component
  | .arrow d => c.edit S v.after (.moveCaret d .char)
  | .undoKey => c.edit S v.after .undo
  | .redoKey => c.edit S v.after .redo
  | .otherKey => c.updateInput S v.after
  | .beforeInput i => .ok { c with tasks := c.tasks ++ [i] }
  | .timer => ({ c with tasks := [] }).runTasks S v.after c.tasks
  | .copy => c.copyData
  | .cut => do
    let c ← c.copyData
    c.edit S v.after (.removeAtCaret .range)
  | .paste json text => do
    let (ed, ok) ← c.editor.paste S.env (if json.isEmpty then text else json) true
    if ok then ({ c with editor := ed }).updateInput S v.after else .error .explicit
  | .pointerDown pos => do
    let p ← layoutPosition v.before pos c.result
    ({ c with pointerDown := true }).edit S v.after (.startSelection p .char)
  | .pointerUp pos => c.release S v pos
  | .pointerCancel pos => c.release S v pos
  | .pointerMove pos =>
    if c.pointerDown then do
      let p ← layoutPosition v.before pos c.result
      c.select S v.after (.extendSelection p)
    else .ok c
  | .mouseDown pos clicks =>
    if c.pointerDown then do
      let p ← layoutPosition v.before pos c.result
      if clicks = 2 then c.select S v.after (.startSelection p .word)
      else if clicks = 3 then c.select S v.after (.startSelection p .line)
      else .ok c
    else .ok c
  | .connect d => ({ c with connected := true }).setMathML S v.after d
  | .disconnect => .ok { c with connected := false }
  | .setAttribute d => c.setMathML S v.after d

/-- The constructor, 59-141. It is not part of a document yet, so no carets are drawn -/
def new (S : Setting) : M Component := do
  let (ed, t) ← (Editor.new : Editor SNode).getSyntaxTree S.env
  let e ← renderAll S.renderers t
  .ok ⟨ed, t, e, false, false, [], none⟩

/-- A sequence of events, stopping at the first exception. -/
def run (S : Setting) : Component → List (View × Event) → M Component
  | c, [] => .ok c
  | c, (v, ev) :: evs => do
    let c ← c.step S v ev
    c.run S evs

end Component

end Aftermath
