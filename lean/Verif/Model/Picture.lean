import Verif.Model.Component

/-! # What is drawn for the caret: `renderCarets`, `/repo/src/component/math-editor.ts` 365-427, and
`/repo/src/component/caret/single-caret-element.ts`

`renderCaret` (Model/Layout) says whether this throws; here is what it draws. Line numbers without a
file are those of `single-caret-element.ts`. A box whose vertical extent is infinite gets no place
from the browser; its extent is `none`. -/

namespace Aftermath

/-- The styles of the caret line, 33-48. -/
structure LineStyle where
  left : ℚ
  top : ℚ
  height : ℚ
  marginTop : ℚ
  hidden : Bool

/-- The styles of a selection, 50-63: left, width, and top and height if they are finite. -/
structure BoxStyle where
  left : ℚ
  width : ℚ
  vertical : Option (ℚ × ℚ)

/-- `CaretDomElement`, 4-68: the caret line and the selections. -/
structure CaretElement where
  line : LineStyle
  boxes : List BoxStyle

namespace CaretElement

/-- The constructor, 10-27, with the styles of `caret-styles.css` 19-30 -/
def new : CaretElement := ⟨⟨0, 0, 10, 0, false⟩, []⟩

/-- `setPosition`, 33-37. `origin` is the place of the element that contains the line. -/
def setPosition (origin : Coord) (position : Coord) (e : CaretElement) : CaretElement :=
  { e with line := { e.line with left := position.x - origin.x, top := position.y - origin.y } }

/-- `setHeight`, 39-48 -/
def setHeight (v : ℚ) (e : CaretElement) : CaretElement :=
  { e with line := { e.line with hidden := decide (v ≤ 0), height := v, marginTop := -v } }

/-- `addSelection`, 50-63 -/
def addSelection (origin : Coord) (x width : ℚ) (vertical : Option (ℚ × ℚ)) (e : CaretElement) :
    CaretElement :=
  { e with boxes := e.boxes ++
      [⟨x - origin.x, width, vertical.map fun v => (v.1 - origin.y, v.2)⟩] }

/-- `clearSelections`, 65-67 -/
def clearSelections (e : CaretElement) : CaretElement := { e with boxes := [] }

end CaretElement

/-- `joinRectangles`, `src/rendering/viewport-coordinate.ts` 23-34 -/
def joinRectangles (a b : Rect) : Rect :=
  let top := min a.y b.y
  let left := min a.x b.x
  let bottom := max (a.y + a.height) (b.y + b.height)
  let right := max (a.x + a.width) (b.x + b.width)
  ⟨left, top, right - left, bottom - top⟩

/-- `renderCarets` for one caret, `math-editor.ts` 369-428. The vertical extent of a selection is
given by its top and bottom in the render result, and by its top and height in the style. -/
def drawCaret (G : Geom) (origin : Coord) (root : RElem) : MinSelection → M CaretElement
  | .row r => do
    let s ← viewportSelection G root r
    let isForwards := decide (r.start ≤ r.stop)
    let caretSize ← viewportCaretSize G root r.rowIndices
    let e := (CaretElement.new.setPosition origin
      ⟨s.x + (if isForwards then s.width else 0), s.baseline + caretSize * (1 / 10)⟩).setHeight caretSize
    let e := e.clearSelections
    .ok (if r.start ≠ r.stop then
      e.addSelection origin s.x s.width (s.extent.map fun v => (v.1, v.2 - v.1)) else e)
  | .grid g => do
    let a ← viewportRowBounds G root (g.rowIndices ++ [(g.index, g.range.start)])
    let b ← viewportRowBounds G root
      (g.rowIndices ++ [(g.index, max (g.range.stop - 1) g.range.start)])
    let e := CaretElement.new.clearSelections
    let r := joinRectangles
      ⟨min a.x b.x, min a.y b.y, 0, 0⟩
      ⟨max (a.x + a.width) (b.x + b.width), max (a.y + a.height) (b.y + b.height), 0, 0⟩
    .ok ((e.addSelection origin r.x r.width (some (r.y, r.height))).setHeight 0)

/-- `renderCarets`, `math-editor.ts` 365-428: the elements in the container of the carets, which is emptied first. An
editor has one caret. -/
def Component.drawnCarets (c : Component) (G : Geom) (origin : Coord) (old : List CaretElement) :
    M (List CaretElement) :=
  if c.connected then do
    let sel ← c.editor.getCaret
    let e ← drawCaret G origin c.result sel
    .ok [e]
  else .ok old

end Aftermath
