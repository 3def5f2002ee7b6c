import Verif.Model.Render
import Verif.Model.Caret
import Mathlib.Algebra.Order.Ring.Rat
import Mathlib.Algebra.Order.Field.Basic

/-! # Positions on the screen: `/repo/src/mathml/render-result.ts`, the `getCaretPosition` methods
of `/repo/src/mathml/renderer/*.ts` and `renderCarets` of `/repo/src/component/math-editor.ts`

File references in this file are relative to `/repo/src/mathml` unless they start with `src`.

What the browser reports about the places of DOM nodes is an arbitrary function (`Geom`). A rendered
element is named by its path from the root of the rendered tree. Simplifications: numbers are exact
rationals instead of floating point numbers; distances are squared, which does not change how they
compare. -/

namespace Aftermath

/-- `ViewportCoordinate`, `src/rendering/viewport-coordinate.ts` 7 -/
structure Coord where
  x : ℚ
  y : ℚ

/-- `ViewportRect`, `src/rendering/viewport-coordinate.ts` 9-20 -/
structure Rect where
  x : ℚ
  y : ℚ
  width : ℚ
  height : ℚ

/-- `distanceToRectangle`, `src/rendering/viewport-coordinate.ts` 40-47, squared -/
def distRect (p : Coord) (r : Rect) : ℚ :=
  let dx := max (r.x - p.x) (p.x - (r.x + r.width))
  let dy := max (r.y - p.y) (p.y - (r.y + r.height))
  (max 0 dx) ^ 2 + (max 0 dy) ^ 2

/-- `distanceToPoint`, `src/rendering/viewport-coordinate.ts` 49-51, squared -/
def distPoint (a b : Coord) : ℚ := (b.x - a.x) ^ 2 + (b.y - a.y) ^ 2

/-- What the browser reports. For each rendered element: the bounding box of its DOM element, of its
two baseline readers and of its texts, and its font size. -/
structure Geom where
  own : List Nat → Rect
  startReader : List Nat → Rect
  endReader : List Nat → Rect
  glyph : List Nat → Nat → Rect
  fontSize : List Nat → ℚ

/-- A rendered element together with its path. -/
abbrev Located := List Nat × RElem

/-- The number of symbols of a leaf. -/
def SNode.symbolCount : SNode → Nat
  | .leaf _ _ _ _ ss => ss.length
  | _ => 0

/-- `getTextNodeAt`, `renderer/rendered-leaf.ts` 26-31, together with the access to the text that
follows in both uses; without texts that access throws. -/
def textNodeAt (t : SNode) (off : Nat) : M (Nat × Bool) :=
  let graphemeOffset := off - t.lo
  let atEnd := decide (t.symbolCount ≤ graphemeOffset)
  if t.symbolCount = 0 then .error .unwrapNone
  else .ok (if atEnd then t.symbolCount - 1 else graphemeOffset, atEnd)

/-- `offsetInRange`, `src/core/index.ts` 107-115 -/
def SNode.hasOffset (t : SNode) (off : Nat) : Bool := decide (t.lo ≤ off) && decide (off ≤ t.hi)

/-- The `x` of `getCaretPosition`, `renderer/rendered-text-element.ts` 32-40 and
`rendered-symbol-element.ts` 46-54, with `getViewportXPosition`, `rendered-leaf.ts` 16-24 -/
def leafX (G : Geom) (path : List Nat) (t : SNode) (off : Nat) : M ℚ :=
  let r := G.own path
  if off ≤ t.lo then .ok r.x
  else if t.hi ≤ off then .ok (r.x + r.width)
  else do
    let (i, atEnd) ← textNodeAt t off
    let b := G.glyph path i
    .ok (b.x + if atEnd then b.width else 0)

/-- `getCaretPosition` of the elements that open new rows, `renderer/rendered-rows-element.ts`
44-63, `rendered-root-element.ts` 50-69, `rendered-table-element.ts` 56-75 -/
def rowsCaretPosition (G : Geom) (path : List Nat) (t : SNode) (off : Nat) : M Coord := do
  massert (t.hasOffset off)
  if off = t.lo then .ok ⟨(G.startReader path).x, (G.startReader path).y⟩
  else if off = t.hi then .ok ⟨(G.endReader path).x, (G.endReader path).y⟩
  else .error .explicit

/-- The point in the middle of the lower edge. -/
def Rect.bottomMiddle (r : Rect) : Coord := ⟨(r.x + (r.x + r.width)) / 2, r.y + r.height⟩

mutual
/-- `getCaretPosition` of each class of elements -/
def caretPosition (G : Geom) (path : List Nat) (off : Nat) : RElem → M Coord
  | .mk .nothing t _ _ => do
    -- `renderer/rendered-nothing.ts` 24-31
    massert (off == t.lo)
    .ok (G.own path).bottomMiddle
  | .mk .missing t _ _ => do
    -- `renderer/rendered-missing.ts` 27-33
    massert (off == t.lo)
    .ok (G.own path).bottomMiddle
  | .mk (.text _) t _ _ => do
    -- `renderer/rendered-text-element.ts` 29-44
    massert (t.hasOffset off)
    let x ← leafX G path t off
    let (i, _) ← textNodeAt t off
    .ok ⟨x, (G.glyph path i).y + (G.glyph path i).height⟩
  | .mk (.symbol _ _) t _ _ => do
    -- `renderer/rendered-symbol-element.ts` 43-63
    massert (t.hasOffset off)
    let x ← leafX G path t off
    .ok ⟨x, (G.own path).y + (G.own path).height⟩
  | .mk (.container _) t _ cs => do
    -- `renderer/rendered-container-element.ts` 37-48
    massert (t.hasOffset off)
    caretPositionIn G path 0 off cs
  | .mk (.rows _) t _ _ => rowsCaretPosition G path t off
  | .mk (.root _) t _ _ => rowsCaretPosition G path t off
  | .mk .table t _ _ => rowsCaretPosition G path t off
/-- The search for a child, `renderer/rendered-container-element.ts` 40-47 -/
def caretPositionIn (G : Geom) (path : List Nat) (i off : Nat) : List RElem → M Coord
  | [] => .error .explicit
  | c :: cs =>
    if c.tree.hasOffset off then caretPosition G (path ++ [i]) off c
    else caretPositionIn G path (i + 1) off cs
end

mutual
/-- `getChildWithContainerIndex`, `render-result.ts` 238-254 -/
def childWith (path : List Nat) (index : Nat) : RElem → Located
  | .mk k t ri cs =>
    match t with
    | .children _ _ _ _ => (childWithIn path 0 index cs).getD (path, .mk k t ri cs)
    | _ => (path, .mk k t ri cs)
/-- The loop at `render-result.ts` 244-249 -/
def childWithIn (path : List Nat) (i index : Nat) : List RElem → Option Located
  | [] => none
  | c :: cs =>
    if c.tree.lo ≤ index ∧ index < c.tree.hi then some (childWith (path ++ [i]) index c)
    else childWithIn path (i + 1) index cs
end

/-- The `find` at `render-result.ts` 97 -/
def findRow (path : List Nat) (i indexOfRow : Nat) : List RElem → Option Located
  | [] => none
  | c :: cs =>
    match c.rowIndex with
    | some (_, j) => if j = indexOfRow then some (path ++ [i], c)
      else findRow path (i + 1) indexOfRow cs
    | none => findRow path (i + 1) indexOfRow cs

/-- `getElement`, `render-result.ts` 89-102 -/
def getElement : Located → RowIndices → M Located
  | e, [] => .ok e
  | (path, e), (a, b) :: rest => do
    massert (decide (e.tree.lo ≤ a) && decide (a < e.tree.hi))
    let c := childWith path a e
    match findRow c.1 0 b c.2.children with
    | none => .error .assertion
    | some r => getElement r rest

/-- Joining two heights, `render-result.ts` 52-55. `none` is `emptyHeight`, `render-result.ts`
32-35. -/
def joinHeight : Option (ℚ × ℚ) → Option (ℚ × ℚ) → Option (ℚ × ℚ)
  | none, b => b
  | a, none => a
  | some (t, b), some (t', b') => some (min t t', max b b')

mutual
/-- `getSelectionHeight`, `render-result.ts` 37-65 -/
def selectionHeight (G : Geom) (left right : Nat) (path : List Nat) : RElem → Option (ℚ × ℚ)
  | .mk _ t _ cs =>
    if right ≤ t.lo ∨ t.hi ≤ left then none
    else if ¬ (left ≤ t.lo ∧ t.hi ≤ right) ∧ 0 < cs.length then
      selectionHeightIn G left right path 0 none cs
    else some ((G.own path).y, (G.own path).y + (G.own path).height)
/-- The `map` and `reduce` at `render-result.ts` 49-57 -/
def selectionHeightIn (G : Geom) (left right : Nat) (path : List Nat) (i : Nat)
    (acc : Option (ℚ × ℚ)) : List RElem → Option (ℚ × ℚ)
  | [] => acc
  | c :: cs => selectionHeightIn G left right path (i + 1)
      (joinHeight acc (selectionHeight G left right (path ++ [i]) c)) cs
end

/-- `RenderedSelection`, `src/rendering/rendered-selection.ts` 4-15. The vertical extent is `none`
if it is infinite. -/
structure ViewSelection where
  x : ℚ
  width : ℚ
  extent : Option (ℚ × ℚ)
  baseline : ℚ

/-- `getViewportSelection`, `render-result.ts` 19-80 -/
def viewportSelection (G : Geom) (root : RElem) (r : MinRange) : M ViewSelection := do
  let (path, row) ← getElement ([], root) r.rowIndices
  let base ← caretPosition G path 0 row
  let isForwards := decide (r.start ≤ r.stop)
  let left := if isForwards then r.start else r.stop
  let right := if isForwards then r.stop else r.start
  let start ← caretPosition G path r.start row
  let stop ← caretPosition G path r.stop row
  let extent := if r.start ≠ r.stop then selectionHeight G left right path row
    else some (start.y, start.y)
  .ok ⟨if isForwards then start.x else stop.x, |stop.x - start.x|, extent, base.y⟩

/-- `getViewportRowBounds`, `render-result.ts` 81-84 -/
def viewportRowBounds (G : Geom) (root : RElem) (row : RowIndices) : M Rect := do
  let (path, _) ← getElement ([], root) row
  .ok (G.own path)

/-- `getViewportCaretSize`, `render-result.ts` 85-87, with `getFontSize`,
`renderer/rendered-element.ts` 97-101 -/
def viewportCaretSize (G : Geom) (root : RElem) (row : RowIndices) : M ℚ := do
  let (path, _) ← getElement ([], root) row
  massert (decide (0 < G.fontSize path))
  .ok (G.fontSize path)

/-- `addRowIndex`, `src/input-tree/row-indices.ts` 18-21 -/
def addRowIndex (indices : RowIndices) : Option RowIndex → RowIndices
  | none => indices
  | some ix => indices ++ [ix]

mutual
/-- `getLayoutElementContaining`, `render-result.ts` 108-123 -/
def layoutContaining (G : Geom) (pos : Coord) (path : List Nat) (indices : RowIndices) :
    RElem → Option (Located × RowIndices)
  | .mk k t ri cs =>
    if 0 < distRect pos (G.own path) then none
    else some ((layoutContainingIn G pos path indices 0 cs).getD ((path, .mk k t ri cs), indices))
/-- The loop at `render-result.ts` 115-120 -/
def layoutContainingIn (G : Geom) (pos : Coord) (path : List Nat) (indices : RowIndices) (i : Nat) :
    List RElem → Option (Located × RowIndices)
  | [] => none
  | c :: cs =>
    match layoutContaining G pos (path ++ [i]) (addRowIndex indices c.rowIndex) c with
    | some v => some v
    | none => layoutContainingIn G pos path indices (i + 1) cs
end

/-- `getLayoutElement`, `render-result.ts` 107-131 -/
def layoutElement (G : Geom) (pos : Coord) (root : RElem) : Located × RowIndices :=
  (layoutContaining G pos [] [] root).getD (([], root), [])

/-- Keep the closer one, `render-result.ts` 173-175 and 208-213. Nothing is infinitely far away. -/
def keepCloser {α : Type} (best : Option (α × ℚ)) (new : α × ℚ) : Option (α × ℚ) :=
  match best with
  | some b => if new.2 < b.2 then some new else some b
  | none => some new

/-- The loop of `getClosestPositionInRow`, `render-result.ts` 204-214: the offset and the squared
distance of the best caret position so far. The first number counts the remaining rounds. -/
def closestInRowLoop (G : Geom) (pos : Coord) (e : Located) :
    Nat → Nat → Option (Nat × ℚ) → M (Option (Nat × ℚ))
  | 0, _, best => .ok best
  | n + 1, i, best => do
    let c ← caretPosition G e.1 i e.2
    closestInRowLoop G pos e n (i + 1) (keepCloser best (i, distPoint pos c))

/-- `getClosestPositionInRow`, `render-result.ts` 192-217. The distance is returned instead of the
position it is computed from (176). -/
def closestInRow (G : Geom) (pos : Coord) (e : Located) : M (Option (Nat × ℚ)) :=
  closestInRowLoop G pos e (e.2.tree.hi + 1 - e.2.tree.lo) e.2.tree.lo none

mutual
/-- `getNewRowsChildren`, `render-result.ts` 222-225 -/
def newRowsChildren (path : List Nat) : RElem → List Located
  | .mk _ _ _ cs => newRowsChildrenIn path 0 cs
/-- The `flatMap` at `render-result.ts` 224 -/
def newRowsChildrenIn (path : List Nat) (i : Nat) : List RElem → List Located
  | [] => []
  | c :: cs =>
    (match c.rowIndex with
    | some _ => [(path ++ [i], c)]
    | none => newRowsChildren (path ++ [i]) c) ++ newRowsChildrenIn path (i + 1) cs
end

/-- The best caret position so far in `getLayoutPosition`, with its squared distance. -/
abbrev Closest := Option (MinPos × ℚ)

/-- The comparison at `render-result.ts` 161-163 -/
def tooFar (G : Geom) (pos : Coord) (e : Located) : Closest → Bool
  | some b => decide (b.2 < distRect pos (G.own e.1))
  | none => false

/-- The loop of `getLayoutPosition`, `render-result.ts` 155-189. The end of the array `roots` is the
head of the list. The fuel bounds the rounds. -/
def layoutLoop (G : Geom) (pos : Coord) :
    Nat → List (Located × RowIndices) → Closest → M Closest
  | _, [], best => .ok best
  | 0, _ :: _, _ => .error .fuel
  | n + 1, (e, indices) :: roots, best => do
    if tooFar G pos e best then layoutLoop G pos n roots best
    else
      match ← closestInRow G pos e with
      | none => layoutLoop G pos n roots best
      | some (off, d) =>
        layoutLoop G pos n
          (((newRowsChildren e.1 e.2).map fun v => (v, addRowIndex indices v.2.rowIndex)).reverse ++
            roots) (keepCloser best (⟨indices, off⟩, d))

mutual
/-- The number of rendered elements. -/
def RElem.count : RElem → Nat
  | .mk _ _ _ cs => 1 + countAll cs
/-- see `RElem.count` -/
def countAll : List RElem → Nat
  | [] => 0
  | e :: es => e.count + countAll es
end

/-- `getLayoutPosition`, `render-result.ts` 133-229 -/
def layoutPosition (G : Geom) (pos : Coord) (root : RElem) : M MinPos := do
  let start := layoutElement G pos root
  match ← layoutLoop G pos start.1.2.count [start] none with
  | none => .error .assertion
  | some (m, _) => .ok m

/-- `renderCarets` for one caret, `src/component/math-editor.ts` 369-428: what is read from the
render result. Where on the screen the result is drawn is left out. -/
def renderCaret (G : Geom) (root : RElem) : MinSelection → M Unit
  | .row r => do
    let _ ← viewportSelection G root r
    let _ ← viewportCaretSize G root r.rowIndices
    .ok ()
  | .grid g => do
    let _ ← viewportRowBounds G root (g.rowIndices ++ [(g.index, g.range.start)])
    let _ ← viewportRowBounds G root (g.rowIndices ++ [(g.index, max (g.range.stop - 1) g.range.start)])
    .ok ()

end Aftermath
