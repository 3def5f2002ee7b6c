import Verif.Model.Editor

/-! # Reading MathML: `/repo/src/mathml/parsing.ts`

File references in this file are relative to `/repo`. -/

namespace Aftermath

/-- `element.tagName.toLowerCase()`, as `tagIs` (`src/mathml/parsing.ts` 200-202) sees it. The tags
that `toMathLayout` asks for have constructors of their own. -/
inductive Tag
  | math | mrow | mtd | semantics | mtext | ms | mi | mn | mo | mfrac | msqrt | mroot | msub | msup
  | msubsup | munder | mover | munderover | mtable | mtr | mstyle
  | other (name : Str)
  deriving DecidableEq, Repr

/-- A DOM element as far as `parsing.ts` looks at it: the tag, `textContent` and the element
children. Simplification: `textContent` is stored; in the DOM it is computed from the text nodes
below the element. -/
inductive Dom
  | elem (tag : Tag) (text : Str) (children : List Dom)

namespace Dom

/-- `tagName` -/
def tag : Dom → Tag
  | elem t _ _ => t

/-- `children` -/
def children : Dom → List Dom
  | elem _ _ cs => cs

end Dom

/-- What the browser provides: `String.prototype.trim` (`parsing.ts` 182-185), `unicodeSplit`
(187-195, with or without `Intl.Segmenter`) and `String.prototype.normalize("NFD")` (15-19). -/
structure Browser where
  trim : Str → Str
  split : Str → List Str
  nfd : Str → Str

/-- The errors collected while reading, `parsing.ts` 153, 169, 176. -/
inductive ImportError
  | unexpectedChildren
  | unknownElement (t : Tag)
  | expectedChildren (n : Nat) (t : Tag)
  deriving DecidableEq, Repr

/-- `InputRow | InputNode`; which of the two it is is asked with `isInputRow`
(`src/core/index.ts` 84-92). -/
inductive LayoutItem
  | row (r : Row)
  | node (n : Node)

/-- The return type of `toMathLayout`, `parsing.ts` 78: one item or an array of items. -/
inductive Layout
  | one (i : LayoutItem)
  | many (is : List LayoutItem)

/-- What `flatMap` puts into the result, and `parsing.ts` 106-108: an array or the array of one
item. -/
def Layout.items : Layout → List LayoutItem
  | .one i => [i]
  | .many is => is

/-- The closure at `parsing.ts` 216-222 -/
def LayoutItem.nodes : LayoutItem → List Node
  | .row r => r
  | .node n => [n]

/-- `wrapInRow`, `parsing.ts` 204-224 (never called with `null`) -/
def wrapInRow : Layout → Row
  | .one (.row r) => r
  | .one (.node n) => [n].flatMap fun n => LayoutItem.nodes (.node n)
  | .many is => is.flatMap LayoutItem.nodes

/-- `symbol`, `parsing.ts` 15-19 -/
def Browser.symbol (b : Browser) (s : Str) : Node := .symbol (b.nfd s)

/-- `getText` and `unicodeSplit`, mapped to symbols, `parsing.ts` 87, 89 and 91 -/
def Browser.symbols (b : Browser) (text : Str) : List LayoutItem :=
  (b.split (b.trim text)).map fun v => .node (b.symbol v)

/-- `symbol("Error")` -/
def Browser.errorSymbol (b : Browser) : Layout := .one (.node (b.symbol ['E', 'r', 'r', 'o', 'r']))

/-- `table`, `parsing.ts` 64-74 -/
def mlTable (cells : List Row) (w : Nat) : Node := .container .table cells w

/-- `[...c.children].every((cc) => tagIs(cc, "mtd"))` for every row `c`, which is an `mtr`,
`parsing.ts` 152 -/
def isTable (rows : List Dom) : Bool :=
  rows.all fun r => r.tag == .mtr && r.children.all fun c => c.tag == .mtd

/-- `children.map((c) => c.children.length).reduce(Math.max, 0)`, `parsing.ts` 157 -/
def tableWidth (rows : List Dom) : Nat := (rows.map fun r => r.children.length).foldl max 0

/-- The cells of one row of the table, filled up with empty rows, `parsing.ts` 159-163 -/
def padCells (w : Nat) (cells : List Row) : List Row :=
  (List.range w).map fun i => (cells[i]?).getD []

mutual
/-- `toMathLayout`, `parsing.ts` 78-172. `children[0]` of an element without children is
`undefined`, and looking at its `children` is a `TypeError` (lines 79, 105, 111, 117); this is the
panic `unwrapNone`. The second component are the errors pushed, in order. -/
def toLayout (b : Browser) : Dom → M (Layout × List ImportError)
  | .elem .math _ cs => do
    let (ls, es) ← toLayouts b cs
    .ok (.one (.row (wrapInRow (.many (ls.flatMap Layout.items)))), es)
  | .elem .mrow _ cs => do
    let (ls, es) ← toLayouts b cs
    .ok (.one (.row (wrapInRow (.many (ls.flatMap Layout.items)))), es)
  | .elem .mtd _ cs => do
    let (ls, es) ← toLayouts b cs
    .ok (.one (.row (wrapInRow (.many (ls.flatMap Layout.items)))), es)
  | .elem .semantics _ (c :: _) => toLayout b c
  | .elem .mtext text _ =>
    .ok (.many (.node (b.symbol ['"']) :: b.symbols text ++ [.node (b.symbol ['"'])]), [])
  | .elem .ms text _ =>
    .ok (.many (.node (b.symbol ['"']) :: b.symbols text ++ [.node (b.symbol ['"'])]), [])
  | .elem .mi text _ => .ok (.many (b.symbols text), [])
  | .elem .mn text _ => .ok (.many (b.symbols text), [])
  | .elem .mo text _ => .ok (.many (b.symbols text), [])
  | .elem .mfrac _ [x, y] => do
    let (lx, ex) ← toLayout b x
    let (ly, ey) ← toLayout b y
    .ok (.one (.node (.fraction (wrapInRow lx) (wrapInRow ly))), ex ++ ey)
  | .elem .mfrac _ _ => .ok (b.errorSymbol, [.expectedChildren 2 .mfrac])
  | .elem .msqrt _ cs => do
    let (ls, es) ← toLayouts b cs
    .ok (.one (.node (.root (wrapInRow (.one (.node (b.symbol ['2']))))
      (wrapInRow (.many (ls.flatMap Layout.items))))), es)
  | .elem .mroot _ [x, y] => do
    let (ly, ey) ← toLayout b y
    let (lx, ex) ← toLayout b x
    .ok (.one (.node (.root (wrapInRow ly) (wrapInRow lx))), ey ++ ex)
  | .elem .mroot _ _ => .ok (b.errorSymbol, [.expectedChildren 2 .mroot])
  | .elem .msub _ [] => .error .unwrapNone
  | .elem .msub _ [x, y] => do
    let (lx, ex) ← toLayout b x
    let (ly, ey) ← toLayout b y
    .ok (.many (lx.items ++ [.node (.sub (wrapInRow ly))]), ex ++ ey)
  | .elem .msub _ (x :: _) => do
    let (_, ex) ← toLayout b x
    .ok (b.errorSymbol, ex ++ [.expectedChildren 2 .msub])
  | .elem .msup _ [] => .error .unwrapNone
  | .elem .msup _ [x, y] => do
    let (lx, ex) ← toLayout b x
    let (ly, ey) ← toLayout b y
    .ok (.many (lx.items ++ [.node (.sup (wrapInRow ly))]), ex ++ ey)
  | .elem .msup _ (x :: _) => do
    let (_, ex) ← toLayout b x
    .ok (b.errorSymbol, ex ++ [.expectedChildren 2 .msup])
  | .elem .msubsup _ [] => .error .unwrapNone
  | .elem .msubsup _ [x, y, z] => do
    let (lx, ex) ← toLayout b x
    let (ly, ey) ← toLayout b y
    let (lz, ez) ← toLayout b z
    .ok (.many (lx.items ++ [.node (.sub (wrapInRow ly)), .node (.sup (wrapInRow lz))]),
      ex ++ (ey ++ ez))
  | .elem .msubsup _ (x :: _) => do
    let (_, ex) ← toLayout b x
    .ok (b.errorSymbol, ex ++ [.expectedChildren 3 .msubsup])
  | .elem .munder _ [x, y] => do
    let (lx, ex) ← toLayout b x
    let (ly, ey) ← toLayout b y
    .ok (.many ((wrapInRow lx).map .node ++ [.node (.sub (wrapInRow ly))]), ex ++ ey)
  | .elem .munder _ _ => .ok (b.errorSymbol, [.expectedChildren 2 .munder])
  | .elem .mover _ [x, y] => do
    let (lx, ex) ← toLayout b x
    let (ly, ey) ← toLayout b y
    .ok (.many ((wrapInRow lx).map .node ++ [.node (.sup (wrapInRow ly))]), ex ++ ey)
  | .elem .mover _ _ => .ok (b.errorSymbol, [.expectedChildren 2 .mover])
  | .elem .munderover _ [x, y, z] => do
    let (lx, ex) ← toLayout b x
    let (ly, ey) ← toLayout b y
    let (lz, ez) ← toLayout b z
    .ok (.many ((wrapInRow lx).map .node ++
      [.node (.sub (wrapInRow ly)), .node (.sup (wrapInRow lz))]), ex ++ (ey ++ ez))
  | .elem .munderover _ _ => .ok (b.errorSymbol, [.expectedChildren 3 .munderover])
  | .elem .mtable _ rows =>
    if isTable rows then do
      let (cells, es) ← toTableCells b (tableWidth rows) rows
      .ok (.one (.node (mlTable cells (tableWidth rows))), es)
    else .ok (b.errorSymbol, [.unexpectedChildren])
  | .elem .mstyle _ _ => .ok (.many [], [])
  | .elem t _ _ => .ok (b.errorSymbol, [.unknownElement t])
/-- `toMathLayout` of one child after the other, as in `children.flatMap` (`parsing.ts` 83) -/
def toLayouts (b : Browser) : List Dom → M (List Layout × List ImportError)
  | [] => .ok ([], [])
  | d :: ds => do
    let (l, e) ← toLayout b d
    let (ls, es) ← toLayouts b ds
    .ok (l :: ls, e ++ es)
/-- The cells of all rows of a table, `parsing.ts` 159-163 -/
def toTableCells (b : Browser) (w : Nat) : List Dom → M (List Row × List ImportError)
  | [] => .ok ([], [])
  | .elem _ _ cs :: rows => do
    let (ls, e) ← toLayouts b cs
    let (cells, es) ← toTableCells b w rows
    .ok (padCells w (ls.map wrapInRow) ++ cells, e ++ es)
end

/-- `fromElement`, `parsing.ts` 8-14 -/
def fromElement (b : Browser) (d : Dom) : M (Row × List ImportError) := do
  massert (d.tag == .math)
  let (l, es) ← toLayout b d
  match l with
  | .one (.row r) => .ok (r, es)
  | _ => .error .assertion

/-- What setting the attribute `mathml` does to the editor: `attributeChangedCallback`,
`src/component/math-editor.ts` 308-327, without `updateInput`. `lo` and `hi` are the range of
`this.syntaxTree`, the syntax tree last asked for. The errors are only logged. -/
def Editor.setMathML {T : Type} (env : Env T) (b : Browser) (ed : Editor T) (lo hi : Nat) (d : Dom) :
    M (Editor T) := do
  let (root, _) ← fromElement b d
  ed.spliceAtRange env ⟨[], lo, hi⟩ root

end Aftermath
