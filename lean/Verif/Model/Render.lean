import Verif.Model.MathML
import Verif.Model.DefaultGrammar

/-! # Rendering: `/repo/src/mathml/renderer.ts` and `/repo/src/mathml/renderer/*.ts`

File references in this file are relative to `/repo/src/mathml`. A failed `assert` or another
exception is an error of `M`. Only what is shown is modelled; attributes for debugging and styles
are left out. -/

namespace Aftermath

/-- The render functions registered in `renderer.ts` 47-207. Functions with the same body have one
constructor. -/
inductive RKind
  | nothing
  | whitespace
  | whitespaces
  | operator
  | fraction
  | sup
  | sub
  | root
  | table
  | missingToken
  | unknownToken
  /-- `SimpleContainerMathMLElement` with tag `mrow` and no options -/
  | container
  /-- the same with `stretchyOperators: true` (135-138) -/
  | brackets
  /-- `TextMathMLElement` -/
  | text (tag : Tag)
  deriving DecidableEq, Repr

/-- The calls of `add` in `renderer.ts` 47-207, in order. -/
def rendererTable : List (String × List String × RKind) :=
  [("BuiltIn", ["Nothing"], .nothing),
    ("BuiltIn", ["Whitespace"], .whitespace),
    ("BuiltIn", ["Whitespaces"], .whitespaces),
    ("BuiltIn", ["Operator"], .operator),
    ("BuiltIn", ["Fraction"], .fraction),
    ("BuiltIn", ["Sup"], .sup),
    ("BuiltIn", ["Sub"], .sub),
    ("BuiltIn", ["Root"], .root),
    ("BuiltIn", ["Table"], .table),
    ("Error", ["MissingToken"], .missingToken),
    ("Error", ["UnknownToken"], .unknownToken),
    ("Error", ["MissingOperator"], .container),
    ("Core", ["Variable"], .text .mi),
    ("Core", ["RoundBrackets"], .brackets),
    ("Arithmetic", ["Number"], .text .mn),
    ("Arithmetic", ["Add", "Subtract", "Multiply", "Divide", "Exponent", "Factorial"], .container),
    ("Calculus", ["Infinity"], .text .mi),
    ("Calculus", ["Lim", "LimSup", "LimInf"], .container),
    ("Calculus", ["Integral", "Sum"], .container),
    ("Comparison", ["Equals", "GreaterThan", "LessThan", "GreaterThanOrEquals", "LessThanOrEquals"],
      .container),
    ("Collections", ["Tuple"], .container),
    ("Function", ["FunctionApplication"], .container),
    ("String", ["String"], .text .mtext),
    ("Logic", ["True", "False"], .text .mi),
    ("Logic", ["And", "Or", "Not", "Equivalent", "Implies"], .container)]

/-- `joinPathIdentifier`, `renderer.ts` 22-24 -/
def joinPath (p : PathId) : Str := [':', ':'].intercalate p

/-- The map given to the renderer, `src/component/math-editor.ts` 126-128: `new Map` of the
entries. -/
def joinNames (m : NameMap) : List (Str × Nat) :=
  m.values.foldl (fun acc e => hashInsert acc (joinPath e.1) e.2) []

/-- `this.renderers`, `renderer.ts` 29-36 -/
abbrev Renderers := List (Nat × RKind)

/-- `addRenderer`, `renderer.ts` 220-251: a name without id is only warned about. -/
def addRenderer (names : List (Str × Nat)) (k : RKind) (rs : Renderers) (p : PathId) : M Renderers :=
  match hashGet names (joinPath p) with
  | none => .ok rs
  | some id => do
    massert (hashGet rs id).isNone
    .ok (hashInsert rs id k)

/-- `add`, `renderer.ts` 255-269 -/
def addRenderers (names : List (Str × Nat)) (rs : Renderers) (e : String × List String × RKind) :
    M Renderers :=
  e.2.1.foldlM (fun rs n => addRenderer names e.2.2 rs [e.1.toList, n.toList]) rs

/-- The constructor of `MathMLRenderer`, `renderer.ts` 40-212. The last loop asserts that every
registered name has a renderer. -/
def newRenderer (names : List (Str × Nat)) : M Renderers := do
  let rs ← rendererTable.foldlM (addRenderers names) []
  massert (names.all fun e => (hashGet rs e.2).isSome)
  .ok rs

/-- The classes of rendered elements, `renderer/rendered-*.ts` -/
inductive EKind
  | nothing
  | missing
  | text (tag : Tag)
  | symbol (tag : Tag) (stretchy : Bool)
  | container (tag : Tag)
  | rows (tag : Tag)
  | root (tag : Tag)
  | table
  deriving DecidableEq, Repr

/-- A rendered element: its class, `syntaxTree`, `rowIndex` and `getChildren()`
(`src/rendering/render-result.ts` 65-98). -/
inductive RElem
  | mk (kind : EKind) (tree : SNode) (rowIndex : Option RowIndex) (children : List RElem)

namespace RElem
/-- the class of the element -/
def kind : RElem → EKind
  | mk k _ _ _ => k
/-- `syntaxTree` -/
def tree : RElem → SNode
  | mk _ t _ _ => t
/-- `rowIndex` -/
def rowIndex : RElem → Option RowIndex
  | mk _ _ ri _ => ri
/-- `getChildren()` -/
def children : RElem → List RElem
  | mk _ _ _ cs => cs
end RElem

/-- `Partial<ImmediateRenderingOptions>`, `src/rendering/render-result.ts` 10-13. The only closures
used as `newRowsOperatorOverride` are those of `renderer.ts` 88-91 and 98-101; they differ in the
row index that they have captured, which is kept here. -/
structure ROpts where
  stretchy : Bool
  override : Option (Option RowIndex)

/-- no options -/
def ROpts.none : ROpts := ⟨false, Option.none⟩

/-- `hasSyntaxNodeChildren(node, "NewRows")`, `src/core/index.ts` 100-102 -/
def SNode.isNewRows : SNode → Bool
  | .newRows _ _ _ _ _ => true
  | _ => false

/-- The first assertion of `setChildrenCustom`, `renderer/rendered-element.ts` 38-43, with the table
in `mathml-spec.ts` 40-72. The entries `"TODO:"` are never equal to a number. -/
def childrenCountOk (tag : Tag) (n : Nat) : Bool :=
  match tag with
  | .math | .mrow | .mtable | .mtr | .mtd => true
  | .other s => s == "merror".toList
  | .mfrac | .mroot | .msub | .msup | .munder | .mover => n == 2
  | _ => false

/-- Number of rounds of the loop at `renderer/rendered-table-element.ts` 30: the rows of the table.
With width 0 it does not end. -/
def tableRowCount (n w : Nat) : M Nat :=
  if n = 0 then .ok 0
  else if w = 0 then .error .fuel
  else .ok ((n + w - 1) / w)

/-- The assertions around the children of `RowsContainerMathMLElement`, `RootMathMLElement` and
`TableMathMLElement` that do not depend on the rendered children. -/
def rowsAsserts (lo hi : Nat) (ts : List SNode) : M Unit := do
  massert (decide (0 < ts.length))
  massert (lo + 1 == hi)

mutual
/-- `MathMLRenderer.render`, `renderer.ts` 285-295, with the functions registered in 47-207 and the
constructors of the elements. -/
def render (R : Renderers) (ri : Option RowIndex) (o : ROpts) : SNode → M RElem
  | .children n lo hi cs =>
    match hashGet R n with
    | some .nothing => do
      -- `renderer/rendered-nothing.ts` 12-17
      massert cs.isEmpty
      massert (lo == hi)
      .ok (.mk .nothing (.children n lo hi cs) ri [])
    | some .missingToken => do
      -- `renderer/rendered-missing.ts` 12-20
      massert cs.isEmpty
      massert (lo == hi)
      .ok (.mk .missing (.children n lo hi cs) ri [])
    | some .whitespaces => do
      let es ← renderContainer R o .mrow cs
      .ok (.mk (.container .mrow) (.children n lo hi cs) ri es)
    | some .operator => do
      let es ← renderContainer R .none .mrow cs
      .ok (.mk (.container .mrow) (.children n lo hi cs) ri es)
    | some .container => do
      let es ← renderContainer R .none .mrow cs
      .ok (.mk (.container .mrow) (.children n lo hi cs) ri es)
    | some .brackets => do
      let es ← renderContainer R ⟨true, none⟩ .mrow cs
      .ok (.mk (.container .mrow) (.children n lo hi cs) ri es)
    | some .sup => do
      let c ← munwrap cs[1]?
      massert c.isNewRows
      let es ← renderContainer R ⟨false, some ri⟩ .msup cs
      .ok (.mk (.container .msup) (.children n lo hi cs) ri es)
    | some .sub => do
      let c ← munwrap cs[1]?
      massert c.isNewRows
      let es ← renderContainer R ⟨false, some ri⟩ .msub cs
      .ok (.mk (.container .msub) (.children n lo hi cs) ri es)
    | _ => .error .assertion
  | .leaf n lo hi ty ss =>
    match hashGet R n with
    | some .whitespace => .ok (.mk (.text (.other "mspace".toList)) (.leaf n lo hi ty ss) ri [])
    | some .operator => .ok (.mk (.symbol .mo o.stretchy) (.leaf n lo hi ty ss) ri [])
    | some .unknownToken => .ok (.mk (.text (.other "merror".toList)) (.leaf n lo hi ty ss) ri [])
    | some (.text tag) => .ok (.mk (.text tag) (.leaf n lo hi ty ss) ri [])
    | _ => .error .assertion
  | .newRows n lo hi ts w =>
    match hashGet R n with
    | some .operator =>
      match o.override with
      | none => .error .assertion
      | some captured => do
        rowsAsserts lo hi ts
        let es ← renderRows R lo 0 ts
        massert (childrenCountOk .mrow es.length)
        .ok (.mk (.rows .mrow) (.newRows n lo hi ts w) captured es)
    | some .fraction => do
      rowsAsserts lo hi ts
      let es ← renderRows R lo 0 ts
      massert (childrenCountOk .mfrac es.length)
      .ok (.mk (.rows .mfrac) (.newRows n lo hi ts w) ri es)
    | some .root => do
      rowsAsserts lo hi ts
      let es ← renderRows R lo 0 ts
      massert (childrenCountOk .mroot es.length)
      .ok (.mk (.root .mroot) (.newRows n lo hi ts w) ri es)
    | some .table => do
      rowsAsserts lo hi ts
      let es ← renderRows R lo 0 ts
      let rows ← tableRowCount es.length w
      massert (childrenCountOk .mtable es.length)
      massert (rows == ts.length / w)
      .ok (.mk .table (.newRows n lo hi ts w) ri es)
    | _ => .error .assertion
/-- The constructor of `SimpleContainerMathMLElement` without making the element,
`renderer/rendered-container-element.ts` 15-28 -/
def renderContainer (R : Renderers) (o : ROpts) (tag : Tag) : List SNode → M (List RElem)
  | [] => .error .assertion
  | c :: cs => do
    let e ← render R none o c
    let es ← renderAllSame R o cs
    massert (childrenCountOk tag (es.length + 1))
    .ok (e :: es)
/-- `syntaxTree.children.Children.map((c) => renderer.render(c, null, options))`,
`renderer/rendered-container-element.ts` 25 -/
def renderAllSame (R : Renderers) (o : ROpts) : List SNode → M (List RElem)
  | [] => .ok []
  | c :: cs => do
    let e ← render R none o c
    let es ← renderAllSame R o cs
    .ok (e :: es)
/-- `NewRows.values.map((c, rowIndex) => renderer.render(c, [indexOfContainer, rowIndex]))`,
`renderer/rendered-rows-element.ts` 31, `rendered-root-element.ts` 31,
`rendered-table-element.ts` 25-27 -/
def renderRows (R : Renderers) (container : Nat) (i : Nat) : List SNode → M (List RElem)
  | [] => .ok []
  | c :: cs => do
    let e ← render R (some (container, i)) .none c
    let es ← renderRows R container (i + 1) cs
    .ok (e :: es)
end

/-- `renderAll`, `renderer.ts` 280-283 -/
def renderAll (R : Renderers) (t : SNode) : M RElem := render R none .none t

/-! ## The DOM elements -/

/-- A DOM node as far as it is shown. `marked`: the class `red-squiggly` of a missing token
(`renderer/rendered-missing.ts` 18). -/
inductive Elt
  | text (s : Str)
  | elem (tag : Tag) (marked : Bool) (children : List Elt)

/-- `wrapInMRow`, `renderer/rendered-element.ts` 66-72 -/
def wrapInMRow : List Elt → Elt
  | [e] => e
  | es => .elem .mrow false es

/-- The texts of a leaf, one for each of its symbols, `renderer/rendered-leaf.ts` 13-15 -/
def SNode.texts : SNode → List Elt
  | .leaf _ _ _ _ ss => ss.map .text
  | _ => []

/-- The rows of the table, `renderer/rendered-table-element.ts` 30-38. The first number bounds the
rounds. -/
def tableElts (w : Nat) : Nat → List (List Elt) → List Elt
  | 0, _ => []
  | _ + 1, [] => []
  | n + 1, cells =>
    .elem .mtr false ((cells.take w).map fun c => .elem .mtd false [wrapInMRow c]) ::
      tableElts w n (cells.drop w)

/-- `createMathElement("mphantom", [])` -/
def phantom : Elt := .elem (.other "mphantom".toList) false []

/-- `width` of the new rows of a node -/
def SNode.width : SNode → Nat
  | .newRows _ _ _ _ w => w
  | _ => 0

mutual
/-- `getElements()` of the classes in `renderer/rendered-*.ts` -/
def RElem.elements : RElem → List Elt
  | .mk .nothing _ _ _ => [.elem .mi false [.text ['⬚']]]
  | .mk .missing _ _ _ => [.elem .mi true [.text ['\u00A0', '\u00A0']]]
  | .mk (.text tag) t _ _ => [.elem tag false t.texts]
  | .mk (.symbol tag _) t _ _ => [.elem tag false t.texts]
  | .mk (.container tag) _ _ cs => [.elem tag false ((elementsAll cs).map wrapInMRow)]
  | .mk (.rows tag) _ _ cs =>
    [phantom, .elem tag false ((elementsAll cs).map wrapInMRow), phantom]
  | .mk (.root tag) _ _ cs =>
    [phantom, .elem tag false ((elementsAll cs).reverse.map wrapInMRow), phantom]
  | .mk .table t _ cs =>
    [phantom, .elem .mtable false (tableElts t.width cs.length (elementsAll cs)), phantom]
/-- `getElements()` of each -/
def elementsAll : List RElem → List (List Elt)
  | [] => []
  | e :: es => e.elements :: elementsAll es
end

end Aftermath
