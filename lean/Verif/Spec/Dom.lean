import Verif.Model.Render

/-! # Reading the shown elements

How a reader of the DOM gets the formula back, by the meaning that MathML gives to the elements.
Only the data types of the model are used. -/

namespace Aftermath

/-- What is read from left to right. `enter v w` opens a container of kind `v`; `w` is the number of
columns of a table and 0 for the other kinds. Every cell ends with `cellEnd`. -/
inductive Sign
  | char (c : Char)
  | enter (v : Variant) (columns : Nat)
  | cellEnd
  | leave
  deriving DecidableEq, Repr

mutual
/-- The signs of a node of a formula. -/
def Node.signs : Node → List Sign
  | .symbol s => s.map .char
  | .container v cells w => .enter v (if v = .table then w else 0) :: cellsSigns cells
/-- The signs of a row. -/
def rowSigns : List Node → List Sign
  | [] => []
  | n :: ns => n.signs ++ rowSigns ns
/-- The signs of the cells of a container. -/
def cellsSigns : List (List Node) → List Sign
  | [] => [.leave]
  | r :: rs => rowSigns r ++ .cellEnd :: cellsSigns rs
end

/-- Number of columns of a table, from its first row. -/
def columnsOf : List Elt → Nat
  | .elem _ _ tds :: _ => tds.length
  | _ => 0

/-- Each part is one cell. -/
def cellParts (ps : List (List Sign)) : List Sign := ps.flatMap (· ++ [.cellEnd])

/-- The first part is the base, the others are cells of a script. -/
def scriptParts (v : Variant) (ps : List (List Sign)) : List Sign :=
  (ps.take 1).flatten ++ .enter v 0 :: (cellParts (ps.drop 1) ++ [.leave])

mutual
/-- Reading a DOM node. An element marked as missing and an `mphantom` are not read. The children of
`mroot` are the radicand and then the degree; in a formula the degree comes first. -/
def Elt.signs : Elt → List Sign
  | .text s => s.map .char
  | .elem _ true _ => []
  | .elem .mfrac false cs => .enter .fraction 0 :: (cellParts (eltParts cs) ++ [.leave])
  | .elem .mroot false cs => .enter .root 0 :: (cellParts (eltParts cs).reverse ++ [.leave])
  | .elem .msup false cs => scriptParts .sup (eltParts cs)
  | .elem .msub false cs => scriptParts .sub (eltParts cs)
  | .elem .mtable false cs => .enter .table (columnsOf cs) :: ((eltParts cs).flatten ++ [.leave])
  | .elem .mtr false cs => cellParts (eltParts cs)
  | .elem (.other s) false cs => if s = "mphantom".toList then [] else (eltParts cs).flatten
  | .elem _ false cs => (eltParts cs).flatten
/-- Reading each of the nodes. -/
def eltParts : List Elt → List (List Sign)
  | [] => []
  | e :: es => e.signs :: eltParts es
end

/-- Reading nodes one after the other. -/
def eltsSigns (es : List Elt) : List Sign := (eltParts es).flatten

/-- The node is a table row with the given number of cells. -/
def Elt.IsTableRow (columns : Nat) : Elt → Prop
  | .elem .mtr false tds => tds.length = columns ∧ ∀ td ∈ tds, ∃ cs, td = .elem .mtd false cs
  | _ => False

/-- The children that MathML asks for. -/
def ChildrenFit (tag : Tag) (cs : List Elt) : Prop :=
  match tag with
  | .mfrac | .mroot | .msub | .msup => cs.length = 2
  | .mtable => 0 < columnsOf cs ∧ ∀ c ∈ cs, c.IsTableRow (columnsOf cs)
  | _ => True

mutual
/-- Every element below has the children that MathML asks for. -/
def Elt.Fit : Elt → Prop
  | .text _ => True
  | .elem tag _ cs => ChildrenFit tag cs ∧ EltsFit cs
/-- see `Elt.Fit` -/
def EltsFit : List Elt → Prop
  | [] => True
  | e :: es => e.Fit ∧ EltsFit es
end

mutual
/-- How many elements have a tag and a mark of the given kind. -/
def Elt.count (p : Tag → Bool → Bool) : Elt → Nat
  | .text _ => 0
  | .elem tag marked cs => (if p tag marked then 1 else 0) + eltsCount p cs
/-- see `Elt.count` -/
def eltsCount (p : Tag → Bool → Bool) : List Elt → Nat
  | [] => 0
  | e :: es => e.count p + eltsCount p es
end

mutual
/-- How many nodes of a syntax tree have the given name. -/
def SNode.named (name : Nat) : SNode → Nat
  | .leaf n _ _ _ _ => if n = name then 1 else 0
  | .newRows n _ _ ts _ => (if n = name then 1 else 0) + treesNamed name ts
  | .children n _ _ cs => (if n = name then 1 else 0) + treesNamed name cs
/-- see `SNode.named` -/
def treesNamed (name : Nat) : List SNode → Nat
  | [] => 0
  | t :: ts => t.named name + treesNamed name ts
end

mutual
/-- Every symbol of the formula has exactly one character. -/
def Node.OneChar : Node → Prop
  | .symbol s => s.length = 1
  | .container _ cells _ => CellsOneChar cells
/-- see `Node.OneChar` -/
def RowOneChar : List Node → Prop
  | [] => True
  | n :: ns => n.OneChar ∧ RowOneChar ns
/-- see `Node.OneChar` -/
def CellsOneChar : List (List Node) → Prop
  | [] => True
  | r :: rs => RowOneChar r ∧ CellsOneChar rs
end

/-- The MathML elements for the tokens of the shipped grammar. -/
def tokenTags : List (PathId × Tag) :=
  [(["Core".toList, "Variable".toList], .mi),
    (["Arithmetic".toList, "Number".toList], .mn),
    (["Calculus".toList, "Infinity".toList], .mi),
    (["Logic".toList, "True".toList], .mi),
    (["Logic".toList, "False".toList], .mi),
    (["String".toList, "String".toList], .mtext),
    (["BuiltIn".toList, "Operator".toList], .mo),
    (["Error".toList, "UnknownToken".toList], .other "merror".toList)]

end Aftermath
