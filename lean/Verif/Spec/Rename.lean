import Verif.Model.Render

/-! # Replacing characters by characters -/

namespace Aftermath

mutual
/-- The node with each character `c` replaced by `φ c`, also within its cells. -/
def Node.rename (φ : Char → Char) : Node → Node
  | .symbol s => .symbol (s.map φ)
  | .container v cells w => .container v (renameCells φ cells) w
/-- see `Node.rename` -/
def renameRow (φ : Char → Char) : List Node → List Node
  | [] => []
  | n :: ns => n.rename φ :: renameRow φ ns
/-- see `Node.rename` -/
def renameCells (φ : Char → Char) : List (List Node) → List (List Node)
  | [] => []
  | r :: rs => renameRow φ r :: renameCells φ rs
end

mutual
/-- The tree with each character `c` replaced by `φ c`. Names, kinds of nodes and ranges stay. -/
def SNode.rename (φ : Char → Char) : SNode → SNode
  | .newRows n lo hi cells w => .newRows n lo hi (SNode.renameAll φ cells) w
  | .children n lo hi cs => .children n lo hi (SNode.renameAll φ cs)
  | .leaf n lo hi ty ss => .leaf n lo hi ty (ss.map fun s => s.map φ)
/-- see `SNode.rename` -/
def SNode.renameAll (φ : Char → Char) : List SNode → List SNode
  | [] => []
  | t :: ts => t.rename φ :: SNode.renameAll φ ts
end

mutual
/-- What is on the page with each character `c` replaced by `φ c`. -/
def Elt.rename (φ : Char → Char) : Elt → Elt
  | .text s => .text (s.map φ)
  | .elem tag marked cs => .elem tag marked (Elt.renameAll φ cs)
/-- see `Elt.rename` -/
def Elt.renameAll (φ : Char → Char) : List Elt → List Elt
  | [] => []
  | e :: es => e.rename φ :: Elt.renameAll φ es
end

/-- The characters that have a meaning of their own: those of operators, brackets, strings and spaces,
and the letters of `lim`, `limsup` and `liminf`. -/
def tokenChars : List Char := " .\"\\()+-*/^!∞limsupnf∑∫,=><≥≤⊤⊥∧∨¬⇔⟹".toList

/-- Characters are replaced by others of the same sort: digits by digits, letters by letters. Those with a
meaning of their own stay, and no other character becomes one of them. Different characters may become
the same one. -/
structure Renaming (x : Xid) (φ : Char → Char) : Prop where
  start : ∀ c, x.start (φ c) = x.start c
  continue_ : ∀ c, x.continue_ (φ c) = x.continue_ c
  digit : ∀ c, ('0' ≤ φ c ∧ φ c ≤ '9') ↔ ('0' ≤ c ∧ c ≤ '9')
  token : ∀ d ∈ tokenChars, ∀ c, φ c = d ↔ c = d

end Aftermath
