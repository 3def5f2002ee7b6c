import Verif.Model.Render
import Verif.Spec.Dom

/-! # Loading what is shown

The elements on the page, as a document that `fromElement` can be called with. -/

namespace Aftermath

mutual
/-- `textContent` of a DOM node: the texts below it, one after the other. -/
def Elt.textContent : Elt → Str
  | .text s => s
  | .elem _ _ cs => eltsText cs
/-- see `Elt.textContent` -/
def eltsText : List Elt → Str
  | [] => []
  | e :: es => e.textContent ++ eltsText es
end

mutual
/-- The node among the `children` of its parent; texts are not elements. -/
def Elt.doms : Elt → List Dom
  | .text _ => []
  | .elem tag _ cs => [.elem tag (eltsText cs) (eltsDoms cs)]
/-- see `Elt.doms` -/
def eltsDoms : List Elt → List Dom
  | [] => []
  | e :: es => e.doms ++ eltsDoms es
end

/-- The element `math` with the shown elements in it, `src/component/math-editor.ts` 350-354. -/
def RElem.shownDom (e : RElem) : Dom := .elem .math (eltsText e.elements) (eltsDoms e.elements)

/-- What the browser does to texts made of the characters `P`, none of which is white space: nothing
is trimmed, every character is a grapheme, and normal forms are the characters themselves. Of two
no-break spaces (`renderer/rendered-missing.ts` 17) nothing is left. -/
structure Browser.Plain (b : Browser) (P : Char → Prop) : Prop where
  trim : ∀ s, (∀ c ∈ s, P c) → b.trim s = s
  split : ∀ s, (∀ c ∈ s, P c) → b.split s = s.map fun c => [c]
  nfd : ∀ c, P c → b.nfd [c] = [c]
  blank : b.trim ['\u00A0', '\u00A0'] = []
  empty : b.split [] = []
  error : b.nfd "Error".toList = "Error".toList

mutual
/-- All characters of the symbols satisfy `P`. -/
def Node.Chars (P : Char → Prop) : Node → Prop
  | .symbol s => ∀ c ∈ s, P c
  | .container _ cells _ => CellsChars P cells
/-- see `Node.Chars` -/
def RowChars (P : Char → Prop) : List Node → Prop
  | [] => True
  | n :: ns => n.Chars P ∧ RowChars P ns
/-- see `Node.Chars` -/
def CellsChars (P : Char → Prop) : List (List Node) → Prop
  | [] => True
  | r :: rs => RowChars P r ∧ CellsChars P rs
end

/-- The node is in the row or in a cell of a container in the row. -/
inductive Inside (n : Node) : Row → Prop
  | here {r : Row} : n ∈ r → Inside n r
  | cell {r : Row} {v : Variant} {cells : List Row} {w : Nat} {c : Row} :
      Node.container v cells w ∈ r → c ∈ cells → Inside n c → Inside n r

/-- How many elements on the page have this tag. -/
def RElem.tagged (e : RElem) (tag : Tag) : Nat := eltsCount (fun t _ => t == tag) e.elements

end Aftermath
