import Verif.Model.Syntax
import Verif.Model.Render
import Verif.Model.Tree

/-! # Trees that differ only below one row -/

namespace Aftermath

/-- `TreeReplaced path s s' t t'`: the syntax tree `t'` is `t` with the tree `s`, which belongs to the
row at `path`, replaced by `s'`. All other nodes have the same name, range, number of columns, type
and symbols, and they are in the same order.

Neither the parser nor a function that searches in a tree is used: each step of the path goes to the
node with new rows that covers exactly the element with the given index, and in it to the tree with
the given number. -/
inductive TreeReplaced : RowIndices → SNode → SNode → SNode → SNode → Prop
  | here (s s' : SNode) : TreeReplaced [] s s' s s'
  | cell {i j : Nat} {path : RowIndices} {s s' c c' : SNode} (name w : Nat) (a b : List SNode)
      (hj : a.length = j) (h : TreeReplaced path s s' c c') :
      TreeReplaced ((i, j) :: path) s s' (.newRows name i (i + 1) (a ++ c :: b) w)
        (.newRows name i (i + 1) (a ++ c' :: b) w)
  | child {i j : Nat} {path : RowIndices} {s s' c c' : SNode} (name lo hi : Nat) (a b : List SNode)
      (h : TreeReplaced ((i, j) :: path) s s' c c') :
      TreeReplaced ((i, j) :: path) s s' (.children name lo hi (a ++ c :: b))
        (.children name lo hi (a ++ c' :: b))

/-- `ElemReplaced path x x' e e'`: the rendered element `e'` is `e` with the element `x` of the row at
`path` replaced by `x'`. All other elements are of the same class and have the same row index; only
the syntax trees above the place of the change differ, and those have the same name and range. -/
inductive ElemReplaced : RowIndices → RElem → RElem → RElem → RElem → Prop
  | here (x x' : RElem) : ElemReplaced [] x x' x x'
  | cell {i j : Nat} {path : RowIndices} {x x' c c' : RElem} (k : EKind) (name w : Nat)
      (ts ts' : List SNode) (ri : Option RowIndex) (a b : List RElem) (hj : a.length = j)
      (h : ElemReplaced path x x' c c') :
      ElemReplaced ((i, j) :: path) x x' (.mk k (.newRows name i (i + 1) ts w) ri (a ++ c :: b))
        (.mk k (.newRows name i (i + 1) ts' w) ri (a ++ c' :: b))
  | child {i j : Nat} {path : RowIndices} {x x' c c' : RElem} (k : EKind) (name lo hi : Nat)
      (ts ts' : List SNode) (ri : Option RowIndex) (a b : List RElem)
      (h : ElemReplaced ((i, j) :: path) x x' c c') :
      ElemReplaced ((i, j) :: path) x x' (.mk k (.children name lo hi ts) ri (a ++ c :: b))
        (.mk k (.children name lo hi ts') ri (a ++ c' :: b))

/-- `EltReplaced y y' d d'`: the DOM node `d'` is `d` with the node `y` somewhere in it replaced by
`y'`; everything else is the same. -/
inductive EltReplaced (y y' : Elt) : Elt → Elt → Prop
  | here : EltReplaced y y' y y'
  | child {d d' : Elt} (tag : Tag) (marked : Bool) (a b : List Elt) (h : EltReplaced y y' d d') :
      EltReplaced y y' (.elem tag marked (a ++ d :: b)) (.elem tag marked (a ++ d' :: b))

/-- A node without the contents of its cells: the cells are empty. -/
def Node.bare : Node → Node
  | .symbol s => .symbol s
  | .container v cells w => .container v (cells.map fun _ => []) w

end Aftermath
