import Verif.Spec.Layout

/-! # Vocabulary for what is drawn over a formula

Nothing here uses the functions of the model that compute positions. -/

namespace Aftermath

/-- The element opens new rows. -/
def RElem.OpensRows (e : RElem) : Prop :=
  match e.kind with
  | .rows _ | .root _ | .table => True
  | _ => False

instance (e : RElem) : Decidable e.OpensRows := by
  unfold RElem.OpensRows
  split <;> infer_instance

/-- Where the element begins. An element that opens new rows has a reader before it. -/
def RElem.left (G : Geom) (path : List Nat) (e : RElem) : ℚ :=
  if e.OpensRows then (G.startReader path).x else (G.own path).x

/-- Where the element ends. An element that opens new rows has a reader after it. -/
def RElem.right (G : Geom) (path : List Nat) (e : RElem) : ℚ :=
  if e.OpensRows then (G.endReader path).x else (G.own path).x + (G.own path).width

/-- The right edge of a rectangle. -/
def Rect.right (r : Rect) : ℚ := r.x + r.width

/-- One element is set from left to right: it does not end before it begins; its symbols follow each
other within its box; its children follow each other within its box, unless they are the cells of
new rows. -/
structure SetLeftToRight (G : Geom) (path : List Nat) (e : RElem) : Prop where
  edges : e.left G path ≤ e.right G path
  symbols : ∀ n lo hi ty ss, e.tree = .leaf n lo hi ty ss → ∀ i, i < ss.length →
    (G.own path).x ≤ (G.glyph path i).x ∧ (G.glyph path i).x ≤ (G.glyph path i).right ∧
    (G.glyph path i).right ≤ (G.own path).right ∧
    ∀ j, i < j → j < ss.length → (G.glyph path i).right ≤ (G.glyph path j).x
  children : ¬ e.OpensRows → ∀ (i : Nat) (c : RElem), e.children[i]? = some c →
    (G.own path).x ≤ c.left G (path ++ [i]) ∧ c.right G (path ++ [i]) ≤ (G.own path).right ∧
    ∀ (j : Nat) (d : RElem), i < j → e.children[j]? = some d → c.right G (path ++ [i]) ≤ d.left G (path ++ [j])

/-- The browser sets all elements from left to right. -/
def LeftToRight (G : Geom) (root : RElem) : Prop :=
  ∀ path e, root.at path = some e → SetLeftToRight G path e

/-- Part of the element is selected. -/
def RElem.Touched (left right : Nat) (e : RElem) : Prop := e.tree.lo < right ∧ left < e.tree.hi

/-- The whole element is selected. -/
def RElem.Inside (left right : Nat) (e : RElem) : Prop := left ≤ e.tree.lo ∧ e.tree.hi ≤ right

/-- The elements that make up a selection: the largest elements that are selected as a whole, and
elements without children of which a part is selected. -/
inductive MakesUp (left right : Nat) : List Nat → RElem → List Nat → Prop
  | here {path : List Nat} {e : RElem} : e.Touched left right →
      (e.Inside left right ∨ e.children = []) → MakesUp left right path e path
  | within {path q : List Nat} {e c : RElem} {i : Nat} : e.Touched left right →
      ¬ e.Inside left right → e.children[i]? = some c →
      MakesUp left right (path ++ [i]) c q → MakesUp left right path e q

/-- The vertical extent is the smallest that contains the boxes with the given property. -/
structure IsExtent (G : Geom) (P : List Nat → Prop) (top bottom : ℚ) : Prop where
  contains : ∀ q, P q → top ≤ (G.own q).y ∧ (G.own q).y + (G.own q).height ≤ bottom
  top : ∃ q, P q ∧ top = (G.own q).y
  bottom : ∃ q, P q ∧ bottom = (G.own q).y + (G.own q).height

/-- The second element lies below the first, in the same row of the formula. -/
inductive InRow : List Nat → RElem → List Nat → RElem → Prop
  | here {path : List Nat} {e : RElem} : InRow path e path e
  | child {path q : List Nat} {e c d : RElem} {i : Nat} : ¬ e.OpensRows →
      e.children[i]? = some c → InRow (path ++ [i]) c q d → InRow path e q d

/-- The second element is the leftmost one below the first, in the same row of the formula. -/
inductive FirstInRow : List Nat → RElem → List Nat → RElem → Prop
  | here {path : List Nat} {e : RElem} : e.OpensRows ∨ e.children = [] → FirstInRow path e path e
  | child {path q : List Nat} {e c d : RElem} : ¬ e.OpensRows → e.children[0]? = some c →
      FirstInRow (path ++ [0]) c q d → FirstInRow path e q d

end Aftermath
