import Verif.Model.Picture
import Verif.Spec.Drawing

/-! # Vocabulary for the picture of the caret

The browser puts an absolutely positioned element `left` and `top` away from the element around it,
moved by the margin. -/

namespace Aftermath

/-- A vertical line on the screen. -/
structure ScreenLine where
  x : ℚ
  top : ℚ
  bottom : ℚ

/-- Where the browser shows the line, if it does. -/
def LineStyle.onScreen (origin : Coord) (s : LineStyle) : Option ScreenLine :=
  if s.hidden then none
  else some ⟨origin.x + s.left, origin.y + s.top + s.marginTop,
    origin.y + s.top + s.marginTop + s.height⟩

/-- Where the browser shows the box, if it has an extent. -/
def BoxStyle.onScreen (origin : Coord) (s : BoxStyle) : Option Rect :=
  s.vertical.map fun v => ⟨origin.x + s.left, origin.y + v.1, s.width, v.2⟩

/-- What is visible of a caret: the line, and boxes behind the formula. -/
structure Visible where
  line : Option ScreenLine
  boxes : List Rect

/-- What is visible of the element of a caret. -/
def CaretElement.onScreen (origin : Coord) (e : CaretElement) : Visible :=
  ⟨e.line.onScreen origin, e.boxes.filterMap (BoxStyle.onScreen origin)⟩

/-- The picture of a selection, wherever the element of the caret happens to be placed. -/
def Pictured (G : Geom) (root : RElem) (sel : MinSelection) (v : Visible) : Prop :=
  ∀ origin, ∃ el, drawCaret G origin root sel = .ok el ∧ el.onScreen origin = v

/-- The lower edge of a rectangle. -/
def Rect.bottom (r : Rect) : ℚ := r.y + r.height

/-- The second rectangle lies in the first. -/
def Rect.Covers (a b : Rect) : Prop :=
  a.x ≤ b.x ∧ b.right ≤ a.right ∧ a.y ≤ b.y ∧ b.bottom ≤ a.bottom

/-- The smallest rectangle around two others. -/
def Rect.IsAround (r a b : Rect) : Prop :=
  r.Covers a ∧ r.Covers b ∧ ∀ r' : Rect, r'.Covers a → r'.Covers b → r'.Covers r

/-- The rectangles have no inner point in common. -/
def Rect.Apart (a b : Rect) : Prop :=
  a.right ≤ b.x ∨ b.right ≤ a.x ∨ a.bottom ≤ b.y ∨ b.bottom ≤ a.y

/-- The boxes of the `n` cells of a table with `w` columns fill its columns and rows, which follow each
other. -/
def FillTable (box : Nat → Rect) (n w : Nat) : Prop :=
  ∃ X W Y H : Nat → ℚ, (∀ k, k < n → box k = ⟨X (k % w), Y (k / w), W (k % w), H (k / w)⟩) ∧
    (∀ c, 0 < W c ∧ X c + W c ≤ X (c + 1)) ∧ ∀ r, 0 < H r ∧ Y r + H r ≤ Y (r + 1)

/-- The boxes of the `n` cells of a table with `w` columns lie in the middle of its columns, which
follow each other, and on its rows, which fill their height. -/
def CentreTable (box : Nat → Rect) (n w : Nat) : Prop :=
  ∃ X W Y H : Nat → ℚ, (∀ k, k < n → X (k % w) ≤ (box k).x ∧ (box k).right ≤ X (k % w) + W (k % w) ∧
      (box k).x - X (k % w) = X (k % w) + W (k % w) - (box k).right ∧
      (box k).y = Y (k / w) ∧ (box k).height = H (k / w)) ∧
    (∀ c, 0 < W c ∧ X c + W c ≤ X (c + 1)) ∧ ∀ r, 0 < H r ∧ Y r + H r ≤ Y (r + 1)

/-- Cell `k` lies in the rectangle of the table of which cells `j` and `j'` are opposite corners. -/
def InRectangle (w j j' k : Nat) : Prop :=
  min (j % w) (j' % w) ≤ k % w ∧ k % w ≤ max (j % w) (j' % w) ∧
  min (j / w) (j' / w) ≤ k / w ∧ k / w ≤ max (j / w) (j' / w)

instance (w j j' k : Nat) : Decidable (InRectangle w j j' k) := by
  unfold InRectangle
  infer_instance

end Aftermath
