import Verif.Model.Component
import Verif.Spec.Layout

/-! # Vocabulary for the component -/

namespace Aftermath

/-- What is shown belongs to the current formula: the kept syntax tree is its parse, and the render
result is what the renderer makes of this tree. -/
structure Component.InSync (S : Setting) (c : Component) : Prop where
  tree : S.grammar.parse c.editor.input = .ok c.tree
  result : renderAll S.renderers c.tree = .ok c.result

/-- The states reached from a new component by events none of which throws. -/
def Component.Reached (S : Setting) (c : Component) : Prop :=
  ∃ c₀ evs, Component.new S = .ok c₀ ∧ c₀.run S evs = .ok c

/-- Keys, cutting and pasting, pressing the pointer, and setting the attribute show the formula
anew. -/
def Event.Redraws : Event → Prop
  | .arrow _ | .undoKey | .redoKey | .otherKey | .cut | .paste _ _ | .pointerDown _ | .connect _
  | .setAttribute _ => True
  | _ => False

/-- The events of a selection with the pointer: moving and releasing it, double and triple click. -/
def Event.Selects : Event → Prop
  | .pointerUp _ | .pointerCancel _ | .pointerMove _ | .mouseDown _ _ => True
  | _ => False

end Aftermath
