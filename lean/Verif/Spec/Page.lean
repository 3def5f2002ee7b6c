import Verif.Model.Page
import Verif.Spec.EndToEnd

/-! # Vocabulary for pages with several editors -/

namespace Aftermath

/-- The event puts something onto the clipboard. -/
def PageEvent.Copies : PageEvent → Prop
  | .editor _ _ .copy | .editor _ _ .cut | .copied _ => True
  | _ => False

/-- The events of the editor `i`, each `paste` with the data that is on the clipboard by then. -/
def Page.eventsOf (S : Setting) (i : Nat) : Page → List PageEvent → List (View × Event)
  | _, [] => []
  | p, e :: evs =>
    (match e with
      | .editor j v ev => if j = i then [(v, ev)] else []
      | .paste j v => if j = i then [(v, .paste p.clipboard.json p.clipboard.text)] else []
      | .copied _ => []) ++ Page.eventsOf S i (p.step S e) evs

/-- Nothing has been done with the formula since it was loaded: the editor is part of the document,
the caret is at the beginning, no input is waiting, and what is shown is the formula. -/
structure Component.JustLoaded (S : Setting) (c : Component) (r : Row) : Prop where
  input : c.editor.input = r
  caret : c.editor.caret = .at ⟨[], 0⟩
  connected : c.connected = true
  tasks : c.tasks = []
  upToDate : c.UpToDate S

end Aftermath
