import Verif.Spec.Endings
import Verif.Model.Page

/-! # Vocabulary for data from outside of a page -/

namespace Aftermath

/-- If the data on the clipboard can be read at all, it is read as well-formed nodes. -/
def Clip.Good (S : Setting) (clip : Clip) : Prop :=
  ∀ nodes, deserializeNodes S.cfg (pasted clip.json clip.text) = some nodes → rowWf nodes = true

/-- What comes from other programs is well formed. Nothing is asked of what the editors of the page
copy, cut and paste, nor of the documents that they load. -/
def PageEvent.GoodData (S : Setting) : PageEvent → Prop
  | .editor _ _ ev => ∀ json text, ev = .paste json text → ev.GoodData S
  | .paste _ _ => True
  | .copied clip => clip.Good S

end Aftermath
