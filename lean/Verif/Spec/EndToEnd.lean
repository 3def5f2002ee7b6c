import Verif.Spec.Words
import Verif.Spec.Dom
import Verif.Spec.Notation
import Verif.Spec.Component

/-! # What it means that a formula is in the editor and on the page -/

namespace Aftermath

/-- The input for one typed character. -/
def typed (c : Char) : InputEvent := .insertText (some [c])

/-- The syntax tree is that of the formula in the editor, and the page shows it. If it cannot be
shown, the page may be that of an earlier formula. -/
structure Component.UpToDate (S : Setting) (c : Component) : Prop where
  tree : S.grammar.parse c.editor.input = .ok c.tree
  result : (∃ e, renderAll S.renderers c.tree = .ok e) → renderAll S.renderers c.tree = .ok c.result

/-- The component understands and shows the formula `e`, written as `row`: the row is the content of
the editor, the syntax tree says `e` and nothing else, the page has the characters, containers and
cells of the row in order, and nothing on the page is marked as missing or as an error. -/
structure Component.Presents (c : Component) (m : NameMap) (row : Row) (e : Formula) : Prop where
  input : c.editor.input = row
  means : Conveys m c.tree e
  only : ∀ e', Conveys m c.tree e' → e' = e
  fit : EltsFit c.result.elements
  signs : eltsSigns c.result.elements = rowSigns row
  missing : eltsCount (fun _ marked => marked) c.result.elements = 0
  errors : eltsCount (fun tag _ => tag == .other "merror".toList) c.result.elements = 0

end Aftermath
