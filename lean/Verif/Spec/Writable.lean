import Verif.Model.Handler

/-! # The formulas that can be written without pasting -/

namespace Aftermath

/-- Formulas of symbols with a text in `A`, roots and tables of one cell, nested in any way. -/
inductive Writable (A : Str → Prop) : Row → Prop
  | nil : Writable A []
  | symbol {s : Str} {row : Row} (hs : A s) (h : Writable A row) : Writable A (.symbol s :: row)
  | root {a b row : Row} (ha : Writable A a) (hb : Writable A b) (h : Writable A row) :
      Writable A (.root a b :: row)
  | table {a row : Row} (ha : Writable A a) (h : Writable A row) :
      Writable A (.container .table [a] 1 :: row)

/-- The call gets no nodes from outside, and it inserts only symbols with a text in `A`. -/
def Op.Writes (A : Str → Prop) : Op → Prop
  | .insertAtCaret vs => ∀ s ∈ vs, A s
  | .paste _ _ | .spliceAtRange _ _ => False
  | _ => True

/-- What the call inserts, if anything, is writable. -/
def Op.Keeps (A : Str → Prop) (cfg : Cfg) : Op → Prop
  | .insertAtCaret vs => ∀ s ∈ vs, A s
  | .paste data _ => ∀ nodes, deserializeNodes cfg data = some nodes → Writable A nodes
  | .spliceAtRange _ vs => Writable A vs
  | _ => True

/-- The text of the `beforeinput` event is split into texts in `A`. -/
def InputEvent.Keeps (A : Str → Prop) (S : Setting) : InputEvent → Prop
  | .insertText (some data) => ∀ s ∈ S.browser.split data, A s
  | _ => True

/-- What the event brings in, if anything, is writable. -/
def Event.Keeps (A : Str → Prop) (S : Setting) : Event → Prop
  | .beforeInput i => i.Keeps A S
  | .paste json text => ∀ nodes,
      deserializeNodes S.cfg (if json.isEmpty then text else json) = some nodes → Writable A nodes
  | .connect d | .setAttribute d =>
      ∀ nodes es, fromElement S.browser d = .ok (nodes, es) → Writable A nodes
  | _ => True

end Aftermath
