import Verif.Model.Handler

/-! # The page: all editors of a document, and the clipboard

`src/main.ts` puts an editor in place of every formula of the document. All of them are handled by
one browser with one clipboard. A panic ends the editor in which it happens; the other ones are
separate objects with memory of their own. Citations without a file name are of
`src/component/math-editor.ts`.

Simplified: the formulas are not inside of each other, and other nodes of the document are left out.
When a handler of `copy` or `cut` does not set the data, the clipboard stays as it is. -/

namespace Aftermath

/-- The clipboard: the data of type `application/json` and of type `text/plain`. -/
structure Clip where
  json : Str
  text : Str

/-- The editors in document order, `none` after a panic, and the clipboard. -/
structure Page where
  editors : List (Option Component)
  clipboard : Clip

/-- `editor i`: an event of an editor other than pasting the clipboard. `paste i`: the clipboard is
pasted into an editor. `copied`: something else puts data onto the clipboard. -/
inductive PageEvent
  | editor (i : Nat) (v : View) (ev : Event)
  | paste (i : Nat) (v : View)
  | copied (clip : Clip)

/-- One formula of the document, `src/main.ts` 12-16: a new element is made, its attribute is set,
and then it is put into the document, where `connectedCallback` (299-302) sets the formula once
more. The browser reports exceptions in these callbacks, and goes on. -/
def Component.load (S : Setting) (v₁ v₂ : View) (d : Dom) : Option Component :=
  match Component.new S with
  | .error _ => none
  | .ok c => c.handleAll S [(v₁, .setAttribute d), (v₂, .connect d)]

/-- The clipboard after an event of an editor: 182-204. `setData` (183) clears nothing, but the data
of a `copy` or `cut` event is empty at first, and replaces the clipboard. -/
def Clip.after (clip : Clip) (c : Component) : Event → Clip
  | .copy | .cut =>
    match c.editor.copy with
    | .ok data => ⟨data, []⟩
    | .error _ => clip
  | _ => clip

namespace Page

/-- `src/main.ts` 12-16 -/
def load (S : Setting) (clip : Clip) (docs : List (View × View × Dom)) : Page :=
  ⟨docs.map fun (v₁, v₂, d) => Component.load S v₁ v₂ d, clip⟩

/-- An event of the editor `i`. Nothing happens if there is none, or if it has ended. -/
def handleAt (S : Setting) (p : Page) (i : Nat) (v : View) (ev : Event) : Page :=
  match p.editors[i]? with
  | some (some c) => ⟨p.editors.set i (c.handle S v ev).left, p.clipboard.after c ev⟩
  | _ => p

/-- One event; the data of `paste` is that of the clipboard, 206-219. -/
def step (S : Setting) (p : Page) : PageEvent → Page
  | .editor i v ev => p.handleAt S i v ev
  | .paste i v => p.handleAt S i v (.paste p.clipboard.json p.clipboard.text)
  | .copied clip => { p with clipboard := clip }

def run (S : Setting) (p : Page) (evs : List PageEvent) : Page := evs.foldl (step S) p

end Page

end Aftermath
