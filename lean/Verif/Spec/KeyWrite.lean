import Verif.Spec.Writable

/-! # Writing with the keyboard -/

namespace Aftermath

/-- Arrow keys, Backspace, and keys that type one character; and the timer that lets what was
typed take effect. -/
def Event.Key : Event → Prop
  | .arrow _ | .timer | .beforeInput .deleteBackward | .beforeInput (.insertText (some [_])) => True
  | _ => False

/-- Texts of one character. -/
def OneChar (s : Str) : Prop := ∃ c, s = [c]

end Aftermath
