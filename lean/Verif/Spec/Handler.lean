import Verif.Model.Handler
import Verif.Spec.Component

/-! # Vocabulary for event handlers with exceptions -/

namespace Aftermath

/-- The editor calls asked for by a `beforeinput` event. The tree is asked for to be shown. -/
def InputEvent.calls (S : Setting) : InputEvent → List Op
  | .deleteBackward => [.removeAtCaret .left, .getSyntaxTree]
  | .deleteForward => [.removeAtCaret .right, .getSyntaxTree]
  | .insertText (some data) => [.insertAtCaret (S.browser.split data), .getSyntaxTree]
  | .insertText none => []
  | .other => []

/-- The `beforeinput` events among some events. -/
def inputsOf : List (View × Event) → List InputEvent
  | [] => []
  | (_, .beforeInput i) :: evs => i :: inputsOf evs
  | _ :: evs => inputsOf evs

/-- The number of timers that are still running after some events: every `beforeinput` starts one
that fires once. `none`: more timers fired than were started. -/
def timersLeft : Nat → List (View × Event) → Option Nat
  | n, [] => some n
  | n, (_, .beforeInput _) :: evs => timersLeft (n + 1) evs
  | 0, (_, .timer) :: _ => none
  | n + 1, (_, .timer) :: evs => timersLeft n evs
  | n, _ :: evs => timersLeft n evs

/-- Typing: nothing but `beforeinput` events and timers. -/
def Event.Typing : Event → Prop
  | .beforeInput _ | .timer => True
  | _ => False

/-- The states reached from a new component by events that may throw, as long as no call panics. -/
def Component.Alive (S : Setting) (c : Component) : Prop :=
  ∃ c₀ evs, Component.new S = .ok c₀ ∧ c₀.handleAll S evs = some c

end Aftermath
