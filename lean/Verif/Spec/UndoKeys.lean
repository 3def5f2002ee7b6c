import Verif.Spec.History
import Verif.Model.Component

/-! # The keys for undo and redo -/

namespace Aftermath

/-- Ctrl+Z and Ctrl+Y. -/
inductive HistoryKey
  | undo
  | redo

/-- The event of the key. -/
def HistoryKey.event : HistoryKey → Event
  | .undo => .undoKey
  | .redo => .redoKey

/-- The events of the keys, each with what the browser reports when it arrives. -/
def keyEvents (ks : List (View × HistoryKey)) : List (View × Event) :=
  ks.map fun k => (k.1, k.2.event)

/-- A key steps back or forward in the history of formulas, if there is a step. -/
def History.press (h : History) : HistoryKey → History
  | .undo => h.back
  | .redo => h.forward

/-- Several keys, one after the other. -/
def History.pressAll (h : History) (ks : List HistoryKey) : History := ks.foldl History.press h

/-- All formulas of the history, latest first. -/
def History.formulas (h : History) : List Row := h.future.reverse ++ h.now :: h.past

end Aftermath
