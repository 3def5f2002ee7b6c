import Verif.Spec.Calm

/-! # Calls that put back what they take away -/

namespace Aftermath

variable {T : Type}

/-- Nothing that the rule writes is a piece of the word it stands for. -/
def AutocompleteRule.Fresh (rule : AutocompleteRule) : Prop :=
  ∀ s, Node.symbol s ∈ rule.result → s ≠ [] → ¬ s <:+: rule.parser

/-- The match that is marked in the list of autocompletions. -/
def Editor.Offers (env : Env T) (ed : Editor T) (m : RuleMatch) : Prop :=
  ∃ e res, ed.getAutocomplete env = .ok (e, some res) ∧
    res.matches'[res.selectedIndex]? = some m

/-- The caret is behind a complete word, and the rule for it writes a piece of this word. -/
def Editor.BehindEcho (env : Env T) (ed : Editor T) : Prop :=
  ∃ m, ed.Offers env m ∧ m.isComplete = true ∧ ¬ m.rule.Fresh

/-- Exactly these nodes are selected. -/
def Editor.Selects (ed : Editor T) (vs : List Node) : Prop :=
  ∃ q a b row, selectionOf ed.input ed.caret = .ok (.row ⟨q, a, b⟩) ∧
    rowAt ed.input q = some row ∧ (row.take (max a b)).drop (min a b) = vs

/-- The call may put back what it takes away: it removes an empty selection, writes or pastes just
what is selected, or leaves or accepts a word whose rule writes a piece of this word. -/
def Op.Idle (env : Env T) (ed : Editor T) : Op → Prop
  | .removeAtCaret mode => mode = .range ∧ ed.Selects [] ∨ ed.BehindEcho env
  | .insertAtCaret vs => ed.Selects (vs.map Node.symbol)
  | .paste data _ => ∃ nodes, deserializeNodes env.cfg data = some nodes ∧ ed.Selects nodes
  | .spliceAtRange r vs => ∃ row, rowAt ed.input r.rowIndices = some row ∧
      (row.take (max r.start r.stop)).drop (min r.start r.stop) = vs
  | .moveCaret _ _ | .selectWithCaret _ _ | .startSelection _ _ | .extendSelection _ =>
    ed.BehindEcho env
  | .finishAutocomplete true => ∃ m, ed.Offers env m ∧ ¬ m.rule.Fresh
  | _ => False

/-- The states reached from a fresh editor by calls with well-formed nodes that are not idle. In
builds without overflow checks the formulas fit into memory. -/
inductive BusyRun (env : Env T) : Editor T → Prop
  | new : BusyRun env Editor.new
  | step {ed ed' : Editor T} {op : Op} (h : BusyRun env ed) (hs : ed.step env op = .ok ed')
      (hi : ¬ op.Idle env ed) (hn : op.GoodNodes env.cfg)
      (hfit : env.cfg.checks = false → rowFits env.cfg.bits ed.input = true) : BusyRun env ed'

end Aftermath
