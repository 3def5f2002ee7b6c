import Verif.Spec.Keys
import Verif.Spec.History

/-! # Runs of the editor without replacements -/

namespace Aftermath

variable {T : Type}

/-- The call from `ed` to `ed'` did not replace a token: no autocorrection was pending before it,
or it did not change the undo history. -/
def NoReplacement (env : Env T) (ed ed' : Editor T) : Prop :=
  (∃ e, ed.startAutocorrect env = .ok (e, none)) ∨ ed'.undo = ed.undo

/-- What rules put in place of a token is well formed. -/
def GoodResults (rules : List AutocompleteRule) : Prop :=
  ∀ r ∈ rules, rowWf r.result = true

/-- After a replacement, the caret is a position of the formula, and so is the caret that was
recorded in the history. -/
def Landed (ed : Editor T) : Prop :=
  ValidCaret ed.input ed.caret ∧
    ∀ a, ed.undo.undoStack.head? = some a → ValidCaret ed.input a.caretAfter

/-- The call from `ed` to `ed'` did not replace a token, or did so without losing the caret. -/
def CalmMove (env : Env T) (ed ed' : Editor T) : Prop :=
  NoReplacement env ed ed' ∨ GoodResults env.rules ∧ Landed ed'

/-- The nodes that the caller passes are well formed. -/
def Op.GoodNodes (cfg : Cfg) : Op → Prop
  | .paste data _ => ∀ nodes, deserializeNodes cfg data = some nodes → rowWf nodes = true
  | .spliceAtRange _ vs => rowWf vs = true
  | _ => True

/-- The call has valid arguments, and no replacement loses the caret: positions are valid in the
formula, nodes are well formed. `insert_at_caret` and `paste` never replace a token (C36), so
nothing else is asked of them. -/
def Op.Calm (env : Env T) (ed ed' : Editor T) : Op → Prop
  | .moveCaret _ _ | .selectWithCaret _ _ | .removeAtCaret _ => CalmMove env ed ed'
  | .startSelection p _ | .extendSelection p => ValidPos ed.input p ∧ CalmMove env ed ed'
  | .paste data known => (Op.paste data known).GoodNodes env.cfg
  | .finishAutocomplete _ => ed'.undo = ed.undo ∨ GoodResults env.rules ∧ Landed ed'
  | .spliceAtRange _ vs => rowWf vs = true ∧ Landed ed'
  | _ => True

/-- The states reached from a fresh editor by calm calls. In builds without overflow checks the
formulas fit into memory. -/
inductive CalmRun (env : Env T) : Editor T → Prop
  | new : CalmRun env Editor.new
  | step {ed ed' : Editor T} {op : Op} (h : CalmRun env ed) (hs : ed.step env op = .ok ed')
      (hc : op.Calm env ed ed')
      (hfit : env.cfg.checks = false → rowFits env.cfg.bits ed.input = true) : CalmRun env ed'

/-- The states reached from a fresh editor by any calls with well-formed nodes. In builds without
overflow checks the formulas fit into memory. -/
inductive FormedRun (env : Env T) : Editor T → Prop
  | new : FormedRun env Editor.new
  | step {ed ed' : Editor T} {op : Op} (h : FormedRun env ed) (hs : ed.step env op = .ok ed')
      (hn : op.GoodNodes env.cfg)
      (hfit : env.cfg.checks = false → rowFits env.cfg.bits ed.input = true) : FormedRun env ed'

/-- Where a call panics while no autocorrection is pending: the arrow keys in Word or Line mode
and, with overflow checks, Left at the start of the first cell of a container; deletions in the
cases of `DeletePanics`; everything but moving on a grid selection; pasting an unknown data type;
and the first `get_syntax_tree` after a change if the parser panics. -/
def Op.Panics (env : Env T) (ed : Editor T) : Op → Prop
  | .moveCaret d mode => ∃ rng, selectionOf ed.input ed.caret = .ok (.row rng) ∧
      (mode ≠ .char ∨ env.cfg.checks = true ∧ d = .left ∧
        AtFirstCellStart ⟨rng.rowIndices, min rng.start rng.stop⟩)
  | .selectWithCaret d mode => (∃ g, selectionOf ed.input ed.caret = .ok (.grid g)) ∨
      mode ≠ .char ∨ ∃ rng, selectionOf ed.input ed.caret = .ok (.row rng) ∧
        env.cfg.checks = true ∧ d = .left ∧ AtFirstCellStart ⟨rng.rowIndices, rng.stop⟩
  | .removeAtCaret mode => (∃ g, selectionOf ed.input ed.caret = .ok (.grid g)) ∨
      ∃ rng, selectionOf ed.input ed.caret = .ok (.row rng) ∧ rng.start = rng.stop ∧
        env.cfg.checks = true ∧ ∃ dir : HDir, mode = dir.toMode ∧
          DeletePanics ed.input dir ⟨rng.rowIndices, rng.start⟩
  | .insertAtCaret _ => ∃ g, selectionOf ed.input ed.caret = .ok (.grid g)
  | .paste data known => known = false ∨ (deserializeNodes env.cfg data ≠ none ∧
      ∃ g, selectionOf ed.input ed.caret = .ok (.grid g))
  | .getSyntaxTree => ed.parsed = none ∧ ∃ e, env.parse ed.input = .error e
  | _ => False

end Aftermath
