import Verif.Spec.Pending
import Verif.Props.Autocorrect
import Verif.Props.Range

/-! # Tokens of any symbols, and what a pending replacement does -/

namespace Aftermath

variable {T : Type}

/-- The token of the selected autocompletion: `syms`, which end at offset `o` of row `q`, where the
caret is, complete the rule. They may have any number of characters each. -/
def TokenLeft (env : Env T) (ed : Editor T) (rule : AutocompleteRule) (q : RowIndices) (o : Nat)
    (row : Row) (syms : List Str) : Prop :=
  ∃ e res m, ed.getAutocomplete env = .ok (e, some res) ∧
    res.matches'[res.selectedIndex]? = some m ∧ m.isComplete = true ∧ m.rule = rule ∧
    m.inputMatchLength = syms.length ∧ ed.caret = .at ⟨q, o⟩ ∧ rowAt ed.input q = some row ∧
    SymbolsLeftOf row o syms

/-- The symbols left of offset `o` spell the rule, and the last of them is a single character. -/
def Completes (rule : AutocompleteRule) (row : Row) (o : Nat) : Prop :=
  ∃ init c, SymbolsLeftOf row o (init ++ [[c]]) ∧ (init ++ [[c]]).flatten = rule.parser

/-- Where replacing what is in range `r` panics, in the state `ed`: when the caret or the range is
not one of the formula; or else, when the selection starts outside of the range, if the range is
shorter than its distance from the start of its row, or an empty symbol would be looked at, or the
range is replaced, is in the outermost row, and the caret is not. -/
def ReplacePanics (ed : Editor T) (rule : AutocompleteRule) (r : MinRange) : Prop :=
  ¬ ValidCaret ed.input ed.caret ∨
  ∃ rng, selectionOf ed.input ed.caret = .ok (.row rng) ∧
    (¬ ValidRange ed.input r ∨ ∃ row, rowAt ed.input r.rowIndices = some row ∧
      ¬ Covers r.rowIndices r.lo r.hi ⟨rng.rowIndices, rng.start⟩ ∧
      (r.hi - r.lo < r.lo ∨ SymbolsLeftOf ((row.take r.hi).drop r.lo) r.lo [[]] ∨
        Completes rule ((row.take r.hi).drop r.lo) r.lo ∧ r.rowIndices = [] ∧
          CaretInElement ed.caret))

/-- The element with index `i` of the row `p0 ++ [(a, b)]` is dissolved, by a call from `ed` to
`ed0`, and the row `q` is its cell `j`. Then the token of row `q` is looked for in the row `q'`,
which has nothing to do with it. (If `a` is `i` nothing is looked for.) -/
def LooksAt (ed ed0 : Editor T) (q q' : RowIndices) : Prop :=
  ed0.undo ≠ ed.undo ∧ ∃ p0 a b i j, ed0.caret.start.rowIndices = p0 ++ [(a, b)] ∧
    q = p0 ++ [(a, b)] ++ [(i, j)] ∧ a ≠ i ∧
    q' = p0 ++ [(if a < i then a else a - 1, b)] ++ [(i, j)]

/-- Where a call panics because of the token of `k` symbols that ends at offset `o` of row `q`, when
without rules it goes from `ed` to `ed0`. -/
def TokenPanics (ed ed0 : Editor T) (rule : AutocompleteRule) (q : RowIndices) (o k : Nat) :
    Prop :=
  (ed0.undo = ed.undo ∧ ReplacePanics ed0 rule ⟨q, o, o - k⟩) ∨
  (ed0.undo ≠ ed.undo ∧ ed0.caret.start.rowIndices = [] ∧ q ≠ []) ∨
  ∃ q', LooksAt ed ed0 q q' ∧ ReplacePanics ed0 rule ⟨q', o, o - k⟩

/-- The calls that look up the caret in the formula. -/
def Op.NeedsCaret : Op → Prop
  | .moveCaret _ _ | .selectWithCaret _ _ | .removeAtCaret _ | .insertAtCaret _
  | .startSelection _ _ | .extendSelection _ | .paste _ _ | .openAutocomplete
  | .moveInAutocomplete _ | .getAutocomplete | .finishAutocomplete true => True
  | _ => False

/-- All panics of all calls: the caret is lost, or a symbol without characters is left of it while
there are rules; or the call panics without rules; or it is a direct splice at a wrong range, or in
the outermost row while the caret is in an element; or a token is in the way. -/
def Op.AllPanics (env : Env T) (ed : Editor T) (op : Op) : Prop :=
  (op.NeedsCaret ∧ (¬ ValidCaret ed.input ed.caret ∨
    env.rules ≠ [] ∧ ¬ NoEmptySymbolLeft ed.input ed.caret)) ∨
  op.Panics env ed ∨
  (∃ range values, op = .spliceAtRange range values ∧
    (¬ ValidRange ed.input range ∨ range.rowIndices = [] ∧ CaretInElement ed.caret)) ∨
  (op.Corrects ∧ ∃ rule q o row syms ed0, TokenLeft env ed rule q o row syms ∧
    ed.step env.plain op = .ok ed0 ∧ TokenPanics ed ed0 rule q o syms.length)

end Aftermath
