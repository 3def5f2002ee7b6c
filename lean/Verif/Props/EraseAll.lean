import Verif.Proof.EraseAll
import Verif.Proof.EraseKeys

/-! # Property theorems C102: Backspace and Delete from anywhere -/

namespace Aftermath

variable {T : Type} {env : Env T}

/-- What is before a caret and what is behind it is everything. -/
theorem C102_split {q : RowIndices} : ∀ {row : Row} {o : Nat}, ValidPos row ⟨q, o⟩ →
    symbolsBefore row q o ++ symbolsAfter row q o = rowSymbols row := by
  induction q with
  | nil =>
    intro row o _
    simp only [symbolsBefore, symbolsAfter, ← rowSymbols_append, List.take_append_drop]
  | cons ix q ih =>
    obtain ⟨i, j⟩ := ix
    rintro row o ⟨x, hx, ho⟩
    obtain ⟨v, cells, w, c, hi, hj, hx⟩ := rowAt_cons.1 hx
    have h := ih (row := c) (o := o) ⟨x, hx, ho⟩
    simp only [symbolsBefore, symbolsAfter, hi, hj]
    have h1 : cellsSymbols cells =
        cellsSymbols (cells.take j) ++ (rowSymbols c ++ cellsSymbols (cells.drop (j + 1))) := by
      conv_lhs => rw [split_getElem? hj]
      rw [cellsSymbols_append]
      rfl
    conv_rhs => rw [split_getElem? hi]
    rw [rowSymbols_append]
    simp only [rowSymbols, Node.symbols, h1, ← h, List.append_assoc]

/-- **C102**, Backspace: from every caret of every formula, Backspace pressed often enough gets to the
start of the formula. The symbols behind the caret are left, in their order, and no others. For builds
without overflow checks; with them the first filled cell of a container is the end (C33). -/
theorem C102_backspace {root : Row} (hwf : rowWf root = true) {cfg : Cfg} (hc : cfg.checks = false)
    (hfit : rowFits cfg.bits root = true) {m : MinPos} (hm : ValidPos root m) :
    ∃ k root', deleteKeyN cfg .left k (root, .at m) = .ok (root', .at ⟨[], 0⟩) ∧
      rowSymbols root' = symbolsAfter root m.rowIndices m.offset ∧ rowWf root' = true := by
  obtain ⟨k, row', h1, h2⟩ := Clears.any (cfg := cfg) (dir := .left) hwf (fun _ => ⟨hc, hfit⟩) hm
  obtain ⟨root', g1, g2, g3, -⟩ := h1 root [] hwf rfl
  cases g2
  exact ⟨k, row', g1, h2, g3⟩

/-- **C102**, Delete, in every build: it gets to the end of the formula, and the symbols before the
caret are left. -/
theorem C102_delete {root : Row} (hwf : rowWf root = true) (cfg : Cfg) {m : MinPos}
    (hm : ValidPos root m) :
    ∃ k root', deleteKeyN cfg .right k (root, .at m) = .ok (root', .at ⟨[], root'.length⟩) ∧
      rowSymbols root' = symbolsBefore root m.rowIndices m.offset ∧ rowWf root' = true := by
  obtain ⟨k, row', h1, h2⟩ := Clears.any (cfg := cfg) (dir := .right) hwf nofun hm
  obtain ⟨root', g1, g2, g3, -⟩ := h1 root [] hwf rfl
  cases g2
  exact ⟨k, row', g1, h2, g3⟩

/-- **C102**: in every build and from every caret, Delete pressed often enough and then Backspace
pressed often enough empties the formula, and nothing panics. -/
theorem C102_empty {root : Row} (hwf : rowWf root = true) (cfg : Cfg) {m : MinPos}
    (hm : ValidPos root m) :
    ∃ k n, (do
      let st ← deleteKeyN cfg .right k (root, .at m)
      deleteKeyN cfg .left n st) = .ok ([], .at ⟨[], 0⟩) := by
  obtain ⟨k, root', h1, -, h2⟩ := C102_delete hwf cfg hm
  obtain ⟨root'', h3, h4, -⟩ :=
    erased_row (cfg := cfg) (dir := .left) root' h2 [] [] root' [] h2 (by simp [rowAt])
  have := h4.rowAt_new
  simp only [rowAt, List.append_nil, Option.some.injEq] at this
  subst this
  refine ⟨k, rowPresses .left root', ?_⟩
  rw [h1]
  simpa [eraseStart, HDir.toMode] using h3

/-- **C102** in the editor, with history and autocorrection. -/
theorem C102_editor (hr : GoodRules env.rules) (hc : env.cfg.checks = false) {ed : Editor T}
    (hwf : rowWf ed.input = true) (hfit : rowFits env.cfg.bits ed.input = true)
    (hsym : [] ∉ rowSymbols ed.input) {m : MinPos} (hcar : ed.caret = .at m)
    (hm : ValidPos ed.input m) :
    ∃ k ed', ed.run env (List.replicate k (.removeAtCaret .left)) = .ok ed' ∧
      rowSymbols ed'.input = symbolsAfter ed.input m.rowIndices m.offset ∧
      ed'.caret = .at ⟨[], 0⟩ := by
  obtain ⟨k, row', h1, h2⟩ := Clears.any (cfg := env.cfg) (dir := .left) hwf (fun _ => ⟨hc, hfit⟩) hm
  obtain ⟨root', g1, g2, -, -, g3⟩ := h1 ed.input [] hwf rfl
  cases g2
  simp only [List.nil_append, ← hcar] at g1 g3
  obtain ⟨ed', e1, rfl, e3⟩ := backspaces_editor hr hsym k g1 g3
  exact ⟨k, ed', e1, h2, e3⟩

/-! ## Cases -/

/-- A table with `a`, `b`, `c`, `d` between `x` and `y`. -/
def tableSample : Row :=
  [.symbol ['x'], .container .table [[.symbol ['a']], [.symbol ['b']], [.symbol ['c']],
    [.symbol ['d']]] 2, .symbol ['y']]

/-- From behind `c`: Backspace leaves `d` and `y`, but not the table's shape alone. -/
example : deleteKeyN .release .left 7 (tableSample, .at ⟨[(1, 2)], 1⟩) =
      .ok ([.container .table [[], [], [], [.symbol ['d']]] 2, .symbol ['y']], .at ⟨[], 0⟩) ∧
    symbolsAfter tableSample [(1, 2)] 1 = [['d'], ['y']] := by decide +kernel

/-- In a build with overflow checks the sixth press panics. -/
example : deleteKeyN .dev .left 6 (tableSample, .at ⟨[(1, 2)], 1⟩) = .error .overflow := by
  decide +kernel

/-- Delete goes the other way without panicking. -/
example : deleteKeyN .dev .right 4 (tableSample, .at ⟨[(1, 2)], 1⟩) =
      .ok ([.symbol ['x'], .container .table [[.symbol ['a']], [.symbol ['b']], [.symbol ['c']],
        []] 2], .at ⟨[], 2⟩) ∧
    symbolsBefore tableSample [(1, 2)] 1 = [['x'], ['a'], ['b'], ['c']] := by decide +kernel

end Aftermath
