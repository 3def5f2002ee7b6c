import Verif.Proof.EraseKeys

/-! # Property theorems C101: erasing by pressing Backspace or Delete often enough -/

namespace Aftermath

variable {T : Type} {env : Env T}

/-- **C101**: wherever the caret is in a formula, Backspace pressed `rowPresses .left x` times erases
exactly the nodes `x` left of it, Delete pressed `rowPresses .right x` times those right of it. The
rest of the formula stays, no press panics, and the caret is where `x` was. -/
theorem C101 {root : Row} (hwf : rowWf root = true) (cfg : Cfg) (dir : HDir) {q : RowIndices}
    {l x r : Row} (hrow : rowAt root q = some (l ++ x ++ r)) :
    ∃ root', deleteKeyN cfg dir.toMode (rowPresses dir x) (root, .at ⟨q, eraseStart dir l x⟩) =
        .ok (root', .at ⟨q, l.length⟩) ∧
      ReplacedAt root q (l ++ x ++ r) (l ++ r) root' ∧ rowWf root' = true := by
  have hx : rowWf x = true := by
    have := rowAt_wf hwf hrow
    rw [rowWf_append, rowWf_append, Bool.and_eq_true, Bool.and_eq_true] at this
    exact this.1.2
  obtain ⟨root', h1, h2, h3, -⟩ := erased_row (cfg := cfg) (dir := dir) x hx l r root q hwf hrow
  simp only [List.append_nil] at h1
  exact ⟨root', h1, h2, h2.wf hwf h3⟩

/-- **C101**: from its end (Backspace) or its start (Delete), every formula is emptied. -/
theorem C101_all {root : Row} (hwf : rowWf root = true) (cfg : Cfg) (dir : HDir) :
    deleteKeyN cfg dir.toMode (rowPresses dir root) (root, .at ⟨[], eraseStart dir [] root⟩) =
      .ok ([], .at ⟨[], 0⟩) := by
  obtain ⟨root', h1, h2, -⟩ := C101 hwf cfg dir (q := []) (l := []) (x := root) (r := [])
    (by simp [rowAt])
  have := h2.rowAt_new
  simp only [rowAt, List.append_nil, Option.some.injEq] at this
  rw [h1, this]
  rfl

/-- **C101**: no fewer presses do (in a build with overflow checks, where one press too many
panics). -/
theorem C101_exact {root : Row} (hwf : rowWf root = true) {cfg : Cfg} (hc : cfg.checks = true)
    (dir : HDir) {k : Nat} (hk : k < rowPresses dir root) {st : Row × MinCaret}
    (h : deleteKeyN cfg dir.toMode k (root, .at ⟨[], eraseStart dir [] root⟩) = .ok st) :
    st.1 ≠ [] := by
  intro he
  have hx := erased_row (cfg := cfg) (dir := dir) root hwf [] [] root [] hwf (by simp [rowAt])
  obtain ⟨root', h1, -, -, -, h2⟩ := hx
  obtain ⟨-, -, m, h3, row, h4, h5⟩ := h2 k hk st (by simpa using h)
  obtain ⟨root1, m1⟩ := st
  simp only at he h3 h4
  subst he h3
  obtain ⟨q, o⟩ := m
  cases q with
  | cons ix q =>
    obtain ⟨i, j⟩ := ix
    obtain ⟨_, _, _, _, h6, _⟩ := rowAt_cons.1 h4
    simp at h6
  | nil =>
    simp only [rowAt, Option.some.injEq] at h4
    subst h4
    have : o = 0 := by simpa using h5
    subst this
    obtain ⟨n, hn⟩ : ∃ n, rowPresses dir root = k + (n + 1) :=
      ⟨rowPresses dir root - k - 1, by omega⟩
    have h7 := C101_all hwf cfg dir
    rw [hn, deleteKeyN_add, h] at h7
    simp only [M.ok_bind, deleteKeyN] at h7
    have h8 := C33_root_edge (root := []) rfl cfg dir
    simp only [List.length_nil] at h8
    have h9 : deleteKey cfg dir.toMode ([], .at ⟨[], 0⟩) = .error .overflow := by
      cases dir <;> simpa [hc] using h8
    rw [h9] at h7
    cases h7

/-- **C101** in the editor, with history and autocorrection: Backspace erases exactly the nodes left
of the caret, and corrects nothing meanwhile. -/
theorem C101_editor (hr : GoodRules env.rules) {ed : Editor T} (hwf : rowWf ed.input = true)
    (hsym : [] ∉ rowSymbols ed.input) {q : RowIndices} {l x r : Row}
    (hrow : rowAt ed.input q = some (l ++ x ++ r)) (hcar : ed.caret = .at ⟨q, l.length + x.length⟩) :
    ∃ ed', ed.run env (List.replicate (rowPresses .left x) (.removeAtCaret .left)) = .ok ed' ∧
      ReplacedAt ed.input q (l ++ x ++ r) (l ++ r) ed'.input ∧ ed'.caret = .at ⟨q, l.length⟩ := by
  have hx : rowWf x = true := by
    have := rowAt_wf hwf hrow
    rw [rowWf_append, rowWf_append, Bool.and_eq_true, Bool.and_eq_true] at this
    exact this.1.2
  obtain ⟨root', h1, h2, -, -, h3⟩ :=
    erased_row (cfg := env.cfg) (dir := .left) x hx l r ed.input q hwf hrow
  simp only [List.append_nil, eraseStart, ← hcar] at h1 h3
  obtain ⟨ed', e1, e2, e3⟩ := backspaces_editor hr hsym _ h1 h3
  exact ⟨ed', e1, by rw [e2]; exact h2, e3⟩

/-- **C101**: with the caret at the end of the formula, Backspace empties it. -/
theorem C101_editor_all (hr : GoodRules env.rules) {ed : Editor T} (hwf : rowWf ed.input = true)
    (hsym : [] ∉ rowSymbols ed.input) (hcar : ed.caret = .at ⟨[], ed.input.length⟩) :
    ∃ ed', ed.run env (List.replicate (rowPresses .left ed.input) (.removeAtCaret .left)) =
      .ok ed' ∧ ed'.input = [] ∧ ed'.caret = .at ⟨[], 0⟩ := by
  obtain ⟨ed', h1, h2, h3⟩ := C101_editor hr hwf hsym (q := []) (l := []) (x := ed.input) (r := [])
    (by simp [rowAt]) (by simpa using hcar)
  refine ⟨ed', h1, ?_, h3⟩
  have := h2.rowAt_new
  simpa [rowAt] using this

/-! ## Cases -/

/-- `a/b` with a superscript `2`: eight presses of Backspace, seven of Delete. -/
def eraseSample : Row :=
  [.fraction [.symbol ['a']] [.symbol ['b']], .sup [.symbol ['2']], .symbol ['+']]

example : rowPresses .left eraseSample = 8 ∧ rowPresses .right eraseSample = 7 := by decide +kernel

example : deleteKeyN .dev .left 8 (eraseSample, .at ⟨[], 3⟩) = .ok ([], .at ⟨[], 0⟩) := by
  decide +kernel

example : deleteKeyN .dev .right 7 (eraseSample, .at ⟨[], 0⟩) = .ok ([], .at ⟨[], 0⟩) := by
  decide +kernel

/-- One press too many panics in a build with overflow checks. -/
example : deleteKeyN .dev .left 9 (eraseSample, .at ⟨[], 3⟩) = .error .overflow := by
  decide +kernel

/-- Only what is left of the caret in its row goes: here the numerator `a` of a fraction. -/
example : deleteKeyN .dev .left 1 (eraseSample, .at ⟨[(0, 0)], 1⟩) =
    .ok ([.fraction [] [.symbol ['b']], .sup [.symbol ['2']], .symbol ['+']], .at ⟨[(0, 0)], 0⟩) := by
  decide +kernel

/-- A table with two cells in its one row. -/
example : rowPresses .left [.container .table [[.symbol ['a']], []] 2] = 4 ∧
    deleteKeyN .dev .left 4 ([.container .table [[.symbol ['a']], []] 2], .at ⟨[], 1⟩) =
      .ok ([], .at ⟨[], 0⟩) := by decide +kernel

end Aftermath
