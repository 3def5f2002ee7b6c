import Verif.Proof.EffortGrowth
import Verif.Proof.EffortBound
import Verif.Proof.EffortFree
import Verif.Proof.EffortPoints
import Verif.Proof.EffortAny
import Verif.Proof.NotationErrors
import Verif.Props.Expression
import Verif.Props.Notation

/-! # C79: the effort of parsing

The effort is the number of calls of `pratt_parse`. -/

namespace Aftermath

/-- **C79** The number of calls does not depend on the bound of the depth of recursion, if that is
larger than the number of nodes and cells. -/
theorem C79_depth (x : Xid) (hx : x.Letters) :
    ∃ g m, createParser x = .ok (g, m) ∧ ∀ row, rowWf row = true → ∀ f f', rowWeight row < f →
      rowWeight row < f' → g.effort f row = g.effort f' row := by
  obtain ⟨g, m, h, hg, -⟩ := createParser_apart hx
  refine ⟨g, m, h, fun row hw => ?_⟩
  have key : ∀ f f', f ≤ f' → rowWeight row < f → g.effort f row = g.effort f' row := by
    intro f f' hle hf
    obtain ⟨res, p, hr, -⟩ := (pratt_ok hg f).2 row 0 (0, .weak) .eof hw (Nat.zero_le _)
      (by simpa [restWeight] using hf)
    exact prattEffort_le g hle hr
  intro f f' hf hf'
  rcases Nat.le_total f f' with hle | hle
  · exact key f f' hle hf
  · exact (key f' f hle hf').symm

/-- **C79** A row that is read without errors and has no scripts at infix operators is parsed with at
most one call for each node and each cell, and one for the row. -/
theorem C79 (x : Xid) (hx : x.Usual) :
    ∃ g m, createParser x = .ok (g, m) ∧ ∀ row t, rowWf row = true → g.parse row = .ok t →
      ErrorFree g t → ¬ OperatorScript row → ∀ f, rowWeight row < f →
      g.effort f row ≤ rowWeight row + 1 := by
  obtain ⟨g, m, h, hg, ha⟩ := createParser_apart hx.toLetters
  have S := createParser_std hx.toLetters h
  refine ⟨g, m, h, fun row t hw ht he hs f hf => ?_⟩
  obtain ⟨t', ht', hc⟩ := C50 g hg ha row hw
  rw [ht] at ht'
  cases ht'
  cases hc.1 he with
  | mk h1 h2 =>
    obtain ⟨res, p, -, hb⟩ := bounded S hx f (min := (0, .weak)) (e := .eof) (by rintro s ⟨⟩) hw
      (Nat.zero_le _) (by simpa [restWeight] using hf) h1 h2 hs (by decide)
    simp only [restWeight, List.drop_zero] at hb
    rw [Grammar.effort]
    omega

/-- **C79** The same holds for every row without opening brackets and without scripts at infix
operators, whatever errors there are in it. -/
theorem C79_free (x : Xid) (hx : x.Letters) :
    ∃ g m, createParser x = .ok (g, m) ∧ ∀ row, rowWf row = true → BracketFree row →
      ¬ OperatorScript row → ∀ f, rowWeight row < f → g.effort f row ≤ rowWeight row + 1 := by
  obtain ⟨g, m, h, hg, -⟩ := createParser_apart hx
  have S := createParser_std hx h
  refine ⟨g, m, h, fun row hw hb hs f hf => ?_⟩
  have hf' : restWeight row 0 < f := by simpa [restWeight] using hf
  obtain ⟨res, p, hr, -⟩ := (pratt_ok hg f).2 row 0 (0, .weak) .eof hw (Nat.zero_le _) hf'
  have := freeBounded S f hw (Nat.zero_le _) hf' hb hs (by decide) hr
  simp only [restWeight, List.drop_zero] at this
  rw [Grammar.effort]
  omega

/-- **C79** Brackets can also be read very often if they are all closed: a character that cannot be read
before the brackets doubles the number of calls. -/
theorem C79_points (x : Xid) (hx : x.Usual) :
    ∃ g m, createParser x = .ok (g, m) ∧ ∀ n, rowWeight (pointTower n) = 3 * n + 1 ∧
      ∀ f, rowWeight (pointTower n) < f → g.effort f (pointTower n) + 1 = 2 ^ (n + 1) := by
  obtain ⟨g, m, h, hg, -⟩ := createParser_apart hx.toLetters
  have S := createParser_std hx.toLetters h
  refine ⟨g, m, h, fun n => ⟨pointTower_weight n, fun f hf => ?_⟩⟩
  exact (point_call S hx n f (row := pointTower n) (rest := []) (pos := 0) (e := .eof)
    (pointTower_wf n) (by simp) .eof (by simpa [restWeight] using hf)).2

/-- **C79** A row of `n` opening brackets is parsed with `3 ^ n` calls. -/
theorem C79_brackets (x : Xid) (hx : x.Usual) :
    ∃ g m, createParser x = .ok (g, m) ∧ ∀ n f, n < f →
      g.effort f (List.replicate n (.symbol ['('])) = 3 ^ n := by
  obtain ⟨g, m, h, hg, ha⟩ := createParser_apart hx.toLetters
  have S := createParser_std hx.toLetters h
  refine ⟨g, m, h, fun n f hf => ?_⟩
  exact (open_call S hx n f (pos := 0) (min := (0, .weak)) (e := .eof) (Nat.zero_le _)
    (by omega) (by rintro s ⟨⟩)).2

/-- **C79** With scripts at infix operators, also a formula without errors can need very many calls:
the size of these formulas grows by 6 each time, and the number of calls at least doubles. -/
theorem C79_scripts (x : Xid) (hx : x.Usual) :
    ∃ g m, createParser x = .ok (g, m) ∧ ∀ n, rowWeight (scriptTower n) = 6 * n + 1 ∧
      (∃ t, g.parse (scriptTower n) = .ok t ∧ ErrorFree g t) ∧
      ∀ f, rowWeight (scriptTower n) < f → 2 ^ n ≤ g.effort f (scriptTower n) := by
  obtain ⟨g, m, h, hg, ha⟩ := createParser_apart hx.toLetters
  have S := createParser_std hx.toLetters h
  refine ⟨g, m, h, fun n => ⟨tower_weight n, ?_, fun f hf => ?_⟩⟩
  · obtain ⟨t, ht, hs⟩ := parses_writes S hx (tower_writes hx n)
    exact ⟨t, ht, conveys_errorFree S hs⟩
  · rw [tower_weight] at hf
    exact tower_effort S hx n hf

/-- **C79** For every row, the number of calls grows at most exponentially with the number of nodes and
cells. -/
theorem C79_bound (x : Xid) (hx : x.Letters) :
    ∃ g m, createParser x = .ok (g, m) ∧ ∃ K, ∀ row, rowWf row = true → ∀ f, rowWeight row < f →
      g.effort f row < K ^ (rowWeight row + 1) := by
  obtain ⟨g, m, h, hg, -⟩ := createParser_apart hx
  refine ⟨g, m, h, g.base, fun row hw f hf => ?_⟩
  have := pratt_anyRow hg f row 0 (0, .weak) .eof hw (Nat.zero_le _)
    (by simpa only [restWeight, List.drop_zero] using hf)
  simp only [restWeight, List.drop_zero] at this
  exact this

/-! ## Examples -/

/-- The number of calls for a row. -/
private def calls (row : Row) : Nat :=
  match createParser letterXid with
  | .error _ => 0
  | .ok (g, _) => g.effort (rowWeight row + 1) row

example : calls (rowOf "-(a+b)*3!") = 5 ∧ rowWeight (rowOf "-(a+b)*3!") = 9 := by decide +kernel

example : calls [.container .fraction [rowOf "x+1", rowOf "2"] 1, sy '+', sy '1'] = 5 := by
  decide +kernel

example : calls (rowOf "((((") = 81 := by decide +kernel

example : calls (scriptTower 1) = 5 ∧ calls (scriptTower 2) = 13 ∧ calls (scriptTower 3) = 29 := by
  decide +kernel

/-- The base that is used for the bound. -/
example : (match createParser letterXid with | .error _ => 0 | .ok (g, _) => g.base) = 396 := by
  decide +kernel

/-- Rows with errors and without brackets: missing operators, missing operands, unknown signs. -/
example : calls (rowOf "2a3b!c)§4*+lim*x") = 10 ∧ rowWeight (rowOf "2a3b!c)§4*+lim*x") = 16 ∧
    calls (rowOf "2 2 2 2") = 4 := by decide +kernel

example : calls (pointTower 3) = 15 := by decide +kernel

/-- An unknown sign before nested brackets has the same effect as a script at an operator. -/
example : calls (rowOf "§(x)") = 3 ∧ calls (rowOf "§(§(x))") = 7 ∧ calls (rowOf "§(§(§(x)))") = 15 := by
  decide +kernel

end Aftermath
