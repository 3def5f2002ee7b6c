import Verif.Props.Autocomplete

/-! # When asking for autocompletions succeeds -/

namespace Aftermath

variable {T : Type} {env : Env T}

theorem matches_ok {rule : AutocompleteRule} {row : Row} {o minLen : Nat}
    (hrule : rule.parser ≠ []) (hascii : Ascii rule.parser) (ho : o ≤ row.length)
    (hsym : ¬ SymbolsLeftOf row o [[]]) : ∃ ms, rule.matches row o minLen = .ok ms := by
  unfold AutocompleteRule.matches
  have hne : rule.parser.isEmpty = false := by simpa using hrule
  rw [hne]
  simp only [Bool.not_false, massert, if_true, M.ok_bind]
  rw [if_pos ho]
  cases hrev : (row.take o).reverse with
  | nil => exact ⟨[], rfl⟩
  | cons n rest =>
    cases n with
    | container v cells w => exact ⟨[], rfl⟩
    | symbol s =>
      simp only
      have hs : s ≠ [] := by
        rintro rfl
        refine hsym ⟨ho, rest.reverse, ?_⟩
        have := congrArg List.reverse hrev
        simpa using this
      obtain ⟨l, hl, -⟩ := indicesOfFrom_complete (Nat.le_refl _) hs hascii (Nat.zero_le _)
      have hsound := indicesOfFrom_sound (Nat.le_refl _) hl
      obtain ⟨ms, hms, -⟩ := matchCandidates_complete (rule := rule)
        (rev := .symbol s :: rest) (minLen := minLen) (is := l) (by
          intro i hi
          obtain ⟨-, pre, post, h1, h2⟩ := hsound.1 i hi
          exact ⟨pre, s ++ post, by simp [h1], h2⟩)
      exact ⟨ms, by simp only [indicesOf, hl, M.ok_bind, hms]⟩

theorem matchesAll_ok {rules : List AutocompleteRule} {row : Row} {o minLen : Nat}
    (hr : GoodRules rules) (ho : o ≤ row.length) (hsym : ¬ SymbolsLeftOf row o [[]]) :
    ∃ ms, matchesAll rules row o minLen = .ok ms := by
  induction rules with
  | nil => exact ⟨[], rfl⟩
  | cons r rs ih =>
    obtain ⟨a, ha⟩ := matches_ok (minLen := minLen) (hr r (by simp)).1 (hr r (by simp)).2 ho hsym
    obtain ⟨b, hb⟩ := ih (fun r hr' => hr r (by simp [hr']))
    exact ⟨a ++ b, by simp only [matchesAll, ha, hb, M.ok_bind]⟩

theorem autocompleteStateGet_total (current : Option AutocompleteRule) (ms : List RuleMatch)
    (pos : MinPos) : ∃ r, autocompleteStateGet current ms pos = .ok r := by
  by_cases h : ms = []
  · subst h; exact ⟨_, rfl⟩
  · obtain ⟨cur, i, h⟩ := autocompleteStateGet_ok current h pos
    exact ⟨_, h⟩

theorem getAutocomplete_ok {ed : Editor T} (hwf : rowWf ed.input = true)
    (hv : ValidCaret ed.input ed.caret) (hr : GoodRules env.rules)
    (hsym : NoEmptySymbolLeft ed.input ed.caret) : ∃ x, ed.getAutocomplete env = .ok x := by
  obtain ⟨c, hc, hin, hm⟩ := Caret.fromMinimal_valid hwf hv
  unfold Editor.getAutocomplete
  rw [hc]
  simp only [M.ok_bind]
  cases hs : c.selection with
  | grid g => exact ⟨_, rfl⟩
  | row r =>
    simp only
    by_cases hcol : r.isCollapsed = true
    · rw [if_pos hcol]
      obtain ⟨⟨q, hf⟩, hb⟩ := caret_row_in hc hs
      have hcol' : r.start = r.stop := by simpa [RowRange.isCollapsed] using hcol
      have hsel : selectionOf ed.input ed.caret = .ok (.row ⟨q, r.start, r.start⟩) := by
        simp only [selectionOf, hc, M.ok_bind, hs, Selection.toMinimal, RowRange.toMinimal,
          hf.rowIndices_eq, ← hcol']
      obtain ⟨hat, -⟩ := collapsed_caret hwf hsel
      obtain ⟨ms, hms⟩ := matchesAll_ok (minLen := 2) hr hb.1 (hsym q r.start _ hat hf.rowAt_eq)
      obtain ⟨⟨cur, res⟩, h⟩ := autocompleteStateGet_total ed.currentAutocomplete ms
        r.startPosition.toMinimal
      have hms' : matchesAll env.rules r.startPosition.focus.row r.startPosition.offset 2 =
        .ok ms := hms
      simp only [hms', M.ok_bind, h]
      exact ⟨_, rfl⟩
    · rw [if_neg hcol]
      exact ⟨_, rfl⟩

theorem startAutocorrect_ok {ed : Editor T} (hwf : rowWf ed.input = true)
    (hv : ValidCaret ed.input ed.caret) (hr : GoodRules env.rules)
    (hsym : NoEmptySymbolLeft ed.input ed.caret) :
    ∃ e ac, ed.startAutocorrect env = .ok (e, ac) := by
  obtain ⟨⟨e, res⟩, h⟩ := getAutocomplete_ok hwf hv hr hsym
  unfold Editor.startAutocorrect
  rw [h]
  cases res with
  | none => exact ⟨_, _, rfl⟩
  | some a =>
    obtain ⟨_, _, _, _, m, -, -, -, -, -, -, -, h6, -⟩ := C32_open h
    simp only [M.ok_bind, AutocompleteResults.startAutocorrect, AutocompleteResults.getSelected,
      h6, munwrap]
    by_cases hc : m.isComplete = true
    · simp only [hc, Bool.not_true, Bool.false_eq_true, if_false, M.ok_bind]
      exact ⟨_, _, rfl⟩
    · simp only [hc, Bool.not_false, if_true, M.ok_bind]
      exact ⟨_, _, rfl⟩

/-- No autocorrection is pending unless a collapsed caret is behind a complete match. -/
theorem startAutocorrect_token {ed e : Editor T} {ac : AutocorrectAction}
    (hwf : rowWf ed.input = true) (h : ed.startAutocorrect env = .ok (e, some ac)) :
    ∃ q o row init last, ed.caret = .at ⟨q, o⟩ ∧ rowAt ed.input q = some row ∧
      SymbolsLeftOf row o (init ++ [last]) ∧ 1 ≤ init.length ∧
      ac.caretRange = ⟨q, o, o - (init ++ [last]).length⟩ ∧
      ac.rule ∈ env.rules ∧ (init ++ [last]).flatten <+: ac.rule.parser ∧
      utf8Len init.flatten + 1 = utf8Len ac.rule.parser := by
  obtain ⟨res, m, h1, h2, h3, rfl⟩ := startAutocorrect_some h
  obtain ⟨q, o, row, ms, m', g1, g2, g3, g4, g5, -, -, g6, -, -⟩ := C32_open h1
  rw [h2] at g6
  cases g6
  obtain ⟨rule, hrule, ms', hms', hm'⟩ := matchesAll_mem g4 (g5.subset (List.mem_of_getElem? h2))
  obtain ⟨hr1, hr2, init, last, hs1, hs2, hs3, -, hs5⟩ := C30_sound hms' hm'
  obtain ⟨hc, hv⟩ := collapsed_caret hwf g1
  refine ⟨q, o, row, init, last, hc, g2, hs1, ?_, ?_, hr1 ▸ hrule, hr1 ▸ hs3, ?_⟩
  · rw [hs2] at hr2; simp at hr2; omega
  · simp only [AutocompleteResults.getCaretRange, g3, hs2]
  · rw [← hs5]
    simpa [RuleMatch.isComplete] using h3

end Aftermath
