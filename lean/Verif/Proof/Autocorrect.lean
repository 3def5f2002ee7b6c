import Verif.Proof.History
import Verif.Spec.Keys

/-! # Autocomplete lists, splicing and autocorrect in the editor -/

namespace Aftermath

variable {T : Type} {env : Env T}

theorem replace_sound {cfg : Cfg} {root root' row : Row} {q : RowIndices} {l r : Nat}
    {vs : List Node} (hrow : rowAt root q = some row) (hlr : l ≤ r) (hr : r ≤ row.length)
    (h : applyEdits cfg root [deleteEdit q row l r, .row ⟨.insert, ⟨q, l⟩, vs⟩] = .ok root') :
    ReplacedAt root q row (row.take l ++ vs ++ row.drop r) root' := by
  simp only [applyEdits] at h
  obtain ⟨r1, h1, h2⟩ := M.bind_eq_ok.1 h
  obtain ⟨r2, h3, h4⟩ := M.bind_eq_ok.1 h2
  cases h4
  obtain ⟨old, new, ho, hn, hrep⟩ := editRowAt_replaced h1
  rw [hrow] at ho; cases ho
  have hlen : ((row.take r).drop l).length = r - l := by simp; omega
  simp only [RowEdit.applyToRow, hlen] at hn
  rw [if_pos (by omega), show l + (r - l) = r by omega] at hn
  cases hn
  obtain ⟨old, new, ho, hn, hrep'⟩ := editRowAt_replaced h3
  rw [hrep.rowAt_new] at ho; cases ho
  simp only [RowEdit.applyToRow] at hn
  rw [if_pos (by simp; omega)] at hn
  cases hn
  have e1 : (row.take l ++ row.drop r).take l = row.take l :=
    List.take_left' (by rw [List.length_take]; omega)
  have e2 : (row.take l ++ row.drop r).drop l = row.drop r :=
    List.drop_left' (by rw [List.length_take]; omega)
  rw [e1, e2] at hrep'
  exact hrep.trans hrep'

/-- `ed'` is `ed` with the nodes from `l` to `r` of the row at `q` replaced, as one undo step. -/
def Spliced (ed ed' : Editor T) (q : RowIndices) (l r : Nat) (vs : List Node) : Prop :=
  ∃ row, rowAt ed.input q = some row ∧ l ≤ r ∧ r ≤ row.length ∧
    ReplacedAt ed.input q row (row.take l ++ vs ++ row.drop r) ed'.input ∧
    ∃ a, ed'.undo = ed.undo.push a

theorem splice_sound {ed ed' : Editor T} {range : MinRange} {values : List Node}
    (h : ed.spliceAtRange env range values = .ok ed') :
    Spliced ed ed' range.rowIndices (min range.start range.stop) (max range.start range.stop)
      values ∧ ed'.caret = ed.caret := by
  unfold Editor.spliceAtRange at h
  obtain ⟨r, hr, h1⟩ := M.bind_eq_ok.1 h
  obtain ⟨hf, hb, hm⟩ := RowRange.fromMinimal_sound hr
  rw [replaceRange_eq hf hb values] at h1
  simp only [M.ok_bind] at h1
  obtain ⟨a, ha, h2⟩ := M.bind_eq_ok.1 h1
  obtain ⟨b, hb', h3⟩ := M.bind_eq_ok.1 h2
  obtain ⟨⟨e, act⟩, he, h4⟩ := M.bind_eq_ok.1 h3
  cases h4
  simp only [Editor.finish, List.isEmpty_cons, Bool.false_eq_true, if_false] at he
  obtain ⟨input, hi, h5⟩ := M.bind_eq_ok.1 he
  cases h5
  have hl : r.leftOffset = min range.start range.stop := by
    rw [← hm]; unfold RowRange.leftOffset RowRange.isForwards RowRange.toMinimal; simp; split <;> omega
  have hrr : r.rightOffset = max range.start range.stop := by
    rw [← hm]; unfold RowRange.rightOffset RowRange.isForwards RowRange.toMinimal; simp; split <;> omega
  have h6 := r.left_le_right
  have h7 := RowRange.right_le hb
  rw [hl, hrr] at hi h6
  rw [hrr] at h7
  exact ⟨⟨r.focus.row, hf.rowAt_eq, h6, h7, replace_sound hf.rowAt_eq h6 h7 hi, _, rfl⟩, rfl⟩

/-- Inversion of a non-empty autocompletion list. -/
theorem getAutocomplete_some {ed ed' : Editor T} {res : AutocompleteResults}
    (h : ed.getAutocomplete env = .ok (ed', some res)) :
    ∃ (q : RowIndices) (o : Nat) (row : Row) (ms : List RuleMatch),
      selectionOf ed.input ed.caret = .ok (.row ⟨q, o, o⟩) ∧ rowAt ed.input q = some row ∧
      o ≤ row.length ∧ matchesAll env.rules row o 2 = .ok ms ∧ ms ≠ [] ∧
      res.caretPosition = ⟨q, o⟩ ∧
      res.matches' = sortMatches ms ∧
      res.selectedIndex < res.matches'.length ∧
      res.selectedIndex = (match ed.currentAutocomplete with
        | none => 0
        | some last => (res.matches'.findIdx? (fun m => m.rule == last)).getD 0) ∧
      ed' = { ed with currentAutocomplete := res.matches'[res.selectedIndex]?.map RuleMatch.rule } := by
  unfold Editor.getAutocomplete at h
  obtain ⟨c, hc, h1⟩ := M.bind_eq_ok.1 h
  split at h1
  · cases h1
  · rename_i r hr
    split at h1
    · rename_i hcol
      obtain ⟨ms, hms, h2⟩ := M.bind_eq_ok.1 h1
      obtain ⟨⟨cur, res'⟩, hx, h3⟩ := M.bind_eq_ok.1 h2
      cases h3
      obtain ⟨⟨q, hf⟩, hb⟩ := caret_row_in hc hr
      unfold autocompleteStateGet at hx
      split at hx
      · cases hx
      · rename_i hne
        obtain ⟨x, hx1, h4⟩ := M.bind_eq_ok.1 hx
        cases h4
        unfold AutocompleteResults.new at hx1
        obtain ⟨u, hu, h5⟩ := M.bind_eq_ok.1 hx1
        rw [massert_eq_ok, decide_eq_true_iff] at hu
        have h6 := Except.ok.inj h5
        have hcol' : r.start = r.stop := by simpa [RowRange.isCollapsed] using hcol
        refine ⟨q, r.start, r.focus.row, ms, ?_, hf.rowAt_eq, hb.1, hms, by simpa using hne, ?_,
          ?_, ?_, ?_, ?_⟩
        · simp only [selectionOf, hc, M.ok_bind, hr, Selection.toMinimal, RowRange.toMinimal,
            hf.rowIndices_eq, ← hcol']
        · rw [← h6]
          simp [RowRange.startPosition, Position.toMinimal, hf.rowIndices_eq]
        · rw [← h6]
        · rw [← h6]; exact hu
        · rw [← h6]
          cases ed.currentAutocomplete <;> rfl
        · rw [← h6]
    · cases h1

theorem getAutocomplete_selectionMode {ed e : Editor T} {x : Option MoveMode}
    {res : Option AutocompleteResults}
    (h : ({ ed with selectionMode := x }).getAutocomplete env = .ok (e, res)) :
    ∃ e', ed.getAutocomplete env = .ok (e', res) := by
  unfold Editor.getAutocomplete at h ⊢
  obtain ⟨c, hc, h1⟩ := M.bind_eq_ok.1 h
  have hc' : Caret.fromMinimal ed.input ed.caret = .ok c := hc
  simp only [hc', M.ok_bind]
  cases hs : c.selection with
  | grid g =>
    rw [hs] at h1
    cases h1
    exact ⟨ed, rfl⟩
  | row r =>
    rw [hs] at h1
    simp only at h1 ⊢
    split at h1
    · rename_i hcol
      rw [if_pos hcol]
      obtain ⟨ms, hms, h2⟩ := M.bind_eq_ok.1 h1
      obtain ⟨y, hx, h3⟩ := M.bind_eq_ok.1 h2
      cases h3
      simp only [hms, M.ok_bind, hx]
      exact ⟨_, rfl⟩
    · rename_i hcol
      cases h1
      rw [if_neg hcol]
      exact ⟨_, rfl⟩

/-- Inversion of a pending autocorrection. -/
theorem startAutocorrect_some {ed ed' : Editor T} {ac : AutocorrectAction}
    (h : ed.startAutocorrect env = .ok (ed', some ac)) :
    ∃ res m, ed.getAutocomplete env = .ok (ed', some res) ∧
      res.matches'[res.selectedIndex]? = some m ∧ m.isComplete = true ∧
      ac = ⟨m.rule, res.getCaretRange m⟩ := by
  unfold Editor.startAutocorrect at h
  obtain ⟨⟨e, res⟩, he, h1⟩ := M.bind_eq_ok.1 h
  cases res with
  | none => cases h1
  | some a =>
    obtain ⟨x, hx, h2⟩ := M.bind_eq_ok.1 h1
    have h3 := Except.ok.inj h2
    simp only [Prod.mk.injEq] at h3
    obtain ⟨rfl, rfl⟩ := h3
    unfold AutocompleteResults.startAutocorrect at hx
    obtain ⟨m, hm, h3⟩ := M.bind_eq_ok.1 hx
    split at h3
    · cases h3
    · rename_i hc
      have h4 := Option.some.inj (Except.ok.inj h3)
      exact ⟨a, m, he, munwrap_eq_ok.1 hm, by simpa using hc, h4.symm⟩

theorem applyAutocorrect_cases {ed ed' : Editor T} {ac : Option AutocorrectAction}
    (h : ed.applyAutocorrect env ac = .ok ed') :
    ed' = ed ∨ ∃ a, ac = some a ∧ ed'.caret = ed.caret ∧
      Spliced ed ed' a.caretRange.rowIndices (min a.caretRange.start a.caretRange.stop)
        (max a.caretRange.start a.caretRange.stop) a.rule.result := by
  cases ac with
  | none =>
    simp only [Editor.applyAutocorrect] at h
    cases h; exact Or.inl rfl
  | some ac =>
    simp only [Editor.applyAutocorrect] at h
    obtain ⟨c, hc, h1⟩ := M.bind_eq_ok.1 h
    split at h1
    · cases h1; exact Or.inl rfl
    · obtain ⟨range, hrange, h2⟩ := M.bind_eq_ok.1 h1
      split at h2
      · cases h2; exact Or.inl rfl
      · obtain ⟨vs, hvs, h3⟩ := M.bind_eq_ok.1 h2
        obtain ⟨ms, hms, h4⟩ := M.bind_eq_ok.1 h3
        split at h4
        · obtain ⟨h5, h6⟩ := splice_sound h4
          obtain ⟨-, -, hm⟩ := RowRange.fromMinimal_sound hrange
          rw [hm] at h5
          exact Or.inr ⟨ac, rfl, h6, h5⟩
        · cases h4; exact Or.inl rfl

/-- The autocorrect replacement that a caret movement may trigger: the token of the selected
autocompletion, a complete match, is replaced by the result of its rule. -/
def Autocorrected (env : Env T) (ed ed' : Editor T) : Prop :=
  ∃ e1 res m q o, ed.getAutocomplete env = .ok (e1, some res) ∧
    res.matches'[res.selectedIndex]? = some m ∧ m.isComplete = true ∧
    selectionOf ed.input ed.caret = .ok (.row ⟨q, o, o⟩) ∧
    Spliced ed ed' q (o - m.inputMatchLength) o m.rule.result

/-- The end of a call without own edits. -/
theorem finishMove_cases {ed e ed' : Editor T} {ac : Option AutocorrectAction} {c : MinCaret}
    (hs : ed.startAutocorrect env = .ok (e, ac))
    (h : e.finishAndAutocorrect env ac [] c = .ok ed') :
    ((ed'.input = ed.input ∧ ed'.undo = ed.undo) ∨ Autocorrected env ed ed') ∧ ed'.caret = c := by
  unfold Editor.finishAndAutocorrect at h
  obtain ⟨⟨e2, act⟩, he, h1⟩ := M.bind_eq_ok.1 h
  simp only [Editor.finish, List.isEmpty_nil, if_true] at he
  cases he
  have hq := (startAutocorrect_quiet hs).1
  obtain ⟨ac', hac, h2⟩ := M.bind_eq_ok.1 h1
  have hac' : ac' = ac := by
    cases ac with
    | none => cases hac; rfl
    | some a => cases hac; rfl
  subst hac'
  rcases applyAutocorrect_cases h2 with rfl | ⟨a, rfl, h3, h4⟩
  · exact ⟨Or.inl ⟨hq.input, hq.undo⟩, rfl⟩
  · refine ⟨Or.inr ?_, h3⟩
    obtain ⟨res, m, h5, h6, h7, rfl⟩ := startAutocorrect_some hs
    obtain ⟨q, o, row, ms, h8, h9, h10, -, -, h11, -⟩ := getAutocomplete_some h5
    refine ⟨e, res, m, q, o, h5, h6, h7, h8, ?_⟩
    obtain ⟨row', h12, h13, h14, h15, a, h16⟩ := h4
    simp only [AutocompleteResults.getCaretRange, h11] at h12 h13 h14 h15
    have e1 : min o (o - m.inputMatchLength) = o - m.inputMatchLength := by omega
    have e2 : max o (o - m.inputMatchLength) = o := by omega
    rw [e1, e2] at h13 h15
    rw [e2] at h14
    refine ⟨row', ?_, h13, h14, ?_, a, ?_⟩
    · rw [← hq.input]; exact h12
    · rw [← hq.input]; exact h15
    · rw [h16]; simp [hq.undo]

end Aftermath
