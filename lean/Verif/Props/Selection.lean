import Verif.Props.Calm

/-! # C51: what the selection calls and arrow keys of the editor do to the caret -/

namespace Aftermath

variable {T : Type} {env : Env T}

/-- C51: `move_caret` puts the caret where the arrow key takes it, with or without an autocorrect
replacement. -/
theorem C51_move {ed ed' : Editor T} {d : Dir} (h : ed.step env (.moveCaret d .char) = .ok ed') :
    press env.cfg ed.input d ed.caret = .ok ed'.caret := by
  simp only [Editor.step, Editor.moveCaret] at h
  obtain ⟨⟨e, ac⟩, he, h1⟩ := M.bind_eq_ok.1 h
  obtain ⟨c, hc, h2⟩ := M.bind_eq_ok.1 h1
  obtain ⟨c', hc', h3⟩ := M.bind_eq_ok.1 h2
  have hq := startAutocorrect_quiet he
  rw [hq.1.input] at hc hc'
  rw [hq.2] at hc
  simp only [press, hc, M.ok_bind, hc']
  rw [(finishMove_cases he h3).2]

/-- C51: `select_with_caret` (Shift and an arrow key) keeps the start of the selection. It moves the
end to where the arrow key takes a caret at the end of the shown selection, and does nothing if the
arrow key does nothing there. -/
theorem C51_shift {ed ed' : Editor T} {d : Dir} (hwf : rowWf ed.input = true)
    (hcfg : env.cfg.checks = false → rowFits env.cfg.bits ed.input = true) (h : ed.step env (.selectWithCaret d .char) = .ok ed') :
    ∃ rng q, selectionOf ed.input ed.caret = .ok (.row rng) ∧
      press env.cfg ed.input d (.at ⟨rng.rowIndices, rng.stop⟩) = .ok (.at q) ∧
      (ed'.caret = ⟨ed.caret.start, q⟩ ∨
        q = ⟨rng.rowIndices, rng.stop⟩ ∧ ed'.caret = ed.caret ∧ ed'.input = ed.input) := by
  simp only [Editor.step, Editor.selectWithCaret] at h
  obtain ⟨⟨e', b⟩, h0, he'⟩ := M.bind_eq_ok.1 h
  cases he'
  obtain ⟨⟨e, ac⟩, he, h1⟩ := M.bind_eq_ok.1 h0
  have hq := startAutocorrect_quiet he
  obtain ⟨c, hc, h2⟩ := M.bind_eq_ok.1 h1
  rw [hq.1.input, hq.2] at hc
  split at h2
  · rename_i r hr
    obtain ⟨o, ho, h3⟩ := M.bind_eq_ok.1 h2
    have hin := caret_row_in hc hr
    have hp : r.endPosition.In ed.input := ⟨hin.1, hin.2.2⟩
    have ho' := ho
    rw [moveCaretRange_char, RowRange.edge_ofPosition] at ho
    obtain ⟨o', hmv, hor⟩ := M.bind_eq_ok.1 ho
    have hoo : o' = o := by
      simp only [RowRange.ofPosition, RowRange.isCollapsed, BEq.rfl, if_true, Option.or_none,
        Except.ok.injEq] at hor
      exact hor
    subst hoo
    have hval : ∀ x, o' = some x → x.In ed.input := by
      rintro x rfl
      exact moveCaretRange_valid hwf env.cfg hcfg (r := RowRange.ofPosition r.endPosition)
        ⟨hin.1, hin.2.2, hin.2.2⟩ ho'
    have hpress := press_at hwf env.cfg d hp hmv hval
    refine ⟨r.toMinimal, (o'.map Position.toMinimal).getD r.endPosition.toMinimal, ?_, hpress, ?_⟩
    · simp only [selectionOf, hc, M.ok_bind, hr, Selection.toMinimal]
    · cases o' with
      | none =>
        cases h3
        exact Or.inr ⟨rfl, hq.2, hq.1.input⟩
      | some x =>
        obtain ⟨e2, he2, h4⟩ := M.bind_eq_ok.1 h3
        cases h4
        left
        rw [(finishMove_cases he he2).2, hq.2]
        rfl
  · cases h2

/-- C51: `start_selection` collapses the caret to the given position. -/
theorem C51_start {ed ed' : Editor T} {p : MinPos} {m : MoveMode}
    (h : ed.step env (.startSelection p m) = .ok ed') :
    ed'.caret = .at p := by
  simp only [Editor.step, Editor.startSelection] at h
  obtain ⟨⟨e, ac⟩, he, h1⟩ := M.bind_eq_ok.1 h
  exact (finishMove_cases he h1).2

/-- C51: `extend_selection` keeps the start of the selection and puts its end on the given
position. -/
theorem C51_extend {ed ed' : Editor T} {p : MinPos}
    (h : ed.step env (.extendSelection p) = .ok ed') : ed'.caret = ⟨ed.caret.start, p⟩ := by
  simp only [Editor.step, Editor.extendSelection] at h
  obtain ⟨⟨e, ac⟩, he, h1⟩ := M.bind_eq_ok.1 h
  rw [(finishMove_cases he h1).2, (startAutocorrect_quiet he).2]

/-- C51: `select_all` selects the whole formula: the selection is the root row from end to end, and
`copy` gives all of it. -/
theorem C51_select_all {ed ed' : Editor T} (hwf : rowWf ed.input = true)
    (h : ed.step env .selectAll = .ok ed') :
    ed'.input = ed.input ∧ selectionOf ed'.input ed'.caret = .ok (.row ⟨[], 0, ed.input.length⟩) ∧
      ed'.copy = .ok (serializeNodes ed.input) := by
  cases h
  have hsel : selectionOf ed.input ⟨⟨[], 0⟩, ⟨[], ed.input.length⟩⟩ =
      .ok (.row ⟨[], 0, ed.input.length⟩) := by
    have h := fromPositions_same_row (root := ed.input) hwf (f := .fromRoot ed.input) (p := [])
      .root (Nat.zero_le _) (Nat.le_refl _)
    simp only [selectionOf, Caret.fromMinimal, Position.fromMinimal, FocusRow.walkDown, M.ok_bind,
      Position.new, Caret.new]
    have h0 : (FocusRow.fromRoot ed.input).len = ed.input.length := rfl
    simp only [h0, Nat.zero_le, Nat.le_refl, if_true, M.ok_bind]
    rw [show (FocusRow.fromRoot ed.input).row = ed.input from rfl] at h
    rw [h]
    rfl
  refine ⟨rfl, hsel, ?_⟩
  obtain ⟨row, h1, -, h2⟩ := copy_ok (ed := ed.selectAll) hwf hsel
  cases h1
  rw [h2]
  simp [selectedNodes, Editor.selectAll]

/-- The calls on a fraction: select all, then extend into the fraction, then Shift and Left. The end
of the selection is taken from the shown selection, which is before or after the fraction. -/
example :
    let ed : Editor Unit := ⟨[.symbol ['a'], .fraction [.symbol ['b']] []], none, .at ⟨[], 0⟩, none,
      none, .empty⟩
    (do
      let e1 ← ed.step infinityEnv .selectAll
      let e2 ← e1.step infinityEnv (.extendSelection ⟨[(1, 0)], 1⟩)
      let e3 ← e2.step infinityEnv (.selectWithCaret .left .char)
      let e4 ← e3.step infinityEnv (.moveCaret .left .char)
      .ok [e1.caret, e2.caret, e3.caret, e4.caret]) =
    (.ok [⟨⟨[], 0⟩, ⟨[], 2⟩⟩, ⟨⟨[], 0⟩, ⟨[(1, 0)], 1⟩⟩, ⟨⟨[], 0⟩, ⟨[(1, 1)], 0⟩⟩, .at ⟨[], 0⟩] :
      M (List MinCaret)) := by decide +kernel

end Aftermath
