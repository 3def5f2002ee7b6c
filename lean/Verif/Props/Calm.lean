import Verif.Proof.Calm
import Verif.Props.Clipboard

/-! # Property theorems C26 and C27: valid carets and panics over whole runs -/

namespace Aftermath

variable {T : Type} {env : Env T}

/-! ## C26 -/

/-- C26 as far as it holds: while no replacement by autocomplete, autocorrect or a direct splice
loses the caret (`Landed`), the formula is well formed and both ends of the caret are positions of
it, after every sequence of calls with valid arguments, undo and redo included. What is missing are
the replacements that lose the caret: `C26_not`. -/
theorem C26_calm_partial {ed : Editor T} (h : CalmRun env ed) :
    rowWf ed.input = true ∧ ValidCaret ed.input ed.caret :=
  ⟨h.anchored.wf, h.anchored.caret trivial⟩

/-- C63: after every sequence of calls, whatever is replaced and wherever the caret is, the formula
is well formed, and stays so when going back and forward in the history. -/
theorem C63_formed {ed : Editor T} (hr : GoodResults env.rules) (h : FormedRun env ed) :
    rowWf ed.input = true :=
  (h.anchored hr).wf

/-- The rules of the examples below: a token of eight symbols becomes one symbol. -/
def infinityEnv : Env Unit :=
  ⟨.dev, fun _ => .ok (), [⟨"infinity".toList, [.symbol ['∞']]⟩]⟩

/-- Typing `infinity`, one call per key. -/
def typeInfinity : List Op := "infinity".toList.map fun c => .insertAtCaret [[c]]

deriving instance DecidableEq for CaretEdit
deriving instance DecidableEq for UndoRedo
deriving instance DecidableEq for Editor
deriving instance DecidableEq for AutocorrectAction

/-- The step recorded by typing `in` into an empty editor. -/
def typedIn : CaretEdit :=
  ⟨.at ⟨[], 0⟩, .at ⟨[], 2⟩, [.row ⟨.delete, ⟨[], 0⟩, []⟩,
    .row ⟨.insert, ⟨[], 0⟩, [.symbol ['i'], .symbol ['n']]⟩]⟩

/-- The step recorded by deleting the selected `i`. -/
def deletedI : CaretEdit :=
  ⟨⟨⟨[], 1⟩, ⟨[], 0⟩⟩, .at ⟨[], 0⟩, [.row ⟨.delete, ⟨[], 0⟩, [.symbol ['i']]⟩]⟩

/-- A calm run: type `in`, move left, select the `i`, delete it, undo. -/
example : CalmRun infinityEnv (⟨[.symbol ['i'], .symbol ['n']], none, ⟨⟨[], 1⟩, ⟨[], 0⟩⟩, none,
    none, ⟨[typedIn], [deletedI]⟩⟩ : Editor Unit) := by
  have hf : ∀ r : Row, infinityEnv.cfg.checks = false → rowFits infinityEnv.cfg.bits r = true :=
    fun _ h => absurd h (by decide)
  have h1 := CalmRun.step (env := infinityEnv) (op := .insertAtCaret [['i'], ['n']])
    (ed' := ⟨[.symbol ['i'], .symbol ['n']], none, .at ⟨[], 2⟩, none, none, ⟨[typedIn], []⟩⟩)
    .new (by decide +kernel) trivial (hf _)
  have h2 := h1.step (op := .moveCaret .left .char)
    (ed' := ⟨[.symbol ['i'], .symbol ['n']], none, .at ⟨[], 1⟩, none,
      some ⟨"infinity".toList, [.symbol ['∞']]⟩, ⟨[typedIn], []⟩⟩)
    (by decide +kernel) (Or.inl (Or.inr rfl)) (hf _)
  have h3 := h2.step (op := .selectWithCaret .left .char)
    (ed' := ⟨[.symbol ['i'], .symbol ['n']], none, ⟨⟨[], 1⟩, ⟨[], 0⟩⟩, none,
      none, ⟨[typedIn], []⟩⟩)
    (by decide +kernel) (Or.inl (Or.inr rfl)) (hf _)
  have h4 := h3.step (op := .removeAtCaret .left)
    (ed' := ⟨[.symbol ['n']], none, .at ⟨[], 0⟩, none, none, ⟨[deletedI, typedIn], []⟩⟩)
    (by decide +kernel) (Or.inl (Or.inl ⟨_, startAutocorrect_selection
      (rng := ⟨[], 1, 0⟩) (by decide +kernel) (by decide)⟩)) (hf _)
  exact h4.step (op := .undo) (by decide +kernel) trivial (hf _)

/-- A calm run with a replacement: type `ina`, move left, accept the completion of `in`. The formula
is then `∞a`, and the caret is still at offset 2. -/
example : CalmRun infinityEnv (⟨[.symbol ['∞'], .symbol ['a']], none, .at ⟨[], 2⟩, none,
    some ⟨"infinity".toList, [.symbol ['∞']]⟩,
    ⟨[⟨.at ⟨[], 2⟩, .at ⟨[], 0⟩, [.row ⟨.delete, ⟨[], 0⟩, [.symbol ['i'], .symbol ['n']]⟩,
      .row ⟨.insert, ⟨[], 0⟩, [.symbol ['∞']]⟩]⟩,
      ⟨.at ⟨[], 0⟩, .at ⟨[], 3⟩, [.row ⟨.delete, ⟨[], 0⟩, []⟩,
      .row ⟨.insert, ⟨[], 0⟩, [.symbol ['i'], .symbol ['n'], .symbol ['a']]⟩]⟩], []⟩⟩ :
    Editor Unit) := by
  have hf : ∀ r : Row, infinityEnv.cfg.checks = false → rowFits infinityEnv.cfg.bits r = true :=
    fun _ h => absurd h (by decide)
  have h1 := CalmRun.step (env := infinityEnv) (op := .insertAtCaret [['i'], ['n'], ['a']])
    (ed' := ⟨[.symbol ['i'], .symbol ['n'], .symbol ['a']], none, .at ⟨[], 3⟩, none, none,
      ⟨[⟨.at ⟨[], 0⟩, .at ⟨[], 3⟩, [.row ⟨.delete, ⟨[], 0⟩, []⟩,
        .row ⟨.insert, ⟨[], 0⟩, [.symbol ['i'], .symbol ['n'], .symbol ['a']]⟩]⟩], []⟩⟩)
    .new (by decide +kernel) trivial (hf _)
  have h2 := h1.step (op := .moveCaret .left .char)
    (ed' := ⟨[.symbol ['i'], .symbol ['n'], .symbol ['a']], none, .at ⟨[], 2⟩, none, none,
      ⟨[⟨.at ⟨[], 0⟩, .at ⟨[], 3⟩, [.row ⟨.delete, ⟨[], 0⟩, []⟩,
        .row ⟨.insert, ⟨[], 0⟩, [.symbol ['i'], .symbol ['n'], .symbol ['a']]⟩]⟩], []⟩⟩)
    (by decide +kernel) (Or.inl (Or.inr rfl)) (hf _)
  refine h2.step (op := .finishAutocomplete true) (by decide +kernel) (Or.inr ⟨?_, ?_, ?_⟩) (hf _)
  · intro r hr
    simp only [infinityEnv, List.mem_singleton] at hr
    rw [hr]; rfl
  · exact ⟨⟨_, rfl, by decide⟩, ⟨_, rfl, by decide⟩⟩
  · rintro a ⟨⟩
    exact ⟨⟨_, rfl, by decide⟩, ⟨_, rfl, by decide⟩⟩

/-- C63: what is copied can be pasted again as far as C63 is concerned. -/
theorem C63_copy {ed : Editor T} {data : Str} {known : Bool} (hr : GoodResults env.rules)
    (h : FormedRun env ed) (hfit : rowFits env.cfg.bits ed.input = true)
    (hc : ed.copy = .ok data) : (Op.paste data known).GoodNodes env.cfg := by
  have hwf := C63_formed hr h
  intro nodes hn
  have hsel : ∃ rng, selectionOf ed.input ed.caret = .ok (.row rng) := by
    unfold Editor.copy at hc
    obtain ⟨c, h1, h2⟩ := M.bind_eq_ok.1 hc
    cases hs : c.selection with
    | grid g => rw [hs] at h2; cases h2
    | row r => exact ⟨r.toMinimal, by simp only [selectionOf, h1, M.ok_bind, hs]; rfl⟩
  obtain ⟨rng, hsel⟩ := hsel
  obtain ⟨row, h1, -, h2⟩ := copy_ok hwf hsel
  rw [hc] at h2
  cases h2
  refine C39_own_text_partial env.cfg (selectedNodes_wf (rowAt_wf hwf h1) rng) ?_ hn
  exact widthsFit_of_fits _ (selectedNodes_wf (rowAt_wf hwf h1) rng)
    (selectedNodes_fits (rowAt_fits hfit h1) rng)

theorem FormedRun.run {ed ed' : Editor T} {ops : List Op} (hcfg : env.cfg.checks = true)
    (hn : ∀ op ∈ ops, op.GoodNodes env.cfg) (h : FormedRun env ed) (hr : ed.run env ops = .ok ed') :
    FormedRun env ed' := by
  induction ops generalizing ed with
  | nil => cases hr; exact h
  | cons op ops ih =>
    simp only [Editor.run] at hr
    obtain ⟨e, h1, h2⟩ := M.bind_eq_ok.1 hr
    refine ih (fun o ho => hn o (List.mem_cons_of_mem _ ho)) (h.step h1 (hn _ List.mem_cons_self) ?_) h2
    rw [hcfg]; exact nofun

/-- C63 for builds with overflow checks, in terms of lists of calls. -/
theorem C63_run {ed : Editor T} {ops : List Op} (hcfg : env.cfg.checks = true)
    (hr : GoodResults env.rules) (hn : ∀ op ∈ ops, op.GoodNodes env.cfg)
    (h : Editor.new.run env ops = .ok ed) : rowWf ed.input = true :=
  C63_formed hr (.run hcfg hn .new h)

/-- A run in which the caret is lost (`C26_not`), and undo. -/
example : (∀ op ∈ typeInfinity ++ [.finishAutocomplete true, .undo],
      op.GoodNodes infinityEnv.cfg) ∧ GoodResults infinityEnv.rules ∧
    ((Editor.new.run infinityEnv (typeInfinity ++ [.finishAutocomplete true, .undo])).map
      fun ed => ed.input.length).toOption = some 8 := by
  refine ⟨?_, ?_, by decide +kernel⟩
  · intro op hop
    rcases List.mem_append.1 hop with h | h
    · obtain ⟨c, -, rfl⟩ := List.mem_map.1 h; trivial
    · rcases List.mem_cons.1 h with rfl | h
      · trivial
      · cases List.mem_singleton.1 h; trivial
  · intro r hr
    simp only [infinityEnv, List.mem_singleton] at hr
    rw [hr]; rfl

/-- C26 is false of the code: after typing `infinity` and accepting the completion the formula is
one symbol long, but the caret is still at offset 8. -/
theorem C26_not : ¬ ∀ (env : Env Unit) (ops : List Op) (ed : Editor Unit),
    (∀ op ∈ ops, (∃ s, op = .insertAtCaret s) ∨ op = .finishAutocomplete true) →
    Editor.new.run env ops = .ok ed → ValidCaret ed.input ed.caret := by
  intro h
  have hrun : ((Editor.new.run infinityEnv (typeInfinity ++ [.finishAutocomplete true])) >>=
      fun ed => .ok (ed.input, ed.caret)) = .ok ([.symbol ['∞']], .at ⟨[], 8⟩) := by decide +kernel
  obtain ⟨ed, h1, h2⟩ := M.bind_eq_ok.1 hrun
  have := h infinityEnv _ ed ?_ h1
  · simp only [Except.ok.injEq, Prod.mk.injEq] at h2
    rw [h2.1, h2.2] at this
    obtain ⟨row, h3, h4⟩ := this.1
    cases h3
    simp [MinCaret.at] at h4
  · intro op hop
    rcases List.mem_append.1 hop with h3 | h3
    · obtain ⟨c, -, rfl⟩ := List.mem_map.1 h3
      exact Or.inl ⟨_, rfl⟩
    · exact Or.inr (List.mem_singleton.1 h3)

/-! ## C27 -/

theorem panic_iff {α : Type} {x : M α} {P : Prop}
    (h : (P ∧ ∃ p, x = .error p) ∨ (¬ P ∧ ∃ y, x = .ok y)) : (∃ p, x = .error p) ↔ P := by
  rcases h with ⟨h1, h2⟩ | ⟨h1, y, h2⟩
  · exact ⟨fun _ => h1, fun _ => h2⟩
  · refine ⟨?_, fun h => absurd h h1⟩
    rintro ⟨p, hp⟩
    rw [hp] at h2; cases h2

theorem finish_none_ok {ed : Editor T} {edits : List BasicEdit} {m : MinCaret} {root' : Row}
    (h : applyEdits env.cfg ed.input edits = .ok root') :
    ∃ ed', ed.finishAndAutocorrect env none edits m = .ok ed' := by
  have := finishAndAutocorrect_none (env := env) (ed := ed) (edits := edits) (m := m)
  rw [h] at this
  cases hf : ed.finishAndAutocorrect env none edits m with
  | error x => rw [hf] at this; cases this
  | ok e' => exact ⟨e', rfl⟩

/-- The exact panics of a call in a state with a valid history and a valid caret. The carets of the
history need not be valid. -/
theorem anchored_panics {V : Prop} {ed e : Editor T} (h : Anchored V env ed)
    (hv : ValidCaret ed.input ed.caret)
    (hfit : env.cfg.checks = false → rowFits env.cfg.bits ed.input = true)
    (hs : ed.startAutocorrect env = .ok (e, none)) (op : Op)
    (hop : ∀ r vs, op ≠ .spliceAtRange r vs) :
    (∃ p, ed.step env op = .error p) ↔ op.Panics env ed := by
  have hwf := h.wf
  obtain ⟨hq, hqc⟩ := startAutocorrect_quiet hs
  obtain ⟨c, hc, hin, hcm⟩ := Caret.fromMinimal_valid hwf hv
  have hc' : Caret.fromMinimal e.input e.caret = .ok c := by rw [hq.input, hqc]; exact hc
  have hsel : selectionOf ed.input ed.caret = .ok c.selection.toMinimal := by
    simp only [selectionOf, hc, M.ok_bind]
  have hget : ∃ r, ed.getAutocomplete env = .ok (e, r) := by
    unfold Editor.startAutocorrect at hs
    obtain ⟨⟨e1, r⟩, h1, h2⟩ := M.bind_eq_ok.1 hs
    cases r with
    | none => cases h2; exact ⟨_, h1⟩
    | some a =>
      obtain ⟨x, -, h3⟩ := M.bind_eq_ok.1 h2
      cases h3; exact ⟨_, h1⟩
  have insert : ∀ vs, (∃ p, e.insertNodes env none vs = .error p) ↔
      ∃ g, selectionOf ed.input ed.caret = .ok (.grid g) := by
    intro vs
    apply panic_iff
    rw [hsel]
    unfold Editor.insertNodes
    rw [hc']
    simp only [M.ok_bind]
    cases hcs : c.selection with
    | grid g => exact Or.inl ⟨⟨_, rfl⟩, _, rfl⟩
    | row r =>
      refine Or.inr ⟨(by rintro ⟨g, hg⟩; cases hg), ?_⟩
      obtain ⟨⟨q, hf⟩, hb⟩ := caret_row_in hc hcs
      simp only [insertAtRange_eq hf hb vs, M.ok_bind]
      obtain ⟨root', h1, -⟩ := replace_ok (cfg := env.cfg) vs hwf hf.rowAt_eq r.left_le_right
        (RowRange.right_le hb)
      refine finish_none_ok (root' := root') ?_
      rw [hq.input]; exact h1
  cases op with
  | undo =>
    refine panic_iff (Or.inr ⟨not_false, ?_⟩)
    simp only [Editor.step, Editor.undoOp, UndoRedo.undo]
    cases hu : ed.undo.undoStack with
    | nil => exact ⟨_, rfl⟩
    | cons a as =>
      have := h.undo
      rw [hu] at this
      obtain ⟨g1, p, g2, g3, g4, g5, g6⟩ := this
      have h4 := applyEdits_inverse g2 g3
      simp only [Editor.applyAction, CaretEdit.inverse, h4, M.ok_bind]
      exact ⟨_, rfl⟩
  | redo =>
    refine panic_iff (Or.inr ⟨not_false, ?_⟩)
    simp only [Editor.step, Editor.redoOp, UndoRedo.redo]
    cases hu : ed.undo.redoStack with
    | nil => exact ⟨_, rfl⟩
    | cons a as =>
      have := h.redo
      rw [hu] at this
      obtain ⟨g1, g2, f, g3, g4, g5, g6⟩ := this
      simp only [Editor.applyAction, g3, M.ok_bind]
      exact ⟨_, rfl⟩
  | moveCaret d m =>
    apply panic_iff
    simp only [Editor.step, Editor.moveCaret, hs, M.ok_bind, hc', Op.Panics, hsel]
    rw [hq.input]
    by_cases hmode : m = .char
    · subst hmode
      have hleft : ∀ r, c.selection = .row r → r.leftPosition.toMinimal =
          ⟨r.toMinimal.rowIndices, min r.toMinimal.start r.toMinimal.stop⟩ := by
        intro r _
        have := r.leftOffset_min
        simp only [RowRange.leftPosition, Position.toMinimal, RowRange.toMinimal]
        rw [this]
      rcases C09_arrow_keys hwf env.cfg hfit d hv with ⟨h1, h2, ⟨c', r, h3, h4, h5⟩, h6⟩ |
        ⟨h1, m', h2, h3⟩
      · left
        rw [hc] at h3
        cases h3
        refine ⟨⟨r.toMinimal, by rw [h4]; rfl, Or.inr ⟨h1, h2, hleft r h4 ▸ h5⟩⟩, ?_⟩
        simp only [press, hc, M.ok_bind] at h6
        cases hm : Aftermath.moveCaret env.cfg ed.input c d .char with
        | error x => exact ⟨_, rfl⟩
        | ok x => rw [hm] at h6; cases h6
      · right
        constructor
        · rintro ⟨rng, h4, h5 | ⟨h5, h6, h7⟩⟩
          · exact h5 rfl
          · refine h1 ⟨h5, h6, c, ?_⟩
            cases hcs : c.selection with
            | grid g => rw [hcs] at h4; cases h4
            | row r =>
              rw [hcs] at h4
              cases h4
              exact ⟨r, hc, rfl, by rw [hleft r hcs]; exact h7⟩
        · simp only [press, hc, M.ok_bind] at h2
          cases hm : Aftermath.moveCaret env.cfg ed.input c d .char with
          | error x => rw [hm] at h2; cases h2
          | ok x =>
            simp only [M.ok_bind]
            exact finish_none_ok (root' := e.input) rfl
    · obtain ⟨c0, g1, g2, g3⟩ := C09_word_line hwf env.cfg d hmode hv
      rw [hc] at g1
      cases g1
      cases hcs : c.selection with
      | row r =>
        left
        refine ⟨⟨r.toMinimal, rfl, Or.inl hmode⟩, ?_⟩
        rw [g2 ⟨r, hcs⟩]
        exact ⟨_, rfl⟩
      | grid g =>
        right
        refine ⟨(by rintro ⟨rng, hg, -⟩; cases hg), ?_⟩
        rw [g3 ⟨g, hcs⟩]
        simp only [M.ok_bind]
        exact finish_none_ok (root' := e.input) rfl
  | selectWithCaret d m =>
    apply panic_iff
    simp only [Editor.step, Editor.selectWithCaret, hs, M.ok_bind, hc', Op.Panics, hsel]
    cases hcs : c.selection with
    | grid g => exact Or.inl ⟨Or.inl ⟨_, rfl⟩, _, rfl⟩
    | row r =>
      simp only
      by_cases hmode : m = .char
      · subst hmode
        have hr := caret_row_in hc hcs
        have hr' : (RowRange.ofPosition r.endPosition).In ed.input := ⟨hr.1, hr.2.2, hr.2.2⟩
        have hedge : ((RowRange.ofPosition r.endPosition).edge d).toMinimal =
            ⟨r.toMinimal.rowIndices, r.toMinimal.stop⟩ := by
          cases d <;> simp [RowRange.edge, RowRange.ofPosition, RowRange.leftPosition,
            RowRange.rightPosition, RowRange.leftOffset, RowRange.rightOffset,
            RowRange.endPosition, Position.toMinimal, RowRange.toMinimal, RowRange.isForwards]
        rw [moveCaretRange_char]
        rcases moveCaretInternal_total hwf env.cfg hfit (hr'.edge d) d with ⟨h1, h2, h3, h4⟩ |
          ⟨h1, o, h2, -⟩
        · left
          refine ⟨Or.inr (Or.inr ⟨r.toMinimal, rfl, h1, h2, hedge ▸ h3⟩), ?_⟩
          rw [h4]
          exact ⟨_, rfl⟩
        · right
          constructor
          · rintro (⟨g, hg⟩ | h3 | ⟨rng, h3, h4, h5, h6⟩)
            · cases hg
            · exact h3 rfl
            · cases h3
              exact h1 ⟨h4, h5, by rw [hedge]; exact h6⟩
          · rw [h2]
            simp only [M.ok_bind]
            split
            · exact ⟨_, rfl⟩
            · rename_i p _
              obtain ⟨ed', h3⟩ := finish_none_ok (env := env) (ed := e) (edits := [])
                (m := ⟨e.caret.start, p.toMinimal⟩) (root' := e.input) rfl
              rw [h3]
              exact ⟨_, rfl⟩
      · left
        refine ⟨Or.inr (Or.inl hmode), ?_⟩
        simp only [moveCaretRange, ne_eq, hmode, not_false_eq_true, if_true]
        exact ⟨_, rfl⟩
  | removeAtCaret mode =>
    apply panic_iff
    simp only [Editor.step, Editor.removeAtCaret, hs, M.ok_bind, hc', Op.Panics, hsel]
    cases hcs : c.selection with
    | grid g => exact Or.inl ⟨Or.inl ⟨_, rfl⟩, _, rfl⟩
    | row r =>
      simp only
      have hr := caret_row_in hc hcs
      have hdel := C17_valid_after_delete hwf env.cfg hfit mode hv
        (hsel.trans (by rw [hcs]; rfl) : selectionOf ed.input ed.caret = .ok (.row r.toMinimal))
      simp only [deleteKey, hc, M.ok_bind, hcs] at hdel
      rcases hdel with ⟨h1, h2, h3, h4⟩ | ⟨root', m', h1, -⟩
      · left
        refine ⟨Or.inr ⟨_, rfl, h2, h1, h3⟩, ?_⟩
        cases hrm : Aftermath.removeAtCaret env.cfg r mode with
        | error x => exact ⟨_, rfl⟩
        | ok o =>
          rw [hrm] at h4
          cases o with
          | none => cases h4
          | some x =>
            obtain ⟨edits, p⟩ := x
            simp only [M.ok_bind] at h4 ⊢
            cases ha : applyEdits env.cfg ed.input edits with
            | ok y => rw [ha] at h4; cases h4
            | error y =>
              rw [ha] at h4
              have := finishAndAutocorrect_none (env := env) (ed := e) (edits := edits) (m := ⟨p, p⟩)
              rw [hq.input, ha] at this
              cases hf : e.finishAndAutocorrect env none edits ⟨p, p⟩ with
              | error z => exact ⟨_, rfl⟩
              | ok z => rw [hf] at this; cases this
      · right
        constructor
        · rintro (⟨g, hg⟩ | ⟨rng, h2, h3, h4, dir, h5, h6⟩)
          · cases hg
          · cases h2
            obtain ⟨⟨q, hf⟩, hb⟩ := hr
            have hcol : r.isCollapsed = true := by
              simpa [RowRange.isCollapsed, RowRange.toMinimal] using h3
            have h6' : DeletePanics ed.input dir ⟨q, r.start⟩ := by
              rw [← hf.rowIndices_eq]; exact h6
            rcases removeAtCaretPosition_cases hwf env.cfg hfit hf hb.1 dir with ⟨-, -, h7⟩ | ⟨h7, -⟩
            · have : Aftermath.removeAtCaret env.cfg r mode =
                  removeAtCaretPosition env.cfg ⟨r.focus, r.start⟩ dir := by
                subst h5
                cases dir <;> simp [removeAtCaret, hcol, HDir.toMode, RowRange.startPosition]
              rw [this, h7] at h1
              cases h1
            · exact h7 ⟨h4, h6'⟩
        · cases hrm : Aftermath.removeAtCaret env.cfg r mode with
          | error x => rw [hrm] at h1; cases h1
          | ok o =>
            rw [hrm] at h1
            cases o with
            | none => exact ⟨_, rfl⟩
            | some x =>
              obtain ⟨edits, p⟩ := x
              simp only [M.ok_bind] at h1 ⊢
              cases ha : applyEdits env.cfg ed.input edits with
              | error y => rw [ha] at h1; cases h1
              | ok y =>
                obtain ⟨ed', h3⟩ := finish_none_ok (env := env) (ed := e) (edits := edits)
                  (m := ⟨p, p⟩) (root' := y) (by rw [hq.input]; exact ha)
                rw [h3]
                exact ⟨_, rfl⟩
  | insertAtCaret vs =>
    simp only [Editor.step, Editor.insertAtCaret, hs, M.ok_bind]
    exact insert _
  | selectAll => exact panic_iff (Or.inr ⟨not_false, _, rfl⟩)
  | startSelection p m =>
    refine panic_iff (Or.inr ⟨not_false, ?_⟩)
    have hs' : ∃ e', ({ ed with selectionMode := some m }).startAutocorrect env = .ok (e', none) := by
      apply startAutocorrect_mode (ed := { ed with selectionMode := some m }) (m := ed.selectionMode)
      exact hs
    obtain ⟨e', hs'⟩ := hs'
    simp only [Editor.step, Editor.startSelection, hs', M.ok_bind]
    exact finish_none_ok (root' := e'.input) rfl
  | extendSelection p =>
    refine panic_iff (Or.inr ⟨not_false, ?_⟩)
    simp only [Editor.step, Editor.extendSelection, hs, M.ok_bind]
    exact finish_none_ok (root' := e.input) rfl
  | finishSelection => exact panic_iff (Or.inr ⟨not_false, _, rfl⟩)
  | paste d k =>
    simp only [Editor.step, Editor.paste, hs, M.ok_bind, Op.Panics]
    cases k with
    | false => exact panic_iff (Or.inl ⟨Or.inl rfl, _, rfl⟩)
    | true =>
      simp only [if_true]
      cases hd : deserializeNodes env.cfg d with
      | none => exact panic_iff (Or.inr ⟨(by rintro (h1 | h1); cases h1; exact h1.1 rfl), _, rfl⟩)
      | some nodes =>
        simp only
        have := insert nodes
        cases hi : e.insertNodes env none nodes with
        | error x =>
          exact panic_iff (Or.inl ⟨Or.inr ⟨by simp, this.1 ⟨x, hi⟩⟩, _, rfl⟩)
        | ok x =>
          refine panic_iff (Or.inr ⟨?_, _, rfl⟩)
          rintro (h1 | h1)
          · cases h1
          · obtain ⟨p, hp⟩ := this.2 h1.2
            rw [hi] at hp; cases hp
  | openAutocomplete =>
    obtain ⟨r, hr⟩ := hget
    refine panic_iff (Or.inr ⟨not_false, ?_⟩)
    simp only [Editor.step, hr, M.ok_bind]
    exact ⟨_, rfl⟩
  | getAutocomplete =>
    obtain ⟨r, hr⟩ := hget
    refine panic_iff (Or.inr ⟨not_false, ?_⟩)
    simp only [Editor.step, hr, M.ok_bind]
    exact ⟨_, rfl⟩
  | finishAutocomplete accept =>
    refine panic_iff (Or.inr ⟨not_false, ?_⟩)
    cases accept with
    | false => exact ⟨_, rfl⟩
    | true =>
      obtain ⟨r, hr⟩ := hget
      cases r with
      | none =>
        simp only [Editor.step, Editor.finishAutocomplete, hr, M.ok_bind]
        exact ⟨_, rfl⟩
      | some a =>
        obtain ⟨ed', m, q, o, row, syms, h1, -⟩ := C34_accept hwf hr
        simp only [Editor.step, h1, M.ok_bind]
        exact ⟨_, rfl⟩
  | moveInAutocomplete d =>
    refine panic_iff (Or.inr ⟨not_false, ?_⟩)
    obtain ⟨r, hr⟩ := hget
    cases r with
    | none =>
      simp only [Editor.step, Editor.moveInAutocomplete, hr, M.ok_bind]
      exact ⟨_, rfl⟩
    | some a =>
      obtain ⟨m, -, h2⟩ := C32_move d hr
      simp only [Editor.step, h2, M.ok_bind]
      exact ⟨_, rfl⟩
  | getSyntaxTree =>
    apply panic_iff
    simp only [Editor.step, Editor.getSyntaxTree, Op.Panics]
    cases hp : ed.parsed with
    | some t => exact Or.inr ⟨by simp, _, rfl⟩
    | none =>
      simp only
      cases ht : env.parse ed.input with
      | error x => exact Or.inl ⟨by simp, _, rfl⟩
      | ok x => exact Or.inr ⟨by simp, _, rfl⟩
  | spliceAtRange r vs => exact absurd rfl (hop r vs)

/-- The exact extent of the panics: in every calm state in which no autocorrection is pending, a
call panics if and only if it is one of the cases of `Op.Panics`. Not covered are states after a
replacement that lost the caret; for states with a pending autocorrection see `C71_panics`, for
`splice_at_range` called directly `C27_splice`. -/
theorem C27_exact_partial {ed e : Editor T} (h : CalmRun env ed)
    (hfit : env.cfg.checks = false → rowFits env.cfg.bits ed.input = true)
    (hs : ed.startAutocorrect env = .ok (e, none)) (op : Op)
    (hop : ∀ r vs, op ≠ .spliceAtRange r vs) :
    (∃ p, ed.step env op = .error p) ↔ op.Panics env ed :=
  anchored_panics h.anchored (h.anchored.caret trivial) hfit hs op hop

/-- The hypotheses of `C27_exact_partial` are met by the fresh editor, where Backspace is one of
the cases that panic and Delete in a build without checks is not. -/
example : CalmRun infinityEnv Editor.new ∧
    (Op.removeAtCaret .left).Panics infinityEnv Editor.new ∧
    ¬ (Op.removeAtCaret .left).Panics { infinityEnv with cfg := .release } Editor.new := by
  refine ⟨.new, Or.inr ⟨⟨[], 0, 0⟩, by decide +kernel, rfl, rfl, .left, rfl, Or.inl ⟨rfl, rfl⟩⟩, ?_⟩
  rintro (⟨g, hg⟩ | ⟨rng, -, -, h, -⟩)
  · have : (selectionOf (Editor.new : Editor Unit).input (Editor.new : Editor Unit).caret) =
        .ok (.row ⟨[], 0, 0⟩) := by decide +kernel
    rw [this] at hg; cases hg
  · cases h

/-- Typing a word, one call per key. -/
def typeWord (s : String) : List Op := s.toList.map fun c => .insertAtCaret [[c]]

/-- Whether the calls end in a panic, and which. -/
def panicOf (env : Env Unit) (ops : List Op) : Option Panic :=
  match (Editor.new : Editor Unit).run env ops with
  | .ok _ => none
  | .error p => some p

/-- The development build with two rules. -/
def limInfinityEnv : Env Unit :=
  ⟨.dev, fun _ => .ok (), [⟨"lim".toList, [.symbol ['L']]⟩, ⟨"infinity".toList, [.symbol ['∞']]⟩]⟩

/-- The clipboard text of an empty fraction and of an empty two by two table. -/
def fractionText : Str := serializeNodes [.fraction [] []]
/-- See `fractionText`. -/
def tableText : Str := serializeNodes [.container .table [[], [], [], []] 2]

/-- C27 is false of the code. Each of these sequences of calls from a fresh editor, all with
positions that are valid when they are passed, panics in its last call. -/
theorem C27_not :
    -- Backspace at the start of the formula
    panicOf limInfinityEnv [.removeAtCaret .left] = some .overflow ∧
    -- Left at the start of the first cell of a fraction
    panicOf limInfinityEnv [.paste fractionText true, .startSelection ⟨[(0, 0)], 0⟩ .char,
      .moveCaret .left .char] = some .overflow ∧
    -- Word mode
    panicOf limInfinityEnv [.moveCaret .right .word] = some .todo ∧
    -- typing over a grid selection
    panicOf limInfinityEnv [.paste tableText true, .startSelection ⟨[(0, 0)], 0⟩ .char,
      .extendSelection ⟨[(0, 3)], 0⟩, .insertAtCaret [['x']]] = some .todo ∧
    -- an empty symbol left of the caret
    panicOf limInfinityEnv [.insertAtCaret [[]], .getAutocomplete] = some .outOfRange ∧
    -- the stale caret after accepting a completion
    panicOf limInfinityEnv (typeWord "infinity" ++ [.finishAutocomplete true, .getAutocomplete]) =
      some .assertion ∧
    -- autocorrect slices the token at the offset in the row
    panicOf limInfinityEnv (typeWord "aaaalim" ++ [.insertAtCaret [['b']], .moveCaret .left .char,
      .moveCaret .right .char]) = some .outOfRange ∧
    -- a caret in a nested row is tracked through the replacement in its ancestor row
    panicOf limInfinityEnv (typeWord "aaalim" ++ [.paste fractionText true,
      .startSelection ⟨[], 6⟩ .char, .startSelection ⟨[(6, 0)], 0⟩ .char]) = some .overflow ∧
    -- an ill-formed table was pasted
    panicOf limInfinityEnv [.paste badClipboard true, .moveCaret .left .char] = some .divByZero ∧
    -- a paste of unknown type
    panicOf limInfinityEnv [.paste fractionText false] = some .todo := by
  refine ⟨?_, ?_, ?_, ?_, ?_, ?_, ?_, ?_, ?_, ?_⟩ <;> decide +kernel

/-- Without their last call none of these sequences panics. -/
example : [[], [.paste fractionText true, .startSelection ⟨[(0, 0)], 0⟩ .char],
    [.paste tableText true, .startSelection ⟨[(0, 0)], 0⟩ .char, .extendSelection ⟨[(0, 3)], 0⟩],
    [.insertAtCaret [[]]], typeWord "infinity" ++ [.finishAutocomplete true],
    typeWord "aaaalim" ++ [.insertAtCaret [['b']], .moveCaret .left .char],
    typeWord "aaalim" ++ [.paste fractionText true, .startSelection ⟨[], 6⟩ .char],
    [.paste badClipboard true]].all (fun ops => (panicOf limInfinityEnv ops).isNone) = true := by
  decide +kernel

end Aftermath
