import Verif.Proof.Total
import Verif.Spec.Calm
import Verif.Props.Autocorrect
import Verif.Props.Move

/-! # Calls of the editor while no autocorrection is pending -/

namespace Aftermath

variable {T : Type} {env : Env T}

/-- Formula and caret. -/
def Editor.view (ed : Editor T) : Row × MinCaret := (ed.input, ed.caret)

theorem finishAndAutocorrect_none {ed : Editor T} {edits : List BasicEdit} {m : MinCaret} :
    (ed.finishAndAutocorrect env none edits m).map Editor.view =
      (applyEdits env.cfg ed.input edits).map fun root' => (root', m) := by
  unfold Editor.finishAndAutocorrect Editor.finish
  cases edits with
  | nil => rfl
  | cons e es =>
    simp only [List.isEmpty_cons, Bool.false_eq_true, if_false]
    cases applyEdits env.cfg ed.input (e :: es) with
    | error x => rfl
    | ok root' => rfl

theorem M.map_bind {α β γ : Type} (x : M α) (f : α → M β) (g : β → γ) :
    (x >>= f).map g = x >>= fun a => (f a).map g := by
  cases x <;> rfl

/-- Without a pending autocorrection the editor's deletion is `deleteKey`. -/
theorem removeAtCaret_calm {ed e : Editor T} (mode : RemoveMode)
    (hs : ed.startAutocorrect env = .ok (e, none)) :
    (ed.removeAtCaret env mode).map (fun r => r.1.view) =
      deleteKey env.cfg mode (ed.input, ed.caret) := by
  obtain ⟨hq, hqc⟩ := startAutocorrect_quiet hs
  unfold Editor.removeAtCaret deleteKey
  simp only [hs, M.ok_bind, hq.input, hqc]
  cases Caret.fromMinimal ed.input ed.caret with
  | error x => rfl
  | ok c =>
    simp only [M.ok_bind]
    cases c.selection with
    | grid g => rfl
    | row r =>
      simp only
      cases removeAtCaret env.cfg r mode with
      | error x => rfl
      | ok o =>
        simp only [M.ok_bind]
        cases o with
        | none => simp only [Except.map, Editor.view, hq.input, hqc]
        | some ep =>
          obtain ⟨edits, p⟩ := ep
          simp only
          have := finishAndAutocorrect_none (env := env) (ed := e) (edits := edits) (m := ⟨p, p⟩)
          rw [hq.input] at this
          cases hf : e.finishAndAutocorrect env none edits ⟨p, p⟩ with
          | error x =>
            rw [hf] at this
            cases ha : applyEdits env.cfg ed.input edits with
            | error y => rw [ha] at this; simpa [Except.map] using this
            | ok y => rw [ha] at this; cases this
          | ok e' =>
            rw [hf] at this
            cases ha : applyEdits env.cfg ed.input edits with
            | error y => rw [ha] at this; cases this
            | ok y =>
              rw [ha] at this
              simpa [Except.map, MinCaret.at] using this

/-- The same, for a deletion that succeeds. -/
theorem removeAtCaret_calm_ok {ed e : Editor T} {mode : RemoveMode} {root' : Row} {m' : MinCaret}
    (hs : ed.startAutocorrect env = .ok (e, none))
    (hd : deleteKey env.cfg mode (ed.input, ed.caret) = .ok (root', m')) :
    ∃ ed' b, ed.removeAtCaret env mode = .ok (ed', b) ∧ ed'.input = root' ∧ ed'.caret = m' := by
  have := removeAtCaret_calm mode hs
  rw [hd] at this
  cases hr : ed.removeAtCaret env mode with
  | error x => rw [hr] at this; cases this
  | ok r =>
    rw [hr] at this
    obtain ⟨ed', b⟩ := r
    simp only [Except.map, Editor.view, Except.ok.injEq, Prod.mk.injEq] at this
    exact ⟨ed', b, rfl, this.1, this.2⟩

/-- A selection of at least one node leaves no autocorrection pending. -/
theorem startAutocorrect_selection {ed : Editor T} {rng : MinRange}
    (hsel : selectionOf ed.input ed.caret = .ok (.row rng)) (hne : rng.start ≠ rng.stop) :
    ed.startAutocorrect env = .ok (ed, none) := by
  obtain ⟨c, hc, h1⟩ := M.bind_eq_ok.1 hsel
  cases hs : c.selection with
  | grid g => rw [hs] at h1; cases h1
  | row r =>
    rw [hs] at h1
    cases h1
    have hcol : r.isCollapsed = false := by
      simpa [RowRange.isCollapsed, RowRange.toMinimal] using hne
    simp only [Editor.startAutocorrect, Editor.getAutocomplete, hc, M.ok_bind, hs, hcol,
      Bool.false_eq_true, if_false]

/-! ## The caret and the carets in the history are valid -/

/-- Along the undo stack formulas are well formed and, if `V`, recorded carets valid. -/
def UndoValid (V : Prop) (cfg : Cfg) : Row → List CaretEdit → Prop
  | _, [] => True
  | r, a :: as => (V → ValidCaret r a.caretAfter) ∧ ∃ p, Truthful cfg p a.edits ∧
      applyEdits cfg p a.edits = .ok r ∧ rowWf p = true ∧ (V → ValidCaret p a.caretBefore) ∧
      UndoValid V cfg p as

/-- Along the redo stack formulas are well formed and, if `V`, recorded carets valid. -/
def RedoValid (V : Prop) (cfg : Cfg) : Row → List CaretEdit → Prop
  | _, [] => True
  | r, a :: as => (V → ValidCaret r a.caretBefore) ∧ Truthful cfg r a.edits ∧ ∃ f,
      applyEdits cfg r a.edits = .ok f ∧ rowWf f = true ∧ (V → ValidCaret f a.caretAfter) ∧
      RedoValid V cfg f as

/-- The formula is well formed, and all formulas of the history are. If `V`, the caret and the
carets of the history are valid. -/
structure Anchored (V : Prop) (env : Env T) (ed : Editor T) : Prop where
  wf : rowWf ed.input = true
  caret : V → ValidCaret ed.input ed.caret
  undo : UndoValid V env.cfg ed.input ed.undo.undoStack
  redo : RedoValid V env.cfg ed.input ed.undo.redoStack

variable {V : Prop}

theorem Anchored.quiet {ed ed' : Editor T} (h : Anchored V env ed) (hq : Quiet env ed ed')
    (hc : V → ValidCaret ed.input ed'.caret) : Anchored V env ed' := by
  refine ⟨?_, ?_, ?_, ?_⟩
  · rw [hq.input]; exact h.wf
  · rw [hq.input]; exact hc
  · rw [hq.input, hq.undo]; exact h.undo
  · rw [hq.input, hq.undo]; exact h.redo

theorem Anchored.quiet' {ed ed' : Editor T} (h : Anchored V env ed)
    (hq : Quiet env ed ed' ∧ ed'.caret = ed.caret) : Anchored V env ed' :=
  h.quiet hq.1 (by rw [hq.2]; exact h.caret)

theorem anchored_new : Anchored V env (Editor.new : Editor T) :=
  ⟨rfl, fun _ => ⟨⟨[], rfl, Nat.le_refl _⟩, ⟨[], rfl, Nat.le_refl _⟩⟩, trivial, trivial⟩

/-- What `finish` does. -/
theorem finish_ok {ed ed1 : Editor T} {edits : List BasicEdit} {m : MinCaret} {act : CaretEdit}
    (h : ed.finish env edits m = .ok (ed1, act)) :
    applyEdits env.cfg ed.input edits = .ok ed1.input ∧ ed1.caret = m ∧
      ed1.undo.undoStack.length = ed.undo.undoStack.length + (if edits = [] then 0 else 1) := by
  unfold Editor.finish at h
  cases edits with
  | nil => cases h; exact ⟨rfl, rfl, rfl⟩
  | cons e es =>
    simp only [List.isEmpty_cons, Bool.false_eq_true, if_false] at h
    obtain ⟨root', h1, h2⟩ := M.bind_eq_ok.1 h
    cases h2
    exact ⟨h1, rfl, rfl⟩

theorem finish_anchored {ed ed1 : Editor T} {edits : List BasicEdit} {m : MinCaret}
    {act : CaretEdit} (ha : Anchored V env ed) (ht : Truthful env.cfg ed.input edits)
    (h : ed.finish env edits m = .ok (ed1, act)) (hwf : rowWf ed1.input = true)
    (hm : V → ValidCaret ed1.input m) : Anchored V env ed1 := by
  unfold Editor.finish at h
  cases edits with
  | nil => cases h; exact ⟨hwf, hm, ha.undo, ha.redo⟩
  | cons e es =>
    simp only [List.isEmpty_cons, Bool.false_eq_true, if_false] at h
    obtain ⟨root', h1, h2⟩ := M.bind_eq_ok.1 h
    cases h2
    exact ⟨hwf, hm, ⟨hm, ed.input, ht, h1, ha.wf, ha.caret, ha.undo⟩, trivial⟩

theorem splice_length {ed ed' : Editor T} {range : MinRange} {values : List Node}
    (h : ed.spliceAtRange env range values = .ok ed') :
    ed'.undo.undoStack.length = ed.undo.undoStack.length + 1 := by
  unfold Editor.spliceAtRange at h
  obtain ⟨r, hr, h1⟩ := M.bind_eq_ok.1 h
  obtain ⟨hf, hb, -⟩ := RowRange.fromMinimal_sound hr
  rw [replaceRange_eq hf hb values] at h1
  simp only [M.ok_bind] at h1
  obtain ⟨a, ha, h2⟩ := M.bind_eq_ok.1 h1
  obtain ⟨b, hb', h3⟩ := M.bind_eq_ok.1 h2
  obtain ⟨⟨e, act⟩, he, h4⟩ := M.bind_eq_ok.1 h3
  cases h4
  exact (finish_ok he).2.2

theorem splice_anchored {ed ed' : Editor T} {range : MinRange} {values : List Node}
    (ha : Anchored V env ed) (hv : rowWf values = true)
    (h : ed.spliceAtRange env range values = .ok ed') (hl : V → Landed ed') :
    Anchored V env ed' := by
  have hs := splice_sound h
  unfold Editor.spliceAtRange at h
  obtain ⟨r, hr, h1⟩ := M.bind_eq_ok.1 h
  obtain ⟨hf, hb, -⟩ := RowRange.fromMinimal_sound hr
  rw [replaceRange_eq hf hb values] at h1
  simp only [M.ok_bind] at h1
  obtain ⟨a, ha', h2⟩ := M.bind_eq_ok.1 h1
  obtain ⟨b, hb', h3⟩ := M.bind_eq_ok.1 h2
  obtain ⟨⟨e, act⟩, he, h4⟩ := M.bind_eq_ok.1 h3
  cases h4
  simp only [Editor.finish, List.isEmpty_cons, Bool.false_eq_true, if_false] at he
  obtain ⟨input, hi, h5⟩ := M.bind_eq_ok.1 he
  cases h5
  obtain ⟨⟨row, g1, g2, g3, g4, -⟩, -⟩ := hs
  have hwf : rowWf input = true := by
    refine g4.wf ha.wf ?_
    have := rowAt_wf ha.wf g1
    rw [rowWf_append, rowWf_append, rowWf_take this, rowWf_drop this, hv]; rfl
  exact ⟨hwf, fun v => (hl v).1, ⟨fun v => (hl v).2 _ rfl, ed.input,
    replace_truthful hf.rowAt_eq r.left_le_right (RowRange.right_le hb), hi, ha.wf, ha.caret, ha.undo⟩,
    trivial⟩

theorem startAutocorrect_rule {ed e : Editor T} {ac : AutocorrectAction}
    (h : ed.startAutocorrect env = .ok (e, some ac)) : ac.rule ∈ env.rules := by
  obtain ⟨res, m, h1, h2, h3, rfl⟩ := startAutocorrect_some h
  obtain ⟨q, o, row, ms, m', g1, g2, g3, g4, g5, -, -, g6, -, -⟩ := C32_open h1
  rw [h2] at g6
  cases g6
  obtain ⟨rule, hrule, ms', hms', hm'⟩ := matchesAll_mem g4 (g5.subset (List.mem_of_getElem? h2))
  obtain ⟨hr1, -⟩ := C30_sound hms' hm'
  exact hr1 ▸ hrule

theorem applyAutocorrect_anchored {ed ed' : Editor T} {ac : Option AutocorrectAction}
    (ha : Anchored V env ed) (hr : ∀ a, ac = some a → rowWf a.rule.result = true)
    (h : ed.applyAutocorrect env ac = .ok ed') (hl : V → Landed ed') : Anchored V env ed' := by
  cases ac with
  | none =>
    simp only [Editor.applyAutocorrect] at h
    cases h; exact ha
  | some ac =>
    simp only [Editor.applyAutocorrect] at h
    obtain ⟨c, hc, h1⟩ := M.bind_eq_ok.1 h
    split at h1
    · cases h1; exact ha
    · obtain ⟨range, hrange, h2⟩ := M.bind_eq_ok.1 h1
      split at h2
      · cases h2; exact ha
      · obtain ⟨vs, hvs, h3⟩ := M.bind_eq_ok.1 h2
        obtain ⟨ms, hms, h4⟩ := M.bind_eq_ok.1 h3
        split at h4
        · exact splice_anchored ha (hr _ rfl) h4 hl
        · cases h4; exact ha

theorem applyAutocorrect_len {ed ed' : Editor T} {ac : Option AutocorrectAction}
    (h : ed.applyAutocorrect env ac = .ok ed') :
    ed' = ed ∨ ac ≠ none ∧ ed'.undo.undoStack.length = ed.undo.undoStack.length + 1 := by
  cases ac with
  | none =>
    simp only [Editor.applyAutocorrect] at h
    cases h; exact Or.inl rfl
  | some ac =>
    simp only [Editor.applyAutocorrect] at h
    obtain ⟨c, hc, h1⟩ := M.bind_eq_ok.1 h
    split at h1
    · cases h1; exact Or.inl rfl
    · obtain ⟨range, hrange, h2⟩ := M.bind_eq_ok.1 h1
      split at h2
      · cases h2; exact Or.inl rfl
      · obtain ⟨vs, hvs, h3⟩ := M.bind_eq_ok.1 h2
        obtain ⟨ms, hms, h4⟩ := M.bind_eq_ok.1 h3
        split at h4
        · exact Or.inr ⟨by simp, splice_length h4⟩
        · cases h4; exact Or.inl rfl

/-- `finish`, and then nothing or a replacement. -/
theorem finishAndAutocorrect_cases {ed ed' : Editor T} {ac : Option AutocorrectAction}
    {edits : List BasicEdit} {m : MinCaret}
    (h : ed.finishAndAutocorrect env ac edits m = .ok ed') :
    ∃ e1 act, ed.finish env edits m = .ok (e1, act) ∧
      (ed' = e1 ∨ ac ≠ none ∧ ed'.undo.undoStack.length = e1.undo.undoStack.length + 1) := by
  unfold Editor.finishAndAutocorrect at h
  obtain ⟨⟨e, act⟩, he, h1⟩ := M.bind_eq_ok.1 h
  obtain ⟨ac', hac, h2⟩ := M.bind_eq_ok.1 h1
  refine ⟨e, act, he, ?_⟩
  rcases applyAutocorrect_len h2 with h3 | ⟨h3, h4⟩
  · exact Or.inl h3
  · refine Or.inr ⟨?_, h4⟩
    rintro rfl
    simp only [autocorrectFinish] at hac
    cases hac
    exact h3 rfl

/-- A call without replacement is its `finish`. -/
theorem finishAndAutocorrect_calm {ed0 ed ed' : Editor T} {ac : Option AutocorrectAction}
    {edits : List BasicEdit} {m : MinCaret} (hs : ed0.startAutocorrect env = .ok (ed, ac))
    (h : ed.finishAndAutocorrect env ac edits m = .ok ed') (hn : NoReplacement env ed0 ed') :
    ∃ act, ed.finish env edits m = .ok (ed', act) := by
  obtain ⟨e1, act, h1, h2⟩ := finishAndAutocorrect_cases h
  rcases h2 with rfl | ⟨h2, h3⟩
  · exact ⟨act, h1⟩
  · exfalso
    rcases hn with ⟨e, he⟩ | he
    · rw [hs] at he
      simp only [Except.ok.injEq, Prod.mk.injEq] at he
      exact h2 he.2
    · have := (finish_ok h1).2.2
      have hq := (startAutocorrect_quiet hs).1.undo
      rw [he, ← hq] at h3
      omega

/-- A call whose `finish` keeps everything valid, with a replacement that does, too. -/
theorem finishAndAutocorrect_anchored {ed0 ed ed' : Editor T} {ac : Option AutocorrectAction}
    {edits : List BasicEdit} {m : MinCaret} (hs : ed0.startAutocorrect env = .ok (ed, ac))
    (h : ed.finishAndAutocorrect env ac edits m = .ok ed')
    (hn : V ∧ CalmMove env ed0 ed' ∨ ¬ V ∧ GoodResults env.rules)
    (hfin : ∀ e1 act, ed.finish env edits m = .ok (e1, act) → Anchored V env e1) :
    Anchored V env ed' := by
  by_cases hq : V ∧ NoReplacement env ed0 ed'
  · obtain ⟨act, h1⟩ := finishAndAutocorrect_calm hs h hq.2
    exact hfin _ _ h1
  have hn' : GoodResults env.rules ∧ (V → Landed ed') := by
    rcases hn with ⟨v, h1 | ⟨h1, h2⟩⟩ | ⟨v, h1⟩
    · exact absurd ⟨v, h1⟩ hq
    · exact ⟨h1, fun _ => h2⟩
    · exact ⟨h1, fun h => absurd h v⟩
  unfold Editor.finishAndAutocorrect at h
  obtain ⟨⟨e, act⟩, he, h1⟩ := M.bind_eq_ok.1 h
  obtain ⟨ac', hac, h2⟩ := M.bind_eq_ok.1 h1
  refine applyAutocorrect_anchored (hfin _ _ he) ?_ h2 hn'.2
  rintro a rfl
  cases ac with
  | none => simp only [autocorrectFinish] at hac; cases hac
  | some ac =>
    simp only [autocorrectFinish] at hac
    obtain ⟨r, hr, h3⟩ := M.bind_eq_ok.1 hac
    cases h3
    have hm := startAutocorrect_rule hs
    exact hn'.1 _ hm

/-- Moving the caret over a valid formula. -/
theorem moveCaret_valid {root : Row} (hwf : rowWf root = true) (cfg : Cfg)
    (hcfg : cfg.checks = false → rowFits cfg.bits root = true) {d : Dir} {mode : MoveMode}
    {m : MinCaret} (hm : ValidCaret root m) {c c' : Caret} (hc : Caret.fromMinimal root m = .ok c)
    (h : moveCaret cfg root c d mode = .ok c') : ValidCaret root c'.toMinimal := by
  by_cases hmode : mode = .char
  · subst hmode
    have hp : press cfg root d m = .ok c'.toMinimal := by
      simp only [press, hc, M.ok_bind, h]
    rcases C09_arrow_keys hwf cfg hcfg d hm with ⟨-, -, -, h1⟩ | ⟨-, m', h1, h2⟩
    · rw [hp] at h1; cases h1
    · rw [hp] at h1
      cases h1
      rcases h2 with h2 | ⟨p, hp, h2⟩
      · rw [h2]; exact hm
      · rw [h2]; exact ⟨hp, hp⟩
  · obtain ⟨c0, h0, h1, h2⟩ := C09_word_line hwf cfg d hmode hm
    rw [hc] at h0
    cases h0
    cases hs : c.selection with
    | row r => rw [h1 ⟨r, hs⟩] at h; cases h
    | grid g =>
      rw [h2 ⟨g, hs⟩] at h
      cases h
      have := (Caret.fromMinimal_sound hc).2
      rw [this]; exact hm

theorem moveCaretRange_valid {root : Row} (hwf : rowWf root = true) (cfg : Cfg)
    (hcfg : cfg.checks = false → rowFits cfg.bits root = true) {d : Dir} {mode : MoveMode}
    {r : RowRange} (hr : r.In root) {p : Position}
    (h : moveCaretRange cfg r d mode = .ok (some p)) : p.In root := by
  by_cases hmode : mode = .char
  · subst hmode
    rw [moveCaretRange_char] at h
    obtain ⟨o, h1, h2⟩ := M.bind_eq_ok.1 h
    rcases moveCaretInternal_total hwf cfg hcfg (hr.edge d) d with ⟨-, -, -, h4⟩ | ⟨-, o', h3, h4⟩
    · rw [h1] at h4; cases h4
    · rw [h1] at h3
      cases h3
      cases o with
      | some x => cases h2; exact h4 _ rfl
      | none =>
        simp only [Option.or, Except.ok.injEq] at h2
        split at h2
        · cases h2
        · cases h2; exact hr.edge d
  · simp only [moveCaretRange, ne_eq, hmode, not_false_eq_true, if_true] at h
    cases h

/-- The selection mode plays no role for autocorrect. -/
theorem startAutocorrect_mode {ed e : Editor T} {ac : Option AutocorrectAction}
    (m : Option MoveMode) (h : ({ ed with selectionMode := m }).startAutocorrect env = .ok (e, ac)) :
    ∃ e', ed.startAutocorrect env = .ok (e', ac) := by
  unfold Editor.startAutocorrect Editor.getAutocomplete at h ⊢
  simp only at h ⊢
  cases hc : Caret.fromMinimal ed.input ed.caret with
  | error x => rw [hc] at h; cases h
  | ok c =>
    rw [hc] at h
    simp only [M.ok_bind] at h ⊢
    cases hs : c.selection with
    | grid g =>
      rw [hs] at h
      simp only [M.ok_bind] at h ⊢
      cases h
      exact ⟨_, rfl⟩
    | row r =>
      rw [hs] at h
      simp only at h ⊢
      split at h
      · rename_i hcol
        rw [if_pos hcol]
        cases hm : matchesAll env.rules r.startPosition.focus.row r.startPosition.offset 2 with
        | error x => rw [hm] at h; cases h
        | ok ms =>
          rw [hm] at h
          simp only [M.ok_bind] at h ⊢
          cases ha : autocompleteStateGet ed.currentAutocomplete ms r.startPosition.toMinimal with
          | error x => rw [ha] at h; cases h
          | ok cr =>
            rw [ha] at h
            obtain ⟨cur, res⟩ := cr
            simp only [M.ok_bind] at h ⊢
            cases res with
            | none => cases h; exact ⟨_, rfl⟩
            | some a =>
              simp only at h ⊢
              cases hx : a.startAutocorrect with
              | error x => rw [hx] at h; cases h
              | ok x => rw [hx] at h; cases h; exact ⟨_, rfl⟩
      · rename_i hcol
        rw [if_neg hcol]
        cases h
        exact ⟨_, rfl⟩

/-- A caret that can be read is valid. -/
theorem caret_valid {root : Row} {m : MinCaret} {c : Caret}
    (h : Caret.fromMinimal root m = .ok c) : ValidCaret root m := by
  obtain ⟨h1, h2⟩ := Caret.fromMinimal_sound h
  rw [← h2]
  exact ⟨h1.1.valid, h1.2.1.valid⟩

/-- A calm call keeps everything valid. -/
theorem Anchored.step {ed ed' : Editor T} {op : Op} (ha : Anchored V env ed)
    (hs : ed.step env op = .ok ed')
    (hc : V ∧ op.Calm env ed ed' ∨ ¬ V ∧ GoodResults env.rules ∧ op.GoodNodes env.cfg)
    (hfit : env.cfg.checks = false → rowFits env.cfg.bits ed.input = true) : Anchored V env ed' := by
  have insert : ∀ {e : Editor T} {ac vs e'}, ed.startAutocorrect env = .ok (e, ac) →
      rowWf vs = true → e.insertNodes env ac vs = .ok e' → Anchored V env e' := by
    intro e ac vs e' h1 hv h2
    obtain ⟨hq, hqc⟩ := startAutocorrect_quiet h1
    have h2' := h2
    unfold Editor.insertNodes at h2
    obtain ⟨c, hcc, h3⟩ := M.bind_eq_ok.1 h2
    cases hsel : c.selection with
    | grid g => rw [hsel] at h3; cases h3
    | row r =>
      rw [hsel] at h3
      obtain ⟨⟨q, hf⟩, hb⟩ := caret_row_in hcc hsel
      simp only [insertAtRange_eq hf hb vs, M.ok_bind] at h3
      obtain ⟨e1, act, h4, h5⟩ := finishAndAutocorrect_cases h3
      have hsel' : selectionOf ed.input ed.caret = .ok (.row r.toMinimal) := by
        rw [hq.input, hqc] at hcc
        simp only [selectionOf, hcc, M.ok_bind, hsel]
        rfl
      obtain ⟨row, e2, a, g1, g2, g3, g4, g5⟩ := insertNodes_ok ha.wf hv hsel' h1
      rw [h2'] at g1
      cases g1
      have hl := (finish_ok h4).2.2
      rw [if_neg (by simp)] at hl
      rcases h5 with rfl | ⟨-, h5⟩
      · have hwf' : rowWf e'.input = true := by
          refine g3.wf ha.wf ?_
          have := rowAt_wf ha.wf g2
          rw [rowWf_append, rowWf_append, rowWf_take this, rowWf_drop this, hv]; rfl
        have hv' : ValidCaret e'.input e'.caret := by
          have : ValidPos e'.input ⟨r.toMinimal.rowIndices,
              min r.toMinimal.start r.toMinimal.stop + vs.length⟩ := by
            refine ⟨_, g3.rowAt_new, ?_⟩
            have : r.focus.row = row := by
              have h6 := hf.rowAt_eq
              rw [hq.input, ← hf.rowIndices_eq] at h6
              rw [show r.toMinimal.rowIndices = r.focus.rowIndices from rfl, h6] at g2
              exact Option.some.inj g2
            have hst : r.toMinimal.start = r.start := rfl
            have hsp : r.toMinimal.stop = r.stop := rfl
            rw [this] at hb
            simp only [List.length_append, List.length_take, List.length_drop, hst, hsp]
            omega
          rw [g4]; exact ⟨this, this⟩
        rw [(finish_ok h4).2.1] at hv'
        refine finish_anchored (ha.quiet' ⟨hq, hqc⟩) ?_ h4 hwf' fun _ => hv'
        exact replace_truthful hf.rowAt_eq r.left_le_right (RowRange.right_le hb)
      · rw [g5, hq.undo.symm] at h5
        simp only [UndoRedo.push, List.length_cons] at h5
        omega
  have still : ∀ {e e1 : Editor T} {m act}, Quiet env ed e → e.finish env [] m = .ok (e1, act) →
      e1.input = ed.input := by
    intro e e1 m act hq h4
    have := (finish_ok h4).1
    simp only [applyEdits, Except.ok.injEq] at this
    rw [← this]; exact hq.input
  cases op with
  | undo =>
    simp only [Editor.step, Editor.undoOp, UndoRedo.undo] at hs
    obtain ⟨⟨e, b⟩, h1, h2⟩ := M.bind_eq_ok.1 hs
    cases h2
    cases hu : ed.undo.undoStack with
    | nil => rw [hu] at h1; cases h1; exact ha
    | cons a as =>
      rw [hu] at h1
      have := ha.undo
      rw [hu] at this
      obtain ⟨g1, p, g2, g3, g4, g5, g6⟩ := this
      have h4 := applyEdits_inverse g2 g3
      simp only [Editor.applyAction, CaretEdit.inverse, h4, M.ok_bind] at h1
      cases h1
      exact ⟨g4, g5, g6, g5, g2, ed.input, g3, ha.wf, g1, ha.redo⟩
  | redo =>
    simp only [Editor.step, Editor.redoOp, UndoRedo.redo] at hs
    obtain ⟨⟨e, b⟩, h1, h2⟩ := M.bind_eq_ok.1 hs
    cases h2
    cases hu : ed.undo.redoStack with
    | nil => rw [hu] at h1; cases h1; exact ha
    | cons a as =>
      rw [hu] at h1
      have := ha.redo
      rw [hu] at this
      obtain ⟨g1, g2, f, g3, g4, g5, g6⟩ := this
      simp only [Editor.applyAction, g3, M.ok_bind] at h1
      cases h1
      exact ⟨g4, g5, ⟨g5, ed.input, g2, g3, ha.wf, g1, ha.undo⟩, g6⟩
  | moveCaret d m =>
    simp only [Editor.step, Editor.moveCaret] at hs
    obtain ⟨⟨e, ac⟩, he, h1⟩ := M.bind_eq_ok.1 hs
    obtain ⟨c, hcc, h2⟩ := M.bind_eq_ok.1 h1
    obtain ⟨c', hc', h3⟩ := M.bind_eq_ok.1 h2
    obtain ⟨hq, hqc⟩ := startAutocorrect_quiet he
    refine finishAndAutocorrect_anchored he h3 (hc.imp id fun h => ⟨h.1, h.2.1⟩) fun e1 act h4 => ?_
    rw [hq.input, hqc] at hcc
    rw [hq.input] at hc'
    have hin := still hq h4
    refine finish_anchored (ha.quiet' ⟨hq, hqc⟩) truthful_nil h4 ?_ fun v => ?_
    · rw [hin]; exact ha.wf
    · rw [hin]; exact moveCaret_valid ha.wf env.cfg hfit (ha.caret v) hcc hc'
  | selectWithCaret d m =>
    simp only [Editor.step, Editor.selectWithCaret] at hs
    obtain ⟨⟨e', b⟩, h0, he'⟩ := M.bind_eq_ok.1 hs
    cases he'
    obtain ⟨⟨e, ac⟩, he, h1⟩ := M.bind_eq_ok.1 h0
    obtain ⟨hq, hqc⟩ := startAutocorrect_quiet he
    obtain ⟨c, hcc, h2⟩ := M.bind_eq_ok.1 h1
    cases hsel : c.selection with
    | grid g => rw [hsel] at h2; cases h2
    | row r =>
      rw [hsel] at h2
      obtain ⟨o, ho, h3⟩ := M.bind_eq_ok.1 h2
      cases o with
      | none => cases h3; exact ha.quiet' ⟨hq, hqc⟩
      | some p =>
        obtain ⟨e2, he2, h4⟩ := M.bind_eq_ok.1 h3
        cases h4
        refine finishAndAutocorrect_anchored he he2 (hc.imp id fun h => ⟨h.1, h.2.1⟩)
          fun e1 act h5 => ?_
        have hr : r.In ed.input := by
          have := caret_row_in hcc hsel
          rw [hq.input] at this; exact this
        have hp : p.In ed.input := by
          refine moveCaretRange_valid ha.wf env.cfg hfit (r := RowRange.ofPosition r.endPosition)
            ?_ ho
          exact ⟨hr.1, hr.2.2, hr.2.2⟩
        have hin := still hq h5
        refine finish_anchored (ha.quiet' ⟨hq, hqc⟩) truthful_nil h5 ?_ fun v => ?_
        · rw [hin]; exact ha.wf
        · rw [hin, hqc]; exact ⟨(ha.caret v).1, hp.valid⟩
  | removeAtCaret mode =>
    simp only [Editor.step, Editor.removeAtCaret] at hs
    obtain ⟨⟨e', b⟩, h0, he'⟩ := M.bind_eq_ok.1 hs
    cases he'
    obtain ⟨⟨e, ac⟩, he, h1⟩ := M.bind_eq_ok.1 h0
    obtain ⟨hq, hqc⟩ := startAutocorrect_quiet he
    obtain ⟨c, hcc, h2⟩ := M.bind_eq_ok.1 h1
    cases hsel : c.selection with
    | grid g => rw [hsel] at h2; cases h2
    | row r =>
      rw [hsel] at h2
      obtain ⟨o, ho, h3⟩ := M.bind_eq_ok.1 h2
      cases o with
      | none => cases h3; exact ha.quiet' ⟨hq, hqc⟩
      | some x =>
        obtain ⟨edits, p⟩ := x
        obtain ⟨e2, he2, h4⟩ := M.bind_eq_ok.1 h3
        cases h4
        refine finishAndAutocorrect_anchored he he2 (hc.imp id fun h => ⟨h.1, h.2.1⟩)
          fun e1 act h5 => ?_
        have hr := caret_row_in hcc hsel
        obtain ⟨h6, h7, -⟩ := finish_ok h5
        rw [hq.input] at h6
        have hcc' : Caret.fromMinimal ed.input ed.caret = .ok c := by
          rw [← hq.input, ← hqc]; exact hcc
        have hdk : deleteKey env.cfg mode (ed.input, ed.caret) = .ok (e1.input, .at p) := by
          simp only [deleteKey, hcc', M.ok_bind, hsel, ho, h6]
        have hsel' : selectionOf ed.input ed.caret = .ok (.row r.toMinimal) := by
          simp only [selectionOf, hcc', M.ok_bind, hsel]
          rfl
        rcases C17_valid_after_delete ha.wf env.cfg hfit mode (caret_valid hcc') hsel' with
          ⟨-, -, -, h8⟩ | ⟨root', m', h8, h9, h10⟩
        · rw [hdk] at h8; cases h8
        · rw [hdk] at h8
          simp only [Except.ok.injEq, Prod.mk.injEq] at h8
          obtain ⟨rfl, rfl⟩ := h8
          exact finish_anchored (ha.quiet' ⟨hq, hqc⟩) (removeAtCaret_truthful hr ho) h5 h9 fun _ => h10
  | insertAtCaret vs =>
    simp only [Editor.step, Editor.insertAtCaret] at hs
    obtain ⟨⟨e, ac⟩, he, h1⟩ := M.bind_eq_ok.1 hs
    refine insert he ?_ h1
    rw [rowWf_iff]
    intro n hn
    obtain ⟨s, -, rfl⟩ := List.mem_map.1 hn
    rfl
  | selectAll =>
    simp only [Editor.step] at hs
    cases hs
    refine ha.quiet ⟨rfl, rfl, Or.inl rfl⟩ fun _ =>
      ⟨⟨_, rfl, Nat.zero_le _⟩, ⟨_, rfl, Nat.le_refl _⟩⟩
  | startSelection p m =>
    simp only [Editor.step, Editor.startSelection] at hs
    obtain ⟨⟨e, ac⟩, he, h1⟩ := M.bind_eq_ok.1 hs
    obtain ⟨hq, hqc⟩ := startAutocorrect_quiet he
    have hn : V ∧ CalmMove env { ed with selectionMode := some m } ed' ∨
        ¬ V ∧ GoodResults env.rules := by
      rcases hc with ⟨v, hc⟩ | hc
      · rcases hc.2 with (⟨e', h⟩ | h) | h
        · obtain ⟨e'', h'⟩ := startAutocorrect_mode _ he
          rw [h] at h'
          cases h'
          exact Or.inl ⟨v, Or.inl (Or.inl ⟨e, he⟩)⟩
        · exact Or.inl ⟨v, Or.inl (Or.inr h)⟩
        · exact Or.inl ⟨v, Or.inr h⟩
      · exact Or.inr ⟨hc.1, hc.2.1⟩
    refine finishAndAutocorrect_anchored he h1 hn fun e1 act h4 => ?_
    have hin : e1.input = ed.input := by
      have := (finish_ok h4).1
      simp only [applyEdits, Except.ok.injEq] at this
      rw [← this]; exact hq.input
    have ha' : Anchored V env { ed with selectionMode := some m } :=
      ha.quiet ⟨rfl, rfl, Or.inl rfl⟩ ha.caret
    refine finish_anchored (ha'.quiet' ⟨hq, hqc⟩) truthful_nil h4 ?_ fun v => ?_
    · rw [hin]; exact ha.wf
    · have hp := (hc.resolve_right fun h => h.1 v).2.1
      rw [hin]; exact ⟨hp, hp⟩
  | extendSelection p =>
    simp only [Editor.step, Editor.extendSelection] at hs
    obtain ⟨⟨e, ac⟩, he, h1⟩ := M.bind_eq_ok.1 hs
    obtain ⟨hq, hqc⟩ := startAutocorrect_quiet he
    refine finishAndAutocorrect_anchored he h1
      (hc.imp (fun h => ⟨h.1, h.2.2⟩) fun h => ⟨h.1, h.2.1⟩) fun e1 act h4 => ?_
    have hin := still hq h4
    refine finish_anchored (ha.quiet' ⟨hq, hqc⟩) truthful_nil h4 ?_ fun v => ?_
    · rw [hin]; exact ha.wf
    · rw [hin, hqc]; exact ⟨(ha.caret v).1, (hc.resolve_right fun h => h.1 v).2.1⟩
  | finishSelection =>
    simp only [Editor.step] at hs
    cases hs
    exact ha.quiet ⟨rfl, rfl, Or.inl rfl⟩ ha.caret
  | paste d k =>
    simp only [Editor.step, Editor.paste] at hs
    obtain ⟨⟨e', b⟩, h0, he'⟩ := M.bind_eq_ok.1 hs
    cases he'
    obtain ⟨⟨e, ac⟩, he, h1⟩ := M.bind_eq_ok.1 h0
    cases k with
    | false => cases h1
    | true =>
      simp only [if_true] at h1
      cases hd : deserializeNodes env.cfg d with
      | none => rw [hd] at h1; cases h1; exact ha.quiet' (startAutocorrect_quiet he)
      | some nodes =>
        rw [hd] at h1
        obtain ⟨e2, he2, h2⟩ := M.bind_eq_ok.1 h1
        cases h2
        exact insert he (hc.elim (fun h => h.2 nodes hd) fun h => h.2.2 nodes hd) he2
  | openAutocomplete =>
    simp only [Editor.step] at hs
    obtain ⟨⟨e, r⟩, he, h1⟩ := M.bind_eq_ok.1 hs
    cases h1
    exact ha.quiet' (getAutocomplete_quiet he)
  | getAutocomplete =>
    simp only [Editor.step] at hs
    obtain ⟨⟨e, r⟩, he, h1⟩ := M.bind_eq_ok.1 hs
    cases h1
    exact ha.quiet' (getAutocomplete_quiet he)
  | finishAutocomplete accept =>
    simp only [Editor.step, Editor.finishAutocomplete] at hs
    obtain ⟨⟨e', b⟩, h0, he'⟩ := M.bind_eq_ok.1 hs
    cases he'
    cases accept with
    | false => cases h0; exact ha
    | true =>
      simp only [Bool.not_true, Bool.false_eq_true, if_false] at h0
      obtain ⟨⟨e, r⟩, he, h1⟩ := M.bind_eq_ok.1 h0
      cases r with
      | none => cases h1; exact ha.quiet' (getAutocomplete_quiet he)
      | some a =>
        obtain ⟨s, hsel, h2⟩ := M.bind_eq_ok.1 h1
        obtain ⟨e2, he2, h3⟩ := M.bind_eq_ok.1 h2
        cases h3
        have hg : GoodResults env.rules ∧ (V → Landed e') := by
          rcases hc with ⟨v, hc | ⟨h1, h2⟩⟩ | hc
          · have h4 := splice_length he2
            rw [hc, (getAutocomplete_quiet he).1.undo] at h4
            omega
          · exact ⟨h1, fun _ => h2⟩
          · exact ⟨hc.2.1, fun v => absurd v hc.1⟩
        refine splice_anchored (ha.quiet' (getAutocomplete_quiet he)) (hg.1 _ ?_) he2 hg.2
        obtain ⟨q, o, row, ms, m', g1, g2, g3, g4, g5, -, -, g6, -, -⟩ := C32_open he
        simp only [AutocompleteResults.getSelected, g6, munwrap] at hsel
        cases hsel
        obtain ⟨rule, hrule, ms', hms', hm'⟩ := matchesAll_mem g4
          (g5.subset (List.mem_of_getElem? g6))
        obtain ⟨hr1, -⟩ := C30_sound hms' hm'
        exact hr1 ▸ hrule
  | moveInAutocomplete d =>
    simp only [Editor.step, Editor.moveInAutocomplete] at hs
    obtain ⟨⟨e', b⟩, h0, he'⟩ := M.bind_eq_ok.1 hs
    cases he'
    obtain ⟨⟨e, r⟩, he, h1⟩ := M.bind_eq_ok.1 h0
    have hx := ha.quiet' (getAutocomplete_quiet he)
    cases r with
    | none => cases h1; exact hx
    | some a =>
      obtain ⟨a', ha', h2⟩ := M.bind_eq_ok.1 h1
      obtain ⟨s, hs, h3⟩ := M.bind_eq_ok.1 h2
      cases h3
      exact hx.quiet ⟨rfl, rfl, Or.inl rfl⟩ hx.caret
  | getSyntaxTree =>
    simp only [Editor.step, Editor.getSyntaxTree] at hs
    obtain ⟨⟨e, t⟩, he, h1⟩ := M.bind_eq_ok.1 hs
    cases h1
    split at he
    · cases he; exact ha
    · obtain ⟨t', ht', h2⟩ := M.bind_eq_ok.1 he
      cases h2
      exact ⟨ha.wf, ha.caret, ha.undo, ha.redo⟩
  | spliceAtRange r vs =>
    simp only [Editor.step] at hs
    exact splice_anchored ha (hc.elim (fun h => h.2.1) fun h => h.2.2) hs fun v =>
      (hc.resolve_right fun h => h.1 v).2.2

theorem CalmRun.anchored {ed : Editor T} (h : CalmRun env ed) : Anchored True env ed := by
  induction h with
  | new => exact anchored_new
  | step h hs hc hfit ih => exact ih.step hs (Or.inl ⟨trivial, hc⟩) hfit

theorem FormedRun.anchored {ed : Editor T} (hr : GoodResults env.rules) (h : FormedRun env ed) :
    Anchored False env ed := by
  induction h with
  | new => exact anchored_new
  | step h hs hn hfit ih => exact ih.step hs (Or.inr ⟨id, hr, hn⟩) hfit

end Aftermath
