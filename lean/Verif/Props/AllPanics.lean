import Verif.Props.Ends
import Verif.Proof.Tokens

/-! # Property theorem C74: the panics of all calls in all states, lost carets included -/

namespace Aftermath

variable {T : Type} {env : Env T}

/-- The calls that replace the caret or the formula without looking up the caret. -/
def Op.Resets : Op → Prop
  | .selectAll | .undo | .redo | .spliceAtRange _ _ => True
  | _ => False

/-- The calls that panic when the caret is lost. -/
def Op.DiesLost (env : Env T) (ed : Editor T) (op : Op) : Prop :=
  op.NeedsCaret ∨
  (op = .getSyntaxTree ∧ ed.parsed = none ∧ ∃ e, env.parse ed.input = .error e) ∨
  ∃ range values, op = .spliceAtRange range values ∧
    (¬ ValidRange ed.input range ∨ range.rowIndices = [] ∧ CaretInElement ed.caret)

/-- The call selects from or to a position that the formula does not have, while a completed token
is left of the caret. -/
def Op.DiesMisplaced (env : Env T) (ed : Editor T) (op : Op) : Prop :=
  ¬ op.GoodPositions ed.input ∧ ∃ rule q o row syms, CompletedToken env ed rule q o row syms

theorem fromMinimal_error {root : Row} {m : MinCaret} (hv : ¬ ValidCaret root m) :
    ∃ p, Caret.fromMinimal root m = .error p := by
  cases h : Caret.fromMinimal root m with
  | error p => exact ⟨p, rfl⟩
  | ok c =>
    obtain ⟨h1, h2⟩ := Caret.fromMinimal_sound h
    refine absurd ?_ hv
    rw [← h2]
    exact ⟨h1.1.valid, h1.2.1.valid⟩

/-- A direct splice with a range that is not one of the formula panics. -/
theorem splice_invalid {ed : Editor T} {range : MinRange} (hr : ¬ ValidRange ed.input range)
    (values : List Node) : ∃ x, ed.spliceAtRange env range values = .error x := by
  cases h1 : RowRange.fromMinimal (.fromRoot ed.input) range with
  | error x => exact ⟨x, by unfold Editor.spliceAtRange; rw [h1]; rfl⟩
  | ok rr =>
    obtain ⟨h2, h3, h4⟩ := RowRange.fromMinimal_sound h1
    refine absurd ⟨_, h2.rowAt_eq, ?_, ?_⟩ hr
    · rw [← h4]; exact h3.1
    · rw [← h4]; exact h3.2

theorem lost_get {ed : Editor T} (hv : ¬ ValidCaret ed.input ed.caret) :
    (∃ p, ed.getAutocomplete env = .error p) ∧ ∃ p, ed.startAutocorrect env = .error p := by
  obtain ⟨p, hp⟩ := fromMinimal_error hv
  have h : ed.getAutocomplete env = .error p := by
    unfold Editor.getAutocomplete; rw [hp]; rfl
  exact ⟨⟨p, h⟩, p, by unfold Editor.startAutocorrect; rw [h]; rfl⟩

theorem needs_get {ed : Editor T}
    (hget : ∀ x, ∃ p, ({ ed with selectionMode := x }).getAutocomplete env = .error p) {op : Op}
    (hop : op.NeedsCaret) : ∃ p, ed.step env op = .error p := by
  have hstart : ∀ x, ∃ p, ({ ed with selectionMode := x }).startAutocorrect env = .error p := by
    intro x
    obtain ⟨p, hp⟩ := hget x
    exact ⟨p, by unfold Editor.startAutocorrect; rw [hp]; rfl⟩
  obtain ⟨p, h1⟩ := hget ed.selectionMode
  obtain ⟨p', h2⟩ := hstart ed.selectionMode
  have h1 : ed.getAutocomplete env = .error p := h1
  have h2 : ed.startAutocorrect env = .error p' := h2
  cases op with
  | moveCaret d m => exact ⟨p', by simp only [Editor.step, Editor.moveCaret, h2, M.error_bind]⟩
  | selectWithCaret d m =>
    exact ⟨p', by simp only [Editor.step, Editor.selectWithCaret, h2, M.error_bind]⟩
  | removeAtCaret m =>
    exact ⟨p', by simp only [Editor.step, Editor.removeAtCaret, h2, M.error_bind]⟩
  | insertAtCaret m =>
    exact ⟨p', by simp only [Editor.step, Editor.insertAtCaret, h2, M.error_bind]⟩
  | startSelection p m =>
    obtain ⟨p', h2⟩ := hstart (some m)
    exact ⟨p', by simp only [Editor.step, Editor.startSelection, h2, M.error_bind]⟩
  | extendSelection p =>
    exact ⟨p', by simp only [Editor.step, Editor.extendSelection, h2, M.error_bind]⟩
  | paste d k => exact ⟨p', by simp only [Editor.step, Editor.paste, h2, M.error_bind]⟩
  | openAutocomplete | getAutocomplete =>
    exact ⟨p, by simp only [Editor.step, h1, M.error_bind]⟩
  | moveInAutocomplete d =>
    exact ⟨p, by simp only [Editor.step, Editor.moveInAutocomplete, h1, M.error_bind]⟩
  | finishAutocomplete a =>
    cases a with
    | false => exact absurd hop id
    | true =>
      refine ⟨p, ?_⟩
      simp only [Editor.step, Editor.finishAutocomplete, h1, Bool.not_true, Bool.false_eq_true,
        if_false, M.error_bind]
  | _ => exact absurd hop id

theorem lost_needs {ed : Editor T} (hv : ¬ ValidCaret ed.input ed.caret) {op : Op}
    (hop : op.NeedsCaret) : ∃ p, ed.step env op = .error p :=
  needs_get (fun x => (lost_get (ed := { ed with selectionMode := x }) hv).1) hop

/-- An empty symbol left of the caret: with rules, nothing that looks up the caret is possible. -/
theorem empty_needs {ed : Editor T} (hwf : rowWf ed.input = true) (hrules : env.rules ≠ [])
    (hsym : ¬ NoEmptySymbolLeft ed.input ed.caret) {op : Op} (hop : op.NeedsCaret) :
    ∃ p, ed.step env op = .error p := by
  refine needs_get (fun x => ?_) hop
  unfold NoEmptySymbolLeft at hsym
  push Not at hsym
  obtain ⟨q, o, row, h1, h2, h3⟩ := hsym
  obtain ⟨f, hf, hfr, hc⟩ := caret_at hwf h2 h3.1
  have hcol : (RowRange.ofPosition ⟨f, o⟩).isCollapsed = true := by
    simp [RowRange.ofPosition, RowRange.isCollapsed]
  have hsp : (RowRange.ofPosition ⟨f, o⟩).startPosition = ⟨f, o⟩ := rfl
  obtain ⟨p, hp⟩ : ∃ p, matchesAll env.rules row o 2 = .error p := by
    cases hr : env.rules with
    | nil => exact absurd hr hrules
    | cons r rs =>
      obtain ⟨p, hp⟩ := C31_empty_panics (rule := r) (minLen := 2) h3.1 h3
      exact ⟨p, by rw [matchesAll, hp]; rfl⟩
  rw [← h1] at hc
  refine ⟨p, ?_⟩
  simp only [Editor.getAutocomplete, hc, M.ok_bind, Caret.collapsed, hcol, if_true, hsp, hfr, hp,
    M.error_bind]

/-- The exact panics of the calls that do not look up the caret. -/
theorem free_panics {V : Prop} {ed : Editor T} (hanch : Anchored V env ed)
    (hdeep : env.cfg.checks = false → ed.caret.start.rowIndices.length < 2 ^ env.cfg.bits ∧
      ed.caret.stop.rowIndices.length < 2 ^ env.cfg.bits) {op : Op} (hn : ¬ op.NeedsCaret) :
    (∃ p, ed.step env op = .error p) ↔
      (op = .getSyntaxTree ∧ ed.parsed = none ∧ ∃ e, env.parse ed.input = .error e) ∨
      ∃ range values, op = .spliceAtRange range values ∧
        (¬ ValidRange ed.input range ∨ range.rowIndices = [] ∧ CaretInElement ed.caret) := by
  constructor
  · rintro ⟨p, hp⟩
    have hun : ∀ {ed'} {P : Prop}, ed.step env op = .ok ed' → P := by
      intro ed' P h; rw [hp] at h; cases h
    cases op with
    | moveCaret | selectWithCaret | removeAtCaret | insertAtCaret | startSelection
    | extendSelection | paste | openAutocomplete | getAutocomplete | moveInAutocomplete =>
      exact absurd trivial hn
    | finishAutocomplete a =>
      cases a with
      | true => exact absurd trivial hn
      | false => exact hun rfl
    | selectAll | finishSelection => exact hun rfl
    | undo =>
      simp only [Editor.step, Editor.undoOp, UndoRedo.undo] at hp
      cases hu : ed.undo.undoStack with
      | nil => rw [hu] at hp; cases hp
      | cons a as =>
        have := hanch.undo
        rw [hu] at this hp
        obtain ⟨g1, p', g2, g3, g4, g5, g6⟩ := this
        have h4 := applyEdits_inverse g2 g3
        simp only [Editor.applyAction, CaretEdit.inverse, h4, M.ok_bind] at hp
        cases hp
    | redo =>
      simp only [Editor.step, Editor.redoOp, UndoRedo.redo] at hp
      cases hu : ed.undo.redoStack with
      | nil => rw [hu] at hp; cases hp
      | cons a as =>
        have := hanch.redo
        rw [hu] at this hp
        obtain ⟨g1, g2, f, g3, g4, g5, g6⟩ := this
        simp only [Editor.applyAction, g3, M.ok_bind] at hp
        cases hp
    | getSyntaxTree =>
      left
      simp only [Editor.step, Editor.getSyntaxTree] at hp
      cases ht : ed.parsed with
      | some t => rw [ht] at hp; cases hp
      | none =>
        rw [ht] at hp
        cases hpar : env.parse ed.input with
        | error e => exact ⟨rfl, rfl, e, rfl⟩
        | ok t => simp only [hpar, M.ok_bind] at hp; cases hp
    | spliceAtRange range values =>
      refine .inr ⟨range, values, rfl, ?_⟩
      by_cases hr : ValidRange ed.input range
      · exact .inr ((splice_exact hanch.wf hr values hdeep).1 ⟨p, hp⟩)
      · exact .inl hr
  · rintro (⟨rfl, h1, e, h2⟩ | ⟨range, values, rfl, h⟩)
    · refine ⟨e, ?_⟩
      simp only [Editor.step, Editor.getSyntaxTree, h1, h2, M.error_bind]
    · by_cases hr : ValidRange ed.input range
      · exact (splice_exact hanch.wf hr values hdeep).2 (h.resolve_left (not_not.2 hr))
      · exact splice_invalid hr values

/-- **C74**, lost carets: what panics while the caret is not a position of the formula. Besides
`get_syntax_tree` and a direct splice, exactly the calls that look up the caret. -/
theorem C74_lost {ed : Editor T} (hrun : FormedRun env ed) (hres : GoodResults env.rules)
    (hlost : ¬ ValidCaret ed.input ed.caret)
    (hdeep : env.cfg.checks = false → ed.caret.start.rowIndices.length < 2 ^ env.cfg.bits ∧
      ed.caret.stop.rowIndices.length < 2 ^ env.cfg.bits) (op : Op) :
    (∃ p, ed.step env op = .error p) ↔ op.DiesLost env ed := by
  unfold Op.DiesLost
  by_cases hn : op.NeedsCaret
  · exact ⟨fun _ => .inl hn, fun _ => lost_needs hlost hn⟩
  · rw [free_panics (hrun.anchored hres) hdeep hn]
    exact ⟨.inr, fun h => h.resolve_left hn⟩

/-- **C74**, lost carets: a lost caret stays lost, with the same formula, until the next
`select_all`, undo, redo or direct splice. -/
theorem C74_stuck {ed ed' : Editor T} {op : Op} (hlost : ¬ ValidCaret ed.input ed.caret)
    (hop : ¬ op.Resets) (h : ed.step env op = .ok ed') :
    ed'.input = ed.input ∧ ed'.caret = ed.caret ∧ ed'.undo = ed.undo ∧
      ¬ ValidCaret ed'.input ed'.caret := by
  suffices hs : ed'.input = ed.input ∧ ed'.caret = ed.caret ∧ ed'.undo = ed.undo by
    refine ⟨hs.1, hs.2.1, hs.2.2, ?_⟩
    rw [hs.1, hs.2.1]; exact hlost
  by_cases hn : op.NeedsCaret
  · obtain ⟨p, hp⟩ := lost_needs (env := env) hlost hn
    rw [hp] at h; cases h
  cases op with
  | moveCaret | selectWithCaret | removeAtCaret | insertAtCaret | startSelection
  | extendSelection | paste | openAutocomplete | getAutocomplete | moveInAutocomplete =>
    exact absurd trivial hn
  | finishAutocomplete a =>
    cases a with
    | true => exact absurd trivial hn
    | false => cases h; exact ⟨rfl, rfl, rfl⟩
  | finishSelection => cases h; exact ⟨rfl, rfl, rfl⟩
  | getSyntaxTree =>
    simp only [Editor.step, Editor.getSyntaxTree] at h
    cases ht : ed.parsed with
    | some t => rw [ht] at h; cases h; exact ⟨rfl, rfl, rfl⟩
    | none =>
      rw [ht] at h
      cases hpar : env.parse ed.input with
      | error e => simp only [hpar, M.error_bind] at h; cases h
      | ok t => simp only [hpar, M.ok_bind] at h; cases h; exact ⟨rfl, rfl, rfl⟩
  | selectAll | undo | redo | spliceAtRange => exact absurd trivial hop

/-- `infinity` is typed and completed: the formula is one symbol long, the caret at offset 8. Nothing
but the calls of `C74_lost` is possible then. -/
theorem lost_state : ∃ ed : Editor Unit, FormedRun infinityEnv ed ∧
    ¬ ValidCaret ed.input ed.caret ∧ ed.caret = .at ⟨[], 8⟩ ∧ ed.input = [.symbol ['∞']] := by
  have hrun : ((Editor.new.run infinityEnv (typeInfinity ++ [.finishAutocomplete true])) >>=
      fun ed => .ok (ed.input, ed.caret)) = .ok ([.symbol ['∞']], .at ⟨[], 8⟩) := by decide +kernel
  obtain ⟨ed, h1, h2⟩ := M.bind_eq_ok.1 hrun
  simp only [Except.ok.injEq, Prod.mk.injEq] at h2
  refine ⟨ed, FormedRun.run rfl ?_ .new h1, ?_, h2.2, h2.1⟩
  · intro op hop
    rcases List.mem_append.1 hop with h3 | h3
    · obtain ⟨c, -, rfl⟩ := List.mem_map.1 h3
      trivial
    · rw [List.mem_singleton.1 h3]; trivial
  · rw [h2.1, h2.2]
    rintro ⟨⟨row, h3, h4⟩, -⟩
    cases h3
    simp [MinCaret.at] at h4

example : ∃ ed : Editor Unit, FormedRun infinityEnv ed ∧
    (∃ p, ed.step infinityEnv (.moveCaret .left .char) = .error p) ∧
    (¬ ∃ p, ed.step infinityEnv .undo = .error p) ∧
    (∃ p, ed.step infinityEnv (.spliceAtRange ⟨[], 0, 2⟩ []) = .error p) ∧
    ¬ ∃ p, ed.step infinityEnv (.spliceAtRange ⟨[], 0, 1⟩ []) = .error p := by
  obtain ⟨ed, h1, h2, h3, h4⟩ := lost_state
  have hres : GoodResults infinityEnv.rules := by
    intro r hr
    simp only [infinityEnv, List.mem_singleton] at hr
    rw [hr]; rfl
  have hiff := C74_lost h1 hres h2 (fun h => absurd h (by decide))
  refine ⟨ed, h1, (hiff _).2 (.inl trivial), ?_, (hiff _).2 (.inr (.inr ⟨_, _, rfl, .inl ?_⟩)), ?_⟩
  · rw [hiff]
    rintro (h | ⟨h, -⟩ | ⟨_, _, h, -⟩)
    · exact h
    · cases h
    · cases h
  · rw [h4]
    rintro ⟨row, h5, -, h6⟩
    cases h5
    simp at h6
  · rw [hiff]
    rintro (h | ⟨h, -⟩ | ⟨_, _, h, h5 | ⟨-, h5⟩⟩)
    · exact h
    · cases h
    · cases h
      rw [h4] at h5
      exact h5 ⟨_, rfl, by decide, by decide⟩
    · rw [h3] at h5
      rcases h5 with h5 | h5 <;> exact h5 rfl

/-- **C74**, lost carets: `select_all` always finds the caret again. -/
theorem C74_select_all (ed : Editor T) : ∃ ed', ed.step env .selectAll = .ok ed' ∧
    ed'.input = ed.input ∧ ValidCaret ed'.input ed'.caret :=
  ⟨_, rfl, rfl, ⟨_, rfl, Nat.zero_le _⟩, ⟨_, rfl, Nat.le_refl _⟩⟩

theorem plain_misplaced {ed : Editor T} {op : Op} {y : Editor T}
    (hy : ed.startAutocorrect env = .ok (y, none)) (hpos : ¬ op.GoodPositions ed.input) :
    ∃ ed', ed.step env op = .ok ed' := by
  cases op with
  | startSelection p m =>
    obtain ⟨e, he⟩ := mark_start (op := .startSelection p m) hy
    simp only [Op.mark] at he
    simp only [Editor.step, Editor.startSelection, he, M.ok_bind]
    exact finish_none_ok (root' := e.input) rfl
  | extendSelection p =>
    simp only [Editor.step, Editor.extendSelection, hy, M.ok_bind]
    exact finish_none_ok (root' := y.input) rfl
  | _ => exact absurd trivial hpos

theorem token_misplaced {ed : Editor T} {op : Op} {rule : AutocompleteRule} {q : RowIndices}
    {o : Nat} {row : Row} {syms : List Str} (hwf : rowWf ed.input = true)
    (htok : CompletedToken env ed rule q o row syms) (hpos : ¬ op.GoodPositions ed.input) :
    ∃ x, ed.step env op = .error x := by
  have key : ∀ {e : Editor T} {ac : AutocorrectAction} {m : MinCaret}, e.input = ed.input →
      ¬ ValidCaret ed.input m → ∃ x, e.finishAndAutocorrect env (some ac) [] m = .error x := by
    intro e ac m hi hm
    obtain ⟨x, hx⟩ := fromMinimal_error hm
    refine ⟨x, ?_⟩
    rw [← hi] at hx
    have hr : ac.caretRange.applyEdits env.cfg [] = .ok ac.caretRange := rfl
    simp only [Editor.finishAndAutocorrect, Editor.finish, List.isEmpty_nil, if_true, M.ok_bind,
      autocorrectFinish, hr, Editor.applyAutocorrect, hx, M.error_bind]
  cases op with
  | startSelection p m =>
    obtain ⟨-, -, e, hq, hc, he⟩ := startAutocorrect_of_token hwf htok (some m)
    simp only [Editor.step, Editor.startSelection, he, M.ok_bind]
    exact key hq.input fun h => hpos h.1
  | extendSelection p =>
    obtain ⟨-, -, e, hq, hc, he⟩ := startAutocorrect_of_token hwf htok ed.selectionMode
    have he : ed.startAutocorrect env = _ := he
    simp only [Editor.step, Editor.extendSelection, he, M.ok_bind]
    exact key hq.input fun h => hpos h.2
  | _ => exact absurd trivial hpos

/-- **C74**, symbols of one character: the exact panics of all calls in all states that calls with well-formed nodes lead to:
the caret may have been lost before, and the caller may pass positions that the formula does not
have. -/
theorem C74_tokens {ed : Editor T} (hrun : FormedRun env ed) (hres : GoodResults env.rules)
    (hfit : env.cfg.checks = false → rowFits env.cfg.bits ed.input = true)
    (hdeep : env.cfg.checks = false → (∀ p, ValidPos ed.input p →
      p.rowIndices.length + 1 < 2 ^ env.cfg.bits) ∧
      ed.caret.start.rowIndices.length < 2 ^ env.cfg.bits ∧
      ed.caret.stop.rowIndices.length < 2 ^ env.cfg.bits)
    (hrules : GoodRules env.rules) (hone : SingleLeft ed.input ed.caret) {op : Op}
    (hgood : op.GoodNodes env.cfg)
    (hlose : ∀ rule q o row syms ed0, CompletedToken env ed rule q o row syms →
      ed.step env.plain op = .ok ed0 → ¬ LosesToken ed ed0 q) :
    (∃ p, ed.step env op = .error p) ↔
      (ValidCaret ed.input ed.caret ∧ op.GoodPositions ed.input ∧ op.Dies env ed) ∨
      (ValidCaret ed.input ed.caret ∧ op.DiesMisplaced env ed) ∨
      (¬ ValidCaret ed.input ed.caret ∧ op.DiesLost env ed) := by
  by_cases hv : ValidCaret ed.input ed.caret
  · have hanch := hrun.anchored hres
    by_cases hpos : op.GoodPositions ed.input
    · rw [anchored_dies hanch hv hfit (fun h => (hdeep h).1) hrules hone hgood hpos hlose]
      refine ⟨fun h => .inl ⟨hv, hpos, h⟩, ?_⟩
      rintro (⟨-, -, h⟩ | ⟨-, h, -⟩ | ⟨h, -⟩)
      · exact h
      · exact absurd hpos h
      · exact absurd hv h
    · rcases C71_cases hanch.wf hv hrules hone with ⟨e, he⟩ | ⟨rule, q, o, row, syms, -, htok⟩
      · obtain ⟨ed', h'⟩ := plain_misplaced he hpos
        constructor
        · rintro ⟨p, hp⟩; rw [hp] at h'; cases h'
        · rintro (⟨-, h, -⟩ | ⟨-, -, rule, q, o, row, syms, htok⟩ | ⟨h, -⟩)
          · exact absurd h hpos
          · obtain ⟨-, -, e1, -, -, hs1⟩ :=
              startAutocorrect_of_token hanch.wf htok ed.selectionMode
            have hs1 : ed.startAutocorrect env = _ := hs1
            rw [he] at hs1
            cases hs1
          · exact absurd hv h
      · exact ⟨fun _ => .inr (.inl ⟨hv, hpos, _, _, _, _, _, htok⟩),
          fun _ => token_misplaced hanch.wf htok hpos⟩
  · rw [C74_lost hrun hres hv fun h => (hdeep h).2]
    refine ⟨fun h => .inr (.inr ⟨hv, h⟩), ?_⟩
    rintro (⟨h, -⟩ | ⟨h, -⟩ | ⟨-, h⟩)
    · exact absurd h hv
    · exact absurd h hv
    · exact h

/-- Selecting from a position that the formula does not have: accepted right after typing `lia`, a
panic right after typing `lim`, where a rule is completed. -/
example : panicOf limEnv (typeWord "lia" ++ [.startSelection ⟨[], 9⟩ .char]) = none ∧
    panicOf limEnv (typeWord "lim" ++ [.startSelection ⟨[], 9⟩ .char]) = some .assertion := by
  decide +kernel

/-! ## All states -/

theorem start_total {ed : Editor T} (hwf : rowWf ed.input = true)
    (hv : ValidCaret ed.input ed.caret) (hrules : GoodRules env.rules)
    (hsym : env.rules = [] ∨ NoEmptySymbolLeft ed.input ed.caret) :
    (∃ e, ed.startAutocorrect env = .ok (e, none)) ∨
    ∃ rule q o row syms, TokenLeft env ed rule q o row syms := by
  rcases hsym with hsym | hsym
  · left
    have henv : env = env.plain := by
      unfold Env.plain; rw [← hsym]
    obtain ⟨r, hr⟩ : ∃ r, ed.getAutocomplete env = .ok r := by
      obtain ⟨c, hc, -, -⟩ := Caret.fromMinimal_valid hwf hv
      unfold Editor.getAutocomplete
      rw [hc]
      simp only [M.ok_bind, hsym]
      cases c.selection with
      | grid g => exact ⟨_, rfl⟩
      | row r =>
        simp only
        split <;> exact ⟨_, rfl⟩
    obtain ⟨e, r⟩ := r
    obtain ⟨-, y, hy⟩ := getAutocomplete_plain hr
    rw [← henv] at hy
    exact ⟨_, by unfold Editor.startAutocorrect; rw [hy]; rfl⟩
  · exact tokenLeft_cases hwf hv hrules hsym

/-- **C74.** The exact panics of all calls in all states that calls with well-formed nodes lead to.
The caret may have been lost before, symbols may have any number of characters, and the caller may
pass positions that the formula does not have. -/
theorem C74 {ed : Editor T} (hrun : FormedRun env ed) (hres : GoodResults env.rules)
    (hrules : GoodRules env.rules)
    (hfit : env.cfg.checks = false → rowFits env.cfg.bits ed.input = true)
    (hdeep : env.cfg.checks = false → (∀ p, ValidPos ed.input p →
      p.rowIndices.length + 1 < 2 ^ env.cfg.bits) ∧
      ed.caret.start.rowIndices.length < 2 ^ env.cfg.bits ∧
      ed.caret.stop.rowIndices.length < 2 ^ env.cfg.bits)
    {op : Op} (hgood : op.GoodNodes env.cfg) :
    (∃ p, ed.step env op = .error p) ↔ op.AllPanics env ed := by
  have hanch := hrun.anchored hres
  have hwf := hanch.wf
  unfold Op.AllPanics
  by_cases hn : op.NeedsCaret
  swap
  · rw [free_panics hanch (fun h => (hdeep h).2) hn]
    constructor
    · rintro (⟨rfl, h⟩ | h)
      · exact .inr (.inl h)
      · exact .inr (.inr (.inl h))
    · rintro (⟨h, -⟩ | h | h | ⟨h, -⟩)
      · exact absurd h hn
      · left
        cases op with
        | getSyntaxTree => exact ⟨rfl, h⟩
        | selectAll | undo | redo | finishSelection | spliceAtRange | finishAutocomplete =>
          exact absurd h id
        | _ => exact absurd trivial hn
      · exact .inr h
      · cases op with
        | moveCaret | selectWithCaret | removeAtCaret | insertAtCaret | startSelection
        | extendSelection | paste => exact absurd trivial hn
        | _ => exact absurd h id
  by_cases hv : ValidCaret ed.input ed.caret
  swap
  · exact ⟨fun _ => .inl ⟨hn, .inl hv⟩, fun _ => lost_needs hv hn⟩
  by_cases hbad : env.rules ≠ [] ∧ ¬ NoEmptySymbolLeft ed.input ed.caret
  · exact ⟨fun _ => .inl ⟨hn, .inr hbad⟩, fun _ => empty_needs hwf hbad.1 hbad.2 hn⟩
  have hsym : env.rules = [] ∨ NoEmptySymbolLeft ed.input ed.caret := by
    by_cases h : env.rules = []
    · exact .inl h
    · exact .inr (by by_contra h'; exact hbad ⟨h, h'⟩)
  have hnsp : ∀ r vs, op ≠ .spliceAtRange r vs := by
    rintro r vs rfl; exact hn
  have hfirst : ¬ (op.NeedsCaret ∧ (¬ ValidCaret ed.input ed.caret ∨
      env.rules ≠ [] ∧ ¬ NoEmptySymbolLeft ed.input ed.caret)) := by
    rintro ⟨-, h | h⟩
    exacts [h hv, hbad h]
  have hsplice : ¬ ∃ range values, op = .spliceAtRange range values ∧
      (¬ ValidRange ed.input range ∨ range.rowIndices = [] ∧ CaretInElement ed.caret) := by
    rintro ⟨r, vs, h, -⟩
    exact hnsp r vs h
  rcases start_total hwf hv hrules hsym with ⟨e, he⟩ | ⟨rule, q, o, row, syms, htok⟩
  · rw [anchored_panics hanch hv hfit he op hnsp]
    refine ⟨fun h => .inr (.inl h), ?_⟩
    rintro (h | h | h | ⟨-, rule, q, o, row, syms, ed0, htok, -⟩)
    · exact absurd h hfirst
    · exact h
    · exact absurd h hsplice
    · obtain ⟨-, -, e1, -, -, hs1⟩ := tokenLeft_start hwf htok ed.selectionMode
      have hs1 : ed.startAutocorrect env = _ := hs1
      rw [he] at hs1
      cases hs1
  · obtain ⟨hmem, hne, e1, -, -, hs1⟩ := tokenLeft_start hwf htok ed.selectionMode
    have hs1 : ed.startAutocorrect env = _ := hs1
    by_cases hop : op.Corrects
    · have hanch' : Anchored False env.plain ed := ⟨hanch.wf, hanch.caret, hanch.undo, hanch.redo⟩
      obtain ⟨-, y, hy⟩ := startAutocorrect_plain hs1
      have hplain := anchored_panics (env := env.plain) hanch' hv hfit hy op hnsp
      have hpan : op.Panics env.plain ed ↔ op.Panics env ed := by cases op <;> exact Iff.rfl
      rw [hpan] at hplain
      cases h0 : ed.step env.plain op with
      | error x =>
        rw [h0] at hplain
        have hp := hplain.1 ⟨x, rfl⟩
        refine ⟨fun _ => .inr (.inl hp), fun _ => ⟨x, ?_⟩⟩
        refine pending_panic hop hs1 h0 fun edits m hcore => ?_
        obtain ⟨-, -, -, -, -, -, -, -, hcaret, hrow, hleft⟩ := htok
        rw [hcaret] at hcore
        cases core_case hwf hrow hleft hne hgood hfit hcore with
        | still m => exact ⟨_, rfl⟩
        | near hp hne' hst =>
          obtain ⟨root', -, h1, -⟩ := hst
          exact ⟨root', h1⟩
        | far hq hrow2 hi hn =>
          obtain ⟨root', h1, -⟩ := replace_ok (cfg := env.cfg) _ hwf hrow2 (Nat.le_succ _)
            (List.getElem?_eq_some_iff.1 hi).1
          exact ⟨root', h1⟩
      | ok ed0 =>
        rw [h0] at hplain
        have hnp : ¬ op.Panics env ed := by
          intro hp
          obtain ⟨x, hx⟩ := hplain.2 hp
          cases hx
        rw [token_step_panics hwf hrules htok hop hgood hfit (fun h => (hdeep h).1) h0]
        refine ⟨fun h => .inr (.inr (.inr ⟨hop, _, _, _, _, _, ed0, htok, rfl, h⟩)), ?_⟩
        rintro (h | h | h | ⟨-, rule', q', o', row', syms', ed1, htok', h1, h2⟩)
        · exact absurd h hfirst
        · exact absurd h hnp
        · exact absurd h hsplice
        · cases h1
          obtain ⟨rfl, rfl, rfl, hl⟩ := tokenLeft_unique htok htok'
          rw [hl]; exact h2
    · rw [anchored_panics_other hanch hv hfit htok.get hop hnsp]
      refine ⟨fun h => .inr (.inl h), ?_⟩
      rintro (h | h | h | ⟨h, -⟩)
      · exact absurd h hfirst
      · exact h
      · exact absurd h hsplice
      · exact absurd h hop

/-- A formula with `lim` in a fraction in a fraction, whose first element is `first`. -/
def nestedLim (first : Node) : List Op :=
  [.spliceAtRange ⟨[], 0, 0⟩ [first, .fraction [.fraction [.symbol ['l'], .symbol ['i'],
    .symbol ['m']] []] []], .startSelection ⟨[(1, 0), (0, 0)], 3⟩ .char]

/-- The case `LooksAt`: Delete dissolves the inner fraction. The token of `[(1, 0), (0, 0)]` is then
looked for in `[(0, 0), (0, 0)]`, which panics if the first element is a symbol, and does not if it
is a fraction of the same shape. -/
example : panicOf limEnv (nestedLim (.symbol ['x']) ++ [.removeAtCaret .right]) =
      some .expect ∧
    panicOf limEnv (nestedLim (.symbol ['x'])) = none ∧
    panicOf limEnv (nestedLim (.fraction [.fraction [.symbol ['a'], .symbol ['b'],
      .symbol ['c']] []] []) ++ [.removeAtCaret .right]) = none := by
  decide +kernel

/-- A symbol of more than one character in a token: the second of two symbols completes the rule.
A click at the start does nothing, since the token starts there. -/
example : panicOf limEnv [.insertAtCaret [['l', 'i'], ['m']], .startSelection ⟨[], 0⟩ .char] = none ∧
    panicOf limEnv [.insertAtCaret [['a'], ['a'], ['a'], ['l', 'i'], ['m']],
      .startSelection ⟨[], 0⟩ .char] = some .outOfRange := by
  decide +kernel

/-- The hypotheses of `C74` are met in the first of these states. -/
example : ∃ ed : Editor Unit, FormedRun limEnv ed ∧ GoodResults limEnv.rules ∧
    GoodRules limEnv.rules ∧ (Op.removeAtCaret .right).AllPanics limEnv ed := by
  have hrun : ((Editor.new.run limEnv (nestedLim (.symbol ['x']))) >>= fun ed =>
      .ok (match ed.step limEnv (.removeAtCaret .right) with
        | .ok _ => false
        | .error _ => true)) = .ok true := by decide +kernel
  obtain ⟨ed, h1, h2⟩ := M.bind_eq_ok.1 hrun
  have hres : GoodResults limEnv.rules := by unfold GoodResults; decide
  have hrules : GoodRules limEnv.rules := by
    unfold GoodRules Ascii; decide
  have hform : FormedRun limEnv ed := FormedRun.run rfl (by
    intro op hop
    simp only [nestedLim, List.mem_cons, List.not_mem_nil, or_false] at hop
    rcases hop with rfl | rfl
    · show rowWf _ = true
      decide +kernel
    · trivial) .new h1
  refine ⟨ed, hform, hres, hrules, (C74 (op := .removeAtCaret .right) hform hres hrules
    (fun h => absurd h (by decide))
    (fun h => absurd h (by decide)) trivial).1 ?_⟩
  simp only [Except.ok.injEq] at h2
  split at h2
  · cases h2
  · exact ⟨_, by assumption⟩

end Aftermath
