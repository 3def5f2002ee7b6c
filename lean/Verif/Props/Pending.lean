import Verif.Proof.PendingSteps
import Verif.Props.Calm

/-! # Property theorem C71: what autocorrection adds to a call -/

namespace Aftermath

variable {T : Type} {env : Env T}

/-- C71, calls that have nothing to do with autocompletion: they do the same with and without
rules. -/
theorem C71_unrelated (ed : Editor T) {op : Op} (hop : op.Unrelated) :
    ed.step env op = ed.step env.plain op := by
  cases op with
  | finishAutocomplete a => cases a with
    | true => exact absurd hop id
    | false => rfl
  | selectAll | undo | redo | finishSelection | getSyntaxTree | spliceAtRange => rfl
  | _ => exact absurd hop id

/-- C71 without a pending autocorrection: moving, selecting, deleting, typing and pasting do the
same with and without rules, panics included. -/
theorem C71_same {ed e : Editor T} {op : Op} (hop : op.Corrects)
    (hs : ed.startAutocorrect env = .ok (e, none)) :
    outcome (ed.step env op) = outcome (ed.step env.plain op) := by
  obtain ⟨e', -, h1, h2⟩ := step_plain hop hs
  rw [h1, h2]
  cases op.core env.cfg ed.input ed.caret <;> rfl

/-- C71: the pending autocorrection is always a completed token, if rules consist of ASCII
characters and the symbols left of the caret of one character each. -/
theorem C71_cases {ed : Editor T} (hwf : rowWf ed.input = true)
    (hv : ValidCaret ed.input ed.caret) (hr : GoodRules env.rules)
    (hone : ∀ q o row syms, ed.caret = .at ⟨q, o⟩ → rowAt ed.input q = some row →
      SymbolsLeftOf row o syms → ∀ s ∈ syms, s.length = 1) :
    (∃ e, ed.startAutocorrect env = .ok (e, none)) ∨
    ∃ rule q o row syms, rule ∈ env.rules ∧ CompletedToken env ed rule q o row syms := by
  have hsym : NoEmptySymbolLeft ed.input ed.caret := by
    intro q o row h1 h2 h3
    have := hone q o row [[]] h1 h2 h3 [] (by simp)
    cases this
  obtain ⟨e, ac, hs⟩ := startAutocorrect_ok hwf hv hr hsym
  cases ac with
  | none => exact Or.inl ⟨e, hs⟩
  | some ac =>
    right
    obtain ⟨res, m, h1, h2, h3, rfl⟩ := startAutocorrect_some hs
    obtain ⟨q, o, row, ms, m', g1, g2, g3, g4, g5, -, -, g6, -, -⟩ := C32_open h1
    rw [h2] at g6
    cases g6
    obtain ⟨rule, hrule, ms', hms', hm'⟩ := matchesAll_mem g4
      (g5.subset (List.mem_of_getElem? h2))
    obtain ⟨hr1, hr2, init, last, hs1, hs2, hs3, -, hs5⟩ := C30_sound hms' hm'
    obtain ⟨hc, -⟩ := collapsed_caret hwf g1
    refine ⟨m.rule, q, o, row, init ++ [last], hr1 ▸ hrule, e, res, m, h1, h2, h3, rfl, hs2, hc,
      g2, hs1, ?_⟩
    intro s hs
    have h1 := hone q o row _ hc g2 hs1 s hs
    match s, h1 with
    | [c], _ =>
      refine ⟨c, rfl, ?_⟩
      have hmem : c ∈ (init ++ [last]).flatten := List.mem_flatten.2 ⟨_, hs, by simp⟩
      exact (hr rule hrule).2 c (hs3.subset hmem)

section
variable {ed ed0 : Editor T} {rule : AutocompleteRule} {q : RowIndices} {o : Nat} {row : Row}
  {syms : List Str} {op : Op}

/-- C71, a call that only moves the caret when there are no rules. With a completed token left of
the caret it does the same while the new selection starts in the token. Otherwise it panics, does
the same or replaces the token as well, depending only on whether the token starts further to the
right than it is long, further to the left, or at that place. -/
theorem C71_move (hwf : rowWf ed.input = true) (h : CompletedToken env ed rule q o row syms)
    (hop : op.Corrects) (hgood : op.GoodNodes env.cfg)
    (hfit : env.cfg.checks = false → rowFits env.cfg.bits ed.input = true)
    (h0 : ed.step env.plain op = .ok ed0) (hundo : ed0.undo = ed.undo) {sel : MinSelection}
    (hsel : selectionOf ed.input ed0.caret = .ok sel) :
    (Stays q o syms.length sel → outcome (ed.step env op) = .ok ed0.forget) ∧
    (¬ Stays q o syms.length sel →
      (syms.length < o - syms.length → ed.step env op = .error .outOfRange) ∧
      (o - syms.length < syms.length → outcome (ed.step env op) = .ok ed0.forget) ∧
      (o - syms.length = syms.length → outcome (ed.step env op) =
        outcome (ed0.spliceAtRange env ⟨q, o, o - syms.length⟩ rule.result))) := by
  rcases pending_step hwf h hop hgood hfit h0 with ⟨-, -, h1⟩ | ⟨h1, -⟩
  · exact h1 sel hsel
  · exact absurd hundo h1

/-- C71, a call that changes the formula when there are no rules: it does the same with a completed
token left of the caret, if the caret stays in the row of the token. -/
theorem C71_edit (hwf : rowWf ed.input = true) (h : CompletedToken env ed rule q o row syms)
    (hop : op.Corrects) (hgood : op.GoodNodes env.cfg)
    (hfit : env.cfg.checks = false → rowFits env.cfg.bits ed.input = true)
    (h0 : ed.step env.plain op = .ok ed0) (hundo : ed0.undo ≠ ed.undo)
    (hrow : ed0.caret.start.rowIndices = q) : outcome (ed.step env op) = .ok ed0.forget := by
  rcases pending_step hwf h hop hgood hfit h0 with ⟨h1, -⟩ | ⟨-, p, h1, ⟨-, h2⟩ | ⟨i, j, h2, -⟩⟩
  · exact absurd h1 hundo
  · exact h2
  · rw [h1] at hrow
    simp only [MinCaret.at] at hrow
    rw [hrow] at h2
    have := congrArg List.length h2
    simp at this

/-- C71, Delete at the end of a cell that dissolves the element around the token: in the outermost
row it panics. -/
theorem C71_dissolve (hwf : rowWf ed.input = true) (h : CompletedToken env ed rule q o row syms)
    (hop : op.Corrects) (hgood : op.GoodNodes env.cfg)
    (hfit : env.cfg.checks = false → rowFits env.cfg.bits ed.input = true)
    (hbits : env.cfg.checks = false → 1 < 2 ^ env.cfg.bits)
    (h0 : ed.step env.plain op = .ok ed0) (hundo : ed0.undo ≠ ed.undo)
    (hrow : ed0.caret.start.rowIndices = []) (hq : q ≠ []) :
    ed.step env op = .error (if env.cfg.checks then .overflow else .unwrapNone) := by
  rcases pending_step hwf h hop hgood hfit h0 with ⟨h1, -⟩ | ⟨-, p, h1, ⟨h2, -⟩ | ⟨i, j, -, h2, -⟩⟩
  · exact absurd h1 hundo
  · rw [h1] at hrow
    exact absurd (h2 ▸ hrow) hq
  · rw [h1] at hrow
    exact h2 hrow hbits

end

theorem conclude_view {e e' : Editor T} (hi : e'.input = e.input) (hc : e'.caret = e.caret)
    (x : Option (List BasicEdit × MinCaret)) :
    (e'.conclude env none x).map Editor.view = (e.conclude env none x).map Editor.view := by
  cases x with
  | none =>
    show Except.ok e'.view = Except.ok e.view
    unfold Editor.view
    rw [hi, hc]
  | some p =>
    show (e'.finishAndAutocorrect env none p.1 p.2).map Editor.view =
      (e.finishAndAutocorrect env none p.1 p.2).map Editor.view
    rw [finishAndAutocorrect_none, finishAndAutocorrect_none, hi]

/-- A call leaves the caret valid while there are no rules, whatever the history is. -/
theorem plain_caret {ed ed0 y : Editor T} {op : Op} (hwf : rowWf ed.input = true)
    (hv : ValidCaret ed.input ed.caret)
    (hfit : env.cfg.checks = false → rowFits env.cfg.bits ed.input = true)
    (hop : op.Corrects) (hgood : op.GoodNodes env.cfg) (hpos : op.GoodPositions ed.input)
    (hy : ed.startAutocorrect env.plain = .ok (y, none))
    (h0 : ed.step env.plain op = .ok ed0) : ValidCaret ed0.input ed0.caret := by
  -- the same call with an empty history
  let ed' : Editor T := { ed with undo := ⟨[], []⟩ }
  have hanch : Anchored True env.plain ed' := ⟨hwf, fun _ => hv, trivial, trivial⟩
  obtain ⟨y', hy'⟩ : ∃ y', ed'.startAutocorrect env.plain = .ok (y', none) := by
    have : ∃ r, ed'.getAutocomplete env.plain = .ok r := by
      obtain ⟨c, hc, -, -⟩ := Caret.fromMinimal_valid hwf hv
      unfold Editor.getAutocomplete
      rw [show Caret.fromMinimal ed'.input ed'.caret = .ok c from hc]
      simp only [M.ok_bind]
      cases c.selection with
      | grid g => exact ⟨_, rfl⟩
      | row r =>
        simp only
        split
        · exact ⟨_, rfl⟩
        · exact ⟨_, rfl⟩
    obtain ⟨⟨e, r⟩, hr⟩ := this
    obtain ⟨-, z, hz⟩ := getAutocomplete_plain hr
    have hz : ed'.getAutocomplete env.plain = _ := hz
    unfold Editor.startAutocorrect
    rw [hz]
    exact ⟨_, rfl⟩
  obtain ⟨e1, h1⟩ := mark_start (op := op) hy
  obtain ⟨e2, h2⟩ := mark_start (op := op) hy'
  have hq1 := startAutocorrect_quiet h1
  have hq2 := startAutocorrect_quiet h2
  have hm : ∀ e : Editor T, (op.mark e).input = e.input ∧ (op.mark e).caret = e.caret := by
    intro e; cases op <;> exact ⟨rfl, rfl⟩
  have hs1 := step_core hop h1
  have hs2 := step_core hop h2
  rw [h0] at hs1
  obtain ⟨x, hx, hs1⟩ := M.bind_eq_ok.1 hs1.symm
  rw [show op.core env.plain.cfg ed'.input ed'.caret = .ok x from hx, M.ok_bind] at hs2
  have hview := conclude_view (env := env.plain) (e := e1) (e' := e2)
    (by rw [hq1.1.input, hq2.1.input, (hm _).1, (hm _).1])
    (by rw [hq1.2, hq2.2, (hm _).2, (hm _).2]) x
  rw [hs1, ← hs2] at hview
  cases h3 : ed'.step env.plain op with
  | error p => rw [h3] at hview; cases hview
  | ok ed1 =>
    rw [h3] at hview
    have hview : Except.ok ed1.view = (Except.ok ed0.view : M _) := hview
    simp only [Except.ok.injEq, Editor.view, Prod.mk.injEq] at hview
    rw [← hview.1, ← hview.2]
    refine (hanch.step h3 (Or.inl ⟨trivial, ?_⟩) hfit).caret trivial
    have hc : CalmMove env.plain ed' ed1 := Or.inl (Or.inl ⟨_, hy'⟩)
    cases op with
    | moveCaret | selectWithCaret | removeAtCaret => exact hc
    | startSelection | extendSelection => exact ⟨hpos, hc⟩
    | paste => exact hgood
    | insertAtCaret => trivial
    | _ => exact absurd hop id

theorem anchored_panics_token {V : Prop} {ed : Editor T} {rule : AutocompleteRule}
    {q : RowIndices} {o : Nat} {row : Row} {syms : List Str} {op : Op}
    (hanch : Anchored V env ed) (hv : ValidCaret ed.input ed.caret)
    (hfit : env.cfg.checks = false → rowFits env.cfg.bits ed.input = true)
    (hdeep : env.cfg.checks = false → ∀ p, ValidPos ed.input p →
      p.rowIndices.length + 1 < 2 ^ env.cfg.bits)
    (h : CompletedToken env ed rule q o row syms) (hop : op.Corrects)
    (hgood : op.GoodNodes env.cfg) (hpos : op.GoodPositions ed.input)
    (hlose : ∀ ed0, ed.step env.plain op = .ok ed0 → ¬ LosesToken ed ed0 q) :
    (∃ x, ed.step env op = .error x) ↔ op.Panics env ed ∨
      ∃ ed0, ed.step env.plain op = .ok ed0 ∧ LeavePanics ed ed0 q o syms.length := by
  have hwf := hanch.wf
  have hanch' : Anchored V env.plain ed := ⟨hanch.wf, hanch.caret, hanch.undo, hanch.redo⟩
  obtain ⟨-, -, e1, -, -, hs1⟩ := startAutocorrect_of_token hwf h ed.selectionMode
  obtain ⟨-, y, hy⟩ := startAutocorrect_plain (show ed.startAutocorrect env = _ from hs1)
  have hnsp : ∀ r vs, op ≠ .spliceAtRange r vs := by
    rintro r vs rfl; exact hop
  have hplain := anchored_panics (env := env.plain) hanch' hv hfit hy op hnsp
  have hpan : op.Panics env.plain ed ↔ op.Panics env ed := by cases op <;> exact Iff.rfl
  rw [hpan] at hplain
  cases h0 : ed.step env.plain op with
  | error x =>
    rw [h0] at hplain
    have hp := hplain.1 ⟨x, rfl⟩
    refine ⟨fun _ => Or.inl hp, fun _ => ⟨x, ?_⟩⟩
    refine pending_panic hop hs1 h0 fun edits m hcore => ?_
    obtain ⟨hsp, hne, -⟩ := startAutocorrect_of_token hwf h ed.selectionMode
    obtain ⟨-, -, -, -, -, -, -, -, hcaret, hrow, hleft, -⟩ := h
    simp only at hcore
    rw [hcaret] at hcore
    cases core_case hwf hrow hleft hne hgood hfit hcore with
    | still m => exact ⟨_, rfl⟩
    | near hp hne' hst =>
      obtain ⟨root', -, h1, -⟩ := hst
      exact ⟨root', h1⟩
    | far hq hrow2 hi hn =>
      obtain ⟨root', h1, -⟩ := replace_ok (cfg := env.cfg) _ hwf hrow2 (Nat.le_succ _)
        (List.getElem?_eq_some_iff.1 hi).1
      exact ⟨root', h1⟩
  | ok ed0 =>
    rw [h0] at hplain
    have hnp : ¬ op.Panics env ed := by
      intro hp
      obtain ⟨x, hx⟩ := hplain.2 hp
      cases hx
    have hv0 := plain_caret hwf hv hfit hop hgood hpos hy h0
    have noerr : outcome (ed.step env op) = .ok ed0.forget →
        ¬ ∃ x, ed.step env op = .error x := by
      rintro h1 ⟨x, hx⟩
      rw [hx] at h1; cases h1
    have hto : ¬ LeavePanics ed ed0 q o syms.length →
        (¬ ∃ x, ed.step env op = .error x) →
        ((∃ x, ed.step env op = .error x) ↔ op.Panics env ed ∨
          ∃ ed1, Except.ok ed0 = (Except.ok ed1 : M (Editor T)) ∧
            LeavePanics ed ed1 q o syms.length) := by
      intro h1 h2
      refine ⟨fun h => absurd h h2, ?_⟩
      rintro (h | ⟨ed1, h3, h4⟩)
      · exact absurd h hnp
      · cases h3; exact absurd h4 h1
    have hyes : LeavePanics ed ed0 q o syms.length → (∃ x, ed.step env op = .error x) →
        ((∃ x, ed.step env op = .error x) ↔ op.Panics env ed ∨
          ∃ ed1, Except.ok ed0 = (Except.ok ed1 : M (Editor T)) ∧
            LeavePanics ed ed1 q o syms.length) :=
      fun h1 h2 => ⟨fun _ => Or.inr ⟨ed0, rfl, h1⟩, fun _ => h2⟩
    rcases pending_step hwf h hop hgood hfit h0 with ⟨hu, hi, h1⟩ |
      ⟨hu, p, h1, ⟨h2, h3⟩ | ⟨i, j, h2, h3, h4⟩⟩
    · rw [hi] at hv0
      obtain ⟨c, hc, -, -⟩ := Caret.fromMinimal_valid hwf hv0
      have hsel : selectionOf ed.input ed0.caret = .ok c.selection.toMinimal := by
        simp only [selectionOf, hc, M.ok_bind]
      obtain ⟨f1, f2⟩ := h1 _ hsel
      have hnot : (∀ sel, selectionOf ed.input ed0.caret = .ok sel →
          ¬ Stays q o syms.length sel → (syms.length < o - syms.length ∨
            o - syms.length = syms.length ∧ q = [] ∧ CaretInElement ed0.caret) → False) →
          ¬ LeavePanics ed ed0 q o syms.length := by
        rintro h5 (⟨-, sel, h6, h7, h8⟩ | ⟨h6, -⟩)
        · exact h5 sel h6 h7 h8
        · exact h6 hu
      by_cases hst : Stays q o syms.length c.selection.toMinimal
      · refine hto (hnot fun sel h6 h7 _ => ?_) (noerr (f1 hst))
        rw [hsel] at h6
        cases h6
        exact h7 hst
      · rcases Nat.lt_trichotomy (o - syms.length) syms.length with hk | hk | hk
        · exact hto (hnot fun sel h6 h7 h8 => by omega)
            (noerr ((f2 hst).2.1 hk))
        · have hres := (f2 hst).2.2 hk
          obtain ⟨-, -, -, -, -, -, -, -, hcaret, hrow, hleft, -⟩ := h
          have hex := splice_exact (env := env) (ed := ed0) (range := ⟨q, o, o - syms.length⟩)
            (by rw [hi]; exact hwf)
            ⟨row, by rw [hi]; exact hrow, hleft.1, Nat.le_trans (Nat.sub_le _ _) hleft.1⟩
            rule.result (fun hck => ⟨Nat.lt_of_succ_lt (hdeep hck _ hv0.1),
              Nat.lt_of_succ_lt (hdeep hck _ hv0.2)⟩)
          have hiff : (∃ x, ed.step env op = .error x) ↔
              ∃ x, ed0.spliceAtRange env ⟨q, o, o - syms.length⟩ rule.result = .error x := by
            constructor
            · rintro ⟨x, hx⟩
              exact ⟨x, outcome_error.1 (by rw [← hres, hx]; rfl)⟩
            · rintro ⟨x, hx⟩
              exact ⟨x, outcome_error.1 (by rw [hres, hx]; rfl)⟩
          by_cases hin : q = [] ∧ CaretInElement ed0.caret
          · exact hyes (Or.inl ⟨hu, _, hsel, hst, Or.inr ⟨hk, hin⟩⟩) (hiff.2 (hex.2 hin))
          · refine hto (hnot fun sel h6 h7 h8 => ?_)
              (fun h9 => hin (hex.1 (hiff.1 h9)))
            rcases h8 with h8 | h8
            · omega
            · exact hin h8.2
        · exact hyes (Or.inl ⟨hu, _, hsel, hst, Or.inl hk⟩) ⟨_, (f2 hst).1 hk⟩
    · refine hto ?_ (noerr h3)
      rintro (⟨h5, -⟩ | ⟨-, h5, h6⟩)
      · exact hu h5
      · rw [h1] at h5
        exact h6 (h2 ▸ h5)
    · cases hp : p.rowIndices using List.reverseRecOn with
      | nil =>
        refine hyes (Or.inr ⟨hu, by rw [h1]; exact hp, by rw [h2]; simp⟩) ⟨_, h3 hp ?_⟩
        intro hck
        have := hdeep hck ⟨[], 0⟩ ⟨_, rfl, Nat.zero_le _⟩
        simpa using this
      | append_singleton p0 ab =>
        obtain ⟨a, b⟩ := ab
        by_cases hai : a = i
        · subst hai
          refine hto ?_ (noerr (h4 p0 b hp))
          rintro (⟨h5, -⟩ | ⟨-, h5, -⟩)
          · exact hu h5
          · rw [h1] at h5
            simp only [MinCaret.at] at h5
            rw [hp] at h5
            simp at h5
        · refine absurd ⟨hu, p0, a, b, i, j, ?_, ?_, hai⟩ (hlose ed0 h0)
          · rw [h1]; exact hp
          · rw [h2, hp]

/-- C71 and C27: the exact panics of a call with a completed token left of the caret. It panics if
and only if it does so without the token, or it leaves the token as described by `LeavePanics`. The
case of `LosesToken` is left out. -/
theorem C71_panics {ed : Editor T} {rule : AutocompleteRule} {q : RowIndices} {o : Nat}
    {row : Row} {syms : List Str} {op : Op} (hrun : CalmRun env ed)
    (hfit : env.cfg.checks = false → rowFits env.cfg.bits ed.input = true)
    (hdeep : env.cfg.checks = false → ∀ p, ValidPos ed.input p →
      p.rowIndices.length + 1 < 2 ^ env.cfg.bits)
    (h : CompletedToken env ed rule q o row syms) (hop : op.Corrects)
    (hgood : op.GoodNodes env.cfg) (hpos : op.GoodPositions ed.input)
    (hlose : ∀ ed0, ed.step env.plain op = .ok ed0 → ¬ LosesToken ed ed0 q) :
    (∃ x, ed.step env op = .error x) ↔ op.Panics env ed ∨
      ∃ ed0, ed.step env.plain op = .ok ed0 ∧ LeavePanics ed ed0 q o syms.length :=
  anchored_panics_token hrun.anchored (hrun.anchored.caret trivial) hfit hdeep h hop hgood hpos hlose

theorem splice_panics {ed : Editor T} (hwf : rowWf ed.input = true)
    (hv : ValidCaret ed.input ed.caret)
    (hdeep : env.cfg.checks = false → ∀ p, ValidPos ed.input p →
      p.rowIndices.length + 1 < 2 ^ env.cfg.bits) (range : MinRange) (values : List Node) :
    (∃ x, ed.step env (.spliceAtRange range values) = .error x) ↔
      ¬ ValidRange ed.input range ∨ range.rowIndices = [] ∧ CaretInElement ed.caret := by
  show (∃ x, ed.spliceAtRange env range values = .error x) ↔ _
  by_cases hr : ValidRange ed.input range
  · rw [splice_exact hwf hr values fun hck => ⟨Nat.lt_of_succ_lt (hdeep hck _ hv.1),
      Nat.lt_of_succ_lt (hdeep hck _ hv.2)⟩]
    exact ⟨Or.inr, fun h => h.resolve_left (not_not.2 hr)⟩
  · refine ⟨fun _ => Or.inl hr, fun _ => ?_⟩
    cases h1 : RowRange.fromMinimal (.fromRoot ed.input) range with
    | error x => exact ⟨x, by unfold Editor.spliceAtRange; rw [h1]; rfl⟩
    | ok rr =>
      obtain ⟨h2, h3, h4⟩ := RowRange.fromMinimal_sound h1
      refine absurd ⟨_, h2.rowAt_eq, ?_, ?_⟩ hr
      · rw [← h4]; exact h3.1
      · rw [← h4]; exact h3.2

/-- C27, direct splices, in every calm state: they panic if and only if the range is not one of the
formula, or it is in the outermost row while the caret is in an element. -/
theorem C27_splice {ed : Editor T} (hrun : CalmRun env ed)
    (hdeep : env.cfg.checks = false → ∀ p, ValidPos ed.input p →
      p.rowIndices.length + 1 < 2 ^ env.cfg.bits) (range : MinRange) (values : List Node) :
    (∃ x, ed.step env (.spliceAtRange range values) = .error x) ↔
      ¬ ValidRange ed.input range ∨ range.rowIndices = [] ∧ CaretInElement ed.caret :=
  splice_panics hrun.anchored.wf (hrun.anchored.caret trivial) hdeep range values

theorem CompletedToken.get {ed : Editor T} {rule : AutocompleteRule} {q : RowIndices} {o : Nat}
    {row : Row} {syms : List Str} (h : CompletedToken env ed rule q o row syms) :
    ∃ e res, ed.getAutocomplete env = .ok (e, some res) := by
  obtain ⟨e, res, m, h, -⟩ := h
  exact ⟨e, res, h⟩

theorem anchored_panics_other {V : Prop} {ed : Editor T} {op : Op}
    (hanch : Anchored V env ed) (hv : ValidCaret ed.input ed.caret)
    (hfit : env.cfg.checks = false → rowFits env.cfg.bits ed.input = true)
    (h : ∃ e res, ed.getAutocomplete env = .ok (e, some res)) (hop : ¬ op.Corrects)
    (hsp : ∀ r vs, op ≠ .spliceAtRange r vs) :
    (∃ x, ed.step env op = .error x) ↔ op.Panics env ed := by
  have hwf := hanch.wf
  have hanch' : Anchored V env.plain ed := ⟨hanch.wf, hanch.caret, hanch.undo, hanch.redo⟩
  obtain ⟨e, res, hget⟩ := h
  obtain ⟨y, hy⟩ : ∃ y, ed.startAutocorrect env.plain = .ok (y, none) := by
    obtain ⟨-, y, hy⟩ := getAutocomplete_plain hget
    exact ⟨_, by unfold Editor.startAutocorrect; rw [hy]; rfl⟩
  have hplain := anchored_panics (env := env.plain) hanch' hv hfit hy op hsp
  have never : (∃ ed', ed.step env op = .ok ed') → op.Panics env ed = False →
      ((∃ x, ed.step env op = .error x) ↔ op.Panics env ed) := by
    rintro ⟨ed', h1⟩ h2
    rw [h1, h2]
    exact ⟨(fun ⟨_, h⟩ => by cases h), False.elim⟩
  cases op with
  | moveCaret | selectWithCaret | removeAtCaret | insertAtCaret | startSelection | extendSelection
  | paste => exact absurd trivial hop
  | selectAll | undo | redo | finishSelection | getSyntaxTree => exact hplain
  | spliceAtRange r vs => exact absurd rfl (hsp r vs)
  | openAutocomplete | getAutocomplete =>
    refine never ?_ rfl
    simp only [Editor.step, hget, M.ok_bind]
    exact ⟨_, rfl⟩
  | finishAutocomplete a =>
    refine never ?_ rfl
    cases a with
    | false => exact ⟨_, rfl⟩
    | true =>
      obtain ⟨ed', m, q, o, row, syms, h1, -⟩ := C34_accept hwf hget
      simp only [Editor.step, h1, M.ok_bind]
      exact ⟨_, rfl⟩
  | moveInAutocomplete d =>
    refine never ?_ rfl
    obtain ⟨m, -, h2⟩ := C32_move d hget
    simp only [Editor.step, h2, M.ok_bind]
    exact ⟨_, rfl⟩

/-- C71 and C27: with a completed token left of the caret, the calls that never replace it panic
exactly as without the token. -/
theorem C71_panics_other {ed : Editor T} {rule : AutocompleteRule} {q : RowIndices} {o : Nat}
    {row : Row} {syms : List Str} {op : Op} (hrun : CalmRun env ed)
    (hfit : env.cfg.checks = false → rowFits env.cfg.bits ed.input = true)
    (h : CompletedToken env ed rule q o row syms) (hop : ¬ op.Corrects)
    (hsp : ∀ r vs, op ≠ .spliceAtRange r vs) :
    (∃ x, ed.step env op = .error x) ↔ op.Panics env ed :=
  anchored_panics_other hrun.anchored (hrun.anchored.caret trivial) hfit h.get hop hsp

/-- The editor after typing `a`, `n` times, and `lim`. -/
def atLim (n : Nat) : Editor Unit :=
  ⟨List.replicate n (.symbol ['a']) ++ [.symbol ['l'], .symbol ['i'], .symbol ['m']], none,
    .at ⟨[], n + 3⟩, none, none, ⟨[⟨.at ⟨[], 0⟩, .at ⟨[], n + 3⟩, [.row ⟨.delete, ⟨[], 0⟩, []⟩,
      .row ⟨.insert, ⟨[], 0⟩, List.replicate n (.symbol ['a']) ++
        [.symbol ['l'], .symbol ['i'], .symbol ['m']]⟩]⟩], []⟩⟩

/-- The rule that `lim` completes. -/
def limRule : AutocompleteRule := ⟨['l', 'i', 'm'], [.symbol ['L']]⟩

theorem atLim_run (n : Nat) (h : (Editor.new : Editor Unit).step limEnv (.insertAtCaret
    (List.replicate n ['a'] ++ [['l'], ['i'], ['m']])) = .ok (atLim n)) :
    CalmRun limEnv (atLim n) :=
  CalmRun.new.step h trivial fun h => absurd h (by decide)

theorem atLim_token {n : Nat} {e : Editor Unit} {res : AutocompleteResults}
    (h : (atLim n).getAutocomplete limEnv = .ok (e, some res))
    (h' : res.matches'[res.selectedIndex]? = some ⟨limRule, 3, 3⟩) :
    CompletedToken limEnv (atLim n) limRule [] (n + 3) (atLim n).input [['l'], ['i'], ['m']] := by
  refine ⟨e, res, _, h, h', by decide +kernel, rfl, rfl, rfl, rfl, ⟨?_, List.replicate n
    (.symbol ['a']), ?_⟩, ?_⟩
  · simp [atLim]
  · rw [List.take_of_length_le (by simp [atLim])]; rfl
  · intro s hs
    simp only [List.mem_cons, List.not_mem_nil, or_false] at hs
    rcases hs with rfl | rfl | rfl
    · exact ⟨'l', rfl, by decide⟩
    · exact ⟨'i', rfl, by decide⟩
    · exact ⟨'m', rfl, by decide⟩

/-- The suggestions behind `lim`. -/
def limResults (n : Nat) : AutocompleteResults :=
  ⟨0, [⟨limRule, 3, 3⟩,
    ⟨⟨['l', 'i', 'm', 's', 'u', 'p'], [.symbol ['S']]⟩, 3, 3⟩], ⟨[], n + 3⟩⟩

deriving instance DecidableEq for AutocompleteResults

/-- The hypotheses of `C71_panics` are met after typing `aaaalim`, and clicking at the
start of the formula is a case of `LeavePanics`. -/
example : CalmRun limEnv (atLim 4) ∧
    CompletedToken limEnv (atLim 4) limRule [] 7 (atLim 4).input [['l'], ['i'], ['m']] ∧
    (Op.startSelection ⟨[], 0⟩ .char).GoodPositions (atLim 4).input ∧
    LeavePanics (atLim 4) { atLim 4 with caret := .at ⟨[], 0⟩, selectionMode := some .char } [] 7
      3 := by
  refine ⟨atLim_run 4 (by decide +kernel), atLim_token (n := 4)
    (e := { atLim 4 with currentAutocomplete := some limRule })
    (res := limResults 4) (by decide +kernel) rfl, ⟨_, rfl, Nat.zero_le _⟩,
    Or.inl ⟨rfl, .row ⟨[], 0, 0⟩, by decide +kernel, ?_, Or.inl (by decide)⟩⟩
  simp only [Stays, OutsideToken]
  rw [not_not, MinPos.le_same, MinPos.le_same]
  omega

/-- `C71_move`: after `aaalim` a click replaces the token, after `lim` it does not. -/
example : ((atLim 3).step limEnv (.startSelection ⟨[], 0⟩ .char)).map (fun ed => ed.input) =
    .ok [.symbol ['a'], .symbol ['a'], .symbol ['a'], .symbol ['L']] := by decide +kernel
example : ((atLim 0).step limEnv (.startSelection ⟨[], 0⟩ .char)).map (fun ed => ed.input) =
    .ok [.symbol ['l'], .symbol ['i'], .symbol ['m']] := by decide +kernel

/-- `C71_edit`: Backspace after `aaaalim`, with and without rules. -/
example : outcome ((atLim 4).step limEnv (.removeAtCaret .left)) =
    outcome ((atLim 4).step limEnv.plain (.removeAtCaret .left)) := by decide +kernel

/-- `C27_splice` and `C71_panics_other`, in the state of `C71_panics`. -/
example : (∃ x, (atLim 4).step limEnv (.spliceAtRange ⟨[], 0, 8⟩ []) = .error x) ∧
    ∃ ed, (atLim 4).step limEnv (.spliceAtRange ⟨[], 0, 7⟩ []) = .ok ed :=
  ⟨⟨.assertion, by decide +kernel⟩, ⟨_, rfl⟩⟩
example : ((atLim 4).step limEnv (.finishAutocomplete true)).isOk = true := by decide +kernel

/-- The word `lim` in the numerator of a fraction, with the caret behind it. -/
def limInFraction : Editor Unit :=
  { Editor.new with
    input := [.fraction [.symbol ['l'], .symbol ['i'], .symbol ['m']] []]
    caret := .at ⟨[(0, 0)], 3⟩ }

/-- `C71_dissolve`: Delete panics in the development build. Without rules it dissolves the
fraction. -/
example : (limInFraction.step limEnv (.removeAtCaret .right)).map Editor.view =
    .error .overflow := by decide +kernel
example : (limInFraction.step limEnv.plain (.removeAtCaret .right)).map Editor.view =
    .ok ([.symbol ['l'], .symbol ['i'], .symbol ['m']], .at ⟨[], 3⟩) := by decide +kernel

end Aftermath
