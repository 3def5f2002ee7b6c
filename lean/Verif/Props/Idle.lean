import Verif.Proof.Idle
import Verif.Proof.HandlerLeft

/-! # Property theorems C100: undo always takes something back -/

namespace Aftermath

variable {T : Type} {env : Env T}

/-- **C100**, what holds: after calls that are not idle, an undo or redo that reports success changes
the formula. Missing: calls that put back what they take away. They are recorded, so undo and redo
report success there without changing anything (`C100_cut`, `C100_same`, `C100_echo`). -/
theorem C100_partial (hr : GoodResults env.rules) {ed ed' : Editor T} (h : BusyRun env ed) :
    (ed.undoOp env = .ok (ed', true) → ed'.input ≠ ed.input) ∧
    (ed.redoOp env = .ok (ed', true) → ed'.input ≠ ed.input) := by
  obtain ⟨⟨past, now, future⟩, ha, hd⟩ := h.distinct hr
  constructor
  · intro hs
    obtain ⟨h1, h2⟩ := undoOp_agree' ha hs
    cases past with
    | nil =>
      have := ha.undo.length
      simp only [List.length_nil] at this
      rw [List.length_eq_zero_iff.1 this.symm] at h2
      cases h2
    | cons p ps =>
      have h3 := (List.isChain_append.1 hd).2.1
      have h4 := (List.isChain_cons_cons.1 h3).1
      rw [← h1.now, ← ha.now]
      exact fun he => h4 he.symm
  · intro hs
    obtain ⟨h1, h2⟩ := redoOp_agree' ha hs
    cases future with
    | nil =>
      have := ha.redo.length
      simp only [List.length_nil] at this
      rw [List.length_eq_zero_iff.1 this.symm] at h2
      cases h2
    | cons f fs =>
      have h3 := (List.isChain_append.1 hd).2.2 f (by simp) now (by simp)
      rw [← h1.now, ← ha.now]
      exact h3

/-- **C100**, the calls one by one: a call that is not idle, and is not undo or redo, can be undone
only if it changed the formula or left the history alone. -/
theorem C100_step_partial {ed ed' : Editor T} {op : Op} (hwf : rowWf ed.input = true)
    (hn : op.GoodNodes env.cfg) (hi : ¬ op.Idle env ed) (hu : op ≠ .undo) (hr : op ≠ .redo)
    (h : ed.step env op = .ok ed') (hone : op.maxRecords ≤ 1) :
    ed'.undo = ed.undo ∧ ed'.input = ed.input ∨
    (∃ a, ed'.undo = ed.undo.push a) ∧ ed'.input ≠ ed.input := by
  obtain ⟨n, hn', ht⟩ := step_trace hu hr h
  have hl := ht.undo_length
  cases step_busy hwf hn hi hu hr h with
  | quiet hq => exact .inl ⟨hq.undo, hq.input⟩
  | push hq hp hne hb =>
    right
    cases hb with
    | quiet hq' =>
      refine ⟨⟨_, by rw [hq'.undo, hp.undo, hq.undo]⟩, ?_⟩
      rw [hq'.input, ← hq.input]
      exact hne
    | push hq' hp' _ hb' =>
      exfalso
      have key : ∀ {x y : Editor T}, Busy env x y →
          x.undo.undoStack.length ≤ y.undo.undoStack.length := by
        intro x y hxy
        induction hxy with
        | quiet hq => rw [hq.undo]
        | push hq hp _ _ ih =>
          refine Nat.le_trans ?_ ih
          rw [hp.undo, hq.undo]
          simp [UndoRedo.push]
      have h1 := key hb'
      rw [hp'.undo, hq'.undo, hp.undo, hq.undo] at h1
      simp only [UndoRedo.push, List.length_cons] at h1
      omega

/-- After a recorded call that left the formula as it is, undo reports success and changes nothing,
and nothing can be redone. -/
theorem recorded_nothing {ed ed' : Editor T} {op : Op} {a : CaretEdit} (hr : Reachable env ed)
    (hu : op ≠ .undo) (hr' : op ≠ .redo) (h : ed.step env op = .ok ed')
    (hp : ed'.undo = ed.undo.push a) :
    (∃ e, ed'.undoOp env = .ok (e, true) ∧ e.input = ed.input) ∧
    ed'.redoOp env = .ok (ed', false) := by
  obtain ⟨h0, ha⟩ := hr.agree
  obtain ⟨n, -, ht⟩ := step_trace hu hr' h
  have hl := ht.undo_length
  rw [hp] at hl
  simp only [UndoRedo.push, List.length_cons] at hl
  have hn : n = 1 := by omega
  subst hn
  obtain ⟨rs, hrs, ha'⟩ := ha.trace ht
  obtain ⟨r, rfl⟩ := List.length_eq_one_iff.1 hrs
  obtain ⟨e, h1, h2, -⟩ := undoOp_agree ha'
  rw [hp] at h1
  refine ⟨⟨e, h1, ?_⟩, ?_⟩
  · rw [← h2.now]
    simp only [List.foldl_cons, List.foldl_nil, History.record, History.back]
    exact ha.now
  · simp only [Editor.redoOp, UndoRedo.redo, hp, UndoRedo.push]

/-- **C100** is false: removing the selection while nothing is selected, as a cut does, leaves
formula and caret as they are, but is recorded. The next undo reports success and changes nothing,
and what was undone before can no longer be redone. -/
theorem C100_cut {ed e : Editor T} {ac : Option AutocorrectAction} {q : RowIndices} {o : Nat}
    (hr : Reachable env ed) (hwf : rowWf ed.input = true)
    (hsel : selectionOf ed.input ed.caret = .ok (.row ⟨q, o, o⟩))
    (hs : ed.startAutocorrect env = .ok (e, ac)) :
    ∃ ed', ed.removeAtCaret env .range = .ok (ed', true) ∧ ed'.input = ed.input ∧
      ed'.caret = ed.caret ∧
      ed'.undo.undoStack.length = ed.undo.undoStack.length + 1 ∧
      (∃ e', ed'.undoOp env = .ok (e', true) ∧ e'.input = ed.input) ∧
      ed'.redoOp env = .ok (ed', false) := by
  obtain ⟨ed', a, h1, h2, h3, h4⟩ := remove_nothing hwf hsel hs
  have h5 : ed.step env (.removeAtCaret .range) = .ok ed' := by
    simp only [Editor.step, h1, M.ok_bind]
  exact ⟨ed', h1, h2, h3, by rw [h4]; rfl,
    recorded_nothing (op := .removeAtCaret .range) hr nofun nofun h5 h4⟩

/-- **C100** is false: so does writing exactly the symbols that are selected, and writing no symbols
when nothing is selected. -/
theorem C100_same {ed e : Editor T} {ac : Option AutocorrectAction} {values : List Str}
    (hr : Reachable env ed) (hwf : rowWf ed.input = true)
    (hsel : ed.Selects (values.map Node.symbol))
    (hs : ed.startAutocorrect env = .ok (e, ac)) :
    ∃ ed', ed.insertAtCaret env values = .ok ed' ∧ ed'.input = ed.input ∧
      ed'.undo.undoStack.length = ed.undo.undoStack.length + 1 ∧
      (∃ e', ed'.undoOp env = .ok (e', true) ∧ e'.input = ed.input) ∧
      ed'.redoOp env = .ok (ed', false) := by
  obtain ⟨q, a, b, row, h1, h2, h3⟩ := hsel
  obtain ⟨row', ed', act, g1, g2, g3, -, g5⟩ := C36_type values hwf h1 hs
  simp only at g2 g3
  rw [h2] at g2
  cases g2
  have hrow : row.take (min a b) ++ values.map Node.symbol ++ row.drop (max a b) = row := by
    have h4 : row.take (min a b) = (row.take (max a b)).take (min a b) := by
      rw [List.take_take]; congr 1; omega
    rw [← h3, h4, List.take_append_drop, List.take_append_drop]
  rw [hrow] at g3
  have h5 : ed.step env (.insertAtCaret values) = .ok ed' := g1
  exact ⟨ed', g1, g3.eq_of_same, by rw [g5]; rfl,
    recorded_nothing (op := .insertAtCaret values) hr nofun nofun h5 g5⟩

/-- **C100** is false: putting the caret outside of a completed word whose rule writes the same
word, where autocorrection works at all (C35), is recorded as well: a click takes away what could be
redone. -/
theorem C100_echo {ed : Editor T} {rule : AutocompleteRule} {q : RowIndices} {o : Nat} {row : Row}
    {syms : List Str} {p : MinPos} (mode : MoveMode) (hr : Reachable env ed)
    (hwf : rowWf ed.input = true) (h : CompletedToken env ed rule q o row syms)
    (hecho : rule.result = syms.map Node.symbol)
    (hp : ValidPos ed.input p) (hout : OutsideToken q o syms.length p)
    (hoff : o - syms.length = syms.length) (htr : p.rowIndices = q ∨ ¬ q <+: p.rowIndices) :
    ∃ ed', ed.startSelection env p mode = .ok ed' ∧ ed'.input = ed.input ∧
      ed'.undo.undoStack.length = ed.undo.undoStack.length + 1 ∧
      (∃ e', ed'.undoOp env = .ok (e', true) ∧ e'.input = ed.input) ∧
      ed'.redoOp env = .ok (ed', false) := by
  obtain ⟨ed', a, h1, h2, h3⟩ := C35_fires_partial mode hwf h hp hout hoff htr
  obtain ⟨-, -, -, -, -, -, -, -, -, h7, ⟨h8, before, h9⟩, -⟩ := h
  have hl := congrArg List.length h9
  rw [List.length_take, List.length_append, List.length_map] at hl
  have hrow : row.take (o - syms.length) ++ rule.result ++ row.drop o = row := by
    have h4 : row.take (o - syms.length) = before := by
      have : row.take (o - syms.length) = (row.take o).take (o - syms.length) := by
        rw [List.take_take, Nat.min_eq_left (by omega)]
      rw [this, h9, List.take_left' (by omega)]
    rw [h4, hecho, ← h9, List.take_append_drop]
  rw [hrow] at h2
  have h5 : ed.step env (.startSelection p mode) = .ok ed' := h1
  exact ⟨ed', h1, h2.eq_of_same, by rw [h3]; rfl,
    recorded_nothing (op := .startSelection p mode) hr nofun nofun h5 h3⟩

/-- **C100** is false of the component: the cut event with nothing selected, if it is handled to the
end, leaves the formula, adds an undo step and takes away what could be redone. -/
theorem C100_cut_event {S : Setting} {c c' : Component} {v : View} {q : RowIndices} {o : Nat}
    (hwf : rowWf c.editor.input = true)
    (hsel : selectionOf c.editor.input c.editor.caret = .ok (.row ⟨q, o, o⟩))
    (h : c.step S v .cut = .ok c') :
    c'.editor.input = c.editor.input ∧ c'.editor.undo.redoStack = [] ∧
      c'.editor.undo.undoStack.length = c.editor.undo.undoStack.length + 1 := by
  obtain ⟨c1, h1, h2⟩ := M.bind_eq_ok.1 h
  have hed : c1.editor = c.editor := by
    unfold Component.copyData at h1
    obtain ⟨d, -, h3⟩ := M.bind_eq_ok.1 h1
    cases h3
    rfl
  obtain ⟨ed, h3, h4⟩ := Component.edit_ok h2
  rw [hed] at h3
  cases hs : c.editor.startAutocorrect S.env with
  | error x =>
    simp only [Editor.step, Editor.removeAtCaret, hs, M.error_bind] at h3
    cases h3
  | ok x =>
    obtain ⟨e, ac⟩ := x
    obtain ⟨ed', a, g1, g2, -, g4⟩ := remove_nothing hwf hsel hs
    simp only [Editor.step, g1, M.ok_bind] at h3
    cases h3
    unfold Component.updateInput at h4
    obtain ⟨⟨ed2, t⟩, k1, k2⟩ := M.bind_eq_ok.1 h4
    obtain ⟨el, -, k3⟩ := M.bind_eq_ok.1 k2
    obtain ⟨u, -, k4⟩ := M.bind_eq_ok.1 k3
    cases k4
    have hq : ed2.input = ed.input ∧ ed2.undo = ed.undo := by
      have k5 : ed.step S.env .getSyntaxTree = .ok ed2 := by
        simp only at k1
        simp only [Editor.step, k1, M.ok_bind]
      obtain ⟨n, hn, ht⟩ := step_trace (op := .getSyntaxTree) nofun nofun k5
      have : n = 0 := Nat.le_zero.1 hn
      subst this
      cases ht with
      | quiet hq => exact ⟨hq.input, hq.undo⟩
    refine ⟨hq.1.trans g2, ?_, ?_⟩
    · show ed2.undo.redoStack = []
      rw [hq.2, g4]
      rfl
    · show ed2.undo.undoStack.length = _
      rw [hq.2, g4]
      rfl

/-! ## Examples -/

/-- The shipped rules are fresh except for `lim`, `limsup` and `liminf`. -/
theorem C100_shipped {r : AutocompleteRule} (hr : r ∈ shippedAutocomplete) :
    r.Fresh ∨ r.result = r.parser.map (fun ch => Node.symbol [ch]) := by
  have key : ∀ r ∈ shippedAutocomplete,
      (r.result.all fun n => match n with
        | .symbol s => s.all fun ch => !r.parser.contains ch
        | _ => true) = true ∨ r.result = r.parser.map (fun ch => Node.symbol [ch]) := by
    decide +kernel
  refine (key r hr).imp_left ?_
  intro h s hs hne hin
  have h1 := List.all_eq_true.1 h _ hs
  cases s with
  | nil => exact hne rfl
  | cons ch t =>
    have h2 := List.all_eq_true.1 h1 ch (by simp)
    have h3 : ch ∈ r.parser := hin.subset (by simp)
    simp [h3] at h2

/-- A fresh editor with `ab` written, one undo, and then a cut with nothing selected: the `b` cannot
be brought back. -/
example : (do
    let ed ← Editor.new.run limEnv [.insertAtCaret [['a']], .insertAtCaret [['b']], .undo]
    let (e1, b1) ← ed.redoOp limEnv
    let ed2 ← ed.run limEnv [.removeAtCaret .range]
    let (e2, b2) ← ed2.redoOp limEnv
    .ok (b1, e1.input.length, b2, e2.input.length)) =
    (.ok (true, 2, false, 1) : M (Bool × Nat × Bool × Nat)) := by decide +kernel

/-- `1+2+3+limsupx` with the shipped rules, one undo, and a click at the start of the formula: the formula
is still `1+2+3+limsup`, but the `x` cannot be brought back, and the next undo does nothing. -/
example : (do
    let env : Env Unit := ⟨.dev, fun _ => .ok (), shippedAutocomplete⟩
    let ed ← Editor.new.run env (("1+2+3+limsupx".toList.map fun ch => Op.insertAtCaret [[ch]]) ++ [.undo])
    let (e1, b1) ← ed.redoOp env
    let ed2 ← ed.step env (.startSelection ⟨[], 0⟩ .char)
    let (_, b2) ← ed2.redoOp env
    let (e3, b3) ← ed2.undoOp env
    .ok (b1, e1.input.length, decide (ed2.input = ed.input), b2, b3, decide (e3.input = ed.input))) =
    (.ok (true, 13, true, false, true, true) : M (Bool × Nat × Bool × Bool × Bool × Bool)) := by
  decide +kernel

/-- The `a` is selected and `a` is typed over it. -/
example : (do
    let ed ← Editor.new.run limEnv [.insertAtCaret [['a']], .selectAll]
    let ed2 ← ed.step limEnv (.insertAtCaret [['a']])
    .ok (decide (ed2.input = ed.input), ed2.undo.undoStack.length)) =
    (.ok (true, 2) : M (Bool × Nat)) := by decide +kernel

/-- Editing that is not idle: `ab`, Backspace, undo twice. -/
example : ∃ ed, BusyRun limEnv ed ∧ ed.input = [.symbol ['a']] ∧
    ed.undo.undoStack.length = 1 ∧ ed.undo.redoStack.length = 2 := by
  have idle : ∀ (ed : Editor Unit) (q : RowIndices) (o : Nat) (s : Str),
      selectionOf ed.input ed.caret = .ok (.row ⟨q, o, o⟩) → ¬ ed.Selects [.symbol s] := by
    rintro ed q o s h ⟨q', a, b, row, h1, -, h2⟩
    rw [h] at h1
    have h3 := MinSelection.row.inj (Except.ok.inj h1)
    cases h3
    have := congrArg List.length h2
    rw [Nat.max_self, Nat.min_self, List.length_drop, List.length_take] at this
    simp only [List.length_singleton] at this
    omega
  have echo : ∀ (ed : Editor Unit), ((ed.getAutocomplete limEnv).map (fun x => x.2.isNone)) =
      .ok true → ¬ ed.BehindEcho limEnv := by
    rintro ed h ⟨m, ⟨e, res, h1, -⟩, -⟩
    rw [h1] at h
    cases h
  have hfit : ∀ r : Row, limEnv.cfg.checks = false → rowFits limEnv.cfg.bits r = true := nofun
  have hk : (do
      let e1 ← (Editor.new : Editor Unit).step limEnv (.insertAtCaret [['a']])
      let s1 ← selectionOf e1.input e1.caret
      let e2 ← e1.step limEnv (.insertAtCaret [['b']])
      let x2 ← e2.getAutocomplete limEnv
      let e3 ← e2.step limEnv (.removeAtCaret .left)
      let e4 ← e3.step limEnv .undo
      let e5 ← e4.step limEnv .undo
      .ok (s1, x2.2.isNone, e5.input, e5.undo.undoStack.length, e5.undo.redoStack.length)) =
      (.ok (.row ⟨[], 1, 1⟩, true, [.symbol ['a']], 1, 2) : M _) := by decide +kernel
  obtain ⟨e1, s1, hk⟩ := M.bind_eq_ok.1 hk
  obtain ⟨sel, t1, hk⟩ := M.bind_eq_ok.1 hk
  obtain ⟨e2, s2, hk⟩ := M.bind_eq_ok.1 hk
  obtain ⟨x2, t2, hk⟩ := M.bind_eq_ok.1 hk
  obtain ⟨e3, s3, hk⟩ := M.bind_eq_ok.1 hk
  obtain ⟨e4, s4, hk⟩ := M.bind_eq_ok.1 hk
  obtain ⟨e5, s5, hk⟩ := M.bind_eq_ok.1 hk
  have hk := Except.ok.inj hk
  simp only [Prod.mk.injEq] at hk
  obtain ⟨k1, k2, k3, k4, k5⟩ := hk
  have b1 := BusyRun.new.step s1 (idle _ [] 0 _ rfl) trivial (hfit _)
  have b2 := b1.step s2 (idle _ [] 1 _ (by rw [t1, k1])) trivial (hfit _)
  have b3 := b2.step s3 (by
    rintro (⟨h, -⟩ | h)
    · cases h
    · exact echo _ (by rw [t2]; exact congrArg Except.ok k2) h) trivial (hfit _)
  have b4 := b3.step s4 (fun h => h) trivial (hfit _)
  have b5 := b4.step s5 (fun h => h) trivial (hfit _)
  exact ⟨_, b5, k3, k4, k5⟩

end Aftermath
