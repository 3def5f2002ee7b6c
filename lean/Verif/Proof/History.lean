import Verif.Proof.Remove
import Verif.Spec.History

/-! # What the editor calls do to formula, cache and history -/

namespace Aftermath

variable {T : Type} {env : Env T}

/-- Formula and history stay; the cache stays or is filled with the parse of the formula. -/
structure Quiet (env : Env T) (ed ed' : Editor T) : Prop where
  input : ed'.input = ed.input
  undo : ed'.undo = ed.undo
  parsed : ed'.parsed = ed.parsed ∨ ∃ t, ed'.parsed = some t ∧ env.parse ed.input = .ok t

/-- A truthful non-empty edit was applied and pushed. -/
structure Pushed (env : Env T) (ed ed' : Editor T) (a : CaretEdit) : Prop where
  nonempty : a.edits ≠ []
  truthful : Truthful env.cfg ed.input a.edits
  apply : applyEdits env.cfg ed.input a.edits = .ok ed'.input
  undo : ed'.undo = ed.undo.push a
  parsed : ed'.parsed = none

/-- `n` pushed edits with quiet steps before, between and after. -/
inductive Trace (env : Env T) : Nat → Editor T → Editor T → Prop
  | quiet {ed ed' : Editor T} (h : Quiet env ed ed') : Trace env 0 ed ed'
  | push {n : Nat} {ed e1 e2 ed' : Editor T} {a : CaretEdit} (hq : Quiet env ed e1)
      (hp : Pushed env e1 e2 a) (ht : Trace env n e2 ed') : Trace env (n + 1) ed ed'

theorem Quiet.refl {ed : Editor T} : Quiet env ed ed := ⟨rfl, rfl, Or.inl rfl⟩

theorem Quiet.trans {a b c : Editor T} (h : Quiet env a b) (h' : Quiet env b c) :
    Quiet env a c := by
  refine ⟨h'.input.trans h.input, h'.undo.trans h.undo, ?_⟩
  rcases h'.parsed with h1 | ⟨t, h1, h2⟩
  · rcases h.parsed with h3 | ⟨t, h3, h4⟩
    · exact Or.inl (h1.trans h3)
    · exact Or.inr ⟨t, h1.trans h3, h4⟩
  · exact Or.inr ⟨t, h1, by rw [← h.input]; exact h2⟩

theorem Trace.quiet_left {n : Nat} {a b c : Editor T} (h : Quiet env a b) (h' : Trace env n b c) :
    Trace env n a c := by
  cases h' with
  | quiet h' => exact .quiet (h.trans h')
  | push hq hp ht => exact .push (h.trans hq) hp ht

theorem Trace.append {n m : Nat} {a b c : Editor T} (h : Trace env n a b) (h' : Trace env m b c) :
    Trace env (n + m) a c := by
  induction h with
  | quiet h => simpa using h'.quiet_left h
  | push hq hp ht ih =>
    rw [Nat.add_right_comm]
    exact .push hq hp (ih h')

theorem Trace.quiet_right {n : Nat} {a b c : Editor T} (h : Trace env n a b)
    (h' : Quiet env b c) : Trace env n a c := h.append (.quiet h')

/-! ## The building blocks -/

theorem truthful_nil {cfg : Cfg} {root : Row} : Truthful cfg root [] := trivial

theorem finish_trace {ed ed' : Editor T} {edits : List BasicEdit} {c : MinCaret} {a : CaretEdit}
    (ht : Truthful env.cfg ed.input edits) (h : ed.finish env edits c = .ok (ed', a)) :
    Trace env (if edits.isEmpty then 0 else 1) ed ed' := by
  unfold Editor.finish at h
  by_cases he : edits.isEmpty = true
  · simp only [he, if_true] at h
    cases h
    simp only [he, if_true]
    exact .quiet ⟨rfl, rfl, Or.inl rfl⟩
  · simp only [he] at h
    obtain ⟨input, hi, h1⟩ := M.bind_eq_ok.1 h
    cases h1
    simp only [he]
    refine .push .refl (a := ⟨ed.caret, c, edits⟩) ⟨?_, ht, hi, rfl, rfl⟩ (.quiet .refl)
    simpa using he

theorem getAutocomplete_quiet {ed ed' : Editor T} {r : Option AutocompleteResults}
    (h : ed.getAutocomplete env = .ok (ed', r)) : Quiet env ed ed' ∧ ed'.caret = ed.caret := by
  unfold Editor.getAutocomplete at h
  obtain ⟨c, hc, h1⟩ := M.bind_eq_ok.1 h
  split at h1
  · cases h1; exact ⟨.refl, rfl⟩
  · split at h1
    · obtain ⟨ms, hms, h2⟩ := M.bind_eq_ok.1 h1
      obtain ⟨x, hx, h3⟩ := M.bind_eq_ok.1 h2
      cases h3
      exact ⟨⟨rfl, rfl, Or.inl rfl⟩, rfl⟩
    · cases h1; exact ⟨.refl, rfl⟩

theorem startAutocorrect_quiet {ed ed' : Editor T} {r : Option AutocorrectAction}
    (h : ed.startAutocorrect env = .ok (ed', r)) : Quiet env ed ed' ∧ ed'.caret = ed.caret := by
  unfold Editor.startAutocorrect at h
  obtain ⟨⟨e, res⟩, he, h1⟩ := M.bind_eq_ok.1 h
  have := getAutocomplete_quiet he
  cases res with
  | none => cases h1; exact this
  | some a =>
    obtain ⟨x, hx, h2⟩ := M.bind_eq_ok.1 h1
    cases h2; exact this

theorem RowRange.fromMinimal_sound {root : Row} {m : MinRange} {r : RowRange}
    (h : RowRange.fromMinimal (.fromRoot root) m = .ok r) :
    IsFocus root m.rowIndices r.focus ∧
      (r.start ≤ r.focus.row.length ∧ r.stop ≤ r.focus.row.length) ∧ r.toMinimal = m := by
  unfold RowRange.fromMinimal at h
  obtain ⟨f, hf, h1⟩ := M.bind_eq_ok.1 h
  obtain ⟨h2, rfl⟩ := RowRange.new_eq_ok.1 h1
  have := IsFocus.walkDown_iff.1 hf
  exact ⟨this, h2, by simp [RowRange.toMinimal, this.rowIndices_eq]⟩

/-- Without any assumption on the tree, the row range of a caret lies in the tree. -/
theorem selection_row_in' {root : Row} {a b : Position} {r : RowRange}
    (h : Selection.fromPositions root a b = .ok (.row r)) : r.In root := by
  unfold Selection.fromPositions at h
  obtain ⟨s, hs, h1⟩ := M.bind_eq_ok.1 h
  have hin : s.In root := by
    unfold rangeFromPositions at hs
    obtain ⟨f, hf, h2⟩ := M.bind_eq_ok.1 hs
    obtain ⟨h3, rfl⟩ := RowRange.new_eq_ok.1 h2
    exact ⟨⟨_, IsFocus.walkDown_iff.1 hf⟩, h3⟩
  by_cases h2 : s.len ≠ 1
  · rw [if_pos h2] at h1; cases h1; exact hin
  · rw [if_neg h2] at h1
    simp only at h1
    by_cases h3 : Option.map Node.hasResizableGrid (s.focus.nodeAt s.leftOffset) ≠ some true
    · rw [if_pos h3] at h1; cases h1; exact hin
    · rw [if_neg h3] at h1
      split at h1
      · obtain ⟨_, _, h1⟩ := M.bind_eq_ok.1 h1
        obtain ⟨_, _, h1⟩ := M.bind_eq_ok.1 h1
        obtain ⟨_, _, h1⟩ := M.bind_eq_ok.1 h1
        obtain ⟨_, _, h1⟩ := M.bind_eq_ok.1 h1
        obtain ⟨_, _, h1⟩ := M.bind_eq_ok.1 h1
        obtain ⟨_, _, h1⟩ := M.bind_eq_ok.1 h1
        cases h1
      · cases h1; exact hin

theorem caret_row_in {root : Row} {m : MinCaret} {c : Caret} {r : RowRange}
    (hc : Caret.fromMinimal root m = .ok c) (hr : c.selection = .row r) : r.In root := by
  obtain ⟨hin, -⟩ := Caret.fromMinimal_sound hc
  exact selection_row_in' (hin.2.2.trans (by rw [hr]))

theorem splice_trace {ed ed' : Editor T} {range : MinRange} {values : List Node}
    (h : ed.spliceAtRange env range values = .ok ed') : Trace env 1 ed ed' := by
  unfold Editor.spliceAtRange at h
  obtain ⟨r, hr, h1⟩ := M.bind_eq_ok.1 h
  obtain ⟨hf, hb, -⟩ := RowRange.fromMinimal_sound hr
  rw [replaceRange_eq hf hb values] at h1
  simp only [M.ok_bind] at h1
  obtain ⟨a, ha, h2⟩ := M.bind_eq_ok.1 h1
  obtain ⟨b, hb', h3⟩ := M.bind_eq_ok.1 h2
  obtain ⟨⟨e, act⟩, he, h4⟩ := M.bind_eq_ok.1 h3
  cases h4
  have := finish_trace (env := env) (replace_truthful hf.rowAt_eq r.left_le_right
    (RowRange.right_le hb)) he
  exact this.quiet_right ⟨rfl, rfl, Or.inl rfl⟩

theorem applyAutocorrect_trace {ed ed' : Editor T} {ac : Option AutocorrectAction}
    (h : ed.applyAutocorrect env ac = .ok ed') : ∃ n ≤ 1, Trace env n ed ed' := by
  cases ac with
  | none =>
    simp only [Editor.applyAutocorrect] at h
    cases h; exact ⟨0, Nat.zero_le _, .quiet .refl⟩
  | some ac =>
    simp only [Editor.applyAutocorrect] at h
    obtain ⟨c, hc, h1⟩ := M.bind_eq_ok.1 h
    split at h1
    · cases h1; exact ⟨0, Nat.zero_le _, .quiet .refl⟩
    · obtain ⟨range, hrange, h2⟩ := M.bind_eq_ok.1 h1
      split at h2
      · cases h2; exact ⟨0, Nat.zero_le _, .quiet .refl⟩
      · obtain ⟨vs, hvs, h3⟩ := M.bind_eq_ok.1 h2
        obtain ⟨ms, hms, h4⟩ := M.bind_eq_ok.1 h3
        split at h4
        · exact ⟨1, Nat.le_refl _, splice_trace h4⟩
        · cases h4; exact ⟨0, Nat.zero_le _, .quiet .refl⟩

theorem finishAndAutocorrect_trace {ed ed' : Editor T} {ac : Option AutocorrectAction}
    {edits : List BasicEdit} {c : MinCaret} (ht : Truthful env.cfg ed.input edits)
    (h : ed.finishAndAutocorrect env ac edits c = .ok ed') :
    ∃ n ≤ (if edits.isEmpty then 0 else 1) + 1, Trace env n ed ed' := by
  unfold Editor.finishAndAutocorrect at h
  obtain ⟨⟨e, act⟩, he, h1⟩ := M.bind_eq_ok.1 h
  obtain ⟨ac', hac, h2⟩ := M.bind_eq_ok.1 h1
  obtain ⟨n, hn, h3⟩ := applyAutocorrect_trace h2
  exact ⟨_, Nat.add_le_add_left hn _, (finish_trace ht he).append h3⟩

/-! ## Removal records what it deletes -/

theorem flattenNode_truthful {root : Row} {cfg : Cfg} {q : RowIndices} {g : FocusRow} {i k : Nat}
    {v : Variant} {cells : List Row} {w : Nat} (hg : IsFocus root q g)
    (hi : g.row[i]? = some (.container v cells w)) {x : List BasicEdit × MinPos}
    (h : flattenNode ⟨.container v cells w, g, i⟩ k = .ok x) : Truthful cfg root x.1 := by
  rw [flattenNode_eq hg hi k] at h
  cases h
  exact replace_truthful hg.rowAt_eq (Nat.le_succ i) (List.getElem?_eq_some_iff.1 hi).1

theorem removeMove_truthful {root : Row} {cfg : Cfg} {p : Position} {dir : HDir}
    {x : List BasicEdit × MinPos} (h : removeMove cfg p dir = .ok (some x)) :
    Truthful cfg root x.1 := by
  rw [removeMove_eq] at h
  obtain ⟨o, ho, h1⟩ := M.bind_eq_ok.1 h
  cases o with
  | none => cases h1
  | some y => cases h1; exact trivial

theorem removeInGrid_truthful {root : Row} {cfg : Cfg} {q : RowIndices} {g : FocusRow} {i j : Nat}
    {v : Variant} {cells : List Row} {w : Nat} (hg : IsFocus root q g)
    (hi : g.row[i]? = some (.container v cells w)) {p : Position} {dir : HDir}
    {x : List BasicEdit × MinPos}
    (h : removeInGrid cfg p dir ⟨.container v cells w, g, i⟩ j = .ok (some x)) :
    Truthful cfg root x.1 := by
  simp only [removeInGrid, Node.grid] at h
  have key : ∀ e : Bool, (if (e && cells.all List.isEmpty) = true then do
      let r ← flattenNode ⟨.container v cells w, g, i⟩ 0
      .ok (some r)
    else removeMove cfg p dir) = .ok (some x) → Truthful cfg root x.1 := by
    intro e h1
    split at h1
    · obtain ⟨y, hy, h2⟩ := M.bind_eq_ok.1 h1
      cases h2
      exact flattenNode_truthful hg hi hy
    · exact removeMove_truthful h1
  cases dir with
  | left => exact key _ h
  | right =>
    obtain ⟨_, _, h⟩ := M.bind_eq_ok.1 h
    obtain ⟨_, _, h⟩ := M.bind_eq_ok.1 h
    exact key _ h

theorem removeAtEdge_truthful {root : Row} {cfg : Cfg} {q : RowIndices} {p : Position} {dir : HDir}
    (hf : IsFocus root q p.focus) {x : List BasicEdit × MinPos}
    (h : removeAtEdge cfg p dir = .ok (some x)) : Truthful cfg root x.1 := by
  unfold removeAtEdge at h
  obtain ⟨idx, hidx, h1⟩ := M.bind_eq_ok.1 h
  cases q using List.reverseRecOn with
  | nil => rw [hf.parent_nil] at h1; cases h1
  | append_singleton q ix =>
    obtain ⟨i, j⟩ := ix
    obtain ⟨g, v, cells, w, hg, hi, -, -, hp⟩ := hf.parent_snoc
    rw [hp] at h1
    obtain ⟨idx', hidx', h2⟩ := M.bind_eq_ok.1 h1
    have fl : ∀ k : Nat, ∀ z : M (Option (List BasicEdit × MinPos)),
        z = (do let r ← flattenNode ⟨.container v cells w, g, i⟩ k; .ok (some r)) →
        z = .ok (some x) → Truthful cfg root x.1 := by
      rintro k z rfl hz
      obtain ⟨y, hy, hz⟩ := M.bind_eq_ok.1 hz
      cases hz
      exact flattenNode_truthful hg hi hy
    cases v with
    | fraction =>
      simp only at h2
      split at h2
      · obtain ⟨c, -, h3⟩ := M.bind_eq_ok.1 h2
        obtain ⟨c, -, h4⟩ := M.bind_eq_ok.1 h3
        exact fl _ _ rfl h4
      · exact removeInGrid_truthful hg hi h2
    | root =>
      simp only at h2
      split at h2
      · obtain ⟨c, -, h3⟩ := M.bind_eq_ok.1 h2
        obtain ⟨c, -, h4⟩ := M.bind_eq_ok.1 h3
        exact fl _ _ rfl h4
      · exact removeInGrid_truthful hg hi h2
    | sub =>
      cases dir
      · exact fl 0 _ rfl h2
      · exact removeInGrid_truthful hg hi h2
    | sup =>
      cases dir
      · exact fl 0 _ rfl h2
      · exact removeInGrid_truthful hg hi h2
    | table => cases dir <;> exact removeInGrid_truthful hg hi h2

theorem removeRange_truthful {root : Row} {cfg : Cfg} {r : RowRange} (hr : r.In root)
    {x : List BasicEdit × MinPos} (h : removeRange r = .ok x) : Truthful cfg root x.1 := by
  obtain ⟨⟨q, hf⟩, hb⟩ := hr
  rw [removeRange_eq hf hb] at h
  cases h
  exact ⟨delete_truthful hf.rowAt_eq r.left_le_right (RowRange.right_le hb), fun _ _ => trivial⟩

theorem removeAtCaretPosition_truthful {root : Row} {cfg : Cfg} {p : Position} {dir : HDir}
    (hp : p.In root) {x : List BasicEdit × MinPos}
    (h : removeAtCaretPosition cfg p dir = .ok (some x)) : Truthful cfg root x.1 := by
  obtain ⟨⟨q, hf⟩, hb⟩ := hp
  unfold removeAtCaretPosition at h
  simp only at h
  split at h
  · rename_i index s hadj
    obtain ⟨r, hr, h1⟩ := M.bind_eq_ok.1 h
    obtain ⟨y, hy, h2⟩ := M.bind_eq_ok.1 h1
    cases h2
    obtain ⟨h3, rfl⟩ := RowRange.new_eq_ok.1 hr
    exact removeRange_truthful ⟨⟨q, hf⟩, h3⟩ hy
  · rename_i index v cells w hadj
    split at h
    · obtain ⟨n, hn, h1⟩ := M.bind_eq_ok.1 h
      obtain ⟨y, hy, h2⟩ := M.bind_eq_ok.1 h1
      cases h2
      obtain ⟨i, hi, h3⟩ := Option.bind_eq_some_iff.1 hadj
      obtain ⟨node, hnode, h4⟩ := Option.map_eq_some_iff.1 h3
      cases h4
      rw [munwrap_eq_ok] at hn
      have hnode' : p.focus.row[index]? = some (.container v cells w) := hnode
      simp only [FocusRow.childAt, hnode', Option.some.injEq] at hn
      subst hn
      exact flattenNode_truthful hf hnode' hy
    · exact removeMove_truthful h
  · exact removeAtEdge_truthful hf h

theorem removeAtCaret_truthful {root : Row} {cfg : Cfg} {r : RowRange} {mode : RemoveMode}
    (hr : r.In root) {x : List BasicEdit × MinPos}
    (h : removeAtCaret cfg r mode = .ok (some x)) : Truthful cfg root x.1 := by
  unfold removeAtCaret at h
  split at h
  · obtain ⟨y, hy, h1⟩ := M.bind_eq_ok.1 h
    cases h1
    exact removeRange_truthful hr hy
  · cases mode with
    | left => exact removeAtCaretPosition_truthful ⟨hr.1, hr.2.1⟩ h
    | right => exact removeAtCaretPosition_truthful ⟨hr.1, hr.2.1⟩ h
    | range =>
      obtain ⟨y, hy, h1⟩ := M.bind_eq_ok.1 h
      cases h1
      exact removeRange_truthful hr hy

/-! ## The calls -/

theorem insertNodes_trace {ed ed' : Editor T} {ac : Option AutocorrectAction} {vs : List Node}
    (h : ed.insertNodes env ac vs = .ok ed') : ∃ n ≤ 2, Trace env n ed ed' := by
  unfold Editor.insertNodes at h
  obtain ⟨c, hc, h1⟩ := M.bind_eq_ok.1 h
  split at h1
  · rename_i r hr
    obtain ⟨⟨q, hf⟩, hb⟩ := caret_row_in hc hr
    rw [insertAtRange_eq hf hb vs] at h1
    exact finishAndAutocorrect_trace (replace_truthful hf.rowAt_eq r.left_le_right
      (RowRange.right_le hb)) h1
  · cases h1

/-- Every call except undo and redo pushes at most `maxRecords` edits. -/
theorem step_trace {ed ed' : Editor T} {op : Op} (hu : op ≠ .undo) (hr : op ≠ .redo)
    (h : ed.step env op = .ok ed') : ∃ n ≤ op.maxRecords, Trace env n ed ed' := by
  cases op with
  | undo => exact absurd rfl hu
  | redo => exact absurd rfl hr
  | moveCaret d m =>
    simp only [Editor.step, Editor.moveCaret] at h
    obtain ⟨⟨e, ac⟩, he, h1⟩ := M.bind_eq_ok.1 h
    obtain ⟨c, hc, h2⟩ := M.bind_eq_ok.1 h1
    obtain ⟨c', hc', h3⟩ := M.bind_eq_ok.1 h2
    obtain ⟨n, hn, ht⟩ := finishAndAutocorrect_trace truthful_nil h3
    exact ⟨n, hn, ht.quiet_left (startAutocorrect_quiet he).1⟩
  | selectWithCaret d m =>
    simp only [Editor.step, Editor.selectWithCaret] at h
    obtain ⟨⟨e', b⟩, h0, he'⟩ := M.bind_eq_ok.1 h
    cases he'
    obtain ⟨⟨e, ac⟩, he, h1⟩ := M.bind_eq_ok.1 h0
    obtain ⟨c, hc, h2⟩ := M.bind_eq_ok.1 h1
    split at h2
    · obtain ⟨o, ho, h3⟩ := M.bind_eq_ok.1 h2
      cases o with
      | none => cases h3; exact ⟨0, Nat.zero_le _, .quiet (startAutocorrect_quiet he).1⟩
      | some p =>
        obtain ⟨e2, he2, h4⟩ := M.bind_eq_ok.1 h3
        cases h4
        obtain ⟨n, hn, ht⟩ := finishAndAutocorrect_trace truthful_nil he2
        exact ⟨n, hn, ht.quiet_left (startAutocorrect_quiet he).1⟩
    · cases h2
  | removeAtCaret mode =>
    simp only [Editor.step, Editor.removeAtCaret] at h
    obtain ⟨⟨e', b⟩, h0, he'⟩ := M.bind_eq_ok.1 h
    cases he'
    obtain ⟨⟨e, ac⟩, he, h1⟩ := M.bind_eq_ok.1 h0
    obtain ⟨c, hc, h2⟩ := M.bind_eq_ok.1 h1
    split at h2
    · rename_i r hr
      obtain ⟨o, ho, h3⟩ := M.bind_eq_ok.1 h2
      cases o with
      | none => cases h3; exact ⟨0, Nat.zero_le _, .quiet (startAutocorrect_quiet he).1⟩
      | some x =>
        obtain ⟨e2, he2, h4⟩ := M.bind_eq_ok.1 h3
        cases h4
        obtain ⟨n, hn, ht⟩ := finishAndAutocorrect_trace
          (removeAtCaret_truthful (caret_row_in hc hr) ho) he2
        refine ⟨n, Nat.le_trans hn ?_, ht.quiet_left (startAutocorrect_quiet he).1⟩
        split <;> simp [Op.maxRecords]
    · cases h2
  | insertAtCaret vs =>
    simp only [Editor.step, Editor.insertAtCaret] at h
    obtain ⟨⟨e, ac⟩, he, h1⟩ := M.bind_eq_ok.1 h
    obtain ⟨n, hn, ht⟩ := insertNodes_trace h1
    exact ⟨n, hn, ht.quiet_left (startAutocorrect_quiet he).1⟩
  | selectAll =>
    simp only [Editor.step] at h
    cases h
    exact ⟨0, Nat.zero_le _, .quiet ⟨rfl, rfl, Or.inl rfl⟩⟩
  | startSelection p m =>
    simp only [Editor.step, Editor.startSelection] at h
    obtain ⟨⟨e, ac⟩, he, h1⟩ := M.bind_eq_ok.1 h
    obtain ⟨n, hn, ht⟩ := finishAndAutocorrect_trace truthful_nil h1
    refine ⟨n, hn, (ht.quiet_left (startAutocorrect_quiet he).1).quiet_left ?_⟩
    exact ⟨rfl, rfl, Or.inl rfl⟩
  | extendSelection p =>
    simp only [Editor.step, Editor.extendSelection] at h
    obtain ⟨⟨e, ac⟩, he, h1⟩ := M.bind_eq_ok.1 h
    obtain ⟨n, hn, ht⟩ := finishAndAutocorrect_trace truthful_nil h1
    exact ⟨n, hn, ht.quiet_left (startAutocorrect_quiet he).1⟩
  | finishSelection =>
    simp only [Editor.step] at h
    cases h
    exact ⟨0, Nat.zero_le _, .quiet ⟨rfl, rfl, Or.inl rfl⟩⟩
  | paste d k =>
    simp only [Editor.step, Editor.paste] at h
    obtain ⟨⟨e', b⟩, h0, he'⟩ := M.bind_eq_ok.1 h
    cases he'
    obtain ⟨⟨e, ac⟩, he, h1⟩ := M.bind_eq_ok.1 h0
    split at h1
    · split at h1
      · cases h1; exact ⟨0, Nat.zero_le _, .quiet (startAutocorrect_quiet he).1⟩
      · obtain ⟨e2, he2, h2⟩ := M.bind_eq_ok.1 h1
        cases h2
        obtain ⟨n, hn, ht⟩ := insertNodes_trace he2
        exact ⟨n, hn, ht.quiet_left (startAutocorrect_quiet he).1⟩
    · cases h1
  | openAutocomplete =>
    simp only [Editor.step] at h
    obtain ⟨⟨e, r⟩, he, h1⟩ := M.bind_eq_ok.1 h
    cases h1
    exact ⟨0, Nat.zero_le _, .quiet (getAutocomplete_quiet he).1⟩
  | getAutocomplete =>
    simp only [Editor.step] at h
    obtain ⟨⟨e, r⟩, he, h1⟩ := M.bind_eq_ok.1 h
    cases h1
    exact ⟨0, Nat.zero_le _, .quiet (getAutocomplete_quiet he).1⟩
  | finishAutocomplete accept =>
    simp only [Editor.step, Editor.finishAutocomplete] at h
    obtain ⟨⟨e', b⟩, h0, he'⟩ := M.bind_eq_ok.1 h
    cases he'
    cases accept with
    | false => cases h0; exact ⟨0, Nat.zero_le _, .quiet .refl⟩
    | true =>
      simp only [Bool.not_true, Bool.false_eq_true, if_false] at h0
      obtain ⟨⟨e, r⟩, he, h1⟩ := M.bind_eq_ok.1 h0
      cases r with
      | none => cases h1; exact ⟨0, Nat.zero_le _, .quiet (getAutocomplete_quiet he).1⟩
      | some a =>
        obtain ⟨s, hs, h2⟩ := M.bind_eq_ok.1 h1
        obtain ⟨e2, he2, h3⟩ := M.bind_eq_ok.1 h2
        cases h3
        exact ⟨1, Nat.le_refl _, (splice_trace he2).quiet_left (getAutocomplete_quiet he).1⟩
  | moveInAutocomplete d =>
    simp only [Editor.step, Editor.moveInAutocomplete] at h
    obtain ⟨⟨e', b⟩, h0, he'⟩ := M.bind_eq_ok.1 h
    cases he'
    obtain ⟨⟨e, r⟩, he, h1⟩ := M.bind_eq_ok.1 h0
    cases r with
    | none => cases h1; exact ⟨0, Nat.zero_le _, .quiet (getAutocomplete_quiet he).1⟩
    | some a =>
      obtain ⟨a', ha', h2⟩ := M.bind_eq_ok.1 h1
      obtain ⟨s, hs, h3⟩ := M.bind_eq_ok.1 h2
      cases h3
      exact ⟨0, Nat.zero_le _, .quiet ((getAutocomplete_quiet he).1.trans ⟨rfl, rfl, Or.inl rfl⟩)⟩
  | getSyntaxTree =>
    simp only [Editor.step, Editor.getSyntaxTree] at h
    obtain ⟨⟨e, t⟩, he, h1⟩ := M.bind_eq_ok.1 h
    cases h1
    refine ⟨0, Nat.zero_le _, .quiet ?_⟩
    split at he
    · cases he; exact .refl
    · obtain ⟨t', ht', h2⟩ := M.bind_eq_ok.1 he
      cases h2
      exact ⟨rfl, rfl, Or.inr ⟨_, rfl, ht'⟩⟩
  | spliceAtRange r vs =>
    simp only [Editor.step] at h
    exact ⟨1, Nat.le_refl _, splice_trace h⟩

/-! ## The invariant of the history -/

/-- The undo stack leads from the formula back through `past` to the empty formula. -/
def UndoChain (cfg : Cfg) : Row → List CaretEdit → List Row → Prop
  | r, [], [] => r = []
  | r, a :: as, p :: ps => Truthful cfg p a.edits ∧ applyEdits cfg p a.edits = .ok r ∧
      UndoChain cfg p as ps
  | _, _, _ => False

/-- The redo stack leads from the formula through `future`. -/
def RedoChain (cfg : Cfg) : Row → List CaretEdit → List Row → Prop
  | _, [], [] => True
  | r, a :: as, f :: fs => Truthful cfg r a.edits ∧ applyEdits cfg r a.edits = .ok f ∧
      RedoChain cfg f as fs
  | _, _, _ => False

/-- The editor and the ideal history agree. -/
structure Agree (env : Env T) (ed : Editor T) (h : History) : Prop where
  now : h.now = ed.input
  undo : UndoChain env.cfg ed.input ed.undo.undoStack h.past
  redo : RedoChain env.cfg ed.input ed.undo.redoStack h.future

theorem UndoChain.length {cfg : Cfg} {r : Row} {as : List CaretEdit} {ps : List Row}
    (h : UndoChain cfg r as ps) : ps.length = as.length := by
  induction as generalizing r ps with
  | nil => cases ps with
    | nil => rfl
    | cons => exact h.elim
  | cons a as ih => cases ps with
    | nil => exact h.elim
    | cons p ps => simp [ih h.2.2]

theorem RedoChain.length {cfg : Cfg} {r : Row} {as : List CaretEdit} {ps : List Row}
    (h : RedoChain cfg r as ps) : ps.length = as.length := by
  induction as generalizing r ps with
  | nil => cases ps with
    | nil => rfl
    | cons => exact h.elim
  | cons a as ih => cases ps with
    | nil => exact h.elim
    | cons p ps => simp [ih h.2.2]

theorem Agree.quiet {ed ed' : Editor T} {h : History} (ha : Agree env ed h)
    (hq : Quiet env ed ed') : Agree env ed' h := by
  refine ⟨ha.now.trans hq.input.symm, ?_, ?_⟩
  · rw [hq.input, hq.undo]; exact ha.undo
  · rw [hq.input, hq.undo]; exact ha.redo

theorem Agree.push {ed ed' : Editor T} {h : History} {a : CaretEdit} (ha : Agree env ed h)
    (hp : Pushed env ed ed' a) : Agree env ed' (h.record ed'.input) := by
  refine ⟨rfl, ?_, ?_⟩
  · rw [hp.undo]
    simp only [UndoRedo.push, History.record, ha.now]
    exact ⟨hp.truthful, hp.apply, ha.undo⟩
  · rw [hp.undo]; exact trivial

theorem Agree.trace {n : Nat} {ed ed' : Editor T} {h : History} (ha : Agree env ed h)
    (ht : Trace env n ed ed') :
    ∃ rs : List Row, rs.length = n ∧ Agree env ed' (rs.foldl History.record h) := by
  induction ht generalizing h with
  | quiet hq => exact ⟨[], rfl, ha.quiet hq⟩
  | push hq hp ht ih =>
    obtain ⟨rs, hrs, h1⟩ := ih ((ha.quiet hq).push hp)
    exact ⟨_ :: rs, by simp [hrs], h1⟩

theorem undoOp_agree {ed : Editor T} {h : History} (ha : Agree env ed h) :
    ∃ ed', ed.undoOp env = .ok (ed', !ed.undo.undoStack.isEmpty) ∧ Agree env ed' h.back ∧
      (match ed.undo.undoStack with
       | [] => ed' = ed
       | a :: as => ed'.undo = ⟨as, a :: ed.undo.redoStack⟩ ∧ ed'.caret = a.caretBefore) := by
  unfold Editor.undoOp UndoRedo.undo
  have hu := ha.undo
  cases hs : ed.undo.undoStack with
  | nil =>
    rw [hs] at hu
    have hp : h.past = [] := List.length_eq_zero_iff.1 hu.length
    refine ⟨ed, rfl, ?_, rfl⟩
    simp only [History.back, hp]
    exact ha
  | cons a as =>
    rw [hs] at hu
    obtain ⟨past, now, future⟩ := h
    cases past with
    | nil => exact hu.elim
    | cons p ps =>
      obtain ⟨h1, h2, h3⟩ := hu
      have h4 := applyEdits_inverse h1 h2
      simp only [Editor.applyAction, CaretEdit.inverse, h4, M.ok_bind]
      refine ⟨_, rfl, ⟨rfl, h3, ?_⟩, rfl, rfl⟩
      refine ⟨h1, ?_, ?_⟩
      · rw [h2, ← ha.now]
      · have := ha.redo
        rw [← ha.now] at this
        exact this

theorem redoOp_agree {ed : Editor T} {h : History} (ha : Agree env ed h) :
    ∃ ed', ed.redoOp env = .ok (ed', !ed.undo.redoStack.isEmpty) ∧ Agree env ed' h.forward ∧
      (match ed.undo.redoStack with
       | [] => ed' = ed
       | a :: as => ed'.undo = ⟨a :: ed.undo.undoStack, as⟩ ∧ ed'.caret = a.caretAfter) := by
  unfold Editor.redoOp UndoRedo.redo
  have hu := ha.redo
  cases hs : ed.undo.redoStack with
  | nil =>
    rw [hs] at hu
    have hp : h.future = [] := List.length_eq_zero_iff.1 hu.length
    refine ⟨ed, rfl, ?_, rfl⟩
    simp only [History.forward, hp]
    exact ha
  | cons a as =>
    rw [hs] at hu
    obtain ⟨past, now, future⟩ := h
    cases future with
    | nil => exact hu.elim
    | cons f fs =>
      obtain ⟨h1, h2, h3⟩ := hu
      simp only [Editor.applyAction, h2, M.ok_bind]
      refine ⟨_, rfl, ⟨rfl, ?_, h3⟩, rfl, rfl⟩
      have := ha.undo
      have hn := ha.now
      simp only at hn this
      refine ⟨?_, ?_, ?_⟩
      · rw [hn]; exact h1
      · rw [hn]; exact h2
      · rw [hn]; exact this

theorem undoOp_agree' {ed ed' : Editor T} {b : Bool} {h : History} (ha : Agree env ed h)
    (hs : ed.undoOp env = .ok (ed', b)) : Agree env ed' h.back ∧ b = !ed.undo.undoStack.isEmpty := by
  obtain ⟨e, h1, h2, -⟩ := undoOp_agree ha
  rw [hs] at h1
  cases h1
  exact ⟨h2, rfl⟩

theorem redoOp_agree' {ed ed' : Editor T} {b : Bool} {h : History} (ha : Agree env ed h)
    (hs : ed.redoOp env = .ok (ed', b)) : Agree env ed' h.forward ∧ b = !ed.undo.redoStack.isEmpty := by
  obtain ⟨e, h1, h2, -⟩ := redoOp_agree ha
  rw [hs] at h1
  cases h1
  exact ⟨h2, rfl⟩

theorem step_agree {ed ed' : Editor T} {op : Op} {h : History} (ha : Agree env ed h)
    (hs : ed.step env op = .ok ed') : ∃ h', h.Step op h' ∧ Agree env ed' h' := by
  by_cases hu : op = .undo
  · subst hu
    obtain ⟨⟨e, b⟩, h1, h2⟩ := M.bind_eq_ok.1 hs
    cases h2
    exact ⟨_, .undo h, (undoOp_agree' ha h1).1⟩
  by_cases hr : op = .redo
  · subst hr
    obtain ⟨⟨e, b⟩, h1, h2⟩ := M.bind_eq_ok.1 hs
    cases h2
    exact ⟨_, .redo h, (redoOp_agree' ha h1).1⟩
  obtain ⟨n, hn, ht⟩ := step_trace hu hr hs
  obtain ⟨rs, hrs, h1⟩ := ha.trace ht
  exact ⟨_, .call h hu hr rs (by omega), h1⟩

theorem agree_start : Agree env (Editor.new : Editor T) History.start := ⟨rfl, rfl, trivial⟩

theorem run_agree {ed : Editor T} {ops : List Op} {fs : List Row} {h : History}
    (ha : Agree env ed h) (hs : ed.formulas env ops = .ok fs) :
    ∃ h', History.Run h (ops.zip fs) h' := by
  induction ops generalizing ed fs h with
  | nil => cases hs; exact ⟨h, .nil h⟩
  | cons op ops ih =>
    simp only [Editor.formulas] at hs
    obtain ⟨e, he, h1⟩ := M.bind_eq_ok.1 hs
    obtain ⟨fs', hf, h2⟩ := M.bind_eq_ok.1 h1
    cases h2
    obtain ⟨h', h3, h4⟩ := step_agree ha he
    obtain ⟨h'', h5⟩ := ih h4 hf
    exact ⟨h'', .cons h3 h4.now h5⟩

theorem run_agree' {ed ed' : Editor T} {ops : List Op} {h : History}
    (ha : Agree env ed h) (hs : ed.run env ops = .ok ed') : ∃ h', Agree env ed' h' := by
  induction ops generalizing ed h with
  | nil => cases hs; exact ⟨h, ha⟩
  | cons op ops ih =>
    simp only [Editor.run] at hs
    obtain ⟨e, he, h1⟩ := M.bind_eq_ok.1 hs
    obtain ⟨h', h3, h4⟩ := step_agree ha he
    exact ih h4 h1

theorem Reachable.agree {ed : Editor T} (h : Reachable env ed) : ∃ h, Agree env ed h := by
  obtain ⟨ops, h⟩ := h
  exact run_agree' agree_start h

theorem Reachable.step {ed ed' : Editor T} {op : Op} (h : Reachable env ed)
    (hs : ed.step env op = .ok ed') : Reachable env ed' := by
  obtain ⟨ops, h⟩ := h
  refine ⟨ops ++ [op], ?_⟩
  generalize (Editor.new : Editor T) = e0 at h
  induction ops generalizing e0 with
  | nil =>
    cases h
    simp only [List.nil_append, Editor.run, hs, M.ok_bind]
  | cons o ops ih =>
    simp only [Editor.run] at h
    obtain ⟨e, he, h1⟩ := M.bind_eq_ok.1 h
    simp only [List.cons_append, Editor.run, he, M.ok_bind]
    exact ih e h1

/-! ## The cache -/

/-- The cached tree is the parse of the formula. -/
def Fresh (env : Env T) (ed : Editor T) : Prop :=
  ∀ t, ed.parsed = some t → env.parse ed.input = .ok t

theorem Fresh.quiet {ed ed' : Editor T} (h : Fresh env ed) (hq : Quiet env ed ed') :
    Fresh env ed' := by
  intro t ht
  rw [hq.input]
  rcases hq.parsed with h1 | ⟨t', h1, h2⟩
  · exact h t (h1 ▸ ht)
  · rw [h1] at ht; cases ht; exact h2

theorem Fresh.trace {n : Nat} {ed ed' : Editor T} (h : Fresh env ed) (ht : Trace env n ed ed') :
    Fresh env ed' := by
  induction ht with
  | quiet hq => exact h.quiet hq
  | push hq hp ht ih =>
    refine ih fun t ht => ?_
    rw [hp.parsed] at ht; cases ht

theorem applyAction_parsed {ed ed' : Editor T} {a : CaretEdit}
    (h : ed.applyAction env a = .ok ed') : ed'.parsed = none := by
  unfold Editor.applyAction at h
  obtain ⟨i, hi, h1⟩ := M.bind_eq_ok.1 h
  cases h1; rfl

theorem Fresh.step {ed ed' : Editor T} {op : Op} (h : Fresh env ed)
    (hs : ed.step env op = .ok ed') : Fresh env ed' := by
  by_cases hu : op = .undo
  · subst hu
    obtain ⟨⟨e, b⟩, h1, h2⟩ := M.bind_eq_ok.1 hs
    cases h2
    unfold Editor.undoOp at h1
    split at h1
    · cases h1; exact h
    · obtain ⟨e', h2, h3⟩ := M.bind_eq_ok.1 h1
      cases h3
      intro t ht
      rw [applyAction_parsed h2] at ht; cases ht
  by_cases hr : op = .redo
  · subst hr
    obtain ⟨⟨e, b⟩, h1, h2⟩ := M.bind_eq_ok.1 hs
    cases h2
    unfold Editor.redoOp at h1
    split at h1
    · cases h1; exact h
    · obtain ⟨e', h2, h3⟩ := M.bind_eq_ok.1 h1
      cases h3
      intro t ht
      rw [applyAction_parsed h2] at ht; cases ht
  obtain ⟨n, hn, ht⟩ := step_trace hu hr hs
  exact h.trace ht

theorem Fresh.run {ed ed' : Editor T} {ops : List Op} (h : Fresh env ed)
    (hs : ed.run env ops = .ok ed') : Fresh env ed' := by
  induction ops generalizing ed with
  | nil => cases hs; exact h
  | cons op ops ih =>
    simp only [Editor.run] at hs
    obtain ⟨e, he, h1⟩ := M.bind_eq_ok.1 hs
    exact ih (h.step he) h1

end Aftermath
