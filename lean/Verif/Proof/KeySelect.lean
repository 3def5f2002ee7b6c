import Verif.Proof.Keyboard
import Verif.Props.Pending

/-! # Selecting with arrow keys -/

namespace Aftermath

variable {T : Type} {env : Env T}

/-- The formula gives no occasion for autocorrection. -/
structure Uncorrected (env : Env T) (root : Row) : Prop where
  wf : rowWf root = true
  rules : GoodRules env.rules
  wordless : Wordless env.rules root
  single : SingleSymbols root

theorem Uncorrected.start {ed : Editor T} (hu : Uncorrected env ed.input)
    (hv : ValidCaret ed.input ed.caret) : ∃ e, ed.startAutocorrect env = .ok (e, none) := by
  rcases C71_cases hu.wf hv hu.rules (fun q o row syms h1 h2 ⟨h3, before, h4⟩ s hs => by
    refine hu.single q row s h2 (List.mem_of_mem_take (i := o) ?_)
    rw [h4]
    exact List.mem_append_right _ (List.mem_map_of_mem hs)) with h | ⟨rule, q, o, row, syms, hr, h⟩
  · exact h
  · exfalso
    have hw := (startAutocorrect_of_token hu.wf h none).1
    obtain ⟨-, -, -, -, -, -, -, -, -, h7, ⟨-, before, h8⟩, -⟩ := h
    refine hu.wordless q row before syms (row.drop o) rule h7 ?_ hr hw
    rw [← h8, List.take_append_drop]

/-- A call that changes nothing but the caret. -/
def KeyStep (env : Env T) (a b : Editor T) : Prop :=
  ∃ ops, (∀ op ∈ ops, op.Arrow) ∧ a.run env ops = .ok b ∧ b.input = a.input ∧ b.undo = a.undo

theorem KeyStep.refl (a : Editor T) : KeyStep env a a := ⟨[], by simp, rfl, rfl, rfl⟩

theorem KeyStep.trans {a b c : Editor T} (h : KeyStep env a b) (h' : KeyStep env b c) :
    KeyStep env a c := by
  obtain ⟨o1, h1, h2, h3, h4⟩ := h
  obtain ⟨o2, h5, h6, h7, h8⟩ := h'
  refine ⟨o1 ++ o2, ?_, ?_, h7.trans h3, h8.trans h4⟩
  · intro op hop
    rcases List.mem_append.1 hop with h | h
    exacts [h1 op h, h5 op h]
  · exact Editor.run_append h2 h6

theorem KeyStep.one {a b : Editor T} {op : Op} (ho : op.Arrow) (h : a.step env op = .ok b)
    (hi : b.input = a.input) (hu : b.undo = a.undo) : KeyStep env a b :=
  ⟨[op], by simpa using ho, by simp only [Editor.run, h, M.ok_bind], hi, hu⟩

theorem finishNone {e : Editor T} {c : MinCaret} :
    e.finishAndAutocorrect env none [] c = .ok { e with caret := c } := by
  simp [Editor.finishAndAutocorrect, Editor.finish, autocorrectFinish, Editor.applyAutocorrect]

theorem key_move {ed : Editor T} {d : Dir} {m : MinCaret} (hu : Uncorrected env ed.input)
    (hv : ValidCaret ed.input ed.caret) (h : press env.cfg ed.input d ed.caret = .ok m) :
    ∃ ed', KeyStep env ed ed' ∧ ed'.caret = m := by
  obtain ⟨e, he⟩ := hu.start hv
  have hq := startAutocorrect_quiet he
  refine ⟨{ e with caret := m }, .one (.move d) ?_ hq.1.input hq.1.undo, rfl⟩
  simp only [press] at h
  obtain ⟨c, hc, h1⟩ := M.bind_eq_ok.1 h
  obtain ⟨c', hc', h2⟩ := M.bind_eq_ok.1 h1
  cases h2
  simp only [Editor.step, Editor.moveCaret, he, M.ok_bind, hq.1.input, hq.2, hc, hc', finishNone]

theorem key_moves {ed : Editor T} {a : MinPos} {m : MinCaret} (n : Nat)
    (hu : Uncorrected env ed.input) (ha : ValidPos ed.input a) (hc : ed.caret = .at a)
    (h : pressN env.cfg ed.input .right n (.at a) = .ok m) :
    ∃ ed', KeyStep env ed ed' ∧ ed'.caret = m := by
  induction n generalizing ed a with
  | zero => cases h; exact ⟨ed, .refl _, hc⟩
  | succ n ih =>
    obtain ⟨m1, h1, h2⟩ := M.bind_eq_ok.1 h
    obtain ⟨x, hx, rfl⟩ : ∃ x, ValidPos ed.input x ∧ m1 = .at x := by
      obtain ⟨p, -, hin, rfl, hf⟩ := Position.fromMinimal_valid hu.wf ha
      obtain ⟨o, ho, hv⟩ := move_right_total hu.wf env.cfg hin
      rw [press_at hu.wf env.cfg .right hin ho hv] at h1
      cases h1
      refine ⟨_, ?_, rfl⟩
      cases o with
      | none => exact ha
      | some y => exact (hv y rfl).valid
    obtain ⟨e1, k1, hc1⟩ := key_move hu (hc ▸ ⟨ha, ha⟩) (hc ▸ h1)
    obtain ⟨-, -, -, hi, -⟩ := id k1
    obtain ⟨e2, k2, hc2⟩ := ih (ed := e1) (hi ▸ hu) (hi ▸ hx) hc1 (hi ▸ h2)
    exact ⟨e2, k1.trans k2, hc2⟩

/-- Select all and Left: the caret is at the start. -/
theorem key_home {ed : Editor T} (hu : Uncorrected env ed.input) :
    ∃ ed', KeyStep env ed ed' ∧ ed'.caret = .at ⟨[], 0⟩ := by
  have h1 : KeyStep env ed ed.selectAll := .one .all rfl rfl rfl
  have hv : ValidCaret ed.input ed.selectAll.caret :=
    ⟨⟨ed.input, rfl, Nat.zero_le _⟩, ⟨ed.input, rfl, Nat.le_refl _⟩⟩
  obtain ⟨e, k, hc⟩ := key_move (ed := ed.selectAll) (d := .left) (m := .at ⟨[], 0⟩) hu hv (by
    have hsel : selectionOf ed.input ed.selectAll.caret = .ok (.row ⟨[], 0, ed.input.length⟩) :=
      (C51_select_all (env := env) (ed' := ed.selectAll) hu.wf rfl).2.1
    show press env.cfg ed.input .left ed.selectAll.caret = _
    obtain ⟨c, r, h2, h3, h4, h5, h6⟩ := selectionOf_row hu.wf hsel
    have hr0 : r.start = 0 := congrArg MinRange.start h4
    have hr1 : r.stop = ed.input.length := congrArg MinRange.stop h4
    have hleft : r.edge .left = ⟨r.focus, 0⟩ := by
      simp [RowRange.edge, RowRange.leftPosition, RowRange.leftOffset, RowRange.isForwards, hr0]
    have hin : (⟨r.focus, 0⟩ : Position).In ed.input := ⟨⟨_, h5⟩, Nat.zero_le _⟩
    have hmin : (⟨r.focus, 0⟩ : Position).toMinimal = ⟨[], 0⟩ := by
      simp [Position.toMinimal, h5.rowIndices_eq]
    simp only [press, h2, M.ok_bind, moveCaret, h3, moveCaretRange_char, hleft, move_left_root h5,
      Option.none_or]
    cases hcol : r.isCollapsed with
    | true =>
      simp only [if_true]
      have : ed.input.length = 0 := by
        have : r.start = r.stop := by simpa [RowRange.isCollapsed] using hcol
        omega
      simp only [M.ok_bind]
      rw [(Caret.fromMinimal_sound h2).2]
      simp [Editor.selectAll, MinCaret.at, this]
    | false =>
      simp only [Bool.false_eq_true, if_false]
      rw [setSelection_ofPosition hu.wf hin]
      simp [Caret.collapsed, Caret.toMinimal, MinCaret.at, hmin])
  exact ⟨e, h1.trans k, hc⟩

/-- One press of Shift and an arrow key. -/
theorem key_select {ed : Editor T} {d : Dir} {p : RowIndices} {i k : Nat} {f : FocusRow}
    {q : Position} (hu : Uncorrected env ed.input) (hf : IsFocus ed.input p f)
    (hsel : selectionOf ed.input ed.caret = .ok (.row ⟨p, i, k⟩))
    (h : moveCaretInternal env.cfg ⟨f, k⟩ d = .ok (some q)) :
    ∃ ed', KeyStep env ed ed' ∧ ed'.caret = ⟨ed.caret.start, q.toMinimal⟩ := by
  obtain ⟨c, r, h2, h3, h4, h5, h6⟩ := selectionOf_row hu.wf hsel
  have hfr : r.focus = f := h5.unique hf
  have hstop : r.stop = k := congrArg MinRange.stop h4
  have hv : ValidCaret ed.input ed.caret := by
    obtain ⟨hin, hm⟩ := Caret.fromMinimal_sound h2
    rw [← hm]
    exact ⟨hin.1.valid, hin.2.1.valid⟩
  obtain ⟨e, he⟩ := hu.start hv
  have hq := startAutocorrect_quiet he
  refine ⟨{ e with caret := ⟨ed.caret.start, q.toMinimal⟩ },
    .one (.select d) ?_ hq.1.input hq.1.undo, rfl⟩
  have hend : r.endPosition = ⟨f, k⟩ := by simp [RowRange.endPosition, hfr, hstop]
  simp only [Editor.step, Editor.selectWithCaret, he, M.ok_bind, hq.1.input, hq.2, h2, h3,
    moveCaretRange_char, RowRange.edge_ofPosition, hend, h, Option.some_or, finishNone]

/-- The end of a selection that starts at offset `i` of the row. -/
def spanEnd (i : Nat) (b : RowIndices) (o : Nat) : Nat :=
  match b with
  | [] => o
  | ix :: _ => if i ≤ ix.1 then ix.1 + 1 else ix.1

/-- The selection from an offset of a row to a position in it or in one of its nodes. -/
theorem selectionOf_span {root : Row} (hwf : rowWf root = true) {p b : RowIndices} {i : Nat}
    {f fb : FocusRow} (hf : IsFocus root p f) (hb : IsFocus root (p ++ b) fb) {o : Nat}
    (hi : i ≤ f.row.length) (ho : o ≤ fb.row.length) :
    selectionOf root ⟨⟨p, i⟩, ⟨p ++ b, o⟩⟩ = .ok (.row ⟨p, i,
      spanEnd i b o⟩) := by
  have ha : IsFocus root (p ++ []) f := by simpa using hf
  have e1 : Position.fromMinimal (.fromRoot root) ⟨p, i⟩ = .ok ⟨f, i⟩ :=
    Position.fromMinimal_eq_ok.2 ⟨hf, rfl, hi⟩
  have e2 : Position.fromMinimal (.fromRoot root) ⟨p ++ b, o⟩ = .ok ⟨fb, o⟩ :=
    Position.fromMinimal_eq_ok.2 ⟨hb, rfl, ho⟩
  rcases fromPositions_ok (a := ⟨f, i⟩) (b := ⟨fb, o⟩) hwf ha hb hi ho nofun hf with h | ⟨-, h⟩
  · obtain ⟨_, _, _, _, _, _, _, h, -⟩ := h; cases h
  · simp only [selectionOf, Caret.fromMinimal, e1, e2, M.ok_bind, Caret.new, h]
    simp only [Selection.toMinimal, RowRange.toMinimal, hf.rowIndices_eq, Except.ok.injEq,
      MinSelection.row.injEq, MinRange.mk.injEq, true_and, spanStart]
    cases b with
    | nil => rfl
    | cons ix bs =>
      have hle : Position.le ⟨f, i⟩ ⟨fb, o⟩ = true ↔ i ≤ ix.1 := by
        have hx := cmp_append p [] (ix :: bs) i o
        rw [List.append_nil] at hx
        rw [Position.le_iff, hf.rowIndices_eq, hb.rowIndices_eq, hx, cmp_ne_gt_nil_cons]
      simp only [spanStop, spanEnd]
      by_cases h' : i ≤ ix.1
      · rw [if_pos h', if_pos (hle.2 h')]
      · rw [if_neg h', if_neg (fun h => h' (hle.1 h))]

theorem key_grow {ed : Editor T} {p : RowIndices} {row : Row} {i : Nat} (n : Nat)
    (hu : Uncorrected env ed.input) (hrow : rowAt ed.input p = some row)
    (hc : ed.caret = .at ⟨p, i⟩) (hn : i + n ≤ row.length) :
    ∃ ed', KeyStep env ed ed' ∧ ed'.caret.start = ⟨p, i⟩ ∧
      selectionOf ed.input ed'.caret = .ok (.row ⟨p, i, i + n⟩) := by
  obtain ⟨f, hf, rfl⟩ := IsFocus.exists_of_wf hu.wf hrow
  induction n with
  | zero =>
    refine ⟨ed, .refl _, by rw [hc]; rfl, ?_⟩
    rw [hc]
    exact selectionOf_at hu.wf ⟨_, hrow, by simpa using hn⟩
  | succ n ih =>
    obtain ⟨e1, k1, hs1, hsel1⟩ := ih (by omega)
    obtain ⟨-, -, -, hin, -⟩ := id k1
    have hlt : i + n < f.row.length := by omega
    have key : ∃ b fb o, moveCaretInternal env.cfg ⟨f, i + n⟩ .right = .ok (some ⟨fb, o⟩) ∧
        IsFocus ed.input (p ++ b) fb ∧ o ≤ fb.row.length ∧
        spanEnd i b o = i + n + 1 := by
      cases hnode : f.row[i + n] with
      | symbol s =>
        exact ⟨[], f, i + n + 1, move_right_symbol (List.getElem?_eq_some_iff.2 ⟨hlt, hnode⟩),
          by simpa using hf, hlt, rfl⟩
      | container v cells w =>
        obtain ⟨f', h1, h2, -⟩ := move_right_enter hu.wf hf (cfg := env.cfg)
          (List.getElem?_eq_some_iff.2 ⟨hlt, hnode⟩)
        exact ⟨[(i + n, 0)], f', 0, h1, h2, Nat.zero_le _, by simp [spanEnd]⟩
    obtain ⟨b, fb, o, h1, h2, h3, h4⟩ := key
    obtain ⟨e2, k2, hc2⟩ := key_select (ed := e1) (f := f) (hin ▸ hu) (hin ▸ hf) (hin ▸ hsel1) h1
    have hpos : (⟨fb, o⟩ : Position).toMinimal = ⟨p ++ b, o⟩ := by
      simp [Position.toMinimal, h2.rowIndices_eq]
    rw [hs1, hpos] at hc2
    refine ⟨e2, k1.trans k2, by rw [hc2], ?_⟩
    rw [hc2, selectionOf_span hu.wf hf h2 (by omega) h3, h4]
    rfl

theorem key_shrink {ed : Editor T} {p : RowIndices} {row : Row} {i : Nat} (n : Nat)
    (hu : Uncorrected env ed.input) (hrow : rowAt ed.input p = some row)
    (hc : ed.caret = .at ⟨p, i⟩) (hi : i ≤ row.length) (hn : n ≤ i) :
    ∃ ed', KeyStep env ed ed' ∧ ed'.caret.start = ⟨p, i⟩ ∧
      selectionOf ed.input ed'.caret = .ok (.row ⟨p, i, i - n⟩) := by
  obtain ⟨f, hf, rfl⟩ := IsFocus.exists_of_wf hu.wf hrow
  induction n with
  | zero =>
    refine ⟨ed, .refl _, by rw [hc]; rfl, ?_⟩
    rw [hc]
    exact selectionOf_at hu.wf ⟨_, hrow, hi⟩
  | succ n ih =>
    obtain ⟨e1, k1, hs1, hsel1⟩ := ih (by omega)
    obtain ⟨-, -, -, hin, -⟩ := id k1
    obtain ⟨k, hk⟩ : ∃ k, i - n = k + 1 := ⟨i - n - 1, by omega⟩
    rw [hk] at hsel1
    have hlt : k < f.row.length := by omega
    have key : ∃ b fb o, moveCaretInternal env.cfg ⟨f, k + 1⟩ .left = .ok (some ⟨fb, o⟩) ∧
        IsFocus ed.input (p ++ b) fb ∧ o ≤ fb.row.length ∧
        spanEnd i b o = k := by
      cases hnode : f.row[k] with
      | symbol s =>
        exact ⟨[], f, k, move_left_symbol (List.getElem?_eq_some_iff.2 ⟨hlt, hnode⟩),
          by simpa using hf, Nat.le_of_lt hlt, rfl⟩
      | container v cells w =>
        obtain ⟨f', h1, h2, -⟩ := move_left_enter hu.wf hf (cfg := env.cfg)
          (List.getElem?_eq_some_iff.2 ⟨hlt, hnode⟩)
        refine ⟨[(k, cells.length - 1)], f', f'.row.length, h1, h2, Nat.le_refl _, ?_⟩
        have : ¬ i ≤ k := by omega
        simp [spanEnd, this]
    obtain ⟨b, fb, o, h1, h2, h3, h4⟩ := key
    obtain ⟨e2, k2, hc2⟩ := key_select (ed := e1) (f := f) (hin ▸ hu) (hin ▸ hf) (hin ▸ hsel1) h1
    have hpos : (⟨fb, o⟩ : Position).toMinimal = ⟨p ++ b, o⟩ := by
      simp [Position.toMinimal, h2.rowIndices_eq]
    rw [hs1, hpos] at hc2
    refine ⟨e2, k1.trans k2, by rw [hc2], ?_⟩
    rw [hc2, selectionOf_span hu.wf hf h2 (by omega) h3, h4, show i - (n + 1) = k by omega]

end Aftermath
