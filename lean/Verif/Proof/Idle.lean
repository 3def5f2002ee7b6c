import Verif.Spec.Idle
import Verif.Spec.UndoKeys
import Verif.Props.Autocorrect
import Verif.Props.Calm

/-! # Calls that put back what they take away: proofs -/

namespace Aftermath

variable {T : Type} {env : Env T}

/-! ## Edits that change the formula -/

/-- The edits are none, or they change the formula. -/
def Effective (cfg : Cfg) (root : Row) (edits : List BasicEdit) : Prop :=
  edits = [] ∨ ∀ root', applyEdits cfg root edits = .ok root' → root' ≠ root

theorem middle_eq {row vs : Row} {l r : Nat} (hlr : l ≤ r) (hr : r ≤ row.length)
    (h : row.take l ++ vs ++ row.drop r = row) : (row.take r).drop l = vs := by
  have h1 : row = row.take l ++ (row.take r).drop l ++ row.drop r := by
    have h2 : row.take l = (row.take r).take l := by rw [List.take_take, Nat.min_eq_left hlr]
    rw [h2, List.take_append_drop, List.take_append_drop]
  rw [List.append_assoc] at h h1
  exact (List.append_cancel_right (List.append_cancel_left (h1.symm.trans h.symm)))

theorem ReplacedAt.same {root root' old new : Row} {p : RowIndices}
    (h : ReplacedAt root p old new root') (he : root' = root) : new = old := by
  subst he
  have h1 := h.rowAt_old
  have h2 := h.rowAt_new
  rw [h1] at h2
  exact (Option.some.inj h2).symm

theorem replace_effective {cfg : Cfg} {root row : Row} {q : RowIndices} {l r : Nat}
    {vs : List Node} (hrow : rowAt root q = some row) (hlr : l ≤ r) (hr : r ≤ row.length)
    (hne : (row.take r).drop l ≠ vs) :
    Effective cfg root [deleteEdit q row l r, .row ⟨.insert, ⟨q, l⟩, vs⟩] := by
  right
  intro root' h he
  exact hne (middle_eq hlr hr ((replace_sound hrow hlr hr h).same he))

theorem delete_effective {cfg : Cfg} {root row : Row} {q : RowIndices} {l r : Nat}
    (hrow : rowAt root q = some row) (hlr : l < r) (hr : r ≤ row.length) :
    Effective cfg root [deleteEdit q row l r] := by
  right
  intro root' h he
  simp only [applyEdits] at h
  obtain ⟨r1, h1, h2⟩ := M.bind_eq_ok.1 h
  cases h2
  obtain ⟨old, new, ho, hn, hrep⟩ := editRowAt_replaced h1
  rw [hrow] at ho; cases ho
  have hlen : ((row.take r).drop l).length = r - l := by simp; omega
  simp only [RowEdit.applyToRow, hlen] at hn
  rw [if_pos (by omega), show l + (r - l) = r by omega] at hn
  cases hn
  have := congrArg List.length (hrep.same he)
  simp only [List.length_append, List.length_take, List.length_drop] at this
  omega

theorem flatten_ne {v : Variant} {cells : List Row} {w : Nat} :
    [Node.container v cells w] ≠ cells.flatten := by
  intro h
  have h1 : Node.container v cells w ∈ cells.flatten := by rw [← h]; simp
  obtain ⟨c, hc, hm⟩ := List.mem_flatten.1 h1
  have h2 := List.sizeOf_lt_of_mem hc
  have h3 := List.sizeOf_lt_of_mem hm
  simp only [Node.container.sizeOf_spec] at h3
  omega

theorem flattenNode_effective {root : Row} {cfg : Cfg} {q : RowIndices} {g : FocusRow} {i k : Nat}
    {v : Variant} {cells : List Row} {w : Nat} (hg : IsFocus root q g)
    (hi : g.row[i]? = some (.container v cells w)) {x : List BasicEdit × MinPos}
    (h : flattenNode ⟨.container v cells w, g, i⟩ k = .ok x) : Effective cfg root x.1 := by
  rw [flattenNode_eq hg hi k] at h
  cases h
  have hlt := (List.getElem?_eq_some_iff.1 hi).1
  refine replace_effective hg.rowAt_eq (Nat.le_succ i) hlt ?_
  have : (g.row.take (i + 1)).drop i = [.container v cells w] := by
    rw [List.take_add_one, hi, List.drop_left' (by rw [List.length_take]; omega)]
    rfl
  rw [this]
  exact flatten_ne

theorem removeMove_effective {root : Row} {cfg : Cfg} {p : Position} {dir : HDir}
    {x : List BasicEdit × MinPos} (h : removeMove cfg p dir = .ok (some x)) :
    Effective cfg root x.1 := by
  rw [removeMove_eq] at h
  obtain ⟨o, ho, h1⟩ := M.bind_eq_ok.1 h
  cases o with
  | none => cases h1
  | some y => cases h1; exact .inl rfl

theorem removeInGrid_effective {root : Row} {cfg : Cfg} {q : RowIndices} {g : FocusRow} {i j : Nat}
    {v : Variant} {cells : List Row} {w : Nat} (hg : IsFocus root q g)
    (hi : g.row[i]? = some (.container v cells w)) {p : Position} {dir : HDir}
    {x : List BasicEdit × MinPos}
    (h : removeInGrid cfg p dir ⟨.container v cells w, g, i⟩ j = .ok (some x)) :
    Effective cfg root x.1 := by
  simp only [removeInGrid, Node.grid] at h
  have key : ∀ e : Bool, (if (e && cells.all List.isEmpty) = true then do
      let r ← flattenNode ⟨.container v cells w, g, i⟩ 0
      .ok (some r)
    else removeMove cfg p dir) = .ok (some x) → Effective cfg root x.1 := by
    intro e h1
    split at h1
    · obtain ⟨y, hy, h2⟩ := M.bind_eq_ok.1 h1
      cases h2
      exact flattenNode_effective hg hi hy
    · exact removeMove_effective h1
  cases dir with
  | left => exact key _ h
  | right =>
    obtain ⟨_, _, h⟩ := M.bind_eq_ok.1 h
    obtain ⟨_, _, h⟩ := M.bind_eq_ok.1 h
    exact key _ h

theorem removeAtEdge_effective {root : Row} {cfg : Cfg} {q : RowIndices} {p : Position} {dir : HDir}
    (hf : IsFocus root q p.focus) {x : List BasicEdit × MinPos}
    (h : removeAtEdge cfg p dir = .ok (some x)) : Effective cfg root x.1 := by
  unfold removeAtEdge at h
  obtain ⟨idx, hidx, h1⟩ := M.bind_eq_ok.1 h
  cases q using List.reverseRecOn with
  | nil => rw [hf.parent_nil] at h1; cases h1
  | append_singleton q ix =>
    obtain ⟨i, j⟩ := ix
    obtain ⟨g, v, cells, w, hg, hi, -, -, hp⟩ := hf.parent_snoc
    rw [hp] at h1
    obtain ⟨idx', hidx', h2⟩ := M.bind_eq_ok.1 h1
    have fl : ∀ k : Nat, ∀ z : M (Option (List BasicEdit × MinPos)),
        z = (do let r ← flattenNode ⟨.container v cells w, g, i⟩ k; .ok (some r)) →
        z = .ok (some x) → Effective cfg root x.1 := by
      rintro k z rfl hz
      obtain ⟨y, hy, hz⟩ := M.bind_eq_ok.1 hz
      cases hz
      exact flattenNode_effective hg hi hy
    cases v with
    | fraction =>
      simp only at h2
      split at h2
      · obtain ⟨c, -, h3⟩ := M.bind_eq_ok.1 h2
        obtain ⟨c, -, h4⟩ := M.bind_eq_ok.1 h3
        exact fl _ _ rfl h4
      · exact removeInGrid_effective hg hi h2
    | root =>
      simp only at h2
      split at h2
      · obtain ⟨c, -, h3⟩ := M.bind_eq_ok.1 h2
        obtain ⟨c, -, h4⟩ := M.bind_eq_ok.1 h3
        exact fl _ _ rfl h4
      · exact removeInGrid_effective hg hi h2
    | sub =>
      cases dir
      · exact fl 0 _ rfl h2
      · exact removeInGrid_effective hg hi h2
    | sup =>
      cases dir
      · exact fl 0 _ rfl h2
      · exact removeInGrid_effective hg hi h2
    | table => cases dir <;> exact removeInGrid_effective hg hi h2

theorem removeRange_effective {root : Row} {cfg : Cfg} {r : RowRange} (hr : r.In root)
    (hne : r.start ≠ r.stop) {x : List BasicEdit × MinPos} (h : removeRange r = .ok x) :
    Effective cfg root x.1 := by
  obtain ⟨⟨q, hf⟩, hb⟩ := hr
  rw [removeRange_eq hf hb] at h
  cases h
  refine delete_effective hf.rowAt_eq ?_ (RowRange.right_le hb)
  rw [r.leftOffset_min, r.rightOffset_max]
  omega

theorem removeAtCaretPosition_effective {root : Row} {cfg : Cfg} {p : Position} {dir : HDir}
    (hp : p.In root) {x : List BasicEdit × MinPos}
    (h : removeAtCaretPosition cfg p dir = .ok (some x)) : Effective cfg root x.1 := by
  obtain ⟨⟨q, hf⟩, hb⟩ := hp
  unfold removeAtCaretPosition at h
  simp only at h
  split at h
  · rename_i index s hadj
    obtain ⟨r, hr, h1⟩ := M.bind_eq_ok.1 h
    obtain ⟨y, hy, h2⟩ := M.bind_eq_ok.1 h1
    cases h2
    obtain ⟨h3, rfl⟩ := RowRange.new_eq_ok.1 hr
    exact removeRange_effective ⟨⟨q, hf⟩, h3⟩ (by simp) hy
  · rename_i index v cells w hadj
    split at h
    · obtain ⟨n, hn, h1⟩ := M.bind_eq_ok.1 h
      obtain ⟨y, hy, h2⟩ := M.bind_eq_ok.1 h1
      cases h2
      obtain ⟨i, hi, h3⟩ := Option.bind_eq_some_iff.1 hadj
      obtain ⟨node, hnode, h4⟩ := Option.map_eq_some_iff.1 h3
      cases h4
      rw [munwrap_eq_ok] at hn
      have hnode' : p.focus.row[index]? = some (.container v cells w) := hnode
      simp only [FocusRow.childAt, hnode', Option.some.injEq] at hn
      subst hn
      exact flattenNode_effective hf hnode' hy
    · exact removeMove_effective h
  · exact removeAtEdge_effective hf h

theorem removeAtCaret_effective {root : Row} {cfg : Cfg} {r : RowRange} {mode : RemoveMode}
    (hr : r.In root) (hm : mode = .range → r.start ≠ r.stop) {x : List BasicEdit × MinPos}
    (h : removeAtCaret cfg r mode = .ok (some x)) : Effective cfg root x.1 := by
  unfold removeAtCaret at h
  split at h
  · rename_i hc
    obtain ⟨y, hy, h1⟩ := M.bind_eq_ok.1 h
    cases h1
    refine removeRange_effective hr ?_ hy
    intro he
    simp [RowRange.isCollapsed, he] at hc
  · cases mode with
    | left => exact removeAtCaretPosition_effective ⟨hr.1, hr.2.1⟩ h
    | right => exact removeAtCaretPosition_effective ⟨hr.1, hr.2.1⟩ h
    | range =>
      obtain ⟨y, hy, h1⟩ := M.bind_eq_ok.1 h
      cases h1
      exact removeRange_effective hr (hm rfl) hy

/-! ## Pushed edits that change the formula -/

/-- Pushed edits with quiet steps before, between and after, each of which changes the formula. -/
inductive Busy (env : Env T) : Editor T → Editor T → Prop
  | quiet {ed ed' : Editor T} (h : Quiet env ed ed') : Busy env ed ed'
  | push {ed e1 e2 ed' : Editor T} {a : CaretEdit} (hq : Quiet env ed e1)
      (hp : Pushed env e1 e2 a) (hne : e2.input ≠ e1.input) (ht : Busy env e2 ed') : Busy env ed ed'

theorem Busy.quiet_left {a b c : Editor T} (h : Quiet env a b) (h' : Busy env b c) :
    Busy env a c := by
  cases h' with
  | quiet h' => exact .quiet (h.trans h')
  | push hq hp hne ht => exact .push (h.trans hq) hp hne ht

theorem Busy.append {a b c : Editor T} (h : Busy env a b) (h' : Busy env b c) : Busy env a c := by
  induction h with
  | quiet h => exact h'.quiet_left h
  | push hq hp hne ht ih => exact .push hq hp hne (ih h')

theorem Trace.busy_one {a b : Editor T} (h : Trace env 1 a b) (hne : b.input ≠ a.input) :
    Busy env a b := by
  cases h with
  | push hq hp ht =>
    cases ht with
    | quiet hq' =>
      refine .push hq hp ?_ (.quiet hq')
      rw [hq'.input, ← hq.input] at hne
      exact hne

theorem Trace.undo_length {n : Nat} {a b : Editor T} (h : Trace env n a b) :
    b.undo.undoStack.length = a.undo.undoStack.length + n := by
  induction h with
  | quiet hq => rw [hq.undo]; rfl
  | push hq hp ht ih =>
    rw [ih, hp.undo, ← hq.undo]
    simp only [UndoRedo.push, List.length_cons]
    omega

theorem finish_busy {ed ed' : Editor T} {edits : List BasicEdit} {c : MinCaret} {a : CaretEdit}
    (ht : Truthful env.cfg ed.input edits) (he : Effective env.cfg ed.input edits)
    (h : ed.finish env edits c = .ok (ed', a)) : Busy env ed ed' := by
  have h1 := finish_trace ht h
  rcases he with rfl | he
  · cases h1 with
    | quiet hq => exact .quiet hq
  · by_cases hem : edits.isEmpty = true
    · rw [if_pos hem] at h1
      cases h1 with
      | quiet hq => exact .quiet hq
    · rw [if_neg hem] at h1
      refine h1.busy_one ?_
      unfold Editor.finish at h
      rw [if_neg hem] at h
      obtain ⟨input, hi, h2⟩ := M.bind_eq_ok.1 h
      cases h2
      exact he _ hi

theorem splice_busy {ed ed' : Editor T} {range : MinRange} {values : List Node}
    (hne : ∀ row, rowAt ed.input range.rowIndices = some row →
      (row.take (max range.start range.stop)).drop (min range.start range.stop) ≠ values)
    (h : ed.spliceAtRange env range values = .ok ed') : Busy env ed ed' := by
  refine (splice_trace h).busy_one ?_
  obtain ⟨⟨row, h1, h2, h3, h4, -⟩, -⟩ := splice_sound h
  intro he
  exact hne row h1 (middle_eq h2 h3 (h4.same he))

/-- Where a rule matches, there is a symbol that is a piece of its word. -/
theorem matches_symbol {rule : AutocompleteRule} {row : Row} {o minLen : Nat} {ms : List RuleMatch}
    (h : rule.matches row o minLen = .ok ms) {m : RuleMatch} (hm : m ∈ ms) :
    m.rule = rule ∧ m.inputMatchLength ≤ o ∧ o ≤ row.length ∧ ∃ s, s ≠ [] ∧ s <:+: rule.parser ∧
      Node.symbol s ∈ (row.take o).drop (o - m.inputMatchLength) := by
  obtain ⟨h1, -, init, last, ⟨h2, before, h3⟩, h4, h5, h6, -⟩ := C30_sound h hm
  have hl := congrArg List.length h3
  rw [List.length_take, List.length_append, List.length_map] at hl
  refine ⟨h1, by omega, h2, last, h6, ?_, ?_⟩
  · refine List.IsInfix.trans ?_ h5.isInfix
    rw [List.flatten_append, List.flatten_singleton]
    exact (List.suffix_append _ _).isInfix
  · rw [h3, List.drop_left' (by omega)]
    simp

theorem applyAutocorrect_busy {ed ed' : Editor T} {ac : Option AutocorrectAction}
    (hf : ∀ a, ac = some a → a.rule.Fresh) (h : ed.applyAutocorrect env ac = .ok ed') :
    Busy env ed ed' := by
  cases ac with
  | none =>
    simp only [Editor.applyAutocorrect] at h
    cases h; exact .quiet .refl
  | some ac =>
    simp only [Editor.applyAutocorrect] at h
    obtain ⟨c, hc, h1⟩ := M.bind_eq_ok.1 h
    split at h1
    · cases h1; exact .quiet .refl
    · obtain ⟨range, hrange, h2⟩ := M.bind_eq_ok.1 h1
      split at h2
      · cases h2; exact .quiet .refl
      · obtain ⟨vs, hvs, h3⟩ := M.bind_eq_ok.1 h2
        obtain ⟨ms, hms, h4⟩ := M.bind_eq_ok.1 h3
        split at h4
        · rename_i hany
          obtain ⟨m, hm, -⟩ := List.any_eq_true.1 hany
          obtain ⟨-, -, -, s, hs1, hs2, hs3⟩ := matches_symbol hms hm
          obtain ⟨hfoc, hb, hmin⟩ := RowRange.fromMinimal_sound hrange
          refine splice_busy ?_ h4
          intro row hrow he
          have hrow' : row = range.focus.row := by
            rw [hmin, hfoc.rowAt_eq] at hrow
            exact (Option.some.inj hrow).symm
          subst hrow'
          have hvs' : vs = (range.focus.row.take range.rightOffset).drop range.leftOffset := by
            unfold RowRange.values at hvs
            rw [if_pos (RowRange.right_le hb)] at hvs
            exact (Except.ok.inj hvs).symm
          rw [range.leftOffset_min, range.rightOffset_max] at hvs'
          have hev : vs = ac.rule.result := hvs'.trans he
          refine hf ac rfl s ?_ hs1 hs2
          rw [← hev]
          exact List.mem_of_mem_take (List.mem_of_mem_drop hs3)
        · cases h4; exact .quiet .refl

theorem finishAndAutocorrect_busy {ed ed' : Editor T} {ac : Option AutocorrectAction}
    {edits : List BasicEdit} {c : MinCaret} (ht : Truthful env.cfg ed.input edits)
    (he : Effective env.cfg ed.input edits) (hf : ∀ a, ac = some a → a.rule.Fresh)
    (h : ed.finishAndAutocorrect env ac edits c = .ok ed') : Busy env ed ed' := by
  unfold Editor.finishAndAutocorrect at h
  obtain ⟨⟨e, act⟩, h0, h1⟩ := M.bind_eq_ok.1 h
  obtain ⟨ac', hac, h2⟩ := M.bind_eq_ok.1 h1
  refine (finish_busy ht he h0).append (applyAutocorrect_busy ?_ h2)
  intro a ha
  subst ha
  cases ac with
  | none => cases hac
  | some b =>
    obtain ⟨r, -, h3⟩ := M.bind_eq_ok.1 hac
    cases h3
    exact hf b rfl

theorem pending_fresh {ed e : Editor T} {ac : Option AutocorrectAction}
    (hi : ¬ ed.BehindEcho env) (hs : ed.startAutocorrect env = .ok (e, ac)) :
    ∀ a, ac = some a → a.rule.Fresh := by
  rintro a rfl
  obtain ⟨res, m, h1, h2, h3, rfl⟩ := startAutocorrect_some hs
  by_contra hf
  exact hi ⟨m, ⟨e, res, h1, h2⟩, h3, hf⟩

theorem getAutocomplete_any_mode {ed e : Editor T} {m : Option MoveMode}
    {r : Option AutocompleteResults}
    (h : ({ ed with selectionMode := m }).getAutocomplete env = .ok (e, r)) :
    ∃ e', ed.getAutocomplete env = .ok (e', r) := by
  unfold Editor.getAutocomplete at h ⊢
  obtain ⟨c, hc, h1⟩ := M.bind_eq_ok.1 h
  simp only at hc
  simp only [hc, M.ok_bind]
  cases hcs : c.selection with
  | grid g => rw [hcs] at h1; cases h1; exact ⟨_, rfl⟩
  | row rr =>
    rw [hcs] at h1
    simp only at h1 ⊢
    split at h1
    · rename_i hcol
      obtain ⟨ms, hms, h2⟩ := M.bind_eq_ok.1 h1
      obtain ⟨⟨y, z⟩, hx, h3⟩ := M.bind_eq_ok.1 h2
      cases h3
      rw [if_pos hcol]
      simp only [hms, M.ok_bind]
      simp only [hx, M.ok_bind]
      exact ⟨_, rfl⟩
    · rename_i hcol
      rw [if_neg hcol]
      cases h1
      exact ⟨_, rfl⟩

theorem insertNodes_busy {ed e ed' : Editor T} {ac : Option AutocorrectAction} {vs : List Node}
    (hwf : rowWf ed.input = true) (hv : rowWf vs = true) (hi : ¬ ed.Selects vs)
    (hs : ed.startAutocorrect env = .ok (e, ac)) (h : e.insertNodes env ac vs = .ok ed') :
    Busy env ed ed' := by
  obtain ⟨hq, hqc⟩ := startAutocorrect_quiet hs
  have hsel : ∃ rng, selectionOf ed.input ed.caret = .ok (.row rng) := by
    unfold Editor.insertNodes at h
    obtain ⟨c, hc, h1⟩ := M.bind_eq_ok.1 h
    rw [hq.input, hqc] at hc
    cases hcs : c.selection with
    | grid g => rw [hcs] at h1; cases h1
    | row r => exact ⟨r.toMinimal, by simp only [selectionOf, hc, M.ok_bind, hcs]; rfl⟩
  obtain ⟨rng, hsel⟩ := hsel
  obtain ⟨row, e', a, h1, h2, h3, -, h5⟩ := insertNodes_ok hwf hv hsel hs
  rw [h] at h1
  cases h1
  obtain ⟨n, -, ht⟩ := insertNodes_trace h
  have ht := ht.quiet_left hq
  have hlen := ht.undo_length
  rw [h5] at hlen
  simp only [UndoRedo.push, List.length_cons] at hlen
  have hn : n = 1 := by omega
  subst hn
  refine ht.busy_one ?_
  intro he
  obtain ⟨c, r, -, -, hm, hf, hb⟩ := selectionOf_row hwf hsel
  have hrow : row = r.focus.row := by
    rw [hf.rowAt_eq] at h2
    exact (Option.some.inj h2).symm
  have hlt : max rng.start rng.stop ≤ row.length := by
    have := RowRange.right_le hb
    rw [r.rightOffset_max] at this
    rw [hrow, ← hm]
    exact this
  exact hi ⟨_, _, _, row, hsel, h2, middle_eq (by omega) hlt (h3.same he)⟩

theorem step_busy {ed ed' : Editor T} {op : Op} (hwf : rowWf ed.input = true)
    (hn : op.GoodNodes env.cfg) (hi : ¬ op.Idle env ed) (hu : op ≠ .undo) (hr : op ≠ .redo)
    (h : ed.step env op = .ok ed') : Busy env ed ed' := by
  cases op with
  | undo => exact absurd rfl hu
  | redo => exact absurd rfl hr
  | moveCaret d m =>
    simp only [Editor.step, Editor.moveCaret] at h
    obtain ⟨⟨e, ac⟩, he, h1⟩ := M.bind_eq_ok.1 h
    obtain ⟨c, hc, h2⟩ := M.bind_eq_ok.1 h1
    obtain ⟨c', hc', h3⟩ := M.bind_eq_ok.1 h2
    exact (finishAndAutocorrect_busy truthful_nil (.inl rfl) (pending_fresh hi he) h3).quiet_left
      (startAutocorrect_quiet he).1
  | selectWithCaret d m =>
    simp only [Editor.step, Editor.selectWithCaret] at h
    obtain ⟨⟨e', b⟩, h0, he'⟩ := M.bind_eq_ok.1 h
    cases he'
    obtain ⟨⟨e, ac⟩, he, h1⟩ := M.bind_eq_ok.1 h0
    obtain ⟨c, hc, h2⟩ := M.bind_eq_ok.1 h1
    split at h2
    · obtain ⟨o, ho, h3⟩ := M.bind_eq_ok.1 h2
      cases o with
      | none => cases h3; exact .quiet (startAutocorrect_quiet he).1
      | some p =>
        obtain ⟨e2, he2, h4⟩ := M.bind_eq_ok.1 h3
        cases h4
        exact (finishAndAutocorrect_busy truthful_nil (.inl rfl) (pending_fresh hi he)
          he2).quiet_left (startAutocorrect_quiet he).1
    · cases h2
  | removeAtCaret mode =>
    simp only [Editor.step, Editor.removeAtCaret] at h
    obtain ⟨⟨e', b⟩, h0, he'⟩ := M.bind_eq_ok.1 h
    cases he'
    obtain ⟨⟨e, ac⟩, he, h1⟩ := M.bind_eq_ok.1 h0
    obtain ⟨c, hc, h2⟩ := M.bind_eq_ok.1 h1
    obtain ⟨hq, hqc⟩ := startAutocorrect_quiet he
    split at h2
    · rename_i r hr
      obtain ⟨o, ho, h3⟩ := M.bind_eq_ok.1 h2
      cases o with
      | none => cases h3; exact .quiet hq
      | some x =>
        obtain ⟨e2, he2, h4⟩ := M.bind_eq_ok.1 h3
        cases h4
        have hin := caret_row_in hc hr
        refine (finishAndAutocorrect_busy (removeAtCaret_truthful hin ho)
          (removeAtCaret_effective hin ?_ ho)
          (pending_fresh (fun hb => hi (.inr hb)) he) he2).quiet_left hq
        intro hm hse
        refine hi (.inl ⟨hm, ?_⟩)
        obtain ⟨⟨q, hf⟩, hb⟩ := hin
        have hrm : r.toMinimal = ⟨q, r.start, r.stop⟩ := by
          simp [RowRange.toMinimal, hf.rowIndices_eq]
        refine ⟨q, r.start, r.stop, r.focus.row, ?_, ?_, ?_⟩
        · rw [hq.input, hqc] at hc
          simp only [selectionOf, hc, M.ok_bind, hr, Selection.toMinimal, hrm]
        · rw [← hq.input]; exact hf.rowAt_eq
        · rw [← hse]
          apply List.drop_of_length_le
          rw [List.length_take]; omega
    · cases h2
  | insertAtCaret vs =>
    simp only [Editor.step, Editor.insertAtCaret] at h
    obtain ⟨⟨e, ac⟩, he, h1⟩ := M.bind_eq_ok.1 h
    refine insertNodes_busy hwf ?_ hi he h1
    rw [rowWf_iff]
    intro n hn
    obtain ⟨s, -, rfl⟩ := List.mem_map.1 hn
    rfl
  | selectAll =>
    simp only [Editor.step] at h
    cases h
    exact .quiet ⟨rfl, rfl, Or.inl rfl⟩
  | startSelection p m =>
    simp only [Editor.step, Editor.startSelection] at h
    obtain ⟨⟨e, ac⟩, he, h1⟩ := M.bind_eq_ok.1 h
    have hi' : ¬ ({ ed with selectionMode := some m } : Editor T).BehindEcho env := by
      rintro ⟨m', ⟨e', res, g1, g2⟩, g3⟩
      obtain ⟨e'', g4⟩ := getAutocomplete_any_mode g1
      exact hi ⟨m', ⟨e'', res, g4, g2⟩, g3⟩
    have hb := (finishAndAutocorrect_busy truthful_nil (.inl rfl) (pending_fresh hi' he)
      h1).quiet_left (startAutocorrect_quiet he).1
    exact Busy.quiet_left (b := { ed with selectionMode := some m }) ⟨rfl, rfl, Or.inl rfl⟩ hb
  | extendSelection p =>
    simp only [Editor.step, Editor.extendSelection] at h
    obtain ⟨⟨e, ac⟩, he, h1⟩ := M.bind_eq_ok.1 h
    exact (finishAndAutocorrect_busy truthful_nil (.inl rfl) (pending_fresh hi he) h1).quiet_left
      (startAutocorrect_quiet he).1
  | finishSelection =>
    simp only [Editor.step] at h
    cases h
    exact .quiet ⟨rfl, rfl, Or.inl rfl⟩
  | paste d k =>
    simp only [Editor.step, Editor.paste] at h
    obtain ⟨⟨e', b⟩, h0, he'⟩ := M.bind_eq_ok.1 h
    cases he'
    obtain ⟨⟨e, ac⟩, he, h1⟩ := M.bind_eq_ok.1 h0
    split at h1
    · split at h1
      · cases h1; exact .quiet (startAutocorrect_quiet he).1
      · rename_i nodes hd
        obtain ⟨e2, he2, h2⟩ := M.bind_eq_ok.1 h1
        cases h2
        exact insertNodes_busy hwf (hn nodes hd) (fun hb => hi ⟨nodes, hd, hb⟩) he he2
    · cases h1
  | openAutocomplete =>
    simp only [Editor.step] at h
    obtain ⟨⟨e, r⟩, he, h1⟩ := M.bind_eq_ok.1 h
    cases h1
    exact .quiet (getAutocomplete_quiet he).1
  | getAutocomplete =>
    simp only [Editor.step] at h
    obtain ⟨⟨e, r⟩, he, h1⟩ := M.bind_eq_ok.1 h
    cases h1
    exact .quiet (getAutocomplete_quiet he).1
  | finishAutocomplete accept =>
    simp only [Editor.step, Editor.finishAutocomplete] at h
    obtain ⟨⟨e', b⟩, h0, he'⟩ := M.bind_eq_ok.1 h
    cases he'
    cases accept with
    | false => cases h0; exact .quiet .refl
    | true =>
      simp only [Bool.not_true, Bool.false_eq_true, if_false] at h0
      obtain ⟨⟨e, r⟩, he, h1⟩ := M.bind_eq_ok.1 h0
      cases r with
      | none => cases h1; exact .quiet (getAutocomplete_quiet he).1
      | some a =>
        obtain ⟨s, hs, h2⟩ := M.bind_eq_ok.1 h1
        obtain ⟨e2, he2, h3⟩ := M.bind_eq_ok.1 h2
        cases h3
        have hq := (getAutocomplete_quiet he).1
        refine Busy.quiet_left hq (splice_busy ?_ he2)
        obtain ⟨q, o, row, ms, m, -, g2, g3, g4, g5, -, -, g6, -, -⟩ := C32_open he
        have hsm : s = m := by
          unfold AutocompleteResults.getSelected at hs
          rw [munwrap_eq_ok, g6] at hs
          exact (Option.some.inj hs).symm
        subst hsm
        obtain ⟨rule, -, ms', hms', hm'⟩ := matchesAll_mem g4
          (g5.subset (List.mem_of_getElem? g6))
        obtain ⟨hr1, hle, -, t, ht1, ht2, ht3⟩ := matches_symbol hms' hm'
        intro row' hrow' heq
        rw [hq.input] at hrow'
        simp only [AutocompleteResults.getCaretRange, g3] at hrow' heq
        rw [g2] at hrow'
        cases hrow'
        rw [Nat.max_eq_left (Nat.sub_le _ _), Nat.min_eq_right (Nat.sub_le _ _)] at heq
        refine hi ⟨s, ⟨e, a, he, g6⟩, fun hfr => hfr t ?_ ht1 (hr1 ▸ ht2)⟩
        rw [← heq]
        exact ht3
  | moveInAutocomplete d =>
    simp only [Editor.step, Editor.moveInAutocomplete] at h
    obtain ⟨⟨e', b⟩, h0, he'⟩ := M.bind_eq_ok.1 h
    cases he'
    obtain ⟨⟨e, r⟩, he, h1⟩ := M.bind_eq_ok.1 h0
    cases r with
    | none => cases h1; exact .quiet (getAutocomplete_quiet he).1
    | some a =>
      obtain ⟨a', ha', h2⟩ := M.bind_eq_ok.1 h1
      obtain ⟨s, hs, h3⟩ := M.bind_eq_ok.1 h2
      cases h3
      exact .quiet ((getAutocomplete_quiet he).1.trans ⟨rfl, rfl, Or.inl rfl⟩)
  | getSyntaxTree =>
    obtain ⟨n, hn', ht⟩ := step_trace hu hr h
    have : n = 0 := Nat.le_zero.1 hn'
    subst this
    cases ht with
    | quiet hq => exact .quiet hq
  | spliceAtRange r vs =>
    simp only [Editor.step] at h
    exact splice_busy (fun row hrow he => hi ⟨row, hrow, he⟩) h

/-! ## Removing an empty selection -/

theorem remove_nothing {ed e : Editor T} {ac : Option AutocorrectAction} {q : RowIndices} {o : Nat}
    (hwf : rowWf ed.input = true) (hsel : selectionOf ed.input ed.caret = .ok (.row ⟨q, o, o⟩))
    (hs : ed.startAutocorrect env = .ok (e, ac)) :
    ∃ ed' a, ed.removeAtCaret env .range = .ok (ed', true) ∧ ed'.input = ed.input ∧
      ed'.caret = ed.caret ∧ ed'.undo = ed.undo.push a := by
  obtain ⟨hq, hqc⟩ := startAutocorrect_quiet hs
  obtain ⟨hcar, hvo⟩ := collapsed_caret hwf hsel
  obtain ⟨c, r, hc, hseln, hm, hf, hb⟩ := selectionOf_row hwf hsel
  have hst : r.start = o := congrArg MinRange.start hm
  have hsp : r.stop = o := congrArg MinRange.stop hm
  simp only at hf
  have hl : r.leftOffset = o := by rw [r.leftOffset_min, hst, hsp, Nat.min_self]
  have hr : r.rightOffset = o := by rw [r.rightOffset_max, hst, hsp, Nat.max_self]
  have hol : o ≤ r.focus.row.length := by rw [← hst]; exact hb.1
  obtain ⟨root', h1, h2⟩ := delete_ok (cfg := env.cfg) hwf hf.rowAt_eq (Nat.le_refl o) hol
  rw [List.take_append_drop] at h2
  have hroot := h2.eq_of_same
  subst hroot
  have h3 := removeRange_eq hf hb
  rw [hl, hr] at h3
  have hc' : Caret.fromMinimal e.input e.caret = .ok c := by rw [hq.input, hqc]; exact hc
  have h1' : applyEdits env.cfg e.input [deleteEdit q r.focus.row o o] = .ok ed.input := by
    simp only [applyEdits, hq.input, h1, M.ok_bind]
  have hrem : removeAtCaret env.cfg r .range = .ok (some ([deleteEdit q r.focus.row o o], ⟨q, o⟩)) := by
    unfold removeAtCaret
    split <;> simp only [h3, M.ok_bind]
  refine ⟨{ e with
      input := ed.input, parsed := none, caret := .at ⟨q, o⟩,
      undo := e.undo.push ⟨e.caret, .at ⟨q, o⟩, [deleteEdit q r.focus.row o o]⟩ }, _, ?_,
    rfl, hcar.symm, by rw [hq.undo]⟩
  unfold Editor.removeAtCaret
  simp only [hs, hc', M.ok_bind, hseln, hrem, Editor.finishAndAutocorrect, Editor.finish,
    List.isEmpty_cons, Bool.false_eq_true, if_false, h1']
  cases ac with
  | none => rfl
  | some ac =>
    obtain ⟨q', o', row, init, last, t1, t2, t3, -, t5, -⟩ := startAutocorrect_token hwf hs
    rw [hcar] at t1
    have hpo : (⟨q, o⟩ : MinPos) = ⟨q', o'⟩ := congrArg MinCaret.start t1
    cases hpo
    have hvs : ((r.focus.row.take o).drop o).length = 0 := by
      rw [List.length_drop, List.length_take]; omega
    obtain ⟨r1, u1, u2, -, -, u3, u4⟩ := track_delete_same (cfg := env.cfg) ac.caretRange o
      ((r.focus.row.take o).drop o)
    have hri : ac.caretRange.rowIndices = q := by rw [t5]
    have hclo : ac.caretRange.lo = o - (init ++ [last]).length := by
      rw [t5]; simp only [MinRange.lo]; omega
    have hchi : ac.caretRange.hi = o := by
      rw [t5]; simp only [MinRange.hi]; omega
    rw [hri] at u1 u2
    have hr1lo : r1.lo ≤ o := by
      rw [u3, hclo, if_neg (by omega)]; omega
    have hr1hi : r1.hi = o := by
      rw [u4, hchi, if_neg (by omega)]
    have hfin : ac.caretRange.applyEdits env.cfg [deleteEdit q r.focus.row o o] = .ok r1 := by
      simp only [MinRange.applyEdits, deleteEdit, u1, M.ok_bind]
    have hvr : ValidRange ed.input r1 := by
      have e1 : r1.start ≤ r1.hi := Nat.le_max_left _ _
      have e2 : r1.stop ≤ r1.hi := Nat.le_max_right _ _
      exact ⟨_, by rw [u2]; exact hf.rowAt_eq, by omega, by omega⟩
    obtain ⟨p, -, hin, hp, -⟩ := Position.fromMinimal_valid hwf hvo
    have hcol := collapsed_of_minimal hwf hin
    rw [hp, MinCaret.at] at hcol
    obtain ⟨rr, w1, w2, w3⟩ := RowRange.fromMinimal_valid hwf hvr
    have hcont : rr.contains p = true := by
      rw [contains_iff w3, hp, u2, MinPos.le_same, MinPos.le_same, rr.leftOffset_min,
        rr.rightOffset_max]
      have e1 : rr.start = r1.start := by rw [← w2]; rfl
      have e2 : rr.stop = r1.stop := by rw [← w2]; rfl
      rw [e1, e2]
      have e3 : min r1.start r1.stop = r1.lo := rfl
      have e4 : max r1.start r1.stop = r1.hi := rfl
      rw [e3, e4]
      omega
    simp only [autocorrectFinish, hfin, M.ok_bind, Editor.applyAutocorrect, hcol, Caret.collapsed,
      w1]
    have hst : (RowRange.ofPosition p).startPosition = p := rfl
    rw [hst, if_pos hcont]
    rfl

/-! ## The history has no two equal neighbours -/

theorem Agree.busy {ed ed' : Editor T} {h : History} (ha : Agree env ed h)
    (hd : h.formulas.IsChain (· ≠ ·)) (ht : Busy env ed ed') :
    ∃ h', Agree env ed' h' ∧ h'.formulas.IsChain (· ≠ ·) := by
  induction ht generalizing h with
  | quiet hq => exact ⟨h, ha.quiet hq, hd⟩
  | push hq hp hne ht ih =>
    refine ih ((ha.quiet hq).push hp) ?_
    have h1 := (ha.quiet hq).now
    have h2 : (h.now :: h.past).IsChain (· ≠ ·) := (List.isChain_append.1 hd).2.1
    simp only [History.formulas, History.record, List.reverse_nil, List.nil_append]
    refine List.isChain_cons_cons.2 ⟨?_, h2⟩
    rw [h1]
    exact hne

theorem History.formulas_back (h : History) : h.back.formulas = h.formulas := by
  obtain ⟨past, now, future⟩ := h
  cases past <;> simp [History.back, History.formulas]

theorem History.formulas_forward (h : History) : h.forward.formulas = h.formulas := by
  obtain ⟨past, now, future⟩ := h
  cases future <;> simp [History.forward, History.formulas]

theorem BusyRun.formed {ed : Editor T} (h : BusyRun env ed) : FormedRun env ed := by
  induction h with
  | new => exact .new
  | step h hs hi hn hfit ih => exact ih.step hs hn hfit

theorem BusyRun.distinct {ed : Editor T} (hr : GoodResults env.rules) (h : BusyRun env ed) :
    ∃ h : History, Agree env ed h ∧ h.formulas.IsChain (· ≠ ·) := by
  induction h with
  | new => exact ⟨.start, ⟨rfl, rfl, trivial⟩, .singleton _⟩
  | @step ed ed' op h hs hi hn hfit ih =>
    obtain ⟨h', ha, hd⟩ := ih
    by_cases hu : op = .undo
    · subst hu
      obtain ⟨⟨e, b⟩, h1, h2⟩ := M.bind_eq_ok.1 hs
      cases h2
      exact ⟨_, (undoOp_agree' ha h1).1, by rw [History.formulas_back]; exact hd⟩
    by_cases hr' : op = .redo
    · subst hr'
      obtain ⟨⟨e, b⟩, h1, h2⟩ := M.bind_eq_ok.1 hs
      cases h2
      exact ⟨_, (redoOp_agree' ha h1).1, by rw [History.formulas_forward]; exact hd⟩
    exact ha.busy hd (step_busy (C63_formed hr h.formed) hn hi hu hr' hs)

end Aftermath
