import Verif.Proof.Total

/-! # Property theorems C33, C35 and C36: edge deletions and autocorrect in the editor -/

namespace Aftermath

variable {T : Type} {env : Env T}

/-! ## C33 -/

/-- The position at the start (for Backspace) or the end (for Delete) of the formula. -/
def rootEdge (root : Row) (dir : HDir) : MinPos :=
  ⟨[], match dir with | .left => 0 | .right => root.length⟩

theorem rootEdge_valid (root : Row) (dir : HDir) : ValidPos root (rootEdge root dir) := by
  refine ⟨root, rfl, ?_⟩
  cases dir
  · exact Nat.zero_le _
  · exact Nat.le_refl _

theorem removeAtCaret_rootEdge {root : Row} (hwf : rowWf root = true) (cfg : Cfg) (dir : HDir) :
    ∃ c r, Caret.fromMinimal root (.at (rootEdge root dir)) = .ok c ∧ c.selection = .row r ∧
      removeAtCaret cfg r dir.toMode = if cfg.checks then .error .overflow else .ok none := by
  generalize ho : (match dir with | .left => 0 | .right => root.length) = o
  have hol : o ≤ (FocusRow.fromRoot root).row.length := by
    subst ho; cases dir
    · exact Nat.zero_le _
    · exact Nat.le_refl _
  have hin : (⟨.fromRoot root, o⟩ : Position).In root := ⟨⟨_, .fromRoot⟩, hol⟩
  have hc := collapsed_of_minimal hwf hin
  have hpos : removeAtCaretPosition cfg ⟨.fromRoot root, o⟩ dir =
      removeAtEdge cfg ⟨.fromRoot root, o⟩ dir := by
    subst ho
    cases dir <;> simp [removeAtCaretPosition, offsetToIndex, FocusRow.fromRoot, FocusRow.row]
  have hrm : removeAtCaret cfg (RowRange.ofPosition ⟨.fromRoot root, o⟩) dir.toMode =
      removeAtEdge cfg ⟨.fromRoot root, o⟩ dir := by
    rw [← hpos]
    cases dir <;> simp [removeAtCaret, RowRange.ofPosition, RowRange.isCollapsed, HDir.toMode,
      RowRange.startPosition]
  refine ⟨Caret.collapsed ⟨.fromRoot root, o⟩, RowRange.ofPosition ⟨.fromRoot root, o⟩, ?_, rfl, ?_⟩
  · rw [← hc]; unfold rootEdge; rw [ho]; rfl
  · rw [hrm]
    cases hck : cfg.checks with
    | true =>
      simp only [removeAtEdge, FocusRow.indexInParent, FocusRow.fromRoot, FocusRow.rowIndices,
        usub_lt_dev hck (show ([] : RowIndices).length < 1 by simp), M.error_bind, if_true]
    | false =>
      simp only [removeAtEdge, FocusRow.indexInParent, FocusRow.fromRoot, FocusRow.rowIndices,
        usub_lt_release hck (show ([] : RowIndices).length < 1 by simp), M.ok_bind, FocusRow.parent]
      rfl

/-- C33 in the editor, release build: Backspace at the start of the formula and Delete at its end
report that nothing was done and leave formula, caret and history alone. -/
theorem C33_release_partial {ed : Editor T} (hwf : rowWf ed.input = true) (hcfg : env.cfg.checks = false)
    (dir : HDir) (hc : ed.caret = .at (rootEdge ed.input dir)) (hr : GoodRules env.rules)
    (hsym : NoEmptySymbolLeft ed.input ed.caret) :
    ∃ ed', ed.removeAtCaret env dir.toMode = .ok (ed', false) ∧ ed'.input = ed.input ∧
      ed'.caret = ed.caret ∧ ed'.undo = ed.undo := by
  have hv : ValidCaret ed.input ed.caret := by
    rw [hc]; exact ⟨rootEdge_valid _ _, rootEdge_valid _ _⟩
  obtain ⟨e, ac, hs⟩ := startAutocorrect_ok hwf hv hr hsym
  obtain ⟨hq, hqc⟩ := startAutocorrect_quiet hs
  obtain ⟨c, r, h1, h2, h3⟩ := removeAtCaret_rootEdge hwf env.cfg dir
  refine ⟨e, ?_, hq.input, hqc, hq.undo⟩
  unfold Editor.removeAtCaret
  have h1' : Caret.fromMinimal e.input e.caret = .ok c := by rw [hq.input, hqc, hc]; exact h1
  rw [hcfg] at h3
  simp only [hs, M.ok_bind, h1', h2, h3, Bool.false_eq_true, if_false]

/-- C33 is false for the shipped build: there the same keys panic, for every formula. -/
theorem C33_dev_panics {ed : Editor T} (hwf : rowWf ed.input = true) (hcfg : env.cfg.checks = true)
    (dir : HDir) (hc : ed.caret = .at (rootEdge ed.input dir)) :
    ∃ e, ed.removeAtCaret env dir.toMode = .error e := by
  unfold Editor.removeAtCaret
  cases hs : ed.startAutocorrect env with
  | error x => exact ⟨x, rfl⟩
  | ok x =>
    obtain ⟨e, ac⟩ := x
    obtain ⟨hq, hqc⟩ := startAutocorrect_quiet hs
    obtain ⟨c, r, h1, h2, h3⟩ := removeAtCaret_rootEdge hwf env.cfg dir
    have h1' : Caret.fromMinimal e.input e.caret = .ok c := by rw [hq.input, hqc, hc]; exact h1
    rw [hcfg] at h3
    simp only [M.ok_bind, h1', h2, h3, if_true, M.error_bind]
    exact ⟨_, rfl⟩

example : GoodRules exampleRules := by unfold GoodRules Ascii; decide

/-- Delete at the end of `x l i m`, where an autocorrection is pending. -/
example : exampleEditor.caret = .at (rootEdge exampleEditor.input .right) := rfl

example : NoEmptySymbolLeft exampleEditor.input exampleEditor.caret := by
  rintro q o row h1 h2 ⟨-, before, h3⟩
  have := congrArg MinCaret.start h1
  simp only [exampleEditor, MinCaret.at] at this
  cases this
  cases h2
  have := congrArg List.getLast? h3
  simp [exampleEditor] at this

/-! ## C36 -/

theorem contains_iff {root : Row} {q : RowIndices} {r : RowRange} (hf : IsFocus root q r.focus)
    (p : Position) : r.contains p = true ↔
      MinPos.Le ⟨q, r.leftOffset⟩ p.toMinimal ∧ MinPos.Le p.toMinimal ⟨q, r.rightOffset⟩ := by
  simp only [RowRange.contains, Bool.and_eq_true, Position.le, Position.cmp, RowRange.leftPosition,
    RowRange.rightPosition, hf.rowIndices_eq, decide_eq_true_eq, MinPos.Le, MinPos.cmp,
    Position.toMinimal]

theorem MinPos.le_same {q : RowIndices} {a b : Nat} : MinPos.Le ⟨q, a⟩ ⟨q, b⟩ ↔ a ≤ b := by
  have h := cmp_append q [] [] a b
  rw [List.append_nil, cmp_nil_nil] at h
  simp only [MinPos.Le, MinPos.cmp, h]
  rw [Nat.compare_ne_gt]

theorem insertNodes_ok {ed e : Editor T} {ac : Option AutocorrectAction} {values : List Node}
    {rng : MinRange} (hwf : rowWf ed.input = true) (hv : rowWf values = true)
    (hsel : selectionOf ed.input ed.caret = .ok (.row rng))
    (hs : ed.startAutocorrect env = .ok (e, ac)) :
    ∃ row ed' a, e.insertNodes env ac values = .ok ed' ∧ rowAt ed.input rng.rowIndices = some row ∧
      ReplacedAt ed.input rng.rowIndices row (row.take (min rng.start rng.stop) ++ values ++
        row.drop (max rng.start rng.stop)) ed'.input ∧
      ed'.caret = .at ⟨rng.rowIndices, min rng.start rng.stop + values.length⟩ ∧
      ed'.undo = ed.undo.push a := by
  obtain ⟨hq, hqc⟩ := startAutocorrect_quiet hs
  obtain ⟨c, r, hc, hseln, rfl, hf, hb⟩ := selectionOf_row hwf hsel
  have hl := r.leftOffset_min
  have hrr := r.rightOffset_max
  have hlr := r.left_le_right
  have hrl := RowRange.right_le hb
  obtain ⟨root', h1, h2⟩ := replace_ok (cfg := env.cfg) values hwf hf.rowAt_eq hlr hrl
  have h3 := insertAtRange_eq hf hb values
  generalize hqe : r.toMinimal.rowIndices = q at *
  have hst : r.toMinimal.start = r.start := rfl
  have hsp : r.toMinimal.stop = r.stop := rfl
  rw [hst, hsp, ← hl, ← hrr]
  generalize r.leftOffset = lo at *
  generalize r.rightOffset = hi at *
  have hc' : Caret.fromMinimal e.input e.caret = .ok c := by rw [hq.input, hqc]; exact hc
  have h1' : applyEdits env.cfg e.input [deleteEdit q r.focus.row lo hi,
      .row ⟨.insert, ⟨q, lo⟩, values⟩] = .ok root' := by rw [hq.input]; exact h1
  refine ⟨r.focus.row, { e with
      input := root', parsed := none, caret := .at ⟨q, lo + values.length⟩,
      undo := e.undo.push ⟨e.caret, .at ⟨q, lo + values.length⟩,
        [deleteEdit q r.focus.row lo hi, .row ⟨.insert, ⟨q, lo⟩, values⟩]⟩ }, _, ?_,
    hf.rowAt_eq, h2, rfl, by rw [hq.undo]⟩
  unfold Editor.insertNodes
  simp only [hc', M.ok_bind, hseln, h3, Editor.finishAndAutocorrect, Editor.finish,
    List.isEmpty_cons, Bool.false_eq_true, if_false, h1']
  have hwf' : rowWf root' = true := by
    refine h2.wf hwf ?_
    have := rowAt_wf hwf hf.rowAt_eq
    rw [rowWf_append, rowWf_append, rowWf_take this, rowWf_drop this, hv]; rfl
  cases ac with
  | none => rfl
  | some ac =>
    obtain ⟨q', o, row, init, last, t1, t2, t3, -, t5, -⟩ := startAutocorrect_token hwf hs
    have hvo : ValidPos ed.input ⟨q', o⟩ := ⟨row, t2, t3.1⟩
    have hsel' := selectionOf_at hwf hvo
    rw [← t1] at hsel'
    rw [hsel] at hsel'
    have hrm : r.toMinimal = ⟨q', o, o⟩ := by
      have := Except.ok.inj hsel'
      exact MinSelection.row.inj this
    have hq' : q = q' := by rw [← hqe, hrm]
    subst hq'
    have hlo : lo = o ∧ hi = o := by
      have e1 : r.start = o := by have := congrArg MinRange.start hrm; exact this
      have e2 : r.stop = o := by have := congrArg MinRange.stop hrm; exact this
      rw [hl, hrr, e1, e2]; simp
    clear hl hrr
    obtain ⟨rfl, hx⟩ := hlo
    subst hi
    have hrow : r.focus.row = row := by
      have := hf.rowAt_eq; rw [t2] at this; exact (Option.some.inj this).symm
    have hvs : ((r.focus.row.take lo).drop lo).length = 0 := by
      rw [List.length_drop, List.length_take]; omega
    obtain ⟨r1, u1, u2, -, -, u3, u4⟩ := track_delete_same (cfg := env.cfg) ac.caretRange lo
      ((r.focus.row.take lo).drop lo)
    obtain ⟨r2, v1, v2, -, v3, v4⟩ := track_insert_same (cfg := env.cfg) r1 lo values
    have hri : ac.caretRange.rowIndices = q := by rw [t5]
    have hclo : ac.caretRange.lo = lo - (init ++ [last]).length := by
      rw [t5]; simp only [MinRange.lo]; omega
    have hchi : ac.caretRange.hi = lo := by
      rw [t5]; simp only [MinRange.hi]; omega
    rw [u2] at v1
    rw [hri] at u1 v1
    have hr1lo : r1.lo ≤ lo := by
      rw [u3, hclo, if_neg (by omega)]; omega
    have hr1hi : r1.hi = lo := by
      rw [u4, hchi, if_neg (by omega)]
    have hr2lo : r2.lo ≤ lo := by
      rw [v3, if_neg (by omega)]; omega
    have hr2hi : r2.hi = lo + values.length := by
      rw [v4, hr1hi, if_pos (Nat.le_refl _)]
    have hr2q : r2.rowIndices = q := by rw [v2, u2, hri]
    have hfin : ac.caretRange.applyEdits env.cfg [deleteEdit q r.focus.row lo lo,
        .row ⟨.insert, ⟨q, lo⟩, values⟩] = .ok r2 := by
      simp only [MinRange.applyEdits, deleteEdit, u1, M.ok_bind, v1]
    have hlen : (r.focus.row.take lo ++ values ++ r.focus.row.drop lo).length =
        r.focus.row.length + values.length := by
      simp only [List.length_append, List.length_take, List.length_drop]; omega
    have hvr : ValidRange root' r2 := by
      have e1 : r2.start ≤ r2.hi := Nat.le_max_left _ _
      have e2 : r2.stop ≤ r2.hi := Nat.le_max_right _ _
      exact ⟨_, by rw [hr2q]; exact h2.rowAt_new, by rw [hlen]; omega, by rw [hlen]; omega⟩
    have hvp : ValidPos root' ⟨q, lo + values.length⟩ := by
      refine ⟨_, h2.rowAt_new, ?_⟩
      rw [hlen]
      show lo + values.length ≤ _
      omega
    obtain ⟨p, -, hin, hp, -⟩ := Position.fromMinimal_valid hwf' hvp
    have hcol := collapsed_of_minimal hwf' hin
    rw [hp, MinCaret.at] at hcol
    obtain ⟨rr, w1, w2, w3⟩ := RowRange.fromMinimal_valid hwf' hvr
    have hcont : rr.contains p = true := by
      rw [contains_iff w3, hp, hr2q, MinPos.le_same, MinPos.le_same, rr.leftOffset_min,
        rr.rightOffset_max]
      have e1 : rr.start = r2.start := by rw [← w2]; rfl
      have e2 : rr.stop = r2.stop := by rw [← w2]; rfl
      rw [e1, e2]
      have e3 : min r2.start r2.stop = r2.lo := rfl
      have e4 : max r2.start r2.stop = r2.hi := rfl
      rw [e3, e4]
      omega
    simp only [autocorrectFinish, hfin, M.ok_bind, Editor.applyAutocorrect, hcol, Caret.collapsed,
      w1]
    have hst : (RowRange.ofPosition p).startPosition = p := rfl
    rw [hst, if_pos hcont]
    rfl

/-- C36: typing on a row selection, in particular on a collapsed caret, never triggers an
autocorrection: whatever rule is completed, the formula afterwards is exactly the insertion
result, the caret is behind the inserted symbols and one undo step is added. Asking for
autocompletions must not panic. -/
theorem C36_type {ed e : Editor T} {ac : Option AutocorrectAction} {rng : MinRange}
    (values : List Str) (hwf : rowWf ed.input = true)
    (hsel : selectionOf ed.input ed.caret = .ok (.row rng))
    (hs : ed.startAutocorrect env = .ok (e, ac)) :
    ∃ row ed' a, ed.insertAtCaret env values = .ok ed' ∧
      rowAt ed.input rng.rowIndices = some row ∧
      ReplacedAt ed.input rng.rowIndices row (row.take (min rng.start rng.stop) ++
        values.map Node.symbol ++ row.drop (max rng.start rng.stop)) ed'.input ∧
      ed'.caret = .at ⟨rng.rowIndices, min rng.start rng.stop + values.length⟩ ∧
      ed'.undo = ed.undo.push a := by
  have hv : rowWf (values.map Node.symbol) = true := by
    rw [rowWf_iff]
    intro n hn
    obtain ⟨s, -, rfl⟩ := List.mem_map.1 hn
    rfl
  obtain ⟨row, ed', a, h1, h2, h3, h4, h5⟩ := insertNodes_ok hwf hv hsel hs
  rw [List.length_map] at h4
  refine ⟨row, ed', a, ?_, h2, h3, h4, h5⟩
  simp only [Editor.insertAtCaret, hs, M.ok_bind, h1]

/-- C36 for a click position: with ASCII rules and no empty symbol left of the caret nothing is
left to assume. -/
theorem C36_type_total {ed : Editor T} {p : MinPos} (values : List Str)
    (hwf : rowWf ed.input = true) (hc : ed.caret = .at p) (hp : ValidPos ed.input p)
    (hr : GoodRules env.rules) (hsym : NoEmptySymbolLeft ed.input ed.caret) :
    ∃ row ed' a, ed.insertAtCaret env values = .ok ed' ∧
      rowAt ed.input p.rowIndices = some row ∧
      ReplacedAt ed.input p.rowIndices row (row.take p.offset ++
        values.map Node.symbol ++ row.drop p.offset) ed'.input ∧
      ed'.caret = .at ⟨p.rowIndices, p.offset + values.length⟩ ∧
      ed'.undo = ed.undo.push a := by
  have hv : ValidCaret ed.input ed.caret := by rw [hc]; exact ⟨hp, hp⟩
  obtain ⟨e, ac, hs⟩ := startAutocorrect_ok hwf hv hr hsym
  have hsel := selectionOf_at hwf hp
  rw [← hc] at hsel
  have := C36_type values hwf hsel hs
  simpa only [Nat.min_self, Nat.max_self] using this

/-- C36 for pasting nodes that are well formed. -/
theorem C36_paste {ed e : Editor T} {ac : Option AutocorrectAction} {rng : MinRange} {data : Str}
    {nodes : List Node} (hwf : rowWf ed.input = true)
    (hsel : selectionOf ed.input ed.caret = .ok (.row rng))
    (hs : ed.startAutocorrect env = .ok (e, ac))
    (hd : deserializeNodes env.cfg data = some nodes) (hn : rowWf nodes = true) :
    ∃ row ed' a, ed.paste env data true = .ok (ed', true) ∧
      rowAt ed.input rng.rowIndices = some row ∧
      ReplacedAt ed.input rng.rowIndices row (row.take (min rng.start rng.stop) ++
        nodes ++ row.drop (max rng.start rng.stop)) ed'.input ∧
      ed'.caret = .at ⟨rng.rowIndices, min rng.start rng.stop + nodes.length⟩ ∧
      ed'.undo = ed.undo.push a := by
  obtain ⟨row, ed', a, h1, h2, h3, h4, h5⟩ := insertNodes_ok hwf hn hsel hs
  refine ⟨row, ed', a, ?_, h2, h3, h4, h5⟩
  simp only [Editor.paste, hs, M.ok_bind, if_true, hd, h1]

/-- A complete `lim` left of the caret: typing `x` does not replace it. -/
example : (do
    let (_, ac) ← exampleEditor.startAutocorrect ⟨.dev, fun _ => .ok (), exampleRules⟩
    let ed ← exampleEditor.insertAtCaret ⟨.dev, fun _ => .ok (), exampleRules⟩ [['y']]
    .ok (ac.isSome, ed.input)) =
    .ok (true, [.symbol ['x'], .symbol ['l'], .symbol ['i'], .symbol ['m'], .symbol ['y']]) := by
  decide +kernel

/-! ## C35 -/

/-- The position `p` is left of the token, which ends at offset `o` of row `q` and has `k` nodes,
or right of it. -/
def OutsideToken (q : RowIndices) (o k : Nat) (p : MinPos) : Prop :=
  ¬ (MinPos.Le ⟨q, o - k⟩ p ∧ MinPos.Le p ⟨q, o⟩)

/-- Every symbol is a single ASCII character. -/
def SingleAscii (syms : List Str) : Prop := ∀ s ∈ syms, ∃ c : Char, s = [c] ∧ c.utf8Size = 1

theorem SingleAscii.ascii {syms : List Str} (h : SingleAscii syms) : Ascii syms.flatten := by
  intro c hc
  obtain ⟨s, hs, hc⟩ := List.mem_flatten.1 hc
  obtain ⟨d, rfl, hd⟩ := h s hs
  rw [List.mem_singleton.1 hc]; exact hd

theorem SingleAscii.length {syms : List Str} (h : SingleAscii syms) :
    syms.flatten.length = syms.length := by
  induction syms with
  | nil => rfl
  | cons s l ih =>
    obtain ⟨d, rfl, -⟩ := h s (by simp)
    have := ih (fun s hs => h s (by simp [hs]))
    simp only [List.flatten_cons, List.length_append, List.length_cons, List.length_nil, this]
    omega

/-- Re-matching the token in its own slice, at the offset `L` it has in its row. -/
theorem rematch {rule : AutocompleteRule} {syms : List Str} (ha : SingleAscii syms)
    (hsp : syms.flatten = rule.parser) (hne : syms ≠ []) (L : Nat) :
    (syms.length < L → rule.matches (syms.map Node.symbol) L 1 = .error .outOfRange) ∧
    (L ≤ syms.length → ∃ ms, rule.matches (syms.map Node.symbol) L 1 = .ok ms ∧
      (ms.any RuleMatch.isComplete = true ↔ L = syms.length)) := by
  have hrule : rule.parser ≠ [] := by
    rw [← hsp]
    intro h
    have := ha.length
    rw [h] at this
    exact hne (List.eq_nil_of_length_eq_zero this.symm)
  have hra : Ascii rule.parser := hsp ▸ ha.ascii
  constructor
  · intro hL
    unfold AutocompleteRule.matches
    have : rule.parser.isEmpty = false := by simpa using hrule
    rw [this]
    simp only [Bool.not_false, massert, if_true, M.ok_bind, List.length_map]
    rw [if_neg (by omega)]
  · intro hL
    obtain ⟨ms, h1, h2, -⟩ := C31_complete (rule := rule) (row := syms.map Node.symbol) (o := L)
      (minLen := 1) hrule hra (by simpa using hL) (by
        rintro s syms' ⟨-, before, hb⟩
        have hs : Node.symbol s ∈ (syms.map Node.symbol).take L := by rw [hb]; simp
        obtain ⟨t, ht, he⟩ := List.mem_map.1 (List.mem_of_mem_take hs)
        obtain ⟨c, rfl, -⟩ := ha t ht
        cases he
        simp)
    refine ⟨ms, h1, ?_⟩
    have hsl : SymbolsLeftOf (syms.map Node.symbol) L (syms.take L) :=
      ⟨by simpa using hL, [], by simp⟩
    constructor
    · intro hany
      obtain ⟨m, hm, hc⟩ := List.any_eq_true.1 hany
      obtain ⟨-, -, init, last, p1, p2, -, -, p5⟩ := C30_sound h1 hm
      have hall : ∀ s ∈ init ++ [last], s ∈ syms := by
        intro s hs
        obtain ⟨-, before, hb⟩ := p1
        have : Node.symbol s ∈ (syms.map Node.symbol).take L := by
          rw [hb]; exact List.mem_append_right _ (List.mem_map_of_mem hs)
        obtain ⟨t, ht, he⟩ := List.mem_map.1 (List.mem_of_mem_take this)
        cases he
        exact ht
      obtain ⟨-, q2, q3⟩ := C30_ascii h1 hm p1 p2.symm (fun s hs => ha s (hall s hs))
      have h3 := q3.1 hc
      have h4 : (init ++ [last]).length = syms.length := by
        have e1 : SingleAscii (init ++ [last]) := fun s hs => ha s (hall s hs)
        rw [← e1.length, ← ha.length, h3, hsp]
      have h5 : (init ++ [last]).length ≤ L := by
        obtain ⟨-, before, hb⟩ := p1
        have := congrArg List.length hb
        rw [List.length_take, List.length_append, List.length_map, List.length_map] at this
        omega
      omega
    · rintro rfl
      rw [List.take_length] at hsl
      obtain ⟨m, hm, hlen⟩ := h2 syms hsl hne (List.length_pos_iff.2 hne)
        ⟨[], by rw [hsp, List.append_nil]⟩
      exact List.any_eq_true.2 ⟨m, hm, (C30_ascii h1 hm hsl hlen.symm ha).2.2.2 hsp⟩

theorem leave_token {e : Editor T} {rule : AutocompleteRule} {q : RowIndices} {o : Nat} {row : Row}
    {syms : List Str} {p : MinPos} (hwf : rowWf e.input = true)
    (hrow : rowAt e.input q = some row) (hs : SymbolsLeftOf row o syms) (ha : SingleAscii syms)
    (hsp : syms.flatten = rule.parser) (hne : syms ≠ []) (hp : ValidPos e.input p)
    (hout : OutsideToken q o syms.length p) :
    (syms.length < o - syms.length → e.finishAndAutocorrect env
      (some ⟨rule, ⟨q, o, o - syms.length⟩⟩) [] (.at p) = .error .outOfRange) ∧
    (o - syms.length < syms.length → e.finishAndAutocorrect env
      (some ⟨rule, ⟨q, o, o - syms.length⟩⟩) [] (.at p) = .ok { e with caret := .at p }) ∧
    (o - syms.length = syms.length → e.finishAndAutocorrect env
      (some ⟨rule, ⟨q, o, o - syms.length⟩⟩) [] (.at p) =
        ({ e with caret := .at p }).spliceAtRange env ⟨q, o, o - syms.length⟩ rule.result) := by
  have hlen : syms.length ≤ o := by
    obtain ⟨h1, before, hb⟩ := hs
    have := congrArg List.length hb
    rw [List.length_take, List.length_append, List.length_map] at this
    omega
  have hvr : ValidRange e.input ⟨q, o, o - syms.length⟩ :=
    ⟨row, hrow, hs.1, Nat.le_trans (Nat.sub_le _ _) hs.1⟩
  obtain ⟨rr, w1, w2, w3⟩ := RowRange.fromMinimal_valid hwf hvr
  obtain ⟨pp, -, hin, hpp, -⟩ := Position.fromMinimal_valid hwf hp
  have hcol := collapsed_of_minimal hwf hin
  rw [hpp] at hcol
  have e1 : rr.start = o := by have := congrArg MinRange.start w2; exact this
  have e2 : rr.stop = o - syms.length := by have := congrArg MinRange.stop w2; exact this
  have hlo : rr.leftOffset = o - syms.length := by rw [rr.leftOffset_min, e1, e2]; omega
  have hhi : rr.rightOffset = o := by rw [rr.rightOffset_max, e1, e2]; omega
  have hrr : rr.focus.row = row := by
    have := w3.rowAt_eq; rw [hrow] at this; exact (Option.some.inj this).symm
  have hcont : ¬ rr.contains pp = true := by
    rw [contains_iff w3, hpp, hlo, hhi]; exact hout
  have hvals : rr.values = .ok (syms.map Node.symbol) := by
    unfold RowRange.values
    rw [hlo, hhi, hrr, if_pos hs.1]
    obtain ⟨h1, before, hb⟩ := hs
    have hbl : before.length = o - syms.length := by
      have := congrArg List.length hb
      rw [List.length_take, List.length_append, List.length_map] at this
      omega
    rw [hb, ← hbl, List.drop_left]
  have key : e.finishAndAutocorrect env (some ⟨rule, ⟨q, o, o - syms.length⟩⟩) [] (.at p) = (do
      let ms ← rule.matches (syms.map Node.symbol) (o - syms.length) 1
      if ms.any RuleMatch.isComplete then
        ({ e with caret := .at p }).spliceAtRange env ⟨q, o, o - syms.length⟩ rule.result
      else .ok { e with caret := .at p }) := by
    simp only [Editor.finishAndAutocorrect, Editor.finish, List.isEmpty_nil, if_true, M.ok_bind,
      autocorrectFinish, MinRange.applyEdits, Editor.applyAutocorrect, hcol, Caret.collapsed, w1]
    have hst : (RowRange.ofPosition pp).startPosition = pp := rfl
    rw [hst, if_neg hcont]
    simp only [hvals, M.ok_bind, hlo, w2]
  obtain ⟨r1, r2⟩ := rematch ha hsp hne (o - syms.length)
  rw [key]
  refine ⟨fun h => ?_, fun h => ?_, fun h => ?_⟩
  · rw [r1 h]; rfl
  · obtain ⟨ms, hms, hany⟩ := r2 (by omega)
    rw [hms]
    simp only [M.ok_bind]
    rw [if_neg (fun h' => by have := hany.1 h'; omega)]
  · obtain ⟨ms, hms, hany⟩ := r2 (by omega)
    rw [hms]
    simp only [M.ok_bind]
    rw [if_pos (hany.2 h)]

/-- The token of the selected autocompletion: the rule is completed by the single ASCII characters
`syms` that end at offset `o` of row `q`, where the caret is. -/
def CompletedToken (env : Env T) (ed : Editor T) (rule : AutocompleteRule) (q : RowIndices)
    (o : Nat) (row : Row) (syms : List Str) : Prop :=
  ∃ e res m, ed.getAutocomplete env = .ok (e, some res) ∧
    res.matches'[res.selectedIndex]? = some m ∧ m.isComplete = true ∧ m.rule = rule ∧
    m.inputMatchLength = syms.length ∧ ed.caret = .at ⟨q, o⟩ ∧ rowAt ed.input q = some row ∧
    SymbolsLeftOf row o syms ∧ SingleAscii syms

theorem getAutocomplete_mode {ed e : Editor T} {res : Option AutocompleteResults}
    (x : Option MoveMode) (h : ed.getAutocomplete env = .ok (e, res)) :
    ({ ed with selectionMode := x }).getAutocomplete env =
      .ok ({ e with selectionMode := x }, res) := by
  unfold Editor.getAutocomplete at h ⊢
  obtain ⟨c, hc, h1⟩ := M.bind_eq_ok.1 h
  simp only [hc, M.ok_bind]
  cases hs : c.selection with
  | grid g =>
    rw [hs] at h1
    cases h1
    rfl
  | row r =>
    rw [hs] at h1
    simp only at h1 ⊢
    split at h1
    · rename_i hcol
      rw [if_pos hcol]
      obtain ⟨ms, hms, h2⟩ := M.bind_eq_ok.1 h1
      obtain ⟨y, hx, h3⟩ := M.bind_eq_ok.1 h2
      cases h3
      simp only [hms, M.ok_bind, hx]
    · rename_i hcol
      cases h1
      rw [if_neg hcol]

theorem startAutocorrect_of_token {ed : Editor T} {rule : AutocompleteRule} {q : RowIndices}
    {o : Nat} {row : Row} {syms : List Str} (hwf : rowWf ed.input = true)
    (h : CompletedToken env ed rule q o row syms) (x : Option MoveMode) :
    syms.flatten = rule.parser ∧ syms ≠ [] ∧ ∃ e, Quiet env ed e ∧ e.caret = ed.caret ∧
      ({ ed with selectionMode := x }).startAutocorrect env =
        .ok (e, some ⟨rule, ⟨q, o, o - syms.length⟩⟩) := by
  obtain ⟨e, res, m, h1, h2, h3, rfl, h5, h6, h7, h8, h9⟩ := h
  obtain ⟨q', o', row', ms, m', g1, g2, g3, g4, g5, -, -, g6, -, -⟩ := C32_open h1
  rw [h2] at g6
  cases g6
  obtain ⟨hcc, -⟩ := collapsed_caret hwf g1
  rw [h6] at hcc
  have := congrArg MinCaret.start hcc
  simp only [MinCaret.at] at this
  cases this
  rw [h7] at g2
  cases g2
  obtain ⟨rule, hrule, ms', hms', hm'⟩ := matchesAll_mem g4 (g5.subset (List.mem_of_getElem? h2))
  obtain ⟨hr1, hr2, -⟩ := C30_sound hms' hm'
  have hsp := (C30_ascii hms' hm' h8 h5.symm h9).2.2.1 h3
  rw [← hr1] at hsp
  have hq := getAutocomplete_quiet h1
  refine ⟨hsp, ?_, { e with selectionMode := x }, ⟨hq.1.input, hq.1.undo, hq.1.parsed⟩, hq.2, ?_⟩
  · rintro rfl
    rw [h5] at hr2
    simp at hr2
  · simp only [Editor.startAutocorrect, getAutocomplete_mode x h1, M.ok_bind,
      AutocompleteResults.startAutocorrect, AutocompleteResults.getSelected, h2, munwrap, h3,
      Bool.not_true, Bool.false_eq_true, if_false, AutocompleteResults.getCaretRange, g3, h5]

/-- C35, what holds: a completed token is replaced when the caret is put outside of it, if the
token is exactly as far from the start of its row as it is long (and the new caret is not inside
an element of the same row). Missing: all other offsets, see `C35_too_early` and
`C35_panics`. -/
theorem C35_fires_partial {ed : Editor T} {rule : AutocompleteRule} {q : RowIndices}
    {o : Nat} {row : Row} {syms : List Str} {p : MinPos} (mode : MoveMode)
    (hwf : rowWf ed.input = true) (h : CompletedToken env ed rule q o row syms)
    (hp : ValidPos ed.input p) (hout : OutsideToken q o syms.length p)
    (hoff : o - syms.length = syms.length) (htr : p.rowIndices = q ∨ ¬ q <+: p.rowIndices) :
    ∃ ed' a, ed.startSelection env p mode = .ok ed' ∧
      ReplacedAt ed.input q row (row.take (o - syms.length) ++ rule.result ++ row.drop o)
        ed'.input ∧ ed'.undo = ed.undo.push a := by
  obtain ⟨hsp, hne, e, hq, hqc, hs⟩ := startAutocorrect_of_token hwf h (some mode)
  obtain ⟨-, -, -, -, -, -, -, -, -, h7, h8, h9⟩ := h
  rw [← hq.input] at hwf hp h7
  obtain ⟨-, -, key⟩ := leave_token (env := env) hwf h7 h8 h9 hsp hne hp hout
  obtain ⟨ed', hed'⟩ := splice_ok (env := env) (ed := { e with caret := .at p }) hwf
    (range := ⟨q, o, o - syms.length⟩) ⟨row, h7, h8.1, Nat.le_trans (Nat.sub_le _ _) h8.1⟩
    htr htr rule.result
  obtain ⟨⟨row', s1, s2, s3, s4, a, s5⟩, -⟩ := splice_sound hed'
  simp only at s1 s2 s3 s4 s5
  rw [h7] at s1
  cases s1
  refine ⟨ed', a, ?_, ?_, ?_⟩
  · simp only [Editor.startSelection, hs, M.ok_bind]
    exact (key hoff).trans hed'
  · rw [← hq.input]
    have f1 : min o (o - syms.length) = o - syms.length := by omega
    have f2 : max o (o - syms.length) = o := by omega
    rw [f1, f2] at s4
    exact s4
  · rw [s5, hq.undo]

/-- C35 is false: a completed token that is nearer to the start of its row than it is long, for
example at the very start, is never replaced. -/
theorem C35_too_early {ed : Editor T} {rule : AutocompleteRule} {q : RowIndices}
    {o : Nat} {row : Row} {syms : List Str} {p : MinPos} (mode : MoveMode)
    (hwf : rowWf ed.input = true) (h : CompletedToken env ed rule q o row syms)
    (hp : ValidPos ed.input p) (hout : OutsideToken q o syms.length p)
    (hoff : o - syms.length < syms.length) :
    ∃ ed', ed.startSelection env p mode = .ok ed' ∧ ed'.input = ed.input ∧ ed'.undo = ed.undo := by
  obtain ⟨hsp, hne, e, hq, hqc, hs⟩ := startAutocorrect_of_token hwf h (some mode)
  obtain ⟨-, -, -, -, -, -, -, -, -, h7, h8, h9⟩ := h
  have hq1 := hq.input
  rw [← hq1] at hwf hp h7
  obtain ⟨-, key, -⟩ := leave_token (env := env) hwf h7 h8 h9 hsp hne hp hout
  refine ⟨{ e with caret := .at p }, ?_, hq.input, hq.undo⟩
  simp only [Editor.startSelection, hs, M.ok_bind]
  exact key hoff

/-- C35 is false: leaving a completed token that is further from the start of its row than it is
long panics. -/
theorem C35_panics {ed : Editor T} {rule : AutocompleteRule} {q : RowIndices}
    {o : Nat} {row : Row} {syms : List Str} {p : MinPos} (mode : MoveMode)
    (hwf : rowWf ed.input = true) (h : CompletedToken env ed rule q o row syms)
    (hp : ValidPos ed.input p) (hout : OutsideToken q o syms.length p)
    (hoff : syms.length < o - syms.length) :
    ed.startSelection env p mode = .error .outOfRange := by
  obtain ⟨hsp, hne, e, hq, hqc, hs⟩ := startAutocorrect_of_token hwf h (some mode)
  obtain ⟨-, -, -, -, -, -, -, -, -, h7, h8, h9⟩ := h
  have hq1 := hq.input
  rw [← hq1] at hwf hp h7
  obtain ⟨key, -, -⟩ := leave_token (env := env) hwf h7 h8 h9 hsp hne hp hout
  simp only [Editor.startSelection, hs, M.ok_bind]
  exact key hoff

/-- An editor with the row `a b c … l i m y`, `n` symbols before the token and the caret behind
it. -/
def limEditor (n : Nat) : Editor Unit :=
  { Editor.new with
    input := List.replicate n (.symbol ['a']) ++
      [.symbol ['l'], .symbol ['i'], .symbol ['m'], .symbol ['y']]
    caret := .at ⟨[], n + 3⟩ }

def limEnv : Env Unit := ⟨.dev, fun _ => .ok (), exampleRules⟩

/-- The three cases occur: nothing happens, replacement, panic. -/
example : (limEditor 0).startSelection limEnv ⟨[], 4⟩ .char >>= (fun ed => .ok ed.input) =
    .ok [.symbol ['l'], .symbol ['i'], .symbol ['m'], .symbol ['y']] := by decide +kernel
example : (limEditor 3).startSelection limEnv ⟨[], 7⟩ .char >>= (fun ed => .ok ed.input) =
    .ok [.symbol ['a'], .symbol ['a'], .symbol ['a'], .symbol ['L'], .symbol ['y']] := by
  decide +kernel
example : (limEditor 4).startSelection limEnv ⟨[], 8⟩ .char >>= (fun ed => .ok ed.input) =
    .error .outOfRange := by decide +kernel

/-- C35 as stated is false. -/
theorem C35_not : ¬ ∀ (ed : Editor Unit) (p : MinPos) (mode : MoveMode) (rule : AutocompleteRule)
    (q : RowIndices) (o : Nat) (row : Row) (syms : List Str), rowWf ed.input = true →
    CompletedToken limEnv ed rule q o row syms → ValidPos ed.input p →
    OutsideToken q o syms.length p →
    ∃ ed', ed.startSelection limEnv p mode = .ok ed' ∧
      ReplacedAt ed.input q row (row.take (o - syms.length) ++ rule.result ++ row.drop o)
        ed'.input := by
  intro h
  have htok : CompletedToken limEnv (limEditor 4) ⟨['l', 'i', 'm'], [.symbol ['L']]⟩ [] 7
      (limEditor 4).input [['l'], ['i'], ['m']] := by
    have hr : ∃ e res, (limEditor 4).getAutocomplete limEnv = .ok (e, some res) ∧
        res.matches'[res.selectedIndex]? =
          some ⟨⟨['l', 'i', 'm'], [.symbol ['L']]⟩, 3, 3⟩ := by
      have hk : (do
          let (_, r) ← (limEditor 4).getAutocomplete limEnv
          .ok (r.bind (fun (res : AutocompleteResults) => res.matches'[res.selectedIndex]?))) =
          (.ok (some ⟨⟨['l', 'i', 'm'], [.symbol ['L']]⟩, 3, 3⟩) : M (Option RuleMatch)) := by
        decide +kernel
      obtain ⟨⟨e, r⟩, h1, h2⟩ := M.bind_eq_ok.1 hk
      have h2 := Except.ok.inj h2
      cases r with
      | none => cases h2
      | some res => exact ⟨e, res, h1, h2⟩
    obtain ⟨e, res, h1, h2⟩ := hr
    refine ⟨e, res, _, h1, h2, by decide +kernel, rfl, rfl, rfl, rfl,
      ⟨by decide, List.replicate 4 (.symbol ['a']), by decide +kernel⟩, ?_⟩
    intro s hs
    simp only [List.mem_cons, List.not_mem_nil, or_false] at hs
    rcases hs with rfl | rfl | rfl
    · exact ⟨'l', rfl, by decide⟩
    · exact ⟨'i', rfl, by decide⟩
    · exact ⟨'m', rfl, by decide⟩
  have hout : OutsideToken [] 7 3 ⟨[], 8⟩ := by
    unfold OutsideToken
    rw [MinPos.le_same, MinPos.le_same]
    omega
  have hp : ValidPos (limEditor 4).input ⟨[], 8⟩ := ⟨_, rfl, by decide⟩
  obtain ⟨ed', h1, -⟩ := h (limEditor 4) ⟨[], 8⟩ .char _ _ _ _ _ (by decide +kernel) htok hp hout
  rw [C35_panics .char (by decide +kernel) htok hp hout (by decide)] at h1
  cases h1

end Aftermath
