import Verif.Proof.MathMLMeaning
import Verif.Proof.Splice
import Verif.Proof.DefaultGrammar
import Verif.Props.Track

/-! # C54 to C56: reading MathML and the attribute `mathml` of the component -/

namespace Aftermath

variable {b : Browser}

/-- A browser that trims nothing, takes every character for a grapheme and normalises nothing. -/
def plainBrowser : Browser := ⟨id, fun s => s.map fun c => [c], id⟩

/-- An element with text. -/
def tok (t : Tag) (s : String) : Dom := .elem t s.toList []

/-- **C54.** `fromElement` throws exactly when the element is not `math`, or when reading gets to an
`msub`, `msup` or `msubsup` without children. -/
theorem C54_throws (d : Dom) : (∃ e, fromElement b d = .error e) ↔
    d.tag ≠ .math ∨ ∃ d', d.Reads d' ∧ d'.BareScript := by
  rw [← toLayout_error (b := b) d]
  unfold fromElement
  obtain ⟨t, text, cs⟩ := d
  by_cases ht : t = .math
  · subst ht
    simp only [Dom.tag, massert, BEq.rfl, if_true, M.ok_bind, ne_eq, not_true, false_or]
    simp only [toLayout]
    cases toLayouts b cs with
    | error e => simp [M.error_bind]
    | ok r => simp [M.ok_bind]
  · simp [Dom.tag, massert, ht, M.error_bind]

theorem fromElement_inv {d : Dom} {r : Row} {es : List ImportError}
    (h : fromElement b d = .ok (r, es)) : d.tag = .math ∧ ∃ l, toLayout b d = .ok (l, es) ∧
      wrapInRow l = r := by
  obtain ⟨t, text, cs⟩ := d
  by_cases ht : t = .math
  · subst ht
    simp only [fromElement, Dom.tag, massert, BEq.rfl, if_true, M.ok_bind, toLayout] at h ⊢
    cases h4 : toLayouts b cs with
    | error e => rw [h4] at h; cases h
    | ok x => rw [h4] at h; cases h; exact ⟨trivial, _, rfl, rfl⟩
  · simp [fromElement, Dom.tag, massert, ht, M.error_bind] at h

/-- **C54.** The errors reported are those of the elements that reading gets to: a wrong number of
children, a table of something else than `mtr` of `mtd`, an unknown element. -/
theorem C54_errors {d : Dom} {r : Row} {es : List ImportError}
    (h : fromElement b d = .ok (r, es)) (e : ImportError) :
    e ∈ es ↔ ∃ d', d.Reads d' ∧ d'.Complains e := by
  obtain ⟨-, l, h1, -⟩ := fromElement_inv h
  exact toLayout_errors d h1 e

/-- **C54.** Whatever the document, the formula is well formed if reading gets to no table without
cells. -/
theorem C54_wf {d : Dom} {r : Row} {es : List ImportError} (h : fromElement b d = .ok (r, es))
    (he : ∀ d', d.Reads d' → ¬d'.EmptyTable) : rowWf r = true := by
  obtain ⟨-, l, h1, rfl⟩ := fromElement_inv h
  exact (toLayout_wf d h1).1 he

/-- **C54.** For documents read without errors this is exact. -/
theorem C54_wf_iff {d : Dom} {r : Row} (h : fromElement b d = .ok (r, [])) :
    rowWf r = true ↔ ∀ d', d.Reads d' → ¬d'.EmptyTable := by
  obtain ⟨-, l, h1, rfl⟩ := fromElement_inv h
  exact ⟨(toLayout_wf d h1).2 rfl, (toLayout_wf d h1).1⟩

/-- **C54, negation.** There are documents that make `fromElement` throw, and documents read without
errors whose formula is not well formed. -/
theorem C54_not (b : Browser) : (∃ d, d.tag = .math ∧ ∃ e, fromElement b d = .error e) ∧
    ∃ d r, fromElement b d = .ok (r, []) ∧ rowWf r = false :=
  ⟨⟨.elem .math [] [.elem .msub [] []], rfl, .unwrapNone, by
      simp [fromElement, Dom.tag, massert, toLayout, toLayouts, M.ok_bind, M.error_bind]⟩,
    .elem .math [] [.elem .mtable [] []], [.container .table [] 0], by
      simp [fromElement, Dom.tag, massert, toLayout, toLayouts, M.ok_bind, isTable, toTableCells,
        tableWidth, wrapInRow, mlTable, Layout.items, LayoutItem.nodes], rfl⟩

/-- **C55.** A document is read without errors exactly when it has a meaning, and the formula is that
meaning. -/
theorem C55 (d : Dom) (r : Row) : fromElement b d = .ok (r, []) ↔ d.tag = .math ∧ Means b d r := by
  constructor
  · intro h
    obtain ⟨h1, l, h2, rfl⟩ := fromElement_inv h
    exact ⟨h1, toLayout_means d h2⟩
  · rintro ⟨h1, h2⟩
    obtain ⟨l, h3, rfl⟩ := means_toLayout h2
    obtain ⟨t, text, cs⟩ := d
    cases h1
    simp only [fromElement, Dom.tag, massert, BEq.rfl, if_true, M.ok_bind, h3]
    simp only [toLayout] at h3
    cases h4 : toLayouts b cs with
    | error e => rw [h4] at h3; cases h3
    | ok x =>
      obtain ⟨ls, es⟩ := x
      rw [h4] at h3
      simp only [M.ok_bind, Except.ok.injEq, Prod.mk.injEq] at h3
      obtain ⟨rfl, rfl⟩ := h3
      rfl

/-- **C55.** A document has a meaning exactly when reading it gets to no element that is complained
about. In particular it has then no script without children. -/
theorem C55_exists (d : Dom) (ht : d.tag = .math) :
    (∃ r, Means b d r) ↔ ∀ d' e, d.Reads d' → ¬d'.Complains e := by
  constructor
  · rintro ⟨r, h⟩ d' e h1 h2
    exact absurd ((C54_errors ((C55 d r).2 ⟨ht, h⟩) e).2 ⟨d', h1, h2⟩) (by simp)
  · intro h
    cases h1 : fromElement b d with
    | error e =>
      rcases (C54_throws (b := b) d).1 ⟨e, h1⟩ with h2 | ⟨d', h2, h3, h4⟩
      · exact absurd ht h2
      · exfalso
        rcases h3 with h3 | h3 | h3 <;>
          exact h d' _ h2 (.arity (d := d') (by rw [h3]; rfl) (by rw [h4]; nofun))
    | ok x =>
      obtain ⟨r, es⟩ := x
      have : es = [] := by
        cases es with
        | nil => rfl
        | cons e es =>
          obtain ⟨d', h2, h3⟩ := (C54_errors h1 e).1 List.mem_cons_self
          exact absurd h3 (h d' e h2)
      subst this
      exact ⟨r, ((C55 d r).1 h1).2⟩

/-- **C55.** No document has two meanings. -/
theorem C55_unique (d : Dom) (ht : d.tag = .math) {r r' : Row} (h : Means b d r)
    (h' : Means b d r') : r = r' := by
  have h1 := (C55 d r).2 ⟨ht, h⟩
  rw [(C55 d r').2 ⟨ht, h'⟩] at h1
  cases h1
  rfl

/-! ## The attribute -/

/-- A fraction, a power, a square root and a table with rows of different length. -/
def exMath : Dom := .elem .math [] [
  .elem .mfrac [] [tok .mn "12", .elem .mrow [] [tok .mi "x", tok .mo "+", tok .mi "y"]],
  .elem .msup [] [tok .mi "z", tok .mn "3"],
  .elem .msqrt [] [tok .mi "a", tok .mi "b"],
  .elem .mroot [] [tok .mi "r", tok .mi "n"],
  .elem .mtable [] [.elem .mtr [] [.elem .mtd [] [tok .mi "p"]],
    .elem .mtr [] [.elem .mtd [] [tok .mi "q"], .elem .mtd [] [tok .mtext "t"]]]]

/-- What it means. -/
def exMathRow : Row := [
  .fraction [.symbol ['1'], .symbol ['2']] [.symbol ['x'], .symbol ['+'], .symbol ['y']],
  .symbol ['z'], .sup [.symbol ['3']],
  .root [.symbol ['2']] [.symbol ['a'], .symbol ['b']],
  .root [.symbol ['n']] [.symbol ['r']],
  .container .table [[.symbol ['p']], [], [.symbol ['q']],
    [.symbol ['"'], .symbol ['t'], .symbol ['"']]] 2]

example : (fromElement plainBrowser exMath).toOption = some (exMathRow, []) := by decide +kernel

example : Means plainBrowser exMath exMathRow :=
  ((C55 exMath exMathRow).1 (by
    have : (fromElement plainBrowser exMath).toOption = some (exMathRow, []) := by decide +kernel
    revert this
    cases fromElement plainBrowser exMath <;> simp [Except.toOption])).2

/-- A fraction with one child and an unknown element are reported, and the rest is read. -/
example : (fromElement plainBrowser (.elem .math [] [.elem .mfrac [] [tok .mi "x"], tok .mi "y",
      .elem (.other ['m', 'p']) [] [tok .mi "z"]])).toOption =
    some ([.symbol "Error".toList, .symbol ['y'], .symbol "Error".toList],
      [.expectedChildren 2 .mfrac, .unknownElement (.other ['m', 'p'])]) := by decide +kernel

/-- The script without children is not looked at in a fraction with one child. -/
example : (fromElement plainBrowser (.elem .math [] [.elem .mfrac [] [.elem .msub [] []]])).isOk =
    true := by decide +kernel

theorem rootEdit_ok {cfg : Cfg} {root old : Row} (h : root = old) (new : Row) :
    applyEdits cfg root [.row ⟨.delete, ⟨[], 0⟩, old⟩, .row ⟨.insert, ⟨[], 0⟩, new⟩] = .ok new := by
  subst h
  simp [applyEdits, applyEdit, editRowAt, RowEdit.applyToRow, M.ok_bind]

/-- **C56.** Setting the attribute while the caret is in the outermost row replaces the whole formula
by what the document means, and leaves the caret where it was. Undoing it once gives the formula
and the caret back, and redoing it the new formula. -/
theorem C56_set_partial {g : Grammar} (hg : g.Good) {env : Env SNode} (hp : env.parse = g.parse)
    {ed : Editor SNode} (hwf : rowWf ed.input = true)
    {t : SNode} (ht : env.parse ed.input = .ok t) (h1 : ed.caret.start.rowIndices = [])
    (h2 : ed.caret.stop.rowIndices = []) {d : Dom} {r : Row} {es : List ImportError}
    (hd : fromElement b d = .ok (r, es)) :
    ∃ ed', ed.setMathML env b t.lo t.hi d = .ok ed' ∧ ed'.input = r ∧ ed'.caret = ed.caret ∧
      ∃ ed₁, ed'.undoOp env = .ok (ed₁, true) ∧ ed₁.input = ed.input ∧ ed₁.caret = ed.caret ∧
        ed₁.undo.undoStack = ed.undo.undoStack ∧
        ∃ ed₂, ed₁.redoOp env = .ok (ed₂, true) ∧ ed₂.input = r := by
  rw [hp] at ht
  obtain ⟨t', ht', hf⟩ := parse_ok hg hwf
  rw [ht] at ht'
  cases ht'
  have hr : ValidRange ed.input ⟨[], t.lo, t.hi⟩ := by
    refine ⟨ed.input, rfl, ?_, ?_⟩
    · rw [hf.lo_eq]; exact Nat.zero_le _
    · rw [hf.hi_eq]
  obtain ⟨ed', h3⟩ := splice_ok (env := env) hwf hr (.inl h1) (.inl h2) r
  refine ⟨ed', by simp only [Editor.setMathML, hd, M.ok_bind, h3], ?_⟩
  unfold Editor.spliceAtRange at h3
  obtain ⟨rr, hrr, h4⟩ := M.bind_eq_ok.1 h3
  obtain ⟨hfo, hb, hm⟩ := RowRange.fromMinimal_sound hrr
  rw [replaceRange_eq hfo hb r] at h4
  simp only [M.ok_bind] at h4
  obtain ⟨a, ha, h5⟩ := M.bind_eq_ok.1 h4
  obtain ⟨a', ha', h6⟩ := M.bind_eq_ok.1 h5
  obtain ⟨⟨e, act⟩, he, h7⟩ := M.bind_eq_ok.1 h6
  cases h7
  have hrow : rr.focus.row = ed.input := by
    have := hfo.rowAt_eq
    simp only [rowAt, Option.some.injEq] at this
    exact this.symm
  have hl : rr.leftOffset = 0 ∧ rr.rightOffset = ed.input.length := by
    have e1 : rr.start = t.lo := congrArg MinRange.start hm
    have e2 : rr.stop = t.hi := congrArg MinRange.stop hm
    simp only [RowRange.leftOffset, RowRange.rightOffset, RowRange.isForwards, e1, e2, hf.lo_eq,
      hf.hi_eq]
    simp
  simp only [Editor.finish, List.isEmpty_cons, Bool.false_eq_true, if_false, hl, hrow] at he
  obtain ⟨input, hi, h8⟩ := M.bind_eq_ok.1 he
  cases h8
  have hde : deleteEdit [] ed.input 0 ed.input.length =
      .row ⟨.delete, ⟨[], 0⟩, ed.input⟩ := by simp [deleteEdit]
  rw [hde] at hi
  rw [rootEdit_ok rfl] at hi
  cases hi
  refine ⟨rfl, rfl, ?_⟩
  simp only [Editor.undoOp, UndoRedo.push, UndoRedo.undo, Editor.applyAction, CaretEdit.inverse, hde,
    List.reverse_cons, List.reverse_nil, List.nil_append, List.singleton_append, List.map_cons,
    List.map_nil, BasicEdit.inverse, RowEdit.inverse, EditType.inverse]
  rw [rootEdit_ok rfl]
  simp only [M.ok_bind]
  refine ⟨_, rfl, rfl, rfl, rfl, ?_⟩
  simp only [Editor.redoOp, UndoRedo.redo, Editor.applyAction]
  rw [rootEdit_ok rfl]
  exact ⟨_, rfl, rfl⟩

/-- **C56.** The caret that is left where it was is valid exactly when the new formula is long
enough. -/
theorem C56_caret {r : Row} {c : MinCaret} (h1 : c.start.rowIndices = [])
    (h2 : c.stop.rowIndices = []) :
    ValidCaret r c ↔ c.start.offset ≤ r.length ∧ c.stop.offset ≤ r.length := by
  simp [ValidCaret, ValidPos, h1, h2]

/-- **C56, negation.** With the caret in a cell, setting the attribute panics, whatever the document
and the formula. -/
theorem C56_nested_panics {T : Type} {env : Env T} {ed : Editor T}
    {lo hi : Nat} (h : ed.caret.start.rowIndices ≠ [])
    (hlen : env.cfg.checks = false → ed.caret.start.rowIndices.length < 2 ^ env.cfg.bits)
    (d : Dom) : ∃ e, ed.setMathML env b lo hi d = .error e := by
  cases hs : ed.setMathML env b lo hi d with
  | error e => exact ⟨e, rfl⟩
  | ok ed' =>
    exfalso
    unfold Editor.setMathML at hs
    obtain ⟨⟨r, es⟩, -, h1⟩ := M.bind_eq_ok.1 hs
    unfold Editor.spliceAtRange at h1
    obtain ⟨rr, hrr, h2⟩ := M.bind_eq_ok.1 h1
    obtain ⟨hfo, hb, hm⟩ := RowRange.fromMinimal_sound hrr
    rw [replaceRange_eq hfo hb r] at h2
    simp only [M.ok_bind] at h2
    obtain ⟨a, ha, -⟩ := M.bind_eq_ok.1 h2
    simp only [MinPos.applyEdits, MinPos.applyEdit, deleteEdit] at ha
    rw [C29_root_panics env.cfg ⟨ed.caret.start.rowIndices, _, _⟩ _ _ _ h hlen] at ha
    cases ha

/-- **C56.** After setting the attribute to a document without empty tables the syntax tree can be
computed. -/
theorem C56_tree {g : Grammar} (hg : g.Good) {d : Dom} {r : Row} {es : List ImportError}
    (hd : fromElement b d = .ok (r, es)) (he : ∀ d', d.Reads d' → ¬d'.EmptyTable) :
    ∃ t, g.parse r = .ok t ∧ t.lo = 0 ∧ t.hi = r.length := by
  obtain ⟨t, h1, h2⟩ := parse_ok hg (C54_wf hd he)
  exact ⟨t, h1, h2.lo_eq, h2.hi_eq⟩

theorem empty_table_panics : ∀ f₁ f₂ : Char → Bool, (match createParser letterXid with
    | .ok r => (match (⟨r.1.builtIn, r.1.modules, f₁, f₂⟩ : Grammar).parse
          [.container .table [] 0] with
      | .ok _ => false
      | .error e => decide (e = .assertion))
    | .error _ => false) = true := fun _ _ => rfl

/-- **C56, negation.** With the parser of the component, there is a document read without errors after
which the syntax tree cannot be computed. -/
theorem C56_empty_table_panics (b : Browser) {x : Xid} (hx : x.Letters) {g : Grammar} {m : NameMap}
    (hc : createParser x = .ok (g, m)) : ∃ d r, fromElement b d = .ok (r, []) ∧
      g.parse r = .error .assertion := by
  refine ⟨.elem .math [] [.elem .mtable [] []], [.container .table [] 0], by
      simp [fromElement, Dom.tag, massert, toLayout, toLayouts, M.ok_bind, isTable, toTableCells,
        tableWidth, wrapInRow, mlTable, Layout.items, LayoutItem.nodes], ?_⟩
  have h := empty_table_panics x.start x.continue_
  rw [createParser_eq hx] at hc
  cases hl : createParser letterXid with
  | error e => rw [hl] at hc; cases hc
  | ok r =>
    rw [hl] at hc h
    cases hc
    revert h
    simp only
    cases Grammar.parse _ _ with
    | error e => simp
    | ok t => simp

/-- **C56, negation.** Setting the attribute to a shorter formula can leave a caret with which the
next `get_caret` panics. -/
theorem C56_caret_lost (parse : Row → M SNode) : ∃ (ed ed' : Editor SNode) (d : Dom),
    Reachable ⟨.dev, parse, []⟩ ed ∧
    ed.setMathML ⟨.dev, parse, []⟩ plainBrowser 0 ed.input.length d = .ok ed' ∧
    ed'.getCaret.isOk = false := by
  refine ⟨⟨[.symbol ['a']], none, .at ⟨[], 1⟩, none, none,
    ⟨[⟨.at ⟨[], 0⟩, .at ⟨[], 1⟩, [.row ⟨.delete, ⟨[], 0⟩, []⟩, .row ⟨.insert, ⟨[], 0⟩, [.symbol ['a']]⟩]⟩], []⟩⟩,
    ⟨[], none, .at ⟨[], 1⟩, none, none, _⟩, .elem .math [] [], ⟨[.insertAtCaret [['a']]], rfl⟩, rfl, ?_⟩
  decide +kernel

end Aftermath
