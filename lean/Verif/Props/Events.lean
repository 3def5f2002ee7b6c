import Verif.Proof.Events
import Verif.Props.Selection

/-! # C62: which events throw -/

namespace Aftermath

namespace Component

variable {S : Setting} {x : Xid} {c c' : Component} {G : Geom} {v : View}

/-- After an event the state is again one with which nothing is wrong, up to tokens that are about
to be replaced. -/
def Kept (S : Setting) (c : Component) : Prop :=
  c.InSync S ∧ (S.Fits c.editor.input → CalmRun S.env c.editor)

/-- The formula has spaces around a script, so that it cannot be shown (C57). -/
def Unshowable (S : Setting) (row : Row) : Prop :=
  ∃ t, S.grammar.parse row = .ok t ∧ SpacedScript S.grammar.builtIn t

/-- **C62.** A key or a task that calls the editor throws exactly when the call panics (`Op.Panics`)
or the new formula cannot be shown. Otherwise the new formula is shown. -/
theorem _root_.Aftermath.C62_call_partial (hS : S.Ships x) (hc : c.Calm S)
    (hG : ∀ p, 0 < G.fontSize p) (op : Op) (hop : ∀ r vs, op ≠ .spliceAtRange r vs)
    (hcalm : ∀ ed', c.editor.step S.env op = .ok ed' → op.Calm S.env c.editor ed') :
    ((∃ p, c.edit S G op = .error p) ↔ op.Panics S.env c.editor ∨
      ∃ ed', c.editor.step S.env op = .ok ed' ∧ Unshowable S ed'.input) ∧
    ∀ c', c.edit S G op = .ok c' → c'.Kept S ∧ c'.tasks = c.tasks ∧ c'.clipboard = c.clipboard ∧
      ∃ ed', c.editor.step S.env op = .ok ed' ∧
      c'.editor.input = ed'.input ∧ c'.editor.caret = ed'.caret ∧ c'.editor.undo = ed'.undo := by
  rcases edit_exact hS hc hG op hop hcalm with ⟨h1, p, h2⟩ | ⟨h1, ed', t, h2, h3, h4, h5⟩
  · rw [h2]
    exact ⟨⟨fun _ => .inl h1, fun _ => ⟨p, rfl⟩⟩, fun _ => nofun⟩
  rcases h5 with ⟨h5, p, h6⟩ | ⟨h5, e, h6, h7⟩
  · rw [h6]
    exact ⟨⟨fun _ => .inr ⟨ed', h2, t, h4, h5⟩, fun _ => ⟨p, rfl⟩⟩, fun _ => nofun⟩
  · rw [h7]
    refine ⟨⟨nofun, ?_⟩, ?_⟩
    · rintro (h | ⟨ed1, h8, t', h9, h10⟩)
      · exact absurd h h1
      · rw [h2] at h8
        cases h8
        rw [h4] at h9
        cases h9
        exact absurd h10 h5
    · rintro _ ⟨⟩
      exact ⟨⟨⟨h4, h6⟩, fun hf => CalmRun.parsed h3 hf h4⟩, rfl, rfl, ed', h2, rfl, rfl, rfl⟩

/-- **C62.** An arrow key throws exactly where the editor's move panics, that is with overflow checks
for Left at the start of the first cell of a container; otherwise the formula stays the same. -/
theorem _root_.Aftermath.C62_arrow_partial (hS : S.Ships x) (hc : c.Calm S)
    (hG : ∀ p, 0 < v.after.fontSize p) (d : Dir) :
    ((∃ p, c.step S v (.arrow d) = .error p) ↔ S.cfg.checks = true ∧ d = .left ∧
      ∃ rng, selectionOf c.editor.input c.editor.caret = .ok (.row rng) ∧
        AtFirstCellStart ⟨rng.rowIndices, min rng.start rng.stop⟩) ∧
    ∀ c', c.step S v (.arrow d) = .ok c' → c'.Kept S ∧ c'.editor.input = c.editor.input := by
  have h := edit_same hS hc hG (.moveCaret d .char) (fun _ _ => nofun) (fun ed' h =>
    ⟨.inl (.inl hc.quiet), (C25_moves_no_token _ (.inl ⟨_, _, rfl⟩) hc.no_token h).1⟩)
  have he : c.step S v (.arrow d) = c.edit S v.after (.moveCaret d .char) := rfl
  have hp : (Op.moveCaret d .char).Panics S.env c.editor ↔ S.cfg.checks = true ∧ d = .left ∧
      ∃ rng, selectionOf c.editor.input c.editor.caret = .ok (.row rng) ∧
        AtFirstCellStart ⟨rng.rowIndices, min rng.start rng.stop⟩ := by
    constructor
    · rintro ⟨rng, h1, h2 | ⟨h2, h3, h4⟩⟩
      · exact absurd rfl h2
      · exact ⟨h2, h3, rng, h1, h4⟩
    · rintro ⟨h2, h3, rng, h1, h4⟩
      exact ⟨rng, h1, .inr ⟨h2, h3, h4⟩⟩
  rw [he, ← hp]
  rcases h with ⟨h1, p, h2⟩ | ⟨h1, ed', h2, h3, h4⟩
  · rw [h2]
    exact ⟨⟨fun _ => h1, fun _ => ⟨_, rfl⟩⟩, fun _ => nofun⟩
  · rw [h4]
    refine ⟨⟨nofun, fun h => absurd h h1⟩, ?_⟩
    rintro _ ⟨⟩
    have h5 := (C25_moves_no_token _ (.inl ⟨_, _, rfl⟩) hc.no_token h2).1
    have h6 : S.grammar.parse ed'.input = .ok c.tree := by rw [h5]; exact hc.sync.tree
    exact ⟨⟨⟨h6, hc.sync.result⟩, fun hf => CalmRun.parsed h3 hf h6⟩, h5⟩

/-- **C62.** The other keys, except undo and redo, never throw and change nothing. -/
theorem _root_.Aftermath.C62_key (hS : S.Ships x) (hc : c.Calm S)
    (hG : ∀ p, 0 < v.after.fontSize p) :
    c.step S v .otherKey = .ok { c with editor := { c.editor with parsed := some c.tree } } := by
  obtain ⟨hw, hv⟩ := C26_calm_partial hc.run
  obtain ⟨t, h1, h2⟩ := updateInput_exact hS (CalmRun.fresh hc.run) hw hv hG
  rw [hc.sync.tree] at h1
  cases h1
  rcases h2 with ⟨h2, -⟩ | ⟨-, e, h3, h4⟩
  · exact absurd h2 (hc.not_spaced hS)
  · have := hc.sync.result
    rw [h3] at this
    cases this
    exact h4

/-- **C62.** Undo and redo throw exactly when the formula they lead to cannot be shown. -/
theorem _root_.Aftermath.C62_history_partial (hS : S.Ships x) (hc : c.Calm S)
    (hG : ∀ p, 0 < v.after.fontSize p) {ev : Event} {op : Op}
    (hev : ev = .undoKey ∧ op = .undo ∨ ev = .redoKey ∧ op = .redo) :
    ∃ ed', c.editor.step S.env op = .ok ed' ∧
      ((∃ p, c.step S v ev = .error p) ↔ Unshowable S ed'.input) ∧
      ∀ c', c.step S v ev = .ok c' → c'.Kept S ∧ c'.editor.input = ed'.input := by
  have key : ∀ op : Op, (op = .undo ∨ op = .redo) →
      ∃ ed', c.editor.step S.env op = .ok ed' ∧
      ((∃ p, c.edit S v.after op = .error p) ↔ Unshowable S ed'.input) ∧
      ∀ c', c.edit S v.after op = .ok c' → c'.Kept S ∧ c'.editor.input = ed'.input := by
    intro op hop
    have h := C62_call_partial hS hc hG op (by rcases hop with rfl | rfl <;> exact fun _ _ => nofun)
      (by rcases hop with rfl | rfl <;> exact fun _ _ => trivial)
    have hn : ¬ op.Panics S.env c.editor := by rcases hop with rfl | rfl <;> exact id
    obtain ⟨e0, hq⟩ := hc.quiet
    have hx := C27_exact_partial hc.run hc.fits hq op
      (by rcases hop with rfl | rfl <;> exact fun _ _ => nofun)
    cases hs : c.editor.step S.env op with
    | error p => exact absurd (hx.1 ⟨p, hs⟩) hn
    | ok ed' =>
      refine ⟨ed', rfl, h.1.trans ⟨?_, fun h => .inr ⟨ed', hs, h⟩⟩, fun c' h1 => ?_⟩
      · rintro (h1 | ⟨ed1, h1, h2⟩)
        · exact absurd h1 hn
        · rw [hs] at h1; cases h1; exact h2
      · obtain ⟨h2, -, -, ed1, h3, h4, -⟩ := h.2 c' h1
        rw [hs] at h3
        cases h3
        exact ⟨h2, h4⟩
  rcases hev with ⟨rfl, rfl⟩ | ⟨rfl, rfl⟩
  · exact key _ (.inl rfl)
  · exact key _ (.inr rfl)

/-- **C62.** Typing text into a row throws exactly when the formula with the text cannot be shown.
Otherwise this formula is shown, with the caret behind the text. -/
theorem _root_.Aftermath.C62_type_partial (hS : S.Ships x) (hc : c.Calm S)
    (hG : ∀ p, 0 < v.after.fontSize p) {rng : MinRange}
    (hsel : selectionOf c.editor.input c.editor.caret = .ok (.row rng)) (data : Str)
    (hq : c.tasks = [.insertText (some data)]) :
    ∃ row root', rowAt c.editor.input rng.rowIndices = some row ∧
      ReplacedAt c.editor.input rng.rowIndices row (row.take (min rng.start rng.stop) ++
        (S.browser.split data).map Node.symbol ++ row.drop (max rng.start rng.stop)) root' ∧
      ((∃ p, c.step S v .timer = .error p) ↔ Unshowable S root') ∧
      ∀ c', c.step S v .timer = .ok c' → c'.Kept S ∧ c'.editor.input = root' ∧ c'.tasks = [] ∧
          c'.editor.caret = .at ⟨rng.rowIndices,
            min rng.start rng.stop + (S.browser.split data).length⟩ := by
  obtain ⟨e0, hq0⟩ := hc.quiet
  obtain ⟨row, ed', a, h1, h2, h3, h4, h5⟩ :=
    C36_type (S.browser.split data) (C26_calm_partial hc.run).1 hsel hq0
  have hc' : ({ c with tasks := [] } : Component).Calm S :=
    ⟨hc.run, ⟨hc.sync.tree, hc.sync.result⟩, hc.quiet, hc.fits⟩
  have hop : c.step S v .timer =
      ({ c with tasks := [] } : Component).edit S v.after (.insertAtCaret (S.browser.split data)) := by
    simp only [step, hq, runTasks, runTask]
    cases edit S { c with tasks := [] } v.after (.insertAtCaret (S.browser.split data)) <;> rfl
  rw [hop]
  have hst : c.editor.step S.env (.insertAtCaret (S.browser.split data)) = .ok ed' := h1
  have h := C62_call_partial hS hc' hG (.insertAtCaret (S.browser.split data)) (fun _ _ => nofun)
    (fun _ _ => trivial)
  refine ⟨row, ed'.input, h2, h3, h.1.trans ⟨?_, fun h => .inr ⟨ed', h1, h⟩⟩, fun c' h6 => ?_⟩
  · rintro (⟨g, h6⟩ | ⟨ed1, h6, h7⟩)
    · rw [show selectionOf c.editor.input c.editor.caret = .ok (.grid g) from h6] at hsel
      cases hsel
    · rw [show c.editor.step S.env (.insertAtCaret (S.browser.split data)) = .ok ed1 from h6] at hst
      cases hst
      exact h7
  · obtain ⟨h7, h8, -, ed1, h9, h10, h11, -⟩ := h.2 c' h6
    rw [show c.editor.step S.env (.insertAtCaret (S.browser.split data)) = .ok ed1 from h9] at hst
    cases hst
    exact ⟨h7, h10, h8, h11.trans h4⟩

/-- **C62.** Backspace and Delete throw exactly when the editor's deletion panics or the formula after
it cannot be shown. -/
theorem _root_.Aftermath.C62_delete_partial (hS : S.Ships x) (hc : c.Calm S)
    (hG : ∀ p, 0 < v.after.fontSize p) {i : InputEvent} {mode : RemoveMode}
    (hi : i = .deleteBackward ∧ mode = .left ∨ i = .deleteForward ∧ mode = .right)
    (hq : c.tasks = [i]) :
    ((∃ p, c.step S v .timer = .error p) ↔ (Op.removeAtCaret mode).Panics S.env c.editor ∨
      ∃ ed' b, c.editor.removeAtCaret S.env mode = .ok (ed', b) ∧ Unshowable S ed'.input) ∧
    ∀ c', c.step S v .timer = .ok c' → c'.Kept S ∧ c'.tasks = [] ∧
      ∃ ed' b, c.editor.removeAtCaret S.env mode = .ok (ed', b) ∧ c'.editor.input = ed'.input ∧
        c'.editor.caret = ed'.caret := by
  have hc' : ({ c with tasks := [] } : Component).Calm S :=
    ⟨hc.run, ⟨hc.sync.tree, hc.sync.result⟩, hc.quiet, hc.fits⟩
  have hop : c.step S v .timer =
      ({ c with tasks := [] } : Component).edit S v.after (.removeAtCaret mode) := by
    rcases hi with ⟨rfl, rfl⟩ | ⟨rfl, rfl⟩
    · simp only [step, hq, runTasks, runTask]
      cases edit S { c with tasks := [] } v.after (.removeAtCaret .left) <;> rfl
    · simp only [step, hq, runTasks, runTask]
      cases edit S { c with tasks := [] } v.after (.removeAtCaret .right) <;> rfl
  rw [hop]
  have h := C62_call_partial hS hc' hG (.removeAtCaret mode) (fun _ _ => nofun)
    (fun _ _ => .inl (.inl hc.quiet))
  have hst : ∀ ed', c.editor.step S.env (.removeAtCaret mode) = .ok ed' ↔
      ∃ b, c.editor.removeAtCaret S.env mode = .ok (ed', b) := by
    intro ed'
    simp only [Editor.step]
    constructor
    · intro h
      obtain ⟨⟨e, b⟩, h1, h2⟩ := M.bind_eq_ok.1 h
      cases h2
      exact ⟨b, h1⟩
    · rintro ⟨b, h⟩
      simp only [h, M.ok_bind]
  refine ⟨h.1.trans (or_congr Iff.rfl ?_), fun c' h1 => ?_⟩
  · constructor
    · rintro ⟨ed', h1, h2⟩
      obtain ⟨b, h3⟩ := (hst ed').1 h1
      exact ⟨ed', b, h3, h2⟩
    · rintro ⟨ed', b, h1, h2⟩
      exact ⟨ed', (hst ed').2 ⟨b, h1⟩, h2⟩
  · obtain ⟨h2, h3, -, ed', h4, h5, h6, -⟩ := h.2 c' h1
    obtain ⟨b, h7⟩ := (hst ed').1 h4
    exact ⟨h2, h3, ed', b, h7, h5, h6⟩

/-- **C62.** Cutting throws exactly for a grid selection or when the formula without the selected
nodes cannot be shown. Otherwise this formula is shown, and the clipboard has the text of the
selected nodes. -/
theorem _root_.Aftermath.C62_cut_partial (hS : S.Ships x) (hc : c.Calm S)
    (hG : ∀ p, 0 < v.after.fontSize p) :
    ((∃ g, selectionOf c.editor.input c.editor.caret = .ok (.grid g)) ∧
      ∃ p, c.step S v .cut = .error p) ∨
    ∃ rng row ed' b, selectionOf c.editor.input c.editor.caret = .ok (.row rng) ∧
      rowAt c.editor.input rng.rowIndices = some row ∧
      c.editor.removeAtCaret S.env .range = .ok (ed', b) ∧
      ((∃ p, c.step S v .cut = .error p) ↔ Unshowable S ed'.input) ∧
      ∀ c', c.step S v .cut = .ok c' → c'.Kept S ∧ c'.editor.input = ed'.input ∧
        c'.editor.caret = ed'.caret ∧
        c'.clipboard = some (serializeNodes (selectedNodes row rng)) := by
  obtain ⟨hw, hv⟩ := C26_calm_partial hc.run
  obtain ⟨cc, h1, -, -⟩ := Caret.fromMinimal_valid hw hv
  have hsel : selectionOf c.editor.input c.editor.caret = .ok cc.selection.toMinimal := by
    simp only [selectionOf, h1, M.ok_bind]
  cases hcs : cc.selection with
  | grid g =>
    rw [hcs] at hsel
    refine .inl ⟨⟨_, hsel⟩, .todo, ?_⟩
    simp only [step, copyData, Editor.copy, h1, M.ok_bind, hcs]
    rfl
  | row r =>
    rw [hcs] at hsel
    obtain ⟨row, h2, -, h3⟩ := copy_ok hw hsel
    have hc' : ({ c with clipboard := some (serializeNodes (selectedNodes row r.toMinimal)) } :
        Component).Calm S := ⟨hc.run, ⟨hc.sync.tree, hc.sync.result⟩, hc.quiet, hc.fits⟩
    have hop : c.step S v .cut =
        ({ c with clipboard := some (serializeNodes (selectedNodes row r.toMinimal)) } :
          Component).edit S v.after (.removeAtCaret .range) := by
      simp only [step, copyData, h3, M.ok_bind]
    have h := C62_call_partial hS hc' hG (.removeAtCaret .range) (fun _ _ => nofun)
      (fun _ _ => .inl (.inl hc.quiet))
    have hn : ¬ (Op.removeAtCaret .range).Panics S.env c.editor := by
      rintro (⟨g, h4⟩ | ⟨rng, -, -, -, dir, h4, -⟩)
      · rw [hsel] at h4; cases h4
      · cases dir <;> cases h4
    obtain ⟨e0, hq⟩ := hc.quiet
    have hx := C27_exact_partial hc.run hc.fits hq (.removeAtCaret .range) (fun _ _ => nofun)
    cases hs : c.editor.removeAtCaret S.env .range with
    | error p => exact absurd (hx.1 ⟨p, by simp only [Editor.step, hs]; rfl⟩) hn
    | ok eb =>
      obtain ⟨ed', b⟩ := eb
      have hst : c.editor.step S.env (.removeAtCaret .range) = .ok ed' := by
        simp only [Editor.step, hs, M.ok_bind]
      refine .inr ⟨r.toMinimal, row, ed', b, hsel, h2, rfl, ?_, fun c' h4 => ?_⟩
      · rw [hop]
        refine h.1.trans ⟨?_, fun h => .inr ⟨ed', hst, h⟩⟩
        rintro (h4 | ⟨ed1, h4, h5⟩)
        · exact absurd h4 hn
        · rw [show c.editor.step S.env (.removeAtCaret .range) = .ok ed1 from h4] at hst
          cases hst
          exact h5
      · rw [hop] at h4
        obtain ⟨h5, -, h6, ed1, h7, h8, h9, -⟩ := h.2 c' h4
        rw [show c.editor.step S.env (.removeAtCaret .range) = .ok ed1 from h7] at hst
        cases hst
        exact ⟨h5, h8, h9, h6⟩

/-- **C62.** Pasting throws exactly when the data cannot be read, for a grid selection, or when the
formula with the nodes cannot be shown. Otherwise this formula is shown. -/
theorem _root_.Aftermath.C62_paste_partial (hS : S.Ships x) (hc : c.Calm S)
    (hG : ∀ p, 0 < v.after.fontSize p) (json text : Str)
    (hn : ∀ nodes, deserializeNodes S.cfg (if json.isEmpty then text else json) = some nodes →
      rowWf nodes = true) :
    (deserializeNodes S.cfg (if json.isEmpty then text else json) = none ∧
      c.step S v (.paste json text) = .error .explicit) ∨
    ((∃ g, selectionOf c.editor.input c.editor.caret = .ok (.grid g)) ∧
      ∃ p, c.step S v (.paste json text) = .error p) ∨
    ∃ nodes rng row root',
      deserializeNodes S.cfg (if json.isEmpty then text else json) = some nodes ∧
      selectionOf c.editor.input c.editor.caret = .ok (.row rng) ∧
      rowAt c.editor.input rng.rowIndices = some row ∧
      ReplacedAt c.editor.input rng.rowIndices row (row.take (min rng.start rng.stop) ++
        nodes ++ row.drop (max rng.start rng.stop)) root' ∧
      ((∃ p, c.step S v (.paste json text) = .error p) ↔ Unshowable S root') ∧
      ∀ c', c.step S v (.paste json text) = .ok c' → c'.Kept S ∧ c'.editor.input = root' ∧
          c'.editor.caret = .at ⟨rng.rowIndices, min rng.start rng.stop + nodes.length⟩ := by
  generalize hdata : (if json.isEmpty then text else json) = data at hn ⊢
  obtain ⟨hw, hv⟩ := C26_calm_partial hc.run
  obtain ⟨e0, hq⟩ := hc.quiet
  cases hd : deserializeNodes S.cfg data with
  | none =>
    refine .inl ⟨rfl, ?_⟩
    have hd' : deserializeNodes S.env.cfg data = none := hd
    simp only [step, hdata, Editor.paste, hq, M.ok_bind, if_true, hd', Bool.false_eq_true, if_false]
  | some nodes =>
    refine .inr ?_
    obtain ⟨cc, h1, -, -⟩ := Caret.fromMinimal_valid hw hv
    have hsel : selectionOf c.editor.input c.editor.caret = .ok cc.selection.toMinimal := by
      simp only [selectionOf, h1, M.ok_bind]
    have hd' : deserializeNodes S.env.cfg data = some nodes := hd
    cases hcs : cc.selection with
    | grid g =>
      rw [hcs] at hsel
      refine .inl ⟨⟨_, hsel⟩, ?_⟩
      have hx := (C27_exact_partial hc.run hc.fits hq (.paste data true) (fun _ _ => nofun)).2
        (.inr ⟨by rw [hd']; simp, _, hsel⟩)
      obtain ⟨p, hp⟩ := hx
      simp only [Editor.step] at hp
      cases hpa : c.editor.paste S.env data true with
      | ok y => rw [hpa] at hp; cases hp
      | error y => exact ⟨y, by simp only [step, hdata, hpa]; rfl⟩
    | row r =>
      rw [hcs] at hsel
      obtain ⟨row, ed', a, h2, h3, h4, h5, h6⟩ := C36_paste hw hsel hq hd' (hn _ hd)
      refine .inr ⟨nodes, r.toMinimal, row, ed'.input, rfl, hsel, h3, h4, ?_⟩
      have hst : c.editor.step S.env (.paste data true) = .ok ed' := by
        simp only [Editor.step, h2, M.ok_bind]
      have hop : c.step S v (.paste json text) = c.edit S v.after (.paste data true) := by
        simp only [step, hdata, h2, M.ok_bind, if_true, edit, hst]
      have h := C62_call_partial hS hc hG (.paste data true) (fun _ _ => nofun)
        (fun _ _ nodes' h => hn nodes' h)
      rw [hop]
      refine ⟨h.1.trans ⟨?_, fun h => .inr ⟨ed', hst, h⟩⟩, fun c' h7 => ?_⟩
      · rintro ((h7 | ⟨-, g, h7⟩) | ⟨ed1, h7, h8⟩)
        · cases h7
        · rw [hsel] at h7; cases h7
        · rw [hst] at h7; cases h7; exact h8
      · obtain ⟨h8, -, -, ed1, h9, h10, h11, -⟩ := h.2 c' h7
        rw [hst] at h9
        cases h9
        exact ⟨h8, h10, h11.trans h5⟩

/-- **C62.** Pressing the pointer anywhere never throws, as long as no cell has a script in it (C59);
the caret is then on a position of the formula, and the rest stays the same. -/
theorem _root_.Aftermath.C62_click_partial (hS : S.Ships x) (hc : c.Calm S)
    (hG : ∀ p, 0 < v.after.fontSize p) (hn : ¬ ScriptInCell c.editor.input) (pos : Coord) :
    ∃ c' p, c.step S v (.pointerDown pos) = .ok c' ∧ layoutPosition v.before pos c.result = .ok p ∧
      ValidPos c.editor.input p ∧ c'.editor.caret = .at p ∧ c'.editor.input = c.editor.input ∧
      c'.Kept S ∧ c'.pointerDown = true := by
  obtain ⟨hw, -⟩ := C26_calm_partial hc.run
  obtain ⟨p, h1, h2⟩ := C59_row_partial (shown_of hS hw hc.sync.tree hc.sync.result) hn v.before pos
  have hc' : ({ c with pointerDown := true } : Component).Calm S :=
    ⟨hc.run, ⟨hc.sync.tree, hc.sync.result⟩, hc.quiet, hc.fits⟩
  have h := edit_same hS hc' hG (.startSelection p .char) (fun _ _ => nofun) (fun ed' h =>
    ⟨⟨h2, .inl (.inl hc.quiet)⟩,
      (C25_moves_no_token _ (.inr (.inr (.inl ⟨_, _, rfl⟩))) hc.no_token h).1⟩)
  rcases h with ⟨h3, -⟩ | ⟨-, ed', h3, h4, h5⟩
  · exact h3.elim
  have h6 := (C25_moves_no_token _ (.inr (.inr (.inl ⟨_, _, rfl⟩))) hc.no_token h3).1
  have h7 : S.grammar.parse ed'.input = .ok c.tree := by rw [h6]; exact hc.sync.tree
  refine ⟨{ c with editor := { ed' with parsed := some c.tree }, pointerDown := true }, p, ?_, h1, h2,
    ?_, h6, ⟨⟨h7, hc.sync.result⟩, fun hf => CalmRun.parsed h4 hf h7⟩, rfl⟩
  · simp only [step, h1, M.ok_bind]
    exact h5
  · exact C51_start (ed' := ed') h3

/-- **C62.** Moving and releasing the pointer, double and triple clicks never throw, as long as no
cell has a script in it; the formula stays the same. -/
theorem _root_.Aftermath.C62_select_partial (hS : S.Ships x) (hc : c.Calm S)
    (hG : ∀ p, 0 < v.after.fontSize p) (hn : ¬ ScriptInCell c.editor.input) {ev : Event}
    (hev : ev.Selects) : ∃ c', c.step S v ev = .ok c' ∧ c'.editor.input = c.editor.input ∧
      c'.Kept S := by
  obtain ⟨hw, -⟩ := C26_calm_partial hc.run
  have hpos := C59_row_partial (shown_of hS hw hc.sync.tree hc.sync.result) hn v.before
  have same : ∃ c' : Component, (.ok c : M Component) = .ok c' ∧ c'.editor.input = c.editor.input ∧
      c'.Kept S := ⟨c, rfl, rfl, hc.sync, fun _ => hc.run⟩
  have kept : ∀ {ed' : Editor SNode}, CalmRun S.env ed' → ed'.input = c.editor.input →
      ({ c with editor := ed' } : Component).Kept S := fun h1 h2 =>
    ⟨⟨by simp only; rw [h2]; exact hc.sync.tree, hc.sync.result⟩, fun _ => h1⟩
  have release : ∀ pos, ∃ c', c.release S v pos = .ok c' ∧ c'.editor.input = c.editor.input ∧
      c'.Kept S := by
    intro pos
    obtain ⟨p, h1, h2⟩ := hpos pos
    obtain ⟨ed', h3, h4, h5, -⟩ := select_exact hS hc hG (.extendSelection p) (.inl ⟨p, rfl⟩)
      (fun ed' _ => ⟨h2, .inl (.inl hc.quiet)⟩)
    have h6 : CalmRun S.env ed'.finishSelection :=
      h4.step (op := .finishSelection) rfl trivial (by rw [h5]; exact hc.fits)
    obtain ⟨hw', hv'⟩ := C26_calm_partial h6
    have h7 := renderCarets_ok (G := v.after)
      (c := { c with editor := ed'.finishSelection, pointerDown := false })
      (shown_of hS hw' (by
        show S.grammar.parse ed'.input = .ok c.tree
        rw [h5]; exact hc.sync.tree) hc.sync.result) hv' hG
    have h3' : c.editor.extendSelection S.env p = .ok ed' := h3
    refine ⟨{ c with editor := ed'.finishSelection, pointerDown := false }, ?_, h5,
      ⟨?_, hc.sync.result⟩, fun _ => h6⟩
    · simp only [Component.release, h1, M.ok_bind, h3', h7]
    · show S.grammar.parse ed'.input = .ok c.tree
      rw [h5]; exact hc.sync.tree
  cases ev with
  | pointerUp pos => exact release pos
  | pointerCancel pos => exact release pos
  | pointerMove pos =>
    simp only [step]
    split
    · obtain ⟨p, h1, h2⟩ := hpos pos
      obtain ⟨ed', h3, h4, h5, h6⟩ := select_exact hS hc hG (.extendSelection p) (.inl ⟨p, rfl⟩)
        (fun ed' _ => ⟨h2, .inl (.inl hc.quiet)⟩)
      simp only [h1, M.ok_bind]
      exact ⟨_, h6, h5, kept h4 h5⟩
    · exact same
  | mouseDown pos clicks =>
    simp only [step]
    split
    · obtain ⟨p, h1, h2⟩ := hpos pos
      simp only [h1, M.ok_bind]
      split
      · obtain ⟨ed', h3, h4, h5, h6⟩ := select_exact hS hc hG (.startSelection p .word)
          (.inr ⟨p, _, rfl⟩) (fun ed' _ => ⟨h2, .inl (.inl hc.quiet)⟩)
        exact ⟨_, h6, h5, kept h4 h5⟩
      · split
        · obtain ⟨ed', h3, h4, h5, h6⟩ := select_exact hS hc hG (.startSelection p .line)
            (.inr ⟨p, _, rfl⟩) (fun ed' _ => ⟨h2, .inl (.inl hc.quiet)⟩)
          exact ⟨_, h6, h5, kept h4 h5⟩
        · exact same
    · exact same
  | _ => exact hev.elim

/-- **C62.** Setting the attribute, or putting the component into a document, while the caret is in
the outermost row and not behind the end of the new formula: this throws exactly when the new
formula cannot be shown. For other carets see C56. -/
theorem _root_.Aftermath.C62_set_partial (hS : S.Ships x) (hc : c.Calm S)
    (hG : ∀ p, 0 < v.after.fontSize p) {d : Dom} {r : Row} {es : List ImportError} {ev : Event}
    (hev : ev = .connect d ∨ ev = .setAttribute d)
    (hd : fromElement S.browser d = .ok (r, es)) (he : ∀ d', d.Reads d' → ¬ d'.EmptyTable)
    (h1 : c.editor.caret.start.rowIndices = []) (h2 : c.editor.caret.stop.rowIndices = [])
    (h3 : c.editor.caret.start.offset ≤ r.length) (h4 : c.editor.caret.stop.offset ≤ r.length) :
    ((∃ p, c.step S v ev = .error p) ↔ Unshowable S r) ∧
    ∀ c', c.step S v ev = .ok c' → c'.Kept S ∧ c'.editor.input = r ∧
      c'.editor.caret = c.editor.caret := by
  have key : ∀ c : Component, c.Calm S → c.editor.caret.start.rowIndices = [] →
      c.editor.caret.stop.rowIndices = [] → c.editor.caret.start.offset ≤ r.length →
      c.editor.caret.stop.offset ≤ r.length →
      ((∃ p, c.setMathML S v.after d = .error p) ↔ Unshowable S r) ∧
      ∀ c', c.setMathML S v.after d = .ok c' → c'.Kept S ∧ c'.editor.input = r ∧
        c'.editor.caret = c.editor.caret := by
    intro c hc h1 h2 h3 h4
    obtain ⟨hw, hv⟩ := C26_calm_partial hc.run
    obtain ⟨hx, m, hm⟩ := id hS
    obtain ⟨ed', g1, g2, g3, g4, g5⟩ := setMathML_root (hm.fits hx).1 (env := S.env) rfl hw hv
      hc.sync.tree h1 h2 hd
    have hv' : ValidCaret ed'.input ed'.caret := by
      rw [g3, g4]; exact (C56_caret h1 h2).2 ⟨h3, h4⟩
    have hr : CalmRun S.env ed' :=
      hc.run.step g1 ⟨C54_wf hd he, hv', by rw [g3]; exact g5⟩ hc.fits
    obtain ⟨hw', -⟩ := C26_calm_partial hr
    obtain ⟨t, ht, h5⟩ := updateInput_exact (c := { c with editor := ed' }) hS (CalmRun.fresh hr) hw'
      hv' hG
    simp only at ht
    have hop : c.setMathML S v.after d = ({ c with editor := ed' } : Component).updateInput S v.after := by
      simp only [setMathML, g2, M.ok_bind]
    rw [hop]
    rw [g3] at ht
    rcases h5 with ⟨h5, p, h6⟩ | ⟨h5, e, h6, h7⟩
    · rw [h6]
      exact ⟨⟨fun _ => ⟨t, ht, h5⟩, fun _ => ⟨p, rfl⟩⟩, fun _ => nofun⟩
    · rw [h7]
      refine ⟨⟨nofun, ?_⟩, ?_⟩
      · rintro ⟨t', h8, h9⟩
        rw [ht] at h8
        cases h8
        exact absurd h9 h5
      · rintro _ ⟨⟩
        have ht' : S.grammar.parse ed'.input = .ok t := by rw [g3]; exact ht
        exact ⟨⟨⟨ht', h6⟩, fun hf => CalmRun.parsed hr hf ht'⟩, g3, g4⟩
  rcases hev with rfl | rfl
  · exact key { c with connected := true }
      ⟨hc.run, ⟨hc.sync.tree, hc.sync.result⟩, hc.quiet, hc.fits⟩ h1 h2 h3 h4
  · exact key c hc h1 h2 h3 h4

/-- **C62.** Making a component never throws. -/
theorem _root_.Aftermath.C62_new (hS : S.Ships x) : ∃ c, Component.new S = .ok c ∧ c.Calm S ∧
    c.editor.input = [] ∧ c.editor.caret = .at ⟨[], 0⟩ := by
  obtain ⟨hx, m, hm⟩ := hS
  obtain ⟨t, e, ht, he⟩ := C57_row_partial hx hm (row := []) rfl
    (by rintro ⟨p, row, i, n, hr, h1, -⟩; rcases p with _ | ⟨⟨a, b⟩, p⟩
        · cases hr; simp at h1
        · simp [rowAt] at hr)
    (by rintro ⟨p, row, i, n, hr, h1, -⟩; rcases p with _ | ⟨⟨a, b⟩, p⟩
        · cases hr; simp at h1
        · simp [rowAt] at hr)
  have hp : S.env.parse [] = .ok t := ht
  refine ⟨⟨{ Editor.new with parsed := some t }, t, e, false, false, [], none⟩, ?_,
    ⟨CalmRun.parsed .new (fun _ => rfl) ht, ⟨ht, he⟩, ⟨_, rfl⟩, fun _ => rfl⟩, rfl, rfl⟩
  simp only [Component.new, Editor.getSyntaxTree, Editor.new, hp, M.ok_bind, he]

/-- The caret is directly behind a token: symbols that together are the text of a rule. -/
def BehindToken (rules : List AutocompleteRule) (root : Row) (m : MinCaret) : Prop :=
  ∃ q o row ss, m = .at ⟨q, o⟩ ∧ rowAt root q = some row ∧ SymbolsLeftOf row o ss ∧
    ∃ r ∈ rules, ss.flatten = r.parser

/-- **C62.** How events are chained: what an event leaves satisfies the hypothesis of these theorems
again, as long as the caret is not behind a token or an empty symbol. -/
theorem _root_.Aftermath.C62_calm (hk : c.Kept S) (hf : S.Fits c.editor.input)
    (ht : ¬ BehindToken shippedAutocomplete c.editor.input c.editor.caret)
    (he : NoEmptySymbolLeft c.editor.input c.editor.caret) : c.Calm S := by
  have hr := hk.2 hf
  obtain ⟨hw, hv⟩ := C26_calm_partial hr
  have hg : GoodRules shippedAutocomplete := by unfold GoodRules Ascii; decide +kernel
  obtain ⟨e, ac, h⟩ := startAutocorrect_ok (env := S.env) hw hv hg he
  cases ac with
  | none => exact ⟨hr, hk.1, ⟨e, h⟩, hf⟩
  | some ac =>
    obtain ⟨q, o, row, init, last, h1, h2, h3, -, -, h4, h5, h6⟩ := startAutocorrect_token hw h
    refine absurd ⟨q, o, row, _, h1, h2, h3, _, h4, h5.eq_of_length ?_⟩ ht
    have ha : Ascii ac.rule.parser := (hg _ h4).2
    obtain ⟨rest, hrest⟩ := h5
    have hi : Ascii init.flatten := fun k hk => ha k (by rw [← hrest]; simp at hk ⊢; exact .inl hk)
    rw [hi.utf8Len, ha.utf8Len] at h6
    have hl := congrArg List.length hrest
    simp only [List.length_append, List.flatten_append, List.flatten_cons, List.flatten_nil,
      List.append_nil] at hl ⊢
    have : last ≠ [] := by
      rintro rfl
      obtain ⟨g1, before, g2⟩ := h3
      exact he q o row h1 h2 ⟨g1, before ++ init.map Node.symbol, by simp [g2]⟩
    have := List.length_pos_iff.2 this
    omega

end Component

/-- `x²`, as MathML. -/
def squareDom : Dom := .elem .math [] [.elem .msup [] [.elem .mi ['x'] [], .elem .mn ['2'] []]]

/-- The caret is moved behind the `2`, out of the superscript, and a space is typed. -/
def squareEvents : List (View × Event) :=
  [(sumView, .connect squareDom), (sumView, .arrow .right), (sumView, .arrow .right),
    (sumView, .arrow .right), (sumView, .arrow .right), (sumView, .beforeInput (.insertText [' ']))]

/-- **C62, negation.** Typing a space behind `x²` throws: no key is ignored, and yet the formula
with the space is not shown. -/
theorem C62_not : ∃ S c, S.Ships letterXid ∧ Component.Reached S c ∧
    c.editor.input = [.symbol ['x'], .sup [.symbol ['2']]] ∧ c.editor.caret = .at ⟨[], 2⟩ ∧
    c.tasks = [.insertText (some [' '])] ∧ ∃ p, c.step S sumView .timer = .error p := by
  have h : afterEvents squareEvents (fun S c => (c.editor.input, c.editor.caret, c.tasks,
      (c.step S sumView .timer).toOption.isSome)) =
      some ([.symbol ['x'], .sup [.symbol ['2']]], .at ⟨[], 2⟩, [.insertText (some [' '])], false) := by
    decide +kernel
  obtain ⟨S, c, hS, hc, h1⟩ := afterEvents_ok h
  simp only [Prod.mk.injEq] at h1
  obtain ⟨h2, h3, h4, h5⟩ := h1
  refine ⟨S, c, hS, hc, h2, h3, h4, ?_⟩
  cases hs : c.step S sumView .timer with
  | error p => exact ⟨p, rfl⟩
  | ok c' => rw [hs] at h5; cases h5

/-- There are settings and states to which these theorems apply: a new component. -/
example : ∃ (S : Setting) (c : Component), S.Ships letterXid ∧ c.Calm S := by
  obtain ⟨S, -, hS, -⟩ := C62_not
  obtain ⟨c, -, hc, -⟩ := C62_new hS
  exact ⟨S, c, hS, hc⟩

/-- A formula is read, `a+` is typed into the numerator, and the caret is moved left: nothing
throws. -/
example : afterEvents [(sumView, .connect sumDom), (sumView, .arrow .right),
    (sumView, .beforeInput (.insertText ['a', '+'])), (sumView, .timer), (sumView, .arrow .left)]
    (fun _ c => (c.editor.input, c.editor.caret)) =
    some ([.fraction ([.symbol ['a'], .symbol ['+']] ++
      sumNumerator [.symbol ['s'], .symbol ['u'], .symbol ['m']]) [.symbol ['1']]],
      .at ⟨[(0, 0)], 1⟩) := by
  decide +kernel

end Aftermath
