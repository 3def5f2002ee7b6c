import Verif.Props.Component

/-! # Calls of the component in calm states -/

namespace Aftermath

theorem track_root {cfg : Cfg} {old : Row} {k : Nat} (h : k ≤ old.length) (new : Row) :
    (⟨[], k⟩ : MinPos).applyEdits cfg [.row ⟨.delete, ⟨[], 0⟩, old⟩, .row ⟨.insert, ⟨[], 0⟩, new⟩] =
      .ok ⟨[], 0⟩ := by
  have h0 : k - old.length = 0 := by omega
  have h1 : (if 0 < k then 0 else k) = 0 := by split <;> omega
  simp [MinPos.applyEdits, MinPos.applyEdit, MinRange.applyEdit, BasicEdit.getRowIndicesEdit,
    RowEdit.getRowIndicesEdit, startsWith, M.ok_bind, RowIndicesEdit.isInsert, h0]
  simp only [h1]
  by_cases h2 : 0 < new.length
  · simp [h2, M.ok_bind]
  · have : new.length = 0 := by omega
    simp [this, M.ok_bind]

/-- Setting the attribute from the outermost row. -/
theorem setMathML_root {g : Grammar} (hg : g.Good) {env : Env SNode} (hp : env.parse = g.parse)
    {b : Browser} {ed : Editor SNode} (hwf : rowWf ed.input = true)
    (hv : ValidCaret ed.input ed.caret)
    {t : SNode} (ht : env.parse ed.input = .ok t) (h1 : ed.caret.start.rowIndices = [])
    (h2 : ed.caret.stop.rowIndices = []) {d : Dom} {r : Row} {es : List ImportError}
    (hd : fromElement b d = .ok (r, es)) :
    ∃ ed', ed.step env (.spliceAtRange ⟨[], t.lo, t.hi⟩ r) = .ok ed' ∧
      ed.setMathML env b t.lo t.hi d = .ok ed' ∧ ed'.input = r ∧ ed'.caret = ed.caret ∧
      ∀ a, ed'.undo.undoStack.head? = some a → ValidCaret r a.caretAfter := by
  obtain ⟨ed', h3, h4, h5, -⟩ := C56_set_partial (b := b) hg hp hwf ht h1 h2 hd
  have h6 : ed.step env (.spliceAtRange ⟨[], t.lo, t.hi⟩ r) = .ok ed' := by
    simp only [Editor.setMathML, hd, M.ok_bind] at h3
    exact h3
  refine ⟨ed', h6, h3, h4, h5, ?_⟩
  rw [hp] at ht
  obtain ⟨t', ht', hf⟩ := parse_ok hg hwf
  rw [ht] at ht'
  cases ht'
  simp only [Editor.step] at h6
  unfold Editor.spliceAtRange at h6
  obtain ⟨rr, hrr, h4⟩ := M.bind_eq_ok.1 h6
  obtain ⟨hfo, hb, hm⟩ := RowRange.fromMinimal_sound hrr
  rw [replaceRange_eq hfo hb r] at h4
  have hrow : rr.focus.row = ed.input := by
    have := hfo.rowAt_eq
    simp only [rowAt, Option.some.injEq] at this
    exact this.symm
  have hl : rr.leftOffset = 0 ∧ rr.rightOffset = ed.input.length := by
    have e1 : rr.start = t.lo := congrArg MinRange.start hm
    have e2 : rr.stop = t.hi := congrArg MinRange.stop hm
    simp only [RowRange.leftOffset, RowRange.rightOffset, RowRange.isForwards, e1, e2, hf.lo_eq,
      hf.hi_eq]
    simp
  have hde : deleteEdit [] ed.input 0 ed.input.length =
      .row ⟨.delete, ⟨[], 0⟩, ed.input⟩ := by simp [deleteEdit]
  simp only [hl.1, hl.2, hrow, hde, M.ok_bind] at h4
  have key : ∀ {p : MinPos}, p.rowIndices = [] → ValidPos ed.input p →
      p.applyEdits env.cfg [.row ⟨.delete, ⟨[], 0⟩, ed.input⟩, .row ⟨.insert, ⟨[], 0⟩, r⟩] =
        .ok ⟨[], 0⟩ := by
    rintro ⟨q, k⟩ rfl ⟨row, h7, h8⟩
    cases h7
    exact track_root h8 r
  rw [key h1 hv.1, key h2 hv.2] at h4
  simp only [M.ok_bind, Editor.finish, List.isEmpty_cons, Bool.false_eq_true, if_false] at h4
  obtain ⟨⟨e, act⟩, he, h7⟩ := M.bind_eq_ok.1 h4
  cases h7
  obtain ⟨input, hi, h8⟩ := M.bind_eq_ok.1 he
  cases h8
  rintro a ⟨⟩
  exact ⟨⟨r, rfl, Nat.zero_le _⟩, ⟨r, rfl, Nat.zero_le _⟩⟩
/-- The formula fits into memory, which matters only in builds without overflow checks. -/
def Setting.Fits (S : Setting) (row : Row) : Prop :=
  S.cfg.checks = false → rowFits S.cfg.bits row = true

/-- A state of the component with which nothing is wrong: the editor got there without replacing a
token (C26), what is shown belongs to the formula (C61), and no token is about to be replaced. In
builds without overflow checks the formula fits into memory. -/
structure Component.Calm (S : Setting) (c : Component) : Prop where
  run : CalmRun S.env c.editor
  sync : c.InSync S
  quiet : ∃ e, c.editor.startAutocorrect S.env = .ok (e, none)
  fits : S.Fits c.editor.input

namespace Component

variable {S : Setting} {x : Xid} {c c' : Component} {G : Geom} {v : View}

theorem CalmRun.reachable {T : Type} {env : Env T} {ed : Editor T} (h : CalmRun env ed) :
    Reachable env ed := by
  induction h with
  | new => exact ⟨[], rfl⟩
  | @step ed ed' op h hs hc hfit ih =>
    obtain ⟨ops, hr⟩ := ih
    refine ⟨ops ++ [op], ?_⟩
    clear h hc hfit
    generalize Editor.new = e0 at hr ⊢
    induction ops generalizing e0 with
    | nil => cases hr; simp only [List.nil_append, Editor.run, hs, M.ok_bind]
    | cons o ops ih =>
      simp only [Editor.run] at hr
      obtain ⟨e1, h3, h4⟩ := M.bind_eq_ok.1 hr
      simp only [List.cons_append, Editor.run, h3, M.ok_bind]
      exact ih e1 h4

theorem CalmRun.fresh {T : Type} {env : Env T} {ed : Editor T} (h : CalmRun env ed) :
    Fresh env ed := by
  obtain ⟨ops, h⟩ := CalmRun.reachable h
  exact Fresh.run (ed := Editor.new) (fun t ht => by cases ht) h

theorem getSyntaxTree_eq {env : Env SNode} {ed : Editor SNode} {t : SNode} (hf : Fresh env ed)
    (h : env.parse ed.input = .ok t) :
    ed.getSyntaxTree env = .ok ({ ed with parsed := some t }, t) := by
  unfold Editor.getSyntaxTree
  cases hp : ed.parsed with
  | some t' =>
    have := hf _ hp
    rw [h] at this
    cases this
    simp only [← hp]
  | none => simp only [h, M.ok_bind]

theorem renderCarets_ok {x : Xid} (hs : Shown x c.editor.input c.result)
    (hv : ValidCaret c.editor.input c.editor.caret) (hG : ∀ p, 0 < G.fontSize p) :
    c.renderCarets G = .ok () := by
  unfold renderCarets
  split
  · obtain ⟨sel, h1, h2⟩ := C58_draw hs hG hv
    have : c.editor.getCaret = .ok sel := h1
    rw [this]
    exact h2
  · rfl

theorem shown_of {t : SNode} {e : RElem} (hS : S.Ships x) {row : Row} (hw : rowWf row = true)
    (ht : S.grammar.parse row = .ok t) (he : renderAll S.renderers t = .ok e) : Shown x row e :=
  ⟨hS.1, hw, _, _, _, t, hS.2.choose_spec, ht, he⟩

/-- `updateInput` throws exactly when the tree of the formula has spaces around a script. -/
theorem updateInput_exact (hS : S.Ships x) (hf : Fresh S.env c.editor)
    (hw : rowWf c.editor.input = true) (hv : ValidCaret c.editor.input c.editor.caret)
    (hG : ∀ p, 0 < G.fontSize p) : ∃ t, S.grammar.parse c.editor.input = .ok t ∧
      ((SpacedScript S.grammar.builtIn t ∧ ∃ p, c.updateInput S G = .error p) ∨
      (¬ SpacedScript S.grammar.builtIn t ∧ ∃ e, renderAll S.renderers t = .ok e ∧
        c.updateInput S G = .ok { c with
          editor := { c.editor with parsed := some t }, tree := t, result := e })) := by
  obtain ⟨hx, m, hm⟩ := id hS
  obtain ⟨t, ht, hr⟩ := C57_partial hx hm hw
  refine ⟨t, ht, ?_⟩
  have hg : c.editor.getSyntaxTree S.env = .ok ({ c.editor with parsed := some t }, t) :=
    getSyntaxTree_eq hf ht
  by_cases hs : SpacedScript S.grammar.builtIn t
  · refine .inl ⟨hs, ?_⟩
    unfold updateInput
    simp only [hg, M.ok_bind]
    cases he : renderAll S.renderers t with
    | ok e => exact absurd hs (hr.1 ⟨e, he⟩)
    | error p => exact ⟨p, rfl⟩
  · obtain ⟨e, he⟩ := hr.2 hs
    refine .inr ⟨hs, e, he, ?_⟩
    have h1 := renderCarets_ok (G := G)
      (c := { c with editor := { c.editor with parsed := some t }, tree := t, result := e })
      (shown_of hS hw ht he) hv hG
    unfold updateInput
    simp only [hg, M.ok_bind, he, h1]

/-- Asking for the syntax tree belongs to a calm run. -/
theorem CalmRun.parsed {ed : Editor SNode} {t : SNode} (h : CalmRun S.env ed)
    (hfit : S.Fits ed.input) (ht : S.grammar.parse ed.input = .ok t) :
    CalmRun S.env { ed with parsed := some t } := by
  refine h.step (op := .getSyntaxTree) ?_ trivial hfit
  simp only [Editor.step, getSyntaxTree_eq (CalmRun.fresh h) (show S.env.parse ed.input = .ok t from ht),
    M.ok_bind]

/-- An editor call followed by `updateInput`. -/
theorem edit_exact (hS : S.Ships x) (hc : c.Calm S) (hG : ∀ p, 0 < G.fontSize p) (op : Op)
    (hop : ∀ r vs, op ≠ .spliceAtRange r vs)
    (hcalm : ∀ ed', c.editor.step S.env op = .ok ed' → op.Calm S.env c.editor ed') :
    (op.Panics S.env c.editor ∧ ∃ p, c.edit S G op = .error p) ∨
    (¬ op.Panics S.env c.editor ∧ ∃ ed' t, c.editor.step S.env op = .ok ed' ∧
      CalmRun S.env ed' ∧ S.grammar.parse ed'.input = .ok t ∧
      ((SpacedScript S.grammar.builtIn t ∧ ∃ p, c.edit S G op = .error p) ∨
      (¬ SpacedScript S.grammar.builtIn t ∧ ∃ e, renderAll S.renderers t = .ok e ∧
        c.edit S G op = .ok { c with
          editor := { ed' with parsed := some t }, tree := t, result := e }))) := by
  obtain ⟨e0, hq⟩ := hc.quiet
  have hx := C27_exact_partial hc.run hc.fits hq op hop
  cases hs : c.editor.step S.env op with
  | error p =>
    refine .inl ⟨hx.1 ⟨p, hs⟩, p, ?_⟩
    unfold edit
    rw [hs]; rfl
  | ok ed' =>
    have hn : ¬ op.Panics S.env c.editor := fun h => by
      obtain ⟨p, hp⟩ := hx.2 h
      rw [hp] at hs; cases hs
    have hr : CalmRun S.env ed' := hc.run.step hs (hcalm _ hs) hc.fits
    obtain ⟨hw, hv⟩ := C26_calm_partial hr
    obtain ⟨t, ht, h1⟩ := updateInput_exact (c := { c with editor := ed' }) (G := G) hS
      (CalmRun.fresh hr) hw hv hG
    refine .inr ⟨hn, ed', t, rfl, hr, ht, ?_⟩
    unfold edit
    simp only [hs, M.ok_bind]
    exact h1

/-- The formula that is shown has no spaces around scripts. -/
theorem Calm.not_spaced (hS : S.Ships x) (hc : c.Calm S) :
    ¬ SpacedScript S.grammar.builtIn c.tree := by
  obtain ⟨hx, m, hm⟩ := hS
  obtain ⟨t, ht, hr⟩ := C57_partial hx hm (C26_calm_partial hc.run).1
  have := hc.sync.tree
  rw [ht] at this
  cases this
  exact hr.1 ⟨_, hc.sync.result⟩

/-- A call that leaves the formula alone, followed by `updateInput`. -/
theorem edit_same (hS : S.Ships x) (hc : c.Calm S) (hG : ∀ p, 0 < G.fontSize p) (op : Op)
    (hop : ∀ r vs, op ≠ .spliceAtRange r vs)
    (hcalm : ∀ ed', c.editor.step S.env op = .ok ed' →
      op.Calm S.env c.editor ed' ∧ ed'.input = c.editor.input) :
    (op.Panics S.env c.editor ∧ ∃ p, c.edit S G op = .error p) ∨
    (¬ op.Panics S.env c.editor ∧ ∃ ed', c.editor.step S.env op = .ok ed' ∧ CalmRun S.env ed' ∧
      c.edit S G op = .ok { c with editor := { ed' with parsed := some c.tree } }) := by
  rcases edit_exact hS hc hG op hop (fun ed' h => (hcalm ed' h).1) with h | ⟨h1, ed', t, h2, h3, h4, h5⟩
  · exact .inl h
  · rw [(hcalm ed' h2).2, hc.sync.tree] at h4
    cases h4
    rcases h5 with ⟨h5, -⟩ | ⟨-, e, h6, h7⟩
    · exact absurd h5 (hc.not_spaced hS)
    · have := hc.sync.result
      rw [h6] at this
      cases this
      exact .inr ⟨h1, ed', h2, h3, h7⟩

theorem Calm.no_token (hc : c.Calm S) : ∀ e res m,
    c.editor.getAutocomplete S.env = .ok (e, some res) →
      res.matches'[res.selectedIndex]? = some m → m.isComplete = false := by
  intro e res m h1 h2
  obtain ⟨e0, hq⟩ := hc.quiet
  unfold Editor.startAutocorrect at hq
  simp only [h1, M.ok_bind, AutocompleteResults.startAutocorrect, AutocompleteResults.getSelected,
    h2, munwrap] at hq
  cases hm : m.isComplete with
  | false => rfl
  | true =>
    rw [hm] at hq
    simp [M.ok_bind] at hq

/-- An editor call of the pointer without `updateInput`. -/
theorem select_exact (hS : S.Ships x) (hc : c.Calm S) (hG : ∀ p, 0 < G.fontSize p) (op : Op)
    (hop : (∃ p, op = .extendSelection p) ∨ ∃ p m, op = .startSelection p m)
    (hcalm : ∀ ed', c.editor.step S.env op = .ok ed' → op.Calm S.env c.editor ed') :
    ∃ ed', c.editor.step S.env op = .ok ed' ∧ CalmRun S.env ed' ∧
      ed'.input = c.editor.input ∧ c.select S G op = .ok { c with editor := ed' } := by
  obtain ⟨e0, hq⟩ := hc.quiet
  have hx := C27_exact_partial hc.run hc.fits hq op
    (by rcases hop with ⟨p, rfl⟩ | ⟨p, m, rfl⟩ <;> exact fun _ _ => nofun)
  cases hs : c.editor.step S.env op with
  | error p =>
    have := hx.1 ⟨p, hs⟩
    rcases hop with ⟨p, rfl⟩ | ⟨p, m, rfl⟩ <;> exact this.elim
  | ok ed' =>
    have hr : CalmRun S.env ed' := hc.run.step hs (hcalm _ hs) hc.fits
    have hi : ed'.input = c.editor.input :=
      (C25_moves_no_token _ (by
        rcases hop with ⟨p, rfl⟩ | ⟨p, m, rfl⟩
        · exact .inr (.inr (.inr ⟨_, rfl⟩))
        · exact .inr (.inr (.inl ⟨_, _, rfl⟩))) hc.no_token hs).1
    obtain ⟨hw, hv⟩ := C26_calm_partial hr
    refine ⟨ed', rfl, hr, hi, ?_⟩
    have h1 := renderCarets_ok (G := G) (c := { c with editor := ed' })
      (shown_of hS hw (by simp only; rw [hi]; exact hc.sync.tree) hc.sync.result) hv hG
    unfold select
    simp only [hs, M.ok_bind, h1]

end Component

end Aftermath
