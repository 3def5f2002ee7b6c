import Verif.Spec.Keyboard
import Verif.Proof.Calm
import Verif.Proof.HandlerLeft
import Verif.Props.Selection

/-! # Carets without selection -/

namespace Aftermath

variable {T : Type} {env : Env T}

/-- Nothing is selected, and nothing was selected at any time that undo and redo lead to. -/
structure Unselected (ed : Editor T) : Prop where
  caret : ed.caret.Collapsed
  undo : ∀ a ∈ ed.undo.undoStack, a.caretBefore.Collapsed ∧ a.caretAfter.Collapsed
  redo : ∀ a ∈ ed.undo.redoStack, a.caretBefore.Collapsed ∧ a.caretAfter.Collapsed

theorem unselected_new : Unselected (Editor.new : Editor T) := ⟨rfl, nofun, nofun⟩

theorem Unselected.quiet {ed ed' : Editor T} (h : Unselected ed) (hq : Quiet env ed ed')
    (hc : ed'.caret = ed.caret) : Unselected ed' := by
  refine ⟨?_, ?_, ?_⟩
  · rw [hc]; exact h.caret
  · rw [hq.undo]; exact h.undo
  · rw [hq.undo]; exact h.redo

theorem finish_unselected {ed ed1 : Editor T} {edits : List BasicEdit} {m : MinCaret}
    {act : CaretEdit} (h : Unselected ed) (hm : m.Collapsed)
    (hf : ed.finish env edits m = .ok (ed1, act)) : Unselected ed1 := by
  unfold Editor.finish at hf
  cases edits with
  | nil => cases hf; exact ⟨hm, h.undo, h.redo⟩
  | cons e es =>
    simp only [List.isEmpty_cons, Bool.false_eq_true, if_false] at hf
    obtain ⟨root', h1, h2⟩ := M.bind_eq_ok.1 hf
    cases h2
    refine ⟨hm, fun a ha => ?_, nofun⟩
    rcases List.mem_cons.1 ha with rfl | ha
    · exact ⟨h.caret, hm⟩
    · exact h.undo a ha

theorem splice_unselected {ed ed' : Editor T} {range : MinRange} {values : List Node}
    (h : Unselected ed) (hs : ed.spliceAtRange env range values = .ok ed') : Unselected ed' := by
  unfold Editor.spliceAtRange at hs
  obtain ⟨r, hr, h1⟩ := M.bind_eq_ok.1 hs
  obtain ⟨⟨edits, x⟩, -, h1⟩ := M.bind_eq_ok.1 h1
  obtain ⟨a, ha, h2⟩ := M.bind_eq_ok.1 h1
  obtain ⟨b, hb, h3⟩ := M.bind_eq_ok.1 h2
  obtain ⟨⟨e, act⟩, he, h4⟩ := M.bind_eq_ok.1 h3
  cases h4
  rw [show ed.caret.start = ed.caret.stop from h.caret, hb] at ha
  cases ha
  have := finish_unselected h (m := ⟨a, a⟩) rfl he
  exact ⟨h.caret, this.undo, this.redo⟩

theorem applyAutocorrect_unselected {ed ed' : Editor T} {ac : Option AutocorrectAction}
    (ha : Unselected ed) (h : ed.applyAutocorrect env ac = .ok ed') : Unselected ed' := by
  cases ac with
  | none =>
    simp only [Editor.applyAutocorrect] at h
    cases h; exact ha
  | some ac =>
    simp only [Editor.applyAutocorrect] at h
    obtain ⟨c, hc, h1⟩ := M.bind_eq_ok.1 h
    split at h1
    · cases h1; exact ha
    · obtain ⟨range, hrange, h2⟩ := M.bind_eq_ok.1 h1
      split at h2
      · cases h2; exact ha
      · obtain ⟨vs, hvs, h3⟩ := M.bind_eq_ok.1 h2
        obtain ⟨ms, hms, h4⟩ := M.bind_eq_ok.1 h3
        split at h4
        · exact splice_unselected ha h4
        · cases h4; exact ha

theorem finishAndAutocorrect_unselected {ed ed' : Editor T} {ac : Option AutocorrectAction}
    {edits : List BasicEdit} {m : MinCaret} (ha : Unselected ed) (hm : m.Collapsed)
    (h : ed.finishAndAutocorrect env ac edits m = .ok ed') : Unselected ed' := by
  unfold Editor.finishAndAutocorrect at h
  obtain ⟨⟨e, act⟩, he, h1⟩ := M.bind_eq_ok.1 h
  obtain ⟨ac', hac, h2⟩ := M.bind_eq_ok.1 h1
  exact applyAutocorrect_unselected (finish_unselected ha hm he) h2

theorem insertNodes_unselected {ed ed' : Editor T} {ac : Option AutocorrectAction}
    {vs : List Node} (ha : Unselected ed) (h : ed.insertNodes env ac vs = .ok ed') :
    Unselected ed' := by
  unfold Editor.insertNodes at h
  obtain ⟨c, hcc, h2⟩ := M.bind_eq_ok.1 h
  split at h2
  · obtain ⟨⟨edits, p⟩, -, h3⟩ := M.bind_eq_ok.1 h2
    exact finishAndAutocorrect_unselected ha (m := ⟨p, p⟩) rfl h3
  · cases h2

/-- An arrow key does not select anything. -/
theorem moveCaret_collapsed {cfg : Cfg} {root : Row} {c c' : Caret} {d : Dir} {mode : MoveMode}
    (hc : c.toMinimal.Collapsed) (h : moveCaret cfg root c d mode = .ok c') :
    c'.toMinimal.Collapsed := by
  unfold moveCaret at h
  split at h
  · obtain ⟨o, -, h1⟩ := M.bind_eq_ok.1 h
    cases o with
    | none => cases h1; exact hc
    | some p =>
      obtain ⟨s, -, h2⟩ := M.bind_eq_ok.1 h1
      cases h2
      rfl
  · cases h; exact hc

theorem Unselected.step {ed ed' : Editor T} {op : Op} (ha : Unselected ed) (hop : ¬ op.Selects)
    (hs : ed.step env op = .ok ed') : Unselected ed' := by
  have start : ∀ {ed0 e : Editor T} {ac}, Unselected ed0 → ed0.startAutocorrect env = .ok (e, ac) →
      Unselected e := fun h0 h1 => h0.quiet (startAutocorrect_quiet h1).1 (startAutocorrect_quiet h1).2
  have query : ∀ {ed0 e : Editor T} {ac}, Unselected ed0 → ed0.getAutocomplete env = .ok (e, ac) →
      Unselected e := fun h0 h1 => h0.quiet (getAutocomplete_quiet h1).1 (getAutocomplete_quiet h1).2
  cases op with
  | undo =>
    simp only [Editor.step, Editor.undoOp, UndoRedo.undo] at hs
    obtain ⟨⟨e, b⟩, h1, h2⟩ := M.bind_eq_ok.1 hs
    cases h2
    cases hu : ed.undo.undoStack with
    | nil => rw [hu] at h1; cases h1; exact ha
    | cons a as =>
      rw [hu] at h1
      have := ha.undo
      rw [hu] at this
      simp only [Editor.applyAction] at h1
      obtain ⟨e', h3, h4⟩ := M.bind_eq_ok.1 h1
      obtain ⟨input, h5, h6⟩ := M.bind_eq_ok.1 h3
      cases h6
      cases h4
      refine ⟨(this a (by simp)).1, fun x hx => this x (by simp [hx]), fun x hx => ?_⟩
      rcases List.mem_cons.1 hx with rfl | hx
      · exact this _ (by simp)
      · exact ha.redo x hx
  | redo =>
    simp only [Editor.step, Editor.redoOp, UndoRedo.redo] at hs
    obtain ⟨⟨e, b⟩, h1, h2⟩ := M.bind_eq_ok.1 hs
    cases h2
    cases hu : ed.undo.redoStack with
    | nil => rw [hu] at h1; cases h1; exact ha
    | cons a as =>
      rw [hu] at h1
      have := ha.redo
      rw [hu] at this
      simp only [Editor.applyAction] at h1
      obtain ⟨e', h3, h4⟩ := M.bind_eq_ok.1 h1
      obtain ⟨input, h5, h6⟩ := M.bind_eq_ok.1 h3
      cases h6
      cases h4
      refine ⟨(this a (by simp)).2, fun x hx => ?_, fun x hx => this x (by simp [hx])⟩
      rcases List.mem_cons.1 hx with rfl | hx
      · exact this _ (by simp)
      · exact ha.undo x hx
  | moveCaret d m =>
    simp only [Editor.step, Editor.moveCaret] at hs
    obtain ⟨⟨e, ac⟩, he, h1⟩ := M.bind_eq_ok.1 hs
    obtain ⟨c, hcc, h2⟩ := M.bind_eq_ok.1 h1
    obtain ⟨c', hc', h3⟩ := M.bind_eq_ok.1 h2
    refine finishAndAutocorrect_unselected (start ha he) (moveCaret_collapsed ?_ hc') h3
    rw [(Caret.fromMinimal_sound hcc).2]
    exact (start ha he).caret
  | selectWithCaret d m => exact absurd trivial hop
  | selectAll => exact absurd trivial hop
  | extendSelection p => exact absurd trivial hop
  | removeAtCaret mode =>
    simp only [Editor.step, Editor.removeAtCaret] at hs
    obtain ⟨⟨e', b⟩, h0, he'⟩ := M.bind_eq_ok.1 hs
    cases he'
    obtain ⟨⟨e, ac⟩, he, h1⟩ := M.bind_eq_ok.1 h0
    obtain ⟨c, hcc, h2⟩ := M.bind_eq_ok.1 h1
    split at h2
    · obtain ⟨o, ho, h3⟩ := M.bind_eq_ok.1 h2
      cases o with
      | none => cases h3; exact start ha he
      | some x =>
        obtain ⟨edits, p⟩ := x
        obtain ⟨e2, he2, h4⟩ := M.bind_eq_ok.1 h3
        cases h4
        exact finishAndAutocorrect_unselected (start ha he) (m := ⟨p, p⟩) rfl he2
    · cases h2
  | insertAtCaret vs =>
    simp only [Editor.step, Editor.insertAtCaret] at hs
    obtain ⟨⟨e, ac⟩, he, h1⟩ := M.bind_eq_ok.1 hs
    exact insertNodes_unselected (start ha he) h1
  | startSelection p m =>
    simp only [Editor.step, Editor.startSelection] at hs
    obtain ⟨⟨e, ac⟩, he, h1⟩ := M.bind_eq_ok.1 hs
    exact finishAndAutocorrect_unselected (start (ed0 := { ed with selectionMode := some m })
      ⟨ha.caret, ha.undo, ha.redo⟩ he) (m := ⟨p, p⟩) rfl h1
  | finishSelection =>
    simp only [Editor.step] at hs
    cases hs
    exact ⟨ha.caret, ha.undo, ha.redo⟩
  | paste d k =>
    simp only [Editor.step, Editor.paste] at hs
    obtain ⟨⟨e', b⟩, h0, he'⟩ := M.bind_eq_ok.1 hs
    cases he'
    obtain ⟨⟨e, ac⟩, he, h1⟩ := M.bind_eq_ok.1 h0
    cases k with
    | false => cases h1
    | true =>
      simp only [if_true] at h1
      split at h1
      · cases h1; exact start ha he
      · obtain ⟨e2, he2, h2⟩ := M.bind_eq_ok.1 h1
        cases h2
        exact insertNodes_unselected (start ha he) he2
  | openAutocomplete =>
    simp only [Editor.step] at hs
    obtain ⟨⟨e, r⟩, he, h1⟩ := M.bind_eq_ok.1 hs
    cases h1
    exact query ha he
  | getAutocomplete =>
    simp only [Editor.step] at hs
    obtain ⟨⟨e, r⟩, he, h1⟩ := M.bind_eq_ok.1 hs
    cases h1
    exact query ha he
  | finishAutocomplete accept =>
    simp only [Editor.step, Editor.finishAutocomplete] at hs
    obtain ⟨⟨e', b⟩, h0, he'⟩ := M.bind_eq_ok.1 hs
    cases he'
    cases accept with
    | false => cases h0; exact ha
    | true =>
      simp only [Bool.not_true, Bool.false_eq_true, if_false] at h0
      obtain ⟨⟨e, r⟩, he, h1⟩ := M.bind_eq_ok.1 h0
      cases r with
      | none => cases h1; exact query ha he
      | some a =>
        obtain ⟨s, hsel, h2⟩ := M.bind_eq_ok.1 h1
        obtain ⟨e2, he2, h3⟩ := M.bind_eq_ok.1 h2
        cases h3
        exact splice_unselected (query ha he) he2
  | moveInAutocomplete d =>
    simp only [Editor.step, Editor.moveInAutocomplete] at hs
    obtain ⟨⟨e', b⟩, h0, he'⟩ := M.bind_eq_ok.1 hs
    cases he'
    obtain ⟨⟨e, r⟩, he, h1⟩ := M.bind_eq_ok.1 h0
    have hx := query ha he
    cases r with
    | none => cases h1; exact hx
    | some a =>
      obtain ⟨a', ha', h2⟩ := M.bind_eq_ok.1 h1
      obtain ⟨s, hs, h3⟩ := M.bind_eq_ok.1 h2
      cases h3
      exact ⟨hx.caret, hx.undo, hx.redo⟩
  | getSyntaxTree =>
    simp only [Editor.step, Editor.getSyntaxTree] at hs
    obtain ⟨⟨e, t⟩, he, h1⟩ := M.bind_eq_ok.1 hs
    cases h1
    split at he
    · cases he; exact ha
    · obtain ⟨t', ht', h2⟩ := M.bind_eq_ok.1 he
      cases h2
      exact ⟨ha.caret, ha.undo, ha.redo⟩
  | spliceAtRange r vs => exact splice_unselected ha hs

/-! ## The component -/

/-- All calls that the event may lead to, now or by its task, satisfy `P`. -/
def Event.Only (P : Op → Prop) (S : Setting) : Event → Prop
  | .arrow d => P (.moveCaret d .char)
  | .undoKey => P .undo
  | .redoKey => P .redo
  | .beforeInput i => ∀ op ∈ i.calls S, P op
  | .cut => P (.removeAtCaret .range)
  | .paste json text => P (.paste (if json.isEmpty then text else json) true)
  | .pointerDown _ => ∀ p, P (.startSelection p .char)
  | .pointerUp _ | .pointerCancel _ => (∀ p, P (.extendSelection p)) ∧ P .finishSelection
  | .pointerMove _ => ∀ p, P (.extendSelection p)
  | .mouseDown _ _ => ∀ p, P (.startSelection p .word) ∧ P (.startSelection p .line)
  | .connect d | .setAttribute d => ∀ nodes es r, fromElement S.browser d = .ok (nodes, es) →
      P (.spliceAtRange r nodes)
  | _ => True

namespace Component

open Handled

variable {S : Setting} {c c' : Component} {G : Geom} {v : View}

theorem run_invariant {I : Editor SNode → Prop} {P : Op → Prop}
    (hI : ∀ ed op ed', I ed → P op → ed.step S.env op = .ok ed' → I ed') {ops : List Op}
    {ed ed' : Editor SNode} (h0 : I ed) (hop : ∀ op ∈ ops, P op) (hs : ed.run S.env ops = .ok ed') :
    I ed' := by
  induction ops generalizing ed with
  | nil => cases hs; exact h0
  | cons op ops ih =>
    obtain ⟨e, h1, h2⟩ := M.bind_eq_ok.1 hs
    exact ih (hI _ _ _ h0 (hop op (by simp)) h1) (fun o ho => hop o (by simp [ho])) h2

/-- What the calls of an event keep, the event keeps, also when it ends with an exception. -/
theorem handle_invariant {I : Editor SNode → Prop} {P : Op → Prop}
    (hI : ∀ ed op ed', I ed → P op → ed.step S.env op = .ok ed' → I ed')
    (hT : P .getSyntaxTree) {ev : Event}
    (hc : I c.editor ∧ ∀ t ∈ c.tasks, ∀ op ∈ t.calls S, P op) (hev : ev.Only P S)
    (h : (c.handle S v ev).left = some c') :
    I c'.editor ∧ ∀ t ∈ c'.tasks, ∀ op ∈ t.calls S, P op := by
  obtain ⟨hw, ht⟩ := hc
  have after : ∀ {c0 c1 : Component} {ops : List Op}, After S ops c0 c1 → I c0.editor →
      c0.tasks = c.tasks → (∀ op ∈ ops, P op) →
      I c1.editor ∧ ∀ t ∈ c1.tasks, ∀ op ∈ t.calls S, P op := by
    intro c0 c1 ops h1 h2 h3 h4
    exact ⟨run_invariant hI h2 h4 h1.run, by rw [h1.tasks, h3]; exact ht⟩
  have edit : ∀ {c0 c1 : Component} {G : Geom} {op : Op}, (c0.handleEdit S G op).left = some c1 →
      I c0.editor → c0.tasks = c.tasks → P op →
      I c1.editor ∧ ∀ t ∈ c1.tasks, ∀ op ∈ t.calls S, P op := by
    intro c0 c1 G op h1 h2 h3 h4
    refine after (handleEdit_after h1).1 h2 h3 ?_
    simp only [List.mem_cons, List.not_mem_nil, or_false, forall_eq_or_imp, forall_eq]
    exact ⟨h4, hT⟩
  have select : ∀ {c1 : Component} {G : Geom} {op : Op}, (c.handleSelect S G op).left = some c1 →
      P op → I c1.editor ∧ ∀ t ∈ c1.tasks, ∀ op ∈ t.calls S, P op := by
    intro c1 G op h1 h4
    obtain ⟨h2, h3⟩ := handleSelect_after h1
    exact ⟨hI _ _ _ hw h4 h2, by rw [h3]; exact ht⟩
  have release : ∀ {c1 : Component} {pos : Coord}, (c.handleRelease S v pos).left = some c1 →
      (∀ p, P (.extendSelection p)) ∧ P .finishSelection →
      I c1.editor ∧ ∀ t ∈ c1.tasks, ∀ op ∈ t.calls S, P op := by
    intro c1 pos h1 h4
    rcases handleRelease_after h1 with ⟨rfl, -⟩ | ⟨p, ed, -, h2, rfl⟩
    · exact ⟨hw, ht⟩
    · exact ⟨hI _ .finishSelection _ (hI _ (.extendSelection p) _ hw (h4.1 p) h2) h4.2 rfl, ht⟩
  have mathml : ∀ {c0 c1 : Component} {G : Geom} {d : Dom},
      (c0.handleMathML S G d).left = some c1 → I c0.editor → c0.tasks = c.tasks →
      (∀ nodes es r, fromElement S.browser d = .ok (nodes, es) → P (.spliceAtRange r nodes)) →
      I c1.editor ∧ ∀ t ∈ c1.tasks, ∀ op ∈ t.calls S, P op := by
    intro c0 c1 G d h1 h2 h3 h4
    rcases handleMathML_after h1 with ⟨rfl, -⟩ | ⟨root, es, h5, h6⟩
    · exact ⟨h2, by rw [h3]; exact ht⟩
    · refine after h6 h2 h3 ?_
      simp only [List.mem_cons, List.not_mem_nil, or_false, forall_eq_or_imp, forall_eq]
      exact ⟨h4 root es _ h5, hT⟩
  cases ev with
  | arrow d => exact edit h hw rfl hev
  | undoKey => exact edit h hw rfl hev
  | redoKey => exact edit h hw rfl hev
  | otherKey =>
    refine after (redraw_after h).1 hw rfl ?_
    simp only [List.mem_cons, List.not_mem_nil, or_false, forall_eq]
    exact hT
  | beforeInput i =>
    cases h
    refine ⟨hw, fun t h => ?_⟩
    rcases List.mem_append.1 h with h | h
    · exact ht t h
    · rw [List.mem_singleton] at h
      subst h
      exact hev
  | timer =>
    obtain ⟨done, h1, -, h2, -⟩ := handleTasks_after c.tasks rfl h
    refine ⟨run_invariant hI hw ?_ h2, fun t h3 => ht t (by rw [h1]; simp [h3])⟩
    intro op hop
    obtain ⟨t, h3, h4⟩ := List.mem_flatMap.1 hop
    exact ht t (by rw [h1]; simp [h3]) op h4
  | copy => obtain ⟨data, -, h2⟩ := left_call h; cases h2; exact ⟨hw, ht⟩
  | cut =>
    obtain ⟨data, -, h2⟩ := left_call h
    exact edit h2 hw rfl hev
  | paste json text =>
    obtain ⟨⟨ed, ok⟩, h1, h2⟩ := left_call h
    have h3 : c.editor.step S.env (.paste (if json.isEmpty then text else json) true) = .ok ed := by
      simp only [Editor.step, h1, M.ok_bind]
    have h4 := hI _ (.paste (if json.isEmpty then text else json) true) _ hw hev h3
    cases ok with
    | true =>
      refine after (redraw_after h2).1 h4 rfl ?_
      simp only [List.mem_cons, List.not_mem_nil, or_false, forall_eq]
      exact hT
    | false => cases h2; exact ⟨h4, ht⟩
  | pointerDown pos =>
    rcases left_script h with ⟨rfl, -⟩ | ⟨p, -, h2⟩
    · exact ⟨hw, ht⟩
    · exact edit h2 hw rfl (hev p)
  | pointerUp pos => exact release h hev
  | pointerCancel pos => exact release h hev
  | pointerMove pos =>
    simp only [handle] at h
    split at h
    · rcases left_script h with ⟨rfl, -⟩ | ⟨p, -, h2⟩
      · exact ⟨hw, ht⟩
      · exact select h2 (hev p)
    · cases h; exact ⟨hw, ht⟩
  | mouseDown pos clicks =>
    simp only [handle] at h
    split at h
    · rcases left_script h with ⟨rfl, -⟩ | ⟨p, -, h2⟩
      · exact ⟨hw, ht⟩
      · split at h2
        · exact select h2 (hev p).1
        · split at h2
          · exact select h2 (hev p).2
          · cases h2; exact ⟨hw, ht⟩
    · cases h; exact ⟨hw, ht⟩
  | connect d => exact mathml h hw rfl hev
  | disconnect => cases h; exact ⟨hw, ht⟩
  | setAttribute d => exact mathml h hw rfl hev

theorem handleAll_invariant {I : Editor SNode → Prop} {P : Op → Prop}
    (hI : ∀ ed op ed', I ed → P op → ed.step S.env op = .ok ed' → I ed')
    (hT : P .getSyntaxTree) {evs : List (View × Event)}
    (hc : I c.editor ∧ ∀ t ∈ c.tasks, ∀ op ∈ t.calls S, P op) (hev : ∀ x ∈ evs, x.2.Only P S)
    (h : c.handleAll S evs = some c') :
    I c'.editor ∧ ∀ t ∈ c'.tasks, ∀ op ∈ t.calls S, P op := by
  induction evs generalizing c with
  | nil => cases h; exact hc
  | cons x evs ih =>
    obtain ⟨v, ev⟩ := x
    simp only [handleAll, Option.bind_eq_some_iff] at h
    obtain ⟨c1, h1, h2⟩ := h
    exact ih (handle_invariant hI hT hc (hev _ (List.mem_cons_self ..)) h1)
      (fun y hy => hev y (List.mem_cons_of_mem _ hy)) h2

end Component

end Aftermath
