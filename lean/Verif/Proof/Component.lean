import Verif.Spec.Component
import Verif.Proof.History

/-! # Lemmas about the component -/

namespace Aftermath

/-- The editor gets from one state to the other by public calls. -/
def Calls (env : Env SNode) (ed ed' : Editor SNode) : Prop := ∃ ops, ed.run env ops = .ok ed'

theorem Calls.refl {env : Env SNode} (ed : Editor SNode) : Calls env ed ed := ⟨[], rfl⟩

theorem Calls.trans {env : Env SNode} {a b c : Editor SNode} (h1 : Calls env a b)
    (h2 : Calls env b c) : Calls env a c := by
  obtain ⟨o1, h1⟩ := h1
  obtain ⟨o2, h2⟩ := h2
  refine ⟨o1 ++ o2, ?_⟩
  induction o1 generalizing a with
  | nil => cases h1; exact h2
  | cons op ops ih =>
    simp only [Editor.run] at h1
    obtain ⟨e, h3, h4⟩ := M.bind_eq_ok.1 h1
    simp only [List.cons_append, Editor.run, h3, M.ok_bind]
    exact ih h4

theorem Calls.one {env : Env SNode} {a b : Editor SNode} {op : Op} (h : a.step env op = .ok b) :
    Calls env a b := ⟨[op], by simp only [Editor.run, h, M.ok_bind]⟩

theorem Calls.fresh {env : Env SNode} {a b : Editor SNode} (h : Calls env a b) (hf : Fresh env a) :
    Fresh env b := by
  obtain ⟨ops, h⟩ := h
  exact hf.run h

namespace Component

variable {S : Setting} {c c' : Component} {G : Geom}

theorem updateInput_ok (h : c.updateInput S G = .ok c') :
    ∃ ed t e, c.editor.getSyntaxTree S.env = .ok (ed, t) ∧ renderAll S.renderers t = .ok e ∧
      c' = { c with editor := ed, tree := t, result := e } ∧ c'.renderCarets G = .ok () := by
  unfold updateInput at h
  obtain ⟨⟨ed, t⟩, h1, h2⟩ := M.bind_eq_ok.1 h
  obtain ⟨e, h3, h4⟩ := M.bind_eq_ok.1 h2
  obtain ⟨⟨⟩, h5, h6⟩ := M.bind_eq_ok.1 h4
  cases h6
  exact ⟨ed, t, e, h1, h3, rfl, h5⟩

theorem updateInput_calls (h : c.updateInput S G = .ok c') : Calls S.env c.editor c'.editor := by
  obtain ⟨ed, t, e, h1, -, rfl, -⟩ := updateInput_ok h
  exact .one (op := .getSyntaxTree) (by simp only [Editor.step, h1, M.ok_bind])

theorem getSyntaxTree_fresh {env : Env SNode} {ed ed' : Editor SNode} {t : SNode}
    (hf : Fresh env ed) (h : ed.getSyntaxTree env = .ok (ed', t)) :
    env.parse ed.input = .ok t ∧ ed'.input = ed.input := by
  unfold Editor.getSyntaxTree at h
  cases hp : ed.parsed with
  | some t' => rw [hp] at h; cases h; exact ⟨hf _ hp, rfl⟩
  | none =>
    rw [hp] at h
    obtain ⟨t', h1, h2⟩ := M.bind_eq_ok.1 h
    cases h2
    exact ⟨h1, rfl⟩

theorem updateInput_inSync (hf : Fresh S.env c.editor) (h : c.updateInput S G = .ok c') :
    c'.InSync S := by
  obtain ⟨ed, t, e, h1, h2, rfl, -⟩ := updateInput_ok h
  obtain ⟨h3, h4⟩ := getSyntaxTree_fresh hf h1
  exact ⟨h4 ▸ h3, h2⟩

theorem edit_ok {op : Op} (h : c.edit S G op = .ok c') :
    ∃ ed, c.editor.step S.env op = .ok ed ∧ ({ c with editor := ed }).updateInput S G = .ok c' :=
  M.bind_eq_ok.1 h

theorem edit_calls {op : Op} (h : c.edit S G op = .ok c') : Calls S.env c.editor c'.editor := by
  obtain ⟨ed, h1, h2⟩ := edit_ok h
  exact (Calls.one h1).trans (updateInput_calls h2)

theorem edit_inSync {op : Op} (hf : Fresh S.env c.editor) (h : c.edit S G op = .ok c') :
    c'.InSync S := by
  obtain ⟨ed, h1, h2⟩ := edit_ok h
  exact updateInput_inSync ((Calls.one h1).fresh hf) h2

theorem select_ok {op : Op} (h : c.select S G op = .ok c') :
    ∃ ed, c.editor.step S.env op = .ok ed ∧ c' = { c with editor := ed } ∧
      c'.renderCarets G = .ok () := by
  unfold select at h
  obtain ⟨ed, h1, h2⟩ := M.bind_eq_ok.1 h
  obtain ⟨⟨⟩, h3, h4⟩ := M.bind_eq_ok.1 h2
  cases h4
  exact ⟨ed, h1, rfl, h3⟩

theorem release_ok {v : View} {pos : Coord} (h : c.release S v pos = .ok c') :
    ∃ p ed, layoutPosition v.before pos c.result = .ok p ∧
      c.editor.extendSelection S.env p = .ok ed ∧
      c' = { c with editor := ed.finishSelection, pointerDown := false } ∧
      c'.renderCarets v.after = .ok () := by
  unfold release at h
  obtain ⟨p, h1, h2⟩ := M.bind_eq_ok.1 h
  obtain ⟨ed, h3, h4⟩ := M.bind_eq_ok.1 h2
  obtain ⟨⟨⟩, h5, h6⟩ := M.bind_eq_ok.1 h4
  cases h6
  exact ⟨p, ed, h1, h3, rfl, h5⟩

theorem setMathML_ok {d : Dom} (h : c.setMathML S G d = .ok c') :
    ∃ op ed, c.editor.step S.env op = .ok ed ∧
      ({ c with editor := ed }).updateInput S G = .ok c' := by
  unfold setMathML Editor.setMathML at h
  obtain ⟨ed, h1, h2⟩ := M.bind_eq_ok.1 h
  obtain ⟨⟨root, es⟩, -, h3⟩ := M.bind_eq_ok.1 h1
  exact ⟨.spliceAtRange ⟨[], c.tree.lo, c.tree.hi⟩ root, ed, h3, h2⟩

theorem copyData_ok (h : c.copyData = .ok c') :
    ∃ data, c.editor.copy = .ok data ∧ c' = { c with clipboard := some data } := by
  unfold copyData at h
  obtain ⟨data, h1, h2⟩ := M.bind_eq_ok.1 h
  cases h2
  exact ⟨data, h1, rfl⟩

/-- A task either leaves the component alone or is an editor call. -/
theorem runTask_cases {t : InputEvent} (h : c.runTask S G t = .ok c') :
    c' = c ∨ ∃ op, c.edit S G op = .ok c' := by
  rcases t with _ | _ | (_ | s) | _
  · exact .inr ⟨_, h⟩
  · exact .inr ⟨_, h⟩
  · cases h; exact .inl rfl
  · exact .inr ⟨_, h⟩
  · cases h; exact .inl rfl

theorem runTasks_calls {ts : List InputEvent} (h : c.runTasks S G ts = .ok c') :
    Calls S.env c.editor c'.editor := by
  induction ts generalizing c with
  | nil => cases h; exact .refl _
  | cons t ts ih =>
    unfold runTasks at h
    obtain ⟨c1, h1, h2⟩ := M.bind_eq_ok.1 h
    rcases runTask_cases h1 with rfl | ⟨op, h3⟩
    · exact ih h2
    · exact (edit_calls h3).trans (ih h2)

theorem runTasks_inSync {ts : List InputEvent} (hf : Fresh S.env c.editor) (hs : c.InSync S)
    (h : c.runTasks S G ts = .ok c') : c'.InSync S := by
  induction ts generalizing c with
  | nil => cases h; exact hs
  | cons t ts ih =>
    unfold runTasks at h
    obtain ⟨c1, h1, h2⟩ := M.bind_eq_ok.1 h
    rcases runTask_cases h1 with rfl | ⟨op, h3⟩
    · exact ih hf hs h2
    · exact ih ((edit_calls h3).fresh hf) (edit_inSync hf h3) h2

/-- The events that select with the pointer: at most one selection call, then nothing else but the
drawing of the carets. -/
theorem selects_ok {v : View} {ev : Event} (hev : ev.Selects) (h : c.step S v ev = .ok c') :
    c'.tree = c.tree ∧ c'.result = c.result ∧ (c'.editor = c.editor ∨
      ∃ (p : Coord × MinPos) (ed : Editor SNode), layoutPosition v.before p.1 c.result = .ok p.2 ∧
        (c.editor.step S.env (.extendSelection p.2) = .ok ed ∨
          ∃ m, c.editor.step S.env (.startSelection p.2 m) = .ok ed) ∧
        (c'.editor = ed ∨ c'.editor = ed.finishSelection)) := by
  cases ev with
  | pointerUp pos =>
    obtain ⟨p, ed, h1, h2, rfl, -⟩ := release_ok h
    exact ⟨rfl, rfl, .inr ⟨(pos, p), ed, h1, .inl h2, .inr rfl⟩⟩
  | pointerCancel pos =>
    obtain ⟨p, ed, h1, h2, rfl, -⟩ := release_ok h
    exact ⟨rfl, rfl, .inr ⟨(pos, p), ed, h1, .inl h2, .inr rfl⟩⟩
  | pointerMove pos =>
    simp only [step] at h
    split at h
    · obtain ⟨p, h1, h2⟩ := M.bind_eq_ok.1 h
      obtain ⟨ed, h3, rfl, -⟩ := select_ok h2
      exact ⟨rfl, rfl, .inr ⟨(pos, p), ed, h1, .inl h3, .inl rfl⟩⟩
    · cases h; exact ⟨rfl, rfl, .inl rfl⟩
  | mouseDown pos clicks =>
    simp only [step] at h
    split at h
    · obtain ⟨p, h1, h2⟩ := M.bind_eq_ok.1 h
      split at h2
      · obtain ⟨ed, h3, rfl, -⟩ := select_ok h2
        exact ⟨rfl, rfl, .inr ⟨(pos, p), ed, h1, .inr ⟨_, h3⟩, .inl rfl⟩⟩
      · split at h2
        · obtain ⟨ed, h3, rfl, -⟩ := select_ok h2
          exact ⟨rfl, rfl, .inr ⟨(pos, p), ed, h1, .inr ⟨_, h3⟩, .inl rfl⟩⟩
        · cases h2; exact ⟨rfl, rfl, .inl rfl⟩
    · cases h; exact ⟨rfl, rfl, .inl rfl⟩
  | _ => exact hev.elim

/-- An event that shows the formula anew ends with `updateInput`. -/
theorem redraws_ok {v : View} {ev : Event} (hev : ev.Redraws) (h : c.step S v ev = .ok c') :
    ∃ c1 : Component, Calls S.env c.editor c1.editor ∧ c1.updateInput S v.after = .ok c' := by
  cases ev with
  | arrow d => obtain ⟨ed, h1, h2⟩ := edit_ok h; exact ⟨_, .one h1, h2⟩
  | undoKey => obtain ⟨ed, h1, h2⟩ := edit_ok h; exact ⟨_, .one h1, h2⟩
  | redoKey => obtain ⟨ed, h1, h2⟩ := edit_ok h; exact ⟨_, .one h1, h2⟩
  | otherKey => exact ⟨c, .refl _, h⟩
  | cut =>
    simp only [step] at h
    obtain ⟨c1, h1, h2⟩ := M.bind_eq_ok.1 h
    obtain ⟨data, -, rfl⟩ := copyData_ok h1
    obtain ⟨ed, h3, h4⟩ := edit_ok h2
    exact ⟨_, .one h3, h4⟩
  | paste json text =>
    simp only [step] at h
    obtain ⟨⟨ed, ok⟩, h1, h2⟩ := M.bind_eq_ok.1 h
    cases ok with
    | false => cases h2
    | true => exact ⟨_, .one (op := .paste (if json.isEmpty then text else json) true)
        (b := ed) (by simp only [Editor.step, h1, M.ok_bind]), h2⟩
  | pointerDown pos =>
    simp only [step] at h
    obtain ⟨p, h1, h2⟩ := M.bind_eq_ok.1 h
    obtain ⟨ed, h3, h4⟩ := edit_ok h2
    exact ⟨_, .one h3, h4⟩
  | connect d => obtain ⟨op, ed, h1, h2⟩ := setMathML_ok h; exact ⟨_, .one h1, h2⟩
  | setAttribute d => obtain ⟨op, ed, h1, h2⟩ := setMathML_ok h; exact ⟨_, .one h1, h2⟩
  | _ => exact hev.elim

/-- Every event consists of editor calls. -/
theorem step_calls {v : View} {ev : Event} (h : c.step S v ev = .ok c') :
    Calls S.env c.editor c'.editor := by
  by_cases h1 : ev.Redraws
  · obtain ⟨c1, h2, h3⟩ := redraws_ok h1 h
    exact h2.trans (updateInput_calls h3)
  by_cases h1' : ev.Selects
  · obtain ⟨-, -, h2 | ⟨p, ed, -, h2, h3⟩⟩ := selects_ok h1' h
    · rw [h2]; exact .refl _
    have h4 : Calls S.env c.editor ed := by
      rcases h2 with h2 | ⟨m, h2⟩ <;> exact .one h2
    rcases h3 with h3 | h3
    · rw [h3]; exact h4
    · rw [h3]; exact h4.trans (.one (op := .finishSelection) rfl)
  cases ev with
  | beforeInput i => cases h; exact .refl _
  | timer => exact runTasks_calls (c := { c with tasks := [] }) h
  | copy => obtain ⟨data, -, rfl⟩ := copyData_ok h; exact .refl _
  | disconnect => cases h; exact .refl _
  | _ => first | exact absurd trivial h1 | exact absurd trivial h1'

theorem run_calls {evs : List (View × Event)} (h : c.run S evs = .ok c') :
    Calls S.env c.editor c'.editor := by
  induction evs generalizing c with
  | nil => cases h; exact .refl _
  | cons x evs ih =>
    obtain ⟨v, ev⟩ := x
    unfold run at h
    obtain ⟨c1, h1, h2⟩ := M.bind_eq_ok.1 h
    exact (step_calls h1).trans (ih h2)

theorem new_ok (h : Component.new S = .ok c) :
    Calls S.env Editor.new c.editor ∧ c.InSync S ∧ c.editor.input = [] := by
  unfold new at h
  obtain ⟨⟨ed, t⟩, h1, h2⟩ := M.bind_eq_ok.1 h
  obtain ⟨e, h3, h4⟩ := M.bind_eq_ok.1 h2
  cases h4
  obtain ⟨h5, h6⟩ := getSyntaxTree_fresh (fun t ht => by cases ht) h1
  refine ⟨.one (op := .getSyntaxTree) (by simp only [Editor.step, h1, M.ok_bind]), ⟨?_, h3⟩, h6⟩
  simp only at h6 ⊢
  rw [h6]; exact h5

theorem Reached.reachable (h : c.Reached S) : Reachable S.env c.editor := by
  obtain ⟨c0, evs, h1, h2⟩ := h
  exact (new_ok h1).1.trans (run_calls h2)

theorem Reached.fresh (h : c.Reached S) : Fresh S.env c.editor := by
  obtain ⟨ops, h⟩ := h.reachable
  exact Fresh.run (ed := Editor.new) (fun t ht => by cases ht) h

theorem Reached.step {v : View} {ev : Event} (h : c.Reached S) (hs : c.step S v ev = .ok c') :
    c'.Reached S := by
  obtain ⟨c0, evs, h1, h2⟩ := h
  refine ⟨c0, evs ++ [(v, ev)], h1, ?_⟩
  clear h1
  induction evs generalizing c0 with
  | nil => cases h2; simp only [List.nil_append, run, hs, M.ok_bind]
  | cons x evs ih =>
    obtain ⟨v', ev'⟩ := x
    unfold run at h2
    obtain ⟨c1, h3, h4⟩ := M.bind_eq_ok.1 h2
    simp only [List.cons_append, run, h3, M.ok_bind]
    exact ih c1 h4

end Component

end Aftermath
