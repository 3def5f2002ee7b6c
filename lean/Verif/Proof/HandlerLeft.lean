import Verif.Spec.Handler
import Verif.Proof.Handler

/-! # Lemmas about the component that is left after an event -/

namespace Aftermath

theorem Editor.run_append {T : Type} {env : Env T} {a b c : Editor T} {o1 o2 : List Op}
    (h1 : a.run env o1 = .ok b) (h2 : b.run env o2 = .ok c) : a.run env (o1 ++ o2) = .ok c := by
  induction o1 generalizing a with
  | nil => cases h1; exact h2
  | cons op ops ih =>
    simp only [Editor.run] at h1
    obtain ⟨e, h3, h4⟩ := M.bind_eq_ok.1 h1
    simp only [List.cons_append, Editor.run, h3, M.ok_bind]
    exact ih h4

namespace Handled

theorem left_call {α : Type} {m : M α} {f : α → Handled} {c : Component}
    (h : (call m f).left = some c) : ∃ a, m = .ok a ∧ (f a).left = some c := by
  cases m with
  | error e => cases h
  | ok a => exact ⟨a, rfl, h⟩

theorem left_script {α : Type} {m : M α} {f : α → Handled} {c c' : Component}
    (h : (script c m f).left = some c') :
    (c' = c ∧ ∃ p, m = .error p) ∨ ∃ a, m = .ok a ∧ (f a).left = some c' := by
  cases m with
  | error e => cases h; exact .inl ⟨rfl, e, rfl⟩
  | ok a => exact .inr ⟨a, rfl, h⟩

end Handled

namespace Component

variable {S : Setting} {c c' : Component} {G : Geom} {v : View}

open Handled

theorem drawCarets_left (h : (c.drawCarets G).left = some c') : c' = c := by
  unfold drawCarets at h
  split at h
  · obtain ⟨sel, -, h1⟩ := left_call h
    rcases left_script h1 with ⟨h2, -⟩ | ⟨a, -, h2⟩
    · exact h2
    · cases h2; rfl
  · cases h; rfl

theorem redraw_left (h : (c.redraw S G).left = some c') :
    ∃ ed t, c.editor.getSyntaxTree S.env = .ok (ed, t) ∧
      (c' = { c with editor := ed, tree := t } ∧ (∃ p, renderAll S.renderers t = .error p) ∨
        ∃ e, renderAll S.renderers t = .ok e ∧
          c' = { c with editor := ed, tree := t, result := e }) := by
  obtain ⟨⟨ed, t⟩, h1, h2⟩ := left_call h
  refine ⟨ed, t, h1, ?_⟩
  rcases left_script h2 with h3 | ⟨e, h3, h4⟩
  · exact .inl h3
  · exact .inr ⟨e, h3, drawCarets_left h4⟩

/-- What stays the same, and what the editor does. -/
structure After (S : Setting) (ops : List Op) (c c' : Component) : Prop where
  run : c.editor.run S.env ops = .ok c'.editor
  tasks : c'.tasks = c.tasks
  connected : c'.connected = c.connected

theorem redraw_after (h : (c.redraw S G).left = some c') :
    After S [.getSyntaxTree] c c' ∧ c'.clipboard = c.clipboard ∧ c'.pointerDown = c.pointerDown := by
  obtain ⟨ed, t, h1, h2⟩ := redraw_left h
  have h3 : c.editor.run S.env [.getSyntaxTree] = .ok ed := by
    simp only [Editor.run, Editor.step, h1, M.ok_bind]
  rcases h2 with ⟨rfl, -⟩ | ⟨e, -, rfl⟩ <;> exact ⟨⟨h3, rfl, rfl⟩, rfl, rfl⟩

theorem handleEdit_after {op : Op} (h : (c.handleEdit S G op).left = some c') :
    After S [op, .getSyntaxTree] c c' ∧ c'.clipboard = c.clipboard ∧
      c'.pointerDown = c.pointerDown := by
  obtain ⟨ed, h1, h2⟩ := left_call h
  obtain ⟨⟨h3, h4, h5⟩, h6⟩ := redraw_after h2
  refine ⟨⟨?_, h4, h5⟩, h6⟩
  simp only [Editor.run, h1, M.ok_bind] at h3 ⊢
  exact h3

theorem handleTask_after {t : InputEvent} (h : (c.handleTask S G t).left = some c') :
    After S (t.calls S) c c' ∧ c'.clipboard = c.clipboard ∧ c'.pointerDown = c.pointerDown := by
  rcases t with _ | _ | (_ | s) | _
  · exact handleEdit_after h
  · exact handleEdit_after h
  · cases h; exact ⟨⟨rfl, rfl, rfl⟩, rfl, rfl⟩
  · exact handleEdit_after h
  · cases h; exact ⟨⟨rfl, rfl, rfl⟩, rfl, rfl⟩

theorem handleTasks_after (ts : List InputEvent) : ∀ {c : Component}, c.tasks = ts →
    (c.handleTasks S G ts).left = some c' → ∃ done, ts = done ++ c'.tasks ∧
      (done = [] → ts = []) ∧ c.editor.run S.env (done.flatMap (InputEvent.calls S)) = .ok c'.editor ∧
      c'.connected = c.connected ∧ c'.clipboard = c.clipboard ∧ c'.pointerDown = c.pointerDown := by
  induction ts with
  | nil =>
    intro c hc h
    cases h
    exact ⟨[], by rw [hc]; rfl, fun _ => rfl, rfl, rfl, rfl, rfl⟩
  | cons t ts ih =>
    intro c hc h
    simp only [handleTasks] at h
    cases ht : ({ c with tasks := ts } : Component).handleTask S G t with
    | dead => rw [ht] at h; cases h
    | thrown c1 =>
      rw [ht] at h
      cases h
      obtain ⟨⟨h1, h2, h3⟩, h4, h5⟩ := handleTask_after (c' := c') (by rw [ht]; rfl)
      refine ⟨[t], by rw [h2]; rfl, nofun, ?_, h3, h4, h5⟩
      simpa using h1
    | fine c1 =>
      rw [ht] at h
      obtain ⟨⟨h1, h2, h3⟩, h4, h5⟩ := handleTask_after (c' := c1) (by rw [ht]; rfl)
      obtain ⟨done, g1, -, g2, g3, g4, g5⟩ := ih (c := c1) h2 h
      refine ⟨t :: done, by rw [g1]; simp, nofun, ?_, g3.trans h3, g4.trans h4, g5.trans h5⟩
      rw [List.flatMap_cons]
      exact Editor.run_append h1 g2

theorem fine_tasks (ts : List InputEvent) : ∀ {c : Component}, c.tasks = ts →
    c.handleTasks S G ts = .fine c' → c'.tasks = [] := by
  induction ts with
  | nil => intro c hc h; cases h; exact hc
  | cons t ts ih =>
    intro c _ h
    simp only [handleTasks] at h
    cases ht : ({ c with tasks := ts } : Component).handleTask S G t with
    | dead => rw [ht] at h; cases h
    | thrown c1 => rw [ht] at h; cases h
    | fine c1 =>
      rw [ht] at h
      exact ih (handleTask_after (c' := c1) (by rw [ht]; rfl)).1.tasks h

theorem handleSelect_after {op : Op} (h : (c.handleSelect S G op).left = some c') :
    c.editor.step S.env op = .ok c'.editor ∧ c' = { c with editor := c'.editor } := by
  obtain ⟨ed, h1, h2⟩ := left_call h
  cases drawCarets_left h2
  exact ⟨h1, rfl⟩

theorem handleRelease_after {pos : Coord} (h : (c.handleRelease S v pos).left = some c') :
    (c' = { c with pointerDown := false } ∧ ∃ e, layoutPosition v.before pos c.result = .error e) ∨
    ∃ p ed, layoutPosition v.before pos c.result = .ok p ∧
      c.editor.step S.env (.extendSelection p) = .ok ed ∧
      c' = { c with pointerDown := false, editor := ed.finishSelection } := by
  rcases left_script h with h1 | ⟨p, h1, h2⟩
  · exact .inl h1
  · obtain ⟨ed, h3, h4⟩ := left_call h2
    exact .inr ⟨p, ed, h1, h3, drawCarets_left h4⟩

theorem handleMathML_after {d : Dom} (h : (c.handleMathML S G d).left = some c') :
    (c' = c ∧ ∃ e, fromElement S.browser d = .error e) ∨
    ∃ root es, fromElement S.browser d = .ok (root, es) ∧
      After S [.spliceAtRange ⟨[], c.tree.lo, c.tree.hi⟩ root, .getSyntaxTree] c c' := by
  rcases left_script h with h1 | ⟨⟨root, es⟩, h1, h2⟩
  · exact .inl h1
  · obtain ⟨ed, h3, h4⟩ := left_call h2
    obtain ⟨⟨h5, h6, h7⟩, -⟩ := redraw_after h4
    refine .inr ⟨root, es, h1, ?_, h6, h7⟩
    simp only [Editor.run, Editor.step, h3, M.ok_bind] at h5 ⊢
    exact h5

/-- No event except `beforeinput` and the timer touches the queue. -/
theorem handle_tasks {ev : Event} (h1 : ¬ ev.Typing) (h : (c.handle S v ev).left = some c') :
    c'.tasks = c.tasks := by
  cases ev with
  | arrow d => exact (handleEdit_after h).1.tasks
  | undoKey => exact (handleEdit_after h).1.tasks
  | redoKey => exact (handleEdit_after h).1.tasks
  | otherKey => exact (redraw_after h).1.tasks
  | beforeInput i => exact absurd trivial h1
  | timer => exact absurd trivial h1
  | copy => obtain ⟨data, -, h2⟩ := left_call h; cases h2; rfl
  | cut =>
    obtain ⟨data, -, h2⟩ := left_call h
    exact (handleEdit_after h2).1.tasks
  | paste json text =>
    obtain ⟨⟨ed, ok⟩, -, h2⟩ := left_call h
    cases ok with
    | true => exact (redraw_after h2).1.tasks
    | false => cases h2; rfl
  | pointerDown pos =>
    rcases left_script h with ⟨rfl, -⟩ | ⟨p, -, h2⟩
    · rfl
    · exact (handleEdit_after h2).1.tasks
  | pointerUp pos =>
    rcases handleRelease_after h with ⟨rfl, -⟩ | ⟨_, _, _, _, rfl⟩ <;> rfl
  | pointerCancel pos =>
    rcases handleRelease_after h with ⟨rfl, -⟩ | ⟨_, _, _, _, rfl⟩ <;> rfl
  | pointerMove pos =>
    simp only [handle] at h
    split at h
    · rcases left_script h with ⟨rfl, -⟩ | ⟨p, -, h2⟩
      · rfl
      · rw [(handleSelect_after h2).2]
    · cases h; rfl
  | mouseDown pos clicks =>
    simp only [handle] at h
    split at h
    · rcases left_script h with ⟨rfl, -⟩ | ⟨p, -, h2⟩
      · rfl
      · split at h2
        · rw [(handleSelect_after h2).2]
        · split at h2
          · rw [(handleSelect_after h2).2]
          · cases h2; rfl
    · cases h; rfl
  | connect d =>
    rcases handleMathML_after h with ⟨rfl, -⟩ | ⟨_, _, _, h2⟩
    · rfl
    · exact h2.tasks
  | disconnect => cases h; rfl
  | setAttribute d =>
    rcases handleMathML_after h with ⟨rfl, -⟩ | ⟨_, _, _, h2⟩
    · rfl
    · exact h2.tasks

theorem After.calls {ops : List Op} (h : After S ops c c') : Calls S.env c.editor c'.editor :=
  ⟨ops, h.run⟩

/-- Every event consists of editor calls. -/
theorem handle_calls {ev : Event} (h : (c.handle S v ev).left = some c') :
    Calls S.env c.editor c'.editor := by
  cases ev with
  | arrow d => exact (handleEdit_after h).1.calls
  | undoKey => exact (handleEdit_after h).1.calls
  | redoKey => exact (handleEdit_after h).1.calls
  | otherKey => exact (redraw_after h).1.calls
  | beforeInput i => cases h; exact .refl _
  | timer =>
    obtain ⟨done, -, -, h2, -⟩ := handleTasks_after _ rfl h
    exact ⟨_, h2⟩
  | copy => obtain ⟨data, -, h2⟩ := left_call h; cases h2; exact .refl _
  | cut =>
    obtain ⟨data, -, h2⟩ := left_call h
    have h3 := (handleEdit_after h2).1.calls
    exact h3
  | paste json text =>
    obtain ⟨⟨ed, ok⟩, h1, h2⟩ := left_call h
    have h3 : Calls S.env c.editor ed :=
      .one (op := .paste (if json.isEmpty then text else json) true)
        (by simp only [Editor.step, h1, M.ok_bind])
    cases ok with
    | true => exact h3.trans (redraw_after h2).1.calls
    | false => cases h2; exact h3
  | pointerDown pos =>
    rcases left_script h with ⟨rfl, -⟩ | ⟨p, -, h2⟩
    · exact .refl _
    · have h3 := (handleEdit_after h2).1.calls
      exact h3
  | pointerUp pos =>
    rcases handleRelease_after h with ⟨rfl, -⟩ | ⟨_, _, _, h2, rfl⟩
    · exact .refl _
    · exact (Calls.one h2).trans (.one (op := .finishSelection) rfl)
  | pointerCancel pos =>
    rcases handleRelease_after h with ⟨rfl, -⟩ | ⟨_, _, _, h2, rfl⟩
    · exact .refl _
    · exact (Calls.one h2).trans (.one (op := .finishSelection) rfl)
  | pointerMove pos =>
    simp only [handle] at h
    split at h
    · rcases left_script h with ⟨rfl, -⟩ | ⟨p, -, h2⟩
      · exact .refl _
      · exact .one (handleSelect_after h2).1
    · cases h; exact .refl _
  | mouseDown pos clicks =>
    simp only [handle] at h
    split at h
    · rcases left_script h with ⟨rfl, -⟩ | ⟨p, -, h2⟩
      · exact .refl _
      · split at h2
        · exact .one (handleSelect_after h2).1
        · split at h2
          · exact .one (handleSelect_after h2).1
          · cases h2; exact .refl _
    · cases h; exact .refl _
  | connect d =>
    rcases handleMathML_after h with ⟨rfl, -⟩ | ⟨_, _, _, h2⟩
    · exact .refl _
    · have h3 := h2.calls
      exact h3
  | disconnect => cases h; exact .refl _
  | setAttribute d =>
    rcases handleMathML_after h with ⟨rfl, -⟩ | ⟨_, _, _, h2⟩
    · exact .refl _
    · exact h2.calls

theorem handleAll_calls {evs : List (View × Event)} (h : c.handleAll S evs = some c') :
    Calls S.env c.editor c'.editor := by
  induction evs generalizing c with
  | nil => cases h; exact .refl _
  | cons x evs ih =>
    obtain ⟨c1, h1, h2⟩ := Option.bind_eq_some_iff.1 h
    exact (handle_calls h1).trans (ih h2)

theorem Alive.calls (h : c.Alive S) : Calls S.env Editor.new c.editor := by
  obtain ⟨c0, evs, h1, h2⟩ := h
  exact (new_ok h1).1.trans (handleAll_calls h2)

theorem Alive.reachable (h : c.Alive S) : Reachable S.env c.editor := by
  obtain ⟨ops, h⟩ := h.calls
  exact ⟨ops, h⟩

theorem Alive.fresh (h : c.Alive S) : Fresh S.env c.editor :=
  h.calls.fresh fun _ ht => by cases ht

end Component

end Aftermath
