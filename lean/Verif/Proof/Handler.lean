import Verif.Model.Handler
import Verif.Proof.Component

/-! # Lemmas about exceptions in event handlers -/

namespace Aftermath

theorem M.toOption_bind {α β : Type} (m : M α) (f : α → M β) :
    (m >>= f).toOption = m.toOption.bind fun a => (f a).toOption := by
  cases m <;> rfl

theorem M.toOption_eq_some {α : Type} {m : M α} {a : α} : m.toOption = some a ↔ m = .ok a := by
  cases m with
  | error e => exact ⟨nofun, nofun⟩
  | ok b => exact ⟨fun h => by cases h; rfl, fun h => by cases h; rfl⟩

namespace Handled

/-- The component, if all went well. -/
def done : Handled → Option Component
  | fine c => some c
  | _ => none

theorem done_eq {o : Handled} {c : Component} : o.done = some c ↔ o = fine c := by
  cases o <;> simp [done]

theorem done_fine (c : Component) : (fine c).done = some c := rfl
theorem done_thrown (c : Component) : (thrown c).done = none := rfl

theorem done_bind (o : Handled) (f : Component → Handled) :
    (o.bind f).done = o.done.bind fun c => (f c).done := by
  cases o <;> rfl

theorem done_call {α : Type} (m : M α) (f : α → Handled) :
    (call m f).done = m.toOption.bind fun a => (f a).done := by
  cases m <;> rfl

theorem done_script {α : Type} (c : Component) (m : M α) (f : α → Handled) :
    (script c m f).done = m.toOption.bind fun a => (f a).done := by
  cases m <;> rfl

end Handled

namespace Component

variable {S : Setting} {c c' : Component} {G : Geom} {v : View}

open Handled

theorem drawCarets_done (c : Component) (G : Geom) :
    (c.drawCarets G).done = (c.renderCarets G).toOption.map fun _ => c := by
  unfold drawCarets renderCarets
  split
  · simp only [done_call, done_script, M.toOption_bind, done_fine, Option.map_bind]
    congr 1; funext sel
    simp only [Function.comp]
    cases renderCaret G c.result sel <;> rfl
  · rfl

theorem redraw_done (S : Setting) (c : Component) (G : Geom) :
    (c.redraw S G).done = (c.updateInput S G).toOption := by
  unfold redraw updateInput
  simp only [done_call, done_script, M.toOption_bind, drawCarets_done]
  congr 1; funext x
  congr 1; funext e
  generalize ({ c with editor := x.1, tree := x.2, result := e } : Component) = d
  cases d.renderCarets G <;> rfl

theorem handleEdit_done (S : Setting) (c : Component) (G : Geom) (op : Op) :
    (c.handleEdit S G op).done = (c.edit S G op).toOption := by
  unfold handleEdit edit
  simp only [done_call, M.toOption_bind, redraw_done]

theorem handleTask_done (S : Setting) (c : Component) (G : Geom) (t : InputEvent) :
    (c.handleTask S G t).done = (c.runTask S G t).toOption := by
  cases t with
  | insertText d => cases d <;> [rfl; exact handleEdit_done ..]
  | other => rfl
  | _ => exact handleEdit_done ..

theorem renderCarets_tasks (c : Component) (G : Geom) (ts : List InputEvent) :
    ({ c with tasks := ts }).renderCarets G = c.renderCarets G := rfl

theorem edit_tasks (S : Setting) (c : Component) (G : Geom) (op : Op) (ts : List InputEvent) :
    ({ c with tasks := ts }).edit S G op =
      (do let c' ← c.edit S G op; .ok { c' with tasks := ts }) := by
  unfold edit updateInput
  cases hs : c.editor.step S.env op with
  | error e => rfl
  | ok ed =>
    simp only [M.ok_bind]
    cases ed.getSyntaxTree S.env with
    | error e => rfl
    | ok x =>
      simp only [M.ok_bind]
      cases renderAll S.renderers x.2 with
      | error e => rfl
      | ok e =>
        simp only [M.ok_bind]
        have : ∀ a b : List InputEvent,
            (⟨x.1, x.2, e, c.pointerDown, c.connected, a, c.clipboard⟩ : Component).renderCarets G =
            (⟨x.1, x.2, e, c.pointerDown, c.connected, b, c.clipboard⟩ : Component).renderCarets G :=
          fun _ _ => rfl
        rw [this ts c.tasks]
        cases (⟨x.1, x.2, e, c.pointerDown, c.connected, c.tasks, c.clipboard⟩ :
          Component).renderCarets G <;> rfl

theorem runTask_tasks (S : Setting) (c : Component) (G : Geom) (t : InputEvent)
    (ts : List InputEvent) : ({ c with tasks := ts }).runTask S G t =
      (do let c' ← c.runTask S G t; .ok { c' with tasks := ts }) := by
  cases t with
  | insertText d => cases d <;> [rfl; exact edit_tasks ..]
  | other => rfl
  | _ => exact edit_tasks ..

theorem handleTasks_done (S : Setting) (G : Geom) (ts : List InputEvent) :
    ∀ c : Component, c.tasks = ts →
      (c.handleTasks S G ts).done = (({ c with tasks := [] }).runTasks S G ts).toOption := by
  induction ts with
  | nil => intro c hc; cases c; cases hc; rfl
  | cons t ts ih =>
    intro c _
    simp only [handleTasks, runTasks, done_bind, M.toOption_bind, handleTask_done]
    rw [runTask_tasks S c G t ts, runTask_tasks S c G t []]
    cases c.runTask S G t with
    | error e => rfl
    | ok c1 => exact ih { c1 with tasks := ts } rfl

/-- The two descriptions of the event handlers agree. -/
theorem handle_done (S : Setting) (c : Component) (v : View) (ev : Event) :
    (c.handle S v ev).done = (c.step S v ev).toOption := by
  have rel : ∀ pos, (c.handleRelease S v pos).done = (c.release S v pos).toOption := by
    intro pos
    unfold handleRelease release
    simp only [done_call, done_script, M.toOption_bind, drawCarets_done]
    congr 1; funext p
    congr 1; funext ed
    generalize ({ c with editor := ed.finishSelection, pointerDown := false } : Component) = d
    cases d.renderCarets v.after <;> rfl
  have sel : ∀ op, (c.handleSelect S v.after op).done = (c.select S v.after op).toOption := by
    intro op
    unfold handleSelect select
    simp only [done_call, M.toOption_bind, drawCarets_done]
    congr 1; funext ed
    generalize ({ c with editor := ed } : Component) = d
    cases d.renderCarets v.after <;> rfl
  have ml : ∀ (c : Component) d,
      (c.handleMathML S v.after d).done = (c.setMathML S v.after d).toOption := by
    intro c d
    unfold handleMathML setMathML Editor.setMathML
    simp only [done_call, done_script, M.toOption_bind, redraw_done, Option.bind_assoc]
  cases ev with
  | arrow d => exact handleEdit_done ..
  | undoKey => exact handleEdit_done ..
  | redoKey => exact handleEdit_done ..
  | otherKey => exact redraw_done ..
  | beforeInput i => rfl
  | timer => exact handleTasks_done S _ c.tasks c rfl
  | copy =>
    simp only [handle, step, handleCopy, copyData, done_call, M.toOption_bind]; rfl
  | cut =>
    simp only [handle, step, handleCopy, copyData, done_call, M.toOption_bind, handleEdit_done,
      Option.bind_assoc]
    rfl
  | paste json text =>
    simp only [handle, step, done_call, M.toOption_bind]
    congr 1; funext x
    split
    · exact redraw_done ..
    · rfl
  | pointerDown pos =>
    simp only [handle, step, done_script, M.toOption_bind, handleEdit_done]
  | pointerUp pos => exact rel pos
  | pointerCancel pos => exact rel pos
  | pointerMove pos =>
    simp only [handle, step]
    split
    · simp only [done_script, M.toOption_bind, sel]
    · rfl
  | mouseDown pos clicks =>
    simp only [handle, step]
    split
    · simp only [done_script, M.toOption_bind]
      congr 1; funext p
      split
      · exact sel _
      · split
        · exact sel _
        · rfl
    · rfl
  | connect d => exact ml _ d
  | disconnect => rfl
  | setAttribute d => exact ml _ d

theorem handle_fine {ev : Event} : c.handle S v ev = .fine c' ↔ c.step S v ev = .ok c' := by
  rw [← done_eq, handle_done, M.toOption_eq_some]

end Component

end Aftermath
