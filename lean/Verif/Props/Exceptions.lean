import Verif.Props.Typing

/-! # C66: what exceptions leave behind -/

namespace Aftermath

/-- The editor calls of a key or of `cut`. The tree is asked for to be shown. -/
def Event.calls : Event → Option (List Op)
  | .arrow d => some [.moveCaret d .char, .getSyntaxTree]
  | .undoKey => some [.undo, .getSyntaxTree]
  | .redoKey => some [.redo, .getSyntaxTree]
  | .otherKey => some [.getSyntaxTree]
  | .cut => some [.removeAtCaret .range, .getSyntaxTree]
  | _ => none

namespace Component

variable {S : Setting} {x : Xid} {c c' : Component} {G : Geom} {v : View} {ev : Event}

/-- **C66.** An event ends well exactly when nothing throws. -/
theorem _root_.Aftermath.C66_fine : c.handle S v ev = .fine c' ↔ c.step S v ev = .ok c' :=
  handle_fine

/-- **C66.** Whatever was thrown, the editor is in a state that its own API reaches, and a tree it
keeps is the parse of its formula. -/
theorem _root_.Aftermath.C66_editor (h : c.Alive S) :
    Reachable S.env c.editor ∧ ∀ t, c.editor.parsed = some t → S.grammar.parse c.editor.input = .ok t :=
  ⟨h.reachable, h.fresh⟩

/-- **C66.** When a key throws, the editor has done what it was asked to do. -/
theorem _root_.Aftermath.C66_keeps {ops : List Op} (hev : ev.calls = some ops)
    (h : (c.handle S v ev).left = some c') : c.editor.run S.env ops = .ok c'.editor := by
  cases ev <;> first | (cases hev; done) | skip
  · cases hev; exact (handleEdit_after h).1.run
  · cases hev; exact (handleEdit_after h).1.run
  · cases hev; exact (handleEdit_after h).1.run
  · cases hev; exact (redraw_after h).1.run
  · cases hev
    obtain ⟨data, -, h2⟩ := Handled.left_call h
    exact (handleEdit_after h2).1.run

/-- **C66.** After exceptions, the next event that shows the formula without throwing shows the
current formula. -/
theorem _root_.Aftermath.C66_recover (h : c.Alive S) (hev : ev.Redraws)
    (hs : c.handle S v ev = .fine c') : c'.InSync S := by
  obtain ⟨c1, h1, h2⟩ := redraws_ok hev (handle_fine.1 hs)
  exact updateInput_inSync (h1.fresh h.fresh) h2

/-- **C66.** A key or a task that calls the editor ends it exactly when the call panics. It throws
exactly when the call does not panic and the new formula cannot be shown; then the editor and its
tree are new and the old formula is still shown. -/
theorem _root_.Aftermath.C66_call_partial (hS : S.Ships x) (hc : c.Calm S)
    (hG : ∀ p, 0 < G.fontSize p) (op : Op) (hop : ∀ r vs, op ≠ .spliceAtRange r vs)
    (hcalm : ∀ ed', c.editor.step S.env op = .ok ed' → op.Calm S.env c.editor ed') :
    (c.handleEdit S G op = .dead ∧ op.Panics S.env c.editor) ∨
    (¬ op.Panics S.env c.editor ∧ ∃ ed' t, c.editor.step S.env op = .ok ed' ∧
      S.grammar.parse ed'.input = .ok t ∧
      ((Unshowable S ed'.input ∧
          c.handleEdit S G op = .thrown { c with editor := { ed' with parsed := some t }, tree := t }) ∨
      (¬ Unshowable S ed'.input ∧ ∃ e, renderAll S.renderers t = .ok e ∧ c.handleEdit S G op =
          .fine { c with editor := { ed' with parsed := some t }, tree := t, result := e }))) := by
  rcases edit_exact hS hc hG op hop hcalm with ⟨h1, -⟩ | ⟨h1, ed', t, h2, h3, h4, h5⟩
  · obtain ⟨e0, hq⟩ := hc.quiet
    obtain ⟨p, hp⟩ := (C27_exact_partial hc.run hc.fits hq op hop).2 h1
    refine .inl ⟨?_, h1⟩
    unfold handleEdit
    rw [hp]; rfl
  · refine .inr ⟨h1, ed', t, h2, h4, ?_⟩
    rcases h5 with ⟨h5, p, h6⟩ | ⟨h5, e, h6, h7⟩
    · refine .inl ⟨⟨t, h4, h5⟩, ?_⟩
      have hg := getSyntaxTree_eq (env := S.env) (CalmRun.fresh h3) h4
      obtain ⟨hx, m, hm⟩ := id hS
      obtain ⟨t', ht, hr⟩ := C57_partial hx hm (C26_calm_partial h3).1
      rw [h4] at ht
      cases ht
      unfold handleEdit redraw
      rw [h2]
      simp only [Handled.call, hg]
      cases he : renderAll S.renderers t with
      | ok e => exact absurd h5 (hr.1 ⟨e, he⟩)
      | error p => rfl
    · refine .inr ⟨?_, e, h6, ?_⟩
      · rintro ⟨t', h8, h9⟩
        rw [h4] at h8
        cases h8
        exact h5 h9
      · exact Handled.done_eq.1 (by rw [handleEdit_done, h7]; rfl)

/-- **C66.** When typing text throws, Ctrl+Z does not: it brings back the formula and the caret from
before, and shows them. -/
theorem _root_.Aftermath.C66_undo (hS : S.Ships x) (hc : c.Calm S)
    {c1 : Component} {v' : View} (hG : ∀ p, 0 < v'.after.fontSize p) {data : Str}
    (hq : c.tasks = [.insertText (some data)]) (h : c.handle S v .timer = .thrown c1) :
    ∃ c2, c1.handle S v' .undoKey = .fine c2 ∧ c2.InSync S ∧
      c2.editor.input = c.editor.input ∧ c2.editor.caret = c.editor.caret := by
  have h0 : (c.handle S v .timer).left = some c1 := by rw [h]; rfl
  obtain ⟨done, h1, h2, h3, -⟩ := C64_timer h0
  have hd : done = [.insertText (some data)] := by
    have := h3 (by rw [hq]; simp)
    rw [hq] at h1
    match done, this, h1 with
    | [a], _, h1 => simp only [List.cons_append, List.cons.injEq] at h1; rw [h1.1]
    | _ :: _ :: _, _, h1 => simp at h1
  rw [hd] at h2
  simp only [List.flatMap_cons, List.flatMap_nil, List.append_nil, InputEvent.calls, Editor.run,
    Editor.step] at h2
  obtain ⟨ed1, h4, h5⟩ := M.bind_eq_ok.1 h2
  obtain ⟨ed2, h6, h7⟩ := M.bind_eq_ok.1 h5
  cases h7
  obtain ⟨⟨ed3, t⟩, h8, h9⟩ := M.bind_eq_ok.1 h6
  cases h9
  obtain ⟨ed4, -, g1, g2, g3, -⟩ := C21_undo_insert S.env (CalmRun.reachable hc.run) hc.quiet h4
  have hu : ∃ ed5, c1.editor.step S.env .undo = .ok ed5 ∧ ed5.input = c.editor.input ∧
      ed5.caret = c.editor.caret ∧ ed5.parsed = none := by
    have he : c1.editor.input = ed1.input ∧ c1.editor.undo = ed1.undo := by
      simp only [Editor.getSyntaxTree] at h8
      split at h8
      · simp only [Except.ok.injEq, Prod.mk.injEq] at h8
        exact ⟨congrArg Editor.input h8.1.symm, congrArg Editor.undo h8.1.symm⟩
      · obtain ⟨t', -, g7⟩ := M.bind_eq_ok.1 h8
        simp only [Except.ok.injEq, Prod.mk.injEq] at g7
        exact ⟨(congrArg Editor.input g7.1).symm, (congrArg Editor.undo g7.1).symm⟩
    simp only [Editor.step, Editor.undoOp, he.2] at g1 ⊢
    split at g1
    · cases g1
    · rename_i a u hau
      simp only [Editor.applyAction] at g1 ⊢
      obtain ⟨ed6, k1, k2⟩ := M.bind_eq_ok.1 g1
      cases k2
      obtain ⟨inp, k3, k4⟩ := M.bind_eq_ok.1 k1
      cases k4
      rw [he.1, k3]
      exact ⟨_, rfl, g2, g3, rfl⟩
  obtain ⟨ed5, k1, k2, k3, k4⟩ := hu
  have hg : ed5.getSyntaxTree S.env = .ok ({ ed5 with parsed := some c.tree }, c.tree) :=
    getSyntaxTree_eq (fun t ht => by rw [k4] at ht; cases ht)
      (show S.grammar.parse ed5.input = .ok c.tree by rw [k2]; exact hc.sync.tree)
  obtain ⟨hw, hv⟩ := C26_calm_partial hc.run
  refine ⟨{ c1 with editor := { ed5 with parsed := some c.tree }, tree := c.tree, result := c.result },
    ?_, ⟨by rw [show S.grammar.parse ed5.input = .ok c.tree by rw [k2]; exact hc.sync.tree],
      hc.sync.result⟩, k2, k3⟩
  have hr := renderCarets_ok (G := v'.after) (c := { c1 with
      editor := { ed5 with parsed := some c.tree }, tree := c.tree, result := c.result })
    (by simp only [k2]; exact shown_of hS hw hc.sync.tree hc.sync.result)
    (by simp only [k2, k3]; exact hv) hG
  rw [C66_fine]
  simp only [step, edit, k1, M.ok_bind, updateInput, hg, hc.sync.result, hr]

end Component

/-- `abc` in `x²abc` is selected and replaced by a space, which cannot be shown. Then the pointer is
pressed where `c` was, and Backspace is pressed. -/
def powerEvents : List (View × Event) :=
  [(powerView, .connect powerDom), (powerView, .pointerDown ⟨13, 10⟩),
    (powerView, .pointerUp ⟨10, 10⟩), (powerView, .beforeInput (.insertText [' '])),
    (powerView, .timer), (powerView, .pointerDown ⟨13, 10⟩), (powerView, .beforeInput .deleteBackward)]

/-- **C66, negation.** After an exception the old formula is still shown, so that a click may put the
caret on a position that is not in the current one. Backspace then panics. -/
theorem C66_not : ∃ (S : Setting) (c : Component), S.Ships letterXid ∧ c.Alive S ∧
    c.editor.input = [.symbol ['x'], .sup [.symbol ['2']], .symbol [' ']] ∧
    c.editor.caret = .at ⟨[], 5⟩ ∧ c.tasks = [.deleteBackward] ∧
    c.handle S powerView .timer = .dead := by
  have h : afterAll powerEvents (fun S c => (c.editor.input, c.editor.caret, c.tasks,
      (c.handle S powerView .timer).left.isSome)) =
      some ([.symbol ['x'], .sup [.symbol ['2']], .symbol [' ']], .at ⟨[], 5⟩, [.deleteBackward],
        false) := by
    decide +kernel
  obtain ⟨S, c, hS, hc, h1⟩ := afterAll_ok h
  simp only [Prod.mk.injEq] at h1
  obtain ⟨h2, h3, h4, h5⟩ := h1
  refine ⟨S, c, hS, hc, h2, h3, h4, ?_⟩
  cases hh : c.handle S powerView .timer with
  | dead => rfl
  | _ => rw [hh] at h5; cases h5

/-- A space behind `x²` throws, and Ctrl+Z brings the formula back. -/
example : afterAll [(powerView, .connect squareDom), (powerView, .arrow .right),
    (powerView, .arrow .right), (powerView, .arrow .right), (powerView, .arrow .right),
    (powerView, .beforeInput (.insertText [' '])), (powerView, .timer), (powerView, .undoKey)]
    (fun S c => (c.editor.input, c.editor.caret, (c.step S powerView .otherKey).toOption.isSome)) =
    some ([.symbol ['x'], .sup [.symbol ['2']]], .at ⟨[], 2⟩, true) := by
  decide +kernel

end Aftermath
