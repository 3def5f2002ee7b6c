import Verif.Proof.HandlerLeft
import Verif.Props.Events

/-! # C64: typed input is applied in order, C65: selecting with the pointer -/

namespace Aftermath

namespace Component

variable {S : Setting} {c c' : Component} {v : View}

/-- **C64.** A `beforeinput` event is put at the end of the queue and does nothing else. -/
theorem _root_.Aftermath.C64_queue (i : InputEvent) :
    c.handle S v (.beforeInput i) = .fine { c with tasks := c.tasks ++ [i] } := rfl

/-- **C64.** Apart from this event and the timer, nothing touches the queue, even if it throws. -/
theorem _root_.Aftermath.C64_others {ev : Event} (h1 : ¬ ev.Typing)
    (h : (c.handle S v ev).left = some c') : c'.tasks = c.tasks := handle_tasks h1 h

/-- **C64.** When a timer fires, the editor gets the calls of the first inputs in the queue, in
order, and these are taken off the queue: all of them, or, if there is an exception, those up to the
one that threw. -/
theorem _root_.Aftermath.C64_timer (h : (c.handle S v .timer).left = some c') :
    ∃ done, c.tasks = done ++ c'.tasks ∧
      c.editor.run S.env (done.flatMap (InputEvent.calls S)) = .ok c'.editor ∧
      (c.tasks ≠ [] → done ≠ []) ∧ (c.handle S v .timer = .fine c' → c'.tasks = []) := by
  obtain ⟨done, h1, h2, h3, -⟩ := handleTasks_after _ rfl h
  exact ⟨done, h1, h3, fun h4 h5 => h4 (h2 h5), fun h4 => fine_tasks _ rfl h4⟩

/-- **C64.** There are never more inputs in the queue than timers running, so that no input is left
when all timers have fired. -/
theorem _root_.Aftermath.C64_left {evs : List (View × Event)} {n m : Nat}
    (hn : c.tasks.length ≤ n) (hm : timersLeft n evs = some m)
    (h : c.handleAll S evs = some c') : c'.tasks.length ≤ m := by
  induction evs generalizing c n with
  | nil => cases h; cases hm; exact hn
  | cons x evs ih =>
    obtain ⟨w, ev⟩ := x
    obtain ⟨c1, h1, h2⟩ := Option.bind_eq_some_iff.1 h
    by_cases ht : ev.Typing
    · cases ev with
      | beforeInput i =>
        cases h1
        exact ih (n := n + 1) (by simpa using hn) hm h2
      | timer =>
        obtain ⟨done, g1, -, g2, -⟩ := C64_timer h1
        cases n with
        | zero => cases hm
        | succ n =>
          refine ih (n := n) ?_ hm h2
          by_cases he : c.tasks = []
          · rw [he] at g1
            rw [(List.append_eq_nil_iff.1 g1.symm).2]
            exact Nat.zero_le _
          · have := List.length_pos_iff.2 (g2 he)
            have := congrArg List.length g1
            simp only [List.length_append] at this
            omega
      | _ => exact ht.elim
    · have h3 := handle_tasks ht h1
      refine ih (n := n) (by rw [h3]; exact hn) ?_ h2
      cases ev <;> first | exact hm | exact absurd trivial ht

/-- **C64.** While nothing happens but typing, it does not matter when the timers fire, nor whether
something throws: in the end the editor has got the calls of all inputs, in order. -/
theorem _root_.Aftermath.C64_typing {evs : List (View × Event)} (hc : c.tasks = [])
    (ht : ∀ e ∈ evs, e.2.Typing) (hm : timersLeft 0 evs = some 0)
    (h : c.handleAll S evs = some c') :
    c'.tasks = [] ∧
      c.editor.run S.env ((inputsOf evs).flatMap (InputEvent.calls S)) = .ok c'.editor := by
  have h0 : c'.tasks = [] :=
    List.length_eq_zero_iff.1 (Nat.le_zero.1 (C64_left (by rw [hc]; simp) hm h))
  refine ⟨h0, ?_⟩
  have key : ∀ (evs : List (View × Event)) (c : Component), (∀ e ∈ evs, e.2.Typing) →
      c.handleAll S evs = some c' →
      ∃ done, c.tasks ++ inputsOf evs = done ++ c'.tasks ∧
        c.editor.run S.env (done.flatMap (InputEvent.calls S)) = .ok c'.editor := by
    intro evs
    induction evs with
    | nil => intro c _ h; cases h; exact ⟨[], by simp [inputsOf], rfl⟩
    | cons x evs ih =>
      intro c ht h
      obtain ⟨w, ev⟩ := x
      obtain ⟨c1, h1, h2⟩ := Option.bind_eq_some_iff.1 h
      obtain ⟨done, h3, h4⟩ := ih c1 (fun e he => ht e (.tail _ he)) h2
      have hev : ev.Typing := ht _ (.head _)
      cases ev with
      | beforeInput i =>
        cases h1
        exact ⟨done, by simpa [inputsOf] using h3, h4⟩
      | timer =>
        obtain ⟨d, g1, g2, -⟩ := C64_timer h1
        refine ⟨d ++ done, ?_, ?_⟩
        · rw [g1, List.append_assoc, List.append_assoc, ← h3]; rfl
        · rw [List.flatMap_append]; exact Editor.run_append g2 h4
      | _ => exact hev.elim
  obtain ⟨done, h1, h2⟩ := key evs c ht h
  rw [hc, h0] at h1
  simp only [List.nil_append, List.append_nil] at h1
  rw [h1]
  exact h2

/-- **C65.** Pressing, moving and releasing the pointer selects from the position under the pointer
when it was pressed to the one when it was released, in the formulas that were shown at these
moments. -/
theorem _root_.Aftermath.C65_drag {c1 c2 c3 : Component} {v1 v3 : View} {a b : Coord}
    {moves : List (View × Event)} {up : Event}
    (h1 : c.step S v1 (.pointerDown a) = .ok c1)
    (hm : ∀ e ∈ moves, ∃ pos, e.2 = .pointerMove pos) (h2 : c1.run S moves = .ok c2)
    (hu : up = .pointerUp b ∨ up = .pointerCancel b) (h3 : c2.step S v3 up = .ok c3) :
    ∃ p q, layoutPosition v1.before a c.result = .ok p ∧
      layoutPosition v3.before b c1.result = .ok q ∧ c3.editor.caret = ⟨p, q⟩ ∧
      c3.result = c1.result ∧ c3.pointerDown = false := by
  simp only [step] at h1
  obtain ⟨p, g1, g2⟩ := M.bind_eq_ok.1 h1
  obtain ⟨ed, g3, g4⟩ := edit_ok g2
  obtain ⟨ed1, t, e, g5, -, g6, -⟩ := updateInput_ok g4
  have hc1 : c1.editor.caret.start = p := by
    have h4 : ed1.caret = ed.caret := by
      simp only [Editor.getSyntaxTree] at g5
      split at g5
      · cases g5; rfl
      · obtain ⟨t', -, g7⟩ := M.bind_eq_ok.1 g5; cases g7; rfl
    have h5 : ed.caret = .at p := C51_start g3
    rw [g6]
    show ed1.caret.start = p
    rw [h4, h5]
    rfl
  have hc2 : c2.editor.caret.start = p ∧ c2.result = c1.result := by
    clear g6 g2 g4 h1 h3
    induction moves generalizing c1 with
    | nil => cases h2; exact ⟨hc1, rfl⟩
    | cons x moves ih =>
      obtain ⟨w, ev⟩ := x
      obtain ⟨pos, rfl⟩ := hm _ (.head _)
      unfold run at h2
      obtain ⟨c1', k1, k2⟩ := M.bind_eq_ok.1 h2
      have : c1'.editor.caret.start = p ∧ c1'.result = c1.result := by
        simp only [step] at k1
        split at k1
        · obtain ⟨q, -, k3⟩ := M.bind_eq_ok.1 k1
          obtain ⟨ed', k4, rfl, -⟩ := select_ok k3
          refine ⟨?_, rfl⟩
          show ed'.caret.start = p
          rw [C51_extend k4]
          exact hc1
        · cases k1; exact ⟨hc1, rfl⟩
      obtain ⟨k5, k6⟩ := ih (fun e he => hm e (.tail _ he)) k2 this.1
      exact ⟨k5, k6.trans this.2⟩
  have h3' : c2.release S v3 b = .ok c3 := by rcases hu with rfl | rfl <;> exact h3
  obtain ⟨q, ed', k1, k2, rfl, -⟩ := release_ok h3'
  refine ⟨p, q, g1, by rw [← hc2.2]; exact k1, ?_, hc2.2, rfl⟩
  show ed'.caret = ⟨p, q⟩
  rw [C51_extend (env := S.env) k2, hc2.1]

/-- **C65.** While the pointer is not pressed, moving it and clicks do nothing. -/
theorem _root_.Aftermath.C65_idle (h : c.pointerDown = false) (pos : Coord) (clicks : Nat) :
    c.step S v (.pointerMove pos) = .ok c ∧ c.step S v (.mouseDown pos clicks) = .ok c := by
  simp [step, h]

/-- **C65.** Only pressing the pointer sets the flag and only releasing it resets it. -/
theorem _root_.Aftermath.C65_flag {ev : Event} (h : (c.handle S v ev).left = some c') :
    c'.pointerDown = c.pointerDown ∨ (∃ pos, ev = .pointerDown pos) ∧ c'.pointerDown = true ∨
      (∃ pos, ev = .pointerUp pos ∨ ev = .pointerCancel pos) ∧ c'.pointerDown = false := by
  open Handled in
  cases ev with
  | arrow d => exact .inl (handleEdit_after h).2.2
  | undoKey => exact .inl (handleEdit_after h).2.2
  | redoKey => exact .inl (handleEdit_after h).2.2
  | otherKey => exact .inl (redraw_after h).2.2
  | beforeInput i => cases h; exact .inl rfl
  | timer =>
    obtain ⟨done, -, -, -, -, -, h2⟩ := handleTasks_after _ rfl h
    exact .inl h2
  | copy => obtain ⟨data, -, h2⟩ := left_call h; cases h2; exact .inl rfl
  | cut =>
    obtain ⟨data, -, h2⟩ := left_call h
    exact .inl (handleEdit_after h2).2.2
  | paste json text =>
    obtain ⟨⟨ed, ok⟩, -, h2⟩ := left_call h
    cases ok with
    | true => exact .inl (redraw_after h2).2.2
    | false => cases h2; exact .inl rfl
  | pointerDown pos =>
    rcases left_script h with ⟨rfl, -⟩ | ⟨p, -, h2⟩
    · exact .inl rfl
    · exact .inr (.inl ⟨⟨pos, rfl⟩, (handleEdit_after h2).2.2⟩)
  | pointerUp pos =>
    rcases handleRelease_after h with ⟨rfl, -⟩ | ⟨_, _, _, _, rfl⟩ <;>
      exact .inr (.inr ⟨⟨pos, .inl rfl⟩, rfl⟩)
  | pointerCancel pos =>
    rcases handleRelease_after h with ⟨rfl, -⟩ | ⟨_, _, _, _, rfl⟩ <;>
      exact .inr (.inr ⟨⟨pos, .inr rfl⟩, rfl⟩)
  | pointerMove pos =>
    simp only [handle] at h
    split at h
    · rcases left_script h with ⟨rfl, -⟩ | ⟨p, -, h2⟩
      · exact .inl rfl
      · rw [(handleSelect_after h2).2]; exact .inl rfl
    · cases h; exact .inl rfl
  | mouseDown pos clicks =>
    simp only [handle] at h
    split at h
    · rcases left_script h with ⟨rfl, -⟩ | ⟨p, -, h2⟩
      · exact .inl rfl
      · split at h2
        · rw [(handleSelect_after h2).2]; exact .inl rfl
        · split at h2
          · rw [(handleSelect_after h2).2]; exact .inl rfl
          · cases h2; exact .inl rfl
    · cases h; exact .inl rfl
  | connect d =>
    rcases left_script h with ⟨rfl, -⟩ | ⟨x, -, h2⟩
    · exact .inl rfl
    · obtain ⟨ed, -, h3⟩ := left_call h2
      exact .inl (redraw_after h3).2.2
  | disconnect => cases h; exact .inl rfl
  | setAttribute d =>
    rcases left_script h with ⟨rfl, -⟩ | ⟨x, -, h2⟩
    · exact .inl rfl
    · obtain ⟨ed, -, h3⟩ := left_call h2
      exact .inl (redraw_after h3).2.2

/-- **C65, negation.** Double and triple clicks select nothing: the caret is put on the position
under the pointer. -/
theorem _root_.Aftermath.C65_double {pos : Coord} {clicks : Nat}
    (hp : c.pointerDown = true) (hk : clicks = 2 ∨ clicks = 3)
    (h : c.step S v (.mouseDown pos clicks) = .ok c') :
    ∃ p, layoutPosition v.before pos c.result = .ok p ∧ c'.editor.caret = .at p := by
  simp only [step, hp, if_true] at h
  obtain ⟨p, h1, h2⟩ := M.bind_eq_ok.1 h
  rcases hk with rfl | rfl <;>
  · obtain ⟨ed, h3, rfl, -⟩ := select_ok h2
    exact ⟨p, h1, C51_start (ed' := ed) h3⟩

end Component

/-- Like `afterEvents`, but going on after exceptions. -/
def afterAll {α : Type} (evs : List (View × Event)) (f : Setting → Component → α) : Option α :=
  letterSetting.bind fun S => (Component.new S).toOption.bind fun c => (c.handleAll S evs).map (f S)

theorem afterAll_ok {α : Type} {evs : List (View × Event)} {f : Setting → Component → α} {a : α}
    (h : afterAll evs f = some a) : ∃ S c, S.Ships letterXid ∧ c.Alive S ∧ f S c = a := by
  obtain ⟨S, h1, h2⟩ := Option.bind_eq_some_iff.1 h
  obtain ⟨c0, h3, h4⟩ := Option.bind_eq_some_iff.1 h2
  obtain ⟨c, h5, h6⟩ := Option.map_eq_some_iff.1 h4
  exact ⟨S, c, letterSetting_ships h1, ⟨c0, evs, M.toOption_eq_some.1 h3, h5⟩, h6⟩

/-- `x²abc`, as MathML. -/
def powerDom : Dom := .elem .math [] [.elem .msup [] [.elem .mi ['x'] [], .elem .mn ['2'] []],
  .elem .mi ['a', 'b', 'c'] []]

/-- A layout of this formula: `x²` is on the left and `abc` from 10 to 13. -/
def powerView : View :=
  let G : Geom := {
    own
      | [] => ⟨0, 0, 13, 20⟩
      | 2 :: _ => ⟨10, 0, 3, 20⟩
      | _ => ⟨0, 0, 9, 20⟩
    startReader _ := ⟨0, 10, 0, 0⟩
    endReader _ := ⟨13, 10, 0, 0⟩
    glyph _ i := ⟨10 + i, 0, 1, 20⟩
    fontSize _ := 1 }
  ⟨G, G⟩

/-- **C64, negation.** Typed text and keys are not applied in order: with the formula `a`, typing `b`
and pressing Left before the timer fires gives `ba`, although the calls in order give `ab`. -/
theorem C64_not : ∃ (S : Setting) (c c' : Component) (ed : Editor SNode),
    S.Ships letterXid ∧ c.Alive S ∧
    c.handleAll S [(powerView, .beforeInput (.insertText ['b'])), (powerView, .arrow .left),
      (powerView, .timer)] = some c' ∧
    c.editor.run S.env [.insertAtCaret [['b']], .moveCaret .left .char] = .ok ed ∧
    c'.editor.input = [.symbol ['b'], .symbol ['a']] ∧
    ed.input = [.symbol ['a'], .symbol ['b']] := by
  have h : afterAll [(powerView, .connect (.elem .math [] [])),
      (powerView, .beforeInput (.insertText ['a'])), (powerView, .timer)] (fun S c =>
      ((c.handleAll S [(powerView, .beforeInput (.insertText ['b'])), (powerView, .arrow .left),
        (powerView, .timer)]).map (·.editor.input),
      (c.editor.run S.env [.insertAtCaret [['b']], .moveCaret .left .char]).toOption.map (·.input))) =
      some (some [.symbol ['b'], .symbol ['a']], some [.symbol ['a'], .symbol ['b']]) := by
    decide +kernel
  obtain ⟨S, c, hS, hc, h1⟩ := afterAll_ok h
  obtain ⟨h2, h3⟩ := Prod.mk.inj h1
  obtain ⟨c', h4, h5⟩ := Option.map_eq_some_iff.1 h2
  obtain ⟨ed, h6, h7⟩ := Option.map_eq_some_iff.1 h3
  exact ⟨S, c, c', ed, hS, hc, h4, M.toOption_eq_some.1 h6, h5, h7⟩

/-- Three characters, two timers, one throwing event in between: a space behind `x²` makes the first
timer throw, and yet everything arrives in the end. -/
example : afterAll [(powerView, .connect squareDom), (powerView, .arrow .right),
    (powerView, .arrow .right), (powerView, .arrow .right), (powerView, .arrow .right),
    (powerView, .beforeInput (.insertText [' '])), (powerView, .beforeInput (.insertText ['b'])),
    (powerView, .timer), (powerView, .timer)] (fun _ c => (c.editor.input, c.tasks)) =
    some ([.symbol ['x'], .sup [.symbol ['2']], .symbol [' '], .symbol ['b']], []) := by
  decide +kernel

/-- **C65, negation.** Releasing the pointer over the formula selects even if it was not pressed
there. -/
theorem C65_not : ∃ (S : Setting) (c c' : Component), S.Ships letterXid ∧ c.Reached S ∧
    c.pointerDown = false ∧ c.step S powerView (.pointerUp ⟨13, 10⟩) = .ok c' ∧
    c.editor.caret = .at ⟨[], 0⟩ ∧ c'.editor.caret = ⟨⟨[], 0⟩, ⟨[], 5⟩⟩ := by
  have h : afterEvents [(powerView, .connect powerDom)] (fun S c => (c.pointerDown, c.editor.caret,
      (c.step S powerView (.pointerUp ⟨13, 10⟩)).toOption.map (·.editor.caret))) =
      some (false, .at ⟨[], 0⟩, some ⟨⟨[], 0⟩, ⟨[], 5⟩⟩) := by
    decide +kernel
  obtain ⟨S, c, hS, hc, h1⟩ := afterEvents_ok h
  simp only [Prod.mk.injEq] at h1
  obtain ⟨h2, h3, h4⟩ := h1
  obtain ⟨c', h5, h6⟩ := Option.map_eq_some_iff.1 h4
  exact ⟨S, c, c', hS, hc, h2, M.toOption_eq_some.1 h5, h3, h6⟩

/-- Dragging from behind `c` to before `a` selects `abc`. -/
example : afterEvents [(powerView, .connect powerDom), (powerView, .pointerDown ⟨13, 10⟩),
    (powerView, .pointerMove ⟨12, 10⟩), (powerView, .pointerUp ⟨10, 10⟩)]
    (fun _ c => (c.editor.caret, c.pointerDown)) = some (⟨⟨[], 5⟩, ⟨[], 2⟩⟩, false) := by
  decide +kernel

end Aftermath
