import Verif.Proof.KeySelect

/-! # Property theorem C85: what can be selected with the keyboard -/

namespace Aftermath

variable {T : Type} {env : Env T}

theorem copy_collapsed {ed : Editor T} {data : Str} (hc : ed.caret.Collapsed)
    (h : ed.copy = .ok data) : data = serializeNodes [] := by
  unfold Editor.copy at h
  obtain ⟨c, h1, h2⟩ := M.bind_eq_ok.1 h
  obtain ⟨hin, hm⟩ := Caret.fromMinimal_sound h1
  have hpos : c.start = c.stop := by
    refine hin.1.ext hin.2.1 ?_
    have hs : c.start.toMinimal = ed.caret.start := congrArg MinCaret.start hm
    have he : c.stop.toMinimal = ed.caret.stop := congrArg MinCaret.stop hm
    rw [hs, he]
    exact hc
  obtain ⟨⟨⟨q, hf⟩, ho⟩, -, hsel⟩ := hin
  rw [← hpos] at hsel
  have hf' : IsFocus ed.input (q ++ []) c.start.focus := by simpa using hf
  have hr := rangeFromPositions_eq (a := c.start) (b := c.start) hf' hf' ho ho nofun hf
  simp only [Selection.fromPositions, hr, M.ok_bind, spanStart, spanStop] at hsel
  have hl : RowRange.leftOffset ⟨c.start.focus, c.start.offset, c.start.offset⟩ = c.start.offset := by
    simp [RowRange.leftOffset, RowRange.isForwards]
  have hg : RowRange.rightOffset ⟨c.start.focus, c.start.offset, c.start.offset⟩ =
      c.start.offset := by
    simp [RowRange.rightOffset, RowRange.isForwards]
  rw [if_pos (by simp [RowRange.len, hl, hg])] at hsel
  cases hsel' : c.selection with
  | grid g => rw [hsel'] at hsel; cases hsel
  | row r =>
    rw [hsel'] at hsel h2
    cases hsel
    simp only [RowRange.values, hl, hg, if_pos ho, M.ok_bind] at h2
    cases h2
    simp

/-- **C85.** As long as `select_with_caret`, `select_all` and `extend_selection` are not called, the
caret is a single position, and `copy` gives no nodes: neither undo and redo nor pasting,
autocorrection or autocompletion select anything. -/
theorem C85 {ops : List Op} {ed : Editor T} (hops : ∀ op ∈ ops, ¬ op.Selects)
    (h : Editor.new.run env ops = .ok ed) :
    ed.caret.Collapsed ∧ ∀ data, ed.copy = .ok data → data = serializeNodes [] := by
  have : Unselected ed := by
    have h0 : Unselected (Editor.new : Editor T) := unselected_new
    generalize (Editor.new : Editor T) = e at h h0
    induction ops generalizing e with
    | nil => cases h; exact h0
    | cons op ops ih =>
      obtain ⟨e1, h1, h2⟩ := M.bind_eq_ok.1 h
      exact ih (fun o ho => hops o (by simp [ho])) e1 h2 (h0.step (hops op (by simp)) h1)
  exact ⟨this.caret, fun data hd => copy_collapsed this.caret hd⟩

/-- **C85.** In the component nothing is ever selected without moving or releasing the pointer: after
any keys, text input, clipboard events, presses of the pointer and changes of the attribute,
exceptions included, the caret is a single position, and the copy key copies no nodes. -/
theorem C85_component {S : Setting} {c₀ c : Component} {evs : List (View × Event)}
    (h0 : Component.new S = .ok c₀) (hev : ∀ x ∈ evs, ¬ x.2.Drags)
    (h : c₀.handleAll S evs = some c) :
    c.editor.caret.Collapsed ∧ ∀ data, c.editor.copy = .ok data → data = serializeNodes [] := by
  have h1 : Unselected c₀.editor ∧ ∀ t ∈ c₀.tasks, ∀ op ∈ t.calls S, ¬ op.Selects := by
    unfold Component.new at h0
    obtain ⟨⟨ed, t⟩, h1, h2⟩ := M.bind_eq_ok.1 h0
    obtain ⟨e, -, h3⟩ := M.bind_eq_ok.1 h2
    cases h3
    refine ⟨(unselected_new (T := SNode)).step (env := S.env) (op := .getSyntaxTree) nofun ?_,
      by simp⟩
    simp only [Editor.step, h1, M.ok_bind]
  have h2 := (Component.handleAll_invariant (P := fun op => ¬ op.Selects)
    (fun ed op ed' ha hp hs => ha.step hp hs) nofun h1 (fun x hx => by
      have hd := hev x hx
      obtain ⟨v, ev⟩ := x
      cases ev with
      | beforeInput i =>
        intro op hop
        match i, hop with
        | .deleteBackward, hop | .deleteForward, hop | .insertText (some _), hop =>
          simp only [InputEvent.calls, List.mem_cons, List.not_mem_nil, or_false] at hop
          rcases hop with rfl | rfl <;> exact nofun
      | pointerUp _ => exact absurd trivial hd
      | pointerCancel _ => exact absurd trivial hd
      | pointerMove _ => exact absurd trivial hd
      | _ => simp [Event.Only, Op.Selects]) h).1
  exact ⟨h2.caret, fun data hd => copy_collapsed h2.caret hd⟩

/-- **C85.** With select all, the arrow keys, and the arrow keys with Shift, every range of every row
can be selected, in both directions and from every state, without changing the formula or the
history, if no word of a rule occurs in the formula and its symbols are single characters. Left
does not overflow on the way. -/
theorem C85_select {ed : Editor T} {p : RowIndices} {row : Row} {i j : Nat}
    (hwf : rowWf ed.input = true) (hr : GoodRules env.rules) (hw : Wordless env.rules ed.input)
    (hs : SingleSymbols ed.input) (hrow : rowAt ed.input p = some row) (hi : i ≤ row.length)
    (hj : j ≤ row.length) :
    ∃ ops ed', (∀ op ∈ ops, op.Arrow) ∧ ed.run env ops = .ok ed' ∧ ed'.input = ed.input ∧
      ed'.undo = ed.undo ∧ selectionOf ed'.input ed'.caret = .ok (.row ⟨p, i, j⟩) := by
  have hu : Uncorrected env ed.input := ⟨hwf, hr, hw, hs⟩
  obtain ⟨e1, k1, c1⟩ := key_home hu
  obtain ⟨-, -, -, i1, -⟩ := id k1
  obtain ⟨n, hn⟩ := C07_reaches hwf env.cfg (m := ⟨p, i⟩) ⟨row, hrow, hi⟩
  obtain ⟨e2, k2, c2⟩ := key_moves n (ed := e1) (i1 ▸ hu) ⟨e1.input, rfl, Nat.zero_le _⟩ c1
    (i1 ▸ hn)
  obtain ⟨-, -, -, i2, -⟩ := id (k1.trans k2)
  have last : ∃ e3, KeyStep env e2 e3 ∧ selectionOf e2.input e3.caret = .ok (.row ⟨p, i, j⟩) := by
    by_cases hij : i ≤ j
    · obtain ⟨e3, k3, -, h3⟩ := key_grow (j - i) (ed := e2) (i2 ▸ hu) (i2 ▸ hrow) c2 (by omega)
      exact ⟨e3, k3, by rw [h3, show i + (j - i) = j by omega]⟩
    · obtain ⟨e3, k3, -, h3⟩ := key_shrink (i - j) (ed := e2) (i2 ▸ hu) (i2 ▸ hrow) c2 hi (by omega)
      exact ⟨e3, k3, by rw [h3, show i - (i - j) = j by omega]⟩
  obtain ⟨e3, k3, h3⟩ := last
  obtain ⟨ops, g1, g2, g3, g4⟩ := (k1.trans k2).trans k3
  obtain ⟨-, -, -, i3, -⟩ := id k3
  exact ⟨ops, e3, g1, g2, g3, g4, by rw [i3]; exact h3⟩

/-- **C85.** A selection of cells of a table is a trap for the keyboard: typing, deleting and Shift
with an arrow key panic, and the arrow keys do nothing, however often. -/
theorem C85_trap {ed ed' : Editor T} {g : MinGridRange} {ops : List Op}
    (hsel : selectionOf ed.input ed.caret = .ok (.grid g)) (hops : ∀ op ∈ ops, op.Keyed)
    (h : ed.run env ops = .ok ed') :
    (∀ op ∈ ops, ∃ d m, op = .moveCaret d m) ∧
      ed'.input = ed.input ∧ ed'.caret = ed.caret ∧ ed'.undo = ed.undo := by
  induction ops generalizing ed with
  | nil => cases h; exact ⟨by simp, rfl, rfl, rfl⟩
  | cons op ops ih =>
    obtain ⟨e1, h1, h2⟩ := M.bind_eq_ok.1 h
    obtain ⟨c, hc, hcs⟩ := M.bind_eq_ok.1 hsel
    obtain ⟨x, hx⟩ : ∃ x, c.selection = .grid x := by
      cases hx : c.selection with
      | row r => rw [hx] at hcs; cases hcs
      | grid x => exact ⟨x, rfl⟩
    have hst : ed.startAutocorrect env = .ok (ed, none) := by
      simp only [Editor.startAutocorrect, Editor.getAutocomplete, hc, M.ok_bind, hx]
    have hop : ∃ d m, op = .moveCaret d m := by
      have := hops op (by simp)
      cases op with
      | moveCaret d m => exact ⟨d, m, rfl⟩
      | selectWithCaret d m =>
        simp only [Editor.step, Editor.selectWithCaret, hst, M.ok_bind, hc, hx] at h1
        cases h1
      | removeAtCaret m =>
        simp only [Editor.step, Editor.removeAtCaret, hst, M.ok_bind, hc, hx] at h1
        cases h1
      | insertAtCaret vs =>
        simp only [Editor.step, Editor.insertAtCaret, hst, M.ok_bind, Editor.insertNodes, hc,
          hx] at h1
        cases h1
      | _ => exact absurd this nofun
    have he : e1.input = ed.input ∧ e1.caret = ed.caret ∧ e1.undo = ed.undo := by
      obtain ⟨d, m, rfl⟩ := hop
      simp only [Editor.step, Editor.moveCaret, hst, M.ok_bind, hc, Aftermath.moveCaret, hx,
        finishNone] at h1
      cases h1
      exact ⟨rfl, (Caret.fromMinimal_sound hc).2, rfl⟩
    obtain ⟨g1, g2, g3, g4⟩ := ih (ed := e1) (by rw [he.1, he.2.1]; exact hsel)
      (fun o ho => hops o (by simp [ho])) h2
    refine ⟨?_, g2.trans he.1, g3.trans he.2.1, g4.trans he.2.2⟩
    intro o ho
    rcases List.mem_cons.1 ho with rfl | ho
    · exact hop
    · exact g1 o ho

/-! ## Examples -/

/-- `a`, a fraction, `b`, with the caret behind the `a`. -/
def selectable : Editor Unit :=
  { Editor.new with
    input := [.symbol ['a'], .fraction [.symbol ['x']] [], .symbol ['b']]
    caret := .at ⟨[], 1⟩ }

/-- No word of the shipped rules occurs in it, and its symbols are single characters. -/
example : Wordless shippedAutocomplete selectable.input ∧ SingleSymbols selectable.input := by
  have hsym : ∀ p row s, rowAt selectable.input p = some row → Node.symbol s ∈ row →
      s ∈ [['a'], ['b'], ['x']] := by
    intro p row s hp hs
    match p, hp with
    | [], hp =>
      cases hp
      simp [selectable] at hs
      rcases hs with rfl | h | rfl
      · simp
      · cases h
      · simp
    | (0, _) :: _, hp => cases hp
    | (2, _) :: _, hp => cases hp
    | (n + 3, _) :: _, hp => cases hp
    | (1, 0) :: [], hp => cases hp; simp at hs; subst hs; simp
    | (1, 1) :: [], hp => cases hp; simp at hs
    | (1, n + 2) :: _, hp => cases hp
    | (1, 0) :: (0, _) :: _, hp => cases hp
    | (1, 0) :: (n + 1, _) :: _, hp => cases hp
    | (1, 1) :: (_, _) :: _, hp => cases hp
  constructor
  · intro p row before syms after rule hp hrow hr heq
    have h1 : ∀ rule ∈ shippedAutocomplete, ∃ c ∈ rule.parser, c ∉ ['a', 'b', 'x'] := by
      decide +kernel
    obtain ⟨c, hc, hn⟩ := h1 rule hr
    rw [← heq] at hc
    obtain ⟨s, hs, hcs⟩ := List.mem_flatten.1 hc
    have := hsym p row s hp (by rw [hrow]; simp [hs])
    simp only [List.mem_cons, List.not_mem_nil, or_false] at this hn
    rcases this with rfl | rfl | rfl <;> simp at hcs <;> subst hcs <;> simp at hn
  · intro p row s hp hs
    have := hsym p row s hp hs
    simp only [List.mem_cons, List.not_mem_nil, or_false] at this
    rcases this with rfl | rfl | rfl <;> rfl

/-- Shift and Right selects the whole fraction, and a second time the `b` as well. -/
example : ((selectable.run ⟨.dev, fun _ => .ok (), shippedAutocomplete⟩
    [.selectWithCaret .right .char]).bind fun ed => selectionOf ed.input ed.caret) =
    .ok (.row ⟨[], 1, 2⟩) ∧
    ((selectable.run ⟨.dev, fun _ => .ok (), shippedAutocomplete⟩
    [.selectWithCaret .right .char, .selectWithCaret .right .char]).bind fun ed =>
      selectionOf ed.input ed.caret) = .ok (.row ⟨[], 1, 3⟩) := by decide +kernel

/-- From a lost caret, the fraction is selected from the right to the left. -/
example : ((({ selectable with caret := .at ⟨[(7, 7)], 7⟩ }).run
    ⟨.dev, fun _ => .ok (), shippedAutocomplete⟩
    [.selectAll, .moveCaret .left .char, .moveCaret .right .char, .moveCaret .right .char,
      .moveCaret .right .char, .moveCaret .right .char, .moveCaret .right .char,
      .selectWithCaret .left .char]).bind fun ed => selectionOf ed.input ed.caret) =
    .ok (.row ⟨[], 2, 1⟩) := by decide +kernel

/-- Typing, undo and redo leave nothing selected. -/
example : ((Editor.run ⟨.dev, fun _ => .ok (), shippedAutocomplete⟩ (Editor.new (T := Unit))
    [.insertAtCaret [['a'], ['b']], .moveCaret .left .char, .undo, .redo]).map (·.caret)) =
    .ok (.at ⟨[], 2⟩) := by decide +kernel

/-- Shift and Right from the end of the first cell of a table selects two cells, and then it
panics. -/
example :
    let env : Env Unit := ⟨.dev, fun _ => .ok (), []⟩
    let ed : Editor Unit := { Editor.new with
      input := [.container .table [[.symbol ['x']], []] 2]
      caret := .at ⟨[(0, 0)], 1⟩ }
    ((ed.run env [.selectWithCaret .right .char, .moveCaret .left .char]).bind fun ed =>
      selectionOf ed.input ed.caret) = .ok (.grid ⟨[], 0, 0, 2, 2⟩) ∧
    (ed.run env [.selectWithCaret .right .char, .selectWithCaret .left .char]).map (·.input) =
      .error .todo := by decide +kernel

end Aftermath
