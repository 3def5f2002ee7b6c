import Verif.Proof.Page

/-! # C82 and C83: pages with several editors -/

namespace Aftermath

variable {S : Setting} {x : Xid} {p : Page} {c c' : Component} {v v' : View}

/-! ## C82 -/

/-- **C82.** Every editor of a page behaves as if it were alone: it handles its own events, and what
is pasted is what is on the clipboard by then. Exceptions and panics of the other ones do not
matter. -/
theorem C82_alone (S : Setting) (p : Page) (evs : List PageEvent) (i : Nat) :
    (p.run S evs).editors[i]? =
      p.editors[i]?.map (·.bind fun c => c.handleAll S (p.eventsOf S i evs)) := by
  induction evs generalizing p with
  | nil =>
    show p.editors[i]? = _
    cases p.editors[i]? with
    | none => rfl
    | some o => cases o <;> rfl
  | cons e evs ih =>
    rw [Page.run_cons, ih]
    have key : ∀ (j : Nat) (w : View) (ev : Event), (p.step S e) = p.handleAt S j w ev →
        Option.map (·.bind fun c => c.handleAll S ((p.step S e).eventsOf S i evs))
          (p.step S e).editors[i]? =
        p.editors[i]?.map (·.bind fun c => c.handleAll S
          ((if j = i then [(w, ev)] else []) ++ (p.step S e).eventsOf S i evs)) := by
      intro j w ev he
      generalize (p.step S e).eventsOf S i evs = l
      rw [he, Page.handleAt_editors]
      split
      · rw [Option.map_map]
        congr 1
        funext o
        cases o with
        | none => rfl
        | some c => rfl
      · rfl
    cases e with
    | editor j w ev => exact key j w ev rfl
    | paste j w => exact key j w _ rfl
    | copied clip => rfl

/-- **C82.** What is copied or cut in one editor and pasted into another one, or into the same one,
is inserted there as it is, whatever happens in between as long as nothing else is copied. At most 20
containers are nested in it (see C37), and asking for completions must not panic. -/
theorem C82_paste (hS : S.Ships x) {i j : Nat} {ev : Event} (hev : ev = .copy ∨ ev = .cut)
    (hi : p.editors[i]? = some (some c)) (hw : rowWf c.editor.input = true)
    (hfit : rowFits S.cfg.bits c.editor.input = true) {rng : MinRange} {row : Row}
    (hsel : selectionOf c.editor.input c.editor.caret = .ok (.row rng))
    (hrow : rowAt c.editor.input rng.rowIndices = some row) {nodes : Row}
    (hnodes : nodes = (row.take (max rng.start rng.stop)).drop (min rng.start rng.stop))
    (hdeep : nesting nodes ≤ 20) {evs : List PageEvent} (hevs : ∀ e ∈ evs, ¬ e.Copies)
    (hj : (p.run S (.editor i v ev :: evs)).editors[j]? = some (some c'))
    (hw' : rowWf c'.editor.input = true) (hf' : Fresh S.env c'.editor) {rng' : MinRange}
    {row' : Row} (hsel' : selectionOf c'.editor.input c'.editor.caret = .ok (.row rng'))
    (hrow' : rowAt c'.editor.input rng'.rowIndices = some row')
    (hs' : ∃ e ac, c'.editor.startAutocorrect S.env = .ok (e, ac))
    (hG : ∀ q, 0 < v'.after.fontSize q) :
    ∃ c'', (p.run S (.editor i v ev :: (evs ++ [.paste j v']))).editors[j]? = some (some c'') ∧
      ReplacedAt c'.editor.input rng'.rowIndices row' (row'.take (min rng'.start rng'.stop) ++
        nodes ++ row'.drop (max rng'.start rng'.stop)) c''.editor.input ∧
      c''.editor.caret = .at ⟨rng'.rowIndices, min rng'.start rng'.stop + nodes.length⟩ ∧
      c''.UpToDate S := by
  obtain ⟨row1, h1, h2, h3⟩ := copy_ok hw hsel
  rw [hrow] at h1
  cases h1
  have hn : nodes = selectedNodes row rng := hnodes
  rw [← hn] at h3
  have hrw := rowAt_wf hw hrow
  have hnw : rowWf nodes = true := hn ▸ selectedNodes_wf hrw rng
  have hwd := widthsFit_of_fits _ hnw (hn ▸ selectedNodes_fits (rowAt_fits hfit hrow) rng)
  have hround := C37_roundtrip_partial S.cfg nodes hwd hdeep
  have hclip : (p.run S (.editor i v ev :: evs)).clipboard = ⟨serializeNodes nodes, []⟩ := by
    rw [Page.run_cons, Page.run_clipboard hevs]
    show (p.handleAt S i v ev).clipboard = _
    unfold Page.handleAt
    rw [hi]
    rcases hev with rfl | rfl <;> simp only [Clip.after, h3]
  have hne : (serializeNodes nodes).isEmpty = false := by
    cases hs : serializeNodes nodes with
    | nil => rw [hs] at hround; cases hround
    | cons a l => rfl
  obtain ⟨e, ac, hs'⟩ := hs'
  obtain ⟨row2, ed', a, g1, g2, g3, g4, -⟩ := C36_paste (env := S.env) hw' hsel' hs' hround hnw
  rw [hrow'] at g2
  cases g2
  have hwn : rowWf ed'.input = true := by
    refine g3.wf hw' ?_
    have := rowAt_wf hw' hrow'
    simp only [rowWf_append, Bool.and_eq_true]
    exact ⟨⟨rowWf_take this _, hnw⟩, rowWf_drop this _⟩
  have hval : ValidPos ed'.input ⟨rng'.rowIndices, min rng'.start rng'.stop + nodes.length⟩ := by
    obtain ⟨row3, k1, k2, -⟩ := copy_ok hw' hsel'
    rw [hrow'] at k1
    cases k1
    exact ⟨_, g3.rowAt_new, by simp; omega⟩
  have hst : c'.editor.step S.env (.paste (serializeNodes nodes) true) = .ok ed' := by
    simp only [Editor.step, g1, M.ok_bind]
  obtain ⟨t, ht, hE⟩ := C73_show (c := { c' with editor := ed' }) (G := v'.after) hS
    (hf'.step hst) hwn hG
  have hh : c'.handle S v' (.paste (serializeNodes nodes) []) =
      ({ c' with editor := ed' } : Component).redraw S v'.after := by
    simp only [Component.handle, hne, Bool.false_eq_true, if_false, g1, Handled.call, if_true]
  have hres : ∃ c'', (c'.handle S v' (.paste (serializeNodes nodes) [])).left = some c'' ∧
      c''.editor.input = ed'.input ∧ c''.editor.caret = ed'.caret ∧ c''.UpToDate S := by
    rw [hh]
    generalize ({ c' with editor := ed' } : Component).redraw S v'.after = o at hE
    cases hE with
    | thrown hu => exact ⟨_, rfl, rfl, rfl, ht, fun ⟨e, he⟩ => absurd he (unshowable_ne hS hwn ht hu)⟩
    | dead _ hl => exact absurd (by simp only [g4]; exact ⟨hval, hval⟩) hl.2
    | fine e hu hl he => exact ⟨_, rfl, rfl, rfl, ht, fun _ => he⟩
  obtain ⟨c'', r1, r2, r3, r4⟩ := hres
  refine ⟨c'', ?_, by rw [r2]; exact g3, by rw [r3]; exact g4, r4⟩
  rw [show PageEvent.editor i v ev :: (evs ++ [.paste j v']) =
    (PageEvent.editor i v ev :: evs) ++ [.paste j v'] from rfl, Page.run_append]
  show (Page.handleAt S _ j v' (.paste _ _)).editors[j]? = _
  rw [Page.handleAt_editors, if_pos rfl, hj, hclip]
  simp only [Option.map_some, Option.bind_some, r1]

/-- **C82.** What the clipboard holds after copying or cutting in an editor: the selected part of a row
if it is selected, and no plain text. In all other cases, when cells of a grid are selected or the
caret is not a place of the formula, the editor ends, and the clipboard is as before. -/
theorem C82_clipboard {i : Nat} {ev : Event} (hev : ev = .copy ∨ ev = .cut)
    (hi : p.editors[i]? = some (some c)) (hw : rowWf c.editor.input = true) :
    (∀ rng row, selectionOf c.editor.input c.editor.caret = .ok (.row rng) →
      rowAt c.editor.input rng.rowIndices = some row →
      (p.step S (.editor i v ev)).clipboard = ⟨serializeNodes
        ((row.take (max rng.start rng.stop)).drop (min rng.start rng.stop)), []⟩) ∧
    ((∀ rng, selectionOf c.editor.input c.editor.caret ≠ .ok (.row rng)) →
      (p.step S (.editor i v ev)).clipboard = p.clipboard ∧
      (p.step S (.editor i v ev)).editors[i]? = some none) := by
  have hst : p.step S (.editor i v ev) =
      ⟨p.editors.set i (c.handle S v ev).left, p.clipboard.after c ev⟩ := by
    show p.handleAt S i v ev = _
    unfold Page.handleAt
    rw [hi]
  have hlen : i < p.editors.length := (List.getElem?_eq_some_iff.1 hi).1
  rw [hst]
  refine ⟨fun rng row hsel hrow => ?_, fun hno => ?_⟩
  · obtain ⟨row1, h1, -, h3⟩ := copy_ok hw hsel
    rw [hrow] at h1
    cases h1
    rcases hev with rfl | rfl <;> (simp only [Clip.after, h3]; rfl)
  · have hc : ∃ e, c.editor.copy = .error e := by
      cases hcc : Caret.fromMinimal c.editor.input c.editor.caret with
      | error e => exact ⟨e, by simp only [Editor.copy, hcc, M.error_bind]⟩
      | ok cc =>
        have hsel : selectionOf c.editor.input c.editor.caret = .ok cc.selection.toMinimal := by
          simp only [selectionOf, hcc, M.ok_bind]
        cases hcs : cc.selection with
        | row r => rw [hcs] at hsel; exact absurd hsel (hno _)
        | grid g => exact ⟨.todo, by simp only [Editor.copy, hcc, M.ok_bind, hcs]⟩
    obtain ⟨e, hc⟩ := hc
    rcases hev with rfl | rfl <;>
      simp [Clip.after, hc, Component.handle, Component.handleCopy, Handled.call, Handled.left, hlen]

/-- **C82.** Loading a page: every formula that can be read is in an editor at its place, whatever the
other formulas of the page are like, and if it can be shown, it is shown. A document that cannot be
read gives an editor with the empty formula. -/
theorem C82_load (hS : S.Ships x) (clip : Clip) {docs : List (View × View × Dom)} {i : Nat}
    {v₁ v₂ : View} {d : Dom} (hi : docs[i]? = some (v₁, v₂, d))
    (hG₁ : ∀ q, 0 < v₁.after.fontSize q) (hG₂ : ∀ q, 0 < v₂.after.fontSize q) :
    (∀ r, d.tag = .math → Means S.browser d r → rowWf r = true →
      ∃ c, (Page.load S clip docs).editors[i]? = some (some c) ∧ c.JustLoaded S r) ∧
    (∀ e, fromElement S.browser d = .error e →
      ∃ c, (Page.load S clip docs).editors[i]? = some (some c) ∧ c.JustLoaded S []) := by
  have hl : (Page.load S clip docs).editors[i]? = some (Component.load S v₁ v₂ d) := by
    simp only [Page.load, List.getElem?_map, hi, Option.map_some]
  rw [hl]
  refine ⟨fun r hd hr hw => ?_, fun e he => ?_⟩
  · obtain ⟨c, h1, h2, -⟩ := Component.load_twice hS hG₁ hG₂ hd hr hw
    exact ⟨c, by rw [h1], h2⟩
  · obtain ⟨c, hn, -⟩ := C62_new hS
    obtain ⟨h1, h2, h3, h4, h5⟩ := Component.new_state hn
    refine ⟨{ c with connected := true }, ?_, h3, h4, rfl, h5, h1.tree, h1.result⟩
    unfold Component.load
    rw [hn]
    have ht : ∀ (c : Component) G, c.handleMathML S G d = .thrown c := by
      intro c G
      unfold Component.handleMathML
      rw [he]
      rfl
    show some (Option.bind (c.handleMathML S v₁.after d).left _) = _
    rw [ht]
    show some (Option.bind (Component.handleMathML S { c with connected := true } v₂.after d).left
      _) = _
    rw [ht]
    rfl

/-- **C82.** The formula is set twice while it is loaded. So the first undo after that shows the same
formula, the second one leaves nothing of it, and all further ones do nothing. -/
theorem C82_undo (hS : S.Ships x) {v₁ v₂ : View} {d : Dom} {r : Row} (hd : d.tag = .math)
    (hr : Means S.browser d r) (hw : rowWf r = true) (hG₁ : ∀ q, 0 < v₁.after.fontSize q)
    (hG₂ : ∀ q, 0 < v₂.after.fontSize q) {views : List View}
    (hG : ∀ v ∈ views, ∀ q, 0 < v.after.fontSize q) :
    ∃ c c', Component.load S v₁ v₂ d = some c ∧
      c.handleAll S (views.map fun v => (v, .undoKey)) = some c' ∧
      c'.JustLoaded S (if views.length ≤ 1 then r else []) := by
  obtain ⟨c, h1, h2, h3, h4, h5⟩ := Component.load_twice hS hG₁ hG₂ hd hr hw
  refine ⟨c, ?_⟩
  have gen : ∀ (views : List View), (∀ v ∈ views, ∀ q, 0 < v.after.fontSize q) →
      ∀ {c : Component} {hist : History}, Agree S.env c.editor hist →
      (∀ r ∈ hist.now :: hist.past, rowWf r = true) → Fresh S.env c.editor →
      c.JustLoaded S hist.now → (∀ a ∈ c.editor.undo.undoStack, a.caretBefore = .at ⟨[], 0⟩) →
      ∃ c', c.handleAll S (views.map fun v => (v, .undoKey)) = some c' ∧
        c'.JustLoaded S (History.back^[views.length] hist).now := by
    intro views
    induction views with
    | nil => intro _ c hist _ _ _ hj _; exact ⟨c, rfl, hj⟩
    | cons v views ih =>
      intro hG c hist ha hwf hf hj hst
      have hback : ∀ r ∈ hist.back.now :: hist.back.past, rowWf r = true := by
        unfold History.back
        split
        · exact hwf
        · rename_i q qs hq
          intro r hr
          exact hwf r (by rw [hq]; exact .tail _ hr)
      obtain ⟨c1, g1, g2, g3, g4, g5, g6, g7, g8⟩ := Component.undo_loaded (v := v) hS ha hf
        (hback _ (.head _)) (hG v (.head _)) hj.caret hst
      obtain ⟨c', k1, k2⟩ := ih (fun v hv => hG v (.tail _ hv)) g2 hback g4
        ⟨g2.now.symm, g5, g7.trans hj.connected, g6.trans hj.tasks, g3⟩ g8
      refine ⟨c', ?_, k2⟩
      show Option.bind (c.handle S v .undoKey).left _ = _
      rw [g1]
      exact k1
  obtain ⟨c', k1, k2⟩ := gen views hG h4 (by
    simp only [List.mem_cons, List.not_mem_nil, or_false, forall_eq_or_imp, forall_eq]
    exact ⟨hw, hw, rfl⟩) h3 h2 h5
  refine ⟨c', h1, k1, ?_⟩
  have hz : ∀ n, (History.back^[n] ⟨[], [], [r, r]⟩).now = [] := by
    intro n
    induction n with
    | zero => rfl
    | succ n ih => exact ih
  match hv : views.length with
  | 0 => rw [hv] at k2; exact k2
  | 1 => rw [hv] at k2; exact k2
  | n + 2 =>
    rw [hv] at k2
    rw [if_neg (by omega)]
    rw [← hz n]
    exact k2

/-! ## C83 -/

/-- **C83.** Moving an editor to another place of the document, exactly: it ends the editor if an end
of the selection is inside of an element, or if the formula of the attribute can be shown and the
caret is not a position of it; and otherwise the formula is that of the attribute again. Missing: that
nothing is lost, see `C83_not`. -/
theorem C83_move_partial (hS : S.Ships x) (hf : Fresh S.env c.editor)
    (hw : rowWf c.editor.input = true) (hu : c.UpToDate S)
    (hdeep : S.cfg.checks = false → c.editor.caret.start.rowIndices.length < 2 ^ S.cfg.bits ∧
      c.editor.caret.stop.rowIndices.length < 2 ^ S.cfg.bits) {v₁ v₂ : View}
    (hG : ∀ q, 0 < v₂.after.fontSize q) {d : Dom} {r : Row} (hd : d.tag = .math)
    (hr : Means S.browser d r) (hwr : rowWf r = true) :
    (c.handleAll S [(v₁, .disconnect), (v₂, .connect d)] = none ↔ CaretInElement c.editor.caret ∨
      ¬ Component.Unshowable S r ∧ ¬ ValidCaret r c.editor.caret) ∧
    ∀ c', c.handleAll S [(v₁, .disconnect), (v₂, .connect d)] = some c' →
      c'.editor.input = r ∧ c'.editor.caret = c.editor.caret ∧ c'.UpToDate S := by
  have hE : c.handleAll S [(v₁, .disconnect), (v₂, .connect d)] =
      (Component.handleMathML S { c with connected := true } v₂.after d).left := by
    show Option.bind (Component.handleMathML S { c with connected := true } v₂.after d).left
      (fun c => some c) = _
    cases (Component.handleMathML S { c with connected := true } v₂.after d).left <;> rfl
  rw [hE]
  rcases Component.load_ends (c := { c with connected := true }) (G := v₂.after) hS hf hw hu.tree
    hdeep hG ((C55 d r).2 ⟨hd, hr⟩) hwr with ⟨h1, h2⟩ | ⟨h1, ed', t, rfl, h3, h4, h5, h6⟩
  · rw [h2]
    exact ⟨⟨fun _ => .inl h1, fun _ => rfl⟩, nofun⟩
  · generalize Component.handleMathML S { c with connected := true } v₂.after d = o at h6
    cases h6 with
    | thrown hu' =>
      refine ⟨⟨nofun, ?_⟩, ?_⟩
      · rintro (h | ⟨h, -⟩)
        · exact absurd h h1
        · exact absurd hu' h
      · rintro c' h
        cases h
        exact ⟨rfl, h3, h5, fun ⟨e, he⟩ => absurd he (unshowable_ne hS hwr h5 hu')⟩
    | dead hu' hl =>
      refine ⟨⟨fun _ => .inr ⟨hu', ?_⟩, fun _ => rfl⟩, nofun⟩
      have := hl.2
      simp only [h3] at this
      exact this
    | fine e hu' hl he =>
      refine ⟨⟨nofun, ?_⟩, ?_⟩
      · rintro (h | ⟨-, h⟩)
        · exact absurd h h1
        · refine absurd ⟨rfl, ?_⟩ hl
          simp only [h3]
          exact h
      · rintro c' h
        cases h
        exact ⟨rfl, h3, h5, fun _ => he⟩

/-- The page of the examples. -/
private def afterPage {α : Type} (docs : List Dom) (evs : List PageEvent) (f : Page → α) :
    Option α :=
  letterSetting.map fun S =>
    f ((Page.load S ⟨[], []⟩ (docs.map fun d => (powerView, powerView, d))).run S evs)

/-- `msup` without children, which cannot be read. -/
private def badDom : Dom := .elem .math [] [.elem .msup [] []]

/-- An empty table, which ends the editor. -/
private def deadDom : Dom := .elem .math [] [.elem .mtable [] []]

/-- A page with four formulas: one of them cannot be read, and one ends its editor. In the first one
`abc` is selected and copied, and then it is pasted into the last one. -/
example : afterPage [powerDom, badDom, deadDom, squareDom]
    [.editor 0 powerView (.pointerDown ⟨13, 10⟩), .editor 0 powerView (.pointerUp ⟨10, 10⟩),
      .editor 0 powerView .copy, .editor 3 powerView (.arrow .right), .paste 3 powerView,
      .editor 2 powerView .undoKey]
    (fun p => p.editors.map (·.map fun c => (c.editor.input, c.editor.caret))) =
    some [some (rowOf "x" ++ [.sup (rowOf "2")] ++ rowOf "abc", ⟨⟨[], 5⟩, ⟨[], 2⟩⟩),
      some ([], .at ⟨[], 0⟩), none,
      some (rowOf "xabc" ++ [.sup (rowOf "2")], .at ⟨[], 4⟩)] := by
  decide +kernel

/-- Copying `abc` in the first editor, and then from an editor in which two cells of a table are
selected. -/
example : afterPage [powerDom, squareDom]
    [.editor 0 powerView (.pointerDown ⟨13, 10⟩), .editor 0 powerView (.pointerUp ⟨10, 10⟩),
      .editor 0 powerView .copy]
    (fun p =>
      let bad := p.editors.map (·.map fun c => { c with editor := { c.editor with
        input := [.container .table [rowOf "1", rowOf "2"] 2],
        caret := ⟨⟨[(0, 0)], 0⟩, ⟨[(0, 1)], 0⟩⟩ } })
      letterSetting.map fun S =>
        let q := Page.step S ⟨bad, p.clipboard⟩ (.editor 1 powerView .copy)
        (p.clipboard.json, q.clipboard.json, q.editors.map (·.isSome))) =
    some (some (serializeNodes (rowOf "abc"), serializeNodes (rowOf "abc"), [true, false])) := by
  decide +kernel

/-- Two undo steps after loading. -/
example : afterPage [squareDom] [.editor 0 powerView .undoKey]
      (fun p => p.editors.map (·.map fun c => c.editor.input)) =
      some [some [sy 'x', .sup (rowOf "2")]] ∧
    afterPage [squareDom] [.editor 0 powerView .undoKey, .editor 0 powerView .undoKey]
      (fun p => p.editors.map (·.map fun c => c.editor.input)) = some [some []] := by
  decide +kernel

/-- Typing a character. -/
private def typingChar (ch : Char) : List (View × Event) :=
  [(powerView, .beforeInput (typed ch)), (powerView, .timer)]

/-- The element is taken out of the document and put back. -/
private def moving : List (View × Event) :=
  [(powerView, .disconnect), (powerView, .connect (.elem .math [] []))]

/-- **C83, negation.** Typing `a` into an empty editor and moving it ends the editor. If the caret is
moved to the left before, the editor goes on, but what was typed is gone. -/
theorem C83_not : ∃ (S : Setting) (c : Component), S.Ships letterXid ∧ Component.new S = .ok c ∧
    (∃ c₁, c.handleAll S ((powerView, .connect (.elem .math [] [])) :: typingChar 'a') = some c₁ ∧
      c₁.editor.input = rowOf "a") ∧
    c.handleAll S ((powerView, .connect (.elem .math [] [])) :: typingChar 'a' ++ moving) = none ∧
    ∃ c₂, c.handleAll S ((powerView, .connect (.elem .math [] [])) :: typingChar 'a' ++
      [(powerView, .arrow .left)] ++ moving) = some c₂ ∧ c₂.editor.input = [] := by
  have h : (letterSetting.bind fun S => (Component.new S).toOption.map fun c =>
      ((c.handleAll S ((powerView, .connect (.elem .math [] [])) :: typingChar 'a')).map
          (·.editor.input),
        (c.handleAll S ((powerView, .connect (.elem .math [] [])) :: typingChar 'a' ++ moving)).isSome,
        (c.handleAll S ((powerView, .connect (.elem .math [] [])) :: typingChar 'a' ++
          [(powerView, .arrow .left)] ++ moving)).map (·.editor.input))) =
      some (some (rowOf "a"), false, some []) := by
    decide +kernel
  obtain ⟨S, h1, h2⟩ := Option.bind_eq_some_iff.1 h
  obtain ⟨c, h3, h4⟩ := Option.map_eq_some_iff.1 h2
  simp only [Prod.mk.injEq] at h4
  obtain ⟨h5, h6, h7⟩ := h4
  obtain ⟨c1, k1, k2⟩ := Option.map_eq_some_iff.1 h5
  obtain ⟨c2, k3, k4⟩ := Option.map_eq_some_iff.1 h7
  exact ⟨S, c, letterSetting_ships h1, M.toOption_eq_some.1 h3, ⟨c1, k1, k2⟩,
    Option.not_isSome_iff_eq_none.1 (by rw [h6]; nofun), c2, k3, k4⟩

end Aftermath
