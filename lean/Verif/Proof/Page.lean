import Verif.Spec.Page
import Verif.Props.EndToEnd
import Verif.Props.Clipboard
import Verif.Proof.HandlerLeft

/-! # Lemmas about pages -/

namespace Aftermath

variable {S : Setting} {x : Xid}

/-- What cannot be shown is not rendered. -/
theorem unshowable_ne (hS : S.Ships x) {r : Row} (hw : rowWf r = true) {t : SNode} {e : RElem}
    (ht : S.grammar.parse r = .ok t) (hu : Component.Unshowable S r) :
    renderAll S.renderers t ≠ .ok e := by
  intro he
  obtain ⟨t', h1, h2⟩ := hu
  rw [ht] at h1
  cases h1
  obtain ⟨hx, m, hm⟩ := id hS
  obtain ⟨t', k1, k2⟩ := C57_partial hx hm hw
  rw [ht] at k1
  cases k1
  exact absurd h2 (k2.1 ⟨e, he⟩)

namespace Page

theorem run_cons (p : Page) (e : PageEvent) (evs : List PageEvent) :
    p.run S (e :: evs) = (p.step S e).run S evs := rfl

theorem run_append (p : Page) (evs evs' : List PageEvent) :
    p.run S (evs ++ evs') = (p.run S evs).run S evs' := List.foldl_append

theorem handleAt_editors (p : Page) (i j : Nat) (v : View) (ev : Event) :
    (p.handleAt S j v ev).editors[i]? =
      if j = i then p.editors[i]?.map (·.bind fun c => (c.handle S v ev).left)
      else p.editors[i]? := by
  unfold handleAt
  split
  · rename_i c hc
    simp only [List.getElem?_set]
    by_cases h : j = i
    · subst h
      have := (List.getElem?_eq_some_iff.1 hc).1
      rw [if_pos rfl, if_pos this, if_pos rfl, hc]
      rfl
    · simp [h]
  · rename_i hn
    split
    · rename_i h
      subst h
      cases he : p.editors[j]? with
      | none => rfl
      | some o =>
        cases o with
        | none => rfl
        | some c => exact absurd he (hn c)
    · rfl

theorem handleAt_clipboard {p : Page} {j : Nat} {v : View} {ev : Event}
    (h : ev ≠ .copy ∧ ev ≠ .cut) : (p.handleAt S j v ev).clipboard = p.clipboard := by
  unfold handleAt
  split
  · cases ev <;> first | rfl | (exact absurd rfl h.1) | (exact absurd rfl h.2)
  · rfl

theorem run_clipboard {evs : List PageEvent} (h : ∀ e ∈ evs, ¬ e.Copies) (p : Page) :
    (p.run S evs).clipboard = p.clipboard := by
  induction evs generalizing p with
  | nil => rfl
  | cons e evs ih =>
    rw [run_cons, ih fun e he => h e (.tail _ he)]
    have := h e (.head _)
    cases e with
    | editor j v ev =>
      exact handleAt_clipboard ⟨by rintro rfl; exact this trivial, by rintro rfl; exact this trivial⟩
    | paste j v => exact handleAt_clipboard ⟨nofun, nofun⟩
    | copied c => exact absurd trivial this

end Page

namespace Component

variable {c c' : Component} {G : Geom} {v : View}

theorem splice_caretBefore {T : Type} {env : Env T} {ed ed' : Editor T} {range : MinRange}
    {values : List Node} (h : ed.spliceAtRange env range values = .ok ed') :
    ∃ a, ed'.undo = ed.undo.push a ∧ a.caretBefore = ed.caret := by
  unfold Editor.spliceAtRange at h
  obtain ⟨r, hr, h1⟩ := M.bind_eq_ok.1 h
  obtain ⟨hf, hb, hm⟩ := RowRange.fromMinimal_sound hr
  rw [replaceRange_eq hf hb values] at h1
  simp only [M.ok_bind] at h1
  obtain ⟨a, ha, h2⟩ := M.bind_eq_ok.1 h1
  obtain ⟨b, hb', h3⟩ := M.bind_eq_ok.1 h2
  obtain ⟨⟨e, act⟩, he, h4⟩ := M.bind_eq_ok.1 h3
  cases h4
  simp only [Editor.finish, List.isEmpty_cons, Bool.false_eq_true, if_false] at he
  obtain ⟨input, hi, h5⟩ := M.bind_eq_ok.1 he
  cases h5
  exact ⟨_, rfl, rfl⟩

theorem tree_quiet {T : Type} {env : Env T} {ed ed' : Editor T} {t : T}
    (h : ed.getSyntaxTree env = .ok (ed', t)) : ed'.input = ed.input ∧ ed'.undo = ed.undo := by
  simp only [Editor.getSyntaxTree] at h
  split at h
  · cases h; exact ⟨rfl, rfl⟩
  · obtain ⟨t', -, h2⟩ := M.bind_eq_ok.1 h
    cases h2
    exact ⟨rfl, rfl⟩

/-- What an undo step that is recorded when a formula is loaded is like. -/
theorem load_history {hist : History} (ha : Agree S.env c.editor hist) {d : Dom} {r : Row}
    {es : List ImportError} (hr : fromElement S.browser d = .ok (r, es))
    (h : (c.handleMathML S G d).left = some c') :
    Agree S.env c'.editor (hist.record c'.editor.input) ∧
      ∃ a, c'.editor.undo = c.editor.undo.push a ∧ a.caretBefore = c.editor.caret := by
  unfold handleMathML at h
  simp only [hr, Handled.script] at h
  obtain ⟨ed, h1, h2⟩ := Handled.left_call h
  obtain ⟨ed', t, h3, h4⟩ := redraw_left h2
  obtain ⟨k1, k2⟩ := tree_quiet h3
  have he : c'.editor = ed' := by rcases h4 with ⟨rfl, -⟩ | ⟨e, -, rfl⟩ <;> rfl
  rw [he, k1, k2]
  obtain ⟨rs, hl, h5⟩ := ha.trace (splice_trace h1)
  match rs, hl, h5 with
  | [r'], _, h5 =>
    have hn := h5.now
    simp only [List.foldl_cons, List.foldl_nil, History.record] at hn h5 ⊢
    subst hn
    exact ⟨⟨k1.symm, by rw [k1, k2]; exact h5.undo, by rw [k1, k2]; exact h5.redo⟩,
      splice_caretBefore h1⟩

/-- Undo when the formula from before is known. -/
theorem undo_loaded (hS : S.Ships x) {hist : History} (ha : Agree S.env c.editor hist)
    (hf : Fresh S.env c.editor) (hw : rowWf hist.back.now = true)
    (hG : ∀ p, 0 < v.after.fontSize p)
    (hc : c.editor.caret = .at ⟨[], 0⟩)
    (hs : ∀ a ∈ c.editor.undo.undoStack, a.caretBefore = .at ⟨[], 0⟩) :
    ∃ c', (c.handle S v .undoKey).left = some c' ∧ Agree S.env c'.editor hist.back ∧
      c'.UpToDate S ∧ Fresh S.env c'.editor ∧ c'.editor.caret = .at ⟨[], 0⟩ ∧
      c'.tasks = c.tasks ∧ c'.connected = c.connected ∧
      ∀ a ∈ c'.editor.undo.undoStack, a.caretBefore = .at ⟨[], 0⟩ := by
  obtain ⟨ed', h1, h2, h3⟩ := undoOp_agree ha
  have hst : c.editor.step S.env .undo = .ok ed' := by simp only [Editor.step, h1, M.ok_bind]
  have hcar : ed'.caret = .at ⟨[], 0⟩ ∧ ∀ a ∈ ed'.undo.undoStack, a.caretBefore = .at ⟨[], 0⟩ := by
    cases hst' : c.editor.undo.undoStack with
    | nil => rw [hst'] at h3; simp only at h3; subst h3; exact ⟨hc, hs⟩
    | cons a as =>
      rw [hst'] at h3 hs
      obtain ⟨h4, h5⟩ := h3
      refine ⟨by rw [h5]; exact hs a (.head _), ?_⟩
      rw [h4]
      exact fun b hb => hs b (.tail _ hb)
  have hf' := hf.step hst
  have hwi : rowWf ed'.input = true := by rw [← h2.now]; exact hw
  obtain ⟨t, ht, hE⟩ := C73_show (c := { c with editor := ed' }) (G := v.after) hS hf' hwi hG
  have hh : c.handle S v .undoKey = ({ c with editor := ed' } : Component).redraw S v.after := by
    simp only [handle, handleEdit, hst, Handled.call]
  rw [hh]
  have hag : ∀ t, Agree S.env { ed' with parsed := some t } hist.back := fun t =>
    ⟨h2.now, h2.undo, h2.redo⟩
  generalize ({ c with editor := ed' } : Component).redraw S v.after = o at hE
  cases hE with
  | thrown hu =>
    refine ⟨_, rfl, hag t, ⟨ht, ?_⟩, Fresh.some ht, hcar.1, rfl, rfl, hcar.2⟩
    rintro ⟨e, he⟩
    exact absurd he (unshowable_ne hS hwi ht hu)
  | dead _ hl =>
    refine absurd ?_ hl.2
    have : ValidPos ed'.input ⟨[], 0⟩ := ⟨ed'.input, rfl, Nat.zero_le _⟩
    simp only [hcar.1]
    exact ⟨this, this⟩
  | fine e hu hl he =>
    exact ⟨_, rfl, hag t, ⟨ht, fun _ => he⟩, Fresh.some ht, hcar.1, rfl, rfl, hcar.2⟩

/-- Loading twice, from the beginning. -/
theorem load_twice (hS : S.Ships x) {v₁ v₂ : View} (hG₁ : ∀ p, 0 < v₁.after.fontSize p)
    (hG₂ : ∀ p, 0 < v₂.after.fontSize p) {d : Dom} {r : Row} (hd : d.tag = .math)
    (hr : Means S.browser d r) (hwr : rowWf r = true) :
    ∃ c, Component.load S v₁ v₂ d = some c ∧ c.JustLoaded S r ∧ Fresh S.env c.editor ∧
      Agree S.env c.editor ⟨[r, []], r, []⟩ ∧
      ∀ a ∈ c.editor.undo.undoStack, a.caretBefore = .at ⟨[], 0⟩ := by
  have hi : fromElement S.browser d = .ok (r, []) := (C55 d r).2 ⟨hd, hr⟩
  obtain ⟨c, hn, -⟩ := C62_new hS
  obtain ⟨h1, h2, h3, h4, h5⟩ := new_state hn
  have h0 : Agree S.env c.editor .start ∧ c.editor.undo.undoStack = [] := by
    unfold Component.new at hn
    obtain ⟨⟨ed, t⟩, k1, k2⟩ := M.bind_eq_ok.1 hn
    obtain ⟨e, k3, k4⟩ := M.bind_eq_ok.1 k2
    cases k4
    obtain ⟨k5, k6⟩ := tree_quiet k1
    refine ⟨⟨k5.symm, ?_, ?_⟩, by simp only [k6]; rfl⟩ <;> simp only [k5, k6]
    · rfl
    · trivial
  have hcaret : ∀ {c : Component}, c.editor.caret = .at ⟨[], 0⟩ →
      ¬ CaretInElement c.editor.caret ∧ ValidCaret r c.editor.caret ∧
      (S.cfg.checks = false → c.editor.caret.start.rowIndices.length < 2 ^ S.cfg.bits ∧
        c.editor.caret.stop.rowIndices.length < 2 ^ S.cfg.bits) := by
    intro c hc
    rw [hc]
    have : ValidPos r ⟨[], 0⟩ := ⟨r, rfl, Nat.zero_le _⟩
    exact ⟨by rintro (h | h) <;> exact h rfl, ⟨this, this⟩,
      fun _ => ⟨Nat.two_pow_pos _, Nat.two_pow_pos _⟩⟩
  obtain ⟨q1, q2, q3⟩ := hcaret h4
  obtain ⟨c1, g1, g2, g3, g4, g5, g6, -⟩ := load_upToDate (c := c) (G := v₁.after) hS h2
    (by rw [h3]; rfl) h1.tree q3 hG₁ hd hr hwr q1 (fun _ => q2)
  have hl1 : (c.handleMathML S v₁.after d).left = some c1 := by
    rcases g1 with g1 | ⟨g1, -⟩ <;> (rw [g1]; rfl)
  obtain ⟨a1, a, ha, hac⟩ := load_history h0.1 hi hl1
  have hc1 : c1.editor.caret = .at ⟨[], 0⟩ := g5.trans h4
  obtain ⟨q1, q2, q3⟩ := hcaret hc1
  obtain ⟨c2, k1, k2, k3, k4, k5, k6, k7⟩ := load_upToDate (c := { c1 with connected := true })
    (G := v₂.after) hS g3 (by simp only [g4]; exact hwr) g2.tree q3 hG₂ hd hr hwr q1 (fun _ => q2)
  have hl2 : (({ c1 with connected := true } : Component).handleMathML S v₂.after d).left =
      some c2 := by
    rcases k1 with k1 | ⟨k1, -⟩ <;> (rw [k1]; rfl)
  obtain ⟨b1, b, hb, hbc⟩ := load_history (c := { c1 with connected := true }) a1 hi hl2
  refine ⟨c2, ?_, ⟨k4, k5.trans hc1, k7, k6.trans (g6.trans h5), k2⟩, k3, ?_, ?_⟩
  · unfold Component.load
    rw [hn]
    show Option.bind (c.handleMathML S v₁.after d).left _ = _
    rw [hl1]
    show Option.bind (({ c1 with connected := true } : Component).handleMathML S v₂.after d).left
      _ = _
    rw [hl2]
    rfl
  · rw [k4] at b1
    rw [g4] at b1
    exact b1
  · rw [hb]
    simp only [UndoRedo.push, ha, h0.2, List.mem_cons, List.not_mem_nil, or_false,
      forall_eq_or_imp, forall_eq]
    exact ⟨hbc.trans hc1, hac.trans h4⟩

end Component

end Aftermath
