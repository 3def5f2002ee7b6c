import Verif.Proof.Rewrite
import Verif.Proof.HandlerLeft
import Verif.Props.KeyWrite

/-! # Property theorems C103: replacing a formula with the keyboard alone -/

namespace Aftermath

variable {S : Setting} {x : Xid} {c : Component}

/-- **C103**: from every formula in a component of the production build, wherever the caret is in it,
keys empty it. -/
theorem C103_empty (hS : S.Ships x) (hrel : S.cfg.checks = false) (hc : c.Alive S)
    (hwf : rowWf c.editor.input = true) (hfit : rowFits S.cfg.bits c.editor.input = true)
    (hsym : [] ∉ rowSymbols c.editor.input) {m : MinPos} (hcar : c.editor.caret = .at m)
    (hm : ValidPos c.editor.input m) (ht : c.tasks = []) :
    ∃ keys : List Event, (∀ ev ∈ keys, ev.Key) ∧ ∀ vs : List (View × Event),
      vs.map Prod.snd = keys → ∃ c', c.handleAll S vs = some c' ∧ c'.editor.input = [] ∧
        c'.editor.caret = .at ⟨[], 0⟩ ∧ c'.tasks = [] := by
  obtain ⟨keys, h3, h4⟩ := leads_empty hS hrel hwf hfit hsym hm
  refine ⟨keys, h3, fun vs hvs => ?_⟩
  obtain ⟨c', g1, ⟨g2, g3⟩, -, g4⟩ := h4 c vs ⟨rfl, hcar⟩ hc.fresh ht hvs
  exact ⟨c', g1, g2, g3, g4⟩

/-- **C103**: from every formula in a component of the production build, wherever the caret is in it,
arrow keys, Backspace and keys that type one character lead to every formula of symbols of one
character, roots and tables of one cell. -/
theorem C103 (hS : S.Ships x) (hrel : S.cfg.checks = false) (hbits : 2 ≤ S.cfg.bits)
    (hsplit : ∀ ch, S.browser.split [ch] = [[ch]]) (hc : c.Alive S)
    (hwf : rowWf c.editor.input = true) (hfit : rowFits S.cfg.bits c.editor.input = true)
    (hsym : [] ∉ rowSymbols c.editor.input) {m : MinPos} (hcar : c.editor.caret = .at m)
    (hm : ValidPos c.editor.input m) (ht : c.tasks = []) {row : Row} (hrow : Writable OneChar row) :
    ∃ keys : List Event, (∀ ev ∈ keys, ev.Key) ∧ ∀ vs : List (View × Event),
      vs.map Prod.snd = keys → ∃ c', c.handleAll S vs = some c' ∧ c'.editor.input = row ∧
        c'.editor.caret = .at ⟨[], 0⟩ ∧ c'.tasks = [] := by
  have h1 := leads_empty hS hrel hwf hfit hsym hm
  have h2 := write_keys (x := x) hS hrel hbits hsplit hrow (root := []) (row := [])
    (rest := []) (q := []) .nil .nil
  obtain ⟨keys, h3, h4⟩ := h1.trans ((Leads.refl fun ed h => by
    obtain ⟨g1, g2⟩ := h
    exact (⟨by rw [g1]; exact .here _ _, g2⟩ : In [] [] [] [] ⟨[], 0⟩ ed)).trans h2)
  refine ⟨keys, h3, fun vs hvs => ?_⟩
  obtain ⟨c', g1, ⟨g2, g3⟩, -, g4⟩ := h4 c vs ⟨rfl, hcar⟩ hc.fresh ht hvs
  refine ⟨c', g1, ?_, g3, g4⟩
  have := g2.rowAt_new
  simpa using this

theorem grid_stays {T : Type} {env : Env T} {root : Row} {m : MinCaret} {ct : Caret} {g : GridRange}
    (hf : Caret.fromMinimal root m = .ok ct) (hg : ct.selection = .grid g) {ed ed' : Editor T}
    (h : ed.input = root ∧ ed.caret = m) {op : Op}
    (hop : (∃ d mode, op = .moveCaret d mode) ∨ (∃ mode, op = .removeAtCaret mode) ∨
      (∃ vs, op = .insertAtCaret vs) ∨ op = .getSyntaxTree)
    (hs : ed.step env op = .ok ed') : ed'.input = root ∧ ed'.caret = m := by
  obtain ⟨rfl, rfl⟩ := h
  have hst : ed.startAutocorrect env = .ok (ed, none) := by
    simp only [Editor.startAutocorrect, Editor.getAutocomplete, hf, M.ok_bind, hg]
  rcases hop with ⟨d, mode, rfl⟩ | ⟨mode, rfl⟩ | ⟨vs, rfl⟩ | rfl
  · simp only [Editor.step, Editor.moveCaret, hst, M.ok_bind, hf, moveCaret, hg, finishNone] at hs
    cases hs
    exact ⟨rfl, (Caret.fromMinimal_sound hf).2⟩
  · simp only [Editor.step, Editor.removeAtCaret, hst, M.ok_bind, hf, hg] at hs
    cases hs
  · simp only [Editor.step, Editor.insertAtCaret, Editor.insertNodes, hst, M.ok_bind, hf, hg] at hs
    cases hs
  · simp only [Editor.step] at hs
    obtain ⟨⟨e, t⟩, h1, h2⟩ := M.bind_eq_ok.1 hs
    cases h2
    unfold Editor.getSyntaxTree at h1
    split at h1
    · cases h1; exact ⟨rfl, rfl⟩
    · obtain ⟨t', -, h3⟩ := M.bind_eq_ok.1 h1
      cases h3
      exact ⟨rfl, rfl⟩

/-- With cells of a table selected, none of these keys gets anywhere. -/
theorem C103_grid {ct : Caret} {g : GridRange}
    (hf : Caret.fromMinimal c.editor.input c.editor.caret = .ok ct) (hg : ct.selection = .grid g)
    (ht : c.tasks = []) {vs : List (View × Event)} (hk : ∀ e ∈ vs, e.2.Key) {c' : Component}
    (h : c.handleAll S vs = some c') :
    c'.editor.input = c.editor.input ∧ c'.editor.caret = c.editor.caret := by
  refine (Component.handleAll_invariant (I := fun ed => ed.input = c.editor.input ∧
    ed.caret = c.editor.caret) (P := fun op => (∃ d mode, op = .moveCaret d mode) ∨
      (∃ mode, op = .removeAtCaret mode) ∨ (∃ vs, op = .insertAtCaret vs) ∨ op = .getSyntaxTree)
    (fun ed op ed' h1 h2 h3 => grid_stays hf hg h1 h2 h3) (by simp)
    ⟨⟨rfl, rfl⟩, by rw [ht]; simp⟩ ?_ h).1
  intro e he
  have := hk e he
  obtain ⟨v, ev⟩ := e
  cases ev with
  | arrow d => exact .inl ⟨d, _, rfl⟩
  | timer => trivial
  | beforeInput i =>
    intro op hop
    rcases i with _ | _ | (_ | s) | _
    · simp only [InputEvent.calls, List.mem_cons, List.not_mem_nil, or_false] at hop
      rcases hop with rfl | rfl
      · exact .inr (.inl ⟨_, rfl⟩)
      · exact .inr (.inr (.inr rfl))
    · cases this
    · cases this
    · simp only [InputEvent.calls, List.mem_cons, List.not_mem_nil, or_false] at hop
      rcases hop with rfl | rfl
      · exact .inr (.inr (.inl ⟨_, rfl⟩))
      · exact .inr (.inr (.inr rfl))
    · cases this
  | _ => cases this

/-! ## Cases -/

/-- `1/2` with the caret before it: Right and Backspace. -/
example : (Editor.run (T := Unit) ⟨.release, fun _ => .ok (), shippedAutocomplete⟩
    { (Editor.new : Editor Unit) with input := [.fraction [.symbol ['1']] [.symbol ['2']]] }
    [.moveCaret .right .char, .moveCaret .right .char, .removeAtCaret .left,
     .moveCaret .right .char, .moveCaret .right .char, .removeAtCaret .left,
     .moveCaret .right .char, .removeAtCaret .left, .removeAtCaret .left]).map
      (fun ed => (ed.input, ed.caret)) = .ok ([], .at ⟨[], 0⟩) := by decide +kernel

end Aftermath
