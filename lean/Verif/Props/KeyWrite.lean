import Verif.Proof.KeyWrite

/-! # C98: what can be written with the keyboard alone -/

namespace Aftermath

variable {S : Setting} {x : Xid}

theorem Event.Key.keeps (hsplit : ∀ ch, S.browser.split [ch] = [[ch]]) {ev : Event} (h : ev.Key) :
    ev.Keeps OneChar S := by
  cases ev with
  | beforeInput i =>
    rcases i with _ | _ | (_ | s) | _
    · trivial
    · trivial
    · trivial
    · match s, h with
      | [ch], _ =>
        intro t ht
        rw [hsplit, List.mem_singleton] at ht
        exact ⟨ch, ht⟩
    · trivial
  | paste _ _ => cases h
  | connect _ => cases h
  | setAttribute _ => cases h
  | _ => trivial

/-- **C98.** For every formula of symbols of one character, roots and tables of one cell there are
keys that write it into a new component of the production build, wherever things are drawn in
between. -/
theorem C98_keys (hS : S.Ships x) (hrel : S.cfg.checks = false) (hbits : 2 ≤ S.cfg.bits)
    (hsplit : ∀ ch, S.browser.split [ch] = [[ch]]) {c₀ : Component} (h0 : Component.new S = .ok c₀)
    {row : Row} (hrow : Writable OneChar row) :
    ∃ keys : List Event, (∀ ev ∈ keys, ev.Key) ∧ ∀ vs : List (View × Event),
      vs.map Prod.snd = keys → ∃ c, c₀.handleAll S vs = some c ∧ c.editor.input = row ∧
        c.editor.caret = .at ⟨[], 0⟩ ∧ c.tasks = [] := by
  obtain ⟨keys, h1, h2⟩ := write_keys (x := x) hS hrel hbits hsplit hrow (root := []) (row := [])
    (rest := []) (q := []) .nil .nil
  obtain ⟨⟨ed, t⟩, h3, h4⟩ := M.bind_eq_ok.1 h0
  obtain ⟨e, h5, h6⟩ := M.bind_eq_ok.1 h4
  cases h6
  have hf : Fresh S.env (Editor.new : Editor SNode) := fun t ht => by cases ht
  have hed : ed = { (Editor.new : Editor SNode) with parsed := some t } := by
    have h7 := (Component.getSyntaxTree_fresh hf h3).1
    rw [Component.getSyntaxTree_eq hf h7] at h3
    cases h3
    rfl
  have hfr : Fresh S.env ed := by
    rw [hed]
    exact Component.Fresh.some (Component.getSyntaxTree_fresh hf h3).1
  refine ⟨keys, h1, fun vs hvs => ?_⟩
  obtain ⟨c, g1, ⟨g2, g3⟩, -, g4⟩ := h2 ⟨ed, t, e, false, false, [], none⟩ vs
    (by rw [hed]; exact ⟨.here _ _, rfl⟩) hfr rfl hvs
  refine ⟨c, g1, ?_, g3, g4⟩
  have := g2.rowAt_new
  simpa using this

/-- **C98.** With arrow keys, Backspace and keys that type one character, the formulas that can be
written into a new component of the production build are exactly those of symbols of one character,
roots and tables of one cell, nested in any way. -/
theorem C98 (hS : S.Ships x) (hrel : S.cfg.checks = false) (hbits : 2 ≤ S.cfg.bits)
    (hsplit : ∀ ch, S.browser.split [ch] = [[ch]]) {c₀ : Component} (h0 : Component.new S = .ok c₀)
    (row : Row) :
    (∃ evs c, (∀ e ∈ evs, e.2.Key) ∧ c₀.handleAll S evs = some c ∧ c.editor.input = row) ↔
      Writable OneChar row := by
  constructor
  · rintro ⟨evs, c, h1, h2, rfl⟩
    exact C84_component (A := OneChar) (S := S) (by rintro ⟨c, h⟩; cases h) (fun c => ⟨c, rfl⟩) h0
      (fun e he => (h1 e he).keeps hsplit) h2
  · intro h
    obtain ⟨keys, h1, h2⟩ := C98_keys (x := x) hS hrel hbits hsplit h0 h
    let G : Geom := ⟨fun _ => ⟨0, 0, 0, 0⟩, fun _ => ⟨0, 0, 0, 0⟩, fun _ => ⟨0, 0, 0, 0⟩,
      fun _ _ => ⟨0, 0, 0, 0⟩, fun _ => 1⟩
    let v : View := ⟨G, G⟩
    obtain ⟨c, g1, g2, -⟩ := h2 (keys.map fun ev => (v, ev)) (by simp)
    refine ⟨_, c, ?_, g1, g2⟩
    intro e he
    obtain ⟨ev, hev, rfl⟩ := List.mem_map.1 he
    exact h1 ev hev

/-! ## Examples -/

/-- Without pads nothing is replaced. -/
example : (Editor.run (T := Unit) ⟨.release, fun _ => .ok (), shippedAutocomplete⟩ Editor.new
    (typing "sqrt".toList ++ [.moveCaret .left .char])).map (·.input) =
    .ok ("sqrt".toList.map fun c => .symbol [c]) := by decide +kernel

/-- A root with `2` in it: pads on both sides of the word, then Right replaces the word, and the
pads are removed. -/
example : (Editor.run (T := Unit) ⟨.release, fun _ => .ok (), shippedAutocomplete⟩ Editor.new
    (typing "xxxx".toList ++ List.replicate 4 (.moveCaret .left .char) ++
      typing "xxxxsqrt".toList ++ [.moveCaret .right .char] ++
      List.replicate 4 (.removeAtCaret .left) ++ [.moveCaret .left .char] ++ typing ['2'] ++
      List.replicate 3 (.moveCaret .left .char) ++ List.replicate 4 (.removeAtCaret .left))).map
      (fun ed => (ed.input, ed.caret)) =
    .ok ([.root [] [.symbol ['2']]], .at ⟨[], 0⟩) := by decide +kernel

/-- The same keys in a build with overflow checks. -/
example : (Editor.run (T := Unit) ⟨.dev, fun _ => .ok (), shippedAutocomplete⟩ Editor.new
    (typing "xxxx".toList ++ List.replicate 4 (.moveCaret .left .char) ++
      typing "xxxxsqrt".toList ++ [.moveCaret .right .char] ++
      List.replicate 4 (.removeAtCaret .left) ++ [.moveCaret .left .char] ++ typing ['2'] ++
      List.replicate 3 (.moveCaret .left .char))).map (·.input) =
    .error .overflow := by decide +kernel

/-- A fraction is out of reach. -/
example : ¬ Writable OneChar [.fraction [.symbol ['1']] [.symbol ['2']]] := by
  intro h
  have := writable_container.1 (h.mem (n := .fraction [.symbol ['1']] [.symbol ['2']]) (by simp))
  simp at this

end Aftermath
