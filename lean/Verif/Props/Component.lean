import Verif.Proof.Component
import Verif.Props.Click
import Verif.Props.History
import Verif.Props.MathML

/-! # C61: what is shown is the formula -/

namespace Aftermath

/-- The shipped rules, with the renderer made for them. -/
def Setting.Ships (x : Xid) (S : Setting) : Prop :=
  x.Letters ∧ ∃ m, Shipped x S.grammar m S.renderers

namespace Component

variable {S : Setting} {c c' : Component} {v : View} {ev : Event}

/-- **C61.** After a key, cutting, pasting, pressing the pointer or setting the attribute, what is
shown belongs to the formula. -/
theorem _root_.Aftermath.C61_redraws (h : c.Reached S) (hev : ev.Redraws)
    (hs : c.step S v ev = .ok c') : c'.InSync S := by
  obtain ⟨c1, h1, h2⟩ := redraws_ok hev hs
  exact updateInput_inSync (h1.fresh h.fresh) h2

/-- **C61.** What is shown belongs to the formula after every event, except when a selection with
the pointer changes the formula. Missing: this case, see `C61_not`. -/
theorem _root_.Aftermath.C61_partial (h : c.Reached S) (hi : c.InSync S)
    (hs : c.step S v ev = .ok c') :
    c'.InSync S ∨ ev.Selects ∧ c'.editor.input ≠ c.editor.input := by
  by_cases h1 : ev.Redraws
  · exact .inl (C61_redraws h h1 hs)
  by_cases h2 : ev.Selects
  · obtain ⟨h3, h4, -⟩ := selects_ok h2 hs
    by_cases h5 : c'.editor.input = c.editor.input
    · refine .inl ⟨?_, ?_⟩
      · rw [h5, h3]; exact hi.tree
      · rw [h3, h4]; exact hi.result
    · exact .inr ⟨h2, h5⟩
  · refine .inl ?_
    cases ev with
    | beforeInput i => cases hs; exact ⟨hi.tree, hi.result⟩
    | timer => exact runTasks_inSync (c := { c with tasks := [] }) h.fresh ⟨hi.tree, hi.result⟩ hs
    | copy => obtain ⟨data, -, rfl⟩ := copyData_ok hs; exact ⟨hi.tree, hi.result⟩
    | disconnect => cases hs; exact ⟨hi.tree, hi.result⟩
    | _ => first | exact absurd trivial h1 | exact absurd trivial h2

/-- **C61.** When a selection with the pointer changes the formula, then by replacing a token. -/
theorem _root_.Aftermath.C61_selects (hev : ev.Selects) (hs : c.step S v ev = .ok c')
    (hn : c'.editor.input ≠ c.editor.input) : ∃ ed, Autocorrected S.env c.editor ed ∧
      c'.editor.input = ed.input := by
  obtain ⟨-, -, h1 | ⟨p, ed, -, h2, h3⟩⟩ := selects_ok hev hs
  · rw [h1] at hn; exact absurd rfl hn
  have h4 : c'.editor.input = ed.input := by
    rcases h3 with h3 | h3 <;> (rw [h3]; try rfl)
  have h5 : (ed.input = c.editor.input ∧ ed.undo = c.editor.undo) ∨
      Autocorrected S.env c.editor ed := by
    rcases h2 with h2 | ⟨m, h2⟩
    · exact C25_moves _ (.inr (.inr (.inr ⟨_, rfl⟩))) h2
    · exact C25_moves _ (.inr (.inr (.inl ⟨_, _, rfl⟩))) h2
  rcases h5 with h5 | h5
  · exact absurd (h4.trans h5.1) hn
  · exact ⟨ed, h5, h4⟩

/-- **C61.** A new component shows the empty formula. -/
theorem _root_.Aftermath.C61_new (h : Component.new S = .ok c) :
    c.InSync S ∧ c.editor.input = [] := (new_ok h).2

/-- **C61.** Everything that holds of all states of the editor holds for the editor in the
component. -/
theorem _root_.Aftermath.C61_editor (h : c.Reached S) : Reachable S.env c.editor := h.reachable

end Component

/-- The shipped rules with the ASCII letters as identifiers, in a development build. -/
def letterSetting : Option Setting :=
  match createParser letterXid with
  | .ok (g, m) =>
    match newRenderer (joinNames m) with
    | .ok R => some ⟨.dev, g, R, plainBrowser⟩
    | .error _ => none
  | .error _ => none

theorem letterSetting_ships {S : Setting} (h : letterSetting = some S) : S.Ships letterXid := by
  unfold letterSetting at h
  split at h
  · rename_i g m hp
    split at h
    · rename_i R hR
      cases h
      exact ⟨letterXid_letters, m, hp, hR⟩
    · cases h
  · cases h

/-- Run events from a new component with these rules, and ask something about the result. -/
def afterEvents {α : Type} (evs : List (View × Event)) (f : Setting → Component → α) : Option α :=
  letterSetting.bind fun S =>
    (do let c ← Component.new S; c.run S evs : M Component).toOption.map (f S)

theorem afterEvents_ok {α : Type} {evs : List (View × Event)} {f : Setting → Component → α} {a : α}
    (h : afterEvents evs f = some a) :
    ∃ S c, S.Ships letterXid ∧ c.Reached S ∧ f S c = a := by
  obtain ⟨S, h1, h2⟩ := Option.bind_eq_some_iff.1 h
  obtain ⟨c, h3, h4⟩ := Option.map_eq_some_iff.1 h2
  refine ⟨S, c, letterSetting_ships h1, ?_, h4⟩
  cases hr : (do let c ← Component.new S; c.run S evs : M Component) with
  | error e => rw [hr] at h3; cases h3
  | ok c1 =>
    rw [hr] at h3
    cases h3
    obtain ⟨c0, h5, h6⟩ := M.bind_eq_ok.1 hr
    exact ⟨c0, evs, h5, h6⟩

/-- A fraction with numerator `abcsumxx` and denominator `1`. -/
def sumDom : Dom := .elem .math [] [.elem .mfrac []
  [.elem .mi ['a', 'b', 'c', 's', 'u', 'm', 'x', 'x'] [], .elem .mn ['1'] []]]

/-- The numerator of the fraction, and what becomes of it. -/
def sumNumerator (mid : Row) : Row :=
  [.symbol ['a'], .symbol ['b'], .symbol ['c']] ++ mid ++ [.symbol ['x'], .symbol ['x']]

/-- A layout of this fraction: two lines with symbols of the same size. -/
def sumView : View :=
  let G : Geom := {
    own
      | [] => ⟨0, 0, 8, 20⟩
      | 0 :: _ => ⟨0, 0, 8, 10⟩
      | _ => ⟨0, 10, 8, 10⟩
    startReader _ := ⟨0, 10, 0, 0⟩
    endReader _ := ⟨8, 10, 0, 0⟩
    glyph _ i := ⟨i, 0, 1, 10⟩
    fontSize _ := 1 }
  ⟨G, G⟩

/-- The pointer is pressed behind `sum` in the numerator and then moved out of the fraction. -/
def sumEvents : List (View × Event) :=
  [(sumView, .connect sumDom), (sumView, .pointerDown ⟨6, 5⟩), (sumView, .pointerMove ⟨9, 10⟩)]

/-- **C61, negation.** After these events the formula is a fraction with numerator `abc∑xx`, but the
tree from which it is shown is still that of `abcsumxx`. -/
theorem C61_not : ∃ S c, S.Ships letterXid ∧ Component.Reached S c ∧ ¬ c.InSync S ∧
    c.editor.input = [.fraction (sumNumerator [.symbol ['∑']]) [.symbol ['1']]] ∧
    c.tree.text = rowText [.fraction (sumNumerator [.symbol ['s'], .symbol ['u'], .symbol ['m']])
      [.symbol ['1']]] := by
  have h : afterEvents sumEvents (fun _ c => (c.editor.input, c.tree.text)) =
      some ([.fraction (sumNumerator [.symbol ['∑']]) [.symbol ['1']]],
        rowText [.fraction (sumNumerator [.symbol ['s'], .symbol ['u'], .symbol ['m']])
          [.symbol ['1']]]) := by decide +kernel
  obtain ⟨S, c, hS, hc, h1⟩ := afterEvents_ok h
  obtain ⟨h2, h3⟩ := Prod.mk.inj h1
  refine ⟨S, c, hS, hc, fun hi => ?_, h2, h3⟩
  obtain ⟨hx, m, hm⟩ := hS
  have h4 := C46 _ (hm.fits hx).1 _ (by rw [h2]; decide) _ hi.tree
  rw [h3, h2] at h4
  exact absurd h4 (by decide)

end Aftermath
