import Verif.Proof.RenderSpace
import Verif.Proof.RenderClean
import Verif.Props.Expression

/-! # C57: every formula can be shown -/

namespace Aftermath

/-- The grammar, the names and the renderers that the component works with: the shipped rules
(`src/core/index.ts` 72-82) and the renderer made for their names
(`src/component/math-editor.ts` 126-128). -/
structure Shipped (x : Xid) (g : Grammar) (m : NameMap) (R : Renderers) : Prop where
  parser : createParser x = .ok (g, m)
  renderer : newRenderer (joinNames m) = .ok R

theorem Shipped.fits {x : Xid} (hx : x.Letters) {g : Grammar} {m : NameMap} {R : Renderers}
    (h : Shipped x g m R) : g.Good ∧ Fits R g := by
  obtain ⟨g', m', R', h1, h2, h3⟩ := createParser_fits hx
  have := h.parser
  rw [h1] at this
  cases this
  have := h.renderer
  rw [h2] at this
  cases this
  exact h3

/-- **C57.** The renderer can be made: every name that it asks for is registered, and no name is
registered twice. -/
theorem C57_setup {x : Xid} (hx : x.Letters) : ∃ g m R, Shipped x g m R := by
  obtain ⟨g, m, R, h1, h2, -⟩ := createParser_fits hx
  exact ⟨g, m, R, h1, h2⟩

/-- **C57.** A well-formed formula is shown exactly when its tree has no script with spaces directly
around it. Missing: with such spaces it is not shown, see `C57_throws`. -/
theorem C57_partial {x : Xid} (hx : x.Letters) {g : Grammar} {m : NameMap} {R : Renderers}
    (h : Shipped x g m R) {row : Row} (hw : rowWf row = true) :
    ∃ t, g.parse row = .ok t ∧ ((∃ e, renderAll R t = .ok e) ↔ ¬ SpacedScript g.builtIn t) := by
  obtain ⟨hg, hf⟩ := h.fits hx
  obtain ⟨t, ht, -⟩ := parse_ok hg hw
  exact ⟨t, ht, made_renders hf (made_parse hg ht) hw none .none⟩

/-- **C57.** In terms of the formula: without a script next to a space it is shown. -/
theorem C57_row_partial {x : Xid} (hx : x.Letters) {g : Grammar} {m : NameMap} {R : Renderers}
    (h : Shipped x g m R) {row : Row} (hw : rowWf row = true) (h1 : ¬ ScriptThenSpace row)
    (h2 : ¬ SpaceThenScript row) : ∃ t e, g.parse row = .ok t ∧ renderAll R t = .ok e := by
  obtain ⟨t, ht, hr⟩ := C57_partial hx h hw
  obtain ⟨hg, hf⟩ := h.fits hx
  obtain ⟨e, he⟩ := hr.2 fun hs => (made_spaced hf (made_parse hg ht) hs).elim h1 h2
  exact ⟨t, e, ht, he⟩

/-- **C57, negation.** A formula in which a space follows a superscript or subscript is never shown:
the renderer throws. -/
theorem C57_throws {x : Xid} (hx : x.Letters) {g : Grammar} {m : NameMap} {R : Renderers}
    (h : Shipped x g m R) {row : Row} (hw : rowWf row = true) (hs : ScriptThenSpace row) :
    ∃ t p, g.parse row = .ok t ∧ renderAll R t = .error p := by
  obtain ⟨t, ht, hr⟩ := C57_partial hx h hw
  obtain ⟨hg, hf⟩ := h.fits hx
  have := (made_row_spaced hf (made_parse hg ht)).1 (trig_of_scriptThenSpace hs)
  cases he : renderAll R t with
  | ok e => exact absurd this (hr.1 ⟨e, he⟩)
  | error p => exact ⟨t, p, ht, he⟩

/-- **C57.** A formula without errors is shown exactly when no script is directly followed by a
space. Spaces between the base and the script, or anywhere else, do no harm. -/
theorem C57_clean {x : Xid} (hx : x.Letters) {g : Grammar} {m : NameMap} {R : Renderers}
    (h : Shipped x g m R) {row : Row} (hw : rowWf row = true) (hc : CleanRow g row) :
    ∃ t, g.parse row = .ok t ∧ ((∃ e, renderAll R t = .ok e) ↔ ¬ ScriptThenSpace row) := by
  obtain ⟨t, ht, hr⟩ := C57_partial hx h hw
  obtain ⟨hg, hf⟩ := h.fits hx
  obtain ⟨g', m', h1, -, ha⟩ := createParser_apart hx
  rw [h.parser] at h1
  cases h1
  obtain ⟨t', ht', he⟩ := C50 g hg ha row hw
  rw [ht] at ht'
  cases ht'
  refine ⟨t, ht, hr.trans (not_congr ⟨((made_clean hf (made_parse hg ht)) (he.2 hc)).1, fun hs => ?_⟩)⟩
  exact (made_row_spaced hf (made_parse hg ht)).1 (trig_of_scriptThenSpace hs)

/-- The formula `x` with exponent `2`, followed by the given nodes. -/
def xSquared (rest : Row) : Row := .symbol ['x'] :: .sup [.symbol ['2']] :: rest

theorem xSquared_no_space {p : RowIndices} {row : Row} {i : Nat}
    (h : rowAt (xSquared []) p = some row) : row[i]? ≠ some (.symbol [' ']) := by
  rcases p with _ | ⟨⟨a, b⟩, p⟩
  · cases h
    rcases i with _ | _ | i <;> simp [xSquared, Node.sup]
  · rcases a with _ | _ | a
    · simp [rowAt, xSquared] at h
    · rcases b with _ | b
      · rcases p with _ | ⟨⟨c, d⟩, p⟩
        · cases h
          rcases i with _ | i <;> simp
        · rcases c with _ | c <;> simp [rowAt, xSquared, Node.sup] at h
      · simp [rowAt, xSquared, Node.sup] at h
    · simp [rowAt, xSquared] at h

/-- **C57, negation.** `x` squared is shown. After typing a space it is not any more. -/
theorem C57_not {x : Xid} (hx : x.Letters) {g : Grammar} {m : NameMap} {R : Renderers}
    (h : Shipped x g m R) :
    (∃ t e, g.parse (xSquared []) = .ok t ∧ renderAll R t = .ok e) ∧
    ∃ t p, g.parse (xSquared [.symbol [' ']]) = .ok t ∧ renderAll R t = .error p := by
  refine ⟨C57_row_partial hx h rfl ?_ ?_, C57_throws hx h rfl ⟨[], _, 1, _, rfl, rfl, trivial, rfl⟩⟩
  · rintro ⟨p, row, i, n, hr, -, -, h3⟩
    exact xSquared_no_space hr h3
  · rintro ⟨p, row, i, n, hr, h1, -⟩
    exact xSquared_no_space hr h1

/-- Whether the formula is shown, with a given table of letters. -/
def isShown (x : Xid) (row : Row) : Bool :=
  match createParser x with
  | .ok (g, m) =>
    match newRenderer (joinNames m), g.parse row with
    | .ok R, .ok t => (renderAll R t).toOption.isSome
    | _, _ => false
  | .error _ => false

/-- Concrete formulas: spaces around an operator, a space between the base and the exponent, and a
space before an exponent without base. -/
example : isShown letterXid [.symbol ['1'], .symbol [' '], .symbol ['+'], .symbol [' '],
      .symbol ['2']] = true ∧
    isShown letterXid [.symbol ['1'], .symbol [' '], .sup [.symbol ['2']]] = true ∧
    isShown letterXid [.symbol [' '], .sup [.symbol ['2']]] = false ∧
    isShown letterXid [.symbol ['1'], .sup [.symbol ['2']], .symbol [' '], .symbol ['+'],
      .symbol ['2']] = false := by decide +kernel

end Aftermath
