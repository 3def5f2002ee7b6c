import Verif.Proof.Layout
import Verif.Props.Render
import Verif.Props.Parse
import Verif.Props.Calm

/-! # C58: every caret can be drawn -/

namespace Aftermath

/-- What the component shows for a formula. -/
structure Shown (x : Xid) (row : Row) (e : RElem) : Prop where
  letters : x.Letters
  wf : rowWf row = true
  shown : ∃ g m R t, Shipped x g m R ∧ g.parse row = .ok t ∧ renderAll R t = .ok e

/-- **C58.** Every row of a formula that is shown has an element, found by the path of the row. The
element is that of the syntax tree of this row, and the whole formula has the root element. -/
theorem C58_row {x : Xid} {g : Grammar} {m : NameMap} {R : Renderers} (h : Shipped x g m R)
    {root : Row} {e : RElem} (hs : Shown x root e) {p : RowIndices} {r : Row}
    (hr : rowAt root p = some r) :
    ∃ path e', getElement ([], e) p = .ok (path, e') ∧ e.at path = some e' ∧
      g.parse r = .ok e'.tree ∧ e'.tree.lo = 0 ∧ e'.tree.hi = r.length := by
  obtain ⟨hx, hw, g', m', R', t, h', ht, he⟩ := hs
  have := h.parser
  rw [h'.parser] at this
  cases this
  obtain ⟨hg, -⟩ := h.fits hx
  obtain ⟨hl, -⟩ := parse_laid hg hw ht he
  obtain ⟨path, e', h1, h2⟩ := getElement_ok (path := []) hl hr
  refine ⟨path, e', h1, getElement_at (e := ([], e)) rfl h1, ?_, h2.lo_eq, h2.hi_eq⟩
  obtain ⟨f, hf⟩ := h2.tree
  obtain ⟨t'', h4, -⟩ := parse_ok hg (rowAt_wf hw hr)
  rw [h4]
  have h5 := parseWhole_mono (pratt_mono g (Nat.le_add_right f (rowWeight r + 1))) r _ hf
  have h6 := parseWhole_mono (pratt_mono g (Nat.le_add_left (rowWeight r + 1) f)) r t'' h4
  rw [h5] at h6
  exact h6.symm

theorem Shown.laid {x : Xid} {root : Row} {e : RElem} (hs : Shown x root e) :
    ∃ g : Grammar, g.Good ∧ LaidRow (ParsesTo g) root e := by
  obtain ⟨hx, hw, g, m, R, t, h, ht, he⟩ := hs
  obtain ⟨hg, -⟩ := h.fits hx
  exact ⟨g, hg, (parse_laid hg hw ht he).1⟩

/-- **C58.** Every caret position of a formula that is shown has a place on the screen, whatever the
browser reports. -/
theorem C58_position {x : Xid} {root : Row} {e : RElem} (hs : Shown x root e) (G : Geom) {m : MinPos}
    (hm : ValidPos root m) :
    ∃ path e' c, getElement ([], e) m.rowIndices = .ok (path, e') ∧
      caretPosition G path m.offset e' = .ok c := by
  obtain ⟨g, -, hl⟩ := hs.laid
  obtain ⟨r, hr, ho⟩ := hm
  obtain ⟨path, e', h1, h2⟩ := getElement_ok (path := []) hl hr
  obtain ⟨c, hc⟩ := h2.laid.caretPosition_ok (G := G) (path := path) (off := m.offset)
    (by rw [h2.lo_eq]; omega) (by rw [h2.hi_eq]; exact ho)
  exact ⟨path, e', c, h1, hc⟩

/-- **C58.** Whatever is selected in a formula that is shown, the selection is drawn without an
exception, provided that the browser reports positive font sizes. -/
theorem C58_draw {x : Xid} {root : Row} {e : RElem} (hs : Shown x root e) {G : Geom}
    (hG : ∀ p, 0 < G.fontSize p) {m : MinCaret} (hm : ValidCaret root m) :
    ∃ sel, selectionOf root m = .ok sel ∧ renderCaret G e sel = .ok () := by
  obtain ⟨g, -, hl⟩ := hs.laid
  have hw := hs.wf
  obtain ⟨c, hc, hin, hmin⟩ := Caret.fromMinimal_valid hw hm
  refine ⟨c.selection.toMinimal, by simp only [selectionOf, hc, M.ok_bind], ?_⟩
  cases hsel : c.selection with
  | row r =>
    obtain ⟨⟨q, hf⟩, hb⟩ := selection_row_in hw hin.1 hin.2.1 (hin.2.2.trans (by rw [hsel]))
    have hr := hf.rowAt_eq
    have hi : r.toMinimal.rowIndices = q := hf.rowIndices_eq
    rw [← hi] at hr
    obtain ⟨s, h1⟩ := viewportSelection_ok (G := G) (rng := r.toMinimal) hl hr hb.1 hb.2
    obtain ⟨z, h2⟩ := viewportCaretSize_ok hG hl hr
    simp only [Selection.toMinimal, renderCaret, h1, h2, M.ok_bind]
  | grid gr =>
    obtain ⟨⟨⟨qa, hqa⟩, hoa⟩, ⟨⟨qb, hqb⟩, hob⟩, hsel'⟩ := hin
    obtain ⟨s, a', b', f, hpa, hpb, -, hd, hf⟩ := split_paths hqa hqb
    rcases fromPositions_ok hw (hpa ▸ hqa) (hpb ▸ hqb) hoa hob hd hf with
      ⟨i, j, j', ra, rb, cells, w, rfl, rfl, hne, hi, hj, hj', h⟩ | ⟨-, h⟩
    · rw [hsel', hsel] at h
      cases h
      have key : ∀ k, k < cells.length → ∃ s', viewportRowBounds G e (s ++ [(i, k)]) = .ok s' := by
        intro k hk
        refine viewportRowBounds_ok (r := cells[k]) hl ?_
        rw [rowAt_append, hf.rowAt_eq]
        simp only [Option.bind_some, rowAt, hi, List.getElem?_eq_getElem hk]
      obtain ⟨s1, h1⟩ := key (min j j') (by omega)
      obtain ⟨s2, h2⟩ := key (max (max j j' + 1 - 1) (min j j')) (by omega)
      simp only [Selection.toMinimal, GridRange.toMinimal, renderCaret, hf.rowIndices_eq, h1, h2,
        M.ok_bind]
    · rw [hsel', hsel] at h
      cases h

/-- **C58** for the editor: as long as no token is replaced by autocomplete or autocorrect (C26), a
formula that is shown is shown together with its caret. -/
theorem C58_calm {T : Type} {env : Env T} {ed : Editor T} (h : CalmRun env ed) {x : Xid} {e : RElem}
    (hs : Shown x ed.input e) {G : Geom} (hG : ∀ p, 0 < G.fontSize p) :
    ∃ sel, ed.getCaret = .ok sel ∧ renderCaret G e sel = .ok () :=
  C58_draw hs hG (C26_calm_partial h).2

/-- What is shown for a formula, with a given table of letters. -/
def shownFor (x : Xid) (row : Row) : Option RElem :=
  match createParser x with
  | .ok (g, m) =>
    match newRenderer (joinNames m), g.parse row with
    | .ok R, .ok t => (renderAll R t).toOption
    | _, _ => none
  | .error _ => none

theorem shownFor_shown {x : Xid} (hx : x.Letters) {row : Row} (hw : rowWf row = true) {e : RElem}
    (h : shownFor x row = some e) : Shown x row e := by
  unfold shownFor at h
  split at h
  · rename_i g m hp
    split at h
    · rename_i R t hR ht
      refine ⟨hx, hw, g, m, R, t, ⟨hp, hR⟩, ht, ?_⟩
      cases hr : renderAll R t with
      | ok e' => rw [hr] at h; cases h; rfl
      | error p => rw [hr] at h; cases h
    · cases h
  · cases h

/-- A fraction with numerator `x` squared and a table with two cells. -/
def fractionAndTable : Row :=
  [.fraction [.symbol ['x'], .sup [.symbol ['2']]] [], .container .table [[.symbol ['a']], []] 1]

/-- A browser that puts everything at the same place. -/
def flatGeom : Geom :=
  ⟨fun _ => ⟨0, 0, 1, 1⟩, fun _ => ⟨0, 0, 0, 0⟩, fun _ => ⟨1, 0, 0, 0⟩, fun _ _ => ⟨0, 0, 1, 1⟩,
    fun _ => 1⟩

/-- It is shown, and so are a caret in the exponent and a selection of both cells. -/
example : ∃ e, shownFor letterXid fractionAndTable = some e ∧
    (∃ sel, selectionOf fractionAndTable (.at ⟨[(0, 0), (1, 0)], 1⟩) = .ok sel ∧
      renderCaret flatGeom e sel = .ok ()) ∧
    ∃ g, selectionOf fractionAndTable ⟨⟨[(1, 0)], 0⟩, ⟨[(1, 1)], 0⟩⟩ = .ok (.grid g) ∧
      renderCaret flatGeom e (.grid g) = .ok () := by
  have h : (shownFor letterXid fractionAndTable).isSome = true := by decide +kernel
  obtain ⟨e, he⟩ := Option.isSome_iff_exists.1 h
  have hs := shownFor_shown letterXid_letters (by decide) he
  have hG : ∀ p, 0 < flatGeom.fontSize p := fun _ => rfl
  refine ⟨e, he, C58_draw hs hG ⟨⟨_, rfl, by decide⟩, ⟨_, rfl, by decide⟩⟩, ?_⟩
  obtain ⟨sel, h1, h2⟩ := C58_draw hs hG (m := ⟨⟨[(1, 0)], 0⟩, ⟨[(1, 1)], 0⟩⟩)
    ⟨⟨_, rfl, by decide⟩, ⟨_, rfl, by decide⟩⟩
  have h3 : selectionOf fractionAndTable ⟨⟨[(1, 0)], 0⟩, ⟨[(1, 1)], 0⟩⟩ =
      .ok (.grid ⟨[], 1, 0, 2, 1⟩) := by decide +kernel
  rw [h3] at h1
  cases h1
  exact ⟨_, h3, h2⟩

/-- A position that does not exist has no element: drawing throws. -/
example : ((shownFor letterXid fractionAndTable).map fun e =>
    (renderCaret flatGeom e (.row ⟨[(0, 2)], 0, 0⟩)).toOption.isSome) = some false := by
  decide +kernel

end Aftermath
