import Verif.Proof.ScriptCell
import Verif.Props.Layout

/-! # C59 and C60: clicking -/

namespace Aftermath

variable {x : Xid} {g : Grammar} {m : NameMap} {R : Renderers} {row : Row} {t : SNode} {e : RElem}

theorem shown_onRow (hx : x.Letters) (h : Shipped x g m R) (hw : rowWf row = true)
    (ht : g.parse row = .ok t) (he : renderAll R t = .ok e) (hn : ¬ ScriptCell g.builtIn t) :
    OnRow (ParsesTo g) row e [] := by
  obtain ⟨hg, hf⟩ := h.fits hx
  exact ⟨(render_clean hf he (.inl rfl) (.inl rfl) hn).1, row, rfl, (parse_laid hg hw ht he).1.laid⟩

/-- **C59.** Wherever the user clicks and whatever the browser reports about places: the search ends
and gives a position of the formula. Missing: formulas with a cell that is just a base with a
subscript or superscript, see `C59_not`. -/
theorem C59_partial (hx : x.Letters) (h : Shipped x g m R) (hw : rowWf row = true)
    (ht : g.parse row = .ok t) (he : renderAll R t = .ok e) (hn : ¬ ScriptCell g.builtIn t)
    (G : Geom) (pos : Coord) : ∃ p, layoutPosition G pos e = .ok p ∧ ValidPos row p := by
  obtain ⟨p, d, h1, ⟨e', c, -, h2, -, h3, -⟩, -⟩ :=
    layoutPosition_ok (G := G) (pos := pos) (shown_onRow hx h hw ht he hn)
  exact ⟨p, h1, h2.rowIndex h3⟩

/-- **C59** in terms of the formula: it is enough that no cell contains a script. -/
theorem C59_row_partial (hs : Shown x row e) (hn : ¬ ScriptInCell row) (G : Geom) (pos : Coord) :
    ∃ p, layoutPosition G pos e = .ok p ∧ ValidPos row p := by
  obtain ⟨hx, hw, g, m, R, t, h, ht, he⟩ := hs
  obtain ⟨hg, hf⟩ := h.fits hx
  exact C59_partial hx h hw ht he (fun hc => hn ((made_scriptCell hf (made_parse hg ht)).2 hc)) G pos

/-- **C59** with C58: after the click the caret can be drawn. -/
theorem C59_drawn_partial (hs : Shown x row e) (hn : ¬ ScriptInCell row) {G : Geom}
    (hG : ∀ p, 0 < G.fontSize p) (pos : Coord) :
    ∃ p sel, layoutPosition G pos e = .ok p ∧ selectionOf row (.at p) = .ok sel ∧
      renderCaret G e sel = .ok () := by
  obtain ⟨p, h1, h2⟩ := C59_row_partial hs hn G pos
  obtain ⟨sel, h3, h4⟩ := C58_draw hs hG (m := .at p) ⟨h2, h2⟩
  exact ⟨p, sel, h1, h3, h4⟩

/-- The fraction with numerator `x` squared and denominator `y`. -/
def squareOverY : Row := [.fraction [.symbol ['x'], .sup [.symbol ['2']]] [.symbol ['y']]]

/-- A browser's layout of that fraction: the numerator above the denominator, the exponent up and to
the right of its base. -/
def squareOverYGeom : Geom where
  own
    | [] => ⟨0, 0, 8, 20⟩
    | [0] => ⟨0, 0, 8, 10⟩
    | [0, 0] => ⟨0, 2, 5, 8⟩
    | 0 :: 1 :: _ => ⟨5, 0, 3, 5⟩
    | _ => ⟨2, 12, 4, 8⟩
  startReader _ := ⟨5, 5, 0, 0⟩
  endReader _ := ⟨8, 5, 0, 0⟩
  glyph
    | [0, 0], _ => ⟨0, 2, 5, 8⟩
    | [0, 1, 0], _ => ⟨5, 0, 3, 5⟩
    | _, _ => ⟨2, 12, 4, 8⟩
  fontSize _ := 1

deriving instance DecidableEq for MinPos

/-- **C59, negation.** A click on the exponent of the numerator gives a position that does not exist:
its path contains the numerator twice. The caret is set to this position, and asking for the caret
panics. -/
theorem C59_not : ∃ e, Shown letterXid squareOverY e ∧
    ∃ p, layoutPosition squareOverYGeom ⟨6, 2⟩ e = .ok p ∧ p.rowIndices = [(0, 0), (0, 0), (1, 0)] ∧
      ¬ ValidPos squareOverY p ∧ ∃ err, selectionOf squareOverY (.at p) = .error err := by
  have h : ((shownFor letterXid squareOverY).bind fun e =>
      (layoutPosition squareOverYGeom ⟨6, 2⟩ e).toOption) =
        some ⟨[(0, 0), (0, 0), (1, 0)], 0⟩ := by decide +kernel
  obtain ⟨e, he, hp⟩ := Option.bind_eq_some_iff.1 h
  refine ⟨e, shownFor_shown letterXid_letters (by decide) he, ⟨[(0, 0), (0, 0), (1, 0)], 0⟩, ?_, rfl,
    ?_, ?_⟩
  · cases hl : layoutPosition squareOverYGeom ⟨6, 2⟩ e with
    | error _ => rw [hl] at hp; cases hp
    | ok p => rw [hl] at hp; cases hp; rfl
  · rintro ⟨r, hr, -⟩
    cases hr
  · have : (selectionOf squareOverY (.at ⟨[(0, 0), (0, 0), (1, 0)], 0⟩)).toOption.isSome = false := by
      decide +kernel
    cases hs : selectionOf squareOverY (.at ⟨[(0, 0), (0, 0), (1, 0)], 0⟩) with
    | error err => exact ⟨err, rfl⟩
    | ok s => rw [hs] at this; cases this

/-- In the same layout, a click on the base gives the position before or after it, and a click on
the denominator one in the denominator. -/
example : ((shownFor letterXid squareOverY).bind fun e =>
      (layoutPosition squareOverYGeom ⟨1, 6⟩ e).toOption) = some ⟨[(0, 0)], 0⟩ ∧
    ((shownFor letterXid squareOverY).bind fun e =>
      (layoutPosition squareOverYGeom ⟨4, 6⟩ e).toOption) = some ⟨[(0, 0)], 1⟩ ∧
    ((shownFor letterXid squareOverY).bind fun e =>
      (layoutPosition squareOverYGeom ⟨5, 30⟩ e).toOption) = some ⟨[(0, 1)], 1⟩ := by
  decide +kernel

/-! ## C60 -/

/-- **C60.** Where the search starts: the element under the pointer, none of whose children is under
the pointer, or else the whole formula. -/
theorem C60_start (G : Geom) (pos : Coord) (e : RElem) :
    ∃ e', e.at (layoutElement G pos e).1.1 = some e' ∧ (layoutElement G pos e).1.2 = e' ∧
      ((layoutElement G pos e).1.1 = [] ∧ 0 < distRect pos (G.own []) ∨
        distRect pos (G.own (layoutElement G pos e).1.1) ≤ 0 ∧
          ∀ i c, e'.children[i]? = some c →
            0 < distRect pos (G.own ((layoutElement G pos e).1.1 ++ [i]))) := by
  refine ⟨_, layoutElement_at, rfl, ?_⟩
  unfold layoutElement
  cases hc : layoutContaining G pos [] [] e with
  | none =>
    refine .inl ⟨rfl, ?_⟩
    cases e
    rw [layoutContaining] at hc
    split at hc
    · assumption
    · cases hc
  | some r => exact .inr (layoutContaining_spec (root := e) (by cases e; rfl) hc).2

/-- **C60.** The position given by a click is the closest one: among the caret positions of the
element where the search starts and of all rows inside it, none is closer to the pointer, provided
that the boxes of the elements around that position contain its place. Missing: as in
`C59_partial`. -/
theorem C60_nearest_partial (hx : x.Letters) (h : Shipped x g m R) (hw : rowWf row = true)
    (ht : g.parse row = .ok t) (he : renderAll R t = .ok e) (hn : ¬ ScriptCell g.builtIn t)
    (G : Geom) (pos : Coord) : ∃ p q e' c, layoutPosition G pos e = .ok p ∧
      e.at ((layoutElement G pos e).1.1 ++ q) = some e' ∧
      caretPosition G ((layoutElement G pos e).1.1 ++ q) p.offset e' = .ok c ∧
      ∀ q' e'' off c', e.at ((layoutElement G pos e).1.1 ++ q') = some e'' →
        (q' = [] ∨ e''.rowIndex ≠ none) → e''.tree.lo ≤ off → off ≤ e''.tree.hi →
        caretPosition G ((layoutElement G pos e).1.1 ++ q') off e'' = .ok c' →
        (∀ q'', q'' <+: q' → (G.own ((layoutElement G pos e).1.1 ++ q'')).Contains c') →
        distPoint pos c ≤ distPoint pos c' := by
  obtain ⟨p, d, h1, ⟨el, c, hb, h2, -, -, h3, rfl⟩, h4⟩ :=
    layoutPosition_ok (G := G) (pos := pos) (shown_onRow hx h hw ht he hn)
  have hat := layoutElement_at (root := e) (G := G) (pos := pos)
  obtain ⟨h5, q, h6⟩ := hb.at hat
  rw [h6] at h5 h3
  refine ⟨p, q, el.2, c, h1, h5, h3, fun q' e'' off c' h7 h8 h9 h10 h11 h12 => ?_⟩
  rw [RElem.at_append q' hat] at h7
  refine h4 _ (below_of_at h7 h8) off c' h9 h10 h11 fun z hz1 hz2 => ?_
  obtain ⟨hz3, q1, hq1⟩ := hz1.at hat
  obtain ⟨-, q2, hq2⟩ := hz2.at hz3
  simp only at hq2
  rw [hq1, List.append_assoc] at hq2
  have := h12 q1 ⟨q2, (List.append_cancel_left hq2).symm⟩
  rw [hq1]
  exact distRect_le this.left this.right this.top this.bottom

theorem distPoint_self (c : Coord) : distPoint c c = 0 := by simp [distPoint]

theorem distPoint_le_zero {a b : Coord} (h : distPoint a b ≤ 0) : b = a := by
  unfold distPoint at h
  have h1 := sq_nonneg (b.x - a.x)
  have h2 := sq_nonneg (b.y - a.y)
  have h3 : (b.x - a.x) ^ 2 = 0 := by linarith
  have h4 : (b.y - a.y) ^ 2 = 0 := by linarith
  have h5 := sub_eq_zero.1 (pow_eq_zero_iff (two_ne_zero)|>.1 h3)
  have h6 := sub_eq_zero.1 (pow_eq_zero_iff (two_ne_zero)|>.1 h4)
  cases a
  cases b
  simp only at h5 h6
  rw [h5, h6]

/-- **C60.** A click exactly on the place of a caret position gives a position at the same place. -/
theorem C60_exact_partial (hx : x.Letters) (h : Shipped x g m R) (hw : rowWf row = true)
    (ht : g.parse row = .ok t) (he : renderAll R t = .ok e) (hn : ¬ ScriptCell g.builtIn t)
    (G : Geom) (pos : Coord) {q' : List Nat} {e'' : RElem} {off : Nat}
    (h1 : e.at ((layoutElement G pos e).1.1 ++ q') = some e'')
    (h2 : q' = [] ∨ e''.rowIndex ≠ none) (h3 : e''.tree.lo ≤ off) (h4 : off ≤ e''.tree.hi)
    (h5 : caretPosition G ((layoutElement G pos e).1.1 ++ q') off e'' = .ok pos)
    (h6 : ∀ q'', q'' <+: q' → (G.own ((layoutElement G pos e).1.1 ++ q'')).Contains pos) :
    ∃ p q e', layoutPosition G pos e = .ok p ∧
      e.at ((layoutElement G pos e).1.1 ++ q) = some e' ∧
      caretPosition G ((layoutElement G pos e).1.1 ++ q) p.offset e' = .ok pos := by
  obtain ⟨p, q, e', c, h7, h8, h9, h10⟩ := C60_nearest_partial hx h hw ht he hn G pos
  have := h10 q' e'' off pos h1 h2 h3 h4 h5 h6
  rw [distPoint_self] at this
  rw [distPoint_le_zero this] at h9
  exact ⟨p, q, e', h7, h8, h9⟩

/-- The fraction with numerator `x` and denominator `y`. -/
def xOverY : Row := [.fraction [.symbol ['x']] [.symbol ['y']]]

/-- A click on the right end of the denominator in the layout above: the search starts in the
denominator, the end of the denominator is drawn at the pointer, the box contains it, and this
position is found. A click beside the fraction starts at the whole formula and finds the closest
position in any of the three rows. -/
example : ((shownFor letterXid xOverY).map fun e =>
      (layoutElement squareOverYGeom ⟨6, 20⟩ e).1.1) = some [1] ∧
    ((shownFor letterXid xOverY).bind fun e => (e.at [1]).bind fun e' =>
      ((caretPosition squareOverYGeom [1] 1 e').toOption.map fun c => (c.x, c.y))) = some (6, 20) ∧
    ((shownFor letterXid xOverY).bind fun e =>
      (layoutPosition squareOverYGeom ⟨6, 20⟩ e).toOption) = some ⟨[(0, 1)], 1⟩ ∧
    ((shownFor letterXid xOverY).map fun e =>
      (layoutElement squareOverYGeom ⟨9, 5⟩ e).1.1) = some [] ∧
    ((shownFor letterXid xOverY).bind fun e =>
      (layoutPosition squareOverYGeom ⟨9, 5⟩ e).toOption) = some ⟨[], 1⟩ := by
  decide +kernel

end Aftermath
