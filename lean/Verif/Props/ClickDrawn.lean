import Verif.Props.ClickRow

/-! # C105: where the caret is drawn after a click -/

namespace Aftermath

variable {x : Xid} {g : Grammar} {m : NameMap} {R : Renderers} {row : Row} {t : SNode} {e : RElem}

/-- **C105.** After a click the caret can be drawn, and it is drawn at the place that the click found,
closest to the pointer, if this place is not the start of an element inside a row. Missing: the start
of an element inside a row, see `C105_not`, and as in `C59_partial`. -/
theorem C105_partial (hx : x.Letters) (h : Shipped x g m R) (hw : rowWf row = true)
    (ht : g.parse row = .ok t) (he : renderAll R t = .ok e) (hn : ¬ ScriptCell g.builtIn t)
    (G : Geom) (pos : Coord) : ∃ p q e' c v, layoutPosition G pos e = .ok p ∧
      e.at ((layoutElement G pos e).1.1 ++ q) = some e' ∧
      caretPosition G ((layoutElement G pos e).1.1 ++ q) p.offset e' = .ok c ∧
      (∀ q' e'' off c', e.at ((layoutElement G pos e).1.1 ++ q') = some e'' →
        (q' = [] ∨ e''.rowIndex ≠ none) → e''.tree.lo ≤ off → off ≤ e''.tree.hi →
        caretPosition G ((layoutElement G pos e).1.1 ++ q') off e'' = .ok c' →
        (∀ q'', q'' <+: q' → (G.own ((layoutElement G pos e).1.1 ++ q'')).Contains c') →
        distPoint pos c ≤ distPoint pos c') ∧
      viewportSelection G e ⟨p.rowIndices, p.offset, p.offset⟩ = .ok v ∧
      (e'.tree.lo < p.offset ∨ e'.rowIndex ≠ none ∨ (layoutElement G pos e).1.1 ++ q = [] →
        v.x = c.x ∧ v.width = 0 ∧ v.extent = some (c.y, c.y)) := by
  obtain ⟨p, q, e', c, rp, rq, re, r, h1, h2, h3, h4, h5, h6, h7, h8, h9, h10, h11, h12, h13, h14⟩ :=
    C60_row_partial hx h hw ht he hn G pos
  have hclean := (shown_onRow hx h hw ht he hn).clean
  have hlaid := (parse_laid (h.fits hx).1 hw ht he).1
  obtain ⟨rp', re', k1, k2⟩ := getElement_ok (path := []) hlaid h11
  rw [h8] at k1
  cases k1
  have hat : re.at rq = some e' := by
    rw [h7, RElem.at_append rq h9] at h2
    exact h2
  have hcr := hclean.at h9
  -- the place of any offset of the row exists
  have key : ∀ off, off ≤ r.length → ∃ c, caretPosition G rp off re = .ok c := fun off ho =>
    k2.laid.caretPosition_ok (by rw [k2.lo_eq]; omega) (by rw [k2.hi_eq]; exact ho)
  obtain ⟨p', hp', r', hr', hoff⟩ := C59_partial hx h hw ht he hn G pos
  rw [h1] at hp'
  cases hp'
  rw [h11] at hr'
  cases hr'
  obtain ⟨c1, hc1⟩ := key 0 (Nat.zero_le _)
  obtain ⟨c2, hc2⟩ := key _ hoff
  refine ⟨p, q, e', c, ⟨c2.x, 0, some (c2.y, c2.y), c1.y⟩, h1, h2, h5, h6, ?_, fun hd => ?_⟩
  · unfold viewportSelection
    simp [h8, hc1, hc2, M.ok_bind]
  · have hd' : e'.tree.lo < p.offset ∨ rq = [] := by
      rcases hd with hd | hd | hd
      · exact .inl hd
      · refine .inr ?_
        rcases List.eq_nil_or_concat rq with hq | ⟨rq, i, rfl⟩
        · exact hq
        · exfalso
          rw [List.concat_eq_append] at hat h10
          cases hm : re.at rq with
          | none =>
            rw [RElem.at_none hm] at hat
            cases hat
          | some mid =>
            rw [RElem.at_append _ hm] at hat
            cases mid with
            | mk k t ri cs =>
            simp only [RElem.at] at hat
            cases hci : cs[i]? with
            | none => rw [hci] at hat; cases hat
            | some d =>
              rw [hci] at hat
              have : d = e' := by cases d; simpa [RElem.at] using hat
              subst this
              rw [RElem.rowPath_child hm (by exact hci)] at h10
              cases hri : d.rowIndex with
              | none => exact hd hri
              | some ix => rw [hri] at h10; simp [addRowIndex] at h10
      · rw [hd] at h7
        exact .inr (List.append_eq_nil_iff.1 h7.symm).2
    obtain ⟨-, -, hk⟩ := k2.laid.caretPosition_at (G := G) (pre := rp) hcr hat h10 h3 h4 hd'
    rw [hk, ← h7, h5] at hc2
    cases hc2
    exact ⟨rfl, rfl, rfl⟩

/-- The sum of `x` and `y`. -/
def xPlusY : Row := [.symbol ['x'], .symbol ['+'], .symbol ['y']]

/-- A layout of the sum with a gap on each side of the operator. -/
def xPlusYGeom : Geom where
  own
    | [] => ⟨0, 0, 20, 8⟩
    | [0] => ⟨0, 0, 5, 8⟩
    | [1] => ⟨8, 0, 4, 8⟩
    | _ => ⟨15, 0, 5, 8⟩
  startReader _ := ⟨0, 0, 0, 0⟩
  endReader _ := ⟨0, 0, 0, 0⟩
  glyph
    | [0], _ => ⟨0, 0, 5, 8⟩
    | [1], _ => ⟨8, 0, 4, 8⟩
    | _, _ => ⟨15, 0, 5, 8⟩
  fontSize _ := 1

/-- **C105, negation.** A click on the left part of the operator finds the place at the start of the
operator, but the caret is drawn on the other side of the gap, at the end of `x`. -/
theorem C105_not : ∃ e p e' c v, Shown letterXid xPlusY e ∧
    layoutPosition xPlusYGeom ⟨9, 8⟩ e = .ok p ∧ (layoutElement xPlusYGeom ⟨9, 8⟩ e).1 = ([1], e') ∧
    caretPosition xPlusYGeom [1] p.offset e' = .ok c ∧ c.x = 8 ∧
    viewportSelection xPlusYGeom e ⟨p.rowIndices, p.offset, p.offset⟩ = .ok v ∧ v.x = 5 := by
  have h : ((shownFor letterXid xPlusY).bind fun e =>
      (layoutPosition xPlusYGeom ⟨9, 8⟩ e).toOption.bind fun p =>
      (e.at [1]).bind fun e' =>
      (caretPosition xPlusYGeom [1] p.offset e').toOption.bind fun c =>
      (viewportSelection xPlusYGeom e ⟨p.rowIndices, p.offset, p.offset⟩).toOption.map fun v =>
        ((layoutElement xPlusYGeom ⟨9, 8⟩ e).1.1, c.x, v.x)) = some ([1], 8, 5) := by decide +kernel
  obtain ⟨e, he, h⟩ := Option.bind_eq_some_iff.1 h
  obtain ⟨p, hp, h⟩ := Option.bind_eq_some_iff.1 h
  obtain ⟨e', he', h⟩ := Option.bind_eq_some_iff.1 h
  obtain ⟨c, hc, h⟩ := Option.bind_eq_some_iff.1 h
  obtain ⟨v, hv, h⟩ := Option.map_eq_some_iff.1 h
  have ok : ∀ {α : Type} {a : M α} {b : α}, a.toOption = some b → a = .ok b := by
    intro α a b hab
    cases a with
    | error _ => cases hab
    | ok _ => cases hab; rfl
  simp only [Prod.mk.injEq] at h
  refine ⟨e, p, e', c, v, shownFor_shown letterXid_letters (by decide) he, ok hp, ?_, ok hc, h.2.1, ok hv,
    h.2.2⟩
  have hat := layoutElement_at (root := e) (G := xPlusYGeom) (pos := ⟨9, 8⟩)
  rw [h.1, he'] at hat
  exact Prod.ext h.1 (Option.some.inj hat).symm

/-- A click on the right part of the operator: the place found is the end of the operator, and the caret
is drawn there. -/
example : ((shownFor letterXid xPlusY).bind fun e =>
      (layoutPosition xPlusYGeom ⟨11, 8⟩ e).toOption.bind fun p =>
      (viewportSelection xPlusYGeom e ⟨p.rowIndices, p.offset, p.offset⟩).toOption.map fun v =>
        (p.offset, v.x)) = some (2, 12) := by
  decide +kernel

end Aftermath
