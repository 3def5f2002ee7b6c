import Verif.Proof.ClickRow
import Verif.Props.Click

/-! # C60 and C104: the row that a click gives -/

namespace Aftermath

variable {x : Xid} {g : Grammar} {m : NameMap} {R : Renderers} {row : Row} {t : SNode} {e : RElem}

/-- **C60.** The row of the position and the closest place belong together: the place found as in
`C60_nearest_partial` is one of an element `e'`, looking up the row of the position gives an element
around `e'` (or `e'` itself) with no other row between the two, and this is the element of that whole
row of the formula. Missing: as in `C59_partial`. -/
theorem C60_row_partial (hx : x.Letters) (h : Shipped x g m R) (hw : rowWf row = true)
    (ht : g.parse row = .ok t) (he : renderAll R t = .ok e) (hn : ¬ ScriptCell g.builtIn t)
    (G : Geom) (pos : Coord) : ∃ p q e' c rp rq re r, layoutPosition G pos e = .ok p ∧
      e.at ((layoutElement G pos e).1.1 ++ q) = some e' ∧
      e'.tree.lo ≤ p.offset ∧ p.offset ≤ e'.tree.hi ∧
      caretPosition G ((layoutElement G pos e).1.1 ++ q) p.offset e' = .ok c ∧
      (∀ q' e'' off c', e.at ((layoutElement G pos e).1.1 ++ q') = some e'' →
        (q' = [] ∨ e''.rowIndex ≠ none) → e''.tree.lo ≤ off → off ≤ e''.tree.hi →
        caretPosition G ((layoutElement G pos e).1.1 ++ q') off e'' = .ok c' →
        (∀ q'', q'' <+: q' → (G.own ((layoutElement G pos e).1.1 ++ q'')).Contains c') →
        distPoint pos c ≤ distPoint pos c') ∧
      (layoutElement G pos e).1.1 ++ q = rp ++ rq ∧
      getElement ([], e) p.rowIndices = .ok (rp, re) ∧ e.at rp = some re ∧ re.rowPath rq = [] ∧
      rowAt row p.rowIndices = some r ∧ re.tree.lo = 0 ∧ re.tree.hi = r.length ∧
      ParsesTo g r re.tree := by
  obtain ⟨p, d, h1, ⟨el, c, hb, g1, g2, g3, g4, h3, rfl⟩, h4⟩ :=
    layoutPosition_placed (G := G) (pos := pos) (shown_onRow hx h hw ht he hn)
  have hat := layoutElement_at (root := e) (G := G) (pos := pos)
  obtain ⟨h5, q, h6⟩ := hb.at hat
  have hclean := (shown_onRow hx h hw ht he hn).clean
  have hlaid := (parse_laid (h.fits hx).1 hw ht he).1
  obtain ⟨p', hp', r, hr, -⟩ := C59_partial hx h hw ht he hn G pos
  rw [h1] at hp'
  cases hp'
  obtain ⟨rp, re, rq, k1, k2, k3, -, k5⟩ := getElement_rowPath [] hlaid hclean g1
  obtain ⟨rp', re', k6, k7⟩ := getElement_ok (path := []) hlaid hr
  simp only at g2 g3 g4
  rw [← g2, k6] at k1
  cases k1
  rw [h6] at h5 h3 k2
  refine ⟨p, q, el.2, c, rp, rq, re, r, h1, h5, g3, g4, h3, fun q' e'' off c' h7 h8 h9 h10 h11 h12 => ?_,
    k2, by simpa using k6, k3, k5, hr, k7.lo_eq, k7.hi_eq, k7.tree⟩
  rw [RElem.at_append q' hat] at h7
  refine h4 _ (below_of_at h7 h8) off c' h9 h10 h11 fun z hz1 hz2 => ?_
  obtain ⟨hz3, q1, hq1⟩ := hz1.at hat
  obtain ⟨-, q2, hq2⟩ := hz2.at hz3
  simp only at hq2
  rw [hq1, List.append_assoc] at hq2
  have := h12 q1 ⟨q2, (List.append_cancel_left hq2).symm⟩
  rw [hq1]
  exact distRect_le this.left this.right this.top this.bottom

/-- **C104.** A click inside the box of an element puts the caret into the row of this element or into
a row inside it: if the boxes on the way from the whole formula to the element contain the pointer,
and no box of an earlier element beside them does, then the path of the position starts with the path
of the row of this element. Missing: as in `C59_partial`. -/
theorem C104_partial (hs : Shown x row e) (hn : ¬ ScriptInCell row) (G : Geom) (pos : Coord)
    {q : List Nat} {c : RElem} (hc : e.at q = some c)
    (h1 : ∀ q', q' <+: q → (G.own q').Contains pos)
    (h2 : ∀ q' i, q' ++ [i] <+: q → ∀ j < i, ¬ (G.own (q' ++ [j])).Contains pos) :
    ∃ p, layoutPosition G pos e = .ok p ∧ ValidPos row p ∧ e.rowPath q <+: p.rowIndices := by
  obtain ⟨hx, hw, g, m, R, t, h, ht, he⟩ := hs
  obtain ⟨hg, hf⟩ := h.fits hx
  have hon := shown_onRow hx h hw ht he
    (fun hc => hn ((made_scriptCell hf (made_parse hg ht)).2 hc))
  obtain ⟨p, d, h3, ⟨el, -, hb, g1, g2, -⟩, -⟩ := layoutPosition_placed (G := G) (pos := pos) hon
  obtain ⟨p', hp', hv⟩ := C59_partial hx h hw ht he
    (fun hc => hn ((made_scriptCell hf (made_parse hg ht)).2 hc)) G pos
  rw [h3] at hp'
  cases hp'
  refine ⟨p, h3, hv, ?_⟩
  obtain ⟨s, hs⟩ := layoutElement_extends (G := G) (pos := pos) hc h1 h2
  obtain ⟨-, s', hs'⟩ := hb.at (layoutElement_at (root := e) (G := G) (pos := pos))
  simp only at g2
  rw [g2, hs', ← hs, List.append_assoc, RElem.rowPath_append _ hc]
  exact List.prefix_append _ _

/-- A click into the box of the denominator: the path of its row is that of the denominator, the boxes
of the formula and of the denominator contain the pointer, that of the numerator does not, and the
position is in the denominator. -/
example : ((shownFor letterXid xOverY).map fun e => e.rowPath [1]) = some [(0, 1)] ∧
    (squareOverYGeom.own []).Contains ⟨3, 15⟩ ∧ (squareOverYGeom.own [1]).Contains ⟨3, 15⟩ ∧
    ¬ (squareOverYGeom.own [0]).Contains ⟨3, 15⟩ ∧
    ((shownFor letterXid xOverY).bind fun e =>
      (layoutPosition squareOverYGeom ⟨3, 15⟩ e).toOption) = some ⟨[(0, 1)], 0⟩ := by
  refine ⟨by decide +kernel, boxContains_iff.2 (by decide +kernel),
    boxContains_iff.2 (by decide +kernel), fun h => ?_, by decide +kernel⟩
  have := boxContains_iff.1 h
  revert this
  decide +kernel

/-- The looked-up element of the row of that position is the one whose place is closest. -/
example : ((shownFor letterXid xOverY).bind fun e =>
      (getElement ([], e) [(0, 1)]).toOption.map fun l => l.1) = some [1] ∧
    ((shownFor letterXid xOverY).map fun e =>
      (layoutElement squareOverYGeom ⟨3, 15⟩ e).1.1) = some [1] := by
  decide +kernel

/-- Without the condition on earlier elements: when the box of the numerator reaches over that of the
denominator, a click into both goes to the numerator. -/
example : ((shownFor letterXid xOverY).bind fun e =>
      (layoutPosition { squareOverYGeom with own := fun _ => ⟨0, 0, 8, 20⟩ } ⟨3, 15⟩ e).toOption.map
        fun p => p.rowIndices) = some [(0, 0)] := by
  decide +kernel

end Aftermath
