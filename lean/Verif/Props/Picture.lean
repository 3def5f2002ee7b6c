import Verif.Proof.Picture

/-! # C80: what is drawn for the caret -/

namespace Aftermath

/-- **C80.** A caret without selection is drawn as one line, and nothing else. It is as high as the
font size of its row, and a tenth of it is below the baseline of the row, that is, below the
place of the first caret position of the row. -/
theorem C80_caret {x : Xid} {root : Row} {e : RElem} (hs : Shown x root e) {G : Geom}
    (hG : ∀ p, 0 < G.fontSize p) {p : RowIndices} {r : Row} (hr : rowAt root p = some r) {o : Nat}
    (ho : o ≤ r.length) :
    ∃ path row base c l, getElement ([], e) p = .ok (path, row) ∧
      caretPosition G path 0 row = .ok base ∧ caretPosition G path o row = .ok c ∧
      Pictured G e (.row ⟨p, o, o⟩) ⟨some l, []⟩ ∧ l.x = c.x ∧
      l.bottom - l.top = G.fontSize path ∧ l.bottom = base.y + G.fontSize path / 10 := by
  obtain ⟨g, -, hl⟩ := hs.laid
  obtain ⟨s, h1⟩ := viewportSelection_ok (G := G) (rng := ⟨p, o, o⟩) hl hr ho ho
  obtain ⟨path, row, base, a, b, p1, p2, p3, p4, p5, p6, p7, -⟩ := viewportSelection_parts h1
  simp only at p1 p3 p4
  rw [p3] at p4
  cases p4
  simp only [le_refl, if_true] at p5
  have hz : viewportCaretSize G e p = .ok (G.fontSize path) := by
    unfold viewportCaretSize
    simp only [p1, M.ok_bind, hG, decide_true, massert, if_true]
  have hp := pictured_row h1 hz
  simp only [le_refl, if_true] at hp
  refine ⟨path, row, base, a, _, p1, p2, p3, hp, ?_, ?_, ?_⟩
  · simp only [p5, p6, sub_self, abs_zero, add_zero]
  · simp only; ring
  · simp only [p7]

/-- **C80.** A selection in a row is drawn as a line and one box. If the browser sets everything from
left to right, the line is that of a caret at the end that moves, and the box reaches from the line
of a caret at its left end to the line of a caret at its right end. Vertically it is the smallest
box around what is selected. -/
theorem C80_row {x : Xid} {root : Row} {e : RElem} (hs : Shown x root e) {G : Geom}
    (hG : ∀ p, 0 < G.fontSize p) (hG' : LeftToRight G e) {p : RowIndices} {r : Row}
    (hr : rowAt root p = some r) {a b : Nat} (ha : a ≤ r.length) (hb : b ≤ r.length) (hne : a ≠ b) :
    ∃ l left right box path row, Pictured G e (.row ⟨p, a, b⟩) ⟨some l, [box]⟩ ∧
      Pictured G e (.row ⟨p, b, b⟩) ⟨some l, []⟩ ∧
      Pictured G e (.row ⟨p, min a b, min a b⟩) ⟨some left, []⟩ ∧
      Pictured G e (.row ⟨p, max a b, max a b⟩) ⟨some right, []⟩ ∧
      box.x = left.x ∧ box.right = right.x ∧ left.x ≤ right.x ∧
      getElement ([], e) p = .ok (path, row) ∧
      IsExtent G (MakesUp (min a b) (max a b) path row) box.y box.bottom := by
  obtain ⟨g, -, hl⟩ := hs.laid
  obtain ⟨s, path, row, top, bottom, h1, h2, h3, h4⟩ := C68_extent hs G hr hne ha hb
  have hz : viewportCaretSize G e p = .ok (G.fontSize path) := by
    unfold viewportCaretSize
    simp only [h2, M.ok_bind, hG, decide_true, massert, if_true]
  -- the same selection from left to right
  have hab : min a b ≤ max a b := min_le_max
  have hmax : max a b ≤ r.length := max_le ha hb
  obtain ⟨s', ca, cb, g1, g2, g3, g4, g5, g6⟩ := C68_span hs hG' hr hab hmax
  have hss : s = s' := by
    rcases Nat.le_total a b with h | h
    · rw [Nat.min_eq_left h, Nat.max_eq_right h] at g1
      rw [h1] at g1
      cases g1
      rfl
    · rw [Nat.min_eq_right h, Nat.max_eq_left h] at g1
      exact C68_swap h1 g1
  subst hss
  have hc : ∀ o, o ≤ r.length → ∀ c, viewportSelection G e ⟨p, o, o⟩ = .ok c →
      c.width = 0 ∧ c.baseline = s.baseline := by
    intro o ho c h
    obtain ⟨c0, h0⟩ := viewportSelection_ok (G := G) (rng := ⟨p, 0, 0⟩) hl hr (Nat.zero_le _)
      (Nat.zero_le _)
    obtain ⟨-, k1, k2⟩ := C68_caret h h0
    obtain ⟨-, k3, -⟩ := C68_caret h1 h0
    rw [k1] at k3
    simp only [Option.some.injEq, Prod.mk.injEq, and_self] at k3
    exact ⟨(k2 rfl).1, k3⟩
  have hcar : ∀ o, o ≤ r.length → ∀ c, viewportSelection G e ⟨p, o, o⟩ = .ok c →
      Pictured G e (.row ⟨p, o, o⟩) ⟨some ⟨c.x, s.baseline + G.fontSize path / 10 - G.fontSize path,
        s.baseline + G.fontSize path / 10⟩, []⟩ := by
    intro o ho c h
    have := pictured_row h hz
    simp only [le_refl, if_true, hc o ho c h, add_zero] at this
    exact this
  have hb' : ∃ c, viewportSelection G e ⟨p, b, b⟩ = .ok c ∧
      (if a ≤ b then s.x + s.width else s.x) = c.x := by
    rcases Nat.le_total a b with h | h
    · rw [Nat.max_eq_right h] at g3
      exact ⟨cb, g3, by rw [if_pos h, g6]⟩
    · rw [Nat.min_eq_right h] at g2
      exact ⟨ca, g2, by rw [if_neg (by omega), g5]⟩
  obtain ⟨c, k1, k2⟩ := hb'
  have hp := pictured_row h1 hz
  simp only [if_neg hne, h3, Option.map_some, Option.toList_some, k2] at hp
  exact ⟨_, _, _, _, path, row, hp, hcar b hb c k1, hcar _ (hab.trans hmax) ca g2,
    hcar _ hmax cb g3, g5, g6, g4, h2, by simpa only [Rect.bottom, add_sub_cancel] using h4⟩

/-- **C80.** The line is drawn where a caret at the moving end is drawn, if and only if the selection
does not go forwards in the row and backwards on the screen. -/
theorem C80_line {x : Xid} {root : Row} {e : RElem} (hs : Shown x root e) {G : Geom}
    (hG : ∀ p, 0 < G.fontSize p) {p : RowIndices} {r : Row} (hr : rowAt root p = some r)
    {a b : Nat} (ha : a ≤ r.length) (hb : b ≤ r.length) :
    ∃ v la lb, Pictured G e (.row ⟨p, a, b⟩) v ∧ Pictured G e (.row ⟨p, a, a⟩) ⟨some la, []⟩ ∧
      Pictured G e (.row ⟨p, b, b⟩) ⟨some lb, []⟩ ∧
      (v.line = some lb ↔ ¬ (a < b ∧ lb.x < la.x)) := by
  obtain ⟨g, -, hl⟩ := hs.laid
  obtain ⟨s, h1⟩ := viewportSelection_ok (G := G) (rng := ⟨p, a, b⟩) hl hr ha hb
  obtain ⟨sa, h2⟩ := viewportSelection_ok (G := G) (rng := ⟨p, a, a⟩) hl hr ha ha
  obtain ⟨sb, h3⟩ := viewportSelection_ok (G := G) (rng := ⟨p, b, b⟩) hl hr hb hb
  obtain ⟨z, hz⟩ := viewportCaretSize_ok hG hl hr
  have k1 := pictured_row h1 hz
  have k2 := pictured_row h2 hz
  have k3 := pictured_row h3 hz
  simp only [le_refl, if_true] at k2 k3
  refine ⟨_, _, _, k1, k2, k3, ?_⟩
  obtain ⟨path, row, base, ca, cb, p1, p2, p3, p4, p5, p6, p7, -⟩ := viewportSelection_parts h1
  obtain ⟨_, _, base', _, _, q1, q2, q3, q4, q5, q6, q7, -⟩ := viewportSelection_parts h2
  obtain ⟨_, _, base'', _, _, r1, r2, r3, r4, r5, r6, r7, -⟩ := viewportSelection_parts h3
  simp only at p1 p3 p4 q1 q3 q4 r1 r3 r4
  rw [p1] at q1 r1
  cases q1
  cases r1
  rw [p2] at q2 r2
  cases q2
  cases r2
  rw [p3] at q3 q4
  cases q3
  cases q4
  rw [p4] at r3 r4
  cases r3
  cases r4
  simp only [le_refl, if_true] at q5 r5
  simp only [p5, p6, p7, q5, q6, r5, r6, r7, sub_self, abs_zero, add_zero, Option.some.injEq,
    ScreenLine.mk.injEq, and_true]
  rcases Nat.lt_or_ge b a with hba | hba
  · rw [if_neg (by omega), if_neg (by omega)]
    simp only [true_iff, not_and]
    omega
  · rw [if_pos hba, if_pos hba]
    rcases Nat.eq_or_lt_of_le hba with rfl | hlt
    · rw [p3] at p4
      cases p4
      simp
    · simp only [hlt, true_and, not_lt]
      constructor
      · intro h
        by_contra hc
        rw [abs_of_neg (by linarith)] at h
        linarith
      · intro h
        rw [abs_of_nonneg (by linarith)]
        ring

/-- Two positions are in different cells of at most one table. -/
theorem inTable_unique {root : Row} {a b : MinPos} {p p' : RowIndices} {i j j' w k l l' w' : Nat}
    (h : InTable root a b p i j j' w) (h' : InTable root a b p' k l l' w') :
    p = p' ∧ i = k ∧ j = l ∧ j' = l' ∧ w = w' := by
  obtain ⟨hj, ⟨ra, hra⟩, ⟨rb, hrb⟩, row, cells, hrow, hi⟩ := h
  obtain ⟨hl, ⟨ra', hra'⟩, ⟨rb', hrb'⟩, row', cells', hrow', hi'⟩ := h'
  have key : ∀ {p p' : RowIndices} {i j j' k l l' : Nat} {ra rb ra' rb' : RowIndices}, j ≠ j' →
      p ++ (i, j) :: ra = p' ++ (k, l) :: ra' → p ++ (i, j') :: rb = p' ++ (k, l') :: rb' →
      ¬ p.length < p'.length := by
    intro p p' i j j' k l l' ra rb ra' rb' hj h1 h2 hlt
    have e1 := congrArg (fun q : RowIndices => q[p.length]?) h1
    have e2 := congrArg (fun q : RowIndices => q[p.length]?) h2
    simp only [List.getElem?_append_right (Nat.le_refl _), Nat.sub_self, List.getElem?_cons_zero,
      List.getElem?_append_left hlt] at e1 e2
    rw [← e1] at e2
    cases e2
    exact hj rfl
  rw [hra] at hra'
  rw [hrb] at hrb'
  have hlen : p.length = p'.length :=
    Nat.le_antisymm (Nat.le_of_not_lt (key hl hra'.symm hrb'.symm)) (Nat.le_of_not_lt (key hj hra' hrb'))
  obtain ⟨rfl, h1⟩ := List.append_inj hra' hlen
  obtain ⟨-, h2⟩ := List.append_inj hrb' hlen
  cases h1
  cases h2
  rw [hrow] at hrow'
  cases hrow'
  rw [hi] at hi'
  cases hi'
  exact ⟨rfl, rfl, rfl, rfl, rfl⟩

/-- **C80.** A caret whose two ends are in different cells of a table is drawn without a line, as one
box: the smallest one around the two cells, whichever of them comes first. -/
theorem C80_grid {x : Xid} {root : Row} {e : RElem} (hs : Shown x root e) {G : Geom}
    (hsize : ∀ p, 0 ≤ (G.own p).width ∧ 0 ≤ (G.own p).height) {a b : MinPos}
    (ha : ValidPos root a) (hb : ValidPos root b) {p : RowIndices} {i j j' w : Nat}
    (ht : InTable root a b p i j j' w) :
    ∃ g box ra rb, selectionOf root ⟨a, b⟩ = .ok (.grid g) ∧
      viewportRowBounds G e (p ++ [(i, j)]) = .ok ra ∧
      viewportRowBounds G e (p ++ [(i, j')]) = .ok rb ∧
      Pictured G e (.grid g) ⟨none, [box]⟩ ∧ box.IsAround ra rb := by
  obtain ⟨g, -, hl⟩ := hs.laid
  obtain ⟨c, hc, -, ⟨p', k, l, l', w', ht', hsel⟩ | ⟨hno, -⟩⟩ := C12_selection hs.wf ha hb
  · obtain ⟨rfl, rfl, rfl, rfl, rfl⟩ := inTable_unique ht ht'
    obtain ⟨row, cells, hrow, hi, -, -, -, -, hlen⟩ := C12_interval ha hb ht
    have key : ∀ k, k < cells.length → ∃ r, viewportRowBounds G e (p ++ [(i, k)]) = .ok r ∧
        0 ≤ r.width ∧ 0 ≤ r.height := by
      intro k hk
      obtain ⟨path, e', h3, -⟩ := getElement_ok (path := []) (r := cells[k]) (p := p ++ [(i, k)]) hl (by
        rw [rowAt_append, hrow]
        simp only [Option.bind_some, rowAt, hi, List.getElem?_eq_getElem hk])
      exact ⟨G.own path, by unfold viewportRowBounds; simp only [h3, M.ok_bind], hsize path⟩
    obtain ⟨ra, h1, h2, h3⟩ := key j (by omega)
    obtain ⟨rb, h4, h5, h6⟩ := key j' (by omega)
    refine ⟨⟨p, i, min j j', max j j' + 1, w⟩, ⟨min ra.x rb.x, min ra.y rb.y,
      max ra.right rb.right - min ra.x rb.x, max ra.bottom rb.bottom - min ra.y rb.y⟩, ra, rb,
      by simp only [selectionOf, hc, M.ok_bind, hsel], h1, h4, ?_⟩
    rcases Nat.le_total j j' with hle | hle
    · have := pictured_grid (G := G) (root := e) (g := ⟨p, i, min j j', max j j' + 1, w⟩) (a := ra)
        (b := rb) (by simpa only [Nat.min_eq_left hle] using h1)
        (by rw [show max (max j j' + 1 - 1) (min j j') = j' by omega]; exact h4) h2 h3
      exact ⟨this, isAround_union⟩
    · have := pictured_grid (G := G) (root := e) (g := ⟨p, i, min j j', max j j' + 1, w⟩) (a := rb)
        (b := ra) (by simpa only [Nat.min_eq_right hle] using h4)
        (by rw [show max (max j j' + 1 - 1) (min j j') = j by omega]; exact h1) h5 h6
      rw [min_comm rb.x, min_comm rb.y, max_comm rb.right, max_comm rb.bottom] at this
      exact ⟨this, isAround_union⟩
  · exact absurd ⟨p, i, j, j', w, ht⟩ hno

/-- **C80.** If the boxes of the cells fill the columns and rows of the table, then the box covers
the cells in the rectangle of which the two cells are opposite corners, and leaves out all others.
This holds for all four directions in which the corners can lie. -/
theorem C80_rectangle {box : Nat → Rect} {n w : Nat} (hf : FillTable box n w) {j j' : Nat}
    (hj : j < n) (hj' : j' < n) {r : Rect} (hr : r.IsAround (box j) (box j')) {k : Nat}
    (hk : k < n) :
    (InRectangle w j j' k → r.Covers (box k)) ∧ (¬ InRectangle w j j' k → r.Apart (box k)) := by
  obtain ⟨X, W, Y, H, hb, hX, hY⟩ := hf
  obtain ⟨⟨a1, a2, a3, a4⟩, ⟨b1, b2, b3, b4⟩, hmin⟩ := hr
  obtain ⟨c1, c2, c3, c4⟩ := hmin _ isAround_union.1 isAround_union.2.1
  simp only [Rect.right, Rect.bottom, add_sub_cancel, hb j hj, hb j' hj'] at *
  obtain ⟨x1, x2, x3⟩ := intervals_span hX (i := j % w) (j := j' % w) (k := k % w)
  obtain ⟨y1, y2, y3⟩ := intervals_span hY (i := j / w) (j := j' / w) (k := k / w)
  constructor
  · rintro ⟨h1, h2, h3, h4⟩
    obtain ⟨x4, x5⟩ := x1 ⟨h1, h2⟩
    obtain ⟨y4, y5⟩ := y1 ⟨h3, h4⟩
    simp only [Rect.Covers, Rect.right, Rect.bottom, hb k hk]
    exact ⟨(le_min a1 b1).trans x4, x5.trans (max_le a2 b2), (le_min a3 b3).trans y4,
      y5.trans (max_le a4 b4)⟩
  · intro h
    simp only [Rect.Apart, Rect.right, Rect.bottom, hb k hk]
    by_cases h1 : min (j % w) (j' % w) ≤ k % w
    · by_cases h2 : k % w ≤ max (j % w) (j' % w)
      · by_cases h3 : min (j / w) (j' / w) ≤ k / w
        · have h4 : ¬ k / w ≤ max (j / w) (j' / w) := fun h4 => h ⟨h1, h2, h3, h4⟩
          exact .inr (.inr (.inl (c4.trans (y3 (by omega)))))
        · exact .inr (.inr (.inr ((y2 (by omega)).trans c3)))
      · exact .inl (c2.trans (x3 (by omega)))
    · exact .inr (.inl ((x2 (by omega)).trans c1))

/-- **C80.** In a table that is shown, with cells that fill its columns and rows: the box drawn for
a caret with its ends in two cells covers the cells in the rectangle of the two, and no others. -/
theorem C80_table {x : Xid} {root : Row} {e : RElem} (hs : Shown x root e) {G : Geom}
    (hsize : ∀ p, 0 ≤ (G.own p).width ∧ 0 ≤ (G.own p).height) {a b : MinPos}
    (ha : ValidPos root a) (hb : ValidPos root b) {p : RowIndices} {i j j' w : Nat}
    (ht : InTable root a b p i j j' w) {row : Row} {cells : List Row} (hrow : rowAt root p = some row)
    (hcells : row[i]? = some (.container .table cells w)) {box : Nat → Rect}
    (hbox : ∀ k, k < cells.length → viewportRowBounds G e (p ++ [(i, k)]) = .ok (box k))
    (hfill : FillTable box cells.length w) :
    ∃ g r, selectionOf root ⟨a, b⟩ = .ok (.grid g) ∧ Pictured G e (.grid g) ⟨none, [r]⟩ ∧
      ∀ k, k < cells.length → (InRectangle w j j' k → r.Covers (box k)) ∧
        (¬ InRectangle w j j' k → r.Apart (box k)) := by
  obtain ⟨g, r, ra, rb, h1, h2, h3, h4, h5⟩ := C80_grid hs hsize ha hb ht
  obtain ⟨row', cells', hrow', hi', -, -, -, -, hlen⟩ := C12_interval ha hb ht
  rw [hrow] at hrow'
  cases hrow'
  rw [hcells] at hi'
  cases hi'
  rw [hbox j (by omega)] at h2
  rw [hbox j' (by omega)] at h3
  cases h2
  cases h3
  exact ⟨g, r, h1, h4, fun k hk => C80_rectangle hfill (by omega) (by omega) h5 hk⟩

/-- **C80.** The component draws one caret, that of the current selection over the formula that is
shown, and nothing of what was drawn before is left. It throws exactly when the model of the
component, which leaves out the picture, does. Outside of the document nothing is drawn, and what was
drawn before stays. -/
theorem C80_component (c : Component) (G : Geom) (origin : Coord) (old : List CaretElement) :
    (do let _ ← c.drawnCarets G origin old; .ok () : M Unit) = c.renderCarets G ∧
    (∀ els, c.drawnCarets G origin old = .ok els → c.connected = true →
      ∃ sel el, c.editor.getCaret = .ok sel ∧ drawCaret G origin c.result sel = .ok el ∧
        els = [el]) ∧
    (c.connected = false → c.drawnCarets G origin old = .ok old) := by
  refine ⟨?_, ?_, fun h => by unfold Component.drawnCarets; rw [h]; rfl⟩
  · unfold Component.drawnCarets Component.renderCarets
    by_cases hc : c.connected = true
    · rw [if_pos hc, if_pos hc]
      cases hg : c.editor.getCaret with
      | error p => rfl
      | ok sel =>
        simp only [M.ok_bind]
        rw [← drawCaret_renderCaret G origin]
        cases drawCaret G origin c.result sel <;> rfl
    · rw [if_neg hc, if_neg hc]
      rfl
  · intro els h hc
    unfold Component.drawnCarets at h
    rw [if_pos hc] at h
    obtain ⟨sel, h1, h⟩ := M.bind_eq_ok.1 h
    obtain ⟨el, h2, h⟩ := M.bind_eq_ok.1 h
    cases h
    exact ⟨sel, el, h1, h2, rfl⟩

/-- A table with the cells `x`, `y`, `ab`, `z`. -/
def fourCells : Row := [.container .table [[.symbol ['x']], [.symbol ['y']],
  [.symbol ['a'], .symbol ['b']], [.symbol ['z']]] 2]

/-- The boxes of its cells: every symbol is two wide, and `x` is in the middle of its column. -/
def fourBoxes : Nat → Rect
  | 0 => ⟨1, 0, 2, 1⟩
  | 1 => ⟨5, 0, 2, 1⟩
  | 2 => ⟨0, 2, 4, 1⟩
  | _ => ⟨5, 2, 2, 1⟩

/-- A browser that puts them there. -/
def fourGeom : Geom where
  own := fun | [k] => fourBoxes k | _ => ⟨0, 0, 7, 3⟩
  startReader := fun _ => ⟨0, 0, 0, 0⟩
  endReader := fun _ => ⟨7, 0, 0, 0⟩
  glyph := fun _ _ => ⟨0, 0, 2, 1⟩
  fontSize := fun _ => 1

theorem fourBoxes_centred : CentreTable fourBoxes 4 2 := by
  refine ⟨fun c => 5 * c, fun c => if c = 0 then 4 else 2, fun r => 2 * r, fun _ => 1, ?_, ?_, ?_⟩
  · intro k hk
    have : k = 0 ∨ k = 1 ∨ k = 2 ∨ k = 3 := by omega
    rcases this with rfl | rfl | rfl | rfl <;> norm_num [fourBoxes, Rect.right]
  · intro c
    push_cast
    split <;> exact ⟨by norm_num, by linarith⟩
  · intro r
    push_cast
    exact ⟨by norm_num, by linarith⟩

/-- **C80.** If cells are in the middle of their columns, as in the component (`mtd` in
`math-editor-styles.css`), the box need not cover all selected cells: of the table with the cells
`x`, `y`, `ab`, `z` all of which are selected, the third sticks out. -/
theorem C80_centred : ∃ (x : Xid) (root : Row) (e : RElem) (G : Geom) (a b : MinPos) (g : MinGridRange)
    (box : Nat → Rect) (r : Rect), Shown x root e ∧ ValidPos root a ∧ ValidPos root b ∧
    InTable root a b [] 0 0 3 2 ∧ (∀ k, k < 4 → viewportRowBounds G e [(0, k)] = .ok (box k)) ∧
    CentreTable box 4 2 ∧ selectionOf root ⟨a, b⟩ = .ok (.grid g) ∧
    Pictured G e (.grid g) ⟨none, [r]⟩ ∧ InRectangle 2 0 3 2 ∧ ¬ r.Covers (box 2) := by
  have h : (shownFor letterXid fourCells).isSome = true := by decide +kernel
  obtain ⟨e, he⟩ := Option.isSome_iff_exists.1 h
  have hs := shownFor_shown letterXid_letters (by decide) he
  have hpath : ((shownFor letterXid fourCells).map fun e =>
      (List.range 4).map fun k => (getElement ([], e) [(0, k)]).toOption.map (·.1)) =
      some ((List.range 4).map fun k => some [k]) := by decide +kernel
  rw [he] at hpath
  simp only [Option.map_some, Option.some.injEq] at hpath
  have hb : ∀ k, k < 4 → viewportRowBounds fourGeom e [(0, k)] = .ok (fourBoxes k) := by
    intro k hk
    have := congrArg (fun l : List (Option (List Nat)) => l[k]?) hpath
    simp only [List.getElem?_map, List.getElem?_range hk, Option.map_some, Option.some.injEq] at this
    unfold viewportRowBounds
    cases hg : getElement ([], e) [(0, k)] with
    | error p => rw [hg] at this; cases this
    | ok v =>
      rw [hg] at this
      have hv : v.1 = [k] := Option.some.inj this
      simp only [M.ok_bind, fourGeom, hv]
  have ha : ValidPos fourCells ⟨[(0, 0)], 0⟩ := ⟨[.symbol ['x']], rfl, by decide⟩
  have hb' : ValidPos fourCells ⟨[(0, 3)], 0⟩ := ⟨[.symbol ['z']], rfl, by decide⟩
  have hin : InTable fourCells ⟨[(0, 0)], 0⟩ ⟨[(0, 3)], 0⟩ [] 0 0 3 2 :=
    ⟨by decide, ⟨[], rfl⟩, ⟨[], rfl⟩, _, _, rfl, rfl⟩
  have hsize : ∀ p, 0 ≤ (fourGeom.own p).width ∧ 0 ≤ (fourGeom.own p).height := by
    intro p
    simp only [fourGeom]
    split
    · unfold fourBoxes
      split <;> norm_num
    · norm_num
  obtain ⟨g, r, ra, rb, h1, h2, h3, h4, h5, h6, h7⟩ := C80_grid (G := fourGeom) hs hsize ha hb' hin
  rw [List.nil_append, hb 0 (by decide)] at h2
  rw [List.nil_append, hb 3 (by decide)] at h3
  cases h2
  cases h3
  refine ⟨_, _, e, fourGeom, _, _, g, fourBoxes, r, hs, ha, hb', hin, hb, fourBoxes_centred, h1, h4,
    by decide, ?_⟩
  rintro ⟨k1, -, -, -⟩
  obtain ⟨k2, -, -, -⟩ := h7 ⟨1, 0, 6, 3⟩ (by simp [Rect.Covers, Rect.right, Rect.bottom, fourBoxes]; norm_num)
    (by simp [Rect.Covers, Rect.right, Rect.bottom, fourBoxes]; norm_num)
  simp only [fourBoxes] at k1 k2
  linarith

/-! ## Examples -/

/-- Cells that fill the columns and rows of a table with two columns. -/
example : FillTable (fun k => ⟨(k % 2 : Nat), (k / 2 : Nat), 1, 1⟩) 6 2 :=
  ⟨fun c => c, fun _ => 1, fun r => r, fun _ => 1, fun _ _ => rfl,
    fun c => ⟨by norm_num, by push_cast; linarith⟩, fun r => ⟨by norm_num, by push_cast; linarith⟩⟩

/-- From the upper right to the lower left cell of a table with two columns and three rows: the
rectangle consists of all cells but the last two. -/
example : (List.range 6).filter (fun k => decide (InRectangle 2 1 2 k)) = [0, 1, 2, 3] := by
  decide

/-- The selection of `2` and `+` in `12+x`, with the caret at the left end. -/
example : ∃ e l left right box, Shown letterXid twelvePlusX e ∧
    Pictured halvesGeom e (.row ⟨[], 3, 1⟩) ⟨some l, [box]⟩ ∧
    Pictured halvesGeom e (.row ⟨[], 1, 1⟩) ⟨some left, []⟩ ∧
    Pictured halvesGeom e (.row ⟨[], 3, 3⟩) ⟨some right, []⟩ ∧
    box.x = left.x ∧ box.right = right.x := by
  have h : (shownFor letterXid twelvePlusX).isSome = true := by decide +kernel
  obtain ⟨e, he⟩ := Option.isSome_iff_exists.1 h
  have hs := shownFor_shown letterXid_letters (by decide) he
  obtain ⟨l, left, right, box, _, _, h1, -, h3, h4, h5, h6, -⟩ :=
    C80_row hs (fun _ => by simp only [halvesGeom]; norm_num) (halves_leftToRight e) (p := []) rfl
      (a := 3) (b := 1) (by decide) (by decide) (by decide)
  exact ⟨e, l, left, right, box, hs, h1, h3, h4, h5, h6⟩

end Aftermath
