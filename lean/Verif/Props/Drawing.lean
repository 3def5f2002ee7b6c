import Verif.Proof.Drawing
import Verif.Props.Layout
import Mathlib.Tactic.Positivity
import Mathlib.Tactic.NormNum
import Mathlib.Tactic.Ring

/-! # C68: where carets and selections are drawn -/

namespace Aftermath

/-- The parts of a selection that is drawn. -/
theorem viewportSelection_parts {G : Geom} {e : RElem} {r : MinRange} {s : ViewSelection}
    (h : viewportSelection G e r = .ok s) :
    ∃ path row base a b, getElement ([], e) r.rowIndices = .ok (path, row) ∧
      caretPosition G path 0 row = .ok base ∧ caretPosition G path r.start row = .ok a ∧
      caretPosition G path r.stop row = .ok b ∧
      s.x = (if r.start ≤ r.stop then a.x else b.x) ∧ s.width = |b.x - a.x| ∧
      s.baseline = base.y ∧
      s.extent = if r.start ≠ r.stop then
        selectionHeight G (min r.start r.stop) (max r.start r.stop) path row
        else some (a.y, a.y) := by
  unfold viewportSelection at h
  obtain ⟨⟨path, row⟩, h1, h⟩ := M.bind_eq_ok.1 h
  obtain ⟨base, h2, h⟩ := M.bind_eq_ok.1 h
  obtain ⟨a, h3, h⟩ := M.bind_eq_ok.1 h
  obtain ⟨b, h4, h⟩ := M.bind_eq_ok.1 h
  cases h
  refine ⟨path, row, base, a, b, h1, h2, h3, h4, ?_, rfl, rfl, ?_⟩
  · simp only [decide_eq_true_eq]
  · simp only [decide_eq_true_eq]
    by_cases hle : r.start ≤ r.stop
    · rw [if_pos hle, if_pos hle, min_eq_left hle, max_eq_right hle]
    · rw [if_neg hle, if_neg hle, min_eq_right (by omega), max_eq_left (by omega)]

/-- **C68.** A selection is drawn in the same way whichever of its ends the caret is at. -/
theorem C68_swap {G : Geom} {e : RElem} {p : RowIndices} {a b : Nat} {s s' : ViewSelection}
    (h : viewportSelection G e ⟨p, a, b⟩ = .ok s) (h' : viewportSelection G e ⟨p, b, a⟩ = .ok s') :
    s = s' := by
  obtain ⟨path, row, base, ca, cb, h1, h2, h3, h4, h5, h6, h7, h8⟩ := viewportSelection_parts h
  obtain ⟨path', row', base', ca', cb', g1, g2, g3, g4, g5, g6, g7, g8⟩ :=
    viewportSelection_parts h'
  simp only at h1 h3 h4 h5 h8 g1 g3 g4 g5 g8
  rw [h1] at g1
  cases g1
  rw [h2] at g2
  cases g2
  rw [h4] at g3
  cases g3
  rw [h3] at g4
  cases g4
  have hx : s.x = s'.x := by
    rw [h5, g5]
    rcases Nat.lt_trichotomy a b with hab | rfl | hab
    · rw [if_pos hab.le, if_neg (by omega)]
    · rw [h3] at h4
      cases h4
      rfl
    · rw [if_neg (by omega), if_pos hab.le]
  have hw : s.width = s'.width := by rw [h6, g6, abs_sub_comm]
  have he : s.extent = s'.extent := by
    rw [h8, g8]
    by_cases hab : a = b
    · subst hab
      rw [h3] at h4
      cases h4
      rfl
    · rw [if_pos hab, if_pos (Ne.symm hab), min_comm, max_comm]
  have hb : s.baseline = s'.baseline := by rw [h7, g7]
  cases s
  cases s'
  simp only at hx hw he hb
  subst hx hw he hb
  rfl

/-- **C68.** A caret without selection has no width and no height of its own. Every selection in a
row is drawn over the same baseline, that of the caret at the start of the row. -/
theorem C68_caret {G : Geom} {e : RElem} {p : RowIndices} {a b : Nat} {s c : ViewSelection}
    (hs : viewportSelection G e ⟨p, a, b⟩ = .ok s) (hc : viewportSelection G e ⟨p, 0, 0⟩ = .ok c) :
    c.width = 0 ∧ c.extent = some (s.baseline, s.baseline) ∧
      (a = b → s.width = 0 ∧ ∃ y, s.extent = some (y, y)) := by
  obtain ⟨path, row, base, ca, cb, h1, h2, h3, h4, h5, h6, h7, h8⟩ := viewportSelection_parts hs
  obtain ⟨path', row', base', ca', cb', g1, g2, g3, g4, g5, g6, g7, g8⟩ :=
    viewportSelection_parts hc
  simp only at h1 h3 h4 h5 h8 g1 g3 g4 g5 g8
  rw [h1] at g1
  cases g1
  rw [g3] at g4
  cases g4
  rw [h2] at g3
  cases g3
  refine ⟨by rw [g6, sub_self, abs_zero], by rw [g8, h7]; rfl, ?_⟩
  rintro rfl
  rw [h3] at h4
  cases h4
  exact ⟨by rw [h6, sub_self, abs_zero], ca.y, by rw [h8]; simp⟩

/-- **C68.** If the browser sets everything from left to right, then carets go from left to right, and
a selection reaches from the caret at its left end to the caret at its right end. -/
theorem C68_span {x : Xid} {root : Row} {e : RElem} (hs : Shown x root e) {G : Geom}
    (hG : LeftToRight G e) {p : RowIndices} {r : Row} (hr : rowAt root p = some r) {a b : Nat}
    (hab : a ≤ b) (hb : b ≤ r.length) :
    ∃ s ca cb, viewportSelection G e ⟨p, a, b⟩ = .ok s ∧
      viewportSelection G e ⟨p, a, a⟩ = .ok ca ∧ viewportSelection G e ⟨p, b, b⟩ = .ok cb ∧
      ca.x ≤ cb.x ∧ s.x = ca.x ∧ s.x + s.width = cb.x := by
  obtain ⟨g, -, hl⟩ := hs.laid
  obtain ⟨s, h1⟩ := viewportSelection_ok (G := G) (rng := ⟨p, a, b⟩) hl hr (hab.trans hb) hb
  obtain ⟨ca, h2⟩ := viewportSelection_ok (G := G) (rng := ⟨p, a, a⟩) hl hr (hab.trans hb)
    (hab.trans hb)
  obtain ⟨cb, h3⟩ := viewportSelection_ok (G := G) (rng := ⟨p, b, b⟩) hl hr hb hb
  refine ⟨s, ca, cb, h1, h2, h3, ?_⟩
  obtain ⟨path, row, _, k1, k2, p1, -, p3, p4, p5, p6, -, -⟩ := viewportSelection_parts h1
  obtain ⟨_, _, _, k3, k4, q1, -, q3, q4, q5, -, -, -⟩ := viewportSelection_parts h2
  obtain ⟨_, _, _, k5, k6, r1, -, r3, r4, r5, -, -, -⟩ := viewportSelection_parts h3
  simp only at p1 p3 p4 p5 q1 q3 q4 q5 r1 r3 r4 r5
  rw [p1] at q1 r1
  cases q1
  cases r1
  rw [p3] at q3
  cases q3
  rw [p4] at r3
  cases r3
  rw [if_pos (le_refl _)] at q5 r5
  rw [if_pos hab] at p5
  obtain ⟨path', e', hp', hl'⟩ := getElement_ok (path := []) hl hr
  rw [p1] at hp'
  cases hp'
  have hat := getElement_at (e := ([], e)) rfl p1
  have hset : SetBelow G path row := by
    intro q c hc
    exact hG _ _ ((RElem.at_append q hat).trans hc)
  have hmono := (hl'.laid.ordered hset p3).2.2 hab p4
  rw [q5, r5, p5, p6]
  refine ⟨hmono, rfl, ?_⟩
  rw [abs_of_nonneg (by linarith)]
  linarith

/-- **C68.** The height of a selection that is not empty is finite: it is the smallest that contains
the boxes of the elements that make up the selection. This needs nothing about the browser. -/
theorem C68_extent {x : Xid} {root : Row} {e : RElem} (hs : Shown x root e) (G : Geom)
    {p : RowIndices} {r : Row} (hr : rowAt root p = some r) {a b : Nat} (hne : a ≠ b)
    (ha : a ≤ r.length) (hb : b ≤ r.length) :
    ∃ s path row top bottom, viewportSelection G e ⟨p, a, b⟩ = .ok s ∧
      getElement ([], e) p = .ok (path, row) ∧ s.extent = some (top, bottom) ∧
      IsExtent G (MakesUp (min a b) (max a b) path row) top bottom := by
  obtain ⟨g, -, hl⟩ := hs.laid
  obtain ⟨s, h1⟩ := viewportSelection_ok (G := G) (rng := ⟨p, a, b⟩) hl hr ha hb
  obtain ⟨path, row, _, _, _, p1, -, -, -, -, -, -, p8⟩ := viewportSelection_parts h1
  simp only at p1 p8
  rw [if_pos hne] at p8
  obtain ⟨path', e', hp', hl'⟩ := getElement_ok (path := []) hl hr
  rw [p1] at hp'
  cases hp'
  have hcov := selectionHeight_covers G (min a b) (max a b) path row
  obtain ⟨q, hq⟩ := hl'.laid.makesUp (left := min a b) (right := max a b) (by omega) (path := path)
    ⟨by rw [hl'.lo_eq]; omega, by rw [hl'.hi_eq]; omega⟩
  cases ho : selectionHeight G (min a b) (max a b) path row with
  | none =>
    rw [ho] at hcov
    exact absurd hq (hcov q)
  | some tb =>
    obtain ⟨t, b'⟩ := tb
    rw [ho] at hcov p8
    exact ⟨s, path, row, t, b', h1, p1, p8, hcov⟩

/-- **C68.** Where a single caret is. After a symbol of a token: before the next symbol of the token,
or at the right edge of the token. After a fraction, a table and the like: at the reader after it. -/
theorem C68_place {x : Xid} {root : Row} {e : RElem} (hs : Shown x root e) (G : Geom)
    {p : RowIndices} {path q : List Nat} {row d : RElem} {r : Row} (hr : rowAt root p = some r)
    (hp : getElement ([], e) p = .ok (path, row)) (hq : InRow path row q d) {off : Nat}
    (hlo : d.tree.lo < off) (hhi : off ≤ d.tree.hi) :
    ∃ s, viewportSelection G e ⟨p, off, off⟩ = .ok s ∧
      (d.OpensRows → s.x = (G.endReader q).x) ∧
      (∀ n lo hi ty ss, d.tree = .leaf n lo hi ty ss →
        (off = hi → s.x = (G.own q).right) ∧
        (off < hi → off - lo < ss.length → s.x = (G.glyph q (off - lo)).x)) := by
  obtain ⟨g, -, hl⟩ := hs.laid
  obtain ⟨path', e', hp', hl'⟩ := getElement_ok (path := []) hl hr
  rw [hp] at hp'
  cases hp'
  obtain ⟨k1, k2, k3, k4⟩ := hl'.laid.caret_inRow (G := G) hq hlo hhi
  have hlen : off ≤ r.length := by rw [← hl'.hi_eq]; exact hhi.trans k4
  obtain ⟨s, h1⟩ := viewportSelection_ok (G := G) (rng := ⟨p, off, off⟩) hl hr hlen hlen
  refine ⟨s, h1, ?_⟩
  obtain ⟨_, _, _, c, _, p1, -, p3, -, p5, -, -, -⟩ := viewportSelection_parts h1
  simp only at p1 p3 p5
  rw [hp] at p1
  cases p1
  rw [if_pos (le_refl _)] at p5
  rw [k1] at p3
  rw [p5]
  refine ⟨fun ho => ?_, fun n lo hi ty ss ht => ?_⟩
  · rcases k2.rows_caret ho p3 with ⟨h, -⟩ | ⟨-, h⟩
    · omega
    · exact h
  · obtain ⟨k, t, ri, cs⟩ := d
    simp only [RElem.tree] at ht hlo hhi
    subst ht
    have hx := k2.leaf_caret p3
    unfold leafX at hx
    rw [if_neg (show ¬ off ≤ (SNode.leaf n lo hi ty ss).lo from Nat.not_le.2 hlo)] at hx
    refine ⟨fun ho => ?_, fun ho hss => ?_⟩
    · rw [if_pos (show (SNode.leaf n lo hi ty ss).hi ≤ off from ho.ge)] at hx
      exact (Except.ok.inj hx).symm
    · rw [if_neg (show ¬ (SNode.leaf n lo hi ty ss).hi ≤ off from Nat.not_le.2 ho)] at hx
      unfold textNodeAt at hx
      rw [if_neg (show ¬ (SNode.leaf n lo hi ty ss).symbolCount = 0 from
        fun h => by simp only [SNode.symbolCount] at h; omega)] at hx
      have hd : ¬ ss.length ≤ off - lo := by omega
      simp only [SNode.lo, SNode.symbolCount, hd, decide_false, Bool.false_eq_true, if_false,
        M.ok_bind, Except.ok.injEq, add_zero] at hx
      exact hx.symm

/-- **C68.** The first caret of a row is at the left edge of the leftmost token, at the reader before
a fraction, a table and the like, and in the middle of an empty place. -/
theorem C68_first {x : Xid} {root : Row} {e : RElem} (hs : Shown x root e) (G : Geom)
    {p : RowIndices} {path q : List Nat} {row d : RElem} {r : Row} (hr : rowAt root p = some r)
    (hp : getElement ([], e) p = .ok (path, row)) (hq : FirstInRow path row q d) :
    ∃ s, viewportSelection G e ⟨p, 0, 0⟩ = .ok s ∧
      (d.OpensRows → s.x = (G.startReader q).x) ∧
      (∀ n lo hi ty ss, d.tree = .leaf n lo hi ty ss → s.x = (G.own q).x) ∧
      (d.tree.lo = d.tree.hi → s.x = ((G.own q).x + (G.own q).right) / 2) := by
  obtain ⟨g, -, hl⟩ := hs.laid
  obtain ⟨path', e', hp', hl'⟩ := getElement_ok (path := []) hl hr
  rw [hp] at hp'
  cases hp'
  obtain ⟨k1, k2, k3⟩ := hl'.laid.caret_first (G := G) hq
  rw [hl'.lo_eq] at k1 k3
  obtain ⟨s, h1⟩ := viewportSelection_ok (G := G) (rng := ⟨p, 0, 0⟩) hl hr (Nat.zero_le _)
    (Nat.zero_le _)
  refine ⟨s, h1, ?_⟩
  obtain ⟨_, _, _, c, _, p1, -, p3, -, p5, -, -, -⟩ := viewportSelection_parts h1
  simp only at p1 p3 p5
  rw [hp] at p1
  cases p1
  rw [if_pos (le_refl _)] at p5
  rw [k1] at p3
  rw [p5]
  refine ⟨fun ho => ?_, fun n lo hi ty ss ht => ?_, fun he => ?_⟩
  · rcases k2.rows_caret ho p3 with ⟨-, h⟩ | ⟨h, -⟩
    · exact h
    · omega
  · obtain ⟨k, t, ri, cs⟩ := d
    simp only [RElem.tree] at ht
    subst ht
    have hx := k2.leaf_caret p3
    unfold leafX at hx
    rw [if_pos (show 0 ≤ (SNode.leaf n lo hi ty ss).lo from Nat.zero_le _)] at hx
    exact (Except.ok.inj hx).symm
  · cases k2 with
    | leaf _ _ hlt => exact absurd he (Nat.ne_of_lt hlt)
    | rows => exact absurd he (Nat.ne_of_lt (Nat.lt_succ_self _))
    | empty hk =>
      rcases hk with rfl | rfl
      all_goals
        rw [caretPosition, massert_bind] at p3
        cases p3.2
        rfl
    | container hne =>
      rcases hq.final with ho | ho
      · exact ho.elim
      · exact absurd ho hne

/-- A browser that puts the first child of an element, or its first symbol, into the left half of its
box, the second into the left half of what is left, and so on. -/
def halves (path : List Nat) : ℚ × ℚ :=
  path.foldl (fun b i => (b.1 + b.2 * (1 - (1 / 2) ^ i), b.2 * (1 / 2) ^ (i + 1))) (0, 1)

/-- see `halves`; deeper elements are lower -/
def halvesGeom : Geom where
  own p := ⟨(halves p).1, p.length, (halves p).2, 1⟩
  startReader p := ⟨(halves p).1, p.length, 0, 0⟩
  endReader p := ⟨(halves p).1 + (halves p).2, p.length, 0, 0⟩
  glyph p i := ⟨(halves (p ++ [i])).1, p.length, (halves (p ++ [i])).2, 1⟩
  fontSize _ := 1

theorem halves_append (p : List Nat) (i : Nat) : halves (p ++ [i]) =
    ((halves p).1 + (halves p).2 * (1 - (1 / 2) ^ i), (halves p).2 * (1 / 2) ^ (i + 1)) := by
  unfold halves
  rw [List.foldl_append]
  rfl

theorem halves_pos (p : List Nat) : 0 < (halves p).2 := by
  induction p using List.reverseRecOn with
  | nil => decide
  | append_singleton p i ih =>
    rw [halves_append]
    positivity

theorem halves_step (p : List Nat) (i : Nat) :
    (halves p).1 ≤ (halves (p ++ [i])).1 ∧
    (halves (p ++ [i])).1 ≤ (halves (p ++ [i])).1 + (halves (p ++ [i])).2 ∧
    (halves (p ++ [i])).1 + (halves (p ++ [i])).2 ≤ (halves p).1 + (halves p).2 ∧
    ∀ j, i < j → (halves (p ++ [i])).1 + (halves (p ++ [i])).2 ≤ (halves (p ++ [j])).1 := by
  have hp := halves_pos p
  have hi : (0 : ℚ) < (1 / 2) ^ (i + 1) := by positivity
  have h1 : ((1 : ℚ) / 2) ^ i ≤ 1 := pow_le_one₀ (by norm_num) (by norm_num)
  have he : ((1 : ℚ) / 2) ^ i = 2 * (1 / 2) ^ (i + 1) := by rw [pow_succ]; ring
  rw [halves_append]
  simp only
  refine ⟨?_, ?_, ?_, fun j hj => ?_⟩
  · nlinarith
  · nlinarith
  · nlinarith
  · rw [halves_append]
    simp only
    have hj : ((1 : ℚ) / 2) ^ j ≤ (1 / 2) ^ (i + 1) :=
      pow_le_pow_of_le_one (by norm_num) (by norm_num) hj
    nlinarith

/-- It sets every formula from left to right. -/
theorem halves_leftToRight (e : RElem) : LeftToRight halvesGeom e := by
  have hl : ∀ p (c : RElem), c.left halvesGeom p = (halves p).1 := by
    intro p c; unfold RElem.left; split <;> rfl
  have hr : ∀ p (c : RElem), c.right halvesGeom p = (halves p).1 + (halves p).2 := by
    intro p c; unfold RElem.right; split <;> rfl
  intro p c _
  refine ⟨?_, ?_, ?_⟩
  · rw [hl, hr]
    linarith [halves_pos p]
  · intro n lo hi ty ss _ i _
    obtain ⟨h1, h2, h3, h4⟩ := halves_step p i
    exact ⟨h1, h2, h3, fun j hij _ => h4 j hij⟩
  · intro _ i d _
    rw [hl, hr]
    obtain ⟨h1, h2, h3, h4⟩ := halves_step p i
    exact ⟨h1, h3, fun j d hij _ => by rw [hl]; exact h4 j hij⟩

/-- The sum of `12` and `x`. -/
def twelvePlusX : Row := [.symbol ['1'], .symbol ['2'], .symbol ['+'], .symbol ['x']]

/-- What is drawn for a selection in it. -/
def drawnIn (row : Row) (a b : Nat) : Option (ℚ × ℚ × Option (ℚ × ℚ)) :=
  match shownFor letterXid row with
  | none => none
  | some e => (viewportSelection halvesGeom e ⟨[], a, b⟩).toOption.map fun s =>
    (s.x, s.width, s.extent)

/-- A selection from within `12` to after `+` is drawn from the caret at its left end, at `1 / 4`, to
the caret at its right end, at `3 / 4`, and over the height of both tokens. -/
example : drawnIn twelvePlusX 1 3 = some (1 / 4, 1 / 2, some (1, 2)) ∧
    drawnIn twelvePlusX 3 1 = drawnIn twelvePlusX 1 3 ∧
    drawnIn twelvePlusX 1 1 = some (1 / 4, 0, some (2, 2)) ∧
    drawnIn twelvePlusX 3 3 = some (3 / 4, 0, some (2, 2)) := by
  refine ⟨?_, ?_, ?_, ?_⟩ <;> decide +kernel

/-- The general theorem applies to it. -/
example : ∃ e s ca cb, Shown letterXid twelvePlusX e ∧
    viewportSelection halvesGeom e ⟨[], 1, 3⟩ = .ok s ∧
    viewportSelection halvesGeom e ⟨[], 1, 1⟩ = .ok ca ∧
    viewportSelection halvesGeom e ⟨[], 3, 3⟩ = .ok cb ∧ s.x = ca.x ∧ s.x + s.width = cb.x := by
  have h : (shownFor letterXid twelvePlusX).isSome = true := by decide +kernel
  obtain ⟨e, he⟩ := Option.isSome_iff_exists.1 h
  have hs := shownFor_shown letterXid_letters (by decide) he
  obtain ⟨s, ca, cb, h1, h2, h3, -, h5, h6⟩ := C68_span hs (halves_leftToRight e) (p := []) rfl
    (show 1 ≤ 3 by omega) (by decide)
  exact ⟨e, s, ca, cb, hs, h1, h2, h3, h5, h6⟩

end Aftermath
