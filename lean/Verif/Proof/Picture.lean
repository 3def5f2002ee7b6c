import Verif.Spec.Picture
import Verif.Props.Drawing
import Verif.Props.Range
import Mathlib.Tactic.Linarith

/-! # Lemmas about the picture of the caret -/

namespace Aftermath

/-- Drawing throws in the cases of `renderCaret`. -/
theorem drawCaret_renderCaret (G : Geom) (origin : Coord) (root : RElem) (sel : MinSelection) :
    (do let _ ← drawCaret G origin root sel; .ok () : M Unit) = renderCaret G root sel := by
  cases sel with
  | row r =>
    simp only [drawCaret, renderCaret]
    cases viewportSelection G root r with
    | error p => rfl
    | ok s =>
      cases viewportCaretSize G root r.rowIndices with
      | error p => rfl
      | ok z => rfl
  | grid g =>
    simp only [drawCaret, renderCaret]
    cases viewportRowBounds G root (g.rowIndices ++ [(g.index, g.range.start)]) with
    | error p => rfl
    | ok s =>
      cases viewportRowBounds G root
        (g.rowIndices ++ [(g.index, max (g.range.stop - 1) g.range.start)]) with
      | error p => rfl
      | ok z => rfl

theorem onScreen_line {origin : Coord} {x y v : ℚ} (hv : 0 < v) {e : CaretElement} :
    (((e.setPosition origin ⟨x, y⟩).setHeight v).line.onScreen origin) = some ⟨x, y - v, y⟩ := by
  simp only [CaretElement.setPosition, CaretElement.setHeight, LineStyle.onScreen,
    decide_eq_true_eq, not_le.2 hv, if_false, Option.some.injEq, ScreenLine.mk.injEq]
  refine ⟨by linarith, by linarith, by linarith⟩

/-- The picture of a selection in a row. -/
theorem pictured_row {G : Geom} {root : RElem} {r : MinRange} {s : ViewSelection} {z : ℚ}
    (hs : viewportSelection G root r = .ok s) (hz : viewportCaretSize G root r.rowIndices = .ok z) :
    Pictured G root (.row r)
      ⟨some ⟨if r.start ≤ r.stop then s.x + s.width else s.x, s.baseline + z / 10 - z,
          s.baseline + z / 10⟩,
        if r.start = r.stop then []
        else (s.extent.map fun v => (⟨s.x, v.1, s.width, v.2 - v.1⟩ : Rect)).toList⟩ := by
  intro origin
  have hpos : 0 < z := by
    unfold viewportCaretSize at hz
    obtain ⟨⟨path, e⟩, -, h⟩ := M.bind_eq_ok.1 hz
    by_cases h0 : 0 < G.fontSize path
    · simp only [h0, decide_true, massert, if_true, M.ok_bind] at h
      cases h
      exact h0
    · simp only [h0, decide_false, massert, Bool.false_eq_true, if_false, M.error_bind] at h
      cases h
  refine ⟨_, by simp only [drawCaret, hs, hz, M.ok_bind]; rfl, ?_⟩
  have hx : s.x + (if decide (r.start ≤ r.stop) = true then s.width else 0) =
      if r.start ≤ r.stop then s.x + s.width else s.x := by
    simp only [decide_eq_true_eq]
    split
    · rfl
    · exact add_zero _
  have hy : s.baseline + z * (1 / 10) = s.baseline + z / 10 := by ring
  by_cases he : r.start = r.stop
  · rw [if_neg (not_not.2 he), if_pos he]
    simp only [CaretElement.onScreen, CaretElement.clearSelections, onScreen_line hpos, hx, hy,
      List.filterMap_nil]
  · rw [if_pos he, if_neg he]
    simp only [CaretElement.onScreen, CaretElement.clearSelections, CaretElement.addSelection,
      onScreen_line hpos, hx, hy, List.nil_append]
    congr 1
    cases s.extent with
    | none => rfl
    | some v =>
      simp only [Option.map_some, List.filterMap_cons, BoxStyle.onScreen, List.filterMap_nil,
        Option.toList_some, List.cons.injEq, Rect.mk.injEq, and_true]
      exact ⟨by linarith, by linarith⟩

/-- The picture of a selection of cells. -/
theorem pictured_grid {G : Geom} {root : RElem} {g : MinGridRange} {a b : Rect}
    (ha : viewportRowBounds G root (g.rowIndices ++ [(g.index, g.range.start)]) = .ok a)
    (hb : viewportRowBounds G root
      (g.rowIndices ++ [(g.index, max (g.range.stop - 1) g.range.start)]) = .ok b)
    (hw : 0 ≤ a.width) (hh : 0 ≤ a.height) :
    Pictured G root (.grid g) ⟨none, [⟨min a.x b.x, min a.y b.y,
      max a.right b.right - min a.x b.x, max a.bottom b.bottom - min a.y b.y⟩]⟩ := by
  intro origin
  refine ⟨_, by simp only [drawCaret, ha, hb, M.ok_bind]; rfl, ?_⟩
  have hx : min a.x b.x ≤ max (a.x + a.width) (b.x + b.width) :=
    (min_le_left _ _).trans ((by linarith : a.x ≤ a.x + a.width).trans (le_max_left _ _))
  have hy : min a.y b.y ≤ max (a.y + a.height) (b.y + b.height) :=
    (min_le_left _ _).trans ((by linarith : a.y ≤ a.y + a.height).trans (le_max_left _ _))
  simp only [CaretElement.onScreen, CaretElement.setHeight, CaretElement.addSelection,
    CaretElement.clearSelections, CaretElement.new, LineStyle.onScreen, le_refl, decide_true, if_true,
    joinRectangles, min_eq_left hx, min_eq_left hy, add_zero, max_eq_right hx, max_eq_right hy,
    Option.map_some, List.nil_append, List.filterMap_cons, BoxStyle.onScreen, List.filterMap_nil,
    Visible.mk.injEq, List.cons.injEq, Rect.mk.injEq, Rect.right, Rect.bottom, and_true, true_and]
  refine ⟨by linarith, by linarith⟩

theorem isAround_union {a b : Rect} : Rect.IsAround ⟨min a.x b.x, min a.y b.y,
    max a.right b.right - min a.x b.x, max a.bottom b.bottom - min a.y b.y⟩ a b := by
  refine ⟨⟨min_le_left _ _, ?_, min_le_left _ _, ?_⟩, ⟨min_le_right _ _, ?_, min_le_right _ _, ?_⟩, ?_⟩
  · simp only [Rect.right, add_sub_cancel]; exact le_max_left _ _
  · simp only [Rect.bottom, add_sub_cancel]; exact le_max_left _ _
  · simp only [Rect.right, add_sub_cancel]; exact le_max_right _ _
  · simp only [Rect.bottom, add_sub_cancel]; exact le_max_right _ _
  · rintro r ⟨h1, h2, h3, h4⟩ ⟨g1, g2, g3, g4⟩
    refine ⟨le_min h1 g1, ?_, le_min h3 g3, ?_⟩
    · simp only [Rect.right, add_sub_cancel] at *; exact max_le h2 g2
    · simp only [Rect.bottom, add_sub_cancel] at *; exact max_le h4 g4

/-- Intervals that follow each other. -/
theorem intervals_lt {X W : Nat → ℚ} (h : ∀ c, 0 < W c ∧ X c + W c ≤ X (c + 1)) {i j : Nat}
    (hij : i < j) : X i + W i ≤ X j := by
  induction j with
  | zero => omega
  | succ j ih =>
    rcases Nat.lt_or_ge i j with hlt | hge
    · have := ih hlt
      linarith [(h j).1, (h j).2]
    · obtain rfl : i = j := by omega
      exact (h i).2

/-- The interval from the beginning of one to the end of the other of two intervals. -/
theorem intervals_span {X W : Nat → ℚ} (h : ∀ c, 0 < W c ∧ X c + W c ≤ X (c + 1)) {i j k : Nat} :
    ((min i j ≤ k ∧ k ≤ max i j) → min (X i) (X j) ≤ X k ∧ X k + W k ≤ max (X i + W i) (X j + W j)) ∧
    (k < min i j → X k + W k ≤ min (X i) (X j)) ∧
    (max i j < k → max (X i + W i) (X j + W j) ≤ X k) := by
  have mono : ∀ {i j : Nat}, i ≤ j → X i ≤ X j ∧ X i + W i ≤ X j + W j := by
    intro i j hij
    rcases Nat.lt_or_ge i j with hlt | hge
    · have := intervals_lt h hlt
      exact ⟨by linarith [(h i).1], by linarith [(h j).1]⟩
    · obtain rfl : i = j := by omega
      exact ⟨le_refl _, le_refl _⟩
  refine ⟨?_, ?_, ?_⟩
  · rintro ⟨h1, h2⟩
    rcases Nat.le_total i j with hij | hij
    · rw [Nat.min_eq_left hij] at h1
      rw [Nat.max_eq_right hij] at h2
      exact ⟨(min_le_left _ _).trans (mono h1).1, (mono h2).2.trans (le_max_right _ _)⟩
    · rw [Nat.min_eq_right hij] at h1
      rw [Nat.max_eq_left hij] at h2
      exact ⟨(min_le_right _ _).trans (mono h1).1, (mono h2).2.trans (le_max_left _ _)⟩
  · intro hk
    exact le_min (intervals_lt h (by omega)) (intervals_lt h (by omega))
  · intro hk
    exact max_le (intervals_lt h (by omega)) (intervals_lt h (by omega))

end Aftermath
