import Verif.Proof.CaretMove

/-! # Arrow key presses on minimal carets -/

namespace Aftermath

/-- The end of a range from which an arrow key starts. -/
def RowRange.edge (r : RowRange) : Dir → Position
  | .left | .up => r.leftPosition
  | .right | .down => r.rightPosition

theorem RowRange.edge_ofPosition (p : Position) (d : Dir) : (RowRange.ofPosition p).edge d = p := by
  cases d <;> simp [RowRange.edge, RowRange.leftPosition, RowRange.rightPosition,
    RowRange.leftOffset, RowRange.rightOffset, RowRange.isForwards, RowRange.ofPosition]

theorem RowRange.In.edge {root : Row} {r : RowRange} (h : r.In root) (d : Dir) :
    (r.edge d).In root := by
  cases d
  exacts [h.left, h.right, h.left, h.right]

theorem moveCaretRange_char (cfg : Cfg) (r : RowRange) (d : Dir) :
    moveCaretRange cfg r d .char = (do
      let o ← moveCaretInternal cfg (r.edge d) d
      .ok (o.or (if r.isCollapsed then none else some (r.edge d)))) := by
  cases d <;>
  · simp only [moveCaretRange, RowRange.edge, ne_eq, not_true_eq_false, if_false]
    congr 1
    funext o
    cases o
    · cases r.isCollapsed <;> rfl
    · rfl

theorem collapsed_of_minimal {root : Row} (hwf : rowWf root = true) {p : Position}
    (hp : p.In root) : Caret.fromMinimal root (.at p.toMinimal) = .ok (Caret.collapsed p) := by
  obtain ⟨c, hc, hin, hm⟩ := Caret.fromMinimal_valid (m := .at p.toMinimal) hwf
    ⟨hp.valid, hp.valid⟩
  have hm' : c.start.toMinimal = p.toMinimal ∧ c.stop.toMinimal = p.toMinimal := by
    simpa [Caret.toMinimal, MinCaret.at] using hm
  have := hin.collapsed_eq hwf (hm'.1.trans hm'.2.symm)
  rw [hin.1.ext hp hm'.1] at this
  rw [hc, this]

/-- One press on a collapsed caret, in terms of the primitive move. -/
theorem press_collapsed {root : Row} (hwf : rowWf root = true) (cfg : Cfg) (d : Dir)
    {p : Position} (hp : p.In root) :
    press cfg root d (.at p.toMinimal) = (do
      let o ← moveCaretInternal cfg p d
      match o with
      | some x => do
        let c ← (Caret.collapsed p).setSelection root (RowRange.ofPosition x)
        .ok c.toMinimal
      | none => .ok (.at p.toMinimal)) := by
  simp only [press, collapsed_of_minimal hwf hp, M.ok_bind, moveCaret, Caret.collapsed,
    moveCaretRange_char, RowRange.edge_ofPosition]
  cases moveCaretInternal cfg p d with
  | error e => rfl
  | ok o =>
    cases o with
    | none => simp [RowRange.ofPosition, RowRange.isCollapsed, Caret.toMinimal, MinCaret.at]
    | some x => rfl

theorem press_at {root : Row} (hwf : rowWf root = true) (cfg : Cfg) (d : Dir) {p : Position}
    (hp : p.In root) {o : Option Position} (h : moveCaretInternal cfg p d = .ok o)
    (ho : ∀ x, o = some x → x.In root) :
    press cfg root d (.at p.toMinimal) = .ok (.at ((o.map Position.toMinimal).getD p.toMinimal)) := by
  rw [press_collapsed hwf cfg d hp, h]
  cases o with
  | none => rfl
  | some x =>
    simp only [M.ok_bind]
    rw [setSelection_ofPosition hwf (ho x rfl)]
    rfl

theorem press_error {root : Row} (hwf : rowWf root = true) (cfg : Cfg) (d : Dir) {p : Position}
    (hp : p.In root) {e : Panic} (h : moveCaretInternal cfg p d = .error e) :
    press cfg root d (.at p.toMinimal) = .error e := by
  rw [press_collapsed hwf cfg d hp, h]
  rfl

theorem press_right_step {root : Row} (hwf : rowWf root = true) (cfg : Cfg) {a b : MinPos}
    (ha : ValidPos root a) (hs : Step root a b) :
    press cfg root .right (.at a) = .ok (.at b) := by
  obtain ⟨p, -, hin, rfl, hf⟩ := Position.fromMinimal_valid hwf ha
  obtain ⟨fb, h1, h2, h3⟩ := move_right_step hwf hs (p := []) (fa := p.focus) cfg .root rfl
    (by simpa [MinPos.underPath] using hf)
  have hb : (⟨fb, b.offset⟩ : Position).toMinimal = b := by
    have := h2.rowIndices_eq
    simp only [MinPos.underPath, List.nil_append] at this
    simp [Position.toMinimal, this]
  have := press_at hwf cfg .right hin h1 (by rintro x ⟨⟩; exact ⟨⟨_, h2⟩, h3⟩)
  simpa [hb] using this

theorem press_left_step {root : Row} (hwf : rowWf root = true) (cfg : Cfg)
    (hcfg : cfg.checks = false → rowFits cfg.bits root = true) {a b : MinPos}
    (hb : ValidPos root b) (hs : Step root a b) :
    (cfg.checks = true ∧ AtFirstCellStart b ∧
      press cfg root .left (.at b) = .error .overflow) ∨
    ((cfg.checks = true → ¬ AtFirstCellStart b) ∧
      press cfg root .left (.at b) = .ok (.at a)) := by
  obtain ⟨p, -, hin, rfl, hf⟩ := Position.fromMinimal_valid hwf hb
  rcases move_left_step hwf hs (p := []) (fb := p.focus) cfg hcfg .root rfl
    (by simpa [MinPos.underPath] using hf) with ⟨h1, h2, h3⟩ | ⟨h0, fa, h1, h2, h3⟩
  · exact Or.inl ⟨h1, h2, press_error hwf cfg .left hin h3⟩
  · refine Or.inr ⟨h0, ?_⟩
    have ha : (⟨fa, a.offset⟩ : Position).toMinimal = a := by
      have := h2.rowIndices_eq
      simp only [MinPos.underPath, List.nil_append] at this
      simp [Position.toMinimal, this]
    have := press_at hwf cfg .left hin h1 (by rintro x ⟨⟩; exact ⟨⟨_, h2⟩, h3⟩)
    simpa [ha] using this

theorem positions_step {root : Row} (hwf : rowWf root = true) {i : Nat} {a b : MinPos}
    (ha : (positions root)[i]? = some a) (hb : (positions root)[i + 1]? = some b) :
    Step root a b := by
  obtain ⟨hi, rfl⟩ := List.getElem?_eq_some_iff.1 ha
  obtain ⟨hj, rfl⟩ := List.getElem?_eq_some_iff.1 hb
  exact List.isChain_iff_getElem.1 (positions_chain hwf) i hj

theorem positions_first (root : Row) : (positions root)[0]? = some ⟨[], 0⟩ := by
  have := rowPositions_head 0 root
  rwa [List.head?_eq_getElem?] at this

theorem positions_last (root : Row) :
    (positions root)[(positions root).length - 1]? = some ⟨[], root.length⟩ := by
  have := rowPositions_last 0 root
  rw [List.getLast?_eq_getElem?] at this
  simpa [positions] using this

theorem positions_nodup (root : Row) : (positions root).Nodup := by
  refine (rowPositions_sorted 0 root).imp fun {a b} h hab => ?_
  subst hab
  rw [MinPos.cmp, cmp_eq.2 ⟨rfl, rfl⟩] at h
  cases h

end Aftermath
