import Verif.Proof.Step

/-! # Arrow keys on carets: totality and validity -/

namespace Aftermath

theorem move_right_total {root : Row} (hwf : rowWf root = true) (cfg : Cfg) {p : Position}
    (hp : p.In root) : ∃ o, moveCaretInternal cfg p .right = .ok o ∧ ∀ x, o = some x → x.In root := by
  obtain ⟨f, k⟩ := p
  obtain ⟨⟨path, hf⟩, hk⟩ := hp
  simp only at hf hk
  by_cases hlt : k < f.row.length
  · have hn := List.getElem?_eq_getElem hlt
    generalize f.row[k] = n at hn
    cases n with
    | symbol s =>
      exact ⟨_, move_right_symbol hn, by rintro x ⟨⟩; exact ⟨⟨_, hf⟩, hlt⟩⟩
    | container v cells w =>
      obtain ⟨f', h1, h2, -⟩ := move_right_enter hwf hf (cfg := cfg) hn
      exact ⟨_, h1, by rintro x ⟨⟩; exact ⟨⟨_, h2⟩, Nat.zero_le _⟩⟩
  · have : k = f.row.length := by omega
    subst this
    cases path using List.reverseRecOn with
    | nil => exact ⟨_, move_right_root hf, by rintro x ⟨⟩⟩
    | append_singleton path ix =>
      obtain ⟨i, j⟩ := ix
      obtain ⟨g, v, cells, w, hg, hi, -, -, -⟩ := hf.parent_snoc
      by_cases hj : j + 1 < cells.length
      · obtain ⟨f', h1, h2, -⟩ := move_right_next hwf (cfg := cfg) hf hg hi
          (List.getElem?_eq_getElem hj)
        exact ⟨_, h1, by rintro x ⟨⟩; exact ⟨⟨_, h2⟩, Nat.zero_le _⟩⟩
      · exact ⟨_, move_right_leave hwf (cfg := cfg) hf hg hi (by omega),
          by rintro x ⟨⟩; exact ⟨⟨_, hg⟩, (List.getElem?_eq_some_iff.1 hi).1⟩⟩

theorem move_left_total {root : Row} (hwf : rowWf root = true) (cfg : Cfg)
    (hcfg : cfg.checks = false → rowFits cfg.bits root = true) {p : Position} (hp : p.In root) :
    (cfg.checks = true ∧ AtFirstCellStart p.toMinimal ∧
      moveCaretInternal cfg p .left = .error .overflow) ∨
    ((cfg.checks = true → ¬ AtFirstCellStart p.toMinimal) ∧
      ∃ o, moveCaretInternal cfg p .left = .ok o ∧ ∀ x, o = some x → x.In root) := by
  obtain ⟨f, k⟩ := p
  obtain ⟨⟨path, hf⟩, hk⟩ := hp
  simp only at hf hk
  have hri := hf.rowIndices_eq
  simp only [Position.toMinimal, hri]
  cases k with
  | succ k =>
    right
    refine ⟨fun _ h => by simpa using h.1, ?_⟩
    have hlt : k < f.row.length := by omega
    have hn := List.getElem?_eq_getElem hlt
    generalize f.row[k] = n at hn
    cases n with
    | symbol s =>
      exact ⟨_, move_left_symbol hn, by rintro x ⟨⟩; exact ⟨⟨_, hf⟩, Nat.le_of_lt hlt⟩⟩
    | container v cells w =>
      obtain ⟨f', h1, h2, -⟩ := move_left_enter hwf hf (cfg := cfg) hn
      exact ⟨_, h1, by rintro x ⟨⟩; exact ⟨⟨_, h2⟩, Nat.le_refl _⟩⟩
  | zero =>
    cases path using List.reverseRecOn with
    | nil =>
      right
      refine ⟨?_, _, move_left_root hf, by rintro x ⟨⟩⟩
      rintro - ⟨-, q, k, h⟩
      simp at h
    | append_singleton path ix =>
      obtain ⟨i, j⟩ := ix
      obtain ⟨g, v, cells, w, hg, hi, hcell, -, -⟩ := hf.parent_snoc
      cases j with
      | succ j =>
        right
        have hj : j < cells.length := by
          have := (List.getElem?_eq_some_iff.1 hcell).1; omega
        obtain ⟨f', h1, h2, -⟩ := move_left_next hwf (cfg := cfg) hf hg hi
          (List.getElem?_eq_getElem hj)
        refine ⟨?_, _, h1, by rintro x ⟨⟩; exact ⟨⟨_, h2⟩, Nat.le_refl _⟩⟩
        rintro - ⟨-, q, k, h⟩
        have := (List.append_inj' h rfl).2
        simp at this
      | zero =>
        cases hck : cfg.checks with
        | true => exact Or.inl ⟨rfl, ⟨rfl, path, i, rfl⟩, move_left_leave_checked hck hf⟩
        | false =>
          refine Or.inr ⟨fun h => (by cases h), _,
            move_left_leave_unchecked hwf hck (hcfg hck) hf hg, ?_⟩
          rintro x ⟨⟩
          have := (List.getElem?_eq_some_iff.1 hi).1
          exact ⟨⟨_, hg⟩, Nat.le_of_lt this⟩

theorem moveVertical_total {root : Row} (hwf : rowWf root = true) (cfg : Cfg) (d : VDir)
    {path : RowIndices} {f : FocusRow} (hf : IsFocus root path f) :
    ∃ o, moveVertical cfg f d = .ok o ∧ ∀ x, o = some x → x.In root := by
  induction path using List.reverseRecOn generalizing f with
  | nil => exact ⟨_, moveVertical_root hf d, by rintro x ⟨⟩⟩
  | append_singleton path ix ih =>
    obtain ⟨i, j⟩ := ix
    obtain ⟨g, v, cells, w, hg, hi, hcell, -, -⟩ := hf.parent_snoc
    have hlt := (List.getElem?_eq_some_iff.1 hi).1
    cases hv : scriptExit d v with
    | true =>
      refine ⟨some ⟨g, i⟩, ?_, by rintro x ⟨⟩; exact ⟨⟨_, hg⟩, Nat.le_of_lt hlt⟩⟩
      cases v <;> cases d <;> simp [scriptExit] at hv
      · exact moveVertical_sup hf hg hi
      · exact moveVertical_sub hf hg hi
    | false =>
      have h := moveVertical_general hwf (cfg := cfg) hf hg hi hv
      split at h
      · obtain ⟨f', h1, h2, -⟩ := h
        refine ⟨_, h1, ?_⟩
        rintro x ⟨⟩
        refine ⟨⟨_, h2⟩, ?_⟩
        cases d
        · exact Nat.le_refl _
        · exact Nat.zero_le _
      · rw [h]; exact ih hg

/-- All arrow keys on a position. -/
theorem moveCaretInternal_total {root : Row} (hwf : rowWf root = true) (cfg : Cfg)
    (hcfg : cfg.checks = false → rowFits cfg.bits root = true) {p : Position} (hp : p.In root)
    (d : Dir) :
    (cfg.checks = true ∧ d = .left ∧ AtFirstCellStart p.toMinimal ∧
      moveCaretInternal cfg p d = .error .overflow) ∨
    (¬ (cfg.checks = true ∧ d = .left ∧ AtFirstCellStart p.toMinimal) ∧
      ∃ o, moveCaretInternal cfg p d = .ok o ∧ ∀ x, o = some x → x.In root) := by
  cases d with
  | left =>
    rcases move_left_total hwf cfg hcfg hp with h | h
    · exact Or.inl ⟨h.1, rfl, h.2.1, h.2.2⟩
    · exact Or.inr ⟨fun h' => h.1 h'.1 h'.2.2, h.2⟩
  | right => exact Or.inr ⟨fun h => (by cases h.2.1), move_right_total hwf cfg hp⟩
  | up =>
    obtain ⟨⟨path, hf⟩, -⟩ := hp
    exact Or.inr ⟨fun h => (by cases h.2.1), moveVertical_total hwf cfg .up hf⟩
  | down =>
    obtain ⟨⟨path, hf⟩, -⟩ := hp
    exact Or.inr ⟨fun h => (by cases h.2.1), moveVertical_total hwf cfg .down hf⟩

/-- A caret of the tree, with the selection that belongs to its two ends. -/
def Caret.In (root : Row) (c : Caret) : Prop :=
  c.start.In root ∧ c.stop.In root ∧ Selection.fromPositions root c.start c.stop = .ok c.selection

theorem Caret.fromMinimal_valid {root : Row} (hwf : rowWf root = true) {m : MinCaret}
    (h : ValidCaret root m) : ∃ c, Caret.fromMinimal root m = .ok c ∧ c.In root ∧
      c.toMinimal = m := by
  obtain ⟨a, ha1, ha2, ha3, -⟩ := Position.fromMinimal_valid hwf h.1
  obtain ⟨b, hb1, hb2, hb3, -⟩ := Position.fromMinimal_valid hwf h.2
  obtain ⟨sel, hsel⟩ := fromPositions_total hwf ha2 hb2
  refine ⟨⟨a, b, sel⟩, ?_, ⟨ha2, hb2, hsel⟩, ?_⟩
  · simp [Caret.fromMinimal, ha1, hb1, Caret.new, hsel]
  · simp [Caret.toMinimal, ha3, hb3]

theorem Caret.fromMinimal_sound {root : Row} {m : MinCaret} {c : Caret}
    (h : Caret.fromMinimal root m = .ok c) : c.In root ∧ c.toMinimal = m := by
  unfold Caret.fromMinimal at h
  obtain ⟨a, ha, h1⟩ := M.bind_eq_ok.1 h
  obtain ⟨b, hb, h2⟩ := M.bind_eq_ok.1 h1
  unfold Caret.new at h2
  obtain ⟨s, hs, h3⟩ := M.bind_eq_ok.1 h2
  cases h3
  obtain ⟨ha1, ha2, -⟩ := Position.fromMinimal_sound ha
  obtain ⟨hb1, hb2, -⟩ := Position.fromMinimal_sound hb
  exact ⟨⟨ha1, hb1, hs⟩, by simp [Caret.toMinimal, ha2, hb2]⟩

theorem Caret.In.valid {root : Row} {c : Caret} (h : c.In root) : ValidCaret root c.toMinimal :=
  ⟨h.1.valid, h.2.1.valid⟩

/-- The collapsed caret on a position. -/
def Caret.collapsed (p : Position) : Caret := ⟨p, p, .row (RowRange.ofPosition p)⟩

theorem fromPositions_collapsed {root : Row} (hwf : rowWf root = true) {p : Position}
    (hp : p.In root) : Selection.fromPositions root p p = .ok (.row (RowRange.ofPosition p)) := by
  obtain ⟨f, o⟩ := p
  obtain ⟨⟨path, hf⟩, ho⟩ := hp
  exact fromPositions_same_row hwf hf ho ho

theorem Caret.collapsed_in {root : Row} (hwf : rowWf root = true) {p : Position}
    (hp : p.In root) : (Caret.collapsed p).In root :=
  ⟨hp, hp, fromPositions_collapsed hwf hp⟩

theorem Caret.In.collapsed_eq {root : Row} (hwf : rowWf root = true) {c : Caret} (h : c.In root)
    (he : c.start.toMinimal = c.stop.toMinimal) : c = Caret.collapsed c.start := by
  obtain ⟨h1, h2, h3⟩ := h
  have := h1.ext h2 he
  obtain ⟨a, b, s⟩ := c
  simp only at this h1 h3
  subst this
  rw [fromPositions_collapsed hwf h1] at h3
  cases h3; rfl

theorem setSelection_ofPosition {root : Row} (hwf : rowWf root = true) {p : Position}
    (hp : p.In root) (c : Caret) :
    c.setSelection root (RowRange.ofPosition p) = .ok (Caret.collapsed p) := by
  have := fromPositions_collapsed hwf hp
  obtain ⟨f, o⟩ := p
  simp only [Caret.setSelection, RowRange.startPosition, RowRange.endPosition, RowRange.ofPosition]
  simp only [RowRange.ofPosition] at this
  rw [this]
  rfl

/-- The row range of a selection lies in the tree. -/
theorem selection_row_in {root : Row} (hwf : rowWf root = true) {a b : Position}
    (ha : a.In root) (hb : b.In root) {r : RowRange}
    (h : Selection.fromPositions root a b = .ok (.row r)) : r.In root := by
  obtain ⟨⟨pa, hpa⟩, hoa⟩ := ha
  obtain ⟨⟨pb, hpb⟩, hob⟩ := hb
  obtain ⟨s, a', b', g, rfl, rfl, -, hd, hg⟩ := split_paths hpa hpb
  rcases fromPositions_ok hwf hpa hpb hoa hob hd hg with h' | h'
  · obtain ⟨_, _, _, _, _, _, _, _, _, _, _, _, _, h'⟩ := h'
    rw [h] at h'; cases h'
  · rw [h] at h'
    obtain ⟨-, h'⟩ := h'
    cases h'
    exact ⟨⟨_, hg⟩, spanStart_le _ hg hpa hoa, spanStop_le _ hg hpb hob⟩

theorem RowRange.In.left {root : Row} {r : RowRange} (h : r.In root) :
    r.leftPosition.In root := by
  refine ⟨h.1, ?_⟩
  simp only [RowRange.leftPosition, RowRange.leftOffset]
  split
  · exact h.2.1
  · exact h.2.2

theorem RowRange.In.right {root : Row} {r : RowRange} (h : r.In root) :
    r.rightPosition.In root := by
  refine ⟨h.1, ?_⟩
  simp only [RowRange.rightPosition, RowRange.rightOffset]
  split
  · exact h.2.2
  · exact h.2.1

end Aftermath
