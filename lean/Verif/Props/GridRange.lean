import Verif.Props.Position

/-! # C14: ranges of grid cells -/

namespace Aftermath

/-- C14: a grid range at any node of a navigated row survives the round trip. -/
theorem C14_grid_roundtrip {root : Row} {r : GridRange} (h : Nav root r.focus.parent)
    (hn : r.focus.parent.childAt r.focus.indexInParent = some r.focus) :
    GridRange.fromMinimal (.fromRoot root) r.toMinimal = .ok r := by
  unfold GridRange.fromMinimal GridRange.toMinimal
  simp only [(C14_navigation h).1, M.ok_bind, hn, munwrap_some]

/-- C14: a minimal grid range is found exactly if its node exists. Then the range is at that node,
and has the same minimal form. -/
theorem C14_grid_roundtrip' {root : Row} {m : MinGridRange} (hwf : rowWf root = true) :
    (∀ row n, rowAt root m.rowIndices = some row → row[m.index]? = some n →
      ∃ r, GridRange.fromMinimal (.fromRoot root) m = .ok r ∧ r.focus.node = n ∧
        r.focus.parent.row = row ∧ r.toMinimal = m) ∧
    ((∀ row, rowAt root m.rowIndices = some row → row[m.index]? = none) →
      ∃ e, GridRange.fromMinimal (.fromRoot root) m = .error e) := by
  constructor
  · intro row n hrow hn
    obtain ⟨f, hf, hi, rfl⟩ := C14_walk_down hwf hrow
    refine ⟨⟨⟨n, f, m.index⟩, m.range⟩, ?_, rfl, rfl, ?_⟩
    · simp only [GridRange.fromMinimal, hf, M.ok_bind, FocusRow.childAt, hn, munwrap_some]
    · simp only [GridRange.toMinimal, hi]
  · intro h
    cases hr : rowAt root m.rowIndices with
    | none =>
      obtain ⟨e, he⟩ := C14_walk_down_invalid hr
      exact ⟨e, by simp only [GridRange.fromMinimal, he, M.error_bind]⟩
    | some row =>
      obtain ⟨f, hf, -, rfl⟩ := C14_walk_down hwf hr
      have hn := h _ hr
      exact ⟨_, by
        simp only [GridRange.fromMinimal, hf, M.ok_bind, FocusRow.childAt, hn]
        rfl⟩

/-- The second row of a table, behind a symbol. -/
example : ((GridRange.fromMinimal (.fromRoot [.symbol ['x'], .container .table [[], [], [], []] 2])
      ⟨[], 1, ⟨2, 4, 2⟩⟩).map fun r => (r.focus.node, r.toMinimal)) =
    .ok (.container .table [[], [], [], []] 2, ⟨[], 1, ⟨2, 4, 2⟩⟩) := by
  decide +kernel

end Aftermath
