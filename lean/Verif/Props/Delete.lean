import Verif.Proof.Symbols

/-! # Property theorems C15–C19 (and C33): deleting and typing -/

namespace Aftermath

theorem RowRange.leftOffset_min (r : RowRange) : r.leftOffset = min r.start r.stop := by
  unfold RowRange.leftOffset RowRange.isForwards; simp; split <;> omega

theorem RowRange.rightOffset_max (r : RowRange) : r.rightOffset = max r.start r.stop := by
  unfold RowRange.rightOffset RowRange.isForwards; simp; split <;> omega

theorem selectionOf_row {root : Row} (hwf : rowWf root = true) {m : MinCaret} {rng : MinRange}
    (h : selectionOf root m = .ok (.row rng)) :
    ∃ c r, Caret.fromMinimal root m = .ok c ∧ c.selection = .row r ∧ r.toMinimal = rng ∧
      IsFocus root rng.rowIndices r.focus ∧
      (r.start ≤ r.focus.row.length ∧ r.stop ≤ r.focus.row.length) := by
  obtain ⟨c, hc, h1⟩ := M.bind_eq_ok.1 h
  obtain ⟨hin, -⟩ := Caret.fromMinimal_sound hc
  cases hs : c.selection with
  | grid g => rw [hs] at h1; cases h1
  | row r =>
    rw [hs] at h1
    cases h1
    have hr : r.In root := selection_row_in hwf hin.1 hin.2.1 (hin.2.2.trans (by rw [hs]))
    obtain ⟨⟨q, hf⟩, hb⟩ := hr
    refine ⟨c, r, hc, hs, rfl, ?_, hb⟩
    rw [show r.toMinimal.rowIndices = q from hf.rowIndices_eq]
    exact hf

/-- A collapsed caret selects the empty range at its position. -/
theorem selectionOf_at {root : Row} (hwf : rowWf root = true) {m : MinPos} (hm : ValidPos root m) :
    selectionOf root (.at m) = .ok (.row ⟨m.rowIndices, m.offset, m.offset⟩) := by
  obtain ⟨p, -, hin, rfl, -⟩ := Position.fromMinimal_valid hwf hm
  simp only [selectionOf, collapsed_of_minimal hwf hin, M.ok_bind]
  rfl

/-! ## C15 -/

/-- C15: with a non-empty row selection every removal mode removes exactly the selected nodes
and puts the caret, collapsed, on the left end; the position is valid. -/
theorem C15_delete_selection {root : Row} (hwf : rowWf root = true) (cfg : Cfg) (mode : RemoveMode)
    {m : MinCaret} {rng : MinRange} (hsel : selectionOf root m = .ok (.row rng))
    (hne : rng.start ≠ rng.stop) :
    ∃ row root', rowAt root rng.rowIndices = some row ∧
      deleteKey cfg mode (root, m) =
        .ok (root', .at ⟨rng.rowIndices, min rng.start rng.stop⟩) ∧
      ReplacedAt root rng.rowIndices row
        (row.take (min rng.start rng.stop) ++ row.drop (max rng.start rng.stop)) root' ∧
      rowWf root' = true ∧ ValidPos root' ⟨rng.rowIndices, min rng.start rng.stop⟩ := by
  obtain ⟨c, r, hc, hs, rfl, hf, hb⟩ := selectionOf_row hwf hsel
  have hl := r.leftOffset_min
  have hrr := r.rightOffset_max
  obtain ⟨root', h1, h2⟩ := delete_ok (cfg := cfg) hwf hf.rowAt_eq r.left_le_right
    (RowRange.right_le hb)
  rw [hl, hrr] at h1 h2
  refine ⟨r.focus.row, root', hf.rowAt_eq, ?_, h2, ?_, ?_⟩
  · have hcol : r.isCollapsed = false := by simpa [RowRange.isCollapsed, RowRange.toMinimal] using hne
    have := removeRange_eq hf hb
    rw [hl, hrr] at this
    simp only [deleteKey, hc, hs, M.ok_bind, removeAtCaret, hcol, Bool.not_false, if_true, this,
      applyEdits, h1]
    rfl
  · refine h2.wf hwf ?_
    have := rowAt_wf hwf hf.rowAt_eq
    rw [rowWf_append, rowWf_take this, rowWf_drop this]; rfl
  · refine ⟨_, h2.rowAt_new, ?_⟩
    have := RowRange.right_le hb
    rw [hrr] at this
    simp only [RowRange.toMinimal, List.length_append, List.length_take, List.length_drop]
    omega

/-- A backwards selection that starts inside a fraction removes the whole fraction. -/
example : selectionOf [.symbol ['a'], .fraction [] [.symbol ['b']], .symbol ['c']]
      ⟨⟨[(1, 1)], 1⟩, ⟨[], 1⟩⟩ = .ok (.row ⟨[], 2, 1⟩) ∧
    deleteKey .dev .left ([.symbol ['a'], .fraction [] [.symbol ['b']], .symbol ['c']],
      ⟨⟨[(1, 1)], 1⟩, ⟨[], 1⟩⟩) = .ok ([.symbol ['a'], .symbol ['c']], .at ⟨[], 1⟩) := by
  decide +kernel

/-! ## C16 and C17 for a collapsed caret -/

/-- C16: Backspace and Delete with a collapsed caret. In a build with overflow checks they panic
exactly at the edges of the root row and (Backspace only) at the start of the first cell of a
non-script container with content. Otherwise the formula stays as it is, or exactly the symbol
next to the caret is removed, or one container is dissolved: the one the caret is in, or the
script right of the caret. The caret is collapsed and valid in the new formula. -/
theorem C16_delete_key {root : Row} (hwf : rowWf root = true) (cfg : Cfg)
    (hcfg : cfg.checks = false → rowFits cfg.bits root = true) (dir : HDir) {m : MinPos}
    (hm : ValidPos root m) :
    (cfg.checks = true ∧ DeletePanics root dir m ∧
      deleteKey cfg dir.toMode (root, .at m) = .error .overflow) ∨
    (¬ (cfg.checks = true ∧ DeletePanics root dir m) ∧
      ∃ root' m', deleteKey cfg dir.toMode (root, .at m) = .ok (root', .at m') ∧
        rowWf root' = true ∧ ValidPos root' m' ∧
        (-- only the caret moves
         root' = root ∨
         -- the adjacent symbol is removed
         (∃ k, m.offset = (match dir with | .left => k + 1 | .right => k) ∧
           SymbolRemoved root m.rowIndices k root' ∧ m' = ⟨m.rowIndices, k⟩) ∨
         -- the container around the caret, or the script right of it, is dissolved
         (∃ p i cells, Dissolved root p i cells root' ∧
           (∃ k, k ≤ cells.flatten.length ∧ m' = ⟨p, i + k⟩) ∧
           ((∃ j, m.rowIndices = p ++ [(i, j)]) ∨ (dir = .right ∧ m = ⟨p, i⟩))))) := by
  obtain ⟨⟨f, o⟩, -, hin, rfl, hf⟩ := Position.fromMinimal_valid hwf hm
  have ho : o ≤ f.row.length := hin.2
  have hri := hf.rowIndices_eq
  simp only [Position.toMinimal] at hri hf hm ⊢
  have hc := collapsed_of_minimal hwf hin
  simp only [Position.toMinimal] at hc
  have hstart : deleteKey cfg dir.toMode (root, .at ⟨f.rowIndices, o⟩) = (do
      match ← removeAtCaretPosition cfg ⟨f, o⟩ dir with
      | none => .ok (root, .at ⟨f.rowIndices, o⟩)
      | some (edits, p) => do
        let root' ← applyEdits cfg root edits
        .ok (root', .at p)) := by
    simp only [deleteKey, hc, M.ok_bind, Caret.collapsed]
    cases dir <;> simp [removeAtCaret, RowRange.ofPosition, RowRange.isCollapsed, HDir.toMode,
      RowRange.startPosition] <;> rfl
  rcases removeAtCaretPosition_cases hwf cfg hcfg hf ho dir with ⟨h1, h2, h3⟩ | ⟨h1, x, h2, h3⟩
  · left
    exact ⟨h1, h2, by rw [hstart, h3]; rfl⟩
  · right
    refine ⟨h1, ?_⟩
    rw [hstart, h2]
    simp only [M.ok_bind]
    cases h3 with
    | nothing h => exact ⟨root, _, rfl, hwf, hm, Or.inl rfl⟩
    | moved hx => exact ⟨root, _, rfl, hwf, hx.valid, Or.inl rfl⟩
    | @symbol row k s hrow hk hs =>
      have hlt := (List.getElem?_eq_some_iff.1 hs).1
      obtain ⟨root', h4, h5⟩ := delete_ok (cfg := cfg) hwf hrow (Nat.le_succ k) hlt
      refine ⟨root', _, by simp only [applyEdits, h4, M.ok_bind], ?_, ?_,
        Or.inr (Or.inl ⟨k, by cases dir <;> exact hk, ⟨row, s, hrow, hs, h5⟩, rfl⟩)⟩
      · refine h5.wf hwf ?_
        have := rowAt_wf hwf hrow
        rw [rowWf_append, rowWf_take this, rowWf_drop this]; rfl
      · refine ⟨_, h5.rowAt_new, ?_⟩
        simp only [List.length_append, List.length_take, List.length_drop]
        omega
    | @flatten p row i k v cells w hrow hi hk hp =>
      have hlt := (List.getElem?_eq_some_iff.1 hi).1
      obtain ⟨root', h4, h5⟩ := replace_ok (cfg := cfg) cells.flatten hwf hrow (Nat.le_succ i) hlt
      refine ⟨root', _, by simp only [h4, M.ok_bind], ?_, ?_,
        Or.inr (Or.inr ⟨p, i, cells, ⟨row, v, w, hrow, hi, h5⟩, ⟨k, hk, rfl⟩, ?_⟩)⟩
      · refine h5.wf hwf ?_
        have hr := rowAt_wf hwf hrow
        have hn := wf_container.1 (rowWf_iff.1 hr _ (List.mem_of_getElem? hi))
        have hfl : rowWf cells.flatten = true := by
          refine rowWf_iff.2 fun n hn' => ?_
          obtain ⟨c, hc, hnc⟩ := List.mem_flatten.1 hn'
          exact rowWf_iff.1 (hn.2 c hc) n hnc
        rw [rowWf_append, rowWf_append, rowWf_take hr, rowWf_drop hr, hfl]; rfl
      · refine ⟨_, h5.rowAt_new, ?_⟩
        simp only [List.length_append, List.length_take, List.length_drop]
        omega
      · rcases hp with ⟨j, hj⟩ | ⟨h6, h7, h8, -⟩
        · exact Or.inl ⟨j, hj⟩
        · exact Or.inr ⟨h8, by rw [h6, h7]⟩

/-- C16: the symbols of the document afterwards are the old ones with at most one removed. -/
theorem C16_at_most_one_symbol {root root' : Row} (hwf : rowWf root = true) (cfg : Cfg)
    (hcfg : cfg.checks = false → rowFits cfg.bits root = true) (dir : HDir) {m : MinPos}
    {mc : MinCaret} (hm : ValidPos root m)
    (h : deleteKey cfg dir.toMode (root, .at m) = .ok (root', mc)) :
    rowSymbols root' = rowSymbols root ∨
      ∃ a s b, rowSymbols root = a ++ s :: b ∧ rowSymbols root' = a ++ b := by
  rcases C16_delete_key hwf cfg hcfg dir hm with ⟨-, -, h1⟩ | ⟨-, r, m', h1, -, -, h2⟩
  · rw [h] at h1; cases h1
  · rw [h] at h1
    cases h1
    rcases h2 with rfl | ⟨k, -, h2, -⟩ | ⟨p, i, cells, h2, -⟩
    · exact Or.inl rfl
    · exact Or.inr h2.symbols
    · exact Or.inl h2.symbols

/-- Backspace at the start of a denominator dissolves the fraction; the symbols stay. -/
example : deleteKey .dev .left ([.fraction [.symbol ['a']] [.symbol ['b']]], .at ⟨[(0, 1)], 0⟩) =
    .ok ([.symbol ['a'], .symbol ['b']], .at ⟨[], 1⟩) := by decide +kernel
/-- Delete before a superscript dissolves it. -/
example : deleteKey .dev .right ([.sup [.symbol ['b']]], .at ⟨[], 0⟩) =
    .ok ([.symbol ['b']], .at ⟨[], 0⟩) := by decide +kernel
/-- Backspace behind a fraction only moves into it. -/
example : deleteKey .dev .left ([.fraction [.symbol ['a']] [.symbol ['b']]], .at ⟨[], 1⟩) =
    .ok ([.fraction [.symbol ['a']] [.symbol ['b']]], .at ⟨[(0, 1)], 1⟩) := by decide +kernel

/-! ## C17 -/

/-- C17: whatever the row selection and the removal mode, the call panics only in the cases of
`DeletePanics` (collapsed caret, checks on), otherwise formula and caret afterwards are valid. -/
theorem C17_valid_after_delete {root : Row} (hwf : rowWf root = true) (cfg : Cfg)
    (hcfg : cfg.checks = false → rowFits cfg.bits root = true) (mode : RemoveMode)
    {m : MinCaret} {rng : MinRange} (hm : ValidCaret root m)
    (hsel : selectionOf root m = .ok (.row rng)) :
    (cfg.checks = true ∧ rng.start = rng.stop ∧
      (∃ dir, mode = HDir.toMode dir ∧ DeletePanics root dir ⟨rng.rowIndices, rng.start⟩) ∧
      deleteKey cfg mode (root, m) = .error .overflow) ∨
    ∃ root' m', deleteKey cfg mode (root, m) = .ok (root', m') ∧ rowWf root' = true ∧
      ValidCaret root' m' := by
  by_cases hne : rng.start = rng.stop
  · -- collapsed range
    obtain ⟨c, r, hc, hs, rfl, hf, hb⟩ := selectionOf_row hwf hsel
    have hcol : r.isCollapsed = true := by simpa [RowRange.isCollapsed, RowRange.toMinimal] using hne
    have hvalid : ValidPos root ⟨r.toMinimal.rowIndices, r.start⟩ :=
      ⟨r.focus.row, hf.rowAt_eq, hb.1⟩
    have hin : (⟨r.focus, r.start⟩ : Position).In root := ⟨⟨_, hf⟩, hb.1⟩
    have hcc := collapsed_of_minimal hwf hin
    have hkey : ∀ dir, mode = HDir.toMode dir →
        deleteKey cfg mode (root, .at ⟨r.toMinimal.rowIndices, r.start⟩) =
          (do match ← removeAtCaret cfg r mode with
              | none => .ok (root, .at ⟨r.toMinimal.rowIndices, r.start⟩)
              | some (edits, p) => do
                let root' ← applyEdits cfg root edits
                .ok (root', .at p)) := by
      intro dir hd
      have e : (RowRange.ofPosition ⟨r.focus, r.start⟩) = r := by
        obtain ⟨a, b, c⟩ := r
        simp only [RowRange.toMinimal] at hne
        subst hne; rfl
      simp only [deleteKey]
      rw [show (MinCaret.at ⟨r.toMinimal.rowIndices, r.start⟩) =
        .at (⟨r.focus, r.start⟩ : Position).toMinimal from rfl, hcc]
      simp only [M.ok_bind, Caret.collapsed, e]
      rfl
    have hfull : deleteKey cfg mode (root, m) =
          (do match ← removeAtCaret cfg r mode with
              | none => .ok (root, m)
              | some (edits, p) => do
                let root' ← applyEdits cfg root edits
                .ok (root', .at p)) := by
      simp only [deleteKey, hc, M.ok_bind, hs]
      rfl
    have hdir : ∀ dir, mode = HDir.toMode dir → _ := fun dir hd =>
      C16_delete_key hwf cfg hcfg dir hvalid
    by_cases hmode : mode = .range
    · right
      subst hmode
      obtain ⟨root', h1, h2⟩ := delete_ok (cfg := cfg) hwf hf.rowAt_eq r.left_le_right
        (RowRange.right_le hb)
      refine ⟨root', .at ⟨r.toMinimal.rowIndices, r.leftOffset⟩, ?_, ?_, ?_⟩
      · rw [hfull]
        simp only [removeAtCaret, hcol, Bool.not_true, removeRange_eq hf hb, ite_self, M.ok_bind,
          applyEdits, h1, Bool.false_eq_true]
      · refine h2.wf hwf ?_
        have := rowAt_wf hwf hf.rowAt_eq
        rw [rowWf_append, rowWf_take this, rowWf_drop this]; rfl
      · have : ValidPos root' ⟨r.toMinimal.rowIndices, r.leftOffset⟩ := by
          refine ⟨_, h2.rowAt_new, ?_⟩
          have h3 := RowRange.right_le hb
          have h4 := r.left_le_right
          simp only [List.length_append, List.length_take, List.length_drop]
          omega
        exact ⟨this, this⟩
    · obtain ⟨dir, hd⟩ : ∃ dir, mode = HDir.toMode dir := by
        cases mode
        · exact ⟨.left, rfl⟩
        · exact ⟨.right, rfl⟩
        · exact absurd rfl hmode
      have hk := hkey dir hd
      rcases hdir dir hd with ⟨h1, h2, h3⟩ | ⟨-, root', m', h3, h4, h5, -⟩
      · left
        refine ⟨h1, hne, ⟨dir, hd, h2⟩, ?_⟩
        rw [← hd, hk] at h3
        rw [hfull]
        cases hx : removeAtCaret cfg r mode with
        | error e => rw [hx] at h3; exact h3
        | ok x =>
          rw [hx] at h3
          cases x with
          | none => cases h3
          | some y => exact h3
      · right
        rw [← hd, hk] at h3
        rw [hfull]
        cases hx : removeAtCaret cfg r mode with
        | error e => rw [hx] at h3; cases h3
        | ok x =>
          rw [hx] at h3
          cases x with
          | none => cases h3; exact ⟨root, m, rfl, hwf, hm⟩
          | some y => exact ⟨root', _, h3, h4, h5, h5⟩
  · right
    obtain ⟨row, root', -, h1, -, h2, h3⟩ := C15_delete_selection hwf cfg mode hsel hne
    exact ⟨root', _, h1, h2, h3, h3⟩

/-! ## C33, the formula and the caret -/

/-- C33: at the edge of the root row Backspace (Delete) does nothing in a build without overflow
checks, and panics in one with them. -/
theorem C33_root_edge {root : Row} (hwf : rowWf root = true) (cfg : Cfg) (dir : HDir) :
    deleteKey cfg dir.toMode (root, .at ⟨[], match dir with | .left => 0 | .right => root.length⟩) =
      if cfg.checks then .error .overflow
      else .ok (root, .at ⟨[], match dir with | .left => 0 | .right => root.length⟩) := by
  generalize ho : (match dir with | .left => 0 | .right => root.length) = o
  have hol : o ≤ (FocusRow.fromRoot root).row.length := by
    subst ho; cases dir
    · exact Nat.zero_le _
    · exact Nat.le_refl _
  have hin : (⟨.fromRoot root, o⟩ : Position).In root := ⟨⟨_, .fromRoot⟩, hol⟩
  have hc := collapsed_of_minimal hwf hin
  have hpos : removeAtCaretPosition cfg ⟨.fromRoot root, o⟩ dir =
      removeAtEdge cfg ⟨.fromRoot root, o⟩ dir := by
    subst ho
    cases dir <;> simp [removeAtCaretPosition, offsetToIndex, FocusRow.fromRoot, FocusRow.row]
  have hrm : removeAtCaret cfg (RowRange.ofPosition ⟨.fromRoot root, o⟩) dir.toMode =
      removeAtEdge cfg ⟨.fromRoot root, o⟩ dir := by
    rw [← hpos]
    cases dir <;> simp [removeAtCaret, RowRange.ofPosition, RowRange.isCollapsed, HDir.toMode,
      RowRange.startPosition]
  simp only [deleteKey]
  rw [show (MinCaret.at ⟨[], o⟩) = .at (⟨.fromRoot root, o⟩ : Position).toMinimal from rfl, hc]
  simp only [M.ok_bind, Caret.collapsed, hrm]
  cases hck : cfg.checks with
  | true =>
    simp only [removeAtEdge, FocusRow.indexInParent, FocusRow.fromRoot, FocusRow.rowIndices,
      usub_lt_dev hck (show ([] : RowIndices).length < 1 by simp), M.error_bind, if_true]
  | false =>
    simp only [removeAtEdge, FocusRow.indexInParent, FocusRow.fromRoot, FocusRow.rowIndices,
      usub_lt_release hck (show ([] : RowIndices).length < 1 by simp), M.ok_bind, FocusRow.parent]
    rfl

/-! ## C18 -/

/-- C18: inserting nodes replaces exactly the selected nodes and leaves the caret, collapsed and
valid, behind the inserted ones. -/
theorem C18_insert_nodes {root : Row} (hwf : rowWf root = true) (cfg : Cfg) (values : List Node)
    {m : MinCaret} {rng : MinRange} (hsel : selectionOf root m = .ok (.row rng)) :
    ∃ row root', rowAt root rng.rowIndices = some row ∧
      insertKey cfg values (root, m) =
        .ok (root', .at ⟨rng.rowIndices, min rng.start rng.stop + values.length⟩) ∧
      ReplacedAt root rng.rowIndices row (row.take (min rng.start rng.stop) ++ values ++
        row.drop (max rng.start rng.stop)) root' ∧
      ValidPos root' ⟨rng.rowIndices, min rng.start rng.stop + values.length⟩ := by
  obtain ⟨c, r, hc, hs, rfl, hf, hb⟩ := selectionOf_row hwf hsel
  have hl := r.leftOffset_min
  have hrr := r.rightOffset_max
  obtain ⟨root', h1, h2⟩ := replace_ok (cfg := cfg) values hwf hf.rowAt_eq r.left_le_right
    (RowRange.right_le hb)
  have h3 := insertAtRange_eq hf hb values
  rw [hl, hrr] at h1 h2 h3
  refine ⟨r.focus.row, root', hf.rowAt_eq, ?_, h2, ?_⟩
  · simp only [insertKey, hc, hs, M.ok_bind, h3, h1]
    rfl
  · refine ⟨_, h2.rowAt_new, ?_⟩
    have := RowRange.right_le hb
    rw [hrr] at this
    simp only [RowRange.toMinimal, List.length_append, List.length_take, List.length_drop]
    omega

/-- C18: typing symbols; the formula stays well formed. -/
theorem C18_type {root : Row} (hwf : rowWf root = true) (cfg : Cfg) (values : List Str)
    {m : MinCaret} {rng : MinRange} (hsel : selectionOf root m = .ok (.row rng)) :
    ∃ row root', rowAt root rng.rowIndices = some row ∧
      typeKey cfg values (root, m) =
        .ok (root', .at ⟨rng.rowIndices, min rng.start rng.stop + values.length⟩) ∧
      ReplacedAt root rng.rowIndices row (row.take (min rng.start rng.stop) ++
        values.map Node.symbol ++ row.drop (max rng.start rng.stop)) root' ∧
      ValidPos root' ⟨rng.rowIndices, min rng.start rng.stop + values.length⟩ ∧
      rowWf root' = true := by
  obtain ⟨row, root', h1, h2, h3, h4⟩ := C18_insert_nodes hwf cfg (values.map Node.symbol) hsel
  simp only [List.length_map] at h2 h4
  refine ⟨row, root', h1, h2, h3, h4, h3.wf hwf ?_⟩
  have := rowAt_wf hwf h1
  have hsym : rowWf (values.map Node.symbol) = true := by
    refine rowWf_iff.2 fun n hn => ?_
    obtain ⟨s, -, rfl⟩ := List.mem_map.1 hn
    rfl
  rw [rowWf_append, rowWf_append, rowWf_take this, rowWf_drop this, hsym]; rfl

/-- Typing over a selection inside a cell. -/
example : typeKey .dev [['x'], ['y']]
    ([.fraction [.symbol ['a'], .symbol ['b']] []], ⟨⟨[(0, 0)], 0⟩, ⟨[(0, 0)], 1⟩⟩) =
    .ok ([.fraction [.symbol ['x'], .symbol ['y'], .symbol ['b']] []], .at ⟨[(0, 0)], 2⟩) := by
  decide +kernel

/-! ## C19 -/

/-- Backspace behind a symbol, as one step. -/
theorem backspace_symbol {root row : Row} (hwf : rowWf root = true) (cfg : Cfg) {q : RowIndices}
    {k : Nat} {s : Str} (hrow : rowAt root q = some row) (hs : row[k]? = some (.symbol s)) :
    ∃ root', deleteKey cfg .left (root, .at ⟨q, k + 1⟩) = .ok (root', .at ⟨q, k⟩) ∧
      ReplacedAt root q row (row.take k ++ row.drop (k + 1)) root' := by
  have hlt := (List.getElem?_eq_some_iff.1 hs).1
  obtain ⟨f, hf, rfl⟩ := IsFocus.exists_of_wf hwf hrow
  have hin : (⟨f, k + 1⟩ : Position).In root := ⟨⟨_, hf⟩, hlt⟩
  have hc := collapsed_of_minimal hwf hin
  obtain ⟨root', h4, h5⟩ := delete_ok (cfg := cfg) hwf hrow (Nat.le_succ k) hlt
  refine ⟨root', ?_, h5⟩
  have e := removeRange_eq (r := ⟨f, k, k + 1⟩) hf ⟨Nat.le_of_lt hlt, hlt⟩
  rw [RowRange.leftOffset_min, RowRange.rightOffset_max] at e
  simp only [Nat.le_add_right, Nat.min_eq_left, Nat.max_eq_right] at e
  have e2 : (⟨f, k + 1⟩ : Position).toMinimal = ⟨q, k + 1⟩ := by
    simp [Position.toMinimal, hf.rowIndices_eq]
  rw [e2] at hc
  simp only [deleteKey, hc, M.ok_bind, Caret.collapsed, removeAtCaret, RowRange.ofPosition,
    RowRange.isCollapsed, beq_self_eq_true, Bool.not_true, RowRange.startPosition,
    removeAtCaretPosition, offsetToIndex_left, Option.bind_some, FocusRow.nodeAt, hs,
    Option.map_some, RowRange.new_ok (Nat.le_of_lt hlt) hlt, e, Bool.false_eq_true, if_false,
    applyEdits, show applyEdit cfg root (deleteEdit q f.row k (k + 1)) = .ok root' from h4]

/-- C19: typing `n` symbols and pressing Backspace `n` times restores formula and caret. -/
theorem C19_type_backspace {root : Row} (hwf : rowWf root = true) (cfg : Cfg) (values : List Str)
    {m : MinPos} (hm : ValidPos root m) :
    ∃ st, typeKey cfg values (root, .at m) = .ok st ∧
      deleteKeyN cfg .left values.length st = .ok (root, .at m) := by
  obtain ⟨row, root', h1, h2, h3, -, h4⟩ := C18_type hwf cfg values (selectionOf_at hwf hm)
  obtain ⟨q, o⟩ := m
  simp only [Nat.min_self, Nat.max_self] at h1 h2 h3
  have ho : o ≤ row.length := by
    obtain ⟨x, hx, ho⟩ := hm
    rw [h1] at hx; cases hx; exact ho
  refine ⟨_, h2, ?_⟩
  -- Backspace from the end of a prefix of the typed symbols
  have key : ∀ (n : Nat) (vs : List Str) (r : Row), vs.length = n → rowWf r = true →
      ReplacedAt root q row (row.take o ++ vs.map Node.symbol ++ row.drop o) r →
      deleteKeyN cfg .left n (r, .at ⟨q, o + n⟩) = .ok (root, .at ⟨q, o⟩) := by
    intro n
    induction n with
    | zero =>
      intro vs r hn _ hrep
      have : vs = [] := List.length_eq_zero_iff.1 hn
      subst this
      simp only [List.map_nil, List.append_nil, List.take_append_drop] at hrep
      simp only [deleteKeyN, hrep.eq_of_same, Nat.add_zero]
    | succ n ih =>
      intro vs r hn hr hrep
      obtain ⟨vs', s, rfl⟩ : ∃ vs' s, vs = vs' ++ [s] := by
        cases vs using List.reverseRecOn with
        | nil => simp at hn
        | append_singleton vs' s => exact ⟨vs', s, rfl⟩
      have hn' : vs'.length = n := by simpa using hn
      have hlen : (row.take o ++ vs'.map Node.symbol).length = o + n := by
        simp [hn']; omega
      have hform : row.take o ++ (vs' ++ [s]).map Node.symbol ++ row.drop o =
          (row.take o ++ vs'.map Node.symbol) ++ Node.symbol s :: row.drop o := by simp
      rw [hform] at hrep
      have hsym : ((row.take o ++ vs'.map Node.symbol) ++ Node.symbol s :: row.drop o)[o + n]? =
          some (.symbol s) := by
        rw [← hlen]; simp
      obtain ⟨r', h5, h6⟩ := backspace_symbol hr cfg hrep.rowAt_new hsym
      have h7 := hrep.trans h6
      have e1 : ((row.take o ++ vs'.map Node.symbol) ++ Node.symbol s :: row.drop o).take (o + n) =
          row.take o ++ vs'.map Node.symbol := by
        rw [← hlen, List.take_left']; rfl
      have e2 : ((row.take o ++ vs'.map Node.symbol) ++ Node.symbol s :: row.drop o).drop
          (o + n + 1) = row.drop o := by
        rw [← List.drop_drop, ← hlen, List.drop_left']
        · rfl
        · rfl
      rw [e1, e2] at h7
      have hr' : rowWf r' = true := by
        refine h7.wf hwf ?_
        have := rowAt_wf hwf h1
        have hsym : rowWf (vs'.map Node.symbol) = true := by
          refine rowWf_iff.2 fun n hn => ?_
          obtain ⟨s, -, rfl⟩ := List.mem_map.1 hn
          rfl
        rw [rowWf_append, rowWf_append, rowWf_take this, rowWf_drop this, hsym]; rfl
      simp only [deleteKeyN]
      rw [show o + (n + 1) = o + n + 1 by omega, h5]
      exact ih vs' r' hn' hr' h7
  exact key values.length values root' rfl h4 h3

/-- One symbol. -/
theorem C19_one {root : Row} (hwf : rowWf root = true) (cfg : Cfg) (s : Str) {m : MinPos}
    (hm : ValidPos root m) :
    (do let st ← typeKey cfg [s] (root, .at m); deleteKey cfg .left st) = .ok (root, .at m) := by
  obtain ⟨st, h1, h2⟩ := C19_type_backspace hwf cfg [s] hm
  rw [h1]
  simp only [List.length_cons, List.length_nil, Nat.zero_add, deleteKeyN] at h2
  simp only [M.ok_bind]
  obtain ⟨x, hx, h3⟩ := M.bind_eq_ok.1 h2
  cases h3
  exact hx

example : ValidPos [.fraction [] [.symbol ['b']]] ⟨[(0, 1)], 1⟩ := ⟨_, rfl, by decide⟩

end Aftermath
