import Verif.Props.Delete
import Verif.Spec.Erase

/-! # Erasing with Backspace or Delete -/

namespace Aftermath

theorem rowPresses_append (dir : HDir) (a b : Row) :
    rowPresses dir (a ++ b) = rowPresses dir a + rowPresses dir b := by
  induction a with
  | nil => simp [rowPresses]
  | cons n ns ih => simp only [List.cons_append, rowPresses, ih]; omega

theorem deleteKeyN_add (cfg : Cfg) (mode : RemoveMode) (m n : Nat) (st : Row × MinCaret) :
    deleteKeyN cfg mode (m + n) st = (do
      let st ← deleteKeyN cfg mode m st
      deleteKeyN cfg mode n st) := by
  induction m generalizing st with
  | zero => simp [deleteKeyN]
  | succ m ih =>
    rw [show m + 1 + n = m + n + 1 by omega]
    simp only [deleteKeyN]
    cases deleteKey cfg mode st with
    | error e => rfl
    | ok st' => simp only [M.ok_bind, ih]

/-- A well-formed formula without symbols that the other one has not, and a caret in it. -/
def Tidy (root : Row) (st : Row × MinCaret) : Prop :=
  rowWf st.1 = true ∧ rowSymbols st.1 ⊆ rowSymbols root ∧ ∃ m, st.2 = .at m ∧ ValidPos st.1 m

/-- `k` presses lead from the row and the place in it to another row and a place in it, wherever
the row is. -/
def Presses (cfg : Cfg) (dir : HDir) (k : Nat) (row : Row) (p : MinPos) (row' : Row) (p' : MinPos) :
    Prop :=
  ∀ root q, rowWf root = true → rowAt root q = some row →
    ∃ root', deleteKeyN cfg dir.toMode k (root, .at ⟨q ++ p.rowIndices, p.offset⟩) =
        .ok (root', .at ⟨q ++ p'.rowIndices, p'.offset⟩) ∧
      ReplacedAt root q row row' root' ∧ rowWf row' = true ∧ rowSymbols row' ⊆ rowSymbols row ∧
      ∀ i < k, ∀ st, deleteKeyN cfg dir.toMode i (root, .at ⟨q ++ p.rowIndices, p.offset⟩) = .ok st →
        Tidy root st

variable {cfg : Cfg} {dir : HDir}

theorem Presses.zero (row : Row) (p : MinPos) : Presses cfg dir 0 row p row p :=
  fun root _ hwf hrow => ⟨root, rfl, .refl hrow, rowAt_wf hwf hrow, fun _ h => h,
    fun _ h => absurd h (Nat.not_lt_zero _)⟩

theorem ReplacedAt.symbols_subset {root root' old new : Row} {p : RowIndices}
    (h : ReplacedAt root p old new root') (hs : rowSymbols new ⊆ rowSymbols old) :
    rowSymbols root' ⊆ rowSymbols root := by
  obtain ⟨a, b, h1, h2⟩ := h.symbols
  rw [h1, h2]
  intro s hm
  simp only [List.mem_append] at hm ⊢
  rcases hm with (h | h) | h
  · exact .inl (.inl h)
  · exact .inl (.inr (hs h))
  · exact .inr h

/-- The first of the presses finds things as they are. -/
theorem Tidy.first {k : Nat} {root : Row} {m : MinPos} (hwf : rowWf root = true)
    (hm : ValidPos root m) {mode : RemoveMode} (hk : k = 1) :
    ∀ i < k, ∀ st, deleteKeyN cfg mode i (root, .at m) = .ok st → Tidy root st := by
  intro i hi st h
  have : i = 0 := by omega
  subst this
  cases h
  exact ⟨hwf, fun _ h => h, m, rfl, hm⟩

theorem Presses.trans {j k : Nat} {a b c : Row} {p p' p'' : MinPos}
    (h : Presses cfg dir j a p b p') (h' : Presses cfg dir k b p' c p'') :
    Presses cfg dir (j + k) a p c p'' := by
  intro root q hwf hrow
  obtain ⟨r1, h1, h2, h3, h7, h8⟩ := h root q hwf hrow
  obtain ⟨r2, h4, h5, h6, h9, h10⟩ := h' r1 q (h2.wf hwf h3) h2.rowAt_new
  refine ⟨r2, by rw [deleteKeyN_add, h1]; exact h4, h2.trans h5, h6, fun s hs => h7 (h9 hs), ?_⟩
  intro i hi st hst
  by_cases hij : i < j
  · exact h8 i hij st hst
  · obtain ⟨i', rfl⟩ : ∃ i', i = j + i' := ⟨i - j, by omega⟩
    rw [deleteKeyN_add, h1] at hst
    obtain ⟨g1, g2, g3⟩ := h10 i' (by omega) st hst
    exact ⟨g1, fun s hs => h2.symbols_subset h7 (g2 hs), g3⟩

/-- What is done in a cell is done to the row around it. -/
theorem ReplacedAt.lift {root root' row c c' : Row} {q : RowIndices} {i j : Nat} {v : Variant}
    {cells : List Row} {w : Nat} (h : ReplacedAt root (q ++ [(i, j)]) c c' root')
    (hrow : rowAt root q = some row) (hi : row[i]? = some (.container v cells w)) :
    ReplacedAt root q row (row.set i (.container v (cells.set j c') w)) root' := by
  induction q generalizing root root' with
  | nil =>
    simp only [rowAt, Option.some.injEq] at hrow
    subst hrow
    simp only [List.nil_append] at h
    cases h with
    | @under r r' _ _ _ _ _ v' cells1 cells' w' x x' hlen hn hn' ho hcl hc hc' hco h =>
      rw [hi] at hn
      cases hn
      cases h
      have : root' = root.set i (.container v (cells.set j c') w) := by
        refine List.ext_getElem? fun k => ?_
        rw [List.getElem?_set]
        split
        · rename_i hk
          subst hk
          rw [if_pos (List.getElem?_eq_some_iff.1 hi).1, hn']
          congr 2
          refine List.ext_getElem? fun m => ?_
          rw [List.getElem?_set]
          split
          · rename_i hm
            subst hm
            rw [if_pos (List.getElem?_eq_some_iff.1 hc).1, hc']
          · rename_i hm
            exact hco m (fun h => hm h.symm)
        · rename_i hk
          exact ho k (fun h => hk h.symm)
      rw [← this]
      exact .here _ _
  | cons ix q ih =>
    obtain ⟨i', j'⟩ := ix
    obtain ⟨v1, cells1, w1, c1, h1, h2, h3⟩ := rowAt_cons.1 hrow
    simp only [List.cons_append] at h
    cases h with
    | under hlen hn hn' ho hcl hc hc' hco h =>
      rw [h1] at hn
      cases hn
      rw [h2] at hc
      cases hc
      exact .under hlen h1 hn' ho hcl h2 hc' hco (ih h h3)

theorem Presses.lift {k : Nat} {c c' row : Row} {p p' : MinPos} {i j : Nat} {v : Variant}
    {cells : List Row} {w : Nat} (h : Presses cfg dir k c p c' p')
    (hi : row[i]? = some (.container v cells w)) (hj : cells[j]? = some c) :
    Presses cfg dir k row ⟨(i, j) :: p.rowIndices, p.offset⟩
      (row.set i (.container v (cells.set j c') w)) ⟨(i, j) :: p'.rowIndices, p'.offset⟩ := by
  intro root q hwf hrow
  have hcell : rowAt root (q ++ [(i, j)]) = some c := by
    rw [rowAt_append, hrow]
    exact rowAt_cons.2 ⟨v, cells, w, c, hi, hj, rfl⟩
  obtain ⟨r1, h1, h2, h3, h5, h6⟩ := h root _ hwf hcell
  have h4 := h2.lift hrow hi
  refine ⟨r1, ?_, h4, rowAt_wf (h2.wf hwf h3) h4.rowAt_new, ?_, ?_⟩
  · simpa only [List.append_assoc, List.singleton_append] using h1
  · have hu : ReplacedAt row [(i, j)] c c' (row.set i (.container v (cells.set j c') w)) := by
      have hlt := (List.getElem?_eq_some_iff.1 hi).1
      have hlj := (List.getElem?_eq_some_iff.1 hj).1
      refine .under (List.length_set ..) hi (cells' := cells.set j c') (c' := c') (by simp [hlt])
        (fun k hk => List.getElem?_set_ne (fun h => hk h.symm)) (List.length_set ..) hj (by simp [hlj])
        (fun k hk => List.getElem?_set_ne (fun h => hk h.symm)) (.here _ _)
    exact hu.symbols_subset h5
  · simpa only [List.append_assoc, List.singleton_append] using h6

/-- Backspace or Delete at a caret. -/
theorem deleteKey_at {root : Row} (hwf : rowWf root = true) {q : RowIndices} {f : FocusRow}
    (hf : IsFocus root q f) {o : Nat} (ho : o ≤ f.row.length) (cfg : Cfg) (dir : HDir) :
    deleteKey cfg dir.toMode (root, .at ⟨q, o⟩) = (do
      match ← removeAtCaretPosition cfg ⟨f, o⟩ dir with
      | none => .ok (root, .at ⟨q, o⟩)
      | some (edits, p) => do
        let root' ← applyEdits cfg root edits
        .ok (root', .at p)) := by
  have hc := collapsed_of_minimal hwf (p := ⟨f, o⟩) ⟨⟨_, hf⟩, ho⟩
  simp only [Position.toMinimal, hf.rowIndices_eq] at hc
  simp only [deleteKey, hc, M.ok_bind, Caret.collapsed]
  cases dir <;> simp [removeAtCaret, RowRange.ofPosition, RowRange.isCollapsed, HDir.toMode,
    RowRange.startPosition] <;> rfl

/-- One press that only moves the caret. -/
theorem Presses.ofMove {row : Row} {p p' : MinPos} (h : ∀ root q, rowWf root = true →
      rowAt root q = some row → ∃ f x, IsFocus root (q ++ p.rowIndices) f ∧ p.offset ≤ f.row.length ∧
        removeAtCaretPosition cfg ⟨f, p.offset⟩ dir = removeMove cfg ⟨f, p.offset⟩ dir ∧
        moveCaretInternal cfg ⟨f, p.offset⟩ dir.toDir = .ok (some x) ∧
        x.toMinimal = ⟨q ++ p'.rowIndices, p'.offset⟩) :
    Presses cfg dir 1 row p row p' := by
  intro root q hwf hrow
  obtain ⟨f, x, h1, h2, h3, h4, h5⟩ := h root q hwf hrow
  refine ⟨root, ?_, .refl hrow, rowAt_wf hwf hrow, fun _ h => h,
    Tidy.first (m := ⟨_, p.offset⟩) hwf ⟨_, h1.rowAt_eq, h2⟩ rfl⟩
  simp only [deleteKeyN, deleteKey_at hwf h1 h2, h3, removeMove_eq, h4, M.ok_bind, applyEdits, ← h5,
    Option.map_some]

/-- One press that takes a container apart. -/
theorem Presses.ofFlatten {row : Row} {p : MinPos} {i k : Nat} {v : Variant} {cells : List Row}
    {w : Nat} (hi : row[i]? = some (.container v cells w))
    (h : ∀ root q g, rowWf root = true → IsFocus root q g → g.row = row →
      ∃ f, IsFocus root (q ++ p.rowIndices) f ∧ p.offset ≤ f.row.length ∧
        removeAtCaretPosition cfg ⟨f, p.offset⟩ dir =
          (do let r ← flattenNode ⟨.container v cells w, g, i⟩ k; .ok (some r))) :
    Presses cfg dir 1 row p (row.take i ++ cells.flatten ++ row.drop (i + 1)) ⟨[], i + k⟩ := by
  intro root q hwf hrow
  obtain ⟨g, hg, rfl⟩ := IsFocus.exists_of_wf hwf hrow
  obtain ⟨f, h1, h2, h3⟩ := h root q g hwf hg rfl
  have hlt := (List.getElem?_eq_some_iff.1 hi).1
  obtain ⟨root', h4, h5⟩ := replace_ok (cfg := cfg) cells.flatten hwf hrow (Nat.le_succ i) hlt
  refine ⟨root', ?_, h5, ?_, ?_, Tidy.first (m := ⟨_, p.offset⟩) hwf ⟨_, h1.rowAt_eq, h2⟩ rfl⟩
  · simp only [deleteKeyN, deleteKey_at hwf h1 h2, h3, flattenNode_eq hg hi k, M.ok_bind, h4,
      List.append_nil]
  · have hr := rowAt_wf hwf hrow
    have hn := wf_container.1 (rowWf_iff.1 hr _ (List.mem_of_getElem? hi))
    have hfl : rowWf cells.flatten = true := by
      refine rowWf_iff.2 fun n hn' => ?_
      obtain ⟨c, hc, hnc⟩ := List.mem_flatten.1 hn'
      exact rowWf_iff.1 (hn.2 c hc) n hnc
    rw [rowWf_append, rowWf_append, rowWf_take hr, rowWf_drop hr, hfl]; rfl
  · intro s hs
    rw [rowSymbols_append, rowSymbols_append, rowSymbols_flatten] at hs
    rw [← List.take_append_drop i g.row, List.drop_eq_getElem_cons hlt, rowSymbols_append]
    rw [List.getElem?_eq_some_iff.1 hi |>.2]
    simp only [List.mem_append, rowSymbols, Node.symbols] at hs ⊢
    tauto

/-- The index of the symbol or container that is next to the caret. -/
def nextTo (dir : HDir) (i : Nat) : Nat :=
  match dir with
  | .left => i + 1
  | .right => i

theorem offsetToIndex_nextTo {row : Row} {i : Nat} {n : Node} (h : row[i]? = some n) (dir : HDir) :
    offsetToIndex row (nextTo dir i) dir = some i := by
  cases dir
  · exact offsetToIndex_left
  · exact offsetToIndex_right h

theorem nextTo_le {row : Row} {i : Nat} {n : Node} (h : row[i]? = some n) (dir : HDir) :
    nextTo dir i ≤ row.length := by
  have := (List.getElem?_eq_some_iff.1 h).1
  cases dir <;> simp only [nextTo] <;> omega

/-- The adjacent symbol is removed. -/
theorem Presses.symbol {row : Row} {i : Nat} {s : Str} (hi : row[i]? = some (.symbol s)) :
    Presses cfg dir 1 row ⟨[], nextTo dir i⟩ (row.take i ++ row.drop (i + 1)) ⟨[], i⟩ := by
  intro root q hwf hrow
  obtain ⟨f, hf, rfl⟩ := IsFocus.exists_of_wf hwf hrow
  have hlt := (List.getElem?_eq_some_iff.1 hi).1
  obtain ⟨root', h4, h5⟩ := delete_ok (cfg := cfg) hwf hrow (Nat.le_succ i) hlt
  have e := removeRange_eq (r := ⟨f, i, i + 1⟩) hf ⟨Nat.le_of_lt hlt, hlt⟩
  rw [RowRange.leftOffset_min, RowRange.rightOffset_max] at e
  simp only [Nat.le_add_right, Nat.min_eq_left, Nat.max_eq_right] at e
  refine ⟨root', ?_, h5, ?_, ?_, Tidy.first hwf ⟨f.row, by simpa using hrow, nextTo_le hi dir⟩ rfl⟩
  · simp only [List.append_nil, deleteKeyN, deleteKey_at hwf hf (nextTo_le hi dir),
      removeAtCaretPosition, offsetToIndex_nextTo hi, Option.bind_some, FocusRow.nodeAt, hi,
      Option.map_some, RowRange.new_ok (Nat.le_of_lt hlt) hlt, M.ok_bind, e, applyEdits,
      show applyEdit cfg root (deleteEdit q f.row i (i + 1)) = .ok root' from h4]
  · have := rowAt_wf hwf hrow
    rw [rowWf_append, rowWf_take this, rowWf_drop this]; rfl
  · intro s hs
    rw [rowSymbols_append] at hs
    rw [← List.take_append_drop i f.row, List.drop_eq_getElem_cons hlt, rowSymbols_append]
    simp only [List.mem_append, rowSymbols] at hs ⊢
    tauto

/-- The cell into which a container is entered, and the place in it. -/
def entryCell (dir : HDir) (n : Nat) : Nat :=
  match dir with
  | .left => n - 1
  | .right => 0

/-- The end of a row at which erasing it starts. -/
def eraseEnd (dir : HDir) (c : Row) : Nat :=
  match dir with
  | .left => c.length
  | .right => 0

/-- The caret goes into the container. -/
theorem Presses.enter {row c : Row} {i : Nat} {v : Variant} {cells : List Row} {w : Nat}
    (hi : row[i]? = some (.container v cells w)) (hc : cells[entryCell dir cells.length]? = some c)
    (hv : dir = .right → v ≠ .sub ∧ v ≠ .sup) :
    Presses cfg dir 1 row ⟨[], nextTo dir i⟩ row
      ⟨[(i, entryCell dir cells.length)], eraseEnd dir c⟩ := by
  refine .ofMove fun root q hwf hrow => ?_
  obtain ⟨f, hf, rfl⟩ := IsFocus.exists_of_wf hwf hrow
  have hr : removeAtCaretPosition cfg ⟨f, nextTo dir i⟩ dir =
      removeMove cfg ⟨f, nextTo dir i⟩ dir := by
    simp only [removeAtCaretPosition, offsetToIndex_nextTo hi, Option.bind_some, FocusRow.nodeAt, hi,
      Option.map_some]
    rw [if_neg]
    rintro ⟨h1, h2⟩
    have := hv h2
    rcases h1 with h1 | h1
    · exact this.1 h1
    · exact this.2 h1
  cases dir with
  | left =>
    obtain ⟨f', h1, h2, h3⟩ := move_left_enter hwf (cfg := cfg) hf hi
    simp only [entryCell] at hc
    rw [h3] at hc
    cases hc
    exact ⟨f, _, by simpa using hf, nextTo_le hi .left, hr, h1, by
      simp [Position.toMinimal, h2.rowIndices_eq, entryCell, eraseEnd]⟩
  | right =>
    obtain ⟨f', h1, h2, h3⟩ := move_right_enter hwf (cfg := cfg) hf hi
    exact ⟨f, _, by simpa using hf, nextTo_le hi .right, hr, h1, by
      simp [Position.toMinimal, h2.rowIndices_eq, entryCell, eraseEnd]⟩

/-- At the beginning (Backspace) or end (Delete) of an empty row. -/
theorem removeAtCaretPosition_edge {f : FocusRow} (h : f.row = []) :
    removeAtCaretPosition cfg ⟨f, 0⟩ dir = removeAtEdge cfg ⟨f, 0⟩ dir := by
  cases dir <;> simp [removeAtCaretPosition, offsetToIndex, h]

/-- In a cell of a container, at its edge. -/
theorem removeAtEdge_cell {root : Row} {q : RowIndices} {i j o : Nat}
    {f g : FocusRow} {v : Variant} {cells : List Row} {w : Nat}
    (hf : IsFocus root (q ++ [(i, j)]) f) (hg : IsFocus root q g)
    (hi : g.row[i]? = some (.container v cells w)) :
    removeAtEdge cfg ⟨f, o⟩ dir =
      (match (Node.container v cells w), dir with
        | .container .sub _ _, .left => do
          let r ← flattenNode ⟨.container v cells w, g, i⟩ 0
          .ok (some r)
        | .container .sup _ _, .left => do
          let r ← flattenNode ⟨.container v cells w, g, i⟩ 0
          .ok (some r)
        | .container .fraction cells' w', dir =>
          if (dir = .left ∧ j = 1) ∨ (dir = .right ∧ j = 0) then do
            let c ← GridVec.getLinear ⟨cells', w'⟩ 0
            let c ← munwrap c
            let r ← flattenNode ⟨.container v cells w, g, i⟩ c.length
            .ok (some r)
          else removeInGrid cfg ⟨f, o⟩ dir ⟨.container v cells w, g, i⟩ j
        | .container .root cells' w', dir =>
          if (dir = .left ∧ j = 1) ∨ (dir = .right ∧ j = 0) then do
            let c ← GridVec.getLinear ⟨cells', w'⟩ 0
            let c ← munwrap c
            let r ← flattenNode ⟨.container v cells w, g, i⟩ c.length
            .ok (some r)
          else removeInGrid cfg ⟨f, o⟩ dir ⟨.container v cells w, g, i⟩ j
        | _, dir => removeInGrid cfg ⟨f, o⟩ dir ⟨.container v cells w, g, i⟩ j) := by
  obtain ⟨g', v', cells', w', hg', hi', -, -, hpar⟩ := hf.parent_snoc
  have := hg'.unique hg; subst this
  rw [hi] at hi'; cases hi'
  simp only [removeAtEdge, hf.indexInParent_snoc, hpar, M.ok_bind, munwrap_some]
  cases v <;> cases dir <;> rfl

/-- In a cell of a table, at its edge. -/
theorem removeInGrid_cell {root : Row} (hwf : rowWf root = true) {q : RowIndices} {i j o : Nat}
    {f g : FocusRow} {v : Variant} {cells : List Row} {w : Nat} (hg : IsFocus root q g)
    (hi : g.row[i]? = some (.container v cells w)) :
    removeInGrid cfg ⟨f, o⟩ dir ⟨.container v cells w, g, i⟩ j =
      if gridEdge dir j cells.length && cells.all List.isEmpty then (do
        let r ← flattenNode ⟨.container v cells w, g, i⟩ 0
        .ok (some r)) else removeMove cfg ⟨f, o⟩ dir := by
  have hn := wf_container.1 (hg.node_wf hwf hi)
  obtain ⟨hw, hm, hpos⟩ := shapeOk_pos hn.1
  have hsize : GridVec.size (⟨cells, w⟩ : GridVec Row) = .ok (w, cells.length / w) :=
    GridVec.size_pos hw
  have hmul : w * (cells.length / w) = cells.length :=
    Nat.mul_div_cancel' (Nat.dvd_of_mod_eq_zero hm)
  cases dir with
  | left => simp [removeInGrid, Node.grid, gridEdge]
  | right =>
    simp only [removeInGrid, Node.grid, hsize, M.ok_bind, hmul, usub_of_le hpos, gridEdge]
    rfl

/-- The focus of an empty cell. -/
theorem emptyCell {root : Row} (hwf : rowWf root = true) {q : RowIndices} {g : FocusRow} {i j : Nat}
    {v : Variant} {cells : List Row} {w : Nat} (hg : IsFocus root q g)
    (hi : g.row[i]? = some (.container v cells w)) (hj : cells[j]? = some []) :
    ∃ f, IsFocus root (q ++ [(i, j)]) f ∧ f.row = [] := by
  obtain ⟨f, -, h2, h3⟩ := hg.child_ok hwf hi hj
  exact ⟨f, h2, h3⟩

/-- Backspace in an empty script. -/
theorem Presses.script {row : Row} {i : Nat} {v : Variant} {w : Nat}
    (hi : row[i]? = some (.container v [[]] w)) (hv : v = .sub ∨ v = .sup) :
    Presses cfg .left 1 row ⟨[(i, 0)], 0⟩ (row.take i ++ row.drop (i + 1)) ⟨[], i⟩ := by
  have := Presses.ofFlatten (cfg := cfg) (dir := .left) (p := ⟨[(i, 0)], 0⟩) (k := 0) hi ?_
  · simpa using this
  · rintro root q g hwf hg rfl
    obtain ⟨f, h1, h2⟩ := emptyCell hwf hg hi (j := 0) rfl
    refine ⟨f, h1, Nat.zero_le _, ?_⟩
    rw [removeAtCaretPosition_edge h2, removeAtEdge_cell h1 hg hi]
    rcases hv with rfl | rfl <;> rfl

/-- Delete in front of a script. -/
theorem Presses.scriptRight {row c : Row} {i : Nat} {v : Variant} {w : Nat}
    (hi : row[i]? = some (.container v [c] w)) (hv : v = .sub ∨ v = .sup) :
    Presses cfg .right 1 row ⟨[], i⟩ (row.take i ++ c ++ row.drop (i + 1)) ⟨[], i⟩ := by
  have := Presses.ofFlatten (cfg := cfg) (dir := .right) (p := ⟨[], i⟩) (k := 0) hi ?_
  · simpa using this
  · rintro root q g hwf hg rfl
    refine ⟨g, by simpa using hg, nextTo_le hi .right, ?_⟩
    simp only [removeAtCaretPosition, offsetToIndex_right hi, Option.bind_some, FocusRow.nodeAt, hi,
      Option.map_some, hv, and_true, if_true, childAt_of_getElem? hi, munwrap_some, M.ok_bind]

/-- In the empty cell of a fraction or root which was entered. -/
theorem Presses.pair {row a b : Row} {i : Nat} {v : Variant} {w : Nat}
    (hi : row[i]? = some (.container v [a, b] w)) (hv : v = .fraction ∨ v = .root)
    (he : (match dir with | .left => b | .right => a) = []) :
    Presses cfg dir 1 row ⟨[(i, entryCell dir 2)], 0⟩
      (row.take i ++ (match dir with | .left => a | .right => b) ++ row.drop (i + 1))
      ⟨[], i + (match dir with | .left => a.length | .right => 0)⟩ := by
  have := Presses.ofFlatten (cfg := cfg) (dir := dir) (p := ⟨[(i, entryCell dir 2)], 0⟩)
    (k := a.length) hi ?_
  · cases dir <;> simp only at he <;> subst he <;> simpa using this
  · rintro root q g hwf hg rfl
    have hn := wf_container.1 (hg.node_wf hwf hi)
    obtain ⟨hw, hm, -⟩ := shapeOk_pos hn.1
    obtain ⟨f, h1, h2⟩ := emptyCell hwf hg hi (j := entryCell dir 2)
      (by cases dir <;> simp only at he <;> subst he <;> rfl)
    refine ⟨f, h1, Nat.zero_le _, ?_⟩
    rw [removeAtCaretPosition_edge h2, removeAtEdge_cell h1 hg hi]
    rcases hv with rfl | rfl <;> cases dir <;>
      simp [entryCell, getLinear_wf hw hm]

/-- In an empty cell of a table which is not the last one on the way: on to the next cell. -/
theorem Presses.next {row c : Row} {i j j' : Nat} {cells : List Row} {w : Nat}
    (hi : row[i]? = some (.container .table cells w)) (hj : cells[j]? = some [])
    (hj' : cells[j']? = some c) (hjj : match dir with | .left => j = j' + 1 | .right => j' = j + 1) :
    Presses cfg dir 1 row ⟨[(i, j)], 0⟩ row ⟨[(i, j')], eraseEnd dir c⟩ := by
  refine .ofMove fun root q hwf hrow => ?_
  obtain ⟨g, hg, rfl⟩ := IsFocus.exists_of_wf hwf hrow
  obtain ⟨f, h1, h2⟩ := emptyCell hwf hg hi hj
  have hr : removeAtCaretPosition cfg ⟨f, 0⟩ dir = removeMove cfg ⟨f, 0⟩ dir := by
    rw [removeAtCaretPosition_edge h2, removeAtEdge_cell h1 hg hi]
    have hlt := (List.getElem?_eq_some_iff.1 hj').1
    have : gridEdge dir j cells.length = false := by
      cases dir <;> simp only at hjj <;> simp [gridEdge, hjj]
      omega
    have e := removeInGrid_cell hwf (cfg := cfg) (dir := dir) (f := f) (o := 0) (j := j) hg hi
    rw [this] at e
    cases dir <;> exact e
  cases dir with
  | left =>
    simp only at hjj
    subst hjj
    obtain ⟨f', h3, h4, h5⟩ := move_left_next hwf (cfg := cfg) h1 hg hi hj'
    subst h5
    exact ⟨f, _, h1, Nat.zero_le _, hr, h3, by
      simp [Position.toMinimal, h4.rowIndices_eq, eraseEnd]⟩
  | right =>
    simp only at hjj
    subst hjj
    obtain ⟨f', h3, h4, h5⟩ := move_right_next hwf (cfg := cfg) h1 hg hi hj'
    rw [h2] at h3
    exact ⟨f, _, h1, Nat.zero_le _, hr, h3, by
      simp [Position.toMinimal, h4.rowIndices_eq, eraseEnd]⟩

/-- In the last cell on the way through an empty table. -/
theorem Presses.table {row : Row} {i j : Nat} {cells : List Row} {w : Nat}
    (hi : row[i]? = some (.container .table cells w)) (hj : cells[j]? = some [])
    (hall : ∀ c ∈ cells, c = []) (hlast : gridEdge dir j cells.length = true) :
    Presses cfg dir 1 row ⟨[(i, j)], 0⟩ (row.take i ++ row.drop (i + 1)) ⟨[], i⟩ := by
  have := Presses.ofFlatten (cfg := cfg) (dir := dir) (p := ⟨[(i, j)], 0⟩) (k := 0) hi ?_
  · have he : cells.flatten = [] := by simpa using hall
    simpa [he] using this
  · rintro root q g hwf hg rfl
    obtain ⟨f, h1, h2⟩ := emptyCell hwf hg hi hj
    refine ⟨f, h1, Nat.zero_le _, ?_⟩
    rw [removeAtCaretPosition_edge h2, removeAtEdge_cell h1 hg hi]
    have he : cells.all List.isEmpty = true := by
      simp only [List.all_eq_true, List.isEmpty_iff]
      exact hall
    have e := removeInGrid_cell hwf (cfg := cfg) (dir := dir) (f := f) (o := 0) (j := j) hg hi
    rw [hlast, he] at e
    cases dir <;> exact e

/-! ## Whole rows -/

/-- The nodes are erased by as many presses as they count, whatever is beside them. -/
def Erased (cfg : Cfg) (dir : HDir) (x : Row) : Prop :=
  rowWf x = true → ∀ l r, Presses cfg dir (rowPresses dir x) (l ++ x ++ r) ⟨[], eraseStart dir l x⟩
    (l ++ r) ⟨[], l.length⟩

theorem Erased.nil : Erased cfg dir [] := by
  intro _ l r
  have : eraseStart dir l [] = l.length := by cases dir <;> simp [eraseStart]
  rw [this]
  simpa [rowPresses] using Presses.zero (cfg := cfg) (dir := dir) (l ++ r) ⟨[], l.length⟩

theorem Erased.append {x y : Row} (hx : Erased cfg dir x) (hy : Erased cfg dir y) :
    Erased cfg dir (x ++ y) := by
  intro hwf l r
  rw [rowWf_append, Bool.and_eq_true] at hwf
  rw [rowPresses_append]
  cases dir with
  | left =>
    have h1 := hy hwf.2 (l ++ x) r
    have h2 := hx hwf.1 l r
    have := h1.trans (by simpa [eraseStart] using h2)
    simpa [eraseStart, Nat.add_comm, Nat.add_assoc, Nat.add_left_comm] using this
  | right =>
    have h1 := hx hwf.1 l (y ++ r)
    have h2 := hy hwf.2 l r
    have := h1.trans (by simpa [eraseStart] using h2)
    simpa [eraseStart] using this

theorem nextTo_eraseStart (l : Row) (n : Node) : nextTo dir l.length = eraseStart dir l [n] := by
  cases dir <;> simp [nextTo, eraseStart]

theorem Erased.symbol (s : Str) : Erased cfg dir [.symbol s] := by
  intro _ l r
  have := Presses.symbol (cfg := cfg) (dir := dir) (row := l ++ [.symbol s] ++ r) (i := l.length)
    (s := s) (by simp)
  simpa [rowPresses, Node.presses, nextTo_eraseStart l (.symbol s)] using this

/-- A cell is emptied. -/
theorem Erased.cell {c row : Row} {i j : Nat} {v : Variant} {cells : List Row} {w : Nat}
    (h : Erased cfg dir c) (hwf : rowWf c = true) (hi : row[i]? = some (.container v cells w))
    (hj : cells[j]? = some c) :
    Presses cfg dir (rowPresses dir c) row ⟨[(i, j)], eraseEnd dir c⟩
      (row.set i (.container v (cells.set j []) w)) ⟨[(i, j)], 0⟩ := by
  have h1 := h hwf [] []
  have : eraseStart dir [] c = eraseEnd dir c := by cases dir <;> simp [eraseStart, eraseEnd]
  rw [this] at h1
  simp only [List.nil_append, List.append_nil, List.length_nil] at h1
  exact h1.lift hi hj

theorem set_mid (l r : Row) (n m : Node) : (l ++ [n] ++ r).set l.length m = l ++ [m] ++ r := by
  simp

theorem get_mid (l r : Row) (n : Node) : (l ++ [n] ++ r)[l.length]? = some n := by simp

theorem take_drop_mid (l r x : Row) (n : Node) :
    (l ++ [n] ++ r).take l.length ++ x ++ (l ++ [n] ++ r).drop (l.length + 1) = l ++ x ++ r := by
  simp

theorem cellsPresses_append (dir : HDir) (a b : List Row) :
    cellsPresses dir (a ++ b) = cellsPresses dir a + cellsPresses dir b := by
  induction a with
  | nil => simp [cellsPresses]
  | cons n ns ih => simp only [List.cons_append, cellsPresses, ih]; omega

theorem Erased.script {c : Row} {v : Variant} {w : Nat} (h : Erased cfg dir c)
    (hv : v = .sub ∨ v = .sup) : Erased cfg dir [.container v [c] w] := by
  intro hwf l r
  have hc : rowWf c = true :=
    (wf_container.1 (rowWf_iff.1 hwf _ (List.mem_singleton.2 rfl))).2 c (List.mem_singleton.2 rfl)
  have hmid := get_mid l r (.container v [c] w)
  rw [← nextTo_eraseStart l]
  cases dir with
  | left =>
    have h1 := Presses.enter (cfg := cfg) (dir := .left) hmid (c := c) rfl nofun
    have h2 := h.cell hc hmid (j := 0) rfl
    rw [set_mid] at h2
    have h3 := Presses.script (cfg := cfg) (get_mid l r (.container v [[]] w)) hv
    have := (h1.trans h2).trans h3
    have hk : rowPresses .left [.container v [c] w] = 1 + rowPresses .left c + 1 := by
      rcases hv with rfl | rfl <;> simp [rowPresses, Node.presses, cellsPresses, Variant.presses] <;>
        omega
    rw [hk]
    simpa using this
  | right =>
    have h1 := Presses.scriptRight (cfg := cfg) hmid hv
    rw [take_drop_mid] at h1
    have h2 := h hc l r
    have := h1.trans h2
    have hk : rowPresses .right [.container v [c] w] = 1 + rowPresses .right c := by
      rcases hv with rfl | rfl <;> simp [rowPresses, Node.presses, cellsPresses, Variant.presses]
    rw [hk]
    exact this

theorem Erased.pair {a b : Row} {v : Variant} {w : Nat} (ha : Erased cfg dir a)
    (hb : Erased cfg dir b) (hv : v = .fraction ∨ v = .root) :
    Erased cfg dir [.container v [a, b] w] := by
  intro hwf l r
  have hn := (wf_container.1 (rowWf_iff.1 hwf _ (List.mem_singleton.2 rfl))).2
  have hwa := hn a (by simp)
  have hwb := hn b (by simp)
  have hmid := get_mid l r (.container v [a, b] w)
  rw [← nextTo_eraseStart l]
  have hk : rowPresses dir [.container v [a, b] w] = 2 + rowPresses dir a + rowPresses dir b := by
    rcases hv with rfl | rfl <;> cases dir <;>
      simp [rowPresses, Node.presses, cellsPresses, Variant.presses] <;> omega
  rw [hk]
  cases dir with
  | left =>
    have h1 := Presses.enter (cfg := cfg) (dir := .left) hmid (c := b) rfl nofun
    have h2 := hb.cell hwb hmid (j := 1) rfl
    rw [set_mid] at h2
    have h3 := Presses.pair (cfg := cfg) (dir := .left) (get_mid l r (.container v [a, []] w)) hv rfl
    rw [take_drop_mid] at h3
    have := ((h1.trans h2).trans h3).trans (ha hwa l r)
    rw [show 2 + rowPresses .left a + rowPresses .left b =
      1 + rowPresses .left b + 1 + rowPresses .left a by omega]
    exact this
  | right =>
    have h1 := Presses.enter (cfg := cfg) (dir := .right) hmid (c := a) rfl
      (fun _ => by rcases hv with rfl | rfl <;> simp)
    have h2 := ha.cell hwa hmid (j := 0) rfl
    rw [set_mid] at h2
    have h3 := Presses.pair (cfg := cfg) (dir := .right) (get_mid l r (.container v [[], b] w)) hv rfl
    rw [take_drop_mid] at h3
    have := ((h1.trans h2).trans h3).trans (hb hwb l r)
    rw [show 2 + rowPresses .right a + rowPresses .right b =
      1 + rowPresses .right a + 1 + rowPresses .right b by omega]
    exact this

/-- The cells are emptied one after the other, the others being empty already. -/
theorem Erased.cellsLeft {w : Nat} (l r : Row) (cells : List Row) :
    ∀ (c : Row) (m : Nat), (∀ x ∈ cells, Erased cfg .left x ∧ rowWf x = true) →
      Erased cfg .left c → rowWf c = true →
      Presses cfg .left (cellsPresses .left (cells ++ [c]) + cells.length + 1)
        (l ++ [.container .table (cells ++ c :: List.replicate m []) w] ++ r)
        ⟨[(l.length, cells.length)], c.length⟩ (l ++ r) ⟨[], l.length⟩ := by
  induction cells using List.reverseRecOn with
  | nil =>
    intro c m _ hc hwc
    have hmid := get_mid l r (.container .table ([] ++ c :: List.replicate m []) w)
    have h1 := hc.cell hwc hmid (j := 0) rfl
    rw [set_mid] at h1
    have h2 := Presses.table (cfg := cfg) (dir := .left)
      (get_mid l r (.container .table ([] :: List.replicate m []) w)) (j := 0) rfl
      (by simp) rfl
    have := h1.trans h2
    simpa [cellsPresses, eraseEnd] using this
  | append_singleton cells d ih =>
    intro c m hcells hc hwc
    have hmid := get_mid l r (.container .table ((cells ++ [d]) ++ c :: List.replicate m []) w)
    have h1 := hc.cell hwc hmid (j := cells.length + 1) (by simp)
    rw [set_mid] at h1
    have hset : ((cells ++ [d]) ++ c :: List.replicate m []).set (cells.length + 1) [] =
        cells ++ d :: List.replicate (m + 1) [] := by
      simp [List.replicate_succ]
    rw [hset] at h1
    have hmid2 := get_mid l r (.container .table (cells ++ d :: List.replicate (m + 1) []) w)
    have h2 := Presses.next (cfg := cfg) (dir := .left) hmid2 (j := cells.length + 1)
      (j' := cells.length) (c := d) (by simp [List.replicate_succ]) (by simp) rfl
    obtain ⟨hd, hwd⟩ := hcells d (by simp)
    have h3 := ih d (m + 1) (fun x hx => hcells x (by simp [hx])) hd hwd
    have := (h1.trans h2).trans h3
    rw [show cellsPresses .left (cells ++ [d] ++ [c]) + (cells ++ [d]).length + 1 =
      rowPresses .left c + 1 + (cellsPresses .left (cells ++ [d]) + cells.length + 1) by
        rw [cellsPresses_append (a := cells ++ [d])]
        simp only [cellsPresses, List.length_append, List.length_singleton]
        omega]
    simpa [eraseEnd] using this

theorem Erased.cellsRight {w : Nat} (l r : Row) (cells : List Row) :
    ∀ (c : Row) (m : Nat), (∀ x ∈ cells, Erased cfg .right x ∧ rowWf x = true) →
      Erased cfg .right c → rowWf c = true →
      Presses cfg .right (cellsPresses .right (c :: cells) + cells.length + 1)
        (l ++ [.container .table (List.replicate m [] ++ c :: cells) w] ++ r)
        ⟨[(l.length, m)], 0⟩ (l ++ r) ⟨[], l.length⟩ := by
  induction cells with
  | nil =>
    intro c m _ hc hwc
    have hmid := get_mid l r (.container .table (List.replicate m [] ++ [c]) w)
    have h1 := hc.cell hwc hmid (j := m) (by simp)
    rw [set_mid] at h1
    have h2 := Presses.table (cfg := cfg) (dir := .right)
      (get_mid l r (.container .table ((List.replicate m [] ++ [c]).set m []) w)) (j := m)
      (by simp) (by
        have : (List.replicate m [] ++ [c]).set m [] = List.replicate (m + 1) [] := by
          simp [List.replicate_succ']
        rw [this]
        simp) (by simp [gridEdge])
    have := h1.trans h2
    simpa [cellsPresses, eraseEnd] using this
  | cons d cells ih =>
    intro c m hcells hc hwc
    have hmid := get_mid l r (.container .table (List.replicate m [] ++ c :: d :: cells) w)
    have h1 := hc.cell hwc hmid (j := m) (by simp)
    rw [set_mid] at h1
    have hset : (List.replicate m [] ++ c :: d :: cells).set m [] =
        List.replicate (m + 1) [] ++ d :: cells := by
      simp [List.replicate_succ']
    rw [hset] at h1
    have hmid2 := get_mid l r (.container .table (List.replicate (m + 1) [] ++ d :: cells) w)
    have h2 := Presses.next (cfg := cfg) (dir := .right) hmid2 (j := m)
      (j' := m + 1) (c := d) (by rw [List.replicate_succ']; simp) (by simp) rfl
    obtain ⟨hd, hwd⟩ := hcells d (by simp)
    have h3 := ih d (m + 1) (fun x hx => hcells x (by simp [hx])) hd hwd
    have := (h1.trans h2).trans h3
    rw [show cellsPresses .right (c :: d :: cells) + (d :: cells).length + 1 =
      rowPresses .right c + 1 + (cellsPresses .right (d :: cells) + cells.length + 1) by
        simp only [cellsPresses, List.length_cons]
        omega]
    simpa [eraseEnd] using this

theorem Erased.table {cells : List Row} {w : Nat} (h : ∀ c ∈ cells, Erased cfg dir c) :
    Erased cfg dir [.container .table cells w] := by
  intro hwf l r
  have hn := wf_container.1 (rowWf_iff.1 hwf _ (List.mem_singleton.2 rfl))
  obtain ⟨-, -, hpos⟩ := shapeOk_pos hn.1
  have hmid := get_mid l r (.container .table cells w)
  rw [← nextTo_eraseStart l]
  have hk : rowPresses dir [.container .table cells w] =
      1 + (cellsPresses dir cells + cells.length) := by
    cases dir <;> simp [rowPresses, Node.presses, Variant.presses] <;> omega
  rw [hk]
  cases dir with
  | left =>
    cases cells using List.reverseRecOn with
    | nil => simp at hpos
    | append_singleton cells c =>
      have h1 := Presses.enter (cfg := cfg) (dir := .left) hmid (c := c) (by simp [entryCell]) nofun
      have h2 := Erased.cellsLeft (cfg := cfg) (w := w) l r cells c 0
        (fun x hx => ⟨h x (by simp [hx]), hn.2 x (by simp [hx])⟩) (h c (by simp)) (hn.2 c (by simp))
      have := h1.trans (by simpa [entryCell, eraseEnd] using h2)
      simpa [Nat.add_assoc] using this
  | right =>
    cases cells with
    | nil => simp at hpos
    | cons c cells =>
      have h1 := Presses.enter (cfg := cfg) (dir := .right) hmid (c := c) rfl (by simp)
      have h2 := Erased.cellsRight (cfg := cfg) (w := w) l r cells c 0
        (fun x hx => ⟨h x (by simp [hx]), hn.2 x (by simp [hx])⟩) (h c (by simp)) (hn.2 c (by simp))
      have := h1.trans (by simpa [entryCell, eraseEnd] using h2)
      simpa [Nat.add_assoc] using this

/-- A container whose cells can be erased. -/
theorem Erased.container {v : Variant} {cells : List Row} {w : Nat}
    (h : ∀ c ∈ cells, Erased cfg dir c) : Erased cfg dir [.container v cells w] := by
  intro hwf
  have hn := (wf_container.1 (rowWf_iff.1 hwf _ (List.mem_singleton.2 rfl))).1
  revert hwf
  show Erased cfg dir [.container v cells w]
  cases v with
  | table => exact Erased.table h
  | fraction =>
    match cells, h, hn with
    | [a, b], h, _ => exact Erased.pair (h a (by simp)) (h b (by simp)) (Or.inl rfl)
  | root =>
    match cells, h, hn with
    | [a, b], h, _ => exact Erased.pair (h a (by simp)) (h b (by simp)) (Or.inr rfl)
  | sub =>
    match cells, h, hn with
    | [a], h, _ => exact Erased.script (h a (by simp)) (Or.inl rfl)
  | sup =>
    match cells, h, hn with
    | [a], h, _ => exact Erased.script (h a (by simp)) (Or.inr rfl)

mutual

theorem erased_node : ∀ n : Node, Erased cfg dir [n]
  | .symbol s => Erased.symbol s
  | .container _ cells _ => Erased.container (erased_cells cells)

theorem erased_row : ∀ x : Row, Erased cfg dir x
  | [] => Erased.nil
  | n :: ns => Erased.append (x := [n]) (erased_node n) (erased_row ns)

theorem erased_cells : ∀ cells : List Row, ∀ c ∈ cells, Erased cfg dir c
  | [], _, h => nomatch h
  | c :: cs, d, h => (List.mem_cons.1 h).elim (fun e => e ▸ erased_row c) (erased_cells cs d)

end

end Aftermath
