import Verif.Proof.Erase
import Verif.Spec.EraseAll

/-! # Erasing everything before or behind a caret -/

namespace Aftermath

variable {cfg : Cfg}

/-- The place in a cell from which Backspace or Delete leaves it. -/
def exitEnd (dir : HDir) (c : Row) : Nat :=
  match dir with
  | .left => 0
  | .right => c.length

variable {dir : HDir}

theorem exitEnd_le (c : Row) : exitEnd dir c ≤ c.length := by
  cases dir
  · exact Nat.zero_le _
  · exact Nat.le_refl _

theorem removeAtCaretPosition_exit (f : FocusRow) :
    removeAtCaretPosition cfg ⟨f, exitEnd dir f.row⟩ dir =
      removeAtEdge cfg ⟨f, exitEnd dir f.row⟩ dir := by
  cases dir <;> simp [removeAtCaretPosition, offsetToIndex, exitEnd]

theorem exitCell {root : Row} (hwf : rowWf root = true) {q : RowIndices} {g : FocusRow} {i j : Nat}
    {v : Variant} {cells : List Row} {w : Nat} {c : Row} (hg : IsFocus root q g)
    (hi : g.row[i]? = some (.container v cells w)) (hj : cells[j]? = some c) :
    ∃ f, IsFocus root (q ++ [(i, j)]) f ∧ f.row = c := by
  obtain ⟨f, -, h2, h3⟩ := hg.child_ok hwf hi hj
  exact ⟨f, h2, h3⟩

/-- A container that goes when the caret leaves a cell of it. -/
theorem Presses.exitFlatten {row c : Row} {i j k : Nat} {v : Variant} {cells : List Row} {w : Nat}
    (hi : row[i]? = some (.container v cells w)) (hj : cells[j]? = some c)
    (h : ∀ root q f g, rowWf root = true → IsFocus root q g → g.row = row →
      IsFocus root (q ++ [(i, j)]) f → f.row = c →
      removeAtEdge cfg ⟨f, exitEnd dir c⟩ dir =
        (do let r ← flattenNode ⟨.container v cells w, g, i⟩ k; .ok (some r))) :
    Presses cfg dir 1 row ⟨[(i, j)], exitEnd dir c⟩
      (row.take i ++ cells.flatten ++ row.drop (i + 1)) ⟨[], i + k⟩ := by
  refine .ofFlatten hi ?_
  rintro root q g hwf hg rfl
  obtain ⟨f, h1, rfl⟩ := exitCell hwf hg hi hj
  exact ⟨f, h1, exitEnd_le _, by rw [removeAtCaretPosition_exit]; exact h root q f g hwf hg rfl h1 rfl⟩

/-- A container that stays. -/
theorem Presses.exitMove {row c : Row} {i j : Nat} {v : Variant} {cells : List Row} {w : Nat}
    {p' : MinPos} (hi : row[i]? = some (.container v cells w)) (hj : cells[j]? = some c)
    (h : ∀ root q f g, rowWf root = true → IsFocus root q g → g.row = row →
      IsFocus root (q ++ [(i, j)]) f → f.row = c →
      removeAtEdge cfg ⟨f, exitEnd dir c⟩ dir = removeMove cfg ⟨f, exitEnd dir c⟩ dir ∧
      ∃ x, moveCaretInternal cfg ⟨f, exitEnd dir c⟩ dir.toDir = .ok (some x) ∧
        x.toMinimal = ⟨q ++ p'.rowIndices, p'.offset⟩) :
    Presses cfg dir 1 row ⟨[(i, j)], exitEnd dir c⟩ row p' := by
  refine .ofMove fun root q hwf hrow => ?_
  obtain ⟨g, hg, rfl⟩ := IsFocus.exists_of_wf hwf hrow
  obtain ⟨f, h1, rfl⟩ := exitCell hwf hg hi hj
  obtain ⟨h2, x, h3, h4⟩ := h root q f g hwf hg rfl h1 rfl
  exact ⟨f, x, h1, exitEnd_le _, by rw [removeAtCaretPosition_exit]; exact h2, h3, h4⟩

/-- The caret leaves the container it is in, which stays or goes. -/
def leftAt (dir : HDir) (i : Nat) : Nat :=
  match dir with
  | .left => i
  | .right => i + 1

/-- The condition for leaving: Backspace goes out of the first cell only where the subtraction wraps
to no cell. -/
def CanLeave (cfg : Cfg) (dir : HDir) (n : Nat) : Prop :=
  dir = .left → cfg.checks = false ∧ n < 2 ^ cfg.bits

/-- Leaving by the first or the last cell, in the general case. -/
theorem Presses.exitGrid {row c : Row} {i j : Nat} {v : Variant} {cells : List Row} {w : Nat}
    (hi : row[i]? = some (.container v cells w)) (hj : cells[j]? = some c)
    (he : gridEdge dir j cells.length = true) (hl : CanLeave cfg dir cells.length)
    (h : ∀ root q f g o, IsFocus root (q ++ [(i, j)]) f → IsFocus root q g → g.row = row →
      removeAtEdge cfg ⟨f, o⟩ dir = removeInGrid cfg ⟨f, o⟩ dir ⟨.container v cells w, g, i⟩ j) :
    (cells.all List.isEmpty = true ∧
      Presses cfg dir 1 row ⟨[(i, j)], exitEnd dir c⟩ (row.take i ++ row.drop (i + 1)) ⟨[], i⟩) ∨
    Presses cfg dir 1 row ⟨[(i, j)], exitEnd dir c⟩ row ⟨[], leftAt dir i⟩ := by
  cases hall : cells.all List.isEmpty with
  | true =>
    left
    refine ⟨rfl, ?_⟩
    have := Presses.exitFlatten (cfg := cfg) (dir := dir) (k := 0) hi hj ?_
    · have he : cells.flatten = [] := by
        simpa [List.all_eq_true] using hall
      simpa [he] using this
    · rintro root q f g hwf hg rfl hf -
      rw [h root q f g _ hf hg rfl, removeInGrid_cell hwf hg hi, he, hall]
      rfl
  | false =>
    right
    refine .exitMove hi hj ?_
    rintro root q f g hwf hg rfl hf rfl
    refine ⟨?_, ?_⟩
    · rw [h root q f g _ hf hg rfl, removeInGrid_cell hwf hg hi, he, hall]
      rfl
    · cases dir with
      | left =>
        have hj0 : j = 0 := by simpa [gridEdge] using he
        subst hj0
        obtain ⟨hc, hn⟩ := hl rfl
        refine ⟨⟨g, i⟩, ?_, by simp [Position.toMinimal, hg.rowIndices_eq, leftAt]⟩
        have hlt := (List.getElem?_eq_some_iff.1 hi).1
        obtain ⟨g', v', cells', w', hg', hi', -, -, hpar⟩ := hf.parent_snoc
        have := hg'.unique hg; subst this
        rw [hi] at hi'; cases hi'
        simp only [exitEnd, HDir.toDir, moveCaretInternal, move_into_left_start, M.ok_bind,
          moveHorizontalBeyondEdge, hpar, hf.indexInParent_snoc,
          usub_lt_release hc (show 0 < 1 by omega)]
        rw [hg.child_none hwf hi (by omega)]
        simp only [M.ok_bind]
        rw [Position.new_ok (by omega)]
        rfl
      | right =>
        have hjn : cells.length ≤ j + 1 := by
          have : j ≥ cells.length - 1 := by simpa [gridEdge] using he
          omega
        exact ⟨⟨g, i + 1⟩, move_right_leave hwf hf hg hi hjn, by
          simp [Position.toMinimal, hg.rowIndices_eq, leftAt]⟩

/-- On to the next cell of a table. -/
theorem Presses.exitNext {row c d : Row} {i j j' : Nat} {cells : List Row} {w : Nat}
    (hi : row[i]? = some (.container .table cells w)) (hj : cells[j]? = some c)
    (hj' : cells[j']? = some d) (hjj : match dir with | .left => j = j' + 1 | .right => j' = j + 1) :
    Presses cfg dir 1 row ⟨[(i, j)], exitEnd dir c⟩ row ⟨[(i, j')], eraseEnd dir d⟩ := by
  refine .exitMove hi hj ?_
  rintro root q f g hwf hg rfl hf rfl
  refine ⟨?_, ?_⟩
  · rw [removeAtEdge_cell hf hg hi]
    have hlt := (List.getElem?_eq_some_iff.1 hj').1
    have : gridEdge dir j cells.length = false := by
      cases dir <;> simp only at hjj <;> simp [gridEdge, hjj]
      omega
    have e := removeInGrid_cell hwf (cfg := cfg) (dir := dir) (f := f) (o := exitEnd dir f.row)
      (j := j) hg hi
    rw [this] at e
    cases dir <;> exact e
  · cases dir with
    | left =>
      simp only at hjj
      subst hjj
      obtain ⟨f', h3, h4, h5⟩ := move_left_next hwf (cfg := cfg) hf hg hi hj'
      subst h5
      exact ⟨_, h3, by simp [Position.toMinimal, h4.rowIndices_eq, eraseEnd]⟩
    | right =>
      simp only at hjj
      subst hjj
      obtain ⟨f', h3, h4, h5⟩ := move_right_next hwf (cfg := cfg) hf hg hi hj'
      exact ⟨_, h3, by simp [Position.toMinimal, h4.rowIndices_eq, eraseEnd]⟩

/-! ## Out of a container -/

/-- From a place in the row the presses lead to its start (Backspace) or end (Delete), and of the
symbols only these are left. -/
def Clears (cfg : Cfg) (dir : HDir) (row : Row) (p : MinPos) (syms : List Str) : Prop :=
  ∃ k row', Presses cfg dir k row p row' ⟨[], exitEnd dir row'⟩ ∧ rowSymbols row' = syms

theorem Clears.step {k : Nat} {row row' : Row} {p p' : MinPos} {syms : List Str}
    (h : Presses cfg dir k row p row' p') (h' : Clears cfg dir row' p' syms) :
    Clears cfg dir row p syms := by
  obtain ⟨k', r, h1, h2⟩ := h'
  exact ⟨k + k', r, h.trans h1, h2⟩

/-- In the row itself. -/
theorem Clears.row (l r : Row) (hwf : rowWf (l ++ r) = true) :
    Clears cfg dir (l ++ r) ⟨[], l.length⟩
      (match dir with | .left => rowSymbols r | .right => rowSymbols l) := by
  rw [rowWf_append, Bool.and_eq_true] at hwf
  cases dir with
  | left =>
    have h := erased_row (cfg := cfg) (dir := .left) l hwf.1 [] r
    refine ⟨rowPresses .left l, r, ?_, rfl⟩
    simpa [eraseStart, exitEnd] using h
  | right =>
    have h := erased_row (cfg := cfg) (dir := .right) r hwf.2 l []
    refine ⟨rowPresses .right r, l, ?_, rfl⟩
    simpa [eraseStart, exitEnd] using h

theorem wf_mid {l r : Row} {n : Node} (h : rowWf (l ++ [n] ++ r) = true) :
    rowWf l = true ∧ n.wf = true ∧ rowWf r = true := by
  rw [rowWf_append, rowWf_append, Bool.and_eq_true, Bool.and_eq_true] at h
  exact ⟨h.1.1, rowWf_iff.1 h.1.2 n (by simp), h.2⟩

theorem wf_flatten {l r : Row} {v : Variant} {cells : List Row} {w : Nat}
    (h : rowWf (l ++ [.container v cells w] ++ r) = true) :
    rowWf (l ++ cells.flatten ++ r) = true := by
  obtain ⟨h1, h2, h3⟩ := wf_mid h
  have hfl : rowWf cells.flatten = true := by
    refine rowWf_iff.2 fun n hn' => ?_
    obtain ⟨c, hc, hnc⟩ := List.mem_flatten.1 hn'
    exact rowWf_iff.1 ((wf_container.1 h2).2 c hc) n hnc
  rw [rowWf_append, rowWf_append, h1, hfl, h3]
  rfl

/-- The symbols that stay when the caret leaves the cell `j`. -/
def keptSymbols (dir : HDir) (l r c : Row) (cells : List Row) (j : Nat) : List Str :=
  match dir with
  | .left => rowSymbols c ++ cellsSymbols (cells.drop (j + 1)) ++ rowSymbols r
  | .right => rowSymbols l ++ (cellsSymbols (cells.take j) ++ rowSymbols c)

theorem cellsSymbols_empty {cells : List Row} (h : ∀ c ∈ cells, c = []) : cellsSymbols cells = [] := by
  induction cells with
  | nil => rfl
  | cons c cs ih =>
    rw [h c (by simp)]
    simp only [cellsSymbols, rowSymbols, List.nil_append]
    exact ih fun c hc => h c (by simp [hc])

/-- Leaving by the first or the last cell. -/
theorem Clears.edge {l r c : Row} {j : Nat} {v : Variant} {cells : List Row} {w : Nat}
    (hwf : rowWf (l ++ [.container v cells w] ++ r) = true) (hj : cells[j]? = some c)
    (he : gridEdge dir j cells.length = true) (hl : CanLeave cfg dir cells.length)
    (h : ∀ root q f g o, IsFocus root (q ++ [(l.length, j)]) f → IsFocus root q g →
      g.row = l ++ [.container v cells w] ++ r →
      removeAtEdge cfg ⟨f, o⟩ dir = removeInGrid cfg ⟨f, o⟩ dir ⟨.container v cells w, g, l.length⟩ j) :
    Clears cfg dir (l ++ [.container v cells w] ++ r) ⟨[(l.length, j)], exitEnd dir c⟩
      (keptSymbols dir l r c cells j) := by
  have hmid := get_mid l r (.container v cells w)
  have hlt := (List.getElem?_eq_some_iff.1 hj).1
  rcases Presses.exitGrid hmid hj he hl h with ⟨hall, h1⟩ | h1
  · have hall' : ∀ c ∈ cells, c = [] := by simpa [List.all_eq_true] using hall
    have h2 := take_drop_mid l r [] (.container v cells w)
    simp only [List.append_nil] at h2
    rw [h2] at h1
    have hc : c = [] := hall' c (List.mem_of_getElem? hj)
    obtain ⟨g1, -, g3⟩ := wf_mid hwf
    have h3 := Clears.step h1 (Clears.row l r (by rw [rowWf_append, g1, g3]; rfl))
    have e1 := cellsSymbols_empty fun d hd => hall' d (List.mem_of_mem_drop (i := j + 1) hd)
    have e2 := cellsSymbols_empty fun d hd => hall' d (List.mem_of_mem_take (i := j) hd)
    cases dir <;> simpa [keptSymbols, hc, rowSymbols, e1, e2] using h3
  · cases dir with
    | left =>
      have hj0 : j = 0 := by simpa [gridEdge] using he
      subst hj0
      have h2 := Clears.row (cfg := cfg) (dir := .left) l ([.container v cells w] ++ r)
        (by simpa using hwf)
      have h3 := Clears.step h1 (by simpa [leftAt] using h2)
      cases cells with
      | nil => simp at hlt
      | cons d ds =>
        cases hj
        simpa [keptSymbols, rowSymbols, Node.symbols, cellsSymbols] using h3
    | right =>
      have hjn : j + 1 = cells.length := by
        have : j ≥ cells.length - 1 := by simpa [gridEdge] using he
        omega
      have h2 := Clears.row (cfg := cfg) (dir := .right) (l ++ [.container v cells w]) r
        (by simpa using hwf)
      have h3 := Clears.step h1 (by simpa [leftAt] using h2)
      have e1 : cells = cells.take j ++ [c] := by
        conv_lhs => rw [split_getElem? hj]
        rw [List.drop_of_length_le (by omega)]
      have e2 : cellsSymbols cells = cellsSymbols (cells.take j) ++ rowSymbols c := by
        conv_lhs => rw [e1]
        rw [cellsSymbols_append]
        simp [cellsSymbols]
      simpa [keptSymbols, rowSymbols_append, rowSymbols, Node.symbols, e2] using h3

/-- Out of a table. -/
theorem Clears.table {l r : Row} {w : Nat} (n : Nat) : ∀ {j : Nat} {c : Row} {cells : List Row},
    (match dir with | .left => j = n | .right => j + n + 1 = cells.length) →
    rowWf (l ++ [.container .table cells w] ++ r) = true → cells[j]? = some c →
    CanLeave cfg dir cells.length →
    Clears cfg dir (l ++ [.container .table cells w] ++ r) ⟨[(l.length, j)], exitEnd dir c⟩
      (keptSymbols dir l r c cells j) := by
  have hgrid : ∀ {j : Nat} {cells : List Row} root q f g o, IsFocus root (q ++ [(l.length, j)]) f →
      IsFocus root q g → g.row = l ++ [.container .table cells w] ++ r →
      removeAtEdge cfg ⟨f, o⟩ dir =
        removeInGrid cfg ⟨f, o⟩ dir ⟨.container .table cells w, g, l.length⟩ j := by
    intro j cells root q f g o hf hg hrow
    rw [removeAtEdge_cell hf hg (by rw [hrow]; exact get_mid _ _ _)]
  induction n with
  | zero =>
    intro j c cells hn hwf hj hl
    exact Clears.edge hwf hj (by cases dir <;> simp only at hn <;> simp [gridEdge] <;> omega) hl hgrid
  | succ n ih =>
    intro j c cells hn hwf hj hl
    have hmid := get_mid l r (.container .table cells w)
    have hlt := (List.getElem?_eq_some_iff.1 hj).1
    have hnode := wf_container.1 (wf_mid hwf).2.1
    cases dir with
    | left =>
      simp only at hn
      subst hn
      have hlt' : n < cells.length := by omega
      have hd := List.getElem?_eq_getElem hlt'
      generalize cells[n] = d at hd
      have h1 := Presses.exitNext (cfg := cfg) (dir := .left) hmid hj hd rfl
      have h2 := (erased_row (cfg := cfg) (dir := .left) d).cell (hnode.2 d (List.mem_of_getElem? hd))
        hmid hd
      rw [set_mid] at h2
      have hwf' : rowWf (l ++ [.container .table (cells.set n []) w] ++ r) = true := by
        obtain ⟨g1, -, g3⟩ := wf_mid hwf
        rw [rowWf_append, rowWf_append, g1, g3]
        simp only [Bool.and_true, Bool.true_and]
        refine rowWf_iff.2 fun n' hn' => ?_
        rw [List.mem_singleton.1 hn']
        refine wf_container.2 ⟨by rw [List.length_set]; exact hnode.1, fun x hx => ?_⟩
        rcases List.mem_or_eq_of_mem_set hx with h | rfl
        · exact hnode.2 x h
        · rfl
      have h3 := ih (j := n) (c := []) (cells := cells.set n []) rfl hwf' (by simp [hlt'])
        (by rw [List.length_set]; exact hl)
      have h4 := Clears.step (h1.trans h2) h3
      have e : keptSymbols .left l r [] (cells.set n []) n =
          keptSymbols .left l r c cells (n + 1) := by
        simp only [keptSymbols, rowSymbols, List.nil_append]
        rw [List.drop_set_of_lt (by omega), List.drop_eq_getElem_cons hlt,
          (List.getElem?_eq_some_iff.1 hj).2]
        simp only [cellsSymbols]
      rw [← e]
      exact h4
    | right =>
      simp only at hn
      have hlt' : j + 1 < cells.length := by omega
      have hd := List.getElem?_eq_getElem hlt'
      generalize cells[j + 1] = d at hd
      have h1 := Presses.exitNext (cfg := cfg) (dir := .right) hmid hj hd rfl
      have h2 := (erased_row (cfg := cfg) (dir := .right) d).cell
        (hnode.2 d (List.mem_of_getElem? hd)) hmid hd
      rw [set_mid] at h2
      have hwf' : rowWf (l ++ [.container .table (cells.set (j + 1) []) w] ++ r) = true := by
        obtain ⟨g1, -, g3⟩ := wf_mid hwf
        rw [rowWf_append, rowWf_append, g1, g3]
        simp only [Bool.and_true, Bool.true_and]
        refine rowWf_iff.2 fun n' hn' => ?_
        rw [List.mem_singleton.1 hn']
        refine wf_container.2 ⟨by rw [List.length_set]; exact hnode.1, fun x hx => ?_⟩
        rcases List.mem_or_eq_of_mem_set hx with h | rfl
        · exact hnode.2 x h
        · rfl
      have h3 := ih (j := j + 1) (c := []) (cells := cells.set (j + 1) [])
        (by simp only [List.length_set]; omega) hwf' (by simp [hlt'])
        (by rw [List.length_set]; exact hl)
      have h4 := Clears.step (h1.trans h2) h3
      have e : keptSymbols .right l r [] (cells.set (j + 1) []) (j + 1) =
          keptSymbols .right l r c cells j := by
        simp only [keptSymbols, rowSymbols, List.append_nil]
        rw [List.take_set_of_le (Nat.le_refl _), List.take_add_one, hj, cellsSymbols_append]
        simp only [Option.toList, cellsSymbols, List.append_nil]
      rw [← e]
      exact h4

/-- Out of any container. -/
theorem Clears.out {l r c : Row} {j : Nat} {v : Variant} {cells : List Row} {w : Nat}
    (hwf : rowWf (l ++ [.container v cells w] ++ r) = true) (hj : cells[j]? = some c)
    (hl : CanLeave cfg dir cells.length) :
    Clears cfg dir (l ++ [.container v cells w] ++ r) ⟨[(l.length, j)], exitEnd dir c⟩
      (keptSymbols dir l r c cells j) := by
  have hmid := get_mid l r (.container v cells w)
  have hlt := (List.getElem?_eq_some_iff.1 hj).1
  have hshape := (wf_container.1 (wf_mid hwf).2.1).1
  have script : ∀ a : Row, (v = .sub ∨ v = .sup) → cells = [a] →
      Clears cfg dir (l ++ [.container v cells w] ++ r) ⟨[(l.length, j)], exitEnd dir c⟩
        (keptSymbols dir l r c cells j) := by
    rintro a hv rfl
    have hj0 : j = 0 := by simpa using hlt
    subst hj0
    cases hj
    cases dir with
    | left =>
      have h1 := Presses.exitFlatten (cfg := cfg) (dir := .left) (k := 0) hmid (j := 0) (c := c) rfl ?_
      · rw [take_drop_mid] at h1
        have h2 := Clears.row (cfg := cfg) (dir := .left) l (c ++ r)
          (by simpa using wf_flatten hwf)
        have := Clears.step h1 (by simpa using h2)
        simpa [keptSymbols, rowSymbols_append, cellsSymbols] using this
      · rintro root q f g hwf' hg hrow hf -
        rw [removeAtEdge_cell hf hg (by rw [hrow]; exact hmid)]
        rcases hv with rfl | rfl <;> rfl
    | right =>
      refine Clears.edge hwf rfl (by simp [gridEdge]) hl ?_
      intro root q f g o hf hg hrow
      rw [removeAtEdge_cell hf hg (by rw [hrow]; exact hmid)]
      rcases hv with rfl | rfl <;> rfl
  have pair : ∀ a b : Row, (v = .fraction ∨ v = .root) → cells = [a, b] →
      Clears cfg dir (l ++ [.container v cells w] ++ r) ⟨[(l.length, j)], exitEnd dir c⟩
        (keptSymbols dir l r c cells j) := by
    rintro a b hv rfl
    obtain ⟨hw, hm, -⟩ := shapeOk_pos hshape
    by_cases hmidj : (dir = .left ∧ j = 1) ∨ (dir = .right ∧ j = 0)
    · have h1 := Presses.exitFlatten (cfg := cfg) (dir := dir) (k := a.length) hmid hj ?_
      · rw [take_drop_mid] at h1
        have h2 := Clears.row (cfg := cfg) (dir := dir) (l ++ a) (b ++ r)
          (by simpa using wf_flatten hwf)
        have h3 := Clears.step h1 (by simpa using h2)
        rcases hmidj with ⟨rfl, rfl⟩ | ⟨rfl, rfl⟩ <;> cases hj <;>
          simpa [keptSymbols, rowSymbols_append, cellsSymbols] using h3
      · rintro root q f g hwf' hg hrow hf -
        rw [removeAtEdge_cell hf hg (by rw [hrow]; exact hmid)]
        rcases hv with rfl | rfl <;>
        · simp only [hmidj, if_true, getLinear_wf hw hm, M.ok_bind]
          simp [munwrap]
    · refine Clears.edge hwf hj ?_ hl ?_
      · have : j = 0 ∨ j = 1 := by simp at hlt; omega
        cases dir <;> rcases this with rfl | rfl <;> simp [gridEdge] at hmidj ⊢
      · intro root q f g o hf hg hrow
        rw [removeAtEdge_cell hf hg (by rw [hrow]; exact hmid)]
        rcases hv with rfl | rfl <;> simp only [hmidj, if_false]
  cases v with
  | table =>
    cases dir with
    | left => exact Clears.table j rfl hwf hj hl
    | right => exact Clears.table (cells.length - j - 1) (by simp only; omega) hwf hj hl
  | fraction =>
    obtain ⟨a, b, h⟩ : ∃ a b, cells = [a, b] := by
      match cells, hshape with
      | [a, b], _ => exact ⟨a, b, rfl⟩
    exact pair a b (.inl rfl) h
  | root =>
    obtain ⟨a, b, h⟩ : ∃ a b, cells = [a, b] := by
      match cells, hshape with
      | [a, b], _ => exact ⟨a, b, rfl⟩
    exact pair a b (.inr rfl) h
  | sub =>
    obtain ⟨a, h⟩ : ∃ a, cells = [a] := by
      match cells, hshape with
      | [a], _ => exact ⟨a, rfl⟩
    exact script a (.inl rfl) h
  | sup =>
    obtain ⟨a, h⟩ : ∃ a, cells = [a] := by
      match cells, hshape with
      | [a], _ => exact ⟨a, rfl⟩
    exact script a (.inr rfl) h

/-- From anywhere. -/
theorem Clears.any {q : RowIndices} : ∀ {row : Row} {o : Nat}, rowWf row = true →
    (dir = .left → cfg.checks = false ∧ rowFits cfg.bits row = true) → ValidPos row ⟨q, o⟩ →
    Clears cfg dir row ⟨q, o⟩
      (match dir with | .left => symbolsAfter row q o | .right => symbolsBefore row q o) := by
  induction q with
  | nil =>
    intro row o hwf hl hv
    obtain ⟨x, hx, ho⟩ := hv
    cases hx
    have h := Clears.row (cfg := cfg) (dir := dir) (row.take o) (row.drop o)
      (by rw [List.take_append_drop]; exact hwf)
    rw [List.take_append_drop, List.length_take, Nat.min_eq_left ho] at h
    cases dir <;> exact h
  | cons ix q ih =>
    obtain ⟨i, j⟩ := ix
    intro row o hwf hl hv
    obtain ⟨x, hx, ho⟩ := hv
    obtain ⟨v, cells, w, c, hi, hj, hx⟩ := rowAt_cons.1 hx
    have hn := wf_container.1 (rowWf_iff.1 hwf _ (List.mem_of_getElem? hi))
    have hcmem := List.mem_of_getElem? hj
    have hlt := (List.getElem?_eq_some_iff.1 hi).1
    have hjlt := (List.getElem?_eq_some_iff.1 hj).1
    obtain ⟨k, c', h1, h2⟩ := ih (row := c) (o := o) (hn.2 c hcmem)
      (fun hd => ⟨(hl hd).1, by
        have := fits_container.1 (rowFits_iff.1 (hl hd).2 _ (List.mem_of_getElem? hi))
        exact this.2 c hcmem⟩) ⟨x, hx, ho⟩
    have h3 := h1.lift hi hj
    have hsplit := split_getElem? hi
    have hlen : (row.take i).length = i := by rw [List.length_take]; omega
    have hset : row.set i (.container v (cells.set j c') w) =
        row.take i ++ [.container v (cells.set j c') w] ++ row.drop (i + 1) := by
      conv_lhs => rw [hsplit]
      have := set_mid (row.take i) (row.drop (i + 1)) (.container v cells w)
        (.container v (cells.set j c') w)
      rw [hlen] at this
      simpa using this
    have hwf' : rowWf (row.set i (.container v (cells.set j c') w)) = true := by
      obtain ⟨r', -, g1, g2, -⟩ := h3 row [] hwf rfl
      exact g2
    rw [hset] at hwf' h3
    have h4 := Clears.out (cfg := cfg) (dir := dir) (j := j) (c := c') hwf' (by simp [hjlt])
      (fun hd => ⟨(hl hd).1, by
        have := fits_container.1 (rowFits_iff.1 (hl hd).2 _ (List.mem_of_getElem? hi))
        rw [List.length_set]
        exact this.1⟩)
    rw [hlen] at h4
    have h5 := Clears.step h3 h4
    cases dir with
    | left =>
      simp only at h2
      simp only [symbolsAfter, hi, hj, ← h2]
      simp only [keptSymbols] at h5
      rw [List.drop_set_of_lt (by omega)] at h5
      exact h5
    | right =>
      simp only at h2
      simp only [symbolsBefore, hi, hj, ← h2]
      simp only [keptSymbols] at h5
      rw [List.take_set_of_le (Nat.le_refl _)] at h5
      exact h5

end Aftermath
