import Verif.Proof.Focus

/-! # What one arrow key press does, case by case -/

namespace Aftermath

theorem offsetToIndex_right {r : Row} {o : Nat} {n : Node} (h : r[o]? = some n) :
    offsetToIndex r o .right = some o := by
  have := (List.getElem?_eq_some_iff.1 h).1
  simp [offsetToIndex]; omega

theorem offsetToIndex_right_end {r : Row} {o : Nat} (h : r.length ≤ o) :
    offsetToIndex r o .right = none := by simp [offsetToIndex, h]

theorem offsetToIndex_left {r : Row} {o : Nat} : offsetToIndex r (o + 1) .left = some o := by
  simp [offsetToIndex]

theorem childAt_of_getElem? {f : FocusRow} {i : Nat} {n : Node} (h : f.row[i]? = some n) :
    f.childAt i = some ⟨n, f, i⟩ := by
  simp [FocusRow.childAt, h]

section Wf
variable {root : Row} {p q : RowIndices} {f : FocusRow}

theorem IsFocus.row_wf (hwf : rowWf root = true) (hf : IsFocus root p f) :
    rowWf f.row = true := rowAt_wf hwf hf.rowAt_eq

theorem IsFocus.node_wf (hwf : rowWf root = true) (hf : IsFocus root p f) {i : Nat} {n : Node}
    (h : f.row[i]? = some n) : n.wf = true :=
  rowWf_iff.1 (hf.row_wf hwf) _ (List.mem_of_getElem? h)

/-- Children of a container in a well-formed tree. -/
theorem IsFocus.child_ok (hwf : rowWf root = true) (hf : IsFocus root p f) {i : Nat} {v : Variant}
    {cells : List Row} {w : Nat} (hi : f.row[i]? = some (.container v cells w)) {j : Nat} {c : Row}
    (hc : cells[j]? = some c) :
    ∃ f', FocusNode.childAt ⟨.container v cells w, f, i⟩ j = .ok (some f') ∧
      IsFocus root (p ++ [(i, j)]) f' ∧ f'.row = c := by
  have hn := wf_container.1 (hf.node_wf hwf hi)
  obtain ⟨hw, hm, -⟩ := shapeOk_pos hn.1
  have hj := getLinear_wf hw hm j
  rw [hc] at hj
  exact hf.childAt_childAt hi hj

theorem IsFocus.child_none (hwf : rowWf root = true) (hf : IsFocus root p f) {i : Nat} {v : Variant}
    {cells : List Row} {w : Nat} (hi : f.row[i]? = some (.container v cells w)) {j : Nat}
    (hc : cells.length ≤ j) :
    FocusNode.childAt ⟨.container v cells w, f, i⟩ j = .ok none := by
  have hn := wf_container.1 (hf.node_wf hwf hi)
  obtain ⟨hw, hm, -⟩ := shapeOk_pos hn.1
  have hj := getLinear_wf hw hm j
  rw [List.getElem?_eq_none hc] at hj
  simp [FocusNode.childAt, hj]

/-! ## Right -/

theorem move_right_symbol {cfg : Cfg} {o : Nat} {s : Str} (h : f.row[o]? = some (.symbol s)) :
    moveCaretInternal cfg ⟨f, o⟩ .right = .ok (some ⟨f, o + 1⟩) := by
  have hlt := (List.getElem?_eq_some_iff.1 h).1
  simp only [moveCaretInternal, moveHorizontalInto, offsetToIndex_right h, childAt_of_getElem? h,
    munwrap_some, M.ok_bind]
  rw [Position.new_ok (by omega)]
  rfl

theorem move_right_enter (hwf : rowWf root = true) (hf : IsFocus root p f) {cfg : Cfg} {o : Nat}
    {v : Variant} {cells : List Row} {w : Nat} (h : f.row[o]? = some (.container v cells w)) :
    ∃ f', moveCaretInternal cfg ⟨f, o⟩ .right = .ok (some ⟨f', 0⟩) ∧
      IsFocus root (p ++ [(o, 0)]) f' ∧ cells[0]? = some f'.row := by
  have hn := wf_container.1 (hf.node_wf hwf h)
  obtain ⟨-, -, hpos⟩ := shapeOk_pos hn.1
  obtain ⟨f', h1, h2, h3⟩ := hf.child_ok hwf h (List.getElem?_eq_getElem hpos)
  refine ⟨f', ?_, h2, by rw [h3, List.getElem?_eq_getElem hpos]⟩
  simp only [moveCaretInternal, moveHorizontalInto, offsetToIndex_right h, childAt_of_getElem? h,
    munwrap_some, M.ok_bind, h1]
  rw [Position.new_ok (by omega)]
  rfl

theorem move_into_right_end {cfg : Cfg} {o : Nat} (h : f.row.length ≤ o) :
    moveHorizontalInto cfg ⟨f, o⟩ .right = .ok none := by
  simp [moveHorizontalInto, offsetToIndex_right_end h]

theorem move_right_root {cfg : Cfg} (hf : IsFocus root [] f) :
    moveCaretInternal cfg ⟨f, f.row.length⟩ .right = .ok none := by
  simp only [moveCaretInternal, move_into_right_end (Nat.le_refl _), M.ok_bind,
    moveHorizontalBeyondEdge, hf.parent_nil]

theorem move_right_next (hwf : rowWf root = true) {cfg : Cfg} {i j : Nat}
    {v : Variant} {cells : List Row} {w : Nat} {g : FocusRow} {c : Row}
    (hf : IsFocus root (p ++ [(i, j)]) f)
    (hg : IsFocus root p g) (hi : g.row[i]? = some (.container v cells w))
    (hc : cells[j + 1]? = some c) :
    ∃ f', moveCaretInternal cfg ⟨f, f.row.length⟩ .right = .ok (some ⟨f', 0⟩) ∧
      IsFocus root (p ++ [(i, j + 1)]) f' ∧ f'.row = c := by
  obtain ⟨g', v', cells', w', hg', hi', -, -, hpar⟩ := hf.parent_snoc
  have := hg'.unique hg; subst this
  rw [hi] at hi'; cases hi'
  obtain ⟨f', h1, h2, h3⟩ := hg.child_ok hwf hi hc
  refine ⟨f', ?_, h2, h3⟩
  simp only [moveCaretInternal, move_into_right_end (Nat.le_refl _), M.ok_bind,
    moveHorizontalBeyondEdge, hpar, hf.indexInParent_snoc, h1]
  rw [Position.new_ok (by omega)]
  rfl

theorem move_right_leave (hwf : rowWf root = true) {cfg : Cfg} {i j : Nat}
    {v : Variant} {cells : List Row} {w : Nat} {g : FocusRow}
    (hf : IsFocus root (p ++ [(i, j)]) f)
    (hg : IsFocus root p g) (hi : g.row[i]? = some (.container v cells w))
    (hc : cells.length ≤ j + 1) :
    moveCaretInternal cfg ⟨f, f.row.length⟩ .right = .ok (some ⟨g, i + 1⟩) := by
  obtain ⟨g', v', cells', w', hg', hi', -, -, hpar⟩ := hf.parent_snoc
  have := hg'.unique hg; subst this
  rw [hi] at hi'; cases hi'
  have hlt := (List.getElem?_eq_some_iff.1 hi).1
  simp only [moveCaretInternal, move_into_right_end (Nat.le_refl _), M.ok_bind,
    moveHorizontalBeyondEdge, hpar, hf.indexInParent_snoc, hg.child_none hwf hi hc]
  rw [Position.new_ok (by omega)]
  rfl

/-! ## Left -/

theorem move_left_symbol {cfg : Cfg} {o : Nat} {s : Str} (h : f.row[o]? = some (.symbol s)) :
    moveCaretInternal cfg ⟨f, o + 1⟩ .left = .ok (some ⟨f, o⟩) := by
  have hlt := (List.getElem?_eq_some_iff.1 h).1
  simp only [moveCaretInternal, moveHorizontalInto, offsetToIndex_left, childAt_of_getElem? h,
    munwrap_some, M.ok_bind, usub_of_le (show 1 ≤ o + 1 by omega)]
  rw [Position.new_ok (by omega)]
  rfl

theorem move_left_enter (hwf : rowWf root = true) (hf : IsFocus root p f) {cfg : Cfg} {o : Nat}
    {v : Variant} {cells : List Row} {w : Nat} (h : f.row[o]? = some (.container v cells w)) :
    ∃ f', moveCaretInternal cfg ⟨f, o + 1⟩ .left = .ok (some ⟨f', f'.row.length⟩) ∧
      IsFocus root (p ++ [(o, cells.length - 1)]) f' ∧ cells[cells.length - 1]? = some f'.row := by
  have hn := wf_container.1 (hf.node_wf hwf h)
  obtain ⟨hw, hm, hpos⟩ := shapeOk_pos hn.1
  have hlast : cells.length - 1 < cells.length := by omega
  obtain ⟨f', h1, h2, h3⟩ := hf.child_ok hwf h (List.getElem?_eq_getElem hlast)
  refine ⟨f', ?_, h2, by rw [h3, List.getElem?_eq_getElem hlast]⟩
  have hmul : w * (cells.length / w) = cells.length :=
    Nat.mul_div_cancel' (Nat.dvd_of_mod_eq_zero hm)
  simp only [moveCaretInternal, moveHorizontalInto, offsetToIndex_left, childAt_of_getElem? h,
    munwrap_some, M.ok_bind, GridVec.size_pos (g := ⟨cells, w⟩) hw, hmul,
    usub_of_le (show 1 ≤ cells.length by omega), h1]
  rw [Position.new_ok (show f'.len ≤ _ from Nat.le_refl _)]
  rfl

theorem move_into_left_start {cfg : Cfg} :
    moveHorizontalInto cfg ⟨f, 0⟩ .left = .ok none := by
  simp [moveHorizontalInto, offsetToIndex]

theorem move_left_root {cfg : Cfg} (hf : IsFocus root [] f) :
    moveCaretInternal cfg ⟨f, 0⟩ .left = .ok none := by
  simp only [moveCaretInternal, move_into_left_start, M.ok_bind,
    moveHorizontalBeyondEdge, hf.parent_nil]

theorem move_left_next (hwf : rowWf root = true) {cfg : Cfg} {i j : Nat}
    {v : Variant} {cells : List Row} {w : Nat} {g : FocusRow} {c : Row}
    (hf : IsFocus root (p ++ [(i, j + 1)]) f)
    (hg : IsFocus root p g) (hi : g.row[i]? = some (.container v cells w))
    (hc : cells[j]? = some c) :
    ∃ f', moveCaretInternal cfg ⟨f, 0⟩ .left = .ok (some ⟨f', f'.row.length⟩) ∧
      IsFocus root (p ++ [(i, j)]) f' ∧ f'.row = c := by
  obtain ⟨g', v', cells', w', hg', hi', -, -, hpar⟩ := hf.parent_snoc
  have := hg'.unique hg; subst this
  rw [hi] at hi'; cases hi'
  obtain ⟨f', h1, h2, h3⟩ := hg.child_ok hwf hi hc
  refine ⟨f', ?_, h2, h3⟩
  simp only [moveCaretInternal, move_into_left_start, M.ok_bind,
    moveHorizontalBeyondEdge, hpar, hf.indexInParent_snoc, usub_of_le (show 1 ≤ j + 1 by omega),
    Nat.add_sub_cancel, h1]
  rw [Position.new_ok (show f'.len ≤ _ from Nat.le_refl _)]
  rfl

/-- Left at the start of the first cell of a container, overflow checks on: panic. -/
theorem move_left_leave_checked {cfg : Cfg} (hc : cfg.checks = true) {i : Nat}
    (hf : IsFocus root (p ++ [(i, 0)]) f) :
    moveCaretInternal cfg ⟨f, 0⟩ .left = .error .overflow := by
  obtain ⟨g, v, cells, w, hg, hi, -, -, hpar⟩ := hf.parent_snoc
  simp only [moveCaretInternal, move_into_left_start, M.ok_bind,
    moveHorizontalBeyondEdge, hpar, hf.indexInParent_snoc,
    usub_lt_dev hc (show 0 < 1 by omega), M.error_bind]

/-- Left at the start of the first cell of a container, overflow checks off. -/
theorem move_left_leave_unchecked (hwf : rowWf root = true) {cfg : Cfg} (hc : cfg.checks = false)
    (hfit : rowFits cfg.bits root = true) {i : Nat} {g : FocusRow}
    (hf : IsFocus root (p ++ [(i, 0)]) f) (hg : IsFocus root p g) :
    moveCaretInternal cfg ⟨f, 0⟩ .left = .ok (some ⟨g, i⟩) := by
  obtain ⟨g', v, cells, w, hg', hi, -, -, hpar⟩ := hf.parent_snoc
  have := hg'.unique hg; subst this
  have hlt := (List.getElem?_eq_some_iff.1 hi).1
  have hfr := rowFits_iff.1 (rowAt_fits hfit hg.rowAt_eq) _ (List.mem_of_getElem? hi)
  have hlen := (fits_container.1 hfr).1
  simp only [moveCaretInternal, move_into_left_start, M.ok_bind,
    moveHorizontalBeyondEdge, hpar, hf.indexInParent_snoc,
    usub_lt_release hc (show 0 < 1 by omega)]
  rw [hg.child_none hwf hi (by omega)]
  simp only [M.ok_bind]
  rw [Position.new_ok (by omega)]
  rfl

/-! ## Up and Down -/

theorem moveVertical_root {cfg : Cfg} (hf : IsFocus root [] f) (d : VDir) :
    moveVertical cfg f d = .ok none := by
  unfold moveVertical
  split
  · rfl
  · rename_i n h; rw [hf.parent_nil] at h; cases h

theorem subChecked_row {w n j : Nat} (hw : 0 < w) (hn : n % w = 0) (hj : j < n) :
    (Index2D.fromIndex j (w, n / w)).subChecked (0, 1) (w, n / w) =
      if w ≤ j then some (Index2D.fromIndex (j - w) (w, n / w)) else none := by
  have hx : j % w < w := Nat.mod_lt _ hw
  have hy : j / w < n / w := by
    rw [Nat.div_lt_iff_lt_mul hw, Nat.div_mul_cancel (Nat.dvd_of_mod_eq_zero hn)]; exact hj
  unfold Index2D.subChecked Index2D.withGrid Index2D.fromIndex
  simp only [Nat.zero_le, if_true]
  by_cases h : w ≤ j
  · have h1 : 1 ≤ j / w := (Nat.le_div_iff_mul_le hw).2 (by omega)
    rw [if_pos h1, if_pos h, if_neg (by simp only [Nat.sub_zero]; omega)]
    have e : j = (j - w) + w := by omega
    have e1 : j / w = (j - w) / w + 1 := by
      conv_lhs => rw [e]
      rw [Nat.add_div_right _ hw]
    have e2 : j % w = (j - w) % w := by
      conv_lhs => rw [e]
      rw [Nat.add_mod_right]
    simp only [Nat.sub_zero, e2, Option.some.injEq, Index2D.mk.injEq, and_true, true_and]
    omega
  · have h1 : ¬ 1 ≤ j / w := by rw [Nat.le_div_iff_mul_le hw]; omega
    rw [if_neg h1, if_neg h]

theorem addChecked_row {w n j : Nat} (hw : 0 < w) (hn : n % w = 0) (_hj : j < n) :
    (Index2D.fromIndex j (w, n / w)).addChecked (0, 1) (w, n / w) =
      if j + w < n then some (Index2D.fromIndex (j + w) (w, n / w)) else none := by
  have hx : j % w < w := Nat.mod_lt _ hw
  have key : j / w + 1 < n / w ↔ j + w < n := by
    rw [← Nat.add_div_right _ hw, Nat.div_lt_iff_lt_mul hw,
      Nat.div_mul_cancel (Nat.dvd_of_mod_eq_zero hn)]
  unfold Index2D.addChecked Index2D.withGrid Index2D.fromIndex
  simp only [Nat.add_zero]
  by_cases h : j + w < n
  · have := key.2 h
    rw [if_pos h, if_neg (by omega)]
    simp only [Nat.add_mod_right, Nat.add_div_right _ hw]
  · have : ¬ (j / w + 1 < n / w) := fun h' => h (key.1 h')
    rw [if_neg h, if_pos (by omega)]

theorem toIndex_fromIndex (k w h : Nat) : (Index2D.fromIndex k (w, h)).toIndex = k :=
  Nat.div_add_mod' k w

theorem moveVertical_sub {cfg : Cfg} {i j : Nat} {g : FocusRow} {cells : List Row} {w : Nat}
    (hf : IsFocus root (p ++ [(i, j)]) f) (hg : IsFocus root p g)
    (hi : g.row[i]? = some (.container .sub cells w)) :
    moveVertical cfg f .down = .ok (some ⟨g, i⟩) := by
  obtain ⟨g', v', cells', w', hg', hi', -, -, hpar⟩ := hf.parent_snoc
  have := hg'.unique hg; subst this
  rw [hi] at hi'; cases hi'
  have hlt := (List.getElem?_eq_some_iff.1 hi).1
  unfold moveVertical
  split
  · rename_i h; rw [hpar] at h; cases h
  · rename_i n h; rw [hpar] at h; cases h
    simp only
    rw [Position.new_ok (by omega)]; rfl

theorem moveVertical_sup {cfg : Cfg} {i j : Nat} {g : FocusRow} {cells : List Row} {w : Nat}
    (hf : IsFocus root (p ++ [(i, j)]) f) (hg : IsFocus root p g)
    (hi : g.row[i]? = some (.container .sup cells w)) :
    moveVertical cfg f .up = .ok (some ⟨g, i⟩) := by
  obtain ⟨g', v', cells', w', hg', hi', -, -, hpar⟩ := hf.parent_snoc
  have := hg'.unique hg; subst this
  rw [hi] at hi'; cases hi'
  have hlt := (List.getElem?_eq_some_iff.1 hi).1
  unfold moveVertical
  split
  · rename_i h; rw [hpar] at h; cases h
  · rename_i n h; rw [hpar] at h; cases h
    simp only
    rw [Position.new_ok (by omega)]; rfl

/-- The cell that Up or Down goes to inside a container of width `w` with `n` cells. -/
def verticalCell (d : VDir) (w n j : Nat) : Option Nat :=
  match d with
  | .up => if w ≤ j then some (j - w) else none
  | .down => if j + w < n then some (j + w) else none

/-- The script exceptions: Down in a subscript, Up in a superscript. -/
def scriptExit (d : VDir) (v : Variant) : Bool :=
  match v, d with
  | .sub, .down => true
  | .sup, .up => true
  | _, _ => false

theorem moveVertical_general (hwf : rowWf root = true) {cfg : Cfg} {i j : Nat} {g : FocusRow}
    {v : Variant} {cells : List Row} {w : Nat} {d : VDir}
    (hf : IsFocus root (p ++ [(i, j)]) f) (hg : IsFocus root p g)
    (hi : g.row[i]? = some (.container v cells w)) (hv : scriptExit d v = false) :
    match verticalCell d w cells.length j with
    | some k => ∃ f', moveVertical cfg f d =
          .ok (some ⟨f', match d with | .up => f'.row.length | .down => 0⟩) ∧
        IsFocus root (p ++ [(i, k)]) f' ∧ cells[k]? = some f'.row
    | none => moveVertical cfg f d = moveVertical cfg g d := by
  obtain ⟨g', v', cells', w', hg', hi', hcell, -, hpar⟩ := hf.parent_snoc
  have := hg'.unique hg; subst this
  rw [hi] at hi'; cases hi'
  have hn := wf_container.1 (hg.node_wf hwf hi)
  obtain ⟨hw, hm, hpos⟩ := shapeOk_pos hn.1
  have hj := (List.getElem?_eq_some_iff.1 hcell).1
  have hs : GridVec.size (⟨cells, w⟩ : GridVec Row) = .ok (w, cells.length / w) :=
    GridVec.size_pos hw
  have h0 : Position.new g' 0 = .ok ⟨g', 0⟩ := Position.new_ok (Nat.zero_le _)
  have step : moveVertical cfg f d = (do
      let newRow ← match (match d with
          | .up => (Index2D.fromIndex j (w, cells.length / w)).subChecked (0, 1)
              (w, cells.length / w)
          | .down => (Index2D.fromIndex j (w, cells.length / w)).addChecked (0, 1)
              (w, cells.length / w)) with
        | some xy => FocusNode.childAt ⟨.container v cells w, g', i⟩ xy.toIndex
        | none => .ok none
      match newRow with
      | some r => do
        let p ← Position.new r (match d with | .up => r.len | .down => 0)
        .ok (some p)
      | none => moveVertical cfg g' d) := by
    conv_lhs => unfold moveVertical
    split
    · rename_i h; rw [hpar] at h; cases h
    · rename_i n h; rw [hpar] at h; cases h
      simp only
      cases v <;> cases d <;>
        first
        | (simp [scriptExit] at hv; done)
        | (simp only [hf.indexInParent_snoc, M.ok_bind, hs, h0]; rfl)
  rw [step]
  cases d with
  | up =>
    simp only [verticalCell, subChecked_row hw hm hj]
    by_cases hle : w ≤ j
    · simp only [if_pos hle, toIndex_fromIndex]
      have hk : j - w < cells.length := by omega
      obtain ⟨f', h1, h2, h3⟩ := hg.child_ok hwf hi (List.getElem?_eq_getElem hk)
      refine ⟨f', ?_, h2, by rw [h3, List.getElem?_eq_getElem hk]⟩
      simp only [h1, M.ok_bind]
      rw [Position.new_ok (show f'.len ≤ _ from Nat.le_refl _)]
      rfl
    · simp only [if_neg hle, M.ok_bind]
  | down =>
    simp only [verticalCell, addChecked_row hw hm hj]
    by_cases hle : j + w < cells.length
    · simp only [if_pos hle, toIndex_fromIndex]
      obtain ⟨f', h1, h2, h3⟩ := hg.child_ok hwf hi (List.getElem?_eq_getElem hle)
      refine ⟨f', ?_, h2, by rw [h3, List.getElem?_eq_getElem hle]⟩
      simp only [h1, M.ok_bind]
      rw [Position.new_ok (Nat.zero_le _)]
      rfl
    · simp only [if_neg hle, M.ok_bind]

end Wf

end Aftermath
