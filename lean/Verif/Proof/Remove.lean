import Verif.Proof.Press
import Verif.Proof.Edit
import Verif.Spec.Keys

/-! # The edits made by typing and deleting -/

namespace Aftermath

theorem ReplacedAt.trans {root root' root'' a b c : Row} {p : RowIndices}
    (h : ReplacedAt root p a b root') (h' : ReplacedAt root' p b c root'') :
    ReplacedAt root p a c root'' := by
  induction h generalizing root'' with
  | here => cases h'; exact .here _ _
  | @under r r' i j p old new v cells cells' w x x' hlen hn hn' ho hcl hc hc' hco h ih =>
    cases h' with
    | @under _ r'' _ _ _ _ _ v2 cells2 cells2' w2 y y' hlen2 hn2 hn2' ho2 hcl2 hc2 hc2' hco2 h2 =>
      rw [hn'] at hn2
      cases hn2
      rw [hc'] at hc2
      cases hc2
      exact .under (hlen2.trans hlen) hn hn2' (fun k hk => (ho2 k hk).trans (ho k hk))
        (hcl2.trans hcl) hc hc2' (fun k hk => (hco2 k hk).trans (hco k hk)) (ih h2)

theorem ReplacedAt.refl {root r : Row} {p : RowIndices} (h : rowAt root p = some r) :
    ReplacedAt root p r r root := by
  induction p generalizing root with
  | nil => simp at h; subst h; exact .here _ _
  | cons ix p ih =>
    obtain ⟨i, j⟩ := ix
    obtain ⟨v, cells, w, c, hi, hc, h⟩ := rowAt_cons.1 h
    exact .under rfl hi hi (fun _ _ => rfl) rfl hc hc (fun _ _ => rfl) (ih h)

theorem ReplacedAt.eq_of_same {root root' r : Row} {p : RowIndices}
    (h : ReplacedAt root p r r root') : root' = root :=
  h.unique (.refl h.rowAt_old)

theorem rowEdit_ok {cfg : Cfg} {root row new : Row} {e : RowEdit} (hwf : rowWf root = true)
    (hrow : rowAt root e.position.rowIndices = some row) (he : e.applyToRow row = .ok new) :
    ∃ root', applyEdit cfg root (.row e) = .ok root' ∧
      ReplacedAt root e.position.rowIndices row new root' := by
  obtain ⟨root', h⟩ := editRowAt_ok hwf hrow he
  obtain ⟨old, new', h1, h2, h3⟩ := editRowAt_replaced h
  rw [hrow] at h1; cases h1
  rw [he] at h2; cases h2
  exact ⟨root', h, h3⟩

/-- The edit that deletes offsets `l` to `r` of a row. -/
def deleteEdit (q : RowIndices) (row : Row) (l r : Nat) : BasicEdit :=
  .row ⟨.delete, ⟨q, l⟩, (row.take r).drop l⟩

theorem delete_ok {cfg : Cfg} {root row : Row} {q : RowIndices} {l r : Nat}
    (hwf : rowWf root = true) (hrow : rowAt root q = some row) (hlr : l ≤ r)
    (hr : r ≤ row.length) :
    ∃ root', applyEdit cfg root (deleteEdit q row l r) = .ok root' ∧
      ReplacedAt root q row (row.take l ++ row.drop r) root' := by
  refine rowEdit_ok (e := ⟨.delete, ⟨q, l⟩, (row.take r).drop l⟩) hwf hrow ?_
  have : ((row.take r).drop l).length = r - l := by simp; omega
  simp only [RowEdit.applyToRow, this]
  rw [if_pos (by omega), show l + (r - l) = r by omega]

theorem delete_truthful {root row : Row} {q : RowIndices} {l r : Nat}
    (hrow : rowAt root q = some row) (hlr : l ≤ r) (hr : r ≤ row.length) :
    TruthfulEdit root (deleteEdit q row l r) := by
  intro _
  refine ⟨row, hrow, ?_⟩
  have : ((row.take r).drop l).length = r - l := by simp; omega
  simp only [this]
  rw [List.drop_take]

theorem insert_ok {cfg : Cfg} {root row : Row} {q : RowIndices} {l : Nat} (vs : List Node)
    (hwf : rowWf root = true) (hrow : rowAt root q = some row) (hl : l ≤ row.length) :
    ∃ root', applyEdit cfg root (.row ⟨.insert, ⟨q, l⟩, vs⟩) = .ok root' ∧
      ReplacedAt root q row (row.take l ++ vs ++ row.drop l) root' := by
  refine rowEdit_ok (e := ⟨.insert, ⟨q, l⟩, vs⟩) hwf hrow ?_
  simp only [RowEdit.applyToRow]
  rw [if_pos hl]

theorem insert_truthful {root : Row} {p : MinPos} {vs : List Node} :
    TruthfulEdit root (.row ⟨.insert, p, vs⟩) := by
  intro h; cases h

theorem replace_ok {cfg : Cfg} {root row : Row} {q : RowIndices} {l r : Nat} (vs : List Node)
    (hwf : rowWf root = true) (hrow : rowAt root q = some row) (hlr : l ≤ r)
    (hr : r ≤ row.length) :
    ∃ root', applyEdits cfg root [deleteEdit q row l r, .row ⟨.insert, ⟨q, l⟩, vs⟩] = .ok root' ∧
      ReplacedAt root q row (row.take l ++ vs ++ row.drop r) root' := by
  obtain ⟨root1, h1, h2⟩ := delete_ok (cfg := cfg) hwf hrow hlr hr
  have hwf1 : rowWf root1 = true := by
    refine h2.wf hwf ?_
    have := rowAt_wf hwf hrow
    rw [rowWf_append, rowWf_take this, rowWf_drop this]; rfl
  obtain ⟨root2, h3, h4⟩ := insert_ok (cfg := cfg) (l := l) vs hwf1 h2.rowAt_new (by simp; omega)
  refine ⟨root2, by simp only [applyEdits, h1, h3, M.ok_bind], ?_⟩
  have := h2.trans h4
  have hl : (row.take l).length = l := by simp; omega
  rw [show (row.take l ++ row.drop r).take l = row.take l by
      rw [List.take_append_of_le_length (by omega), List.take_of_length_le (by omega)],
    show (row.take l ++ row.drop r).drop l = row.drop r by
      rw [List.drop_append_of_le_length (by omega), List.drop_of_length_le (by omega)]; rfl] at this
  exact this

theorem replace_truthful {cfg : Cfg} {root row : Row} {q : RowIndices} {l r : Nat}
    {vs : List Node} (hrow : rowAt root q = some row) (hlr : l ≤ r) (hr : r ≤ row.length) :
    Truthful cfg root [deleteEdit q row l r, .row ⟨.insert, ⟨q, l⟩, vs⟩] :=
  ⟨delete_truthful hrow hlr hr, fun _ _ => ⟨insert_truthful, fun _ _ => trivial⟩⟩

section
variable {root : Row} {q : RowIndices} {r : RowRange}

theorem RowRange.left_le_right (r : RowRange) : r.leftOffset ≤ r.rightOffset := by
  unfold RowRange.leftOffset RowRange.rightOffset
  by_cases h : r.start ≤ r.stop
  · simp [RowRange.isForwards, h]
  · simp only [RowRange.isForwards, h, decide_false]
    simp; omega

theorem RowRange.right_le (h : r.start ≤ r.focus.row.length ∧ r.stop ≤ r.focus.row.length) :
    r.rightOffset ≤ r.focus.row.length := by
  simp only [RowRange.rightOffset]; split <;> omega

theorem removeRange_eq (hf : IsFocus root q r.focus)
    (hr : r.start ≤ r.focus.row.length ∧ r.stop ≤ r.focus.row.length) :
    removeRange r = .ok ([deleteEdit q r.focus.row r.leftOffset r.rightOffset], ⟨q, r.leftOffset⟩) := by
  simp only [removeRange, RowRange.values, if_pos (RowRange.right_le hr), M.ok_bind,
    RowRange.leftPosition, Position.toMinimal, hf.rowIndices_eq]
  rfl

theorem replaceRange_eq (hf : IsFocus root q r.focus)
    (hr : r.start ≤ r.focus.row.length ∧ r.stop ≤ r.focus.row.length) (vs : List Node) :
    replaceRange r vs = .ok ([deleteEdit q r.focus.row r.leftOffset r.rightOffset,
      .row ⟨.insert, ⟨q, r.leftOffset⟩, vs⟩], ⟨q, r.leftOffset, r.leftOffset + vs.length⟩) := by
  simp [replaceRange, removeRange_eq hf hr, insertAtPosition, RowRange.leftPosition,
    Position.toMinimal, hf.rowIndices_eq]

theorem insertAtRange_eq (hf : IsFocus root q r.focus)
    (hr : r.start ≤ r.focus.row.length ∧ r.stop ≤ r.focus.row.length) (vs : List Node) :
    insertAtRange r vs = .ok ([deleteEdit q r.focus.row r.leftOffset r.rightOffset,
      .row ⟨.insert, ⟨q, r.leftOffset⟩, vs⟩], ⟨q, r.leftOffset + vs.length⟩) := by
  simp only [insertAtRange, replaceRange_eq hf hr, M.ok_bind]
  congr 3
  split <;> omega

theorem flattenNode_eq {g : FocusRow} (hg : IsFocus root q g) {i : Nat} {v : Variant}
    {cells : List Row} {w : Nat} (hi : g.row[i]? = some (.container v cells w)) (k : Nat) :
    flattenNode ⟨.container v cells w, g, i⟩ k = .ok ([deleteEdit q g.row i (i + 1),
      .row ⟨.insert, ⟨q, i⟩, cells.flatten⟩], ⟨q, i + k⟩) := by
  have hlt := (List.getElem?_eq_some_iff.1 hi).1
  have e := removeRange_eq (r := ⟨g, i, i + 1⟩) hg ⟨Nat.le_of_lt hlt, hlt⟩
  have hl : RowRange.leftOffset ⟨g, i, i + 1⟩ = i := by
    simp [RowRange.leftOffset, RowRange.isForwards]
  have hr : RowRange.rightOffset ⟨g, i, i + 1⟩ = i + 1 := by
    simp [RowRange.rightOffset, RowRange.isForwards]
  rw [hl, hr] at e
  simp only [flattenNode, Node.grid, mexpect_some, M.ok_bind,
    RowRange.new_ok (Nat.le_of_lt hlt) hlt, e, insertAtPosition, RowRange.leftPosition, hl,
    Position.toMinimal, hg.rowIndices_eq]
  rfl

end

/-- What Backspace and Delete can do at a position. -/
inductive DeleteCase (root : Row) (q : RowIndices) (o : Nat) (dir : HDir) :
    Option (List BasicEdit × MinPos) → Prop
  | nothing (h : AtRootEdge root dir ⟨q, o⟩) : DeleteCase root q o dir none
  | moved {x : Position} (h : x.In root) : DeleteCase root q o dir (some ([], x.toMinimal))
  | symbol {row : Row} {k : Nat} {s : Str} (hrow : rowAt root q = some row)
      (hk : o = (match dir with | .left => k + 1 | .right => k))
      (hs : row[k]? = some (.symbol s)) :
      DeleteCase root q o dir (some ([deleteEdit q row k (k + 1)], ⟨q, k⟩))
  | flatten {p : RowIndices} {row : Row} {i k : Nat} {v : Variant} {cells : List Row} {w : Nat}
      (hrow : rowAt root p = some row) (hi : row[i]? = some (.container v cells w))
      (hk : k ≤ cells.flatten.length)
      (hp : (∃ j, q = p ++ [(i, j)]) ∨ (q = p ∧ o = i ∧ dir = .right ∧ (v = .sub ∨ v = .sup))) :
      DeleteCase root q o dir (some ([deleteEdit p row i (i + 1),
        .row ⟨.insert, ⟨p, i⟩, cells.flatten⟩], ⟨p, i + k⟩))

theorem removeMove_eq (cfg : Cfg) (p : Position) (dir : HDir) :
    removeMove cfg p dir = (do
      let o ← moveCaretInternal cfg p dir.toDir
      .ok (o.map fun x => ([], x.toMinimal))) := by
  simp only [removeMove, moveCaretRange_char, RowRange.edge_ofPosition]
  cases moveCaretInternal cfg p dir.toDir with
  | error e => rfl
  | ok o =>
    cases o with
    | none => simp [RowRange.ofPosition, RowRange.isCollapsed]
    | some x => rfl

theorem all_isEmpty_iff {cells : List Row} :
    cells.all List.isEmpty = false ↔ ∃ c ∈ cells, c ≠ [] := by
  induction cells with
  | nil => simp
  | cons c cs ih =>
    cases c with
    | nil => simp
    | cons a l => simp

theorem firstCell_filled {root : Row} {q : RowIndices} {i j o : Nat} {g : FocusRow} {v : Variant}
    {cells : List Row} {w : Nat} (hg : IsFocus root q g)
    (hi : g.row[i]? = some (.container v cells w))
    (h : AtFilledFirstCell root ⟨q ++ [(i, j)], o⟩) :
    j = 0 ∧ o = 0 ∧ v ≠ .sub ∧ v ≠ .sup ∧ cells.all List.isEmpty = false := by
  obtain ⟨p, i', row, v', cells', w', hm, hrow, hi', h1, h2, h3⟩ := h
  simp only [MinPos.mk.injEq] at hm
  obtain ⟨hq, ho⟩ := hm
  obtain ⟨rfl, h4⟩ := List.append_inj' hq rfl
  simp only [List.cons.injEq, Prod.mk.injEq, and_true] at h4
  obtain ⟨rfl, rfl⟩ := h4
  rw [hg.rowAt_eq] at hrow
  cases hrow
  rw [hi] at hi'
  cases hi'
  exact ⟨rfl, ho, h1, h2, all_isEmpty_iff.2 h3⟩

theorem flatten_length_ge {cells : List Row} {j : Nat} {c : Row} (h : cells[j]? = some c) :
    c.length ≤ cells.flatten.length := by
  have := List.mem_of_getElem? h
  exact (List.sublist_flatten_of_mem this).length_le

/-- The cell is the first one (Left) or the last one (Right). -/
def gridEdge (dir : HDir) (j n : Nat) : Bool :=
  match dir with
  | .left => j == 0
  | .right => decide (j ≥ n - 1)

theorem removeInGrid_cases {root : Row} (hwf : rowWf root = true) (cfg : Cfg)
    (hcfg : cfg.checks = false → rowFits cfg.bits root = true) {q : RowIndices} {i j o : Nat}
    {f g : FocusRow} {v : Variant} {cells : List Row} {w : Nat}
    (hf : IsFocus root (q ++ [(i, j)]) f) (hg : IsFocus root q g)
    (hi : g.row[i]? = some (.container v cells w)) (dir : HDir)
    (ho : o = (match dir with | .left => 0 | .right => f.row.length))
    (hv : dir = .left → v ≠ .sub ∧ v ≠ .sup) :
    (cfg.checks = true ∧ DeletePanics root dir ⟨q ++ [(i, j)], o⟩ ∧
      removeInGrid cfg ⟨f, o⟩ dir ⟨.container v cells w, g, i⟩ j = .error .overflow) ∨
    (¬ (cfg.checks = true ∧ DeletePanics root dir ⟨q ++ [(i, j)], o⟩) ∧
      ∃ x, removeInGrid cfg ⟨f, o⟩ dir ⟨.container v cells w, g, i⟩ j = .ok x ∧
        DeleteCase root (q ++ [(i, j)]) o dir x) := by
  have hn := wf_container.1 (hg.node_wf hwf hi)
  obtain ⟨hw, hm, hpos⟩ := shapeOk_pos hn.1
  have hin : (⟨f, o⟩ : Position).In root := by
    refine ⟨⟨_, hf⟩, ?_⟩
    subst ho; cases dir
    · exact Nat.zero_le _
    · exact Nat.le_refl _
  have hedge : ¬ AtRootEdge root dir ⟨q ++ [(i, j)], o⟩ := by
    rintro ⟨h, -⟩; simp at h
  -- the move of the general case
  have hmove : ∀ b : Bool, b = (gridEdge dir j cells.length) →
      (b && cells.all List.isEmpty) = false →
      (cfg.checks = true ∧ DeletePanics root dir ⟨q ++ [(i, j)], o⟩ ∧
        removeMove cfg ⟨f, o⟩ dir = .error .overflow) ∨
      (¬ (cfg.checks = true ∧ DeletePanics root dir ⟨q ++ [(i, j)], o⟩) ∧
        ∃ x, removeMove cfg ⟨f, o⟩ dir = .ok x ∧ DeleteCase root (q ++ [(i, j)]) o dir x) := by
    intro b hb hfalse
    have hmin : (⟨f, o⟩ : Position).toMinimal = ⟨q ++ [(i, j)], o⟩ := by
      simp [Position.toMinimal, hf.rowIndices_eq]
    rw [removeMove_eq]
    cases dir with
    | left =>
      rcases move_left_total hwf cfg hcfg hin with ⟨h1, h2, h3⟩ | ⟨h1, oo, h2, h3⟩
      · left
        refine ⟨h1, Or.inr ⟨rfl, ?_⟩, ?_⟩
        · rw [hmin] at h2
          obtain ⟨-, p, k, hpk⟩ := h2
          obtain ⟨rfl, h5⟩ := List.append_inj' hpk rfl
          simp only [List.cons.injEq, Prod.mk.injEq, and_true] at h5
          obtain ⟨rfl, rfl⟩ := h5
          simp only at ho; subst ho
          refine ⟨q, i, g.row, v, cells, w, rfl, hg.rowAt_eq, hi, (hv rfl).1, (hv rfl).2, ?_⟩
          subst hb
          exact all_isEmpty_iff.1 (by simpa [gridEdge] using hfalse)
        · simp only [HDir.toDir, h3, M.error_bind]
      · right
        constructor
        · rintro ⟨h4, h5 | ⟨-, h5⟩⟩
          · exact hedge h5
          · refine h1 h4 ?_
            rw [hmin]
            obtain ⟨rfl, rfl, -⟩ := firstCell_filled hg hi h5
            exact ⟨rfl, q, i, rfl⟩
        · cases oo with
          | none =>
            exfalso
            -- a nested position always moves
            subst ho
            cases j with
            | succ j =>
              obtain ⟨g', v', cells', w', hg', hi', hcell, -, -⟩ := hf.parent_snoc
              have := hg'.unique hg; subst this
              rw [hi] at hi'; cases hi'
              have hj : j < cells.length := by
                have := (List.getElem?_eq_some_iff.1 hcell).1; omega
              obtain ⟨f', h6, -⟩ := move_left_next hwf (cfg := cfg) hf hg hi
                (List.getElem?_eq_getElem hj)
              simp only at h2
              rw [h6] at h2; cases h2
            | zero =>
              cases hck : cfg.checks with
              | true => simp only at h2; rw [move_left_leave_checked hck hf] at h2; cases h2
              | false =>
                simp only at h2
                rw [move_left_leave_unchecked hwf hck (hcfg hck) hf hg] at h2
                cases h2
          | some x =>
            exact ⟨_, by simp only [HDir.toDir, h2, M.ok_bind]; rfl, .moved (h3 x rfl)⟩
    | right =>
      right
      constructor
      · rintro ⟨-, h5 | ⟨h5, -⟩⟩
        · exact hedge h5
        · cases h5
      · obtain ⟨oo, h2, h3⟩ := move_right_total hwf cfg hin
        cases oo with
        | none =>
          exfalso
          subst ho
          simp only at h2
          by_cases hj : j + 1 < cells.length
          · obtain ⟨f', h6, -⟩ := move_right_next hwf (cfg := cfg) hf hg hi
              (List.getElem?_eq_getElem hj)
            rw [h6] at h2; cases h2
          · rw [move_right_leave hwf (cfg := cfg) hf hg hi (by omega)] at h2; cases h2
        | some x =>
          exact ⟨_, by simp only [HDir.toDir, h2, M.ok_bind]; rfl, .moved (h3 x rfl)⟩
  have hflat := flattenNode_eq hg hi 0
  have hsize : GridVec.size (⟨cells, w⟩ : GridVec Row) = .ok (w, cells.length / w) :=
    GridVec.size_pos hw
  have hmul : w * (cells.length / w) = cells.length :=
    Nat.mul_div_cancel' (Nat.dvd_of_mod_eq_zero hm)
  have hat : ∀ b : Bool, b = (gridEdge dir j cells.length) →
      removeInGrid cfg ⟨f, o⟩ dir ⟨.container v cells w, g, i⟩ j =
        if b && cells.all List.isEmpty then (do
          let r ← flattenNode ⟨.container v cells w, g, i⟩ 0
          .ok (some r)) else removeMove cfg ⟨f, o⟩ dir := by
    intro b hb
    subst hb
    cases dir with
    | left => simp [removeInGrid, Node.grid, gridEdge]
    | right =>
      simp only [removeInGrid, Node.grid, hsize, M.ok_bind, hmul, usub_of_le hpos, gridEdge]
      rfl
  rw [hat _ rfl]
  cases hb : ((gridEdge dir j cells.length) && cells.all List.isEmpty) with
  | false => exact hmove _ rfl hb
  | true =>
    right
    constructor
    · rintro ⟨-, h5 | ⟨-, h5⟩⟩
      · exact hedge h5
      · have := (firstCell_filled hg hi h5).2.2.2.2
        rw [this] at hb; simp at hb
    · refine ⟨_, by rw [if_pos rfl, hflat]; rfl, ?_⟩
      exact .flatten hg.rowAt_eq hi (Nat.zero_le _) (Or.inl ⟨j, rfl⟩)

theorem removeAtEdge_cases {root : Row} (hwf : rowWf root = true) (cfg : Cfg)
    (hcfg : cfg.checks = false → rowFits cfg.bits root = true) {q : RowIndices} {o : Nat}
    {f : FocusRow} (hf : IsFocus root q f) (dir : HDir)
    (ho : o = (match dir with | .left => 0 | .right => f.row.length)) :
    (cfg.checks = true ∧ DeletePanics root dir ⟨q, o⟩ ∧
      removeAtEdge cfg ⟨f, o⟩ dir = .error .overflow) ∨
    (¬ (cfg.checks = true ∧ DeletePanics root dir ⟨q, o⟩) ∧
      ∃ x, removeAtEdge cfg ⟨f, o⟩ dir = .ok x ∧ DeleteCase root q o dir x) := by
  cases q using List.reverseRecOn with
  | nil =>
    have hfr : f.row = root := by rw [hf.nil_inv]; rfl
    have hat : AtRootEdge root dir ⟨[], o⟩ := by
      refine ⟨rfl, ?_⟩
      subst ho; cases dir
      · rfl
      · rw [hfr]
    cases hck : cfg.checks with
    | true =>
      left
      refine ⟨rfl, Or.inl hat, ?_⟩
      simp only [removeAtEdge, FocusRow.indexInParent, hf.rowIndices_eq,
        usub_lt_dev hck (show ([] : RowIndices).length < 1 by simp), M.error_bind]
    | false =>
      right
      refine ⟨fun h => (by cases h.1), none, ?_, .nothing hat⟩
      simp only [removeAtEdge, FocusRow.indexInParent, hf.rowIndices_eq,
        usub_lt_release hck (show ([] : RowIndices).length < 1 by simp), M.ok_bind, hf.parent_nil]
  | append_singleton q ix =>
    obtain ⟨i, j⟩ := ix
    obtain ⟨g, v, cells, w, hg, hi, hcell, hlin, hpar⟩ := hf.parent_snoc
    have hn := wf_container.1 (hg.node_wf hwf hi)
    obtain ⟨hw, hm, hpos⟩ := shapeOk_pos hn.1
    have hgrid := removeInGrid_cases hwf cfg hcfg hf hg hi dir ho
    have hlt := (List.getElem?_eq_some_iff.1 hcell).1
    have hstart : ∀ x : M (Option (List BasicEdit × MinPos)),
        (match (Node.container v cells w), dir with
          | .container .sub _ _, .left => do
            let r ← flattenNode ⟨.container v cells w, g, i⟩ 0
            .ok (some r)
          | .container .sup _ _, .left => do
            let r ← flattenNode ⟨.container v cells w, g, i⟩ 0
            .ok (some r)
          | .container .fraction cells' w', dir =>
            if (dir = .left ∧ j = 1) ∨ (dir = .right ∧ j = 0) then do
              let c ← GridVec.getLinear ⟨cells', w'⟩ 0
              let c ← munwrap c
              let r ← flattenNode ⟨.container v cells w, g, i⟩ c.length
              .ok (some r)
            else removeInGrid cfg ⟨f, o⟩ dir ⟨.container v cells w, g, i⟩ j
          | .container .root cells' w', dir =>
            if (dir = .left ∧ j = 1) ∨ (dir = .right ∧ j = 0) then do
              let c ← GridVec.getLinear ⟨cells', w'⟩ 0
              let c ← munwrap c
              let r ← flattenNode ⟨.container v cells w, g, i⟩ c.length
              .ok (some r)
            else removeInGrid cfg ⟨f, o⟩ dir ⟨.container v cells w, g, i⟩ j
          | _, dir => removeInGrid cfg ⟨f, o⟩ dir ⟨.container v cells w, g, i⟩ j) = x →
        removeAtEdge cfg ⟨f, o⟩ dir = x := by
      intro x hx
      subst hx
      simp only [removeAtEdge, hf.indexInParent_snoc, hpar, M.ok_bind, munwrap_some]
      cases v <;> cases dir <;> rfl
    have hflatOk : ∀ k, k ≤ cells.flatten.length → ¬ DeletePanics root dir ⟨q ++ [(i, j)], o⟩ →
        removeAtEdge cfg ⟨f, o⟩ dir = (do
            let r ← flattenNode ⟨.container v cells w, g, i⟩ k
            .ok (some r)) →
        (¬ (cfg.checks = true ∧ DeletePanics root dir ⟨q ++ [(i, j)], o⟩) ∧
        ∃ x, removeAtEdge cfg ⟨f, o⟩ dir = .ok x ∧ DeleteCase root (q ++ [(i, j)]) o dir x) := by
      intro k hk hp he
      refine ⟨fun h => hp h.2, _, he.trans (by rw [flattenNode_eq hg hi k]; rfl), ?_⟩
      exact .flatten hg.rowAt_eq hi hk (Or.inl ⟨j, rfl⟩)
    have hnp : (dir = .left → v = .sub ∨ v = .sup ∨ j ≠ 0) →
        ¬ DeletePanics root dir ⟨q ++ [(i, j)], o⟩ := by
      rintro h (⟨h5, -⟩ | ⟨rfl, h5⟩)
      · simp at h5
      · obtain ⟨h6, -, h7, h8, -⟩ := firstCell_filled hg hi h5
        rcases h rfl with h | h | h
        · exact h7 h
        · exact h8 h
        · exact h h6
    have hmid : (v = .fraction ∨ v = .root) →
        (cfg.checks = true ∧ DeletePanics root dir ⟨q ++ [(i, j)], o⟩ ∧
          removeAtEdge cfg ⟨f, o⟩ dir = .error .overflow) ∨
        (¬ (cfg.checks = true ∧ DeletePanics root dir ⟨q ++ [(i, j)], o⟩) ∧
          ∃ x, removeAtEdge cfg ⟨f, o⟩ dir = .ok x ∧
            DeleteCase root (q ++ [(i, j)]) o dir x) := by
      intro hv
      by_cases hmid : (dir = .left ∧ j = 1) ∨ (dir = .right ∧ j = 0)
      · right
        have hc0 := List.getElem?_eq_getElem hpos
        refine hflatOk cells[0].length (flatten_length_ge hc0) (hnp ?_) (hstart _ ?_)
        · rintro rfl
          rcases hmid with ⟨-, rfl⟩ | ⟨h, -⟩
          · exact Or.inr (Or.inr (by omega))
          · cases h
        · rcases hv with rfl | rfl <;>
          · simp only [hmid, if_true, getLinear_wf hw hm, hc0, M.ok_bind, munwrap_some]
      · have he : removeAtEdge cfg ⟨f, o⟩ dir =
            removeInGrid cfg ⟨f, o⟩ dir ⟨.container v cells w, g, i⟩ j :=
          hstart _ (by rcases hv with rfl | rfl <;> simp only [hmid, if_false])
        rw [he]
        exact hgrid (fun _ => by rcases hv with rfl | rfl <;> simp)
    cases v with
    | fraction => exact hmid (Or.inl rfl)
    | root => exact hmid (Or.inr rfl)
    | sub =>
      cases dir with
      | left => exact Or.inr (hflatOk 0 (Nat.zero_le _) (hnp (fun _ => Or.inl rfl)) (hstart _ rfl))
      | right =>
        rw [hstart (removeInGrid cfg ⟨f, o⟩ .right ⟨.container .sub cells w, g, i⟩ j) rfl]
        exact hgrid (fun h => by cases h)
    | sup =>
      cases dir with
      | left =>
        exact Or.inr (hflatOk 0 (Nat.zero_le _) (hnp (fun _ => Or.inr (Or.inl rfl))) (hstart _ rfl))
      | right =>
        rw [hstart (removeInGrid cfg ⟨f, o⟩ .right ⟨.container .sup cells w, g, i⟩ j) rfl]
        exact hgrid (fun h => by cases h)
    | table =>
      rw [hstart (removeInGrid cfg ⟨f, o⟩ dir ⟨.container .table cells w, g, i⟩ j)
        (by cases dir <;> rfl)]
      exact hgrid (fun _ => by simp)

theorem removeAtCaretPosition_cases {root : Row} (hwf : rowWf root = true) (cfg : Cfg)
    (hcfg : cfg.checks = false → rowFits cfg.bits root = true) {q : RowIndices} {o : Nat}
    {f : FocusRow} (hf : IsFocus root q f) (ho : o ≤ f.row.length) (dir : HDir) :
    (cfg.checks = true ∧ DeletePanics root dir ⟨q, o⟩ ∧
      removeAtCaretPosition cfg ⟨f, o⟩ dir = .error .overflow) ∨
    (¬ (cfg.checks = true ∧ DeletePanics root dir ⟨q, o⟩) ∧
      ∃ x, removeAtCaretPosition cfg ⟨f, o⟩ dir = .ok x ∧ DeleteCase root q o dir x) := by
  have hsym : ∀ k s, f.row[k]? = some (.symbol s) →
      o = (match dir with | .left => k + 1 | .right => k) →
      offsetToIndex f.row o dir = some k →
      ∃ x, removeAtCaretPosition cfg ⟨f, o⟩ dir = .ok x ∧ DeleteCase root q o dir x := by
    intro k s hk hok hoi
    have hlt := (List.getElem?_eq_some_iff.1 hk).1
    have e := removeRange_eq (r := ⟨f, k, k + 1⟩) hf ⟨Nat.le_of_lt hlt, hlt⟩
    have hl : RowRange.leftOffset ⟨f, k, k + 1⟩ = k := by
      simp [RowRange.leftOffset, RowRange.isForwards]
    have hr : RowRange.rightOffset ⟨f, k, k + 1⟩ = k + 1 := by
      simp [RowRange.rightOffset, RowRange.isForwards]
    rw [hl, hr] at e
    refine ⟨_, ?_, .symbol hf.rowAt_eq hok hk⟩
    simp only [removeAtCaretPosition, hoi, Option.bind_some, FocusRow.nodeAt, hk, Option.map_some,
      RowRange.new_ok (Nat.le_of_lt hlt) hlt, M.ok_bind, e]
  cases dir with
  | left =>
    cases o with
    | zero =>
      have he : removeAtCaretPosition cfg ⟨f, 0⟩ .left = removeAtEdge cfg ⟨f, 0⟩ .left := by
        simp [removeAtCaretPosition, offsetToIndex]
      rw [he]
      exact removeAtEdge_cases hwf cfg hcfg hf .left rfl
    | succ k =>
      right
      have hlt : k < f.row.length := ho
      have hnode := List.getElem?_eq_getElem hlt
      generalize f.row[k] = n at hnode
      constructor
      · rintro ⟨-, ⟨-, h⟩ | ⟨-, h⟩⟩
        · simp at h
        · obtain ⟨_, _, _, _, _, _, h, _⟩ := h
          simp at h
      · cases n with
        | symbol s => exact hsym k s hnode rfl offsetToIndex_left
        | container v cells w =>
          obtain ⟨f', h1, h2, h3⟩ := move_left_enter hwf (cfg := cfg) hf hnode
          refine ⟨some ([], (⟨f', f'.row.length⟩ : Position).toMinimal), ?_,
            .moved ⟨⟨_, h2⟩, Nat.le_refl _⟩⟩
          simp only [removeAtCaretPosition, offsetToIndex_left, Option.bind_some,
            FocusRow.nodeAt, hnode, Option.map_some, reduceCtorEq, and_false, if_false,
            removeMove_eq, HDir.toDir, h1, M.ok_bind]
  | right =>
    by_cases hlt : o < f.row.length
    · right
      have hnode := List.getElem?_eq_getElem hlt
      generalize f.row[o] = n at hnode
      constructor
      · rintro ⟨-, ⟨h1, h⟩ | ⟨h, -⟩⟩
        · simp only at h1 h
          subst h1
          rw [show f.row = root by rw [hf.nil_inv]; rfl] at hlt
          omega
        · cases h
      · cases n with
        | symbol s => exact hsym o s hnode rfl (offsetToIndex_right hnode)
        | container v cells w =>
          by_cases hv : v = .sub ∨ v = .sup
          · refine ⟨_, ?_, .flatten (k := 0) hf.rowAt_eq hnode (Nat.zero_le _)
              (Or.inr ⟨rfl, rfl, rfl, hv⟩)⟩
            simp only [removeAtCaretPosition, offsetToIndex_right hnode, Option.bind_some,
              FocusRow.nodeAt, hnode, Option.map_some, hv, and_true, if_true,
              childAt_of_getElem? hnode, munwrap_some, M.ok_bind, flattenNode_eq hf hnode]
          · obtain ⟨f', h1, h2, h3⟩ := move_right_enter hwf (cfg := cfg) hf hnode
            refine ⟨some ([], (⟨f', 0⟩ : Position).toMinimal), ?_,
              .moved ⟨⟨_, h2⟩, Nat.zero_le _⟩⟩
            simp only [removeAtCaretPosition, offsetToIndex_right hnode, Option.bind_some,
              FocusRow.nodeAt, hnode, Option.map_some, hv, false_and, if_false,
              removeMove_eq, HDir.toDir, h1, M.ok_bind]
    · have : o = f.row.length := by omega
      subst this
      have he : removeAtCaretPosition cfg ⟨f, f.row.length⟩ .right =
          removeAtEdge cfg ⟨f, f.row.length⟩ .right := by
        simp [removeAtCaretPosition, offsetToIndex]
      rw [he]
      exact removeAtEdge_cases hwf cfg hcfg hf .right rfl

end Aftermath
