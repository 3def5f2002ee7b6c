import Verif.Proof.Focus
import Verif.Proof.Order
import Verif.Proof.Move

/-! # Ranges and selections between two positions -/

namespace Aftermath

theorem getShared_spec (a b : RowIndices) : ∃ a' b', a = getShared a b ++ a' ∧
    b = getShared a b ++ b' ∧ (∀ x xs y ys, a' = x :: xs → b' = y :: ys → x ≠ y) := by
  induction a generalizing b with
  | nil => exact ⟨[], b, by simp [getShared], by simp [getShared], by intro x xs y ys h; cases h⟩
  | cons x xs ih =>
    cases b with
    | nil => exact ⟨x :: xs, [], by simp [getShared], by simp [getShared],
        by intro x xs y ys _ h; cases h⟩
    | cons y ys =>
      by_cases h : x = y
      · subst h
        obtain ⟨a', b', h1, h2, h3⟩ := ih ys
        have e : getShared (x :: xs) (x :: ys) = x :: getShared xs ys := by simp [getShared]
        rw [e]
        exact ⟨a', b', by simpa using h1, by simpa using h2, h3⟩
      · have e : getShared (x :: xs) (y :: ys) = [] := by simp [getShared, h]
        rw [e]
        refine ⟨x :: xs, y :: ys, rfl, rfl, ?_⟩
        intro x' xs' y' ys' h1 h2
        cases h1; cases h2; exact h

theorem getShared_eq {s a' b' : RowIndices}
    (h : ∀ x xs y ys, a' = x :: xs → b' = y :: ys → x ≠ y) :
    getShared (s ++ a') (s ++ b') = s := by
  induction s with
  | nil =>
    cases a' with
    | nil => simp [getShared]
    | cons x xs =>
      cases b' with
      | nil => simp [getShared]
      | cons y ys =>
        have := h x xs y ys rfl rfl
        simp [getShared, this]
  | cons x s ih =>
    have e : getShared (x :: s ++ a') (x :: s ++ b') = x :: getShared (s ++ a') (s ++ b') := by
      simp [getShared]
    rw [e, ih]

theorem getShared_greatest {a b q : RowIndices} (ha : q <+: a) (hb : q <+: b) :
    q <+: getShared a b := by
  induction q generalizing a b with
  | nil => exact List.nil_prefix
  | cons x q ih =>
    obtain ⟨ta, rfl⟩ := ha
    obtain ⟨tb, rfl⟩ := hb
    have e : getShared (x :: q ++ ta) (x :: q ++ tb) = x :: getShared (q ++ ta) (q ++ tb) := by
      simp [getShared]
    rw [e]
    exact List.cons_prefix_cons.2 ⟨rfl, ih (List.prefix_append _ _) (List.prefix_append _ _)⟩

theorem cmp_append (s a b : RowIndices) (o o' : Nat) :
    cmpIndicesAndOffset (s ++ a) o (s ++ b) o' = cmpIndicesAndOffset a o b o' := by
  induction s with
  | nil => rfl
  | cons x s ih =>
    rw [List.cons_append, List.cons_append, cmp_cons_cons, rowIndex_cmp_eq.2 rfl, ih]; rfl

/-- A valid path continues at an index inside the row. -/
theorem rowAt_index_lt {root r : Row} {s a : RowIndices} {i j : Nat} {x : Row}
    (hs : rowAt root s = some r) (h : rowAt root (s ++ (i, j) :: a) = some x) :
    ∃ v cells w, r[i]? = some (.container v cells w) ∧ j < cells.length ∧ i < r.length := by
  rw [rowAt_append, hs] at h
  obtain ⟨v, cells, w, c, hi, hc, -⟩ := rowAt_cons.1 (by simpa using h)
  exact ⟨v, cells, w, hi, (List.getElem?_eq_some_iff.1 hc).1, (List.getElem?_eq_some_iff.1 hi).1⟩

theorem IsFocus.prefix {root : Row} {s a : RowIndices} {f : FocusRow}
    (h : IsFocus root (s ++ a) f) : ∃ g, IsFocus root s g := by
  induction a using List.reverseRecOn generalizing f with
  | nil => simp only [List.append_nil] at h; exact ⟨f, h⟩
  | append_singleton a ix ih =>
    rw [← List.append_assoc] at h
    obtain ⟨g, _, _, _, _, hg, _⟩ := h.snoc_inv
    exact ih hg

/-- Start offset of the spanned range. -/
def spanStart (fwd : Bool) (a : RowIndices) (o : Nat) : Nat :=
  match a with
  | ix :: _ => if fwd then ix.1 else ix.1 + 1
  | [] => o

/-- End offset of the spanned range. -/
def spanStop (fwd : Bool) (b : RowIndices) (o : Nat) : Nat :=
  match b with
  | ix :: _ => if fwd then ix.1 + 1 else ix.1
  | [] => o

theorem spanStart_le {root : Row} {s a : RowIndices} {f g : FocusRow} {o : Nat} (fwd : Bool)
    (hg : IsFocus root s g) (hf : IsFocus root (s ++ a) f) (ho : o ≤ f.row.length) :
    spanStart fwd a o ≤ g.row.length := by
  cases a with
  | nil =>
    simp only [List.append_nil] at hf
    rw [hg.unique hf]; exact ho
  | cons ix a =>
    obtain ⟨i, j⟩ := ix
    obtain ⟨_, _, _, _, _, hlt⟩ := rowAt_index_lt hg.rowAt_eq hf.rowAt_eq
    simp only [spanStart]; split <;> omega

theorem spanStop_le {root : Row} {s a : RowIndices} {f g : FocusRow} {o : Nat} (fwd : Bool)
    (hg : IsFocus root s g) (hf : IsFocus root (s ++ a) f) (ho : o ≤ f.row.length) :
    spanStop fwd a o ≤ g.row.length := by
  have := spanStart_le (!fwd) hg hf ho
  cases a with
  | nil => exact this
  | cons ix a => cases fwd <;> simpa [spanStart, spanStop] using this

theorem rangeFromPositions_eq {root : Row} {a b : Position} {s a' b' : RowIndices} {g : FocusRow}
    (ha : IsFocus root (s ++ a') a.focus) (hb : IsFocus root (s ++ b') b.focus)
    (hoa : a.offset ≤ a.focus.row.length) (hob : b.offset ≤ b.focus.row.length)
    (hdiff : ∀ x xs y ys, a' = x :: xs → b' = y :: ys → x ≠ y) (hg : IsFocus root s g) :
    rangeFromPositions root a b =
      .ok ⟨g, spanStart (a.le b) a' a.offset, spanStop (a.le b) b' b.offset⟩ := by
  unfold rangeFromPositions
  rw [ha.rowIndices_eq, hb.rowIndices_eq, getShared_eq hdiff]
  simp only [IsFocus.walkDown_iff.2 hg, M.ok_bind]
  have e1 : (match (s ++ a')[s.length]? with
      | some ix => if a.le b = true then ix.1 else ix.1 + 1
      | none => a.offset) = spanStart (a.le b) a' a.offset := by
    cases a' <;> simp [spanStart]
  have e2 : (match (s ++ b')[s.length]? with
      | some ix => if a.le b = true then ix.1 + 1 else ix.1
      | none => b.offset) = spanStop (a.le b) b' b.offset := by
    cases b' <;> simp [spanStop]
  refine Eq.trans (congrArg₂ (RowRange.new g) e1 e2) ?_
  exact RowRange.new_ok (spanStart_le _ hg ha hoa) (spanStop_le _ hg hb hob)

theorem Position.le_iff {a b : Position} : a.le b = true ↔
    cmpIndicesAndOffset a.focus.rowIndices a.offset b.focus.rowIndices b.offset ≠ .gt := by
  simp only [Position.le, Position.cmp]
  exact decide_eq_true_iff

theorem cmp_ne_gt_nil_cons {o o' : Nat} {ix : RowIndex} {b : RowIndices} :
    cmpIndicesAndOffset [] o (ix :: b) o' ≠ .gt ↔ o ≤ ix.1 := by
  rw [cmp_nil_cons]; split <;> simp_all

theorem cmp_ne_gt_cons_nil {o o' : Nat} {ix : RowIndex} {a : RowIndices} :
    cmpIndicesAndOffset (ix :: a) o [] o' ≠ .gt ↔ ix.1 < o' := by
  rw [cmp_cons_nil]; split <;> simp_all

theorem cmp_ne_gt_nil_nil {o o' : Nat} :
    cmpIndicesAndOffset [] o [] o' ≠ .gt ↔ o ≤ o' := by
  rw [cmp_nil_nil, ne_eq, Nat.compare_eq_gt]; omega

theorem cmp_ne_gt_cons_cons_ne {o o' : Nat} {x y : RowIndex} {a b : RowIndices} (h : x ≠ y) :
    cmpIndicesAndOffset (x :: a) o (y :: b) o' ≠ .gt ↔ x.1 < y.1 ∨ (x.1 = y.1 ∧ x.2 < y.2) := by
  rw [cmp_cons_cons, ← rowIndex_cmp_lt]
  cases hc : RowIndex.cmp x y with
  | lt => simp [Ordering.then]
  | eq => exact absurd (rowIndex_cmp_eq.1 hc) h
  | gt => simp [Ordering.then]

/-- Everything about the spanned offsets: direction, coverage, minimality. -/
theorem span_spec {a' b' : RowIndices} {oa ob : Nat} {fwd : Bool}
    (hdiff : ∀ x xs y ys, a' = x :: xs → b' = y :: ys → x ≠ y)
    (hfwd : fwd = true ↔ cmpIndicesAndOffset a' oa b' ob ≠ .gt) :
    (spanStart fwd a' oa ≤ spanStop fwd b' ob ↔ fwd = true) ∧
    ∀ l r, (l ≤ min (spanStart fwd a' oa) (spanStop fwd b' ob) ∧
        max (spanStart fwd a' oa) (spanStop fwd b' ob) ≤ r) ↔
      (cmpIndicesAndOffset [] l a' oa ≠ .gt ∧ cmpIndicesAndOffset [] l b' ob ≠ .gt ∧
        cmpIndicesAndOffset a' oa [] r ≠ .gt ∧ cmpIndicesAndOffset b' ob [] r ≠ .gt) := by
  cases a' with
  | nil =>
    cases b' with
    | nil =>
      rw [cmp_ne_gt_nil_nil] at hfwd
      simp only [spanStart, spanStop, cmp_ne_gt_nil_nil]
      refine ⟨hfwd.symm, fun l r => ?_⟩
      omega
    | cons y b =>
      rw [cmp_ne_gt_nil_cons] at hfwd
      simp only [spanStart, spanStop, cmp_ne_gt_nil_nil, cmp_ne_gt_nil_cons, cmp_ne_gt_cons_nil]
      cases fwd with
      | true =>
        have := hfwd.1 rfl
        simp only [if_true, iff_true]
        refine ⟨by omega, fun l r => ?_⟩
        omega
      | false =>
        have : ¬ (oa ≤ y.1) := fun h => by simpa using hfwd.2 h
        simp only [Bool.false_eq_true, if_false, iff_false]
        refine ⟨by omega, fun l r => ?_⟩
        omega
  | cons x a =>
    cases b' with
    | nil =>
      rw [cmp_ne_gt_cons_nil] at hfwd
      simp only [spanStart, spanStop, cmp_ne_gt_nil_nil, cmp_ne_gt_nil_cons, cmp_ne_gt_cons_nil]
      cases fwd with
      | true =>
        have := hfwd.1 rfl
        simp only [if_true, iff_true]
        refine ⟨by omega, fun l r => ?_⟩
        omega
      | false =>
        have : ¬ (x.1 < ob) := fun h => by simpa using hfwd.2 h
        simp only [Bool.false_eq_true, if_false, iff_false]
        refine ⟨by omega, fun l r => ?_⟩
        omega
    | cons y b =>
      have hne := hdiff x a y b rfl rfl
      rw [cmp_ne_gt_cons_cons_ne hne] at hfwd
      simp only [spanStart, spanStop, cmp_ne_gt_nil_cons, cmp_ne_gt_cons_nil]
      cases fwd with
      | true =>
        have := hfwd.1 rfl
        simp only [if_true, iff_true]
        refine ⟨by omega, fun l r => ?_⟩
        omega
      | false =>
        have h1 : ¬ (x.1 < y.1 ∨ (x.1 = y.1 ∧ x.2 < y.2)) := fun h => by simpa using hfwd.2 h
        simp only [Bool.false_eq_true, if_false, iff_false]
        refine ⟨by omega, fun l r => ?_⟩
        omega

/-! ## Selections -/

theorem fromPositions_ok {root : Row} (hwf : rowWf root = true) {a b : Position}
    {s a' b' : RowIndices} {g : FocusRow}
    (ha : IsFocus root (s ++ a') a.focus) (hb : IsFocus root (s ++ b') b.focus)
    (hoa : a.offset ≤ a.focus.row.length) (hob : b.offset ≤ b.focus.row.length)
    (hdiff : ∀ x xs y ys, a' = x :: xs → b' = y :: ys → x ≠ y) (hg : IsFocus root s g) :
    (∃ i j j' ra rb cells w, a' = (i, j) :: ra ∧ b' = (i, j') :: rb ∧ j ≠ j' ∧
        g.row[i]? = some (.container .table cells w) ∧ j < cells.length ∧ j' < cells.length ∧
        Selection.fromPositions root a b =
          .ok (.grid ⟨⟨.container .table cells w, g, i⟩, ⟨min j j', max j j' + 1, w⟩⟩)) ∨
    ((¬ ∃ i j j' ra rb cells w, a' = (i, j) :: ra ∧ b' = (i, j') :: rb ∧
        g.row[i]? = some (.container .table cells w)) ∧
      Selection.fromPositions root a b =
        .ok (.row ⟨g, spanStart (a.le b) a' a.offset, spanStop (a.le b) b' b.offset⟩)) := by
  have hr := rangeFromPositions_eq ha hb hoa hob hdiff hg
  by_cases hgrid : ∃ i j j' ra rb cells w, a' = (i, j) :: ra ∧ b' = (i, j') :: rb ∧
        g.row[i]? = some (.container .table cells w)
  · left
    obtain ⟨i, j, j', ra, rb, cells, w, rfl, rfl, hi⟩ := hgrid
    have hne : j ≠ j' := by
      intro h; subst h; exact hdiff _ _ _ _ rfl rfl rfl
    obtain ⟨_, cells1, _, hi1, hj, -⟩ := rowAt_index_lt hg.rowAt_eq ha.rowAt_eq
    obtain ⟨_, cells2, _, hi2, hj', -⟩ := rowAt_index_lt hg.rowAt_eq hb.rowAt_eq
    rw [hi] at hi1 hi2; cases hi1; cases hi2
    refine ⟨i, j, j', ra, rb, cells, w, rfl, rfl, hne, hi, hj, hj', ?_⟩
    have hlen : ∀ fwd : Bool, RowRange.len ⟨g, if fwd then i else i + 1, if fwd then i + 1 else i⟩
        = 1 ∧ RowRange.leftOffset ⟨g, if fwd then i else i + 1, if fwd then i + 1 else i⟩ = i := by
      intro fwd
      have hle : ¬ (i + 1 ≤ i) := by omega
      cases fwd <;> simp [hle, RowRange.len, RowRange.rightOffset, RowRange.leftOffset,
        RowRange.isForwards]
    obtain ⟨hl1, hl2⟩ := hlen (a.le b)
    have hn := wf_container.1 (hg.node_wf hwf hi)
    obtain ⟨hw, hm, hpos⟩ := shapeOk_pos hn.1
    have hs : GridVec.size (⟨cells, w⟩ : GridVec Row) = .ok (w, cells.length / w) :=
      GridVec.size_pos hw
    unfold Selection.fromPositions
    rw [hr]
    simp only [M.ok_bind, spanStart, spanStop, hl1, hl2, FocusRow.nodeAt, hi, Node.hasResizableGrid,
      Option.map_some, ha.rowIndices_eq, hb.rowIndices_eq, hg.rowIndices_eq]
    simp only [List.getElem?_append_right (Nat.le_refl s.length), Nat.sub_self,
      List.getElem?_cons_zero, FocusRow.childAt, hi, ne_eq, not_true_eq_false, if_false,
      beq_self_eq_true, massert_true, M.ok_bind, munwrap_some, Node.grid, hs,
      GridRectangle.fromIndicesInclusive, toIndexChecked_fromIndex hw hm, if_pos hj, if_pos hj']
    by_cases hlt : j > j'
    · have e1 : min j j' = j' := by omega
      have e2 : max j j' = j := by omega
      simp only [hlt, if_true, GridRectangle.new, e1, e2, if_pos (show j' < j + 1 by omega),
        M.ok_bind]
    · have e1 : min j j' = j := by omega
      have e2 : max j j' = j' := by omega
      simp only [hlt, if_false, GridRectangle.new, e1, e2, if_pos (show j < j' + 1 by omega),
        M.ok_bind]
  · right
    refine ⟨hgrid, ?_⟩
    unfold Selection.fromPositions
    rw [hr]
    simp only [M.ok_bind]
    split
    · rfl
    · rename_i hlen
      split
      · rfl
      · rename_i htab
        rw [ha.rowIndices_eq, hb.rowIndices_eq, hg.rowIndices_eq,
          List.getElem?_append_right (Nat.le_refl s.length),
          List.getElem?_append_right (Nat.le_refl s.length), Nat.sub_self]
        cases a' with
        | nil => rfl
        | cons x ra =>
          cases b' with
          | nil => rfl
          | cons y rb =>
            exfalso
            apply hgrid
            obtain ⟨i, j⟩ := x
            obtain ⟨i', j'⟩ := y
            have hne := hdiff _ _ _ _ rfl rfl
            have hspan := (span_spec (fwd := a.le b) (oa := a.offset) (ob := b.offset)
              hdiff (by rw [Position.le_iff, ha.rowIndices_eq, hb.rowIndices_eq, cmp_append])).1
            simp only [spanStart, spanStop, ne_eq, Decidable.not_not, RowRange.len,
              RowRange.rightOffset, RowRange.leftOffset, RowRange.isForwards] at hspan hlen htab
            have hii : i = i' ∧ (g.nodeAt i).map Node.hasResizableGrid = some true := by
              cases hfw : a.le b with
              | true =>
                simp only [hfw, if_true, iff_true, decide_eq_true_eq] at hspan hlen htab
                simp only [hspan, if_true] at hlen htab
                exact ⟨by omega, htab⟩
              | false =>
                simp only [hfw, if_false, Bool.false_eq_true, iff_false,
                  decide_eq_true_eq] at hspan hlen htab
                simp only [hspan, if_false] at hlen htab
                have : i = i' := by omega
                exact ⟨this, this ▸ htab⟩
            obtain ⟨rfl, htab'⟩ := hii
            obtain ⟨v, cells, w, hi, -, -⟩ := rowAt_index_lt hg.rowAt_eq ha.rowAt_eq
            simp only [FocusRow.nodeAt, hi, Option.map_some, Option.some.injEq] at htab'
            cases v <;> simp only [Node.hasResizableGrid, Bool.false_eq_true] at htab'
            exact ⟨i, j, j', ra, rb, cells, w, rfl, rfl, hi⟩

/-- Two positions of the tree have a common part of their paths. -/
theorem split_paths {root : Row} {pa pb : RowIndices} {fa fb : FocusRow}
    (ha : IsFocus root pa fa) (_hb : IsFocus root pb fb) :
    ∃ s a' b' g, pa = s ++ a' ∧ pb = s ++ b' ∧ s = getShared pa pb ∧
      (∀ x xs y ys, a' = x :: xs → b' = y :: ys → x ≠ y) ∧ IsFocus root s g := by
  obtain ⟨a', b', h1, h2, h3⟩ := getShared_spec pa pb
  obtain ⟨g, hg⟩ := IsFocus.prefix (h1 ▸ ha)
  exact ⟨_, a', b', g, h1, h2, rfl, h3, hg⟩

theorem fromPositions_total {root : Row} (hwf : rowWf root = true) {a b : Position}
    (ha : a.In root) (hb : b.In root) : ∃ sel, Selection.fromPositions root a b = .ok sel := by
  obtain ⟨⟨pa, hpa⟩, hoa⟩ := ha
  obtain ⟨⟨pb, hpb⟩, hob⟩ := hb
  obtain ⟨s, a', b', g, rfl, rfl, -, hd, hg⟩ := split_paths hpa hpb
  rcases fromPositions_ok hwf hpa hpb hoa hob hd hg with h | h
  · obtain ⟨_, _, _, _, _, _, _, _, _, _, _, _, _, h⟩ := h
    exact ⟨_, h⟩
  · exact ⟨_, h.2⟩

/-- Collapsed or same-row selections are the row range itself. -/
theorem fromPositions_same_row {root : Row} (hwf : rowWf root = true) {p : RowIndices}
    {f : FocusRow} (hf : IsFocus root p f) {oa ob : Nat} (ha : oa ≤ f.row.length)
    (hb : ob ≤ f.row.length) :
    Selection.fromPositions root ⟨f, oa⟩ ⟨f, ob⟩ = .ok (.row ⟨f, oa, ob⟩) := by
  have hf' : IsFocus root (p ++ []) f := by simpa using hf
  rcases fromPositions_ok (a := ⟨f, oa⟩) (b := ⟨f, ob⟩) hwf hf' hf' ha hb
    (by intro x xs y ys h; cases h) hf with h | h
  · obtain ⟨_, _, _, _, _, _, _, h, _⟩ := h
    cases h
  · exact h.2

end Aftermath
