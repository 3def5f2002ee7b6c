import Verif.Proof.Press
import Verif.Spec.Grid

/-! # Property theorems C11–C13: ranges and selections -/

namespace Aftermath

/-! ## C11 -/

/-- `InputTree::range_from_positions` (`input_tree.rs` 22-48) seen from outside. -/
def spanRange (root : Row) (a b : MinPos) : M MinRange := do
  let pa ← Position.fromMinimal (FocusRow.fromRoot root) a
  let pb ← Position.fromMinimal (FocusRow.fromRoot root) b
  let r ← rangeFromPositions root pa pb
  .ok r.toMinimal

/-- Position `a` is not after position `b`. -/
def MinPos.Le (a b : MinPos) : Prop := MinPos.cmp a b ≠ .gt

/-- The positions from offset `l` to offset `r` of the row `p` cover the position `a`. -/
def Covers (p : RowIndices) (l r : Nat) (a : MinPos) : Prop :=
  MinPos.Le ⟨p, l⟩ a ∧ a.Le ⟨p, r⟩

/-- C11 -/
theorem C11_span {root : Row} (hwf : rowWf root = true) {a b : MinPos} (ha : ValidPos root a)
    (hb : ValidPos root b) :
    ∃ r, spanRange root a b = .ok r ∧ ValidRange root r ∧
      -- the deepest row that encloses both
      (r.rowIndices <+: a.rowIndices ∧ r.rowIndices <+: b.rowIndices ∧
        ∀ q, q <+: a.rowIndices → q <+: b.rowIndices → q <+: r.rowIndices) ∧
      -- both positions are inside
      Covers r.rowIndices (min r.start r.stop) (max r.start r.stop) a ∧
      Covers r.rowIndices (min r.start r.stop) (max r.start r.stop) b ∧
      -- direction
      (r.start ≤ r.stop ↔ a.Le b) ∧
      -- no smaller range covers both
      ∀ l s, Covers r.rowIndices l s a → Covers r.rowIndices l s b →
        l ≤ min r.start r.stop ∧ max r.start r.stop ≤ s := by
  obtain ⟨pa, ha1, ha2, ha3, ha4⟩ := Position.fromMinimal_valid hwf ha
  obtain ⟨pb, hb1, hb2, hb3, hb4⟩ := Position.fromMinimal_valid hwf hb
  obtain ⟨s, a', b', g, hpa, hpb, hs, hd, hg⟩ := split_paths ha4 hb4
  have hr := rangeFromPositions_eq (a := pa) (b := pb) (hpa ▸ ha4) (hpb ▸ hb4) ha2.2 hb2.2 hd hg
  have hoa : pa.offset = a.offset := by rw [← ha3]; rfl
  have hob : pb.offset = b.offset := by rw [← hb3]; rfl
  have hfwd : pa.le pb = true ↔ cmpIndicesAndOffset a' a.offset b' b.offset ≠ .gt := by
    rw [Position.le_iff, ha4.rowIndices_eq, hb4.rowIndices_eq, hpa, hpb, cmp_append, hoa, hob]
  obtain ⟨h1, h2⟩ := span_spec hd hfwd
  rw [hoa, hob] at hr
  have hcov : ∀ (x : MinPos) (x' : RowIndices) l r, x.rowIndices = s ++ x' →
      (Covers s l r x ↔ cmpIndicesAndOffset [] l x' x.offset ≠ .gt ∧
        cmpIndicesAndOffset x' x.offset [] r ≠ .gt) := by
    intro x x' l r hx
    have e1 := cmp_append s [] x' l x.offset
    have e2 := cmp_append s x' [] x.offset r
    simp only [List.append_nil] at e1 e2
    simp only [Covers, MinPos.Le, MinPos.cmp, hx, e1, e2]
  refine ⟨_, by simp only [spanRange, ha1, hb1, M.ok_bind, hr]; rfl, ?_, ?_, ?_⟩
  · refine ⟨g.row, ?_, ?_, ?_⟩
    · simp only [RowRange.toMinimal]
      rw [hg.rowIndices_eq, hg.rowAt_eq]
    · rw [← hoa]; exact spanStart_le _ hg (hpa ▸ ha4) ha2.2
    · rw [← hob]; exact spanStop_le _ hg (hpb ▸ hb4) hb2.2
  · simp only [RowRange.toMinimal, hg.rowIndices_eq]
    refine ⟨⟨_, hpa.symm⟩, ⟨_, hpb.symm⟩, fun q h3 h4 => ?_⟩
    rw [hs]; exact getShared_greatest h3 h4
  · simp only [RowRange.toMinimal, hg.rowIndices_eq, hcov a a' _ _ hpa, hcov b b' _ _ hpb]
    have h3 := (h2 _ _).1 ⟨Nat.le_refl _, Nat.le_refl _⟩
    refine ⟨⟨h3.1, h3.2.2.1⟩, ⟨h3.2.1, h3.2.2.2⟩, ?_, ?_⟩
    · rw [h1, hfwd, MinPos.Le, MinPos.cmp, hpa, hpb, cmp_append]
    · intro l r h4 h5
      exact (h2 l r).2 ⟨h4.1, h5.1, h4.2, h5.2⟩

/-- From inside a numerator back to the start of the row: backwards range over the fraction. -/
example : spanRange [.symbol ['a'], .fraction [.symbol ['x']] []] ⟨[(1, 0)], 1⟩ ⟨[], 0⟩ =
    .ok ⟨[], 2, 0⟩ := by decide +kernel

/-! ## C12 -/

/-- The two positions lie in different cells of one table: the table at index `i` of the row `p`. -/
def InTable (root : Row) (a b : MinPos) (p : RowIndices) (i j j' w : Nat) : Prop :=
  j ≠ j' ∧ (∃ ra, a.rowIndices = p ++ (i, j) :: ra) ∧ (∃ rb, b.rowIndices = p ++ (i, j') :: rb) ∧
    ∃ row cells, rowAt root p = some row ∧ row[i]? = some (.container .table cells w)

/-- C12: the selection of a caret over two valid positions. -/
theorem C12_selection {root : Row} (hwf : rowWf root = true) {a b : MinPos} (ha : ValidPos root a)
    (hb : ValidPos root b) :
    ∃ c, Caret.fromMinimal root ⟨a, b⟩ = .ok c ∧ c.toMinimal = ⟨a, b⟩ ∧
      ((∃ p i j j' w, InTable root a b p i j j' w ∧
        c.selection.toMinimal = .grid ⟨p, i, min j j', max j j' + 1, w⟩) ∨
       ((¬ ∃ p i j j' w, InTable root a b p i j j' w) ∧
        ∃ r, spanRange root a b = .ok r ∧ c.selection.toMinimal = .row r)) := by
  obtain ⟨c, hc, hin, hm⟩ := Caret.fromMinimal_valid (m := ⟨a, b⟩) hwf ⟨ha, hb⟩
  refine ⟨c, hc, hm, ?_⟩
  have hma : c.start.toMinimal = a := congrArg MinCaret.start hm
  have hmb : c.stop.toMinimal = b := congrArg MinCaret.stop hm
  obtain ⟨⟨⟨qa, hqa⟩, hoa⟩, ⟨⟨qb, hqb⟩, hob⟩, hsel⟩ := hin
  have hia : qa = a.rowIndices := by rw [← hma]; exact hqa.rowIndices_eq.symm
  have hib : qb = b.rowIndices := by rw [← hmb]; exact hqb.rowIndices_eq.symm
  obtain ⟨s, a', b', g, hpa, hpb, hs, hd, hg⟩ := split_paths hqa hqb
  rcases fromPositions_ok hwf (hpa ▸ hqa) (hpb ▸ hqb) hoa hob hd hg with
    ⟨i, j, j', ra, rb, cells, w, rfl, rfl, hne, hi, -, -, h⟩ | ⟨hno, h⟩
  · left
    rw [hsel] at h
    refine ⟨s, i, j, j', w, ⟨hne, ⟨ra, by rw [← hia, hpa]⟩, ⟨rb, by rw [← hib, hpb]⟩,
      g.row, cells, hg.rowAt_eq, hi⟩, ?_⟩
    have h := Except.ok.inj h
    simp [h, Selection.toMinimal, GridRange.toMinimal, hg.rowIndices_eq]
  · right
    constructor
    · rintro ⟨p, i, j, j', w, hne, ⟨ra, hra⟩, ⟨rb, hrb⟩, row, cells, hrow, hi⟩
      have hsp : s = p := by
        rw [hs, hia, hib, hra, hrb]
        refine getShared_eq ?_
        rintro x xs y ys ⟨⟩ ⟨⟩
        simp [hne]
      subst hsp
      rw [← hia, hpa] at hra
      rw [← hib, hpb] at hrb
      refine hno ⟨i, j, j', ra, rb, cells, w, List.append_cancel_left hra,
        List.append_cancel_left hrb, ?_⟩
      have := hg.rowAt_eq
      rw [hrow] at this
      cases this
      exact hi
    · have hr := rangeFromPositions_eq (hpa ▸ hqa) (hpb ▸ hqb) hoa hob hd hg
      rw [hsel] at h
      have ea := Position.fromMinimal_valid hwf ha
      have eb := Position.fromMinimal_valid hwf hb
      obtain ⟨pa, ha1, ha2, ha3, -⟩ := ea
      obtain ⟨pb, hb1, hb2, hb3, -⟩ := eb
      have : pa = c.start := ha2.ext ⟨⟨qa, hqa⟩, hoa⟩ (ha3.trans hma.symm)
      subst this
      have : pb = c.stop := hb2.ext ⟨⟨qb, hqb⟩, hob⟩ (hb3.trans hmb.symm)
      subst this
      refine ⟨_, by simp only [spanRange, ha1, hb1, M.ok_bind, hr]; rfl, ?_⟩
      have h := Except.ok.inj h
      rw [h]
      rfl

/-- C12: the selected interval of cell indices contains both cells and lies in the table. -/
theorem C12_interval {root : Row} {a b : MinPos} {p : RowIndices} {i j j' w : Nat}
    (ha : ValidPos root a) (hb : ValidPos root b) (h : InTable root a b p i j j' w) :
    ∃ row cells, rowAt root p = some row ∧ row[i]? = some (.container .table cells w) ∧
      min j j' ≤ j ∧ j < max j j' + 1 ∧ min j j' ≤ j' ∧ j' < max j j' + 1 ∧
      max j j' + 1 ≤ cells.length := by
  obtain ⟨-, ⟨ra, hra⟩, ⟨rb, hrb⟩, row, cells, hrow, hi⟩ := h
  obtain ⟨x, hx, -⟩ := ha
  obtain ⟨y, hy, -⟩ := hb
  rw [hra] at hx
  rw [hrb] at hy
  obtain ⟨_, _, _, h1, h2, -⟩ := rowAt_index_lt hrow hx
  obtain ⟨_, _, _, h3, h4, -⟩ := rowAt_index_lt hrow hy
  rw [hi] at h1 h3
  cases h1; cases h3
  exact ⟨row, cells, hrow, hi, by omega, by omega, by omega, by omega, by omega⟩

/-- The grid case occurs. -/
example : InTable [.container .table [[], [], [], []] 2] ⟨[(0, 1)], 0⟩ ⟨[(0, 2)], 0⟩ [] 0 1 2 2 :=
  ⟨by decide, ⟨[], rfl⟩, ⟨[], rfl⟩, _, _, rfl, rfl⟩
/-- Two cells of a fraction are not a grid selection. -/
example : (Caret.fromMinimal [.fraction [] []] ⟨⟨[(0, 0)], 0⟩, ⟨[(0, 1)], 0⟩⟩).map
    (·.selection.toMinimal) = .ok (.row ⟨[], 0, 1⟩) := by decide +kernel

/-! ## C13 -/

/-- The grid selection of the cells `(x, y)` and `(x', y')` is their bounding rectangle. -/
def BoundingBox (g : GridVec Row) (x y x' y' : Nat) : Prop :=
  ∃ r, GridRectangle.fromIndicesInclusive ⟨x, y, g.width⟩ ⟨x', y', g.width⟩ g = .ok r ∧
    r.startIndex = .ok ⟨min x x', min y y', g.width⟩ ∧
    r.endIndexInclusive = .ok (some ⟨max x x', max y y', g.width⟩)

/-- The view of the selection has the size of the bounding rectangle. -/
def ViewSize (cfg : Cfg) (g : GridVec Row) (x y x' y' : Nat) : Prop :=
  ∃ r, GridRectangle.fromIndicesInclusive ⟨x, y, g.width⟩ ⟨x', y', g.width⟩ g = .ok r ∧
    GridView.size cfg ⟨g, r⟩ = .ok (max x x' - min x x' + 1, max y y' - min y y' + 1)

theorem fromIndicesInclusive_eq {g : GridVec Row} {w h x y x' y' : Nat} (hg : GridSize g w h)
    (hx : x < w) (hx' : x' < w) (hy : y < h) (hy' : y' < h) :
    GridRectangle.fromIndicesInclusive ⟨x, y, g.width⟩ ⟨x', y', g.width⟩ g =
      .ok ⟨min (y * w + x) (y' * w + x'), max (y * w + x) (y' * w + x') + 1, w⟩ := by
  obtain ⟨hw, hpos, hlen⟩ := hg
  have hne : g.width ≠ 0 := by omega
  have hs : g.size = .ok (w, h) := by
    simp only [GridVec.size, hlen, hw]
    rw [Nat.mul_div_cancel _ hpos, if_neg (by omega)]
  have t : ∀ a b, a < w → b < h → (Index2D.mk a b g.width).toIndexChecked (w, h) =
      some (b * w + a) := by
    intro a b ha hb
    simp only [Index2D.toIndexChecked, Index2D.withGrid, hw]
    rw [if_neg (by simp; omega)]
    rfl
  simp only [GridRectangle.fromIndicesInclusive, hs, M.ok_bind, t x y hx hy, t x' y' hx' hy',
    munwrap_some, GridRectangle.new]
  split
  · rw [if_pos (by omega)]; congr 2 <;> omega
  · rw [if_pos (by omega)]; congr 2 <;> omega

theorem div_of_lt {w x y : Nat} (hx : x < w) : (y * w + x) / w = y := by
  rw [Nat.mul_comm, Nat.mul_add_div (by omega), Nat.div_eq_of_lt hx, Nat.add_zero]

theorem mod_of_lt {w x y : Nat} (hx : x < w) : (y * w + x) % w = x := by
  rw [Nat.mul_comm, Nat.mul_add_mod, Nat.mod_eq_of_lt hx]

theorem lex_le {w x y x' y' : Nat} (hx : x < w) (hx' : x' < w) :
    y * w + x ≤ y' * w + x' ↔ y < y' ∨ (y = y' ∧ x ≤ x') := by
  constructor
  · intro h
    have h1 : (y * w + x) / w ≤ (y' * w + x') / w := Nat.div_le_div_right h
    rw [div_of_lt hx, div_of_lt hx'] at h1
    rcases Nat.lt_or_eq_of_le h1 with h2 | h2
    · exact Or.inl h2
    · subst h2; exact Or.inr ⟨rfl, by omega⟩
  · rintro (h | ⟨rfl, h⟩)
    · have : (y + 1) * w ≤ y' * w := Nat.mul_le_mul_right _ h
      have e : (y + 1) * w = y * w + w := by rw [Nat.add_mul, Nat.one_mul]
      omega
    · omega

theorem rect_start {w x y s : Nat} (hx : x < w) :
    GridRectangle.startIndex ⟨y * w + x, s, w⟩ = .ok ⟨x, y, w⟩ := by
  simp only [GridRectangle.startIndex]
  rw [if_neg (by omega), mod_of_lt hx, div_of_lt hx]

theorem rect_end {w x' y' s : Nat} (hx' : x' < w) (hs : s ≤ y' * w + x') :
    GridRectangle.endIndexInclusive ⟨s, y' * w + x' + 1, w⟩ = .ok (some ⟨x', y', w⟩) := by
  have h : GridRectangle.isEmpty ⟨s, y' * w + x' + 1, w⟩ = false := by
    simp [GridRectangle.isEmpty]; omega
  simp only [GridRectangle.endIndexInclusive, h]
  rw [if_neg (by simp), if_neg (by omega), Nat.add_sub_cancel, mod_of_lt hx', div_of_lt hx']

theorem rect_size {w x y x' y' : Nat} (cfg : Cfg) (g : GridVec Row) (hx : x < w) (hx' : x' < w)
    (hy : y ≤ y') :
    GridView.size cfg ⟨g, ⟨y * w + x, y' * w + x' + 1, w⟩⟩ =
      .ok (w, (if x' + 1 = w then y' + 1 else y') - y) := by
  have h : (y' * w + x' + 1) / w = if x' + 1 = w then y' + 1 else y' := by
    split
    · rename_i h
      rw [show y' * w + x' + 1 = (y' + 1) * w + 0 by rw [Nat.add_mul, Nat.one_mul]; omega,
        div_of_lt (by omega)]
    · rw [Nat.add_assoc, div_of_lt (by omega)]
  simp only [GridView.size, GridRectangle.size, GridRectangle.height]
  rw [if_neg (by omega), div_of_lt hx, h, usub_of_le (by split <;> omega)]
  rfl

/-- C13, exactly when the corners are right: if neither corner is strictly above and strictly
right of the other. -/
theorem C13_corners_partial {g : GridVec Row} {w h x y x' y' : Nat} (hg : GridSize g w h)
    (hx : x < w) (hx' : x' < w) (hy : y < h) (hy' : y' < h) :
    BoundingBox g x y x' y' ↔ (y < y' → x ≤ x') ∧ (y' < y → x' ≤ x) := by
  have he := fromIndicesInclusive_eq hg hx hx' hy hy'
  have hw := hg.1
  unfold BoundingBox
  rw [he]
  simp only [Except.ok.injEq, exists_eq_left']
  rcases Nat.le_total (y * w + x) (y' * w + x') with hle | hle
  · have hl := (lex_le hx hx').1 hle
    rw [Nat.min_eq_left hle, Nat.max_eq_right hle, rect_start hx, rect_end hx' hle]
    simp only [Except.ok.injEq, Option.some.injEq, Index2D.mk.injEq, hw, and_true]
    omega
  · have hl := (lex_le hx' hx).1 hle
    rw [Nat.min_eq_right hle, Nat.max_eq_left hle, rect_start hx', rect_end hx hle]
    simp only [Except.ok.injEq, Option.some.injEq, Index2D.mk.injEq, hw, and_true]
    omega

/-- C13, exactly when the view size is right: if the selection consists of full rows. -/
theorem C13_view_size_partial {g : GridVec Row} {w h x y x' y' : Nat} (cfg : Cfg)
    (hg : GridSize g w h) (hx : x < w) (hx' : x' < w) (hy : y < h) (hy' : y' < h)
    (hbox : BoundingBox g x y x' y') :
    ViewSize cfg g x y x' y' ↔ min x x' = 0 ∧ max x x' + 1 = w := by
  have hc := (C13_corners_partial hg hx hx' hy hy').1 hbox
  have he := fromIndicesInclusive_eq hg hx hx' hy hy'
  unfold ViewSize
  rw [he]
  simp only [Except.ok.injEq, exists_eq_left']
  rcases Nat.le_total (y * w + x) (y' * w + x') with hle | hle
  · have hl := (lex_le hx hx').1 hle
    rw [Nat.min_eq_left hle, Nat.max_eq_right hle, rect_size cfg g hx hx' (by omega)]
    simp only [Except.ok.injEq, Prod.mk.injEq]
    split <;> omega
  · have hl := (lex_le hx' hx).1 hle
    rw [Nat.min_eq_right hle, Nat.max_eq_left hle, rect_size cfg g hx' hx (by omega)]
    simp only [Except.ok.injEq, Prod.mk.injEq]
    split <;> omega

/-- C13, the indices that a grid range reports: column and row of its first and of its last cell. -/
theorem C13_indices (f : FocusNode) {w x y x' y' : Nat} (hx : x < w) (hx' : x' < w)
    (hle : y * w + x ≤ y' * w + x') :
    (GridRange.mk f ⟨y * w + x, y' * w + x' + 1, w⟩).topLeftIndex = .ok (x, y) ∧
    (GridRange.mk f ⟨y * w + x, y' * w + x' + 1, w⟩).bottomRightIndex = .ok (some (x', y')) := by
  unfold GridRange.topLeftIndex GridRange.bottomRightIndex
  rw [rect_start hx, rect_end hx' hle]
  exact ⟨rfl, rfl⟩

/-- C13 is false: an anti-diagonal selection in a 2×2 table. -/
theorem C13_false : ¬ ∀ (g : GridVec Row) (w h x y x' y' : Nat), GridSize g w h → x < w → x' < w →
    y < h → y' < h → BoundingBox g x y x' y' := by
  intro h
  have := h ⟨[[], [], [], []], 2⟩ 2 2 1 0 0 1 ⟨rfl, by decide, rfl⟩ (by decide) (by decide)
    (by decide) (by decide)
  rw [C13_corners_partial (w := 2) (h := 2) ⟨rfl, by decide, rfl⟩ (by decide) (by decide)
    (by decide) (by decide)] at this
  exact absurd (this.1 (by decide)) (by decide)

/-- The view size is false even for two cells in one row: cells 0 and 1 of a 3×1 table. -/
theorem C13_view_size_false : ¬ ∀ (g : GridVec Row) (w h x y x' y' : Nat), GridSize g w h →
    x < w → x' < w → y < h → y' < h → ViewSize .dev g x y x' y' := by
  intro h
  obtain ⟨r, h1, h2⟩ := h ⟨[[], [], []], 3⟩ 3 1 0 0 1 0 ⟨rfl, by decide, rfl⟩ (by decide) (by decide)
    (by decide) (by decide)
  have : GridRectangle.fromIndicesInclusive ⟨0, 0, 3⟩ ⟨1, 0, 3⟩ (⟨[[], [], []], 3⟩ : GridVec Row) =
      .ok ⟨0, 2, 3⟩ := by decide +kernel
  rw [this] at h1
  cases h1
  revert h2
  decide +kernel

/-- Selecting two full rows of a 2×3 table is right. -/
example : BoundingBox ⟨[[], [], [], [], [], []], 2⟩ 0 1 1 2 ∧
    ViewSize .dev ⟨[[], [], [], [], [], []], 2⟩ 0 1 1 2 :=
  ⟨⟨⟨2, 6, 2⟩, by decide +kernel, by decide +kernel, by decide +kernel⟩,
    ⟨⟨2, 6, 2⟩, by decide +kernel, by decide +kernel⟩⟩

end Aftermath
