import Verif.Props.Position
import Verif.Model.Tree

/-! # C13 and C42: views of grids, and making tables

The cells of a view are what a grid range shows; nothing in the editor looks at them by now. -/

namespace Aftermath

/-- **C13** A rectangle is empty exactly if it was made from an empty range, and then it has no last
cell. -/
theorem C13_empty (start stop width : Nat) :
    ((GridRectangle.new start stop width).isEmpty = true ↔ stop ≤ start) ∧
    ((GridRectangle.new start stop width).endIndexInclusive = .ok none ↔ stop ≤ start) := by
  have h : (GridRectangle.new start stop width).isEmpty = true ↔ stop ≤ start := by
    unfold GridRectangle.new GridRectangle.isEmpty
    rw [decide_eq_true_iff]
    dsimp only
    split <;> omega
  refine ⟨h, ?_⟩
  rw [← h]
  unfold GridRectangle.endIndexInclusive
  split
  · simp_all
  · split <;> simp_all

/-- **C13** A view of the full rows from `y` to `y'` of a grid has exactly the cells of these rows. -/
theorem C13_view_cells (cfg : Cfg) {α : Type} (g : GridVec α) (hw : 0 < g.width) {y y' i j : Nat}
    (hy : y ≤ y') (hy' : y' < g.values.length / g.width) :
    GridView.get cfg ⟨g, .new (y * g.width) ((y' + 1) * g.width) g.width⟩ ⟨i, j, g.width⟩ =
      if i < g.width ∧ j ≤ y' - y then g.get ⟨i, y + j, g.width⟩ else .ok none := by
  have hlt : y * g.width < (y' + 1) * g.width := Nat.mul_lt_mul_of_pos_right (by omega) hw
  have hsize : GridView.size cfg ⟨g, .new (y * g.width) ((y' + 1) * g.width) g.width⟩ =
      .ok (g.width, y' + 1 - y) := by
    unfold GridView.size GridRectangle.size GridRectangle.height GridRectangle.new
    dsimp only
    rw [if_neg (by omega), if_pos hlt, Nat.mul_div_cancel _ hw, Nat.mul_div_cancel _ hw, usub,
      if_pos (by omega)]
    rfl
  unfold GridView.get
  rw [hsize, M.ok_bind, C42_addressable]
  by_cases h : i < g.width ∧ j ≤ y' - y
  · rw [if_pos (⟨h.1, by omega⟩ : i < g.width ∧ j < y' + 1 - y), if_pos h, (C42_get g hw i (y + j)).1,
      if_pos (⟨h.1, by omega⟩ : i < g.width ∧ y + j < g.values.length / g.width)]
    have : j * g.width + i + y * g.width = (y + j) * g.width + i := by rw [Nat.add_mul]; omega
    simp only [GridRectangle.new, this]
  · rw [if_neg (by omega : ¬ (i < g.width ∧ j < y' + 1 - y)), if_neg h]

/-- **C42** A table can be made exactly if its rows are full, and it is a table with these cells. -/
theorem C42_table (cells : List Row) (width : Nat) :
    (0 < width ∧ cells.length % width = 0 →
      Node.table cells width = .ok (.container .table cells width)) ∧
    (¬ (0 < width ∧ cells.length % width = 0) → Node.table cells width = .error .assertion) := by
  unfold Node.table GridVec.fromOneDimensional
  constructor
  · rintro ⟨h1, h2⟩
    rw [if_neg (by omega), if_pos h2]
    rfl
  · intro h
    split
    · rfl
    · rw [if_neg (by omega)]
      rfl

/-! ## Examples -/

/-- The lower two rows of a table with three rows. -/
example : GridView.get .dev ⟨⟨[1, 2, 3, 4, 5, 6], 2⟩, .new 2 6 2⟩ ⟨1, 0, 2⟩ = .ok (some 4) ∧
    GridView.get .dev ⟨⟨[1, 2, 3, 4, 5, 6], 2⟩, .new 2 6 2⟩ ⟨1, 2, 2⟩ = .ok none :=
  ⟨rfl, rfl⟩

example : (Node.table [[], []] 2).isOk = true ∧ (Node.table [[], []] 3).isOk = false ∧
    (Node.table [] 0).isOk = false := ⟨rfl, rfl, rfl⟩

end Aftermath
