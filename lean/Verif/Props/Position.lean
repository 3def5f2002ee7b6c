import Verif.Proof.Order
import Verif.Proof.Focus

/-! # Property theorems C05, C06, C14, C42: positions, focus, grid indices -/

namespace Aftermath

/-! ## C05 -/

/-- C05: the comparison says `Equal` exactly for the same row indices and offset. -/
theorem C05_eq_iff (a b : Position) : a.cmp b = .eq ↔ a.toMinimal = b.toMinimal := by
  simp only [Position.cmp, Position.toMinimal, cmp_eq, MinPos.mk.injEq]

/-- C05: flipping the arguments flips the result. -/
theorem C05_swap (a b : Position) : b.cmp a = (a.cmp b).swap := (cmp_swap _ _ _ _).symm

/-- C05: transitive. -/
theorem C05_trans {a b c : Position} (h1 : a.cmp b = .lt) (h2 : b.cmp c = .lt) :
    a.cmp c = .lt := cmp_trans h1 h2

/-- C05: `<=` is a total preorder whose equivalence is equality of positions. -/
theorem C05_le_total_order :
    (∀ a : Position, a.le a = true) ∧
    (∀ a b : Position, a.le b = true ∨ b.le a = true) ∧
    (∀ a b : Position, a.le b = true → b.le a = true → a.toMinimal = b.toMinimal) ∧
    (∀ a b c : Position, a.le b = true → b.le c = true → a.le c = true) := by
  have key : ∀ a b : Position, a.le b = true ↔ a.cmp b = .lt ∨ a.cmp b = .eq := by
    intro a b; simp only [Position.le]; cases a.cmp b <;> simp
  have heq : ∀ a b c : Position, a.cmp b = .eq → (a.cmp c = b.cmp c ∧ c.cmp a = c.cmp b) := by
    intro a b c h
    have := (C05_eq_iff a b).1 h
    simp only [Position.toMinimal, MinPos.mk.injEq] at this
    simp only [Position.cmp, this.1, this.2, and_self]
  refine ⟨fun a => (key a a).2 (Or.inr ((C05_eq_iff a a).2 rfl)), fun a b => ?_, fun a b h1 h2 => ?_,
    fun a b c h1 h2 => ?_⟩
  · rw [key, key, C05_swap a b]
    cases a.cmp b <;> simp
  · rw [key] at h1 h2
    rw [C05_swap a b] at h2
    apply (C05_eq_iff a b).1
    cases h : a.cmp b <;> simp_all
  · rw [key] at *
    rcases h1 with h1 | h1
    · rcases h2 with h2 | h2
      · exact Or.inl (C05_trans h1 h2)
      · left; rw [← (heq b c a h2).2]; exact h1
    · rw [(heq a b c h1).1]; exact h2

/-- A position inside a fraction at index 1 lies between the offsets 1 and 2. -/
example : cmpIndicesAndOffset [] 1 [(1, 0)] 7 = .lt ∧ cmpIndicesAndOffset [(1, 0)] 7 [] 2 = .lt ∧
    cmpIndicesAndOffset [(1, 0), (3, 1)] 0 [(1, 0)] 3 = .gt := by decide +kernel

/-! ## C06 -/

/-- C06: reading order is strictly increasing. -/
theorem C06_sorted (root : Row) :
    (positions root).Pairwise fun a b =>
      cmpIndicesAndOffset a.rowIndices a.offset b.rowIndices b.offset = .lt :=
  rowPositions_sorted 0 root

/-- C06: exactly the valid positions are listed. -/
theorem C06_mem (root : Row) (p : MinPos) : p ∈ positions root ↔ ValidPos root p :=
  mem_positions_valid

/-- C06: no position is listed twice. -/
theorem C06_nodup (root : Row) : (positions root).Nodup := by
  refine (C06_sorted root).imp fun {a b} h hab => ?_
  subst hab
  rw [cmp_eq.2 ⟨rfl, rfl⟩] at h
  cases h

/-- C06: hence for two valid positions the comparison agrees with the place in the list. -/
theorem C06_cmp_index (root : Row) {i j : Nat} {a b : MinPos}
    (ha : (positions root)[i]? = some a) (hb : (positions root)[j]? = some b) :
    cmpIndicesAndOffset a.rowIndices a.offset b.rowIndices b.offset = compare i j := by
  obtain ⟨hi, rfl⟩ := List.getElem?_eq_some_iff.1 ha
  obtain ⟨hj, rfl⟩ := List.getElem?_eq_some_iff.1 hb
  have h := List.pairwise_iff_getElem.1 (C06_sorted root)
  rcases Nat.lt_trichotomy i j with hlt | heq | hgt
  · rw [Nat.compare_eq_lt.2 hlt]; exact h i j hi hj hlt
  · subst heq; rw [Nat.compare_eq_eq.2 rfl]; exact cmp_eq.2 ⟨rfl, rfl⟩
  · rw [Nat.compare_eq_gt.2 hgt, cmp_gt]; exact h j i hj hi hgt

example : positions [.fraction [.symbol ['x']] []] =
    [⟨[], 0⟩, ⟨[(0, 0)], 0⟩, ⟨[(0, 0)], 1⟩, ⟨[(0, 1)], 0⟩, ⟨[], 1⟩] := by decide +kernel

/-! ## C14 -/

/-- C14: walking down an existing path of a well-formed tree succeeds, reports that path and
shows the row of the tree. -/
theorem C14_walk_down {root r : Row} {p : RowIndices} (hwf : rowWf root = true)
    (h : rowAt root p = some r) :
    ∃ f, (FocusRow.fromRoot root).walkDown p = .ok f ∧ f.rowIndices = p ∧ f.row = r := by
  obtain ⟨f, hf, hr⟩ := IsFocus.exists_of_wf hwf h
  exact ⟨f, IsFocus.walkDown_iff.2 hf, hf.rowIndices_eq, hr⟩

/-- C14: walking down a path that does not exist panics. -/
theorem C14_walk_down_invalid {root : Row} {p : RowIndices} (h : rowAt root p = none) :
    ∃ e, (FocusRow.fromRoot root).walkDown p = .error e := by
  cases hw : (FocusRow.fromRoot root).walkDown p with
  | error e => exact ⟨e, rfl⟩
  | ok f => rw [(IsFocus.walkDown_iff.1 hw).rowAt_eq] at h; cases h

/-- The focuses that can be reached by any chain of child and parent steps. -/
inductive Nav (root : Row) : FocusRow → Prop
  | start : Nav root (.fromRoot root)
  | down {f g : FocusRow} {n : FocusNode} {i j : Nat} (h : Nav root f) (hn : f.childAt i = some n)
      (hg : n.childAt j = .ok (some g)) : Nav root g
  | up {f : FocusRow} {n : FocusNode} (h : Nav root f) (hn : f.parent = some n) :
      Nav root n.parent

theorem Nav.isFocus {root : Row} {f : FocusRow} (h : Nav root f) : ∃ p, IsFocus root p f := by
  induction h with
  | start => exact ⟨_, IsFocus.fromRoot⟩
  | @down f g n i j h hn hg ih =>
    obtain ⟨p, hp⟩ := ih
    unfold FocusRow.childAt at hn
    split at hn
    · cases hn
    · rename_i m hm
      cases hn
      exact ⟨_, hp.childAt_inv hm hg⟩
  | @up f n h hn ih =>
    obtain ⟨p, hp⟩ := ih
    cases p using List.reverseRecOn with
    | nil => rw [hp.parent_nil] at hn; cases hn
    | append_singleton p ix =>
      obtain ⟨g, v, cells, w, hg, -, -, -, hp⟩ := hp.parent_snoc
      rw [hp] at hn; cases hn
      exact ⟨_, hg⟩

/-- C14: after any chain of child and parent steps the focus is the one obtained by walking
down its own row indices, and it shows the row that the tree has there. -/
theorem C14_navigation {root : Row} {f : FocusRow} (h : Nav root f) :
    (FocusRow.fromRoot root).walkDown f.rowIndices = .ok f ∧
      rowAt root f.rowIndices = some f.row := by
  obtain ⟨p, hp⟩ := h.isFocus
  rw [hp.rowIndices_eq]
  exact ⟨IsFocus.walkDown_iff.2 hp, hp.rowAt_eq⟩

/-- C14: child, then parent, returns the same focus, including the whole parent chain. -/
theorem C14_child_parent {root : Row} {f g : FocusRow} {n : FocusNode} {i j : Nat}
    (h : Nav root f) (hn : f.childAt i = some n) (hg : n.childAt j = .ok (some g)) :
    g.parent = some n ∧ n.parent = f ∧ n.indexInParent = i ∧ f.row[i]? = some n.node := by
  obtain ⟨p, hp⟩ := h.isFocus
  unfold FocusRow.childAt at hn
  split at hn
  · cases hn
  · rename_i m hm
    cases hn
    obtain ⟨f2, v, cells, w, hf2, hi, hj, -, hpar⟩ := (hp.childAt_inv hm hg).parent_snoc
    have := hf2.unique hp; subst this
    rw [hm] at hi; cases hi
    exact ⟨hpar, rfl, rfl, hm⟩

/-- C14: parent, then the child at the same index, returns the same focus. -/
theorem C14_parent_child (cfg : Cfg) {root : Row} {f : FocusRow} {n : FocusNode}
    (h : Nav root f) (hn : f.parent = some n) :
    ∃ j, f.indexInParent cfg = .ok (some j) ∧ n.childAt j = .ok (some f) := by
  obtain ⟨p, hp⟩ := h.isFocus
  cases p using List.reverseRecOn with
  | nil => rw [hp.parent_nil] at hn; cases hn
  | append_singleton p ix =>
    obtain ⟨i, j⟩ := ix
    obtain ⟨g, v, cells, w, hg, hi, hj, hl, hpar⟩ := hp.parent_snoc
    rw [hpar] at hn; cases hn
    obtain ⟨f', h1, h2, -⟩ := hg.childAt_childAt hi hl
    rw [h2.unique hp] at h1
    exact ⟨j, hp.indexInParent_snoc, h1⟩

/-- C14: minimal positions of a well-formed tree survive the round trip. -/
theorem C14_position_roundtrip {root : Row} {m : MinPos} (hwf : rowWf root = true)
    (h : ValidPos root m) : ∃ p, Position.fromMinimal (.fromRoot root) m = .ok p ∧
      p.toMinimal = m := by
  obtain ⟨p, h1, -, h2, -⟩ := Position.fromMinimal_valid hwf h
  exact ⟨p, h1, h2⟩

/-- C14: positions on any navigated focus survive the round trip. -/
theorem C14_position_roundtrip' {root : Row} {p : Position} (h : Nav root p.focus)
    (ho : p.offset ≤ p.focus.row.length) :
    Position.fromMinimal (.fromRoot root) p.toMinimal = .ok p := by
  obtain ⟨q, hq⟩ := h.isFocus
  exact Position.fromMinimal_eq_ok.2
    ⟨by simpa [Position.toMinimal, hq.rowIndices_eq] using hq, rfl, ho⟩

/-- C14: ranges on any navigated focus survive the round trip. -/
theorem C14_range_roundtrip {root : Row} {r : RowRange} (h : Nav root r.focus)
    (h1 : r.start ≤ r.focus.row.length) (h2 : r.stop ≤ r.focus.row.length) :
    RowRange.fromMinimal (.fromRoot root) r.toMinimal = .ok r := by
  unfold RowRange.fromMinimal RowRange.toMinimal
  rw [(C14_navigation h).1]
  exact RowRange.new_ok h1 h2

/-- C14: minimal ranges of a well-formed tree survive the round trip. -/
theorem C14_range_roundtrip' {root : Row} {m : MinRange} (hwf : rowWf root = true)
    (h : ValidRange root m) : ∃ r, RowRange.fromMinimal (.fromRoot root) m = .ok r ∧
      r.toMinimal = m := by
  obtain ⟨row, hr, h1, h2⟩ := h
  obtain ⟨f, hf, hi, rfl⟩ := C14_walk_down hwf hr
  refine ⟨⟨f, m.start, m.stop⟩, ?_, by simp [RowRange.toMinimal, hi]⟩
  unfold RowRange.fromMinimal
  rw [hf]
  exact RowRange.new_ok h1 h2

/-- Walking into the denominator of a fraction in an exponent and back out. -/
example : rowWf [.symbol ['x'], .sup [.fraction [] [.symbol ['y']]]] = true ∧
    rowAt [.symbol ['x'], .sup [.fraction [] [.symbol ['y']]]] [(1, 0), (0, 1)] =
      some [.symbol ['y']] := by decide +kernel

example : rowAt [.symbol ['x']] [(0, 0)] = none := by decide +kernel

/-! ## C42 -/

/-- C42: 2D to linear and back, on every grid of positive width. -/
theorem C42_roundtrip {w : Nat} (_hw : 0 < w) (h k : Nat) :
    (Index2D.fromIndex k (w, h)).toIndex = k ∧
    (∀ x y, x < w → Index2D.fromIndex (Index2D.toIndex ⟨x, y, w⟩) (w, h) = ⟨x, y, w⟩) := by
  refine ⟨Nat.div_add_mod' k w, fun x y hx => ?_⟩
  simp only [Index2D.fromIndex, Index2D.toIndex, Index2D.mk.injEq, and_true]
  constructor
  · rw [Nat.add_comm, Nat.add_mul_mod_self_right, Nat.mod_eq_of_lt hx]
  · rw [Nat.add_comm, Nat.add_mul_div_right _ _ (by omega), Nat.div_eq_of_lt hx, Nat.zero_add]

/-- C42: a cell is addressable by an index of that grid exactly when it lies inside. -/
theorem C42_addressable (w h x y : Nat) :
    (Index2D.mk x y w).toIndexChecked (w, h) = if x < w ∧ y < h then some (y * w + x) else none := by
  simp only [Index2D.toIndexChecked, Index2D.withGrid]
  by_cases hx : x < w <;> by_cases hy : y < h <;> simp [hx, hy, Index2D.toIndex]

/-- C42: an index made for a grid of another width addresses nothing. -/
theorem C42_other_width {w w' h x y : Nat} (hw : w' ≠ w) :
    (Index2D.mk x y w').toIndexChecked (w, h) = none := by
  simp [Index2D.toIndexChecked, Index2D.withGrid, hw]

/-- C42: `get` on a full grid: the cell `y * width + x`, exactly when `x < width` and
`y < height`. -/
theorem C42_get {α : Type} (g : GridVec α) (hw : 0 < g.width) (x y : Nat) :
    g.get ⟨x, y, g.width⟩ =
      .ok (if x < g.width ∧ y < g.values.length / g.width then g.values[y * g.width + x]?
        else none) ∧
    (x < g.width ∧ y < g.values.length / g.width →
      (g.values[y * g.width + x]?).isSome) := by
  constructor
  · simp only [GridVec.get, GridVec.size_pos hw, M.ok_bind, C42_addressable]
    by_cases h : x < g.width ∧ y < g.values.length / g.width
    · simp only [if_pos h]
    · simp only [if_neg h]
  · rintro ⟨hx, hy⟩
    rw [List.getElem?_eq_getElem]
    · rfl
    · have h1 : (y + 1) * g.width ≤ g.values.length / g.width * g.width :=
        Nat.mul_le_mul_right _ hy
      have h2 := Nat.div_mul_le_self g.values.length g.width
      have h3 : (y + 1) * g.width = y * g.width + g.width := Nat.succ_mul _ _
      omega

/-- C42: `set` addresses the same cell as `get`, returns its old value and changes exactly
that cell. -/
theorem C42_set {α : Type} (g : GridVec α) (hw : 0 < g.width) (x y : Nat) (value : α) :
    ∃ old g', g.set ⟨x, y, g.width⟩ value = .ok (old, g') ∧ g.get ⟨x, y, g.width⟩ = .ok old ∧
      g'.width = g.width ∧ g'.values.length = g.values.length ∧
      (old.isSome → g'.get ⟨x, y, g.width⟩ = .ok (some value)) ∧
      (old = none → g' = g) ∧
      (∀ x' y', (x', y') ≠ (x, y) → g'.get ⟨x', y', g.width⟩ = g.get ⟨x', y', g.width⟩) := by
  obtain ⟨hget, hsome⟩ := C42_get g hw x y
  by_cases hin : x < g.width ∧ y < g.values.length / g.width
  · obtain ⟨old, hold⟩ := Option.isSome_iff_exists.1 (hsome hin)
    refine ⟨some old, ⟨g.values.set (y * g.width + x) value, g.width⟩, ?_, ?_, rfl, by simp,
      fun _ => ?_, fun h => (by cases h), fun x' y' hne => ?_⟩
    · simp only [GridVec.set, GridVec.size_pos hw, M.ok_bind, C42_addressable, if_pos hin, hold]
    · rw [hget, if_pos hin, hold]
    · have hlt : y * g.width + x < g.values.length := (List.getElem?_eq_some_iff.1 hold).1
      have := (C42_get ⟨g.values.set (y * g.width + x) value, g.width⟩ hw x y).1
      simp only [List.length_set, if_pos hin] at this
      rw [this]; simp [hlt]
    · rw [(C42_get ⟨g.values.set (y * g.width + x) value, g.width⟩ hw x' y').1,
        (C42_get g hw x' y').1]
      simp only [List.length_set]
      by_cases hin' : x' < g.width ∧ y' < g.values.length / g.width
      · rw [if_pos hin', if_pos hin', List.getElem?_set_ne]
        intro heq
        apply hne
        have h1 := (C42_roundtrip hw 0 0).2 x y hin.1
        have h2 := (C42_roundtrip hw 0 0).2 x' y' hin'.1
        simp only [Index2D.toIndex] at h1 h2
        rw [heq, h2] at h1
        cases h1; rfl
      · rw [if_neg hin', if_neg hin']
  · refine ⟨none, g, ?_, ?_, rfl, rfl, fun h => (by cases h), fun _ => rfl, fun _ _ _ => rfl⟩
    · simp only [GridVec.set, GridVec.size_pos hw, M.ok_bind, C42_addressable, if_neg hin]
    · rw [hget, if_neg hin]

/-- A 3 by 2 grid. -/
example : GridVec.get ⟨[0, 1, 2, 3, 4, 5], 3⟩ ⟨1, 1, 3⟩ = .ok (some 4) ∧
    GridVec.set ⟨[0, 1, 2, 3, 4, 5], 3⟩ ⟨2, 0, 3⟩ 9 = .ok (some 2, ⟨[0, 1, 9, 3, 4, 5], 3⟩) := by
  constructor <;> rfl

end Aftermath
