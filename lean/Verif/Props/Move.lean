import Verif.Proof.Press
import Verif.Spec.Move

/-! # Property theorems C07–C10: arrow keys -/

namespace Aftermath

/-! ## C07 -/

/-- C07, one press: from the `i`-th position in reading order Right goes to the next one, and
from the last one, the end of the root row, it does not move. -/
theorem C07_right_is_next {root : Row} (hwf : rowWf root = true) (cfg : Cfg) {i : Nat} {m : MinPos}
    (hm : (positions root)[i]? = some m) :
    press cfg root .right (.at m) = .ok (.at ((positions root)[i + 1]?.getD m)) ∧
    ((positions root)[i + 1]? = none ↔ m = ⟨[], root.length⟩) := by
  have hnd := positions_nodup root
  have hlast := positions_last root
  obtain ⟨hi, hmi⟩ := List.getElem?_eq_some_iff.1 hm
  obtain ⟨hl, hml⟩ := List.getElem?_eq_some_iff.1 hlast
  have hiff : (positions root)[i + 1]? = none ↔ m = ⟨[], root.length⟩ := by
    rw [List.getElem?_eq_none_iff]
    constructor
    · intro h
      have : i = (positions root).length - 1 := by omega
      subst this
      rw [hlast] at hm; cases hm; rfl
    · intro h
      rw [h] at hmi
      have := (List.getElem_inj hnd).1 (hmi.trans hml.symm)
      omega
  refine ⟨?_, hiff⟩
  cases hn : (positions root)[i + 1]? with
  | some b =>
    exact press_right_step hwf cfg (mem_positions_valid.1 (List.mem_of_getElem? hm))
      (positions_step hwf hm hn)
  | none =>
    have := hiff.1 hn
    subst this
    have hp : (⟨.fromRoot root, root.length⟩ : Position).In root := ⟨⟨_, .fromRoot⟩, Nat.le_refl _⟩
    exact press_at hwf cfg .right hp (move_right_root (f := .fromRoot root) .fromRoot)
      (by rintro x ⟨⟩)

/-- C07: `n` presses of Right from the start lead to the `n`-th position in reading order, and
stay at the last one, the end of the root row. Together with C06 (every valid position is
listed exactly once) this visits every caret position exactly once. No panic, in any build. -/
theorem C07_right_visits_all {root : Row} (hwf : rowWf root = true) (cfg : Cfg) (n : Nat) :
    ∃ m, (positions root)[min n ((positions root).length - 1)]? = some m ∧
      pressN cfg root .right n (.at ⟨[], 0⟩) = .ok (.at m) := by
  have key : ∀ n i m, (positions root)[i]? = some m →
      ∃ m', (positions root)[min (i + n) ((positions root).length - 1)]? = some m' ∧
        pressN cfg root .right n (.at m) = .ok (.at m') := by
    intro n
    induction n with
    | zero =>
      intro i m h
      have hi := (List.getElem?_eq_some_iff.1 h).1
      refine ⟨m, ?_, rfl⟩
      rw [show min (i + 0) ((positions root).length - 1) = i by omega]; exact h
    | succ n ih =>
      intro i m h
      have hi := (List.getElem?_eq_some_iff.1 h).1
      obtain ⟨h1, h2⟩ := C07_right_is_next hwf cfg h
      cases hn : (positions root)[i + 1]? with
      | some b =>
        obtain ⟨m', h3, h4⟩ := ih (i + 1) b hn
        refine ⟨m', by rw [show i + (n + 1) = i + 1 + n by omega]; exact h3, ?_⟩
        rw [hn] at h1
        simp only [pressN, h1, M.ok_bind, Option.getD_some, h4]
      | none =>
        obtain ⟨m', h3, h4⟩ := ih i m h
        have hlen := List.getElem?_eq_none_iff.1 hn
        refine ⟨m', ?_, ?_⟩
        · rw [show min (i + (n + 1)) ((positions root).length - 1) =
            min (i + n) ((positions root).length - 1) by omega]; exact h3
        · rw [hn] at h1
          simp only [pressN, h1, M.ok_bind, Option.getD_none, h4]
  obtain ⟨m, h1, h2⟩ := key n 0 ⟨[], 0⟩ (positions_first root)
  rw [Nat.zero_add] at h1
  exact ⟨m, h1, h2⟩

/-- C07: every valid position is reached by some number of presses. -/
theorem C07_reaches {root : Row} (hwf : rowWf root = true) (cfg : Cfg) {m : MinPos}
    (hm : ValidPos root m) : ∃ n, pressN cfg root .right n (.at ⟨[], 0⟩) = .ok (.at m) := by
  obtain ⟨n, hn, hm'⟩ := List.mem_iff_getElem.1 (mem_positions_valid.2 hm)
  obtain ⟨m2, h1, h2⟩ := C07_right_visits_all hwf cfg n
  rw [show min n ((positions root).length - 1) = n by omega,
    List.getElem?_eq_getElem hn, hm'] at h1
  cases h1
  exact ⟨n, h2⟩

/-- A tree with a fraction: Right goes through numerator and denominator. -/
example : pressN .dev [.fraction [.symbol ['x']] []] .right 3 (.at ⟨[], 0⟩) =
    .ok (.at ⟨[(0, 1)], 0⟩) := by decide +kernel

/-! ## C08 -/

/-- C08: Right then Left, from every position but the last. In a build without overflow checks
it comes back; with checks it comes back except that Left panics when Right went into a first
cell. -/
theorem C08_right_left {root : Row} (hwf : rowWf root = true) (cfg : Cfg)
    (hcfg : cfg.checks = false → rowFits cfg.bits root = true) {m : MinPos} (hm : ValidPos root m)
    (hne : m ≠ ⟨[], root.length⟩) :
    ∃ m', m' ≠ m ∧ ValidPos root m' ∧ press cfg root .right (.at m) = .ok (.at m') ∧
      press cfg root .left (.at m') =
        (if cfg.checks = true ∧ m' = ⟨m.rowIndices ++ [(m.offset, 0)], 0⟩ then .error .overflow
          else .ok (.at m)) := by
  obtain ⟨i, hi, rfl⟩ := List.mem_iff_getElem.1 (mem_positions_valid.2 hm)
  have hmi := List.getElem?_eq_getElem hi
  obtain ⟨h1, h2⟩ := C07_right_is_next hwf cfg hmi
  cases hn : (positions root)[i + 1]? with
  | none => exact absurd (h2.1 hn) hne
  | some b =>
    rw [hn] at h1
    have hb := mem_positions_valid.1 (List.mem_of_getElem? hn)
    have hs := positions_step hwf hmi hn
    have hne' : b ≠ (positions root)[i] := by
      obtain ⟨hj, rfl⟩ := List.getElem?_eq_some_iff.1 hn
      intro h
      have := (List.getElem_inj (positions_nodup root)).1 h
      omega
    refine ⟨b, hne', hb, by simpa using h1, ?_⟩
    rcases press_left_step hwf cfg hcfg hb hs with ⟨h3, h4, h5⟩ | ⟨h3, h4⟩
    · rw [if_pos ⟨h3, hs.firstCell.1 h4⟩, h5]
    · rw [if_neg (fun h => h3 h.1 (hs.firstCell.2 h.2)), h4]

/-- C08: Left then Right, from every position but the first. In a build without overflow checks
it comes back; with checks it comes back unless Left panics, which it does exactly at the start
of a first cell. -/
theorem C08_left_right {root : Row} (hwf : rowWf root = true) (cfg : Cfg)
    (hcfg : cfg.checks = false → rowFits cfg.bits root = true) {m : MinPos} (hm : ValidPos root m)
    (hne : m ≠ ⟨[], 0⟩) :
    (cfg.checks = true ∧ AtFirstCellStart m ∧
      press cfg root .left (.at m) = .error .overflow) ∨
    (¬ (cfg.checks = true ∧ AtFirstCellStart m) ∧
      ∃ m', m' ≠ m ∧ ValidPos root m' ∧ press cfg root .left (.at m) = .ok (.at m') ∧
        press cfg root .right (.at m') = .ok (.at m)) := by
  obtain ⟨i, hi, rfl⟩ := List.mem_iff_getElem.1 (mem_positions_valid.2 hm)
  have hmi := List.getElem?_eq_getElem hi
  cases i with
  | zero =>
    rw [positions_first] at hmi
    exact absurd (Option.some.inj hmi).symm hne
  | succ i =>
    have hi' : i < (positions root).length := by omega
    have ha := List.getElem?_eq_getElem hi'
    have hs := positions_step hwf ha hmi
    have hva := mem_positions_valid.1 (List.mem_of_getElem? ha)
    rcases press_left_step hwf cfg hcfg hm hs with h | ⟨h1, h2⟩
    · exact Or.inl h
    · refine Or.inr ⟨fun h => h1 h.1 h.2, _, ?_, hva, h2, press_right_step hwf cfg hva hs⟩
      intro h
      have := (List.getElem_inj (positions_nodup root)).1 h
      omega

/-- The dev build panics on Left out of a numerator, the release build does not. -/
example : press .dev [.fraction [] []] .left (.at ⟨[(0, 0)], 0⟩) = .error .overflow := by
  decide +kernel
example : press .release [.fraction [] []] .left (.at ⟨[(0, 0)], 0⟩) = .ok (.at ⟨[], 0⟩) ∧
    press .release [.fraction [] []] .right (.at ⟨[], 0⟩) = .ok (.at ⟨[(0, 0)], 0⟩) := by
  decide +kernel
/-- Left from behind the fraction goes to the end of the denominator, also in the dev build. -/
example : press .dev [.fraction [] [.symbol ['x']]] .left (.at ⟨[], 1⟩) = .ok (.at ⟨[(0, 1)], 1⟩) := by
  decide +kernel

/-! ## C09 -/

/-- C09: an arrow key in Char mode, from any caret with valid ends. It panics exactly if
overflow checks are on, the key is Left and the left end of the selected row range is the start
of a first cell; otherwise the caret stays as it is or is collapsed on a valid position. -/
theorem C09_arrow_keys {root : Row} (hwf : rowWf root = true) (cfg : Cfg)
    (hcfg : cfg.checks = false → rowFits cfg.bits root = true) (d : Dir) {m : MinCaret}
    (hm : ValidCaret root m) :
    (cfg.checks = true ∧ d = .left ∧
      (∃ c r, Caret.fromMinimal root m = .ok c ∧ c.selection = .row r ∧
        AtFirstCellStart r.leftPosition.toMinimal) ∧
      press cfg root d m = .error .overflow) ∨
    (¬ (cfg.checks = true ∧ d = .left ∧
      (∃ c r, Caret.fromMinimal root m = .ok c ∧ c.selection = .row r ∧
        AtFirstCellStart r.leftPosition.toMinimal)) ∧
      ∃ m', press cfg root d m = .ok m' ∧ (m' = m ∨ ∃ p, ValidPos root p ∧ m' = .at p)) := by
  obtain ⟨c, hc, hin, hcm⟩ := Caret.fromMinimal_valid hwf hm
  cases hsel : c.selection with
  | grid g =>
    refine Or.inr ⟨?_, m, ?_, Or.inl rfl⟩
    · rintro ⟨-, -, c', r, h1, h2, -⟩
      rw [hc] at h1; cases h1
      rw [hsel] at h2; cases h2
    · simp [press, hc, moveCaret, hsel, hcm]
  | row r =>
    have hr : r.In root := selection_row_in hwf hin.1 hin.2.1 (hin.2.2.trans (by rw [hsel]))
    rcases moveCaretInternal_total hwf cfg hcfg (hr.edge d) d with ⟨h1, rfl, h3, h4⟩ | ⟨h1, o, h2, h3⟩
    · refine Or.inl ⟨h1, rfl, ⟨c, r, hc, hsel, h3⟩, ?_⟩
      simp [press, hc, moveCaret, hsel, moveCaretRange_char, h4]
    · right
      constructor
      · rintro ⟨h4, rfl, c', r', h5, h6, h7⟩
        rw [hc] at h5; cases h5
        rw [hsel] at h6; cases h6
        exact h1 ⟨h4, rfl, h7⟩
      · have hgo : ∀ x : Position, x.In root →
            o.or (if r.isCollapsed then none else some (r.edge d)) = some x →
            ∃ m', press cfg root d m = .ok m' ∧ (m' = m ∨ ∃ p, ValidPos root p ∧ m' = .at p) := by
          intro x hx hox
          refine ⟨.at x.toMinimal, ?_, Or.inr ⟨_, hx.valid, rfl⟩⟩
          simp only [press, hc, M.ok_bind, moveCaret, hsel, moveCaretRange_char, h2, hox]
          rw [setSelection_ofPosition hwf hx]
          rfl
        cases o with
        | some x => exact hgo x (h3 x rfl) rfl
        | none =>
          cases hcol : r.isCollapsed with
          | false => exact hgo _ (hr.edge d) (by simp [hcol])
          | true =>
            refine ⟨m, ?_, Or.inl rfl⟩
            simp [press, hc, moveCaret, hsel, moveCaretRange_char, h2, hcol, hcm]

/-- C09: without overflow checks no arrow key panics and the caret stays valid. -/
theorem C09_release {root : Row} (hwf : rowWf root = true) (cfg : Cfg) (hck : cfg.checks = false)
    (hfit : rowFits cfg.bits root = true) (d : Dir) {m : MinCaret} (hm : ValidCaret root m) :
    ∃ m', press cfg root d m = .ok m' ∧ ValidCaret root m' := by
  rcases C09_arrow_keys hwf cfg (fun _ => hfit) d hm with h | ⟨-, m', h1, h2⟩
  · rw [hck] at h; cases h.1
  · refine ⟨m', h1, ?_⟩
    rcases h2 with rfl | ⟨p, hp, rfl⟩
    · exact hm
    · exact ⟨hp, hp⟩

/-- C09: Word and Line mode panic on every row selection, and do nothing on a grid selection. -/
theorem C09_word_line {root : Row} (hwf : rowWf root = true) (cfg : Cfg) (d : Dir)
    {mode : MoveMode} (hmode : mode ≠ .char) {m : MinCaret} (hm : ValidCaret root m) :
    ∃ c, Caret.fromMinimal root m = .ok c ∧
      ((∃ r, c.selection = .row r) → moveCaret cfg root c d mode = .error .todo) ∧
      ((∃ g, c.selection = .grid g) → moveCaret cfg root c d mode = .ok c) := by
  obtain ⟨c, hc, -, -⟩ := Caret.fromMinimal_valid hwf hm
  refine ⟨c, hc, ?_, ?_⟩
  · rintro ⟨r, hr⟩
    simp [moveCaret, hr, moveCaretRange, hmode]
  · rintro ⟨g, hg⟩
    simp [moveCaret, hg]

/-- A non-collapsed selection collapses towards the arrow and moves from there. -/
example : press .dev [.symbol ['a'], .fraction [] []] .right ⟨⟨[], 0⟩, ⟨[], 1⟩⟩ =
    .ok (.at ⟨[(1, 0)], 0⟩) := by decide +kernel
/-- A grid selection does not move. -/
example : press .dev [.container .table [[], []] 2] .right ⟨⟨[(0, 0)], 0⟩, ⟨[(0, 1)], 0⟩⟩ =
    .ok ⟨⟨[(0, 0)], 0⟩, ⟨[(0, 1)], 0⟩⟩ := by decide +kernel

/-! ## C10 -/

/-- C10: Down in a subscript and Up in a superscript go just before the script. -/
theorem C10_script_exit {root : Row} (hwf : rowWf root = true) (cfg : Cfg) {p : RowIndices}
    {i j o : Nat} {d : Dir} {v : Variant} {cells : List Row} {w : Nat} {row : Row}
    (hrow : rowAt root p = some row) (hi : row[i]? = some (.container v cells w))
    (hm : ValidPos root ⟨p ++ [(i, j)], o⟩)
    (hd : d = .down ∧ v = .sub ∨ d = .up ∧ v = .sup) :
    press cfg root d (.at ⟨p ++ [(i, j)], o⟩) = .ok (.at ⟨p, i⟩) := by
  obtain ⟨q, -, hin, hq, hf⟩ := Position.fromMinimal_valid hwf hm
  obtain ⟨g, hg, -⟩ := IsFocus.exists_of_wf hwf hrow
  have hgi : g.row[i]? = some (.container v cells w) := by
    rw [show g.row = row by have := hg.rowAt_eq; rw [hrow] at this; exact (Option.some.inj this).symm]
    exact hi
  have hlt := (List.getElem?_eq_some_iff.1 hgi).1
  have hmv : moveCaretInternal cfg q d = .ok (some ⟨g, i⟩) := by
    rcases hd with ⟨rfl, rfl⟩ | ⟨rfl, rfl⟩
    · exact moveVertical_sub hf hg hgi
    · exact moveVertical_sup hf hg hgi
  have := press_at hwf cfg d hin hmv (by rintro x ⟨⟩; exact ⟨⟨_, hg⟩, Nat.le_of_lt hlt⟩)
  rw [hq] at this
  rw [this]
  simp [Position.toMinimal, hg.rowIndices_eq]

/-- C10: Up goes to the end of the cell above, if there is one: same column, one row up. -/
theorem C10_up {root : Row} (hwf : rowWf root = true) (cfg : Cfg) {p : RowIndices}
    {i x y o : Nat} {v : Variant} {cells : List Row} {w : Nat} {row above : Row}
    (hrow : rowAt root p = some row) (hi : row[i]? = some (.container v cells w))
    (hm : ValidPos root ⟨p ++ [(i, (y + 1) * w + x)], o⟩) (_hx : x < w) (hv : v ≠ .sup)
    (ha : cells[y * w + x]? = some above) :
    press cfg root .up (.at ⟨p ++ [(i, (y + 1) * w + x)], o⟩) =
      .ok (.at ⟨p ++ [(i, y * w + x)], above.length⟩) := by
  obtain ⟨q, -, hin, hq, hf⟩ := Position.fromMinimal_valid hwf hm
  obtain ⟨g, hg, -⟩ := IsFocus.exists_of_wf hwf hrow
  have hgi : g.row[i]? = some (.container v cells w) := by
    rw [show g.row = row by have := hg.rowAt_eq; rw [hrow] at this; exact (Option.some.inj this).symm]
    exact hi
  have hmul : (y + 1) * w = y * w + w := by rw [Nat.add_mul, Nat.one_mul]
  have hgen := moveVertical_general hwf (cfg := cfg) (d := .up) hf hg hgi
    (by cases v <;> simp_all [scriptExit])
  have hvc : verticalCell .up w cells.length ((y + 1) * w + x) = some (y * w + x) := by
    simp only [verticalCell]
    rw [if_pos (by omega), show (y + 1) * w + x - w = y * w + x by omega]
  rw [hvc] at hgen
  obtain ⟨f', h1, h2, h3⟩ := hgen
  have := press_at hwf cfg .up hin h1 (by rintro x ⟨⟩; exact ⟨⟨_, h2⟩, Nat.le_refl _⟩)
  rw [hq] at this
  rw [this]
  rw [ha] at h3
  cases h3
  simp [Position.toMinimal, h2.rowIndices_eq]

/-- C10: Down goes to the start of the cell below, if there is one: same column, one row down. -/
theorem C10_down {root : Row} (hwf : rowWf root = true) (cfg : Cfg) {p : RowIndices}
    {i x y o : Nat} {v : Variant} {cells : List Row} {w : Nat} {row below : Row}
    (hrow : rowAt root p = some row) (hi : row[i]? = some (.container v cells w))
    (hm : ValidPos root ⟨p ++ [(i, y * w + x)], o⟩) (_hx : x < w) (hv : v ≠ .sub)
    (ha : cells[(y + 1) * w + x]? = some below) :
    press cfg root .down (.at ⟨p ++ [(i, y * w + x)], o⟩) =
      .ok (.at ⟨p ++ [(i, (y + 1) * w + x)], 0⟩) := by
  obtain ⟨q, -, hin, hq, hf⟩ := Position.fromMinimal_valid hwf hm
  obtain ⟨g, hg, -⟩ := IsFocus.exists_of_wf hwf hrow
  have hgi : g.row[i]? = some (.container v cells w) := by
    rw [show g.row = row by have := hg.rowAt_eq; rw [hrow] at this; exact (Option.some.inj this).symm]
    exact hi
  have hmul : (y + 1) * w = y * w + w := by rw [Nat.add_mul, Nat.one_mul]
  have hlt := (List.getElem?_eq_some_iff.1 ha).1
  have hgen := moveVertical_general hwf (cfg := cfg) (d := .down) hf hg hgi
    (by cases v <;> simp_all [scriptExit])
  have hvc : verticalCell .down w cells.length (y * w + x) = some ((y + 1) * w + x) := by
    simp only [verticalCell]
    rw [if_pos (by omega), show y * w + x + w = (y + 1) * w + x by omega]
  rw [hvc] at hgen
  obtain ⟨f', h1, h2, h3⟩ := hgen
  have := press_at hwf cfg .down hin h1 (by rintro x ⟨⟩; exact ⟨⟨_, h2⟩, Nat.zero_le _⟩)
  rw [hq] at this
  rw [this]
  simp [Position.toMinimal, h2.rowIndices_eq]

/-- Up and Down. -/
def Dir.vertical : Dir → Prop
  | .up | .down => True
  | _ => False

/-- C10: if there is no cell above (below), the move is that of the enclosing row, whatever the
offset there: both go to the same place, or both do not move. -/
theorem C10_enclosing {root : Row} (hwf : rowWf root = true) (cfg : Cfg) {p : RowIndices}
    {i x y o o' : Nat} {d : Dir} {v : Variant} {cells : List Row} {w : Nat} {row : Row}
    (hrow : rowAt root p = some row) (hi : row[i]? = some (.container v cells w))
    (hm : ValidPos root ⟨p ++ [(i, y * w + x)], o⟩) (hx : x < w) (ho' : o' ≤ row.length)
    (hd : d = .up ∧ v ≠ .sup ∧ y = 0 ∨
      d = .down ∧ v ≠ .sub ∧ cells[(y + 1) * w + x]? = none) :
    (∃ m', press cfg root d (.at ⟨p ++ [(i, y * w + x)], o⟩) = .ok (.at m') ∧
      press cfg root d (.at ⟨p, o'⟩) = .ok (.at m')) ∨
    (press cfg root d (.at ⟨p ++ [(i, y * w + x)], o⟩) = .ok (.at ⟨p ++ [(i, y * w + x)], o⟩) ∧
      press cfg root d (.at ⟨p, o'⟩) = .ok (.at ⟨p, o'⟩)) := by
  obtain ⟨q, -, hin, hq, hf⟩ := Position.fromMinimal_valid hwf hm
  obtain ⟨q', -, hin', hq', hg⟩ := Position.fromMinimal_valid (m := ⟨p, o'⟩) hwf ⟨row, hrow, ho'⟩
  have hgi : q'.focus.row[i]? = some (.container v cells w) := by
    rw [show q'.focus.row = row by
      have := hg.rowAt_eq; rw [hrow] at this; exact (Option.some.inj this).symm]
    exact hi
  have hmul : (y + 1) * w = y * w + w := by rw [Nat.add_mul, Nat.one_mul]
  have heq : moveCaretInternal cfg q d = moveCaretInternal cfg q' d := by
    rcases hd with ⟨rfl, hv, rfl⟩ | ⟨rfl, hv, hn⟩
    · have hgen := moveVertical_general hwf (cfg := cfg) (d := .up) hf hg hgi
        (by cases v <;> simp_all [scriptExit])
      rw [show verticalCell .up w cells.length (0 * w + x) = none by
        simp [verticalCell]; omega] at hgen
      exact hgen
    · have hlen := List.getElem?_eq_none_iff.1 hn
      have hgen := moveVertical_general hwf (cfg := cfg) (d := .down) hf hg hgi
        (by cases v <;> simp_all [scriptExit])
      rw [show verticalCell .down w cells.length (y * w + x) = none by
        simp only [verticalCell]; rw [if_neg (by omega)]] at hgen
      exact hgen
  obtain ⟨oo, h1, h2⟩ : ∃ oo, moveCaretInternal cfg q' d = .ok oo ∧
      ∀ x, oo = some x → x.In root := by
    rcases hd with ⟨rfl, -⟩ | ⟨rfl, -⟩
    · exact moveVertical_total hwf cfg .up hg
    · exact moveVertical_total hwf cfg .down hg
  have a1 := press_at hwf cfg d hin (heq.trans h1) h2
  have a2 := press_at hwf cfg d hin' h1 h2
  rw [hq] at a1
  rw [hq'] at a2
  cases oo with
  | none => exact Or.inr ⟨a1, a2⟩
  | some z => exact Or.inl ⟨z.toMinimal, a1, a2⟩

/-- C10: in the root row Up and Down do not move. -/
theorem C10_root {root : Row} (hwf : rowWf root = true) (cfg : Cfg) {o : Nat} {d : Dir}
    (hd : d.vertical) (ho : o ≤ root.length) :
    press cfg root d (.at ⟨[], o⟩) = .ok (.at ⟨[], o⟩) := by
  obtain ⟨q, -, hin, hq, hf⟩ := Position.fromMinimal_valid (m := ⟨[], o⟩) hwf ⟨root, rfl, ho⟩
  have hmv : moveCaretInternal cfg q d = .ok none := by
    cases d <;> simp only [Dir.vertical] at hd
    · exact moveVertical_root hf .up
    · exact moveVertical_root hf .down
  have := press_at hwf cfg d hin hmv (by rintro x ⟨⟩)
  rw [hq] at this
  simpa using this

/-- C10: Up to a cell of the same container and then Down comes back to the cell. -/
theorem C10_up_down {root : Row} (hwf : rowWf root = true) (cfg : Cfg) {p : RowIndices}
    {i x y o : Nat} {v : Variant} {cells : List Row} {w : Nat} {row : Row}
    (hrow : rowAt root p = some row) (hi : row[i]? = some (.container v cells w))
    (hm : ValidPos root ⟨p ++ [(i, (y + 1) * w + x)], o⟩) (hx : x < w) :
    ∃ m, press cfg root .up (.at ⟨p ++ [(i, (y + 1) * w + x)], o⟩) = .ok (.at m) ∧
      press cfg root .down (.at m) = .ok (.at ⟨p ++ [(i, (y + 1) * w + x)], 0⟩) := by
  have hwfn := wf_container.1 (rowWf_iff.1 (rowAt_wf hwf hrow) _ (List.mem_of_getElem? hi))
  have hm0 := hm
  obtain ⟨c, hc, -⟩ := hm
  obtain ⟨f, hf, -⟩ := IsFocus.exists_of_wf hwf hc
  obtain ⟨g, v', cells', w', hg, hgi, hcell, -, -⟩ := hf.parent_snoc
  have : g.row = row := by have := hg.rowAt_eq; rw [hrow] at this; exact (Option.some.inj this).symm
  rw [this, hi] at hgi
  cases hgi
  have hlt := (List.getElem?_eq_some_iff.1 hcell).1
  have hmul : (y + 1) * w = y * w + w := by rw [Nat.add_mul, Nat.one_mul]
  have hlt' : y * w + x < cells.length := by omega
  have hvs : v ≠ .sup ∧ v ≠ .sub := by
    constructor <;> rintro rfl <;> simp [shapeOk] at hwfn <;> omega
  have h1 := C10_up hwf cfg hrow hi hm0 hx hvs.1 (List.getElem?_eq_getElem hlt')
  refine ⟨_, h1, ?_⟩
  refine C10_down hwf cfg hrow hi ?_ hx hvs.2 hcell
  refine ⟨cells[y * w + x], ?_, Nat.le_refl _⟩
  obtain ⟨f', -, h3, h4⟩ := hg.child_ok hwf (by rw [this]; exact hi) (List.getElem?_eq_getElem hlt')
  rw [h3.rowAt_eq, h4]

/-- A 2×2 table inside a fraction. -/
example : press .dev [.fraction [.container .table [[], [.symbol ['x']], [], []] 2] []] .up
    (.at ⟨[(0, 0), (0, 3)], 0⟩) = .ok (.at ⟨[(0, 0), (0, 1)], 1⟩) := by decide +kernel
/-- From the last table row Down leaves the table and goes to the denominator. -/
example : press .dev [.fraction [.container .table [[], [.symbol ['x']], [], []] 2] []] .down
    (.at ⟨[(0, 0), (0, 3)], 0⟩) = .ok (.at ⟨[(0, 1)], 0⟩) := by decide +kernel
example : press .dev [.symbol ['a'], .sup [.symbol ['b']]] .up (.at ⟨[(1, 0)], 1⟩) =
    .ok (.at ⟨[], 1⟩) := by decide +kernel

end Aftermath
