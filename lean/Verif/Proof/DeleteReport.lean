import Verif.Proof.Erase
import Verif.Props.Autocorrect

/-! # Lemmas about what deleting reports -/

namespace Aftermath

variable {cfg : Cfg} {root : Row}

/-- Where no horizontal move is possible. -/
theorem move_none (hwf : rowWf root = true)
    (hfit : cfg.checks = false → rowFits cfg.bits root = true) {p : Position} (hp : p.In root)
    {dir : HDir} (h : moveCaretInternal cfg p dir.toDir = .ok none) :
    p.toMinimal = rootEdge root dir := by
  obtain ⟨i, hi, he⟩ := List.mem_iff_getElem.1 (mem_positions_valid.2 hp.valid)
  have hi' : (positions root)[i]? = some p.toMinimal := by rw [List.getElem?_eq_getElem hi, he]
  obtain ⟨f, hf⟩ := hp.1
  have hfe : f = p.focus.rowIndices := hf.rowIndices_eq.symm
  subst hfe
  cases dir with
  | right =>
    by_cases hlast : i + 1 < (positions root).length
    · have hs := positions_step hwf hi' (List.getElem?_eq_getElem hlast)
      obtain ⟨fb, h1, -⟩ := move_right_step hwf hs (p := []) (fa := p.focus) cfg .root rfl
        (by simpa [MinPos.underPath, Position.toMinimal] using hf)
      have h' : moveCaretInternal cfg p .right = .ok none := h
      have h1' : moveCaretInternal cfg p .right = .ok (some ⟨fb, _⟩) := h1
      rw [h'] at h1'
      cases h1'
    · have : i = (positions root).length - 1 := by omega
      subst this
      rw [positions_last] at hi'
      exact (Option.some.inj hi').symm
  | left =>
    cases i with
    | zero =>
      rw [positions_first] at hi'
      exact (Option.some.inj hi').symm
    | succ i =>
      have hs := positions_step hwf (List.getElem?_eq_getElem (by omega)) hi'
      have h' : moveCaretInternal cfg p .left = .ok none := h
      rcases move_left_step hwf hs (p := []) (fb := p.focus) cfg hfit .root rfl
        (by simpa [MinPos.underPath, Position.toMinimal] using hf) with ⟨-, -, h1⟩ | ⟨-, fa, h1, -⟩
      · have h1' : moveCaretInternal cfg p .left = .error .overflow := h1
        rw [h'] at h1'
        cases h1'
      · have h1' : moveCaretInternal cfg p .left = .ok (some ⟨fa, _⟩) := h1
        rw [h'] at h1'
        cases h1'

theorem removeMove_none (hwf : rowWf root = true)
    (hfit : cfg.checks = false → rowFits cfg.bits root = true) {p : Position} (hp : p.In root)
    {dir : HDir} (h : removeMove cfg p dir = .ok none) : p.toMinimal = rootEdge root dir := by
  simp only [removeMove, moveCaretRange_char, RowRange.edge_ofPosition] at h
  obtain ⟨o, h1, h2⟩ := M.bind_eq_ok.1 h
  cases o with
  | some p => cases h2
  | none =>
    obtain ⟨o, h3, h4⟩ := M.bind_eq_ok.1 h1
    cases o with
    | some p => cases h4
    | none => exact move_none hwf hfit hp h3

theorem removeInGrid_none (hwf : rowWf root = true)
    (hfit : cfg.checks = false → rowFits cfg.bits root = true) {p : Position} (hp : p.In root)
    {dir : HDir} {parent : FocusNode} {idx : Nat} {v : Variant} {cells : List Row} {w : Nat}
    (hn : parent.node = .container v cells w)
    (h : removeInGrid cfg p dir parent idx = .ok none) : p.toMinimal = rootEdge root dir := by
  simp only [removeInGrid, hn, Node.grid] at h
  have key : ∀ e : Bool, (if (e && cells.all List.isEmpty) = true then do
        let r ← flattenNode parent 0
        .ok (some r)
      else removeMove cfg p dir) = .ok none → p.toMinimal = rootEdge root dir := by
    intro e h2
    split at h2
    · obtain ⟨_, -, h3⟩ := M.bind_eq_ok.1 h2
      cases h3
    · exact removeMove_none hwf hfit hp h2
  cases dir with
  | left => exact key _ h
  | right =>
    obtain ⟨_, -, h2⟩ := M.bind_eq_ok.1 h
    obtain ⟨_, -, h3⟩ := M.bind_eq_ok.1 h2
    exact key _ h3

/-- Deleting does nothing only at the edge of the formula. -/
theorem removeAtCaretPosition_none (hwf : rowWf root = true)
    (hfit : cfg.checks = false → rowFits cfg.bits root = true) {p : Position} (hp : p.In root)
    {dir : HDir} (h : removeAtCaretPosition cfg p dir = .ok none) :
    p.toMinimal = rootEdge root dir := by
  unfold removeAtCaretPosition at h
  simp only at h
  split at h
  · obtain ⟨_, -, h1⟩ := M.bind_eq_ok.1 h
    obtain ⟨_, -, h2⟩ := M.bind_eq_ok.1 h1
    cases h2
  · split at h
    · obtain ⟨_, -, h1⟩ := M.bind_eq_ok.1 h
      obtain ⟨_, -, h2⟩ := M.bind_eq_ok.1 h1
      cases h2
    · exact removeMove_none hwf hfit hp h
  · rename_i hadj
    obtain ⟨⟨q, hf⟩, hol⟩ := id hp
    obtain ⟨f, o⟩ := p
    simp only at hf hol hadj h
    cases hf with
    | root =>
      have he : o = (rootEdge root dir).offset := by
        cases dir with
        | left =>
          by_contra hne
          have ho : o ≠ 0 := hne
          have hlt : o - 1 < (FocusRow.root root []).row.length := by omega
          simp [offsetToIndex, ho, FocusRow.nodeAt, FocusRow.row] at hadj hlt
          omega
        | right =>
          by_contra hne
          have ho : ¬ root.length ≤ o := fun h => hne (Nat.le_antisymm hol h)
          simp [offsetToIndex, FocusRow.row, ho, FocusRow.nodeAt] at hadj
      rw [he]
      rfl
    | child hf' hi hj hq =>
      unfold removeAtEdge at h
      obtain ⟨idx, -, h2⟩ := M.bind_eq_ok.1 h
      simp only [FocusRow.parent] at h2
      obtain ⟨idx, -, h3⟩ := M.bind_eq_ok.1 h2
      split at h3
      · obtain ⟨_, -, h4⟩ := M.bind_eq_ok.1 h3
        cases h4
      · obtain ⟨_, -, h4⟩ := M.bind_eq_ok.1 h3
        cases h4
      · split at h3
        · obtain ⟨_, -, h4⟩ := M.bind_eq_ok.1 h3
          obtain ⟨_, -, h5⟩ := M.bind_eq_ok.1 h4
          obtain ⟨_, -, h6⟩ := M.bind_eq_ok.1 h5
          cases h6
        · exact removeInGrid_none hwf hfit hp rfl h3
      · split at h3
        · obtain ⟨_, -, h4⟩ := M.bind_eq_ok.1 h3
          obtain ⟨_, -, h5⟩ := M.bind_eq_ok.1 h4
          obtain ⟨_, -, h6⟩ := M.bind_eq_ok.1 h5
          cases h6
        · exact removeInGrid_none hwf hfit hp rfl h3
      · exact removeInGrid_none hwf hfit hp rfl h3

end Aftermath
