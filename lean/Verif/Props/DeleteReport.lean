import Verif.Proof.DeleteReport
import Verif.Model.Component

/-! # Property theorem C33: what deleting reports -/

namespace Aftermath

variable {T : Type} {env : Env T}

/-- **C33**: what a call to delete reports. It says that nothing was done exactly if the caret is
collapsed at the edge of the formula and the key deletes across it, and then formula, caret and
history are as before. -/
theorem C33_reports {ed ed' : Editor T} {mode : RemoveMode} {b : Bool} (hwf : rowWf ed.input = true)
    (hfit : env.cfg.checks = false → rowFits env.cfg.bits ed.input = true)
    (h : ed.removeAtCaret env mode = .ok (ed', b)) :
    (b = false ↔ ∃ dir : HDir, mode = dir.toMode ∧ ed.caret = .at (rootEdge ed.input dir)) ∧
    (b = false → ed'.input = ed.input ∧ ed'.caret = ed.caret ∧ ed'.undo = ed.undo) := by
  unfold Editor.removeAtCaret at h
  obtain ⟨⟨e, ac⟩, hs, h1⟩ := M.bind_eq_ok.1 h
  obtain ⟨hq, hqc⟩ := startAutocorrect_quiet hs
  obtain ⟨c, hc, h2⟩ := M.bind_eq_ok.1 h1
  simp only [hq.input, hqc] at hc
  obtain ⟨hin, hmin⟩ := Caret.fromMinimal_sound hc
  split at h2
  · rename_i r hsel
    obtain ⟨res, h3, h4⟩ := M.bind_eq_ok.1 h2
    cases res with
    | none =>
      cases h4
      refine ⟨⟨fun _ => ?_, fun _ => rfl⟩, fun _ => ⟨hq.input, hqc, hq.undo⟩⟩
      have hcol : r.isCollapsed = true := by
        by_contra hcol
        unfold removeAtCaret at h3
        rw [if_pos (by simpa using hcol)] at h3
        obtain ⟨_, -, h5⟩ := M.bind_eq_ok.1 h3
        cases h5
      have hcol' : r.start = r.stop := by simpa [RowRange.isCollapsed] using hcol
      obtain ⟨⟨q, hf⟩, hb⟩ := caret_row_in hc hsel
      obtain ⟨hat, -⟩ := collapsed_caret (o := r.start) hwf (by
        simp only [selectionOf, hc, M.ok_bind, hsel, Selection.toMinimal, RowRange.toMinimal,
          hf.rowIndices_eq, ← hcol'] : selectionOf ed.input ed.caret = .ok (.row ⟨q, r.start, r.start⟩))
      have hin' : (⟨r.focus, r.start⟩ : Position).In ed.input := ⟨⟨_, hf⟩, hb.1⟩
      have hmn : (⟨r.focus, r.start⟩ : Position).toMinimal = ⟨q, r.start⟩ := by
        simp [Position.toMinimal, hf.rowIndices_eq]
      have hdir : ∀ dir : HDir, mode = dir.toMode →
          ed.caret = .at (rootEdge ed.input dir) := by
        rintro dir rfl
        have h5 : removeAtCaretPosition env.cfg ⟨r.focus, r.start⟩ dir = .ok none := by
          rw [← h3]
          cases dir <;> simp [removeAtCaret, hcol, HDir.toMode, RowRange.startPosition]
        rw [hat, ← hmn, removeAtCaretPosition_none hwf hfit hin' h5]
      cases mode with
      | left => exact ⟨.left, rfl, hdir .left rfl⟩
      | right => exact ⟨.right, rfl, hdir .right rfl⟩
      | range =>
        simp only [removeAtCaret, hcol] at h3
        obtain ⟨_, -, h5⟩ := M.bind_eq_ok.1 h3
        cases h5
    | some res =>
      obtain ⟨edits, p⟩ := res
      obtain ⟨_, -, h5⟩ := M.bind_eq_ok.1 h4
      cases h5
      refine ⟨⟨nofun, ?_⟩, nofun⟩
      rintro ⟨dir, rfl, hcar⟩
      obtain ⟨c', r', g1, g2, g3⟩ := removeAtCaret_rootEdge hwf env.cfg dir
      rw [hcar, g1] at hc
      cases hc
      rw [g2] at hsel
      cases hsel
      rw [g3] at h3
      split at h3 <;> cases h3
  · cases h2

/-! ## Cases -/

/-- `1/2` with the caret at a place. -/
def reportSample (p : MinPos) : Editor Unit :=
  { (Editor.new : Editor Unit) with
    input := [.fraction [.symbol ['1']] [.symbol ['2']]], caret := .at p }

/-- What deleting in it reports. -/
def reported (p : MinPos) (mode : RemoveMode) : M Bool := do
  let r ← (reportSample p).removeAtCaret ⟨.release, fun _ => .ok (), shippedAutocomplete⟩ mode
  .ok r.2

/-- Backspace before `2` dissolves the fraction, before the fraction it does nothing. -/
example : reported ⟨[(0, 1)], 0⟩ .left = .ok true ∧ reported ⟨[], 0⟩ .left = .ok false ∧
    reported ⟨[], 0⟩ .range = .ok true := by decide +kernel

end Aftermath
