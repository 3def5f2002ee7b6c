import Verif.Proof.Erase
import Verif.Proof.Idle

/-! # Erasing in the editor: Backspace never corrects what is being erased -/

namespace Aftermath

variable {T : Type} {env : Env T}

/-- Backspace behind the last symbol of a word that would be corrected only removes the symbol. -/
theorem backspace_token {ed e : Editor T} {ac : AutocorrectAction} (hwf : rowWf ed.input = true)
    (hs : ed.startAutocorrect env = .ok (e, some ac)) {root' : Row} {m' : MinCaret}
    (hd : deleteKey env.cfg .left (ed.input, ed.caret) = .ok (root', m')) :
    ∃ ed' b, ed.removeAtCaret env .left = .ok (ed', b) ∧ ed'.input = root' ∧ ed'.caret = m' := by
  obtain ⟨hq, hqc⟩ := startAutocorrect_quiet hs
  obtain ⟨q, o, row, init, last, hcar, hrow, ⟨hol, before, hbef⟩, -, t5, -⟩ :=
    startAutocorrect_token hwf hs
  have hlen := congrArg List.length hbef
  simp only [List.length_take, List.length_append, List.length_map, List.length_singleton] at hlen
  obtain ⟨k, rfl⟩ : ∃ k, o = k + 1 := ⟨o - 1, by omega⟩
  have hk : row[k]? = some (.symbol last) := by
    have h1 : (row.take (k + 1))[k]? = row[k]? := List.getElem?_take_of_lt (by omega)
    rw [← h1, hbef, List.map_append, ← List.append_assoc,
      List.getElem?_append_right (by simp; omega)]
    have : k - (before ++ init.map Node.symbol).length = 0 := by simp; omega
    rw [this]
    rfl
  obtain ⟨root1, h1, h2⟩ := backspace_symbol hwf env.cfg hrow hk
  rw [hcar, h1] at hd
  cases hd
  obtain ⟨f, hf, rfl⟩ := IsFocus.exists_of_wf hwf hrow
  have hlt := (List.getElem?_eq_some_iff.1 hk).1
  have hin : (⟨f, k + 1⟩ : Position).In ed.input := ⟨⟨_, hf⟩, hlt⟩
  have hc := collapsed_of_minimal hwf hin
  have e2 : (⟨f, k + 1⟩ : Position).toMinimal = ⟨q, k + 1⟩ := by
    simp [Position.toMinimal, hf.rowIndices_eq]
  rw [e2] at hc
  have hrr := removeRange_eq (r := ⟨f, k, k + 1⟩) hf ⟨Nat.le_of_lt hlt, hlt⟩
  rw [RowRange.leftOffset_min, RowRange.rightOffset_max] at hrr
  simp only [Nat.le_add_right, Nat.min_eq_left, Nat.max_eq_right] at hrr
  have hrem : removeAtCaret env.cfg (RowRange.ofPosition ⟨f, k + 1⟩) .left =
      .ok (some ([deleteEdit q f.row k (k + 1)], ⟨q, k⟩)) := by
    simp only [removeAtCaret, RowRange.ofPosition, RowRange.isCollapsed, beq_self_eq_true,
      Bool.not_true, RowRange.startPosition, removeAtCaretPosition, offsetToIndex_left,
      Option.bind_some, FocusRow.nodeAt, hk, Option.map_some,
      RowRange.new_ok (Nat.le_of_lt hlt) hlt, hrr, Bool.false_eq_true, if_false, M.ok_bind]
  obtain ⟨root2, g1, g2⟩ := delete_ok (cfg := env.cfg) hwf hf.rowAt_eq (Nat.le_succ k) hlt
  have := g2.unique h2
  subst this
  have hc' : Caret.fromMinimal e.input e.caret = .ok (Caret.collapsed ⟨f, k + 1⟩) := by
    rw [hq.input, hqc, hcar]; exact hc
  have h1' : applyEdits env.cfg e.input [deleteEdit q f.row k (k + 1)] = .ok root2 := by
    simp only [applyEdits, hq.input, g1, M.ok_bind]
  have hrowwf := rowAt_wf hwf hrow
  have hwf2 : rowWf root2 = true := by
    refine h2.wf hwf ?_
    rw [rowWf_append, rowWf_take hrowwf, rowWf_drop hrowwf]; rfl
  refine ⟨{ e with
      input := root2, parsed := none, caret := .at ⟨q, k⟩,
      undo := e.undo.push ⟨e.caret, .at ⟨q, k⟩, [deleteEdit q f.row k (k + 1)]⟩ }, true, ?_, rfl, rfl⟩
  unfold Editor.removeAtCaret
  simp only [hs, hc', M.ok_bind, Caret.collapsed, hrem, Editor.finishAndAutocorrect, Editor.finish,
    List.isEmpty_cons, Bool.false_eq_true, if_false, h1']
  have hvs : ((f.row.take (k + 1)).drop k).length = 1 := by
    rw [List.length_drop, List.length_take]; omega
  obtain ⟨r1, u1, u2, -, -, u3, u4⟩ := track_delete_same (cfg := env.cfg) ac.caretRange k
    ((f.row.take (k + 1)).drop k)
  have hri : ac.caretRange.rowIndices = q := by rw [t5]
  have hl2 : (init ++ [last]).length = init.length + 1 := by simp
  have hclo : ac.caretRange.lo = k - init.length := by
    rw [t5, hl2]; simp only [MinRange.lo]; omega
  have hchi : ac.caretRange.hi = k + 1 := by
    rw [t5, hl2]; simp only [MinRange.hi]; omega
  rw [hri] at u1 u2
  have hr1lo : r1.lo ≤ k := by
    rw [u3, hclo, if_neg (by omega)]; omega
  have hr1hi : r1.hi = k := by
    rw [u4, hchi, if_pos (by omega), hvs]; omega
  have hfin : ac.caretRange.applyEdits env.cfg [deleteEdit q f.row k (k + 1)] = .ok r1 := by
    simp only [MinRange.applyEdits, deleteEdit, u1, M.ok_bind]
  have hlen2 : k ≤ (f.row.take k ++ f.row.drop (k + 1)).length := by
    rw [List.length_append, List.length_take]; omega
  have hvr : ValidRange root2 r1 := by
    have e1 : r1.start ≤ r1.hi := Nat.le_max_left _ _
    have e2 : r1.stop ≤ r1.hi := Nat.le_max_right _ _
    exact ⟨_, by rw [u2]; exact h2.rowAt_new, by omega, by omega⟩
  have hvo : ValidPos root2 ⟨q, k⟩ := ⟨_, h2.rowAt_new, hlen2⟩
  obtain ⟨p, -, hin, hp, -⟩ := Position.fromMinimal_valid hwf2 hvo
  have hcol := collapsed_of_minimal hwf2 hin
  rw [hp, MinCaret.at] at hcol
  obtain ⟨rr, w1, w2, w3⟩ := RowRange.fromMinimal_valid hwf2 hvr
  have hcont : rr.contains p = true := by
    rw [contains_iff w3, hp, u2, MinPos.le_same, MinPos.le_same, rr.leftOffset_min,
      rr.rightOffset_max]
    have e1 : rr.start = r1.start := by rw [← w2]; rfl
    have e2 : rr.stop = r1.stop := by rw [← w2]; rfl
    rw [e1, e2]
    have e3 : min r1.start r1.stop = r1.lo := rfl
    have e4 : max r1.start r1.stop = r1.hi := rfl
    rw [e3, e4]
    omega
  simp only [autocorrectFinish, hfin, M.ok_bind, Editor.applyAutocorrect, hcol, Caret.collapsed,
    w1]
  have hst : (RowRange.ofPosition p).startPosition = p := rfl
  rw [hst, if_pos hcont]
  rfl

theorem noEmptyLeft {root : Row} {m : MinCaret} (h : [] ∉ rowSymbols root) :
    NoEmptySymbolLeft root m := by
  rintro q o row - hrow ⟨ho, before, hb⟩
  have hmem : Node.symbol [] ∈ row := List.mem_of_mem_take (i := o) (by rw [hb]; simp)
  have h1 := (ReplacedAt.refl hrow).symbols
  obtain ⟨a, b, h2, -⟩ := h1
  refine h ?_
  rw [h2]
  obtain ⟨s, t, rfl⟩ := List.append_of_mem hmem
  simp [rowSymbols_append, rowSymbols, Node.symbols]

/-- Backspace in the editor does what `deleteKey` says. -/
theorem backspace_editor (hr : GoodRules env.rules) {ed : Editor T} (hwf : rowWf ed.input = true)
    (hv : ValidCaret ed.input ed.caret) (hsym : [] ∉ rowSymbols ed.input) {root' : Row}
    {m' : MinCaret} (hd : deleteKey env.cfg .left (ed.input, ed.caret) = .ok (root', m')) :
    ∃ ed' b, ed.removeAtCaret env .left = .ok (ed', b) ∧ ed'.input = root' ∧ ed'.caret = m' := by
  obtain ⟨e, ac, hs⟩ := startAutocorrect_ok (env := env) hwf hv hr (noEmptyLeft hsym)
  cases ac with
  | none => exact removeAtCaret_calm_ok hs hd
  | some ac => exact backspace_token hwf hs hd

theorem backspaces_editor (hr : GoodRules env.rules) {root : Row} (hsym : [] ∉ rowSymbols root)
    (k : Nat) : ∀ {ed : Editor T} {st : Row × MinCaret},
      deleteKeyN env.cfg .left k (ed.input, ed.caret) = .ok st →
      (∀ i < k, ∀ st, deleteKeyN env.cfg .left i (ed.input, ed.caret) = .ok st → Tidy root st) →
      ∃ ed', ed.run env (List.replicate k (.removeAtCaret .left)) = .ok ed' ∧
        ed'.input = st.1 ∧ ed'.caret = st.2 := by
  induction k with
  | zero =>
    intro ed st h _
    cases h
    exact ⟨ed, rfl, rfl, rfl⟩
  | succ k ih =>
    intro ed st h ht
    simp only [deleteKeyN] at h
    obtain ⟨⟨root1, m1⟩, h1, h2⟩ := M.bind_eq_ok.1 h
    obtain ⟨g1, g2, m, g3, g4⟩ := ht 0 (Nat.succ_pos k) _ rfl
    simp only at g1 g2 g3 g4
    obtain ⟨ed1, b, e1, rfl, rfl⟩ := backspace_editor hr g1 (by rw [g3]; exact ⟨g4, g4⟩)
      (fun h => hsym (g2 h)) h1
    obtain ⟨ed', e2, e3⟩ := ih h2 (fun i hi st hst => ht (i + 1) (by omega) st (by
      simp only [deleteKeyN, h1, M.ok_bind]; exact hst))
    refine ⟨ed', ?_, e3⟩
    simp only [List.replicate_succ, Editor.run, Editor.step, e1, M.ok_bind]
    exact e2

end Aftermath
