import Verif.Props.Autocorrect

/-! # Inserting any nodes, well formed or not -/

namespace Aftermath

variable {T : Type} {env : Env T}

/-- A caret that is just a position selects nothing, in ill-formed formulas too. -/
theorem at_selection {root : Row} {m : MinPos} {c : Caret}
    (h : Caret.fromMinimal root (.at m) = .ok c) :
    ∃ p : Position, p.toMinimal = m ∧ c.selection = .row (RowRange.ofPosition p) := by
  unfold Caret.fromMinimal at h
  obtain ⟨p, h1, h⟩ := M.bind_eq_ok.1 h
  obtain ⟨p', h2, h⟩ := M.bind_eq_ok.1 h
  have : p' = p := by
    simp only [MinCaret.at] at h1 h2
    rw [h1] at h2
    exact (Except.ok.inj h2).symm
  subst this
  obtain ⟨hin, hm, hf⟩ := Position.fromMinimal_sound h1
  unfold Caret.new at h
  obtain ⟨s, h3, h⟩ := M.bind_eq_ok.1 h
  cases h
  refine ⟨p', hm, ?_⟩
  have hw := IsFocus.walkDown_iff.2 hf
  have h4 : rangeFromPositions root p' p' = .ok ⟨p'.focus, p'.offset, p'.offset⟩ := by
    have hp : p'.focus.rowIndices = (MinCaret.at m).start.rowIndices := hf.rowIndices_eq
    have hsh : getShared (MinCaret.at m).start.rowIndices (MinCaret.at m).start.rowIndices =
        (MinCaret.at m).start.rowIndices := by
      have := getShared_eq (s := (MinCaret.at m).start.rowIndices) (a' := []) (b' := [])
        (by intro x xs y ys h; cases h)
      simpa using this
    simp only [rangeFromPositions, hsh, hp, List.getElem?_eq_none (Nat.le_refl _), hw,
      M.ok_bind, RowRange.new_ok hin.2 hin.2]
  rw [Selection.fromPositions, h4, M.ok_bind, if_pos (by
    simp [RowRange.len, RowRange.leftOffset_min, RowRange.rightOffset_max])] at h3
  cases h3
  rfl

theorem insertNodes_sound {ed e ed' : Editor T} {ac : Option AutocorrectAction} {values : List Node}
    (hwf : rowWf ed.input = true) (hs : ed.startAutocorrect env = .ok (e, ac))
    (h : e.insertNodes env ac values = .ok ed') :
    ∃ (q : RowIndices) (row : Row) (l r : Nat), rowAt ed'.input q = some (row.take l ++ values ++ row.drop r) := by
  obtain ⟨hq, hqc⟩ := startAutocorrect_quiet hs
  unfold Editor.insertNodes at h
  obtain ⟨c, hc', h⟩ := M.bind_eq_ok.1 h
  have hc : Caret.fromMinimal ed.input ed.caret = .ok c := by rw [← hq.input, ← hqc]; exact hc'
  cases hseln : c.selection with
  | grid g => rw [hseln] at h; cases h
  | row r =>
  rw [hseln] at h
  have hsel : selectionOf ed.input ed.caret = .ok (.row r.toMinimal) := by
    simp only [selectionOf, hc, M.ok_bind, hseln]; rfl
  obtain ⟨c', r', hc2, hseln2, he, hf, hb⟩ := selectionOf_row hwf hsel
  have : c' = c := by rw [hc] at hc2; exact (Except.ok.inj hc2).symm
  subst this
  have : r' = r := by rw [hseln] at hseln2; exact (Selection.row.inj hseln2).symm
  subst this
  clear hc2 hseln2 he
  have hl := r'.leftOffset_min
  have hrr := r'.rightOffset_max
  have hlr := r'.left_le_right
  have hrl := RowRange.right_le hb
  obtain ⟨root', h1, h2⟩ := replace_ok (cfg := env.cfg) values hwf hf.rowAt_eq hlr hrl
  have h3 := insertAtRange_eq hf hb values
  generalize hqe : r'.toMinimal.rowIndices = q at *
  generalize r'.leftOffset = lo at *
  generalize r'.rightOffset = hi at *
  have h1' : applyEdits env.cfg e.input [deleteEdit q r'.focus.row lo hi,
      .row ⟨.insert, ⟨q, lo⟩, values⟩] = .ok root' := by rw [hq.input]; exact h1
  refine ⟨q, r'.focus.row, lo, hi, ?_⟩
  simp only [h3, M.ok_bind, Editor.finishAndAutocorrect, Editor.finish, List.isEmpty_cons,
    Bool.false_eq_true, if_false, h1'] at h
  cases ac with
  | none => cases h; exact h2.rowAt_new
  | some ac =>
    obtain ⟨q', o, row, init, last, t1, t2, t3, -, t5, -⟩ := startAutocorrect_token hwf hs
    have hvo : ValidPos ed.input ⟨q', o⟩ := ⟨row, t2, t3.1⟩
    have hsel' := selectionOf_at hwf hvo
    rw [← t1] at hsel'
    rw [hsel] at hsel'
    have hrm : r'.toMinimal = ⟨q', o, o⟩ := by
      have := Except.ok.inj hsel'
      exact MinSelection.row.inj this
    have hq' : q = q' := by rw [← hqe, hrm]
    subst hq'
    have hlo : lo = o ∧ hi = o := by
      have e1 : r'.start = o := by have := congrArg MinRange.start hrm; exact this
      have e2 : r'.stop = o := by have := congrArg MinRange.stop hrm; exact this
      rw [hl, hrr, e1, e2]; simp
    clear hl hrr
    obtain ⟨rfl, hx⟩ := hlo
    subst hi
    have hrow : r'.focus.row = row := by
      have := hf.rowAt_eq; rw [t2] at this; exact (Option.some.inj this).symm
    have hvs : ((r'.focus.row.take lo).drop lo).length = 0 := by
      rw [List.length_drop, List.length_take]; omega
    obtain ⟨r1, u1, u2, -, -, u3, u4⟩ := track_delete_same (cfg := env.cfg) ac.caretRange lo
      ((r'.focus.row.take lo).drop lo)
    obtain ⟨r2, v1, v2, -, v3, v4⟩ := track_insert_same (cfg := env.cfg) r1 lo values
    have hri : ac.caretRange.rowIndices = q := by rw [t5]
    have hclo : ac.caretRange.lo = lo - (init ++ [last]).length := by
      rw [t5]; simp only [MinRange.lo]; omega
    have hchi : ac.caretRange.hi = lo := by
      rw [t5]; simp only [MinRange.hi]; omega
    rw [u2] at v1
    rw [hri] at u1 v1
    have hr1lo : r1.lo ≤ lo := by
      rw [u3, hclo, if_neg (by omega)]; omega
    have hr1hi : r1.hi = lo := by
      rw [u4, hchi, if_neg (by omega)]
    have hr2lo : r2.lo ≤ lo := by
      rw [v3, if_neg (by omega)]; omega
    have hr2hi : r2.hi = lo + values.length := by
      rw [v4, hr1hi, if_pos (Nat.le_refl _)]
    have hr2q : r2.rowIndices = q := by rw [v2, u2, hri]
    have hfin : ac.caretRange.applyEdits env.cfg [deleteEdit q r'.focus.row lo lo,
        .row ⟨.insert, ⟨q, lo⟩, values⟩] = .ok r2 := by
      simp only [MinRange.applyEdits, deleteEdit, u1, M.ok_bind, v1]
    have hlen : (r'.focus.row.take lo ++ values ++ r'.focus.row.drop lo).length =
        r'.focus.row.length + values.length := by
      simp only [List.length_append, List.length_take, List.length_drop]; omega
    simp only [autocorrectFinish, hfin, M.ok_bind, Editor.applyAutocorrect] at h
    obtain ⟨c2, hc2, h⟩ := M.bind_eq_ok.1 h
    obtain ⟨p, hp, hps⟩ := at_selection (m := ⟨q, lo + values.length⟩) hc2
    simp only [hps] at h
    obtain ⟨rr, w1, h⟩ := M.bind_eq_ok.1 h
    obtain ⟨w3, -, w2⟩ := RowRange.fromMinimal_sound w1
    have hcont : rr.contains p = true := by
      rw [contains_iff w3, hp, hr2q, MinPos.le_same, MinPos.le_same, rr.leftOffset_min,
        rr.rightOffset_max]
      have e1 : rr.start = r2.start := by rw [← w2]; rfl
      have e2 : rr.stop = r2.stop := by rw [← w2]; rfl
      rw [e1, e2]
      have e3 : min r2.start r2.stop = r2.lo := rfl
      have e4 : max r2.start r2.stop = r2.hi := rfl
      rw [e3, e4]
      omega
    have hst : (RowRange.ofPosition p).startPosition = p := rfl
    rw [hst, if_pos hcont] at h
    cases h
    exact h2.rowAt_new

end Aftermath
