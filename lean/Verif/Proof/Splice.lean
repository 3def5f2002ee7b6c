import Verif.Proof.Autocorrect
import Verif.Proof.Matches
import Verif.Props.Range
import Verif.Props.Delete
import Verif.Props.Track

/-! # When splicing, opening the autocomplete list and inserting succeed -/

namespace Aftermath

variable {T : Type} {env : Env T}

theorem MinPos.Le.antisymm {a b : MinPos} (h : a.Le b) (h' : b.Le a) : a = b := by
  obtain ⟨p, o⟩ := a
  obtain ⟨q, o'⟩ := b
  simp only [MinPos.Le, MinPos.cmp] at h h'
  have : cmpIndicesAndOffset p o q o' = .eq := by
    cases hc : cmpIndicesAndOffset p o q o' with
    | eq => rfl
    | gt => exact absurd hc h
    | lt => exact absurd (cmp_gt.2 hc) h'
  obtain ⟨rfl, rfl⟩ := cmp_eq.1 this
  rfl

/-- Only a collapsed caret has an empty row selection. -/
theorem collapsed_caret {root : Row} (hwf : rowWf root = true) {m : MinCaret} {q : RowIndices}
    {o : Nat} (h : selectionOf root m = .ok (.row ⟨q, o, o⟩)) :
    m = .at ⟨q, o⟩ ∧ ValidPos root ⟨q, o⟩ := by
  obtain ⟨c0, hc0, h0⟩ := M.bind_eq_ok.1 h
  obtain ⟨hin, hm⟩ := Caret.fromMinimal_sound hc0
  have hv : ValidCaret root m := hm ▸ hin.valid
  obtain ⟨a, b⟩ := m
  obtain ⟨c, hc, -, hsel⟩ := C12_selection hwf hv.1 hv.2
  simp only at hc hsel
  rw [hc] at hc0
  cases hc0
  have h0 := Except.ok.inj h0
  rcases hsel with ⟨p, i, j, j', w, -, hg⟩ | ⟨-, r, hr, hs⟩
  · rw [h0] at hg; cases hg
  · rw [h0] at hs
    cases hs
    obtain ⟨r', hr', -, -, ha, hb, -⟩ := C11_span hwf hv.1 hv.2
    simp only at hr'
    rw [hr] at hr'
    cases hr'
    simp only [Nat.min_self, Nat.max_self] at ha hb
    have ha' := ha.2.antisymm ha.1
    have hb' := hb.2.antisymm hb.1
    subst ha' hb'
    exact ⟨rfl, hv.1⟩

/-- Tracking through an edit of row `q` is fine for positions in that row or not below it. -/
def Trackable (q : RowIndices) (a : MinPos) : Prop := a.rowIndices = q ∨ ¬ q <+: a.rowIndices

theorem MinPos.applyEdit_ok {cfg : Cfg} {q : RowIndices} {a : MinPos} (h : Trackable q a)
    (t : EditType) (k : Nat) (vs : List Node) :
    ∃ a', a.applyEdit cfg (.row ⟨t, ⟨q, k⟩, vs⟩) = .ok a' ∧ a'.rowIndices = a.rowIndices := by
  unfold MinPos.applyEdit
  rcases h with rfl | h
  · cases t with
    | insert =>
      obtain ⟨r', h1, h2, -⟩ := track_insert_same (cfg := cfg) ⟨a.rowIndices, a.offset, a.offset⟩ k vs
      simp only at h1 h2
      rw [h1]
      exact ⟨_, rfl, h2⟩
    | delete =>
      obtain ⟨r', h1, h2, -⟩ := track_delete_same (cfg := cfg) ⟨a.rowIndices, a.offset, a.offset⟩ k vs
      simp only at h1 h2
      rw [h1]
      exact ⟨_, rfl, h2⟩
  · rw [C29_unrelated_partial cfg ⟨a.rowIndices, a.offset, a.offset⟩ t q k vs h]
    exact ⟨_, rfl, rfl⟩

theorem RowRange.fromMinimal_valid {root : Row} (hwf : rowWf root = true) {r : MinRange}
    (h : ValidRange root r) : ∃ rr, RowRange.fromMinimal (FocusRow.fromRoot root) r = .ok rr ∧
      rr.toMinimal = r ∧ IsFocus root r.rowIndices rr.focus := by
  obtain ⟨row, h1, h2, h3⟩ := h
  obtain ⟨f, hf, rfl⟩ := IsFocus.exists_of_wf hwf h1
  have hw := IsFocus.walkDown_iff.2 hf
  refine ⟨⟨f, r.start, r.stop⟩, ?_, ?_, hf⟩
  · simp only [RowRange.fromMinimal, hw, M.ok_bind, RowRange.new_ok h2 h3]
  · simp [RowRange.toMinimal, hf.rowIndices_eq]

/-- Splicing a valid range succeeds if the caret is in the same row or not below it. -/
theorem splice_ok {ed : Editor T} (hwf : rowWf ed.input = true) {range : MinRange}
    (hr : ValidRange ed.input range) (ha : Trackable range.rowIndices ed.caret.start)
    (hb : Trackable range.rowIndices ed.caret.stop) (values : List Node) :
    ∃ ed', ed.spliceAtRange env range values = .ok ed' := by
  obtain ⟨rr, h1, h2, h3⟩ := RowRange.fromMinimal_valid hwf hr
  have hb3 : rr.start ≤ rr.focus.row.length ∧ rr.stop ≤ rr.focus.row.length :=
    (RowRange.fromMinimal_sound h1).2.1
  unfold Editor.spliceAtRange
  rw [h1]
  simp only [M.ok_bind, replaceRange_eq h3 hb3 values]
  have key : ∀ a : MinPos, Trackable range.rowIndices a → ∃ a',
      a.applyEdits env.cfg [deleteEdit range.rowIndices rr.focus.row rr.leftOffset rr.rightOffset,
        .row ⟨.insert, ⟨range.rowIndices, rr.leftOffset⟩, values⟩] = .ok a' := by
    intro a ha
    obtain ⟨a1, e1, e2⟩ := MinPos.applyEdit_ok (cfg := env.cfg) ha .delete rr.leftOffset
      ((rr.focus.row.take rr.rightOffset).drop rr.leftOffset)
    have ha1 : Trackable range.rowIndices a1 := by simpa [Trackable, e2] using ha
    obtain ⟨a2, e3, -⟩ := MinPos.applyEdit_ok (cfg := env.cfg) ha1 .insert rr.leftOffset values
    refine ⟨a2, ?_⟩
    simp only [MinPos.applyEdits, deleteEdit, e1, M.ok_bind, e3]
  obtain ⟨a, ea⟩ := key _ ha
  obtain ⟨b, eb⟩ := key _ hb
  obtain ⟨root', hroot, -⟩ := replace_ok (cfg := env.cfg) values hwf h3.rowAt_eq rr.left_le_right
    (RowRange.right_le hb3)
  simp only [ea, eb, M.ok_bind, Editor.finish, List.isEmpty_cons, Bool.false_eq_true, if_false,
    hroot]
  exact ⟨_, rfl⟩

theorem autocompleteStateGet_ok (current : Option AutocompleteRule) {ms : List RuleMatch}
    (hms : ms ≠ []) (pos : MinPos) :
    ∃ cur i, autocompleteStateGet current ms pos = .ok (cur, some
      ⟨i, sortMatches ms, pos⟩) := by
  unfold autocompleteStateGet
  have : ms.isEmpty = false := by simpa using hms
  rw [this]
  simp only [Bool.false_eq_true, if_false]
  have hpos : 0 < (sortMatches ms).length := by
    rw [(sortMatches_perm ms).length_eq]; exact List.length_pos_iff.2 hms
  generalize hs : sortMatches ms = sorted at hpos
  cases current with
  | none =>
    simp only [AutocompleteResults.new, massert, hpos, decide_true, if_true, M.ok_bind]
    exact ⟨_, _, rfl⟩
  | some last =>
    cases hf : sorted.findIdx? (fun m => m.rule == last) with
    | none =>
      simp only [hf, Option.getD_none, AutocompleteResults.new, massert, hpos, decide_true, if_true,
        M.ok_bind]
      exact ⟨_, _, rfl⟩
    | some i =>
      have hi : i < sorted.length := (List.findIdx?_eq_some_iff_getElem.1 hf).1
      simp only [hf, Option.getD_some, AutocompleteResults.new, massert, hi, decide_true, if_true,
        M.ok_bind]
      exact ⟨_, _, rfl⟩

/-- An open list stays open, with the same matches, whatever rule is remembered. -/
theorem getAutocomplete_again {ed e : Editor T} {res : AutocompleteResults}
    (cur : Option AutocompleteRule) (h : ed.getAutocomplete env = .ok (e, some res)) :
    ∃ e' res', ({ ed with currentAutocomplete := cur } : Editor T).getAutocomplete env =
        .ok (e', some res') ∧
      res'.matches' = res.matches' ∧ res'.caretPosition = res.caretPosition := by
  unfold Editor.getAutocomplete at h ⊢
  obtain ⟨c, hc, h1⟩ := M.bind_eq_ok.1 h
  simp only [hc, M.ok_bind]
  cases hs : c.selection with
  | grid g => rw [hs] at h1; cases h1
  | row r =>
    rw [hs] at h1
    simp only at h1 ⊢
    split at h1
    · rename_i hcol
      rw [if_pos hcol]
      obtain ⟨ms, hms, h2⟩ := M.bind_eq_ok.1 h1
      obtain ⟨⟨cur0, res0⟩, hx, h3⟩ := M.bind_eq_ok.1 h2
      have hne : ms ≠ [] := by
        rintro rfl
        simp only [autocompleteStateGet, List.isEmpty_nil, if_true] at hx
        cases hx; cases h3
      obtain ⟨c0, i0, h4⟩ := autocompleteStateGet_ok ed.currentAutocomplete hne
        r.startPosition.toMinimal
      rw [hx] at h4
      cases h4
      cases h3
      obtain ⟨c1, i1, h5⟩ := autocompleteStateGet_ok cur hne r.startPosition.toMinimal
      simp only [hms, M.ok_bind, h5]
      exact ⟨_, _, rfl, rfl, rfl⟩
    · cases h1

end Aftermath
