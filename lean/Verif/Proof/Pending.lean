import Verif.Spec.Pending
import Verif.Proof.Calm

/-! # Calls while a completed token is left of the caret -/

namespace Aftermath

variable {T : Type} {env : Env T}

/-! ## Without rules -/

theorem getAutocomplete_plain {ed e : Editor T} {r : Option AutocompleteResults}
    (h : ed.getAutocomplete env = .ok (e, r)) :
    (∃ x, e = { ed with currentAutocomplete := x }) ∧
    ∃ y, ed.getAutocomplete env.plain = .ok ({ ed with currentAutocomplete := y }, none) := by
  unfold Editor.getAutocomplete at h ⊢
  obtain ⟨c, hc, h1⟩ := M.bind_eq_ok.1 h
  simp only [hc, M.ok_bind]
  cases hs : c.selection with
  | grid g =>
    rw [hs] at h1
    cases h1
    exact ⟨⟨_, rfl⟩, _, rfl⟩
  | row r =>
    rw [hs] at h1
    simp only at h1 ⊢
    split at h1
    · rename_i hcol
      rw [if_pos hcol]
      obtain ⟨ms, hms, h2⟩ := M.bind_eq_ok.1 h1
      obtain ⟨y, hx, h3⟩ := M.bind_eq_ok.1 h2
      cases h3
      exact ⟨⟨_, rfl⟩, none, rfl⟩
    · rename_i hcol
      cases h1
      rw [if_neg hcol]
      exact ⟨⟨_, rfl⟩, _, rfl⟩

theorem startAutocorrect_plain {ed e : Editor T} {ac : Option AutocorrectAction}
    (h : ed.startAutocorrect env = .ok (e, ac)) :
    (∃ x, e = { ed with currentAutocomplete := x }) ∧
    ∃ y, ed.startAutocorrect env.plain = .ok ({ ed with currentAutocomplete := y }, none) := by
  unfold Editor.startAutocorrect at h ⊢
  obtain ⟨⟨e1, r⟩, h1, h2⟩ := M.bind_eq_ok.1 h
  obtain ⟨hx, y, hy⟩ := getAutocomplete_plain h1
  rw [hy]
  refine ⟨?_, y, rfl⟩
  cases r with
  | none => cases h2; exact hx
  | some a =>
    obtain ⟨b, -, h3⟩ := M.bind_eq_ok.1 h2
    cases h3; exact hx

theorem finish_forget (ed : Editor T) (x y : Option AutocompleteRule) (edits : List BasicEdit)
    (m : MinCaret) :
    outcome (({ ed with currentAutocomplete := x }).finishAndAutocorrect env none edits m) =
    outcome (({ ed with currentAutocomplete := y }).finishAndAutocorrect env.plain none edits m) := by
  unfold Editor.finishAndAutocorrect Editor.finish
  have hcfg : env.plain.cfg = env.cfg := rfl
  simp only [hcfg]
  by_cases he : edits.isEmpty = true
  · simp only [he, if_true]; rfl
  · simp only [he]
    cases applyEdits env.cfg ed.input edits <;> rfl

/-! ## The part of a call that does not depend on the rules -/

/-- The edits and the new caret of typed or pasted nodes. -/
def insertCore (root : Row) (caret : MinCaret) (vs : List Node) :
    M (Option (List BasicEdit × MinCaret)) := do
  let c ← Caret.fromMinimal root caret
  match c.selection with
  | .row r => do
    let (edits, p) ← insertAtRange r vs
    .ok (some (edits, ⟨p, p⟩))
  | .grid _ => .error .todo

/-- The edits and the new caret of a call, if it gets that far. -/
def Op.core (cfg : Cfg) (root : Row) (caret : MinCaret) :
    Op → M (Option (List BasicEdit × MinCaret))
  | .moveCaret d mode => do
    let c ← Caret.fromMinimal root caret
    let c ← Aftermath.moveCaret cfg root c d mode
    .ok (some ([], c.toMinimal))
  | .selectWithCaret d mode => do
    let c ← Caret.fromMinimal root caret
    match c.selection with
    | .row r => do
      match ← moveCaretRange cfg (RowRange.ofPosition r.endPosition) d mode with
      | none => .ok none
      | some p => .ok (some ([], ⟨caret.start, p.toMinimal⟩))
    | .grid _ => .error .todo
  | .removeAtCaret mode => do
    let c ← Caret.fromMinimal root caret
    match c.selection with
    | .row r => do
      match ← Aftermath.removeAtCaret cfg r mode with
      | none => .ok none
      | some (edits, p) => .ok (some (edits, ⟨p, p⟩))
    | .grid _ => .error .todo
  | .insertAtCaret vs => insertCore root caret (vs.map Node.symbol)
  | .startSelection p _ => .ok (some ([], ⟨p, p⟩))
  | .extendSelection p => .ok (some ([], ⟨caret.start, p⟩))
  | .paste data known =>
    if known then
      match deserializeNodes cfg data with
      | none => .ok none
      | some nodes => insertCore root caret nodes
    else .error .todo
  | _ => .ok none

/-- The end of a call. -/
def Editor.conclude (env : Env T) (e : Editor T) (ac : Option AutocorrectAction) :
    Option (List BasicEdit × MinCaret) → M (Editor T)
  | none => .ok e
  | some (edits, m) => e.finishAndAutocorrect env ac edits m

/-- The editor with the selection mode that the call sets. -/
def Op.mark (ed : Editor T) : Op → Editor T
  | .startSelection _ mode => { ed with selectionMode := some mode }
  | _ => ed

theorem insertNodes_core {e : Editor T} {ac : Option AutocorrectAction} {vs : List Node} :
    e.insertNodes env ac vs = (do
      let x ← insertCore e.input e.caret vs
      e.conclude env ac x) := by
  unfold Editor.insertNodes insertCore
  cases Caret.fromMinimal e.input e.caret with
  | error p => rfl
  | ok c =>
    simp only [M.ok_bind]
    cases c.selection with
    | grid g => rfl
    | row r =>
      simp only
      cases insertAtRange r vs <;> rfl

theorem step_core {ed e : Editor T} {ac : Option AutocorrectAction} {op : Op} (hop : op.Corrects)
    (hs : (op.mark ed).startAutocorrect env = .ok (e, ac)) :
    ed.step env op = (do
      let x ← op.core env.cfg ed.input ed.caret
      e.conclude env ac x) := by
  obtain ⟨⟨z, hz⟩, -⟩ := startAutocorrect_plain hs
  cases op with
  | moveCaret d mode =>
    simp only [Op.mark] at hs hz
    simp only [Editor.step, Editor.moveCaret, hs, M.ok_bind, Op.core]
    rw [show e.input = ed.input by rw [hz], show e.caret = ed.caret by rw [hz]]
    cases Caret.fromMinimal ed.input ed.caret with
    | error p => rfl
    | ok c =>
      simp only [M.ok_bind]
      cases Aftermath.moveCaret env.cfg ed.input c d mode <;> rfl
  | selectWithCaret d mode =>
    simp only [Op.mark] at hs hz
    simp only [Editor.step, Editor.selectWithCaret, hs, M.ok_bind, Op.core]
    rw [show e.input = ed.input by rw [hz], show e.caret = ed.caret by rw [hz]]
    cases Caret.fromMinimal ed.input ed.caret with
    | error p => rfl
    | ok c =>
      simp only [M.ok_bind]
      cases c.selection with
      | grid g => rfl
      | row r =>
        simp only
        cases moveCaretRange env.cfg (RowRange.ofPosition r.endPosition) d mode with
        | error p => rfl
        | ok x =>
          simp only [M.ok_bind]
          cases x with
          | none => rfl
          | some p =>
            simp only [M.ok_bind, Editor.conclude]
            cases e.finishAndAutocorrect env ac [] ⟨ed.caret.start, p.toMinimal⟩ <;> rfl
  | removeAtCaret mode =>
    simp only [Op.mark] at hs hz
    simp only [Editor.step, Editor.removeAtCaret, hs, M.ok_bind, Op.core]
    rw [show e.input = ed.input by rw [hz], show e.caret = ed.caret by rw [hz]]
    cases Caret.fromMinimal ed.input ed.caret with
    | error p => rfl
    | ok c =>
      simp only [M.ok_bind]
      cases c.selection with
      | grid g => rfl
      | row r =>
        simp only
        cases Aftermath.removeAtCaret env.cfg r mode with
        | error p => rfl
        | ok x =>
          simp only [M.ok_bind]
          cases x with
          | none => rfl
          | some x =>
            obtain ⟨edits, p⟩ := x
            simp only [M.ok_bind, Editor.conclude]
            cases e.finishAndAutocorrect env ac edits ⟨p, p⟩ <;> rfl
  | insertAtCaret vs =>
    simp only [Op.mark] at hs hz
    simp only [Editor.step, Editor.insertAtCaret, hs, M.ok_bind, Op.core, insertNodes_core]
    rw [show e.input = ed.input by rw [hz], show e.caret = ed.caret by rw [hz]]
  | startSelection p mode =>
    simp only [Op.mark] at hs
    simp only [Editor.step, Editor.startSelection, hs, M.ok_bind, Op.core, Editor.conclude]
  | extendSelection p =>
    simp only [Op.mark] at hs hz
    simp only [Editor.step, Editor.extendSelection, hs, M.ok_bind, Op.core, Editor.conclude]
    rw [show e.caret = ed.caret by rw [hz]]
  | paste data known =>
    simp only [Op.mark] at hs hz
    simp only [Editor.step, Editor.paste, hs, M.ok_bind, Op.core]
    cases known with
    | false => rfl
    | true =>
      simp only [if_true]
      cases deserializeNodes env.cfg data with
      | none => rfl
      | some nodes =>
        simp only [insertNodes_core]
        rw [show e.input = ed.input by rw [hz], show e.caret = ed.caret by rw [hz]]
        cases insertCore ed.input ed.caret nodes with
        | error p => rfl
        | ok x =>
          simp only [M.ok_bind]
          cases e.conclude env ac x <;> rfl
  | _ => exact absurd hop id

theorem conclude_forget (ed : Editor T) (x y : Option AutocompleteRule)
    (o : Option (List BasicEdit × MinCaret)) :
    outcome (({ ed with currentAutocomplete := x }).conclude env none o) =
    outcome (({ ed with currentAutocomplete := y }).conclude env.plain none o) := by
  cases o with
  | none => rfl
  | some p => exact finish_forget ed x y p.1 p.2

theorem mark_start {ed e : Editor T} {ac : Option AutocorrectAction} {op : Op}
    (hs : ed.startAutocorrect env = .ok (e, ac)) :
    ∃ e', (op.mark ed).startAutocorrect env = .ok (e', ac) := by
  cases op with
  | startSelection p mode =>
    exact startAutocorrect_mode (ed := { ed with selectionMode := some mode })
      (m := ed.selectionMode) hs
  | _ => exact ⟨e, hs⟩

/-- A call that comes to autocorrection, and the same call without rules. -/
theorem step_plain {ed e : Editor T} {ac : Option AutocorrectAction} {op : Op} (hop : op.Corrects)
    (hs : ed.startAutocorrect env = .ok (e, ac)) :
    ∃ e', (op.mark ed).startAutocorrect env = .ok (e', ac) ∧
      ed.step env op = (do
        let x ← op.core env.cfg ed.input ed.caret
        e'.conclude env ac x) ∧
      outcome (ed.step env.plain op) = (do
        let x ← op.core env.cfg ed.input ed.caret
        outcome (e'.conclude env none x)) := by
  obtain ⟨e', hs'⟩ := mark_start (op := op) hs
  obtain ⟨⟨x, rfl⟩, y, hy⟩ := startAutocorrect_plain hs'
  refine ⟨_, hs', step_core hop hs', ?_⟩
  rw [step_core hop hy]
  have : env.plain.cfg = env.cfg := rfl
  rw [this]
  cases op.core env.cfg ed.input ed.caret with
  | error p => rfl
  | ok z =>
    simp only [M.ok_bind]
    exact (conclude_forget _ x y z).symm

/-! ## A new caret without edits -/

/-- What is done with the completed token `syms`, which ends at offset `o` of row `q`, when the
caret becomes `m`. -/
theorem finish_pending {e : Editor T} {rule : AutocompleteRule} {q : RowIndices} {o : Nat}
    {row : Row} {syms : List Str} {m : MinCaret} {sel : MinSelection}
    (hwf : rowWf e.input = true) (hrow : rowAt e.input q = some row)
    (hs : SymbolsLeftOf row o syms) (ha : SingleAscii syms)
    (hsp : syms.flatten = rule.parser) (hne : syms ≠ [])
    (hsel : selectionOf e.input m = .ok sel) :
    (Stays q o syms.length sel → e.finishAndAutocorrect env
      (some ⟨rule, ⟨q, o, o - syms.length⟩⟩) [] m = .ok { e with caret := m }) ∧
    (¬ Stays q o syms.length sel →
      (syms.length < o - syms.length → e.finishAndAutocorrect env
        (some ⟨rule, ⟨q, o, o - syms.length⟩⟩) [] m = .error .outOfRange) ∧
      (o - syms.length < syms.length → e.finishAndAutocorrect env
        (some ⟨rule, ⟨q, o, o - syms.length⟩⟩) [] m = .ok { e with caret := m }) ∧
      (o - syms.length = syms.length → e.finishAndAutocorrect env
        (some ⟨rule, ⟨q, o, o - syms.length⟩⟩) [] m =
          ({ e with caret := m }).spliceAtRange env ⟨q, o, o - syms.length⟩ rule.result)) := by
  have hlen : syms.length ≤ o := by
    obtain ⟨h1, before, hb⟩ := hs
    have := congrArg List.length hb
    rw [List.length_take, List.length_append, List.length_map] at this
    omega
  have hvr : ValidRange e.input ⟨q, o, o - syms.length⟩ :=
    ⟨row, hrow, hs.1, Nat.le_trans (Nat.sub_le _ _) hs.1⟩
  obtain ⟨rr, w1, w2, w3⟩ := RowRange.fromMinimal_valid hwf hvr
  have e1 : rr.start = o := by have := congrArg MinRange.start w2; exact this
  have e2 : rr.stop = o - syms.length := by have := congrArg MinRange.stop w2; exact this
  have hlo : rr.leftOffset = o - syms.length := by rw [rr.leftOffset_min, e1, e2]; omega
  have hhi : rr.rightOffset = o := by rw [rr.rightOffset_max, e1, e2]; omega
  have hrr : rr.focus.row = row := by
    have := w3.rowAt_eq; rw [hrow] at this; exact (Option.some.inj this).symm
  have hvals : rr.values = .ok (syms.map Node.symbol) := by
    unfold RowRange.values
    rw [hlo, hhi, hrr, if_pos hs.1]
    obtain ⟨h1, before, hb⟩ := hs
    have hbl : before.length = o - syms.length := by
      have := congrArg List.length hb
      rw [List.length_take, List.length_append, List.length_map] at this
      omega
    rw [hb, ← hbl, List.drop_left]
  obtain ⟨r1, r2⟩ := rematch ha hsp hne (o - syms.length)
  cases sel with
  | grid g =>
    refine ⟨fun _ => ?_, fun h => absurd trivial h⟩
    obtain ⟨c, hc, h1⟩ := M.bind_eq_ok.1 hsel
    simp only [Editor.finishAndAutocorrect, Editor.finish, List.isEmpty_nil, if_true, M.ok_bind,
      autocorrectFinish, MinRange.applyEdits, Editor.applyAutocorrect, hc]
    cases hcs : c.selection with
    | grid g' => rfl
    | row r => rw [hcs] at h1; cases h1
  | row rng =>
    obtain ⟨c, r, hc, hcs, hrm, hf, hb⟩ := selectionOf_row hwf hsel
    have hpm : r.startPosition.toMinimal = ⟨rng.rowIndices, rng.start⟩ := by
      rw [← hrm]; rfl
    have key : e.finishAndAutocorrect env (some ⟨rule, ⟨q, o, o - syms.length⟩⟩) [] m =
        (if rr.contains r.startPosition then .ok { e with caret := m } else do
          let ms ← rule.matches (syms.map Node.symbol) (o - syms.length) 1
          if ms.any RuleMatch.isComplete then
            ({ e with caret := m }).spliceAtRange env ⟨q, o, o - syms.length⟩ rule.result
          else .ok { e with caret := m }) := by
      simp only [Editor.finishAndAutocorrect, Editor.finish, List.isEmpty_nil, if_true, M.ok_bind,
        autocorrectFinish, MinRange.applyEdits, Editor.applyAutocorrect, hc, hcs, w1]
      split
      · rfl
      · simp only [hvals, M.ok_bind, hlo, w2]
    have hst : Stays q o syms.length (.row rng) ↔ rr.contains r.startPosition = true := by
      rw [contains_iff w3, hpm, hlo, hhi]
      exact not_not
    rw [key, hst]
    refine ⟨fun h => by rw [if_pos h], fun h => ?_⟩
    rw [if_neg h]
    refine ⟨fun h => ?_, fun h => ?_, fun h => ?_⟩
    · rw [r1 h]; rfl
    · obtain ⟨ms, hms, hany⟩ := r2 (by omega)
      rw [hms]
      simp only [M.ok_bind]
      rw [if_neg (fun h' => by have := hany.1 h'; omega)]
    · obtain ⟨ms, hms, hany⟩ := r2 (by omega)
      rw [hms]
      simp only [M.ok_bind]
      rw [if_pos (hany.2 h)]

/-! ## The exact panics of a replacement -/

theorem track_nested_ok {cfg : Cfg} {q : RowIndices} (hq : q ≠ []) (r : MinRange) (t : EditType)
    (k : Nat) (vs : List Node) :
    ∃ r', r.applyEdit cfg (.row ⟨t, ⟨q, k⟩, vs⟩) = .ok r' := by
  by_cases hpre : startsWith r.rowIndices q = true
  · have hlen : 0 < q.length := List.length_pos_of_ne_nil hq
    have hpf : q <+: r.rowIndices := by
      rw [startsWith, List.isPrefixOf_iff_prefix] at hpre; exact hpre
    have hle := hpf.length_le
    have hu : usub cfg q.length 1 = .ok (q.length - 1) := by
      unfold usub; rw [if_pos (by omega)]
    obtain ⟨ix, hix⟩ : ∃ ix, r.rowIndices[q.length - 1]? = some ix :=
      ⟨_, List.getElem?_eq_getElem (show q.length - 1 < r.rowIndices.length by omega)⟩
    unfold MinRange.applyEdit
    cases t <;>
    simp only [BasicEdit.getRowIndicesEdit, RowEdit.getRowIndicesEdit, M.ok_bind, hpre,
      Bool.not_true, Bool.false_eq_true, if_false, hu, hix, munwrap] <;>
    split_ifs <;> exact ⟨_, rfl⟩
  · refine ⟨r, C29_unrelated_partial cfg r t q k vs ?_⟩
    rw [startsWith, List.isPrefixOf_iff_prefix] at hpre
    exact hpre

theorem MinPos.track_nested_ok {cfg : Cfg} {q : RowIndices} (hq : q ≠ []) (a : MinPos)
    (t t' : EditType) (k k' : Nat) (vs vs' : List Node) :
    ∃ a', a.applyEdits cfg [.row ⟨t, ⟨q, k⟩, vs⟩, .row ⟨t', ⟨q, k'⟩, vs'⟩] = .ok a' := by
  have one : ∀ (a : MinPos) t k vs, ∃ a', a.applyEdit cfg (.row ⟨t, ⟨q, k⟩, vs⟩) = .ok a' := by
    intro a t k vs
    obtain ⟨r, hr⟩ := Aftermath.track_nested_ok (cfg := cfg) hq
      ⟨a.rowIndices, a.offset, a.offset⟩ t k vs
    exact ⟨⟨r.rowIndices, r.start⟩, by simp only [MinPos.applyEdit, hr, M.ok_bind]⟩
  obtain ⟨a1, h1⟩ := one a t k vs
  obtain ⟨a2, h2⟩ := one a1 t' k' vs'
  exact ⟨a2, by simp only [MinPos.applyEdits, h1, M.ok_bind, h2]⟩

theorem MinPos.track_root_error {cfg : Cfg} (a : MinPos) (ha : a.rowIndices ≠ [])
    (hlen : cfg.checks = false → a.rowIndices.length < 2 ^ cfg.bits)
    (t : EditType) (k : Nat) (vs : List Node) (es : List BasicEdit) :
    ∃ x, a.applyEdits cfg (.row ⟨t, ⟨[], k⟩, vs⟩ :: es) = .error x := by
  have := C29_root_panics cfg ⟨a.rowIndices, a.offset, a.offset⟩ t k vs ha hlen
  simp only [MinPos.applyEdits, MinPos.applyEdit, this, M.error_bind]
  exact ⟨_, rfl⟩

/-- Replacing a valid range panics exactly when it is in the outermost row and the caret is not. -/
theorem splice_exact {ed : Editor T} (hwf : rowWf ed.input = true) {range : MinRange}
    (hr : ValidRange ed.input range) (values : List Node)
    (hlen : env.cfg.checks = false → ed.caret.start.rowIndices.length < 2 ^ env.cfg.bits ∧
      ed.caret.stop.rowIndices.length < 2 ^ env.cfg.bits) :
    (∃ x, ed.spliceAtRange env range values = .error x) ↔
      range.rowIndices = [] ∧ CaretInElement ed.caret := by
  obtain ⟨rr, h1, h2, h3⟩ := RowRange.fromMinimal_valid hwf hr
  have hb3 : rr.start ≤ rr.focus.row.length ∧ rr.stop ≤ rr.focus.row.length :=
    (RowRange.fromMinimal_sound h1).2.1
  obtain ⟨root', hroot, -⟩ := replace_ok (cfg := env.cfg) values hwf h3.rowAt_eq rr.left_le_right
    (RowRange.right_le hb3)
  have heq : ed.spliceAtRange env range values = (do
      let a ← ed.caret.start.applyEdits env.cfg
        [deleteEdit range.rowIndices rr.focus.row rr.leftOffset rr.rightOffset,
        .row ⟨.insert, ⟨range.rowIndices, rr.leftOffset⟩, values⟩]
      let b ← ed.caret.stop.applyEdits env.cfg
        [deleteEdit range.rowIndices rr.focus.row rr.leftOffset rr.rightOffset,
        .row ⟨.insert, ⟨range.rowIndices, rr.leftOffset⟩, values⟩]
      let (ed', _) ← ed.finish env
        [deleteEdit range.rowIndices rr.focus.row rr.leftOffset rr.rightOffset,
        .row ⟨.insert, ⟨range.rowIndices, rr.leftOffset⟩, values⟩] ⟨a, b⟩
      .ok { ed' with caret := ed.caret }) := by
    unfold Editor.spliceAtRange
    rw [h1]
    simp only [M.ok_bind, replaceRange_eq h3 hb3 values]
  have fin : ∀ a b, (∃ a', ed.caret.start.applyEdits env.cfg
        [deleteEdit range.rowIndices rr.focus.row rr.leftOffset rr.rightOffset,
        .row ⟨.insert, ⟨range.rowIndices, rr.leftOffset⟩, values⟩] = .ok a' ∧ a' = a) →
      (∃ b', ed.caret.stop.applyEdits env.cfg
        [deleteEdit range.rowIndices rr.focus.row rr.leftOffset rr.rightOffset,
        .row ⟨.insert, ⟨range.rowIndices, rr.leftOffset⟩, values⟩] = .ok b' ∧ b' = b) →
      ¬ ∃ x, ed.spliceAtRange env range values = .error x := by
    rintro a b ⟨a', ha, -⟩ ⟨b', hb, -⟩ ⟨x, hx⟩
    rw [heq] at hx
    simp only [ha, hb, M.ok_bind, Editor.finish, List.isEmpty_cons, Bool.false_eq_true, if_false,
      hroot] at hx
    cases hx
  by_cases hq : range.rowIndices = []
  · by_cases hin : CaretInElement ed.caret
    · refine ⟨fun _ => ⟨hq, hin⟩, fun _ => ?_⟩
      rw [heq, hq]
      cases ha : ed.caret.start.applyEdits env.cfg
        [deleteEdit [] rr.focus.row rr.leftOffset rr.rightOffset,
        .row ⟨.insert, ⟨[], rr.leftOffset⟩, values⟩] with
      | error x => exact ⟨x, rfl⟩
      | ok a =>
        cases hb : ed.caret.stop.applyEdits env.cfg
          [deleteEdit [] rr.focus.row rr.leftOffset rr.rightOffset,
          .row ⟨.insert, ⟨[], rr.leftOffset⟩, values⟩] with
        | error x => exact ⟨x, rfl⟩
        | ok b =>
          rcases hin with h | h
          · obtain ⟨x, hx⟩ := MinPos.track_root_error (cfg := env.cfg) _ h (fun h => (hlen h).1)
              .delete rr.leftOffset ((rr.focus.row.take rr.rightOffset).drop rr.leftOffset)
              [.row ⟨.insert, ⟨[], rr.leftOffset⟩, values⟩]
            rw [deleteEdit, hx] at ha; cases ha
          · obtain ⟨x, hx⟩ := MinPos.track_root_error (cfg := env.cfg) _ h (fun h => (hlen h).2)
              .delete rr.leftOffset ((rr.focus.row.take rr.rightOffset).drop rr.leftOffset)
              [.row ⟨.insert, ⟨[], rr.leftOffset⟩, values⟩]
            rw [deleteEdit, hx] at hb; cases hb
    · refine ⟨fun h => ?_, fun h => absurd h.2 hin⟩
      unfold CaretInElement at hin
      have hs : ed.caret.start.rowIndices = [] := by
        by_contra h; exact hin (Or.inl h)
      have ht : ed.caret.stop.rowIndices = [] := by
        by_contra h; exact hin (Or.inr h)
      obtain ⟨ed', hok⟩ := splice_ok (env := env) hwf hr (Or.inl (hs.trans hq.symm))
        (Or.inl (ht.trans hq.symm)) values
      obtain ⟨x, hx⟩ := h
      rw [hok] at hx; cases hx
  · refine ⟨fun h => ?_, fun h => absurd h.1 hq⟩
    obtain ⟨a, ha⟩ := MinPos.track_nested_ok (cfg := env.cfg) hq ed.caret.start .delete .insert
      rr.leftOffset rr.leftOffset ((rr.focus.row.take rr.rightOffset).drop rr.leftOffset) values
    obtain ⟨b, hb⟩ := MinPos.track_nested_ok (cfg := env.cfg) hq ed.caret.stop .delete .insert
      rr.leftOffset rr.leftOffset ((rr.focus.row.take rr.rightOffset).drop rr.leftOffset) values
    exact absurd h (fin a b ⟨a, ha, rfl⟩ ⟨b, hb, rfl⟩)

/-! ## Edits that keep the caret in the token -/

/-- After the edits the position `p` is in the range that the token has become. -/
def StillIn (cfg : Cfg) (root : Row) (r : MinRange) (edits : List BasicEdit) (p : MinPos) : Prop :=
  ∃ root' r2, applyEdits cfg root edits = .ok root' ∧ rowWf root' = true ∧
    r.applyEdits cfg edits = .ok r2 ∧ ValidRange root' r2 ∧ r2.rowIndices = p.rowIndices ∧
    r2.lo ≤ p.offset ∧ p.offset ≤ r2.hi

theorem StillIn.finish {e : Editor T} {ac : AutocorrectAction} {edits : List BasicEdit}
    {p : MinPos} (h : StillIn env.cfg e.input ac.caretRange edits p) :
    e.finishAndAutocorrect env (some ac) edits ⟨p, p⟩ =
      e.finishAndAutocorrect env none edits ⟨p, p⟩ := by
  obtain ⟨root', r2, h1, hwf', h2, hvr, hq, hlo, hhi⟩ := h
  have hvp : ValidPos root' p := by
    obtain ⟨row, g1, g2, g3⟩ := hvr
    refine ⟨row, by rw [← hq]; exact g1, ?_⟩
    have : r2.hi ≤ row.length := Nat.max_le.2 ⟨g2, g3⟩
    omega
  obtain ⟨pp, -, hin, hpp, -⟩ := Position.fromMinimal_valid hwf' hvp
  have hcol := collapsed_of_minimal hwf' hin
  rw [hpp, MinCaret.at] at hcol
  obtain ⟨rr, w1, w2, w3⟩ := RowRange.fromMinimal_valid hwf' hvr
  have hcont : rr.contains pp = true := by
    obtain ⟨pq, po⟩ := p
    simp only at hq hlo hhi
    rw [contains_iff w3, hpp, hq, MinPos.le_same, MinPos.le_same, rr.leftOffset_min,
      rr.rightOffset_max]
    have e1 : rr.start = r2.start := by rw [← w2]; rfl
    have e2 : rr.stop = r2.stop := by rw [← w2]; rfl
    rw [e1, e2]
    exact ⟨hlo, hhi⟩
  have hst : (RowRange.ofPosition pp).startPosition = pp := rfl
  cases edits with
  | nil =>
    cases h1
    cases h2
    simp only [Editor.finishAndAutocorrect, Editor.finish, List.isEmpty_nil, if_true, M.ok_bind,
      autocorrectFinish, MinRange.applyEdits, Editor.applyAutocorrect, hcol, Caret.collapsed, w1,
      hst, hcont]
  | cons x xs =>
    simp only [Editor.finishAndAutocorrect, Editor.finish, List.isEmpty_cons, Bool.false_eq_true,
      if_false, h1, M.ok_bind, autocorrectFinish, h2, Editor.applyAutocorrect, hcol,
      Caret.collapsed, w1, hst, hcont, if_true]

theorem StillIn.delete {cfg : Cfg} {root row : Row} {q : RowIndices} {o k l h : Nat}
    (hwf : rowWf root = true) (hrow : rowAt root q = some row) (ho : o ≤ row.length)
    (hl : o - k ≤ l) (hlo : l ≤ o) (hlh : l ≤ h) (hh : h ≤ row.length) :
    StillIn cfg root ⟨q, o, o - k⟩ [deleteEdit q row l h] ⟨q, l⟩ := by
  obtain ⟨root', h1, h2⟩ := delete_ok (cfg := cfg) hwf hrow hlh hh
  obtain ⟨r1, u1, u2, -, -, u3, u4⟩ := track_delete_same (cfg := cfg) ⟨q, o, o - k⟩ l
    ((row.take h).drop l)
  have hvs : ((row.take h).drop l).length = h - l := by
    rw [List.length_drop, List.length_take]; omega
  rw [hvs] at u3 u4
  have c1 : MinRange.lo ⟨q, o, o - k⟩ = o - k := Nat.min_eq_right (Nat.sub_le _ _)
  have c2 : MinRange.hi ⟨q, o, o - k⟩ = o := Nat.max_eq_left (Nat.sub_le _ _)
  rw [c1, if_neg (by omega)] at u3
  rw [c2] at u4
  have hhi : l ≤ r1.hi ∧ r1.hi ≤ row.length - (h - l) := by
    rw [u4]; split <;> omega
  have hlen : (row.take l ++ row.drop h).length = row.length - (h - l) := by
    rw [List.length_append, List.length_take, List.length_drop]; omega
  have hw := rowAt_wf hwf hrow
  refine ⟨root', r1, by simp only [applyEdits, h1, M.ok_bind], ?_, ?_, ?_, u2, ?_, hhi.1⟩
  · refine h2.wf hwf ?_
    rw [rowWf_append, rowWf_take hw, rowWf_drop hw]; rfl
  · simp only [MinRange.applyEdits, deleteEdit, u1, M.ok_bind]
  · refine ⟨_, by rw [u2]; exact h2.rowAt_new, ?_, ?_⟩
    · rw [hlen]; exact Nat.le_trans (Nat.le_max_left _ _) hhi.2
    · rw [hlen]; exact Nat.le_trans (Nat.le_max_right _ _) hhi.2
  · rw [u3]; exact hl

theorem StillIn.replace {cfg : Cfg} {root row : Row} {q : RowIndices} {o k h j : Nat}
    {vs : List Node} (hwf : rowWf root = true) (hrow : rowAt root q = some row)
    (hoh : o ≤ h) (hh : h ≤ row.length) (hv : rowWf vs = true) (hj : j ≤ vs.length) :
    StillIn cfg root ⟨q, o, o - k⟩ [deleteEdit q row o h, .row ⟨.insert, ⟨q, o⟩, vs⟩]
      ⟨q, o + j⟩ := by
  obtain ⟨root', h1, h2⟩ := replace_ok (cfg := cfg) vs hwf hrow hoh hh
  obtain ⟨r1, u1, u2, -, -, u3, u4⟩ := track_delete_same (cfg := cfg) ⟨q, o, o - k⟩ o
    ((row.take h).drop o)
  obtain ⟨r2, v1, v2, -, v3, v4⟩ := track_insert_same (cfg := cfg) r1 o vs
  have c1 : MinRange.lo ⟨q, o, o - k⟩ = o - k := Nat.min_eq_right (Nat.sub_le _ _)
  have c2 : MinRange.hi ⟨q, o, o - k⟩ = o := Nat.max_eq_left (Nat.sub_le _ _)
  rw [c1, if_neg (by omega)] at u3
  rw [c2, if_neg (by omega)] at u4
  rw [u3, if_neg (by omega)] at v3
  rw [u4, if_pos (Nat.le_refl _)] at v4
  have u2' : r1.rowIndices = q := u2
  rw [u2'] at v1 v2
  have hlen : (row.take o ++ vs ++ row.drop h).length = row.length - (h - o) + vs.length := by
    simp only [List.length_append, List.length_take, List.length_drop]; omega
  have hw := rowAt_wf hwf hrow
  have hhi : r2.hi ≤ row.length - (h - o) + vs.length := by rw [v4]; omega
  refine ⟨root', r2, h1, ?_, ?_, ?_, v2, ?_, ?_⟩
  · refine h2.wf hwf ?_
    rw [rowWf_append, rowWf_append, rowWf_take hw, rowWf_drop hw, hv]; rfl
  · simp only [MinRange.applyEdits, deleteEdit, u1, M.ok_bind, v1]
  · refine ⟨_, by rw [v2]; exact h2.rowAt_new, ?_, ?_⟩
    · rw [hlen]; exact Nat.le_trans (Nat.le_max_left _ _) hhi
    · rw [hlen]; exact Nat.le_trans (Nat.le_max_right _ _) hhi
  · rw [v3]; show o - k ≤ o + j; omega
  · rw [v4]; show o + j ≤ o + vs.length; omega

end Aftermath
