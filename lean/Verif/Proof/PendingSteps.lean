import Verif.Proof.Pending

/-! # The calls while a completed token is left of the caret -/

namespace Aftermath

variable {T : Type} {env : Env T}

/-- What a call can do with the caret behind a token of `k` symbols at offset `o` of row `q`. -/
inductive CoreCase (cfg : Cfg) (root : Row) (q : RowIndices) (o k : Nat) :
    Option (List BasicEdit × MinCaret) → Prop
  | stop : CoreCase cfg root q o k none
  | still (m : MinCaret) : CoreCase cfg root q o k (some ([], m))
  | near {edits : List BasicEdit} {p : MinPos} (hp : p.rowIndices = q) (hne : edits ≠ [])
      (h : StillIn cfg root ⟨q, o, o - k⟩ edits p) : CoreCase cfg root q o k (some (edits, ⟨p, p⟩))
  | far {p : RowIndices} {i j n : Nat} {row : Row} {v : Variant} {cells : List Row} {w : Nat}
      (hq : q = p ++ [(i, j)]) (hrow : rowAt root p = some row)
      (hi : row[i]? = some (.container v cells w)) (hn : n ≤ cells.flatten.length) :
      CoreCase cfg root q o k (some ([deleteEdit p row i (i + 1),
        .row ⟨.insert, ⟨p, i⟩, cells.flatten⟩], ⟨⟨p, i + n⟩, ⟨p, i + n⟩⟩))

section
variable {cfg : Cfg} {root row : Row} {q : RowIndices} {o : Nat} {syms : List Str}

theorem caret_at (hwf : rowWf root = true) (hrow : rowAt root q = some row) (ho : o ≤ row.length) :
    ∃ f, IsFocus root q f ∧ f.row = row ∧
      Caret.fromMinimal root (.at ⟨q, o⟩) = .ok (Caret.collapsed ⟨f, o⟩) := by
  obtain ⟨pp, -, hin, hpp, hf⟩ := Position.fromMinimal_valid hwf (m := ⟨q, o⟩) ⟨row, hrow, ho⟩
  have hcol := collapsed_of_minimal hwf hin
  rw [hpp] at hcol
  obtain ⟨f, x⟩ := pp
  have hx : x = o := congrArg MinPos.offset hpp
  subst hx
  refine ⟨f, hf, ?_, hcol⟩
  have := hf.rowAt_eq
  simp only at this
  rw [hrow] at this
  exact (Option.some.inj this).symm

theorem insertCore_case (hwf : rowWf root = true) (hrow : rowAt root q = some row)
    (ho : o ≤ row.length) {vs : List Node} (hv : rowWf vs = true)
    {x : Option (List BasicEdit × MinCaret)}
    (h : insertCore root (.at ⟨q, o⟩) vs = .ok x) (k : Nat) : CoreCase cfg root q o k x := by
  obtain ⟨f, hf, rfl, hc⟩ := caret_at hwf hrow ho
  unfold insertCore at h
  have hi := insertAtRange_eq (r := RowRange.ofPosition ⟨f, o⟩) hf ⟨ho, ho⟩ vs
  have hl : (RowRange.ofPosition ⟨f, o⟩).leftOffset = o := by
    simp [RowRange.leftOffset, RowRange.isForwards, RowRange.ofPosition]
  have hr : (RowRange.ofPosition ⟨f, o⟩).rightOffset = o := by
    simp [RowRange.rightOffset, RowRange.isForwards, RowRange.ofPosition]
  have hfr : (RowRange.ofPosition ⟨f, o⟩).focus.row = f.row := rfl
  rw [hl, hr, hfr] at hi
  simp only [hc, M.ok_bind, Caret.collapsed, hi] at h
  cases h
  exact .near rfl (by simp) (.replace hwf hrow (Nat.le_refl _) ho hv (Nat.le_refl _))

theorem core_case (hwf : rowWf root = true) (hrow : rowAt root q = some row)
    (hs : SymbolsLeftOf row o syms) (hne : syms ≠ []) {op : Op}
    (hgood : op.GoodNodes cfg)
    (hfit : cfg.checks = false → rowFits cfg.bits root = true)
    {x : Option (List BasicEdit × MinCaret)}
    (h : op.core cfg root (.at ⟨q, o⟩) = .ok x) : CoreCase cfg root q o syms.length x := by
  obtain ⟨ho, before, hb⟩ := hs
  obtain ⟨f, hf, rfl, hc⟩ := caret_at hwf hrow ho
  cases op with
  | moveCaret d mode =>
    simp only [Op.core, hc, M.ok_bind] at h
    obtain ⟨c, -, h1⟩ := M.bind_eq_ok.1 h
    cases h1
    exact .still _
  | selectWithCaret d mode =>
    simp only [Op.core, hc, M.ok_bind, Caret.collapsed] at h
    obtain ⟨y, -, h1⟩ := M.bind_eq_ok.1 h
    cases y with
    | none => cases h1; exact .stop
    | some p => cases h1; exact .still _
  | insertAtCaret vs =>
    refine insertCore_case hwf hrow ho (vs := vs.map Node.symbol) ?_ h _
    rw [rowWf_iff]
    intro n hn
    obtain ⟨s, -, rfl⟩ := List.mem_map.1 hn
    rfl
  | startSelection p mode => cases h; exact .still _
  | extendSelection p => cases h; exact .still _
  | paste data known =>
    simp only [Op.core] at h
    cases known with
    | false => cases h
    | true =>
      simp only [if_true] at h
      cases hd : deserializeNodes cfg data with
      | none => rw [hd] at h; cases h; exact .stop
      | some nodes =>
        rw [hd] at h
        exact insertCore_case hwf hrow ho (hgood nodes hd) h _
  | removeAtCaret mode =>
    simp only [Op.core, hc, M.ok_bind, Caret.collapsed] at h
    obtain ⟨y, h1, h2⟩ := M.bind_eq_ok.1 h
    have hx : x = y.map (fun ep => (ep.1, ⟨ep.2, ep.2⟩)) := by
      cases y with
      | none => cases h2; rfl
      | some ep => cases h2; rfl
    subst hx
    clear h h2
    have hcol : (RowRange.ofPosition ⟨f, o⟩).isCollapsed = true := by
      simp [RowRange.ofPosition, RowRange.isCollapsed]
    have hpos : 0 < syms.length := List.length_pos_of_ne_nil hne
    have hlen : before.length + syms.length = o := by
      have := congrArg List.length hb
      rw [List.length_take, List.length_append, List.length_map] at this
      omega
    unfold removeAtCaret at h1
    rw [hcol] at h1
    simp only [Bool.not_true, Bool.false_eq_true, if_false] at h1
    cases mode with
    | range =>
      simp only at h1
      have e := removeRange_eq (r := RowRange.ofPosition ⟨f, o⟩) hf ⟨ho, ho⟩
      have hl : (RowRange.ofPosition ⟨f, o⟩).leftOffset = o := by
        simp [RowRange.leftOffset, RowRange.isForwards, RowRange.ofPosition]
      have hr : (RowRange.ofPosition ⟨f, o⟩).rightOffset = o := by
        simp [RowRange.rightOffset, RowRange.isForwards, RowRange.ofPosition]
      have hfr : (RowRange.ofPosition ⟨f, o⟩).focus.row = f.row := rfl
      rw [hl, hr, hfr] at e
      rw [e] at h1
      cases h1
      exact .near rfl (by simp) (.delete hwf hrow ho (Nat.sub_le _ _) (Nat.le_refl _)
        (Nat.le_refl _) ho)
    | left =>
      simp only at h1
      cases o with
      | zero => omega
      | succ o =>
        have hk : ∃ s, f.row[o]? = some (.symbol s) := by
          cases syms using List.reverseRecOn with
          | nil => exact absurd rfl hne
          | append_singleton init last =>
            refine ⟨last, ?_⟩
            have : (f.row.take (o + 1))[o]? = some (.symbol last) := by
              rw [hb, List.map_append, ← List.append_assoc]
              have hl : (before ++ init.map Node.symbol).length = o := by
                rw [List.length_append, List.length_map]
                rw [List.length_append, List.length_singleton] at hlen
                omega
              rw [List.getElem?_append_right (by omega), hl, Nat.sub_self]
              rfl
            rw [List.getElem?_take] at this
            rw [if_pos (Nat.lt_succ_self _)] at this
            exact this
        obtain ⟨s, hk⟩ := hk
        have e := removeRange_eq (r := ⟨f, o, o + 1⟩) hf ⟨Nat.le_of_lt ho, ho⟩
        have hl : RowRange.leftOffset ⟨f, o, o + 1⟩ = o := by
          simp [RowRange.leftOffset, RowRange.isForwards]
        have hr : RowRange.rightOffset ⟨f, o, o + 1⟩ = o + 1 := by
          simp [RowRange.rightOffset, RowRange.isForwards]
        rw [hl, hr] at e
        have hsp : (RowRange.ofPosition ⟨f, o + 1⟩).startPosition = ⟨f, o + 1⟩ := rfl
        rw [hsp] at h1
        simp only [removeAtCaretPosition, offsetToIndex_left, Option.bind_some, FocusRow.nodeAt,
          hk, Option.map_some, RowRange.new_ok (Nat.le_of_lt ho) ho, M.ok_bind, e] at h1
        cases h1
        exact .near rfl (by simp) (.delete hwf hrow ho (by omega) (Nat.le_succ _)
          (Nat.le_succ _) ho)
    | right =>
      have hsp : (RowRange.ofPosition ⟨f, o⟩).startPosition = ⟨f, o⟩ := rfl
      simp only [hsp] at h1
      rcases removeAtCaretPosition_cases hwf cfg hfit hf ho .right with
        ⟨-, -, h2⟩ | ⟨-, z, h2, h3⟩
      · rw [h2] at h1; cases h1
      · rw [h2] at h1
        cases h1
        cases h3 with
        | nothing h => exact .stop
        | moved h => exact .still _
        | symbol hrow' hk hs' =>
          rw [hrow] at hrow'
          cases hrow'
          simp only at hk
          subst hk
          have hlt := (List.getElem?_eq_some_iff.1 hs').1
          exact .near rfl (by simp) (.delete hwf hrow ho (Nat.sub_le _ _) (Nat.le_refl _)
            (Nat.le_succ _) hlt)
        | @flatten p row i k v cells w hrow' hi hk hp =>
          rcases hp with ⟨j, hq⟩ | ⟨rfl, rfl, -, -⟩
          · exact .far hq hrow' hi hk
          · rw [hrow] at hrow'
            cases hrow'
            have hlt := (List.getElem?_eq_some_iff.1 hi).1
            refine .near rfl (by simp) (.replace hwf hrow (Nat.le_succ _) hlt ?_ hk)
            rw [rowWf_iff]
            intro n hn
            obtain ⟨c, hc, hnc⟩ := List.mem_flatten.1 hn
            exact rowWf_iff.1 ((wf_container.1 (hf.node_wf hwf hi)).2 c hc) n hnc
  | _ => cases h; exact .stop

end

/-! ## Deleting the element around the token -/

theorem far_root {e : Editor T} {ac : AutocorrectAction} {row : Row} {i j n o s : Nat} {v : Variant}
    {cells : List Row} {w : Nat} (hwf : rowWf e.input = true) (hrow : rowAt e.input [] = some row)
    (hi : row[i]? = some (.container v cells w)) (hac : ac.caretRange = ⟨[(i, j)], o, s⟩)
    (hlen : env.cfg.checks = false → 1 < 2 ^ env.cfg.bits) :
    e.finishAndAutocorrect env (some ac) [deleteEdit [] row i (i + 1),
        .row ⟨.insert, ⟨[], i⟩, cells.flatten⟩] ⟨⟨[], i + n⟩, ⟨[], i + n⟩⟩ =
      .error (if env.cfg.checks then .overflow else .unwrapNone) := by
  have hlt := (List.getElem?_eq_some_iff.1 hi).1
  obtain ⟨root', h1, h2⟩ := replace_ok (cfg := env.cfg) cells.flatten hwf hrow
    (Nat.le_succ i) hlt
  have h3 := C29_root_panics env.cfg ac.caretRange .delete i ((row.take (i + 1)).drop i)
    (by rw [hac]; simp) (by rw [hac]; exact hlen)
  simp only [Nat.succ_eq_add_one] at h1
  simp only [Editor.finishAndAutocorrect, Editor.finish, List.isEmpty_cons, Bool.false_eq_true,
    if_false, h1, M.ok_bind, autocorrectFinish, MinRange.applyEdits]
  simp only [deleteEdit, h3, M.error_bind]

theorem far_still {cfg : Cfg} {root row : Row} {p0 : RowIndices} {i b j n o s : Nat} {v : Variant}
    {cells : List Row} {w : Nat} (hwf : rowWf root = true)
    (hrow : rowAt root (p0 ++ [(i, b)]) = some row)
    (hi : row[i]? = some (.container v cells w)) (hn : n ≤ cells.flatten.length) :
    StillIn cfg root ⟨p0 ++ [(i, b)] ++ [(i, j)], o, s⟩ [deleteEdit (p0 ++ [(i, b)]) row i (i + 1),
      .row ⟨.insert, ⟨p0 ++ [(i, b)], i⟩, cells.flatten⟩] ⟨p0 ++ [(i, b)], i + n⟩ := by
  have hlt := (List.getElem?_eq_some_iff.1 hi).1
  obtain ⟨root', h1, h2⟩ := replace_ok (cfg := cfg) cells.flatten hwf hrow (Nat.le_succ i) hlt
  simp only [Nat.succ_eq_add_one] at h1 h2
  have hvs : ((row.take (i + 1)).drop i).length = 1 := by
    rw [List.length_drop, List.length_take]; omega
  have h3 := (C29_delete_partial cfg p0 i b i j [] o s i (vs := (row.take (i + 1)).drop i)
    (by intro h; rw [h] at hvs; cases hvs)).2
    (Or.inr ⟨Nat.le_refl _, by omega, Nat.le_refl _, by omega⟩)
  have h4 : shiftedByDelete (p0 ++ [(i, b)]) i j [] o s i ((row.take (i + 1)).drop i).length =
      ⟨p0 ++ [(i, b)], i, i⟩ := by
    unfold shiftedByDelete
    rw [if_pos ⟨Nat.le_refl _, by omega⟩]
  rw [h4] at h3
  obtain ⟨r2, v1, v2, -, v3, v4⟩ := track_insert_same (cfg := cfg) ⟨p0 ++ [(i, b)], i, i⟩ i
    cells.flatten
  have c1 : MinRange.lo ⟨p0 ++ [(i, b)], i, i⟩ = i := Nat.min_self _
  have c2 : MinRange.hi ⟨p0 ++ [(i, b)], i, i⟩ = i := Nat.max_self _
  rw [c1, if_neg (Nat.lt_irrefl _)] at v3
  rw [c2, if_pos (Nat.le_refl _)] at v4
  have hw := rowAt_wf hwf hrow
  have hcells : rowWf cells.flatten = true := by
    rw [rowWf_iff]
    intro n hn
    obtain ⟨c, hc, hnc⟩ := List.mem_flatten.1 hn
    have hnode : (Node.container v cells w).wf = true :=
      rowWf_iff.1 hw _ (List.mem_of_getElem? hi)
    exact rowWf_iff.1 ((wf_container.1 hnode).2 c hc) n hnc
  have hlen : (row.take i ++ cells.flatten ++ row.drop (i + 1)).length =
      row.length - 1 + cells.flatten.length := by
    simp only [List.length_append, List.length_take, List.length_drop]; omega
  have hhi : r2.hi ≤ row.length - 1 + cells.flatten.length := by rw [v4]; omega
  refine ⟨root', r2, h1, ?_, ?_, ?_, v2, ?_, ?_⟩
  · refine h2.wf hwf ?_
    rw [rowWf_append, rowWf_append, rowWf_take hw, rowWf_drop hw, hcells]; rfl
  · simp only [MinRange.applyEdits, deleteEdit]
    rw [h3]
    simp only [M.ok_bind, v1]
  · refine ⟨_, by rw [v2]; exact h2.rowAt_new, ?_, ?_⟩
    · rw [hlen]; exact Nat.le_trans (Nat.le_max_left _ _) hhi
    · rw [hlen]; exact Nat.le_trans (Nat.le_max_right _ _) hhi
  · rw [v3]; exact Nat.le_add_right _ _
  · rw [v4]; show i + n ≤ i + cells.flatten.length; omega

/-! ## The whole call -/

theorem splice_forget (ed : Editor T) (x y : Option AutocompleteRule) (r : MinRange)
    (vs : List Node) :
    outcome (({ ed with currentAutocomplete := x }).spliceAtRange env r vs) =
    outcome (({ ed with currentAutocomplete := y }).spliceAtRange env r vs) := by
  unfold Editor.spliceAtRange
  cases RowRange.fromMinimal (FocusRow.fromRoot ed.input) r with
  | error p => rfl
  | ok rr =>
    simp only [M.ok_bind]
    cases replaceRange rr vs with
    | error p => rfl
    | ok z =>
      obtain ⟨edits, m⟩ := z
      simp only [M.ok_bind]
      cases ed.caret.start.applyEdits env.cfg edits with
      | error p => rfl
      | ok a =>
        simp only [M.ok_bind]
        cases ed.caret.stop.applyEdits env.cfg edits with
        | error p => rfl
        | ok b =>
          simp only [M.ok_bind, Editor.finish]
          cases edits with
          | nil => rfl
          | cons ed1 es =>
            simp only [List.isEmpty_cons, Bool.false_eq_true, if_false]
            cases applyEdits env.cfg ed.input (ed1 :: es) <;> rfl

theorem outcome_ok {x : M (Editor T)} {e : Editor T} (h : outcome x = .ok e) :
    ∃ ed, x = .ok ed ∧ ed.forget = e := by
  cases x with
  | error p => cases h
  | ok ed => exact ⟨ed, rfl, Except.ok.inj h⟩

theorem outcome_error {x : M (Editor T)} {p : Panic} : outcome x = .error p ↔ x = .error p := by
  cases x with
  | error p' => exact ⟨fun h => (by cases h; rfl), fun h => (by cases h; rfl)⟩
  | ok ed => exact ⟨fun h => (by cases h), fun h => (by cases h)⟩

theorem forget_eq {a b : Editor T} (h : a.forget = b.forget) :
    a = { b with currentAutocomplete := a.currentAutocomplete } := by
  obtain ⟨a1, a2, a3, a4, a5, a6⟩ := a
  obtain ⟨b1, b2, b3, b4, b5, b6⟩ := b
  simp only [Editor.forget, Editor.mk.injEq, true_and] at h
  obtain ⟨rfl, rfl, rfl, rfl, rfl⟩ := h
  rfl

/-- The end of a call without a pending autocorrection. -/
theorem conclude_none {e ed0 : Editor T} {edits : List BasicEdit} {m : MinCaret}
    (h : e.conclude env none (some (edits, m)) = .ok ed0) : ed0.caret = m ∧
      (edits = [] → ed0 = { e with caret := m }) ∧ (edits ≠ [] → ed0.undo ≠ e.undo) := by
  simp only [Editor.conclude, Editor.finishAndAutocorrect, Editor.finish] at h
  cases edits with
  | nil =>
    simp only [List.isEmpty_nil, if_true, M.ok_bind, autocorrectFinish,
      Editor.applyAutocorrect] at h
    cases h
    exact ⟨rfl, fun _ => rfl, fun h => absurd rfl h⟩
  | cons x xs =>
    simp only [List.isEmpty_cons, Bool.false_eq_true, if_false] at h
    cases ha : applyEdits env.cfg e.input (x :: xs) with
    | error p => rw [ha] at h; cases h
    | ok root' =>
      rw [ha] at h
      simp only [M.ok_bind, autocorrectFinish, Editor.applyAutocorrect] at h
      cases h
      refine ⟨rfl, fun h => (by cases h), fun _ h => ?_⟩
      have := congrArg (fun u => u.undoStack.length) h
      simp [UndoRedo.push] at this

/-- Every call that comes to autocorrection, with a completed token left of the caret, compared
with the same call in an editor without rules. -/
theorem pending_step {ed ed0 : Editor T} {rule : AutocompleteRule} {q : RowIndices} {o : Nat}
    {row : Row} {syms : List Str} {op : Op} (hwf : rowWf ed.input = true)
    (h : CompletedToken env ed rule q o row syms) (hop : op.Corrects)
    (hgood : op.GoodNodes env.cfg)
    (hfit : env.cfg.checks = false → rowFits env.cfg.bits ed.input = true)
    (h0 : ed.step env.plain op = .ok ed0) :
    (ed0.undo = ed.undo ∧ ed0.input = ed.input ∧ ∀ sel, selectionOf ed.input ed0.caret = .ok sel →
      (Stays q o syms.length sel → outcome (ed.step env op) = .ok ed0.forget) ∧
      (¬ Stays q o syms.length sel →
        (syms.length < o - syms.length → ed.step env op = .error .outOfRange) ∧
        (o - syms.length < syms.length → outcome (ed.step env op) = .ok ed0.forget) ∧
        (o - syms.length = syms.length → outcome (ed.step env op) =
          outcome (ed0.spliceAtRange env ⟨q, o, o - syms.length⟩ rule.result)))) ∨
    (ed0.undo ≠ ed.undo ∧ ∃ p, ed0.caret = .at p ∧
      ((p.rowIndices = q ∧ outcome (ed.step env op) = .ok ed0.forget) ∨
       ∃ i j, q = p.rowIndices ++ [(i, j)] ∧
        (p.rowIndices = [] → (env.cfg.checks = false → 1 < 2 ^ env.cfg.bits) →
          ed.step env op = .error (if env.cfg.checks then .overflow else .unwrapNone)) ∧
        (∀ p0 b, p.rowIndices = p0 ++ [(i, b)] → outcome (ed.step env op) = .ok ed0.forget))) := by
  obtain ⟨hsp, hne, e1, hq1, hqc1, hs1⟩ := startAutocorrect_of_token hwf h ed.selectionMode
  obtain ⟨-, -, -, -, -, -, -, -, hcaret, hrow, hleft, hasc⟩ := h
  obtain ⟨e, hs, hstep, hplain⟩ := step_plain hop hs1
  obtain ⟨⟨z, hz⟩, -⟩ := startAutocorrect_plain hs
  have hei : e.input = ed.input := by rw [hz]; cases op <;> rfl
  have heu : e.undo = ed.undo := by rw [hz]; cases op <;> rfl
  have hec : e.caret = ed.caret := by rw [hz]; cases op <;> rfl
  rw [h0] at hplain
  cases hcore : op.core env.cfg ed.input ed.caret with
  | error p => rw [hcore] at hplain; cases hplain
  | ok x =>
    rw [hcore] at hplain hstep
    simp only [M.ok_bind] at hplain hstep
    obtain ⟨ed1, hed1, hfg⟩ := outcome_ok hplain.symm
    have heq : ed1 = { ed0 with currentAutocomplete := ed1.currentAutocomplete } := forget_eq hfg
    have hed1i : ed0.input = ed1.input := by rw [heq]
    have hed1c : ed0.caret = ed1.caret := by rw [heq]
    have hed1u : ed0.undo = ed1.undo := by rw [heq]
    have same : ed.step env op = .ok ed1 → outcome (ed.step env op) = .ok ed0.forget := by
      intro h
      rw [h, ← hfg]; rfl
    rw [hcaret] at hcore
    have hcase := core_case hwf hrow hleft hne hgood hfit hcore
    have hwf' := hwf
    have hrow' := hrow
    rw [← hei] at hwf' hrow'
    cases hcase with
    | stop =>
      have hed1' : ed1 = e := (Except.ok.inj hed1).symm
      subst hed1'
      left
      refine ⟨hed1u.trans heu, hed1i.trans hei, fun sel hsel => ?_⟩
      have hall := same hstep
      refine ⟨fun _ => hall, fun hst => ?_⟩
      exfalso
      apply hst
      rw [hed1c, hec, hcaret, selectionOf_at hwf ⟨row, hrow, hleft.1⟩] at hsel
      cases hsel
      simp only [Stays, OutsideToken]
      rw [not_not, MinPos.le_same, MinPos.le_same]
      exact ⟨Nat.sub_le _ _, Nat.le_refl _⟩
    | still m =>
      obtain ⟨c1, c2, -⟩ := conclude_none hed1
      have c2 := c2 rfl
      left
      rw [hed1u, hed1i, hed1c, c1]
      refine ⟨by rw [c2]; exact heu, by rw [c2]; exact hei, fun sel hsel => ?_⟩
      rw [← hei] at hsel
      obtain ⟨f1, f2⟩ := finish_pending (env := env) hwf' hrow' hleft hasc hsp hne hsel
      refine ⟨fun hst => ?_, fun hst => ⟨fun hk => ?_, fun hk => ?_, fun hk => ?_⟩⟩
      · apply same; rw [hstep, c2]; exact f1 hst
      · rw [hstep]; exact (f2 hst).1 hk
      · apply same; rw [hstep, c2]; exact (f2 hst).2.1 hk
      · rw [hstep]
        have := (f2 hst).2.2 hk
        simp only [Editor.conclude]
        rw [this, ← c2]
        rw [heq]
        exact splice_forget ed0 ed1.currentAutocomplete ed0.currentAutocomplete _ _
    | @near edits p hp hne' hst =>
      obtain ⟨c1, -, c3⟩ := conclude_none hed1
      right
      refine ⟨by rw [hed1u, ← heu]; exact c3 hne', p, by rw [hed1c, c1]; rfl, Or.inl ⟨hp, ?_⟩⟩
      apply same
      rw [hstep, ← hed1]
      rw [← hei] at hst
      exact StillIn.finish (ac := ⟨rule, ⟨q, o, o - syms.length⟩⟩) hst
    | @far p i j n rw' v cells w hq hrow2 hi hn =>
      obtain ⟨c1, -, c3⟩ := conclude_none hed1
      right
      rw [← hei] at hrow2
      refine ⟨by rw [hed1u, ← heu]; exact c3 (by simp), ⟨p, i + n⟩, by rw [hed1c, c1]; rfl,
        Or.inr ⟨i, j, hq, fun hp hb => ?_, fun p0 b hp => ?_⟩⟩
      · simp only at hp
        subst hp
        rw [hstep]
        exact far_root hwf' hrow2 hi (by rw [hq]; rfl) hb
      · simp only at hp
        subst hp
        apply same
        rw [hstep, ← hed1]
        refine StillIn.finish (ac := ⟨rule, ⟨q, o, o - syms.length⟩⟩) ?_
        rw [hq]
        exact far_still hwf' hrow2 hi hn

/-- A call that panics without rules panics with them. -/
theorem pending_panic {ed e : Editor T} {ac : Option AutocorrectAction} {op : Op}
    (hop : op.Corrects) (hs : ed.startAutocorrect env = .ok (e, ac)) {x : Panic}
    (h0 : ed.step env.plain op = .error x) (hfits : ∀ edits m,
      op.core env.cfg ed.input ed.caret = .ok (some (edits, m)) →
      ∃ root', applyEdits env.cfg ed.input edits = .ok root') : ed.step env op = .error x := by
  obtain ⟨e', hs', hstep, hplain⟩ := step_plain hop hs
  obtain ⟨⟨z, hz⟩, -⟩ := startAutocorrect_plain hs'
  have hei : e'.input = ed.input := by rw [hz]; cases op <;> rfl
  rw [h0] at hplain
  cases hcore : op.core env.cfg ed.input ed.caret with
  | error p =>
    rw [hcore] at hplain hstep
    cases hplain
    exact hstep
  | ok y =>
    exfalso
    rw [hcore] at hplain
    simp only [M.ok_bind] at hplain
    have hplain := outcome_error.1 hplain.symm
    cases y with
    | none => cases hplain
    | some em =>
      obtain ⟨edits, m⟩ := em
      obtain ⟨root', hr⟩ := hfits edits m hcore
      simp only [Editor.conclude, Editor.finishAndAutocorrect, Editor.finish, hei, hr,
        autocorrectFinish, Editor.applyAutocorrect] at hplain
      cases edits <;> cases hplain

end Aftermath
