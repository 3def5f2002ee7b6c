import Verif.Spec.UndoKeys
import Verif.Props.EndToEnd
import Verif.Proof.Page

/-! # Undo and redo on the page -/

namespace Aftermath

/-! ## The ideal history -/

namespace History

theorem back_forward {h : History} (hp : h.past ≠ []) : h.back.forward = h := by
  obtain ⟨past, now, future⟩ := h
  cases past with
  | nil => exact absurd rfl hp
  | cons p ps => rfl

theorem formulas_back (h : History) : h.back.formulas = h.formulas := by
  obtain ⟨past, now, future⟩ := h
  cases past <;> simp [back, formulas]

theorem formulas_forward (h : History) : h.forward.formulas = h.formulas := by
  obtain ⟨past, now, future⟩ := h
  cases future <;> simp [forward, formulas]

theorem formulas_pressAll (h : History) (ks : List HistoryKey) :
    (h.pressAll ks).formulas = h.formulas := by
  induction ks generalizing h with
  | nil => rfl
  | cons k ks ih =>
    refine (ih _).trans ?_
    cases k
    · exact formulas_back h
    · exact formulas_forward h

theorem pressAll_append (h : History) (ks ks' : List HistoryKey) :
    h.pressAll (ks ++ ks') = (h.pressAll ks).pressAll ks' := List.foldl_append

theorem press_return : ∀ (n : Nat) (h : History), n ≤ h.past.length →
    h.pressAll (.replicate n .undo ++ .replicate n .redo) = h
  | 0, _, _ => rfl
  | n + 1, h, hn => by
    obtain ⟨past, now, future⟩ := h
    cases past with
    | nil => simp at hn
    | cons p ps =>
      have e : List.replicate (n + 1) HistoryKey.undo ++ .replicate (n + 1) .redo =
          .undo :: ((.replicate n .undo ++ .replicate n .redo) ++ [.redo]) := by
        rw [List.replicate_succ, List.replicate_succ' (n := n) (a := HistoryKey.redo)]
        simp
      rw [e]
      show ((History.press _ .undo).pressAll _) = _
      rw [pressAll_append]
      rw [show (⟨p :: ps, now, future⟩ : History).press .undo = ⟨ps, p, now :: future⟩ from rfl]
      rw [press_return n ⟨ps, p, now :: future⟩ (by simpa using hn)]
      rfl

theorem pressAll_undo (n : Nat) (h : History) (hn : n ≤ h.past.length) :
    (h.pressAll (.replicate n .undo)).past = h.past.drop n ∧
      some (h.pressAll (.replicate n .undo)).now = (h.now :: h.past)[n]? := by
  induction n generalizing h with
  | zero => exact ⟨rfl, rfl⟩
  | succ n ih =>
    obtain ⟨past, now, future⟩ := h
    cases past with
    | nil => simp at hn
    | cons p ps =>
      exact ih ⟨ps, p, now :: future⟩ (by simpa using hn)

theorem record_all (rs : List Row) (h : History) :
    (rs.foldl History.record h).now :: (rs.foldl History.record h).past =
      rs.reverse ++ h.now :: h.past := by
  induction rs generalizing h with
  | nil => rfl
  | cons r rs ih =>
    rw [List.foldl_cons, ih, List.reverse_cons]
    simp [record]

end History

variable {T : Type} {env : Env T}

/-! ## What typing records -/

theorem insert_recorded {ed ed1 e : Editor T} {ac : Option AutocorrectAction} {rng : MinRange}
    {values : List Str} (hwf : rowWf ed.input = true)
    (hsel : selectionOf ed.input ed.caret = .ok (.row rng))
    (hs : ed.startAutocorrect env = .ok (e, ac)) (h : ed.insertAtCaret env values = .ok ed1) :
    ∃ a, ed1.undo = ed.undo.push a ∧ a.caretBefore = ed.caret ∧ a.caretAfter = ed1.caret ∧
      Truthful env.cfg ed.input a.edits ∧ applyEdits env.cfg ed.input a.edits = .ok ed1.input := by
  obtain ⟨row, ed', a, k1, -, -, -, k5⟩ := C36_type values hwf hsel hs
  rw [h] at k1
  cases k1
  have hq := startAutocorrect_quiet hs
  simp only [Editor.insertAtCaret, hs, M.ok_bind] at h
  unfold Editor.insertNodes at h
  obtain ⟨c, hc, h1⟩ := M.bind_eq_ok.1 h
  split at h1
  · rename_i r hr
    obtain ⟨⟨q, hf⟩, hb⟩ := caret_row_in hc hr
    rw [insertAtRange_eq hf hb] at h1
    simp only [M.ok_bind] at h1
    obtain ⟨e1, act, h2, h3⟩ := finishAndAutocorrect_cases h1
    have hlen := (finish_ok h2).2.2
    simp only [reduceCtorEq, if_false] at hlen
    have hed : ed1 = e1 := by
      rcases h3 with h3 | ⟨-, h3⟩
      · exact h3
      · rw [k5, ← hq.1.undo] at h3
        simp only [UndoRedo.push, List.length_cons] at h3
        omega
    subst hed
    simp only [Editor.finish, List.isEmpty_cons, Bool.false_eq_true, if_false] at h2
    obtain ⟨input, h4, h5⟩ := M.bind_eq_ok.1 h2
    cases h5
    refine ⟨_, by rw [hq.1.undo], hq.2, rfl, ?_, by rw [← hq.1.input]; exact h4⟩
    rw [← hq.1.input]
    exact replace_truthful hf.rowAt_eq r.left_le_right (RowRange.right_le hb)
  · cases h1

theorem Anchored.history {V : Prop} {ed ed' : Editor T} {op : Op} (ha : Anchored V env ed)
    (hop : op = .undo ∨ op = .redo) (hs : ed.step env op = .ok ed') : Anchored V env ed' := by
  rcases hop with rfl | rfl
  · simp only [Editor.step, Editor.undoOp, UndoRedo.undo] at hs
    obtain ⟨⟨e, b⟩, h1, h2⟩ := M.bind_eq_ok.1 hs
    cases h2
    cases hu : ed.undo.undoStack with
    | nil => rw [hu] at h1; cases h1; exact ha
    | cons a as =>
      rw [hu] at h1
      have := ha.undo
      rw [hu] at this
      obtain ⟨g1, p, g2, g3, g4, g5, g6⟩ := this
      have h4 := applyEdits_inverse g2 g3
      simp only [Editor.applyAction, CaretEdit.inverse, h4, M.ok_bind] at h1
      cases h1
      exact ⟨g4, g5, g6, g5, g2, ed.input, g3, ha.wf, g1, ha.redo⟩
  · simp only [Editor.step, Editor.redoOp, UndoRedo.redo] at hs
    obtain ⟨⟨e, b⟩, h1, h2⟩ := M.bind_eq_ok.1 hs
    cases h2
    cases hu : ed.undo.redoStack with
    | nil => rw [hu] at h1; cases h1; exact ha
    | cons a as =>
      rw [hu] at h1
      have := ha.redo
      rw [hu] at this
      obtain ⟨g1, g2, f, g3, g4, g5, g6⟩ := this
      simp only [Editor.applyAction, g3, M.ok_bind] at h1
      cases h1
      exact ⟨g4, g5, ⟨g5, ed.input, g2, g3, ha.wf, g1, ha.undo⟩, g6⟩

/-- What is known after some characters were typed at a caret behind a text. -/
theorem typed_run (hr : GoodRules env.rules) {q : RowIndices} (u : Str) {ed ed' : Editor T} {o : Nat}
    {row : Row} {w : Str} {hist : History} (ha : Agree env ed hist) (hv : Anchored True env ed)
    (hc : ed.caret = .at ⟨q, o⟩) (hrow : rowAt ed.input q = some row) (ht : TextLeft row o w)
    (h : ed.run env (u.flatMap fun ch => [.insertAtCaret [[ch]], .getSyntaxTree]) = .ok ed') :
    Anchored True env ed' ∧ (∃ rs : List Row, rs.length = u.length ∧ Agree env ed' (rs.foldl History.record hist)) ∧
      ∃ as, ed'.undo.undoStack = as ++ ed.undo.undoStack ∧ as.length = u.length ∧
        ∀ a, as.getLast? = some a → a.caretBefore = ed.caret := by
  induction u generalizing ed o row w hist with
  | nil =>
    cases h
    exact ⟨hv, ⟨[], rfl, ha⟩, [], rfl, rfl, nofun⟩
  | cons ch u ih =>
    simp only [List.flatMap_cons, List.cons_append, List.nil_append, Editor.run] at h
    obtain ⟨ed1, h1, h⟩ := M.bind_eq_ok.1 h
    obtain ⟨ed2, h2, h9⟩ := M.bind_eq_ok.1 h
    obtain ⟨ed1', row', k1, k2, rfl, k4, k5, k6, -⟩ := C75_typed (env := env) [ch] hv.wf hr hc hrow ht
    have k1' : ed1' = ed1 := by
      simp only [typing, List.map_cons, List.map_nil, Editor.run] at k1
      obtain ⟨e, k1, k1'⟩ := M.bind_eq_ok.1 k1
      cases k1'
      rw [h1] at k1
      cases k1
      rfl
    subst k1'
    have hval : ValidPos ed.input ⟨q, o⟩ := ⟨row, hrow, ht.1⟩
    have hsel := selectionOf_at hv.wf hval
    rw [← hc] at hsel
    have h1' := h1
    simp only [Editor.step, Editor.insertAtCaret] at h1'
    obtain ⟨⟨e, ac⟩, hs, -⟩ := M.bind_eq_ok.1 h1'
    obtain ⟨a, a1, a2, a3, a4, a5⟩ := insert_recorded hv.wf hsel hs h1
    have hcar : ValidCaret ed1'.input ed1'.caret := by
      have : ValidPos ed1'.input ⟨q, o + 1⟩ := ⟨_, k4.rowAt_new, k6.1⟩
      rw [k5]
      exact ⟨this, this⟩
    have hv1 : Anchored True env ed1' := by
      refine ⟨k2, fun _ => hcar, ?_, ?_⟩
      · rw [a1]
        exact ⟨fun _ => by rw [a3]; exact hcar, ed.input, a4, a5, hv.wf,
          fun _ => by rw [a2]; exact hv.caret trivial, hv.undo⟩
      · rw [a1]
        trivial
    have ha1 : Agree env ed1' (hist.record ed1'.input) := by
      refine ⟨rfl, ?_, ?_⟩
      · rw [a1]
        refine ⟨?_, ?_, ?_⟩
        · rw [ha.now]; exact a4
        · rw [ha.now]; exact a5
        · rw [ha.now]; exact ha.undo
      · rw [a1]
        trivial
    have hq : ed2.input = ed1'.input ∧ ed2.undo = ed1'.undo ∧ ed2.caret = ed1'.caret := by
      simp only [Editor.step, Editor.getSyntaxTree] at h2
      obtain ⟨⟨e', t⟩, he, h3⟩ := M.bind_eq_ok.1 h2
      cases h3
      split at he
      · cases he; exact ⟨rfl, rfl, rfl⟩
      · obtain ⟨t', -, h4⟩ := M.bind_eq_ok.1 he
        cases h4
        exact ⟨rfl, rfl, rfl⟩
    obtain ⟨q1, q2, q3⟩ := hq
    obtain ⟨r1, ⟨rs, r2, r3⟩, as, r4, r5, r6⟩ := ih
      (ed := ed2) (hist := hist.record ed1'.input) (o := o + 1)
      ⟨by rw [q1]; rfl, by rw [q1, q2]; exact ha1.undo, by rw [q1, q2]; exact ha1.redo⟩
      ⟨by rw [q1]; exact hv1.wf, by rw [q1, q3]; exact hv1.caret, by rw [q1, q2]; exact hv1.undo,
        by rw [q1, q2]; exact hv1.redo⟩
      (by rw [q3]; exact k5) (by rw [q1]; exact k4.rowAt_new) k6 h9
    refine ⟨r1, ⟨ed1'.input :: rs, by simp [r2], r3⟩, as ++ [a], ?_, by simp [r5], ?_⟩
    · rw [r4, q2, a1]
      simp [UndoRedo.push]
    · intro b hb
      rw [List.getLast?_append] at hb
      cases hb
      exact a2

namespace Component

variable {S : Setting} {x : Xid} {c c' : Component} {v : View}

/-! ## One key -/

theorem press_one (hS : S.Ships x) {hist : History} (ha : Agree S.env c.editor hist)
    (hv : Anchored True S.env c.editor) (hf : Fresh S.env c.editor)
    (hG : ∀ p, 0 < v.after.fontSize p) (k : HistoryKey) :
    ∃ c', (c.handle S v k.event).left = some c' ∧ Agree S.env c'.editor (hist.press k) ∧
      Anchored True S.env c'.editor ∧ Fresh S.env c'.editor ∧ c'.UpToDate S ∧
      c'.tasks = c.tasks ∧ c'.connected = c.connected ∧
      (k = .undo → ∀ a as, c.editor.undo.undoStack = a :: as →
        c'.editor.undo.undoStack = as ∧ c'.editor.caret = a.caretBefore) := by
  obtain ⟨op, ed', hst, h2, hop, hev, h3⟩ : ∃ op ed', c.editor.step S.env op = .ok ed' ∧
      Agree S.env ed' (hist.press k) ∧ (op = .undo ∨ op = .redo) ∧
      c.handle S v k.event = c.handleEdit S v.after op ∧
      (k = .undo → ∀ a as, c.editor.undo.undoStack = a :: as →
        ed'.undo.undoStack = as ∧ ed'.caret = a.caretBefore) := by
    cases k with
    | undo =>
      obtain ⟨ed', h1, h2, h3⟩ := undoOp_agree ha
      refine ⟨.undo, ed', by simp only [Editor.step, h1, M.ok_bind], h2, .inl rfl, rfl, ?_⟩
      intro _ a as hs
      rw [hs] at h3
      exact ⟨by rw [h3.1], h3.2⟩
    | redo =>
      obtain ⟨ed', h1, h2, -⟩ := redoOp_agree ha
      exact ⟨.redo, ed', by simp only [Editor.step, h1, M.ok_bind], h2, .inr rfl, rfl, nofun⟩
  have hv' : Anchored True S.env ed' := hv.history hop hst
  have hf' := hf.step hst
  obtain ⟨t, ht, hE⟩ := C73_show (c := { c with editor := ed' }) (G := v.after) hS hf' hv'.wf hG
  have hh : c.handle S v k.event = ({ c with editor := ed' } : Component).redraw S v.after := by
    rw [hev]
    simp only [handleEdit, hst, Handled.call]
  rw [hh]
  have hag : ∀ t, Agree S.env { ed' with parsed := some t } (hist.press k) := fun t =>
    ⟨h2.now, h2.undo, h2.redo⟩
  have han : ∀ t, Anchored True S.env { ed' with parsed := some t } := fun t =>
    ⟨hv'.wf, hv'.caret, hv'.undo, hv'.redo⟩
  generalize ({ c with editor := ed' } : Component).redraw S v.after = o at hE
  cases hE with
  | thrown hu =>
    refine ⟨_, rfl, hag t, han t, Fresh.some ht, ⟨ht, ?_⟩, rfl, rfl, h3⟩
    rintro ⟨e, he⟩
    exact absurd he (unshowable_ne hS hv'.wf ht hu)
  | dead _ hl => exact absurd (hv'.caret trivial) hl.2
  | fine e hu hl he =>
    exact ⟨_, rfl, hag t, han t, Fresh.some ht, ⟨ht, fun _ => he⟩, rfl, rfl, h3⟩

/-! ## Several keys -/

theorem press_all (hS : S.Ships x) {hist : History} (ha : Agree S.env c.editor hist)
    (hv : Anchored True S.env c.editor) (hf : Fresh S.env c.editor) (hu : c.UpToDate S)
    (ks : List (View × HistoryKey)) (hG : ∀ k ∈ ks, ∀ p, 0 < k.1.after.fontSize p) :
    ∃ c', c.handleAll S (keyEvents ks) = some c' ∧
      Agree S.env c'.editor (hist.pressAll (ks.map Prod.snd)) ∧
      Anchored True S.env c'.editor ∧ Fresh S.env c'.editor ∧ c'.UpToDate S ∧
      c'.tasks = c.tasks ∧ c'.connected = c.connected ∧
      ((∀ k ∈ ks, k.2 = .undo) → ∀ as rest, c.editor.undo.undoStack = as ++ rest →
        as.length = ks.length → c'.editor.undo.undoStack = rest ∧
          ∀ a, as.getLast? = some a → c'.editor.caret = a.caretBefore) := by
  induction ks generalizing c hist with
  | nil =>
    refine ⟨c, rfl, ha, hv, hf, hu, rfl, rfl, fun _ as rest h hl => ?_⟩
    obtain rfl := List.length_eq_zero_iff.1 hl
    exact ⟨h, nofun⟩
  | cons k ks ih =>
    obtain ⟨v, k⟩ := k
    obtain ⟨c1, h1, h2, h3, h4, h5, h6, h7, h8⟩ :=
      press_one hS ha hv hf (hG _ (List.mem_cons_self ..)) k
    obtain ⟨c2, g1, g2, g3, g4, g5, g6, g7, g8⟩ :=
      ih h2 h3 h4 h5 fun k hk => hG k (List.mem_cons_of_mem _ hk)
    refine ⟨c2, ?_, g2, g3, g4, g5, g6.trans h6, g7.trans h7, fun hk as rest hs hl => ?_⟩
    · show Option.bind (c.handle S v k.event).left _ = _
      rw [h1]
      exact g1
    · cases as with
      | nil => simp at hl
      | cons a as =>
        obtain ⟨e1, e2⟩ := h8 (hk _ (List.mem_cons_self ..)) a (as ++ rest) hs
        obtain ⟨e3, e4⟩ := g8 (fun k hk' => hk k (List.mem_cons_of_mem _ hk')) as rest e1
          (by simpa using hl)
        refine ⟨e3, fun b hb => ?_⟩
        cases as with
        | nil =>
          cases hb
          cases ks with
          | nil => cases g1; exact e2
          | cons _ _ => simp at hl
        | cons a' as => exact e4 b (by rwa [List.getLast?_cons_cons] at hb)

end Component

end Aftermath
