import Verif.Proof.Autocorrect

/-! # Property theorems C20–C25: undo, redo, the cached tree, calls that do not edit -/

namespace Aftermath

variable {T : Type}

/-! ## C20 -/

/-- C20: along every sequence of calls from a fresh editor the formulas shown are those of an
ideal history of whole formulas. -/
theorem C20_history (env : Env T) {ops : List Op} {fs : List Row}
    (h : (Editor.new : Editor T).formulas env ops = .ok fs) :
    ∃ h', History.Run .start (ops.zip fs) h' := run_agree agree_start h

/-- C20: in every reachable state, undo and redo answer as the ideal history does, and do not
panic. -/
theorem C20_undo_redo (env : Env T) {ed : Editor T} (h : Reachable env ed) :
    ∃ h' : History, h'.now = ed.input ∧
      (∃ e, ed.undoOp env = .ok (e, !h'.past.isEmpty) ∧ e.input = h'.back.now) ∧
      (∃ e, ed.redoOp env = .ok (e, !h'.future.isEmpty) ∧ e.input = h'.forward.now) := by
  obtain ⟨h', ha⟩ := h.agree
  refine ⟨h', ha.now, ?_, ?_⟩
  · obtain ⟨e, h1, h2, -⟩ := undoOp_agree ha
    refine ⟨e, ?_, h2.now.symm⟩
    rw [h1]
    have := ha.undo.length
    cases h3 : h'.past <;> cases h4 : ed.undo.undoStack <;> simp_all
  · obtain ⟨e, h1, h2, -⟩ := redoOp_agree ha
    refine ⟨e, ?_, h2.now.symm⟩
    rw [h1]
    have := ha.redo.length
    cases h3 : h'.future <;> cases h4 : ed.undo.redoStack <;> simp_all

/-- A parser that is never called, for the examples below. -/
def noParse : Env Unit := ⟨.dev, fun _ => .ok (), []⟩

/-- Type a, type b, undo, redo, undo, type c, redo (does nothing). -/
example : (Editor.new : Editor Unit).formulas noParse
      [.insertAtCaret [['a']], .insertAtCaret [['b']], .undo, .redo, .undo, .insertAtCaret [['c']],
        .redo] =
    .ok [[.symbol ['a']], [.symbol ['a'], .symbol ['b']], [.symbol ['a']],
      [.symbol ['a'], .symbol ['b']], [.symbol ['a']], [.symbol ['a'], .symbol ['c']],
      [.symbol ['a'], .symbol ['c']]] := by decide +kernel

/-! ## C21 -/

/-- C21: undo and then redo. -/
theorem C21_undo_redo (env : Env T) {ed ed1 : Editor T} (h : Reachable env ed)
    (hu : ed.undoOp env = .ok (ed1, true)) :
    ∃ ed2 a rest, ed.undo.undoStack = a :: rest ∧ ed1.caret = a.caretBefore ∧
      ed1.redoOp env = .ok (ed2, true) ∧ ed2.input = ed.input ∧ ed2.undo = ed.undo ∧
      ed2.caret = a.caretAfter := by
  obtain ⟨h', ha⟩ := h.agree
  obtain ⟨e1, h1, h2, h3⟩ := undoOp_agree ha
  rw [hu] at h1
  simp only [Except.ok.injEq, Prod.mk.injEq] at h1
  obtain ⟨rfl, h1⟩ := h1
  cases hs : ed.undo.undoStack with
  | nil => rw [hs] at h1; cases h1
  | cons a as =>
    rw [hs] at h3
    obtain ⟨h4, h5⟩ := h3
    obtain ⟨e2, h6, h7, h8⟩ := redoOp_agree h2
    have h9 : ed1.undo.redoStack = a :: ed.undo.redoStack := by rw [h4]
    rw [h9] at h8 h6
    obtain ⟨h8, h10⟩ := h8
    refine ⟨e2, a, as, rfl, h5, h6, ?_, ?_, h10⟩
    · rw [← h7.now]
      have hp := ha.undo.length
      rw [hs] at hp
      cases hp' : h'.past with
      | nil => rw [hp'] at hp; simp at hp
      | cons p ps => simp only [History.back, hp', History.forward, ha.now]
    · rw [h8, h4, ← hs]

/-- C21: redo and then undo. -/
theorem C21_redo_undo (env : Env T) {ed ed1 : Editor T} (h : Reachable env ed)
    (hu : ed.redoOp env = .ok (ed1, true)) :
    ∃ ed2 a rest, ed.undo.redoStack = a :: rest ∧ ed1.caret = a.caretAfter ∧
      ed1.undoOp env = .ok (ed2, true) ∧ ed2.input = ed.input ∧ ed2.undo = ed.undo ∧
      ed2.caret = a.caretBefore := by
  obtain ⟨h', ha⟩ := h.agree
  obtain ⟨e1, h1, h2, h3⟩ := redoOp_agree ha
  rw [hu] at h1
  simp only [Except.ok.injEq, Prod.mk.injEq] at h1
  obtain ⟨rfl, h1⟩ := h1
  cases hs : ed.undo.redoStack with
  | nil => rw [hs] at h1; cases h1
  | cons a as =>
    rw [hs] at h3
    obtain ⟨h4, h5⟩ := h3
    obtain ⟨e2, h6, h7, h8⟩ := undoOp_agree h2
    have h9 : ed1.undo.undoStack = a :: ed.undo.undoStack := by rw [h4]
    rw [h9] at h8 h6
    obtain ⟨h8, h10⟩ := h8
    refine ⟨e2, a, as, rfl, h5, h6, ?_, ?_, h10⟩
    · rw [← h7.now]
      have hp := ha.redo.length
      rw [hs] at hp
      cases hp' : h'.future with
      | nil => rw [hp'] at hp; simp at hp
      | cons p ps => simp only [History.back, hp', History.forward, ha.now]
    · rw [h8, h4, ← hs]

/-- C21: the caret recorded with an edit is the one before and after it: a call that edits once
and leaves the caret where the edit puts it is undone to the old caret. Here for typing. -/
theorem C21_undo_insert (env : Env T) {ed ed1 : Editor T} {values : List Str}
    (h : Reachable env ed) (hnc : ∃ e, ed.startAutocorrect env = .ok (e, none))
    (hi : ed.insertAtCaret env values = .ok ed1) :
    ∃ ed2 ed3, ed1.undoOp env = .ok (ed2, true) ∧ ed2.input = ed.input ∧ ed2.caret = ed.caret ∧
      ed2.redoOp env = .ok (ed3, true) ∧ ed3.input = ed1.input ∧ ed3.caret = ed1.caret := by
  have hr1 : Reachable env ed1 := h.step (op := .insertAtCaret values) hi
  obtain ⟨e, he⟩ := hnc
  simp only [Editor.insertAtCaret, he, M.ok_bind] at hi
  unfold Editor.insertNodes at hi
  obtain ⟨c, hc, h1⟩ := M.bind_eq_ok.1 hi
  split at h1
  · rename_i r hr
    obtain ⟨⟨q, hf⟩, hb⟩ := caret_row_in hc hr
    rw [insertAtRange_eq hf hb] at h1
    simp only [M.ok_bind, Editor.finishAndAutocorrect, Editor.finish, List.isEmpty_cons,
      Bool.false_eq_true, if_false] at h1
    obtain ⟨⟨e2, act⟩, h2, h3⟩ := M.bind_eq_ok.1 h1
    obtain ⟨input, h4, h5⟩ := M.bind_eq_ok.1 h2
    cases h5
    simp only [autocorrectFinish, M.ok_bind, Editor.applyAutocorrect] at h3
    have h6 := Except.ok.inj h3
    obtain ⟨h', ha⟩ := hr1.agree
    obtain ⟨ed2, h7, h8, h9⟩ := undoOp_agree ha
    obtain ⟨a0, hst, hb0, ha0, he0⟩ : ∃ a, ed1.undo.undoStack = a :: e.undo.undoStack ∧
        a.caretBefore = e.caret ∧ a.caretAfter = ed1.caret ∧
        a.edits = [deleteEdit q r.focus.row r.leftOffset r.rightOffset,
          .row ⟨.insert, ⟨q, r.leftOffset⟩, values.map Node.symbol⟩] := by
      subst h6; exact ⟨_, rfl, rfl, rfl, rfl⟩
    rw [hst] at h7 h9
    obtain ⟨ed3, a, rest, h10, -, h11, h12, -, h13⟩ := C21_undo_redo env hr1 h7
    rw [hst] at h10
    cases h10
    have hq := startAutocorrect_quiet he
    refine ⟨ed2, ed3, h7, ?_, ?_, h11, h12, ?_⟩
    · rw [← h8.now]
      have hu := ha.undo
      rw [hst] at hu
      cases hp' : h'.past with
      | nil => rw [hp'] at hu; exact hu.elim
      | cons p ps =>
        rw [hp'] at hu
        simp only [History.back, hp']
        have h14 := applyEdits_inverse hu.1 hu.2.1
        have h15 := applyEdits_inverse (replace_truthful (cfg := env.cfg) (vs := values.map Node.symbol)
          hf.rowAt_eq r.left_le_right (RowRange.right_le hb)) h4
        have h16 : ed1.input = input := by rw [← h6]
        rw [h16, he0, h15] at h14
        have := Except.ok.inj h14
        rw [← this, hq.1.input]
    · rw [h9.2, hb0]; exact hq.2
    · rw [h13, ha0]
  · cases h1

/-! ## C22 -/

/-- C22: undoing everything never panics, ends with the empty formula after exactly as many
steps as there are undoable edits, and as many redos restore the formula and the history. -/
theorem C22_undo_all (env : Env T) {ed : Editor T} (h : Reachable env ed) :
    ∃ ed0 ed1, undoAll env (ed.undo.undoStack.length + 1) ed =
        .ok (ed0, ed.undo.undoStack.length) ∧
      ed0.input = [] ∧ ed0.undo.undoStack = [] ∧
      redoN env ed.undo.undoStack.length ed0 = .ok ed1 ∧ ed1.input = ed.input ∧
      ed1.undo = ed.undo := by
  obtain ⟨h', ha⟩ := h.agree
  clear h
  have redoN_snoc : ∀ (n : Nat) (a b c : Editor T), redoN env n a = .ok b →
      b.redoOp env = .ok (c, true) → redoN env (n + 1) a = .ok c := by
    intro n
    induction n with
    | zero =>
      intro a b c h1 h2
      cases h1
      simp [redoN, h2]
    | succ n ih =>
      intro a b c h1 h2
      rw [redoN] at h1 ⊢
      obtain ⟨⟨x, ok⟩, h3, h4⟩ := M.bind_eq_ok.1 h1
      simp only [h3, M.ok_bind]
      cases ok with
      | false => cases h4
      | true => exact ih x b c h4 h2
  generalize hn : ed.undo.undoStack.length = n
  induction n generalizing ed h' with
  | zero =>
    have hs : ed.undo.undoStack = [] := List.length_eq_zero_iff.1 hn
    obtain ⟨e, h1, h2, h3⟩ := undoOp_agree ha
    rw [hs] at h1 h3
    simp only at h3
    subst h3
    have hu := ha.undo
    rw [hs] at hu
    have hp : h'.past = [] := List.length_eq_zero_iff.1 hu.length
    rw [hp] at hu
    refine ⟨e, e, ?_, hu, hs, rfl, rfl, rfl⟩
    simp [undoAll, h1]
  | succ n ih =>
    obtain ⟨e, h1, h2, h3⟩ := undoOp_agree ha
    cases hs : ed.undo.undoStack with
    | nil => rw [hs] at hn; cases hn
    | cons a as =>
      rw [hs] at h3 h1 hn
      obtain ⟨h4, h5⟩ := h3
      have hn' : e.undo.undoStack.length = n := by rw [h4]; simpa using hn
      obtain ⟨ed0, ed1, h6, h7, h8, h9, h10, h11⟩ := ih _ h2 hn'
      refine ⟨ed0, ?_⟩
      have hagree : Agree env ed1 h'.back := by
        refine ⟨?_, ?_, ?_⟩
        · rw [h10]; exact h2.now
        · rw [h10, h11]; exact h2.undo
        · rw [h10, h11]; exact h2.redo
      obtain ⟨ed2, h12, h13, h14⟩ := redoOp_agree hagree
      have h15 : ed1.undo.redoStack = a :: ed.undo.redoStack := by rw [h11, h4]
      rw [h15] at h12 h14
      refine ⟨ed2, ?_, h7, h8, redoN_snoc _ _ _ _ h9 h12, ?_, ?_⟩
      · simp only [undoAll, h1, M.ok_bind] at h6 ⊢
        simp [h6]
      · rw [← h13.now]
        have hp := ha.undo.length
        rw [hs] at hp
        cases hp' : h'.past with
        | nil => rw [hp'] at hp; simp at hp
        | cons p ps => simp only [History.back, hp', History.forward, ha.now]
      · rw [h14.1, h11, h4, ← hs]

/-! ## C23 -/

/-- The manager's calls with their answers, as in the model. -/
def UndoRedo.step {A : Type} (inv : A → A) (m : UndoRedo A) : UOp A → UndoRedo A × Option A
  | .push a => (m.push a, none)
  | .undo => match m.undo inv with
    | none => (m, none)
    | some (a, m) => (m, some a)
  | .redo => match m.redo with
    | none => (m, none)
    | some (a, m) => (m, some a)

/-- The answers of the manager to a list of calls. -/
def UndoRedo.run {A : Type} (inv : A → A) : UndoRedo A → List (UOp A) →
    UndoRedo A × List (Option A)
  | m, [] => (m, [])
  | m, op :: ops =>
    let r := m.step inv op
    let s := UndoRedo.run inv r.1 ops
    (s.1, r.2 :: s.2)

/-- The manager represents the cursor. -/
structure Represents {A : Type} (m : UndoRedo A) (c : Cursor A) : Prop where
  undo : m.undoStack = (c.acts.take c.done).reverse
  redo : m.redoStack = c.acts.drop c.done
  le : c.done ≤ c.acts.length

theorem Represents.step {A : Type} {inv : A → A} {m : UndoRedo A} {c : Cursor A}
    (h : Represents m c) (op : UOp A) :
    Represents (m.step inv op).1 (c.step inv op).1 ∧ (m.step inv op).2 = (c.step inv op).2 := by
  obtain ⟨acts, done⟩ := c
  obtain ⟨us, rs⟩ := m
  obtain ⟨h1, h2, h3⟩ := h
  simp only at h1 h2 h3
  cases op with
  | push a =>
    have hlen : (acts.take done ++ [a]).length = done + 1 := by
      rw [List.length_append, List.length_take, List.length_singleton]; omega
    refine ⟨⟨?_, ?_, ?_⟩, rfl⟩
    · simp only [UndoRedo.step, UndoRedo.push, Cursor.step, h1]
      rw [List.take_of_length_le (Nat.le_of_eq hlen)]
      simp
    · exact (List.drop_eq_nil_of_le (Nat.le_of_eq hlen)).symm
    · exact Nat.le_of_eq hlen.symm
  | undo =>
    cases done with
    | zero =>
      simp only [List.take_zero, List.reverse_nil] at h1
      subst h1
      exact ⟨⟨rfl, h2, h3⟩, rfl⟩
    | succ k =>
      have hk : k < acts.length := h3
      rw [List.take_succ_eq_append_getElem hk, List.reverse_append] at h1
      simp only [List.reverse_cons, List.reverse_nil, List.nil_append, List.singleton_append] at h1
      subst h1
      refine ⟨⟨rfl, ?_, Nat.le_of_lt hk⟩, ?_⟩
      · simp only [UndoRedo.step, UndoRedo.undo, Cursor.step, h2]
        rw [List.drop_eq_getElem_cons hk]
      · simp [UndoRedo.step, UndoRedo.undo, Cursor.step, hk]
  | redo =>
    by_cases hd : done < acts.length
    · rw [List.drop_eq_getElem_cons hd] at h2
      subst h2
      have e : Cursor.step inv ⟨acts, done⟩ .redo = (⟨acts, done + 1⟩, some acts[done]) := by
        simp [Cursor.step, hd]
      rw [e]
      refine ⟨⟨?_, rfl, hd⟩, rfl⟩
      simp only [UndoRedo.step, UndoRedo.redo, h1]
      rw [List.take_succ_eq_append_getElem hd, List.reverse_append]
      rfl
    · have e : Cursor.step inv ⟨acts, done⟩ .redo = (⟨acts, done⟩, none) := by
        simp only [Cursor.step]
        rw [List.getElem?_eq_none (by omega)]
      rw [List.drop_eq_nil_of_le (by omega)] at h2
      subst h2
      rw [e]
      exact ⟨⟨h1, (List.drop_eq_nil_of_le (Nat.le_of_not_lt hd)).symm, h3⟩, rfl⟩

/-- C23: the manager gives the same answers as a list of actions with a cursor, for every
sequence of calls; so do `can_undo` and `can_redo` afterwards. -/
theorem C23_manager {A : Type} (inv : A → A) (ops : List (UOp A)) :
    let m := UndoRedo.run inv .empty ops
    let c := Cursor.run inv ⟨[], 0⟩ ops
    m.2 = c.2 ∧ (m.1.canUndo = true ↔ 0 < c.1.done) ∧
      (m.1.canRedo = true ↔ c.1.done < c.1.acts.length) ∧
      m.1.undoStack.length = c.1.done ∧ m.1.redoStack.length = c.1.acts.length - c.1.done := by
  have key : ∀ (ops : List (UOp A)) (m : UndoRedo A) (c : Cursor A), Represents m c →
      Represents (UndoRedo.run inv m ops).1 (Cursor.run inv c ops).1 ∧
        (UndoRedo.run inv m ops).2 = (Cursor.run inv c ops).2 := by
    intro ops
    induction ops with
    | nil => intro m c h; exact ⟨h, rfl⟩
    | cons op ops ih =>
      intro m c h
      obtain ⟨h1, h2⟩ := h.step (inv := inv) op
      obtain ⟨h3, h4⟩ := ih _ _ h1
      exact ⟨h3, by simp only [UndoRedo.run, Cursor.run, h2, h4]⟩
  obtain ⟨h1, h2⟩ := key ops .empty ⟨[], 0⟩ ⟨rfl, rfl, Nat.le_refl _⟩
  have hu : (UndoRedo.run inv .empty ops).1.undoStack.length = (Cursor.run inv ⟨[], 0⟩ ops).1.done := by
    rw [h1.undo]; simp only [List.length_reverse, List.length_take]
    have := h1.le; omega
  have hr : (UndoRedo.run inv .empty ops).1.redoStack.length =
      (Cursor.run inv ⟨[], 0⟩ ops).1.acts.length - (Cursor.run inv ⟨[], 0⟩ ops).1.done := by
    rw [h1.redo]; simp
  refine ⟨h2, ?_, ?_, hu, hr⟩
  · simp only [UndoRedo.canUndo, Bool.not_eq_true', List.isEmpty_eq_false_iff]
    rw [← List.length_pos_iff, hu]
  · simp only [UndoRedo.canRedo, Bool.not_eq_true', List.isEmpty_eq_false_iff]
    rw [← List.length_pos_iff, hr]
    omega

/-- C23: after `k` pushes, `j ≤ k` undos hand out the pushed actions inverted, last first, and
`j` redos hand them out again. -/
theorem C23_lifo {A : Type} (inv : A → A) (as : List A) {j : Nat} (hj : j ≤ as.length) :
    let m := (UndoRedo.run inv .empty (as.map .push)).1
    let u := UndoRedo.run inv m (List.replicate j .undo)
    let r := UndoRedo.run inv u.1 (List.replicate j .redo)
    u.2 = (as.reverse.take j).map (fun a => some (inv a)) ∧
      u.1.undoStack.length = as.length - j ∧ u.1.redoStack.length = j ∧
      r.2 = (as.drop (as.length - j)).map some ∧ r.1 = m := by
  have hm : ∀ (as : List A) (us : List A), (UndoRedo.run inv ⟨us, []⟩ (as.map .push)).1 =
      ⟨as.reverse ++ us, []⟩ := by
    intro as
    induction as with
    | nil => intro us; rfl
    | cons a as ih =>
      intro us
      simp only [List.map_cons, UndoRedo.run, UndoRedo.step, UndoRedo.push, ih, List.reverse_cons,
        List.append_assoc, List.singleton_append]
  have hu : ∀ (j : Nat) (us rs : List A), j ≤ us.length →
      UndoRedo.run inv ⟨us, rs⟩ (List.replicate j .undo) =
        (⟨us.drop j, (us.take j).reverse ++ rs⟩, (us.take j).map (fun a => some (inv a))) := by
    intro j
    induction j with
    | zero => intro us rs _; simp [UndoRedo.run]
    | succ j ih =>
      intro us rs h
      cases us with
      | nil => simp at h
      | cons a us =>
        simp only [List.replicate_succ, UndoRedo.run, UndoRedo.step, UndoRedo.undo]
        rw [ih us (a :: rs) (by simpa using h)]
        simp
  have hr : ∀ (j : Nat) (us rs : List A), j ≤ rs.length →
      UndoRedo.run inv ⟨us, rs⟩ (List.replicate j .redo) =
        (⟨(rs.take j).reverse ++ us, rs.drop j⟩, (rs.take j).map some) := by
    intro j
    induction j with
    | zero => intro us rs _; simp [UndoRedo.run]
    | succ j ih =>
      intro us rs h
      cases rs with
      | nil => simp at h
      | cons a rs =>
        simp only [List.replicate_succ, UndoRedo.run, UndoRedo.step, UndoRedo.redo]
        rw [ih (a :: us) rs (by simpa using h)]
        simp
  intro m u r
  have em : m = ⟨as.reverse, []⟩ := by
    have := hm as []
    simpa [m, UndoRedo.empty] using this
  have eu : u = (⟨as.reverse.drop j, (as.reverse.take j).reverse⟩,
      (as.reverse.take j).map (fun a => some (inv a))) := by
    have := hu j as.reverse [] (by simpa using hj)
    simp only [List.append_nil] at this
    simp only [u, em, this]
  have er : r = (⟨as.reverse, []⟩, ((as.reverse.take j).reverse).map some) := by
    have := hr j (as.reverse.drop j) ((as.reverse.take j).reverse) (by simp; omega)
    simp only [r, eu, this]
    have hlen : (as.reverse.take j).reverse.length ≤ j := by
      rw [List.length_reverse, List.length_take]; omega
    rw [List.take_of_length_le hlen, List.drop_eq_nil_of_le hlen]
    simp
  refine ⟨by rw [eu], by rw [eu]; simp, by rw [eu]; simp; omega, ?_, by rw [er, em]⟩
  rw [er, List.take_reverse]
  simp

example : (UndoRedo.run (fun n : Int => -n) .empty [.push 1, .push 2, .undo, .push 3, .redo, .undo,
    .undo, .undo, .redo]).2 =
      [none, none, some (-2), none, none, some (-3), some (-1), none, some 1] := by decide +kernel

/-! ## C24 -/

/-- C24: in every reachable state the tree returned is the parse of the formula, whatever the
parser, cached or not. -/
theorem C24_fresh (env : Env T) {ed : Editor T} (h : Reachable env ed) :
    (do let r ← ed.getSyntaxTree env; .ok r.2) = env.parse ed.input := by
  obtain ⟨ops, h⟩ := h
  have hf : Fresh env ed := Fresh.run (ed := Editor.new) (fun t ht => by cases ht) h
  unfold Editor.getSyntaxTree
  cases hp : ed.parsed with
  | some t => rw [hf t hp]; rfl
  | none =>
    simp only
    cases env.parse ed.input <;> rfl

/-- A parser that returns the formula: parse, edit, parse again, undo. -/
example : ((Editor.new : Editor Row).run ⟨.dev, .ok, []⟩
      [.insertAtCaret [['a']], .getSyntaxTree, .insertAtCaret [['b']], .getSyntaxTree, .undo]).isOk = true := by
  decide +kernel

/-! ## C25 -/

/-- C25: queries and selection bookkeeping leave formula and history alone. -/
theorem C25_queries (env : Env T) {ed ed' : Editor T} {op : Op}
    (hop : op = .selectAll ∨ op = .finishSelection ∨ op = .openAutocomplete ∨
      op = .getAutocomplete ∨ op = .getSyntaxTree ∨ ∃ d, op = .moveInAutocomplete d)
    (h : ed.step env op = .ok ed') : ed'.input = ed.input ∧ ed'.undo = ed.undo := by
  obtain ⟨n, hn, ht⟩ := step_trace (op := op)
    (by rintro rfl; simp at hop) (by rintro rfl; simp at hop) h
  have : op.maxRecords = 0 := by rcases hop with h | h | h | h | h | ⟨d, h⟩ <;> subst h <;> rfl
  have : n = 0 := by omega
  subst this
  cases ht with
  | quiet hq => exact ⟨hq.input, hq.undo⟩

/-- C25: the caret movements and selections leave formula and history alone, except for an
autocorrect replacement. -/
theorem C25_moves (env : Env T) {ed ed' : Editor T} {op : Op}
    (hop : (∃ d m, op = .moveCaret d m) ∨ (∃ d m, op = .selectWithCaret d m) ∨
      (∃ p m, op = .startSelection p m) ∨ ∃ p, op = .extendSelection p)
    (h : ed.step env op = .ok ed') :
    (ed'.input = ed.input ∧ ed'.undo = ed.undo) ∨ Autocorrected env ed ed' := by
  rcases hop with ⟨d, m, rfl⟩ | ⟨d, m, rfl⟩ | ⟨p, m, rfl⟩ | ⟨p, rfl⟩
  · simp only [Editor.step, Editor.moveCaret] at h
    obtain ⟨⟨e, ac⟩, he, h1⟩ := M.bind_eq_ok.1 h
    obtain ⟨c, hc, h2⟩ := M.bind_eq_ok.1 h1
    obtain ⟨c', hc', h3⟩ := M.bind_eq_ok.1 h2
    exact (finishMove_cases he h3).1
  · simp only [Editor.step, Editor.selectWithCaret] at h
    obtain ⟨⟨e', b⟩, h0, he'⟩ := M.bind_eq_ok.1 h
    cases he'
    obtain ⟨⟨e, ac⟩, he, h1⟩ := M.bind_eq_ok.1 h0
    obtain ⟨c, hc, h2⟩ := M.bind_eq_ok.1 h1
    split at h2
    · obtain ⟨o, ho, h3⟩ := M.bind_eq_ok.1 h2
      cases o with
      | none =>
        cases h3
        have := (startAutocorrect_quiet he).1
        exact Or.inl ⟨this.input, this.undo⟩
      | some p =>
        obtain ⟨e2, he2, h4⟩ := M.bind_eq_ok.1 h3
        cases h4
        exact (finishMove_cases he he2).1
    · cases h2
  · simp only [Editor.step, Editor.startSelection] at h
    obtain ⟨⟨e, ac⟩, he, h1⟩ := M.bind_eq_ok.1 h
    rcases (finishMove_cases he h1).1 with h2 | ⟨e1, res, m', q, o, h3, h4⟩
    · exact Or.inl h2
    · obtain ⟨e', h5⟩ := getAutocomplete_selectionMode h3
      exact Or.inr ⟨e', res, m', q, o, h5, h4⟩
  · simp only [Editor.step, Editor.extendSelection] at h
    obtain ⟨⟨e, ac⟩, he, h1⟩ := M.bind_eq_ok.1 h
    exact (finishMove_cases he h1).1

/-- C25: without a complete match selected at the caret there is no exception. -/
theorem C25_moves_no_token (env : Env T) {ed ed' : Editor T} {op : Op}
    (hop : (∃ d m, op = .moveCaret d m) ∨ (∃ d m, op = .selectWithCaret d m) ∨
      (∃ p m, op = .startSelection p m) ∨ ∃ p, op = .extendSelection p)
    (hac : ∀ e res m, ed.getAutocomplete env = .ok (e, some res) →
      res.matches'[res.selectedIndex]? = some m → m.isComplete = false)
    (h : ed.step env op = .ok ed') : ed'.input = ed.input ∧ ed'.undo = ed.undo := by
  rcases C25_moves env hop h with h1 | ⟨e1, res, m, q, o, h2, h3, h4, -⟩
  · exact h1
  · rw [hac e1 res m h2 h3] at h4; cases h4

/-- The exception happens: the token "ab" at offsets 2 to 4 is replaced when the caret moves off
it. (Offset 2 is the length of the rule, see C35.) -/
example :
    let env : Env Unit := ⟨.dev, fun _ => .ok (), [⟨['a', 'b'], [.symbol ['X']]⟩]⟩
    (do
      let ed ← (Editor.new : Editor Unit).run env [.insertAtCaret [['.'], ['.'], ['a'], ['b']]]
      let ed' ← ed.step env (.startSelection ⟨[], 0⟩ .char)
      .ok (ed.input, ed'.input)) =
    (.ok ([.symbol ['.'], .symbol ['.'], .symbol ['a'], .symbol ['b']],
      [.symbol ['.'], .symbol ['.'], .symbol ['X']]) : M (Row × Row)) := by decide +kernel

/-! ## C27, the calls that never panic -/

/-- C27: undo, redo, select_all and finish_selection never panic in a reachable state. -/
theorem C27_history_partial (env : Env T) {ed : Editor T} {op : Op} (h : Reachable env ed)
    (hop : op = .undo ∨ op = .redo ∨ op = .selectAll ∨ op = .finishSelection) :
    ∃ ed', ed.step env op = .ok ed' := by
  obtain ⟨h', -, ⟨e1, h1, -⟩, e2, h2, -⟩ := C20_undo_redo env h
  rcases hop with rfl | rfl | rfl | rfl
  · exact ⟨e1, by simp [Editor.step, h1]⟩
  · exact ⟨e2, by simp [Editor.step, h2]⟩
  · exact ⟨_, rfl⟩
  · exact ⟨_, rfl⟩

end Aftermath
