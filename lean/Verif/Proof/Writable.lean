import Verif.Spec.Writable
import Verif.Proof.Calm
import Verif.Proof.HandlerLeft

/-! # What writing without pasting leads to -/

namespace Aftermath

variable {A : Str → Prop}

/-! ## Parts of writable formulas -/

theorem Writable.append {a b : Row} (ha : Writable A a) (hb : Writable A b) :
    Writable A (a ++ b) := by
  induction ha with
  | nil => exact hb
  | symbol hs _ ih => exact .symbol hs ih
  | root h1 h2 _ _ _ ih => exact .root h1 h2 ih
  | table h1 _ _ ih => exact .table h1 ih

theorem Writable.mem {row : Row} (h : Writable A row) {n : Node} (hn : n ∈ row) :
    Writable A [n] := by
  induction h with
  | nil => cases hn
  | symbol hs _ ih =>
    rcases List.mem_cons.1 hn with rfl | hn
    · exact .symbol hs .nil
    · exact ih hn
  | root h1 h2 _ _ _ ih =>
    rcases List.mem_cons.1 hn with rfl | hn
    · exact .root h1 h2 .nil
    · exact ih hn
  | table h1 _ _ ih =>
    rcases List.mem_cons.1 hn with rfl | hn
    · exact .table h1 .nil
    · exact ih hn

theorem writable_iff {row : Row} : Writable A row ↔ ∀ n ∈ row, Writable A [n] := by
  constructor
  · intro h n hn
    exact h.mem hn
  · intro h
    induction row with
    | nil => exact .nil
    | cons n row ih =>
      exact (h n (by simp)).append (ih fun m hm => h m (by simp [hm]))

theorem Writable.subset {row row' : Row} (h : Writable A row) (hs : row' ⊆ row) :
    Writable A row' := writable_iff.2 fun _ hn => h.mem (hs hn)

theorem writable_symbol {s : Str} : Writable A [.symbol s] ↔ A s := by
  constructor
  · intro h
    cases h with
    | symbol hs _ => exact hs
  · exact fun h => .symbol h .nil

/-- The containers of writable formulas. -/
theorem writable_container {v : Variant} {cells : List Row} {w : Nat} :
    Writable A [.container v cells w] ↔
      (v = .root ∧ cells.length = 2 ∧ w = 2 ∨ v = .table ∧ cells.length = 1 ∧ w = 1) ∧
        ∀ c ∈ cells, Writable A c := by
  constructor
  · intro h
    generalize hr : [Node.container v cells w] = row at h
    cases h with
    | nil => cases hr
    | symbol => cases hr
    | root ha hb =>
      cases hr
      refine ⟨Or.inl ⟨rfl, rfl, rfl⟩, ?_⟩
      simpa using ⟨ha, hb⟩
    | table ha =>
      cases hr
      exact ⟨Or.inr ⟨rfl, rfl, rfl⟩, by simpa using ha⟩
  · rintro ⟨⟨rfl, h1, rfl⟩ | ⟨rfl, h1, rfl⟩, h2⟩
    · match cells, h1 with
      | [a, b], _ => exact .root (h2 a (by simp)) (h2 b (by simp)) .nil
    · match cells, h1 with
      | [a], _ => exact .table (h2 a (by simp)) .nil

theorem Writable.wf {row : Row} (h : Writable A row) : rowWf row = true := by
  induction h with
  | nil => rfl
  | symbol _ _ ih => simpa [rowWf, Node.wf] using ih
  | root _ _ _ h1 h2 h3 => simp [Node.root, rowWf, Node.wf, cellsWf, shapeOk, h1, h2, h3]
  | table _ _ h1 h3 => simp [rowWf, Node.wf, cellsWf, shapeOk, h1, h3]

theorem Writable.rowAt {root r : Row} {q : RowIndices} (h : Writable A root)
    (hr : rowAt root q = some r) : Writable A r := by
  induction q generalizing root with
  | nil => cases hr; exact h
  | cons ix q ih =>
    obtain ⟨i, j⟩ := ix
    obtain ⟨v, cells, w, c, hi, hc, h1⟩ := rowAt_cons.1 hr
    exact ih ((writable_container.1 (h.mem (List.mem_of_getElem? hi))).2 c
      (List.mem_of_getElem? hc)) h1

theorem Writable.replaced {root root' old new : Row} {p : RowIndices}
    (hr : ReplacedAt root p old new root') (h : Writable A root) (hn : Writable A new) :
    Writable A root' := by
  induction hr with
  | here => exact hn
  | @under r r' i j p old new v cells cells' w c c' hlen hn1 hn2 ho hcl hc hc' hco _ ih =>
    have hcont := writable_container.1 (h.mem (List.mem_of_getElem? hn1))
    have hcw := ih (hcont.2 c (List.mem_of_getElem? hc)) hn
    refine writable_iff.2 fun n hmem => ?_
    obtain ⟨k, hk⟩ := List.getElem?_of_mem hmem
    by_cases hki : k = i
    · subst hki
      rw [hn2] at hk
      cases hk
      refine writable_container.2 ⟨by rw [hcl]; exact hcont.1, fun x hx => ?_⟩
      obtain ⟨l, hl⟩ := List.getElem?_of_mem hx
      by_cases hlj : l = j
      · subst hlj; rw [hc'] at hl; cases hl; exact hcw
      · rw [hco l hlj] at hl
        exact hcont.2 x (List.mem_of_getElem? hl)
    · rw [ho k hki] at hk
      exact h.mem (List.mem_of_getElem? hk)

/-! ## Edits -/

/-- The edit works on a row and inserts, if anything, something writable. -/
def Harmless (A : Str → Prop) : BasicEdit → Prop
  | .row e => e.editType = .insert → Writable A e.values
  | .grid _ => False

theorem applyToRow_writable {e : RowEdit} {old new : Row} (ho : Writable A old)
    (he : e.editType = .insert → Writable A e.values) (h : e.applyToRow old = .ok new) :
    Writable A new := by
  obtain ⟨t, ⟨p, o⟩, vs⟩ := e
  cases t with
  | insert =>
    simp only [RowEdit.applyToRow] at h
    split at h
    · simp only [Except.ok.injEq] at h
      subst h
      exact ((ho.subset (List.take_subset _ _)).append (he rfl)).append
        (ho.subset (List.drop_subset _ _))
    · cases h
  | delete =>
    simp only [RowEdit.applyToRow] at h
    split at h
    · simp only [Except.ok.injEq] at h
      subst h
      exact (ho.subset (List.take_subset _ _)).append (ho.subset (List.drop_subset _ _))
    · cases h

theorem applyEdits_writable {cfg : Cfg} {root root' : Row} {es : List BasicEdit}
    (hr : Writable A root) (he : ∀ e ∈ es, Harmless A e)
    (h : applyEdits cfg root es = .ok root') : Writable A root' := by
  induction es generalizing root with
  | nil => simp only [applyEdits, Except.ok.injEq] at h; subst h; exact hr
  | cons e es ih =>
    simp only [applyEdits] at h
    obtain ⟨r, h1, h2⟩ := M.bind_eq_ok.1 h
    refine ih ?_ (fun e' he' => he e' (by simp [he'])) h2
    have hh := he e (by simp)
    cases e with
    | grid e => exact hh.elim
    | row e =>
      obtain ⟨old, new, g1, g2, g3⟩ := editRowAt_replaced (p := e.position.rowIndices) h1
      exact Writable.replaced g3 hr (applyToRow_writable (hr.rowAt g1) hh g2)

theorem harmless_replace {q : RowIndices} {row vs : Row} {a b : Nat} {p : MinPos}
    (hv : Writable A vs) : ∀ e ∈ [deleteEdit q row a b, .row ⟨.insert, p, vs⟩], Harmless A e := by
  simp only [List.mem_cons, List.not_mem_nil, or_false, forall_eq_or_imp, forall_eq]
  exact ⟨(fun h : EditType.delete = .insert => nomatch h), fun _ => hv⟩

theorem removeMove_harmless {cfg : Cfg} {p : Position} {dir : HDir}
    {x : List BasicEdit × MinPos} (h : removeMove cfg p dir = .ok (some x)) :
    ∀ e ∈ x.1, Harmless A e := by
  rw [removeMove_eq] at h
  obtain ⟨o, ho, h1⟩ := M.bind_eq_ok.1 h
  cases o with
  | none => cases h1
  | some y => cases h1; simp

theorem flattenNode_harmless {root : Row} {q : RowIndices} {g : FocusRow} {i k : Nat}
    {v : Variant} {cells : List Row} {w : Nat} (hw : Writable A root) (hg : IsFocus root q g)
    (hi : g.row[i]? = some (.container v cells w)) {x : List BasicEdit × MinPos}
    (h : flattenNode ⟨.container v cells w, g, i⟩ k = .ok x) : ∀ e ∈ x.1, Harmless A e := by
  rw [flattenNode_eq hg hi k] at h
  cases h
  refine harmless_replace ?_
  have hc := (writable_container.1 ((hw.rowAt hg.rowAt_eq).mem (List.mem_of_getElem? hi))).2
  refine writable_iff.2 fun n hn => ?_
  obtain ⟨c, h1, h2⟩ := List.mem_flatten.1 hn
  exact (hc c h1).mem h2

theorem removeInGrid_harmless {root : Row} {cfg : Cfg} {q : RowIndices} {g : FocusRow} {i j : Nat}
    {v : Variant} {cells : List Row} {w : Nat} (hw : Writable A root) (hg : IsFocus root q g)
    (hi : g.row[i]? = some (.container v cells w)) {p : Position} {dir : HDir}
    {x : List BasicEdit × MinPos}
    (h : removeInGrid cfg p dir ⟨.container v cells w, g, i⟩ j = .ok (some x)) :
    ∀ e ∈ x.1, Harmless A e := by
  simp only [removeInGrid, Node.grid] at h
  have key : ∀ e : Bool, (if (e && cells.all List.isEmpty) = true then do
      let r ← flattenNode ⟨.container v cells w, g, i⟩ 0
      .ok (some r)
    else removeMove cfg p dir) = .ok (some x) → ∀ e ∈ x.1, Harmless A e := by
    intro e h1
    split at h1
    · obtain ⟨y, hy, h2⟩ := M.bind_eq_ok.1 h1
      cases h2
      exact flattenNode_harmless hw hg hi hy
    · exact removeMove_harmless h1
  cases dir with
  | left => exact key _ h
  | right =>
    obtain ⟨_, _, h⟩ := M.bind_eq_ok.1 h
    obtain ⟨_, _, h⟩ := M.bind_eq_ok.1 h
    exact key _ h

theorem removeAtEdge_harmless {root : Row} {cfg : Cfg} {q : RowIndices} {p : Position} {dir : HDir}
    (hw : Writable A root) (hf : IsFocus root q p.focus) {x : List BasicEdit × MinPos}
    (h : removeAtEdge cfg p dir = .ok (some x)) : ∀ e ∈ x.1, Harmless A e := by
  unfold removeAtEdge at h
  obtain ⟨idx, hidx, h1⟩ := M.bind_eq_ok.1 h
  cases q using List.reverseRecOn with
  | nil => rw [hf.parent_nil] at h1; cases h1
  | append_singleton q ix =>
    obtain ⟨i, j⟩ := ix
    obtain ⟨g, v, cells, w, hg, hi, -, -, hp⟩ := hf.parent_snoc
    rw [hp] at h1
    obtain ⟨idx', hidx', h2⟩ := M.bind_eq_ok.1 h1
    have fl : ∀ k : Nat, ∀ z : M (Option (List BasicEdit × MinPos)),
        z = (do let r ← flattenNode ⟨.container v cells w, g, i⟩ k; .ok (some r)) →
        z = .ok (some x) → ∀ e ∈ x.1, Harmless A e := by
      rintro k z rfl hz
      obtain ⟨y, hy, hz⟩ := M.bind_eq_ok.1 hz
      cases hz
      exact flattenNode_harmless hw hg hi hy
    cases v with
    | fraction =>
      simp only at h2
      split at h2
      · obtain ⟨c, -, h3⟩ := M.bind_eq_ok.1 h2
        obtain ⟨c, -, h4⟩ := M.bind_eq_ok.1 h3
        exact fl _ _ rfl h4
      · exact removeInGrid_harmless hw hg hi h2
    | root =>
      simp only at h2
      split at h2
      · obtain ⟨c, -, h3⟩ := M.bind_eq_ok.1 h2
        obtain ⟨c, -, h4⟩ := M.bind_eq_ok.1 h3
        exact fl _ _ rfl h4
      · exact removeInGrid_harmless hw hg hi h2
    | sub =>
      cases dir
      · exact fl 0 _ rfl h2
      · exact removeInGrid_harmless hw hg hi h2
    | sup =>
      cases dir
      · exact fl 0 _ rfl h2
      · exact removeInGrid_harmless hw hg hi h2
    | table => cases dir <;> exact removeInGrid_harmless hw hg hi h2

theorem removeRange_harmless {root : Row} {r : RowRange} (hr : r.In root)
    {x : List BasicEdit × MinPos} (h : removeRange r = .ok x) : ∀ e ∈ x.1, Harmless A e := by
  obtain ⟨⟨q, hf⟩, hb⟩ := hr
  rw [removeRange_eq hf hb] at h
  cases h
  simp only [List.mem_cons, List.not_mem_nil, or_false, forall_eq]
  exact fun h : EditType.delete = .insert => nomatch h

theorem removeAtCaretPosition_harmless {root : Row} {cfg : Cfg} {p : Position} {dir : HDir}
    (hw : Writable A root) (hp : p.In root) {x : List BasicEdit × MinPos}
    (h : removeAtCaretPosition cfg p dir = .ok (some x)) : ∀ e ∈ x.1, Harmless A e := by
  obtain ⟨⟨q, hf⟩, hb⟩ := hp
  unfold removeAtCaretPosition at h
  simp only at h
  split at h
  · rename_i index s hadj
    obtain ⟨r, hr, h1⟩ := M.bind_eq_ok.1 h
    obtain ⟨y, hy, h2⟩ := M.bind_eq_ok.1 h1
    cases h2
    obtain ⟨h3, rfl⟩ := RowRange.new_eq_ok.1 hr
    exact removeRange_harmless (root := root) ⟨⟨q, hf⟩, h3⟩ hy
  · rename_i index v cells w hadj
    split at h
    · obtain ⟨n, hn, h1⟩ := M.bind_eq_ok.1 h
      obtain ⟨y, hy, h2⟩ := M.bind_eq_ok.1 h1
      cases h2
      obtain ⟨i, hi, h3⟩ := Option.bind_eq_some_iff.1 hadj
      obtain ⟨node, hnode, h4⟩ := Option.map_eq_some_iff.1 h3
      cases h4
      rw [munwrap_eq_ok] at hn
      have hnode' : p.focus.row[index]? = some (.container v cells w) := hnode
      simp only [FocusRow.childAt, hnode', Option.some.injEq] at hn
      subst hn
      exact flattenNode_harmless hw hf hnode' hy
    · exact removeMove_harmless h
  · exact removeAtEdge_harmless hw hf h

theorem removeAtCaret_harmless {root : Row} {cfg : Cfg} {r : RowRange} {mode : RemoveMode}
    (hw : Writable A root) (hr : r.In root) {x : List BasicEdit × MinPos}
    (h : removeAtCaret cfg r mode = .ok (some x)) : ∀ e ∈ x.1, Harmless A e := by
  unfold removeAtCaret at h
  split at h
  · obtain ⟨y, hy, h1⟩ := M.bind_eq_ok.1 h
    cases h1
    exact removeRange_harmless hr hy
  · cases mode with
    | left => exact removeAtCaretPosition_harmless hw ⟨hr.1, hr.2.1⟩ h
    | right => exact removeAtCaretPosition_harmless hw ⟨hr.1, hr.2.1⟩ h
    | range =>
      obtain ⟨y, hy, h1⟩ := M.bind_eq_ok.1 h
      cases h1
      exact removeRange_harmless hr hy

/-! ## The formula and the formulas of the history -/

/-- Along the undo stack formulas are writable. -/
def UndoWritable (A : Str → Prop) (cfg : Cfg) : Row → List CaretEdit → Prop
  | _, [] => True
  | r, a :: as => ∃ p, Truthful cfg p a.edits ∧ applyEdits cfg p a.edits = .ok r ∧
      Writable A p ∧ UndoWritable A cfg p as

/-- Along the redo stack formulas are writable. -/
def RedoWritable (A : Str → Prop) (cfg : Cfg) : Row → List CaretEdit → Prop
  | _, [] => True
  | r, a :: as => Truthful cfg r a.edits ∧ ∃ f, applyEdits cfg r a.edits = .ok f ∧
      Writable A f ∧ RedoWritable A cfg f as

variable {T : Type} {env : Env T}

/-- The formula is writable, and all formulas of the history are. -/
structure AllWritable (A : Str → Prop) (env : Env T) (ed : Editor T) : Prop where
  input : Writable A ed.input
  undo : UndoWritable A env.cfg ed.input ed.undo.undoStack
  redo : RedoWritable A env.cfg ed.input ed.undo.redoStack

theorem written_new : AllWritable A env (Editor.new : Editor T) := ⟨.nil, trivial, trivial⟩

theorem AllWritable.quiet {ed ed' : Editor T} (h : AllWritable A env ed) (hq : Quiet env ed ed') :
    AllWritable A env ed' := by
  refine ⟨?_, ?_, ?_⟩
  · rw [hq.input]; exact h.input
  · rw [hq.input, hq.undo]; exact h.undo
  · rw [hq.input, hq.undo]; exact h.redo

theorem finish_written {ed ed1 : Editor T} {edits : List BasicEdit} {m : MinCaret}
    {act : CaretEdit} (ha : AllWritable A env ed) (ht : Truthful env.cfg ed.input edits)
    (hh : ∀ e ∈ edits, Harmless A e) (h : ed.finish env edits m = .ok (ed1, act)) :
    AllWritable A env ed1 := by
  unfold Editor.finish at h
  cases edits with
  | nil => cases h; exact ⟨ha.input, ha.undo, ha.redo⟩
  | cons e es =>
    simp only [List.isEmpty_cons, Bool.false_eq_true, if_false] at h
    obtain ⟨root', h1, h2⟩ := M.bind_eq_ok.1 h
    cases h2
    exact ⟨applyEdits_writable ha.input hh h1, ⟨ed.input, ht, h1, ha.input, ha.undo⟩, trivial⟩

theorem splice_written {ed ed' : Editor T} {range : MinRange} {values : List Node}
    (ha : AllWritable A env ed) (hv : Writable A values)
    (h : ed.spliceAtRange env range values = .ok ed') : AllWritable A env ed' := by
  unfold Editor.spliceAtRange at h
  obtain ⟨r, hr, h1⟩ := M.bind_eq_ok.1 h
  obtain ⟨hf, hb, -⟩ := RowRange.fromMinimal_sound hr
  rw [replaceRange_eq hf hb values] at h1
  simp only [M.ok_bind] at h1
  obtain ⟨a, ha', h2⟩ := M.bind_eq_ok.1 h1
  obtain ⟨b, hb', h3⟩ := M.bind_eq_ok.1 h2
  obtain ⟨⟨e, act⟩, he, h4⟩ := M.bind_eq_ok.1 h3
  cases h4
  exact (finish_written ha (replace_truthful hf.rowAt_eq r.left_le_right (RowRange.right_le hb))
    (harmless_replace hv) he).quiet ⟨rfl, rfl, Or.inl rfl⟩

theorem applyAutocorrect_written {ed ed' : Editor T} {ac : Option AutocorrectAction}
    (ha : AllWritable A env ed) (hr : ∀ a, ac = some a → Writable A a.rule.result)
    (h : ed.applyAutocorrect env ac = .ok ed') : AllWritable A env ed' := by
  cases ac with
  | none =>
    simp only [Editor.applyAutocorrect] at h
    cases h; exact ha
  | some ac =>
    simp only [Editor.applyAutocorrect] at h
    obtain ⟨c, hc, h1⟩ := M.bind_eq_ok.1 h
    split at h1
    · cases h1; exact ha
    · obtain ⟨range, hrange, h2⟩ := M.bind_eq_ok.1 h1
      split at h2
      · cases h2; exact ha
      · obtain ⟨vs, hvs, h3⟩ := M.bind_eq_ok.1 h2
        obtain ⟨ms, hms, h4⟩ := M.bind_eq_ok.1 h3
        split at h4
        · exact splice_written ha (hr _ rfl) h4
        · cases h4; exact ha

theorem finishAndAutocorrect_written {ed ed' : Editor T} {ac : Option AutocorrectAction}
    {edits : List BasicEdit} {m : MinCaret} (ha : AllWritable A env ed)
    (ht : Truthful env.cfg ed.input edits) (hh : ∀ e ∈ edits, Harmless A e)
    (hr : ∀ a, ac = some a → Writable A a.rule.result)
    (h : ed.finishAndAutocorrect env ac edits m = .ok ed') : AllWritable A env ed' := by
  unfold Editor.finishAndAutocorrect at h
  obtain ⟨⟨e, act⟩, he, h1⟩ := M.bind_eq_ok.1 h
  obtain ⟨ac', hac, h2⟩ := M.bind_eq_ok.1 h1
  refine applyAutocorrect_written (finish_written ha ht hh he) ?_ h2
  rintro a rfl
  cases ac with
  | none => simp only [autocorrectFinish] at hac; cases hac
  | some ac =>
    simp only [autocorrectFinish] at hac
    obtain ⟨r, hr', h3⟩ := M.bind_eq_ok.1 hac
    cases h3
    exact hr ac rfl

/-- Rules of a word of two characters or more have a writable result. -/
def WritableResults (A : Str → Prop) (rules : List AutocompleteRule) : Prop :=
  ∀ r ∈ rules, 2 ≤ r.parser.length → Writable A r.result

/-- Without empty symbols a suggestion of two symbols has a word of two characters or more. -/
theorem suggestion_writable {ed e : Editor T} {res : AutocompleteResults} {m : RuleMatch}
    (hA : ¬ A []) (hres : WritableResults A env.rules) (hw : Writable A ed.input)
    (h : ed.getAutocomplete env = .ok (e, some res)) (hm : m ∈ res.matches') :
    Writable A m.rule.result := by
  obtain ⟨q, o, row, ms, m', g1, g2, g3, g4, g5, -, -, g6, -, -⟩ := C32_open h
  obtain ⟨rule, hrule, ms', hms', hm'⟩ := matchesAll_mem g4 (g5.subset hm)
  obtain ⟨hr1, h2, init, last, ⟨ho, before, hb⟩, hlen, ⟨post, hp⟩, hl, -⟩ := C30_sound hms' hm'
  rw [hr1]
  refine hres _ hrule ?_
  rw [← hp]
  have hne : ∀ s ∈ init, s ≠ [] := by
    rintro s hs rfl
    have : Node.symbol [] ∈ row := by
      refine List.take_subset o row ?_
      rw [hb]
      simp [hs]
    exact hA (writable_symbol.1 ((hw.rowAt g2).mem this))
  cases init with
  | nil => simp at hlen; omega
  | cons s init =>
    have h3 : 0 < s.length := List.length_pos_iff.2 (hne s (by simp))
    have h4 : 0 < last.length := List.length_pos_iff.2 hl
    simp only [List.cons_append, List.flatten_cons, List.flatten_append, List.length_append,
      List.flatten_nil, List.length_nil]
    omega

theorem startAutocorrect_writable {ed e : Editor T} {ac : Option AutocorrectAction}
    (hA : ¬ A []) (hres : WritableResults A env.rules) (hw : Writable A ed.input)
    (h : ed.startAutocorrect env = .ok (e, ac)) : ∀ a, ac = some a → Writable A a.rule.result := by
  rintro a rfl
  obtain ⟨res, m, h1, h2, h3, rfl⟩ := startAutocorrect_some h
  exact suggestion_writable hA hres hw h1 (List.mem_of_getElem? h2)

theorem AllWritable.step {ed ed' : Editor T} {op : Op} (hA : ¬ A [])
    (hres : WritableResults A env.rules) (ha : AllWritable A env ed) (hop : op.Keeps A env.cfg)
    (hs : ed.step env op = .ok ed') : AllWritable A env ed' := by
  have moved : ∀ {ed0 e e' : Editor T} {ac m}, AllWritable A env ed0 →
      ed0.startAutocorrect env = .ok (e, ac) →
      e.finishAndAutocorrect env ac [] m = .ok e' → AllWritable A env e' := by
    intro ed0 e e' ac m h0 h1 h2
    exact finishAndAutocorrect_written (h0.quiet (startAutocorrect_quiet h1).1) truthful_nil (by simp)
      (startAutocorrect_writable hA hres h0.input h1) h2
  have insert : ∀ {e e' : Editor T} {ac vs}, ed.startAutocorrect env = .ok (e, ac) →
      Writable A vs → e.insertNodes env ac vs = .ok e' → AllWritable A env e' := by
    intro e e' ac vs he hv h1
    have hq := ha.quiet (startAutocorrect_quiet he).1
    unfold Editor.insertNodes at h1
    obtain ⟨c, hcc, h2⟩ := M.bind_eq_ok.1 h1
    cases hsel : c.selection with
    | grid g => rw [hsel] at h2; cases h2
    | row r =>
      rw [hsel] at h2
      obtain ⟨⟨q, hf⟩, hb⟩ := caret_row_in hcc hsel
      simp only [insertAtRange_eq hf hb, M.ok_bind] at h2
      exact finishAndAutocorrect_written hq
        (replace_truthful hf.rowAt_eq r.left_le_right (RowRange.right_le hb))
        (harmless_replace hv) (startAutocorrect_writable hA hres ha.input he) h2
  cases op with
  | undo =>
    simp only [Editor.step, Editor.undoOp, UndoRedo.undo] at hs
    obtain ⟨⟨e, b⟩, h1, h2⟩ := M.bind_eq_ok.1 hs
    cases h2
    cases hu : ed.undo.undoStack with
    | nil => rw [hu] at h1; cases h1; exact ha
    | cons a as =>
      rw [hu] at h1
      have := ha.undo
      rw [hu] at this
      obtain ⟨p, g2, g3, g4, g6⟩ := this
      have h4 := applyEdits_inverse g2 g3
      simp only [Editor.applyAction, CaretEdit.inverse, h4, M.ok_bind] at h1
      cases h1
      exact ⟨g4, g6, g2, ed.input, g3, ha.input, ha.redo⟩
  | redo =>
    simp only [Editor.step, Editor.redoOp, UndoRedo.redo] at hs
    obtain ⟨⟨e, b⟩, h1, h2⟩ := M.bind_eq_ok.1 hs
    cases h2
    cases hu : ed.undo.redoStack with
    | nil => rw [hu] at h1; cases h1; exact ha
    | cons a as =>
      rw [hu] at h1
      have := ha.redo
      rw [hu] at this
      obtain ⟨g2, f, g3, g4, g6⟩ := this
      simp only [Editor.applyAction, g3, M.ok_bind] at h1
      cases h1
      exact ⟨g4, ⟨ed.input, g2, g3, ha.input, ha.undo⟩, g6⟩
  | moveCaret d m =>
    simp only [Editor.step, Editor.moveCaret] at hs
    obtain ⟨⟨e, ac⟩, he, h1⟩ := M.bind_eq_ok.1 hs
    obtain ⟨c, hcc, h2⟩ := M.bind_eq_ok.1 h1
    obtain ⟨c', hc', h3⟩ := M.bind_eq_ok.1 h2
    exact moved ha he h3
  | selectWithCaret d m =>
    simp only [Editor.step, Editor.selectWithCaret] at hs
    obtain ⟨⟨e', b⟩, h0, he'⟩ := M.bind_eq_ok.1 hs
    cases he'
    obtain ⟨⟨e, ac⟩, he, h1⟩ := M.bind_eq_ok.1 h0
    obtain ⟨c, hcc, h2⟩ := M.bind_eq_ok.1 h1
    cases hsel : c.selection with
    | grid g => rw [hsel] at h2; cases h2
    | row r =>
      rw [hsel] at h2
      obtain ⟨o, ho, h3⟩ := M.bind_eq_ok.1 h2
      cases o with
      | none => cases h3; exact ha.quiet (startAutocorrect_quiet he).1
      | some p =>
        obtain ⟨e2, he2, h4⟩ := M.bind_eq_ok.1 h3
        cases h4
        exact moved ha he he2
  | removeAtCaret mode =>
    simp only [Editor.step, Editor.removeAtCaret] at hs
    obtain ⟨⟨e', b⟩, h0, he'⟩ := M.bind_eq_ok.1 hs
    cases he'
    obtain ⟨⟨e, ac⟩, he, h1⟩ := M.bind_eq_ok.1 h0
    have hq := ha.quiet (startAutocorrect_quiet he).1
    obtain ⟨c, hcc, h2⟩ := M.bind_eq_ok.1 h1
    cases hsel : c.selection with
    | grid g => rw [hsel] at h2; cases h2
    | row r =>
      rw [hsel] at h2
      obtain ⟨o, ho, h3⟩ := M.bind_eq_ok.1 h2
      cases o with
      | none => cases h3; exact hq
      | some x =>
        obtain ⟨edits, p⟩ := x
        obtain ⟨e2, he2, h4⟩ := M.bind_eq_ok.1 h3
        cases h4
        have hr := caret_row_in hcc hsel
        exact finishAndAutocorrect_written hq (removeAtCaret_truthful hr ho)
          (removeAtCaret_harmless hq.input hr ho)
          (startAutocorrect_writable hA hres ha.input he) he2
  | insertAtCaret vs =>
    simp only [Editor.step, Editor.insertAtCaret] at hs
    obtain ⟨⟨e, ac⟩, he, h1⟩ := M.bind_eq_ok.1 hs
    refine insert he (writable_iff.2 fun n hn => ?_) h1
    obtain ⟨s, hs, rfl⟩ := List.mem_map.1 hn
    exact writable_symbol.2 (hop s hs)
  | selectAll =>
    simp only [Editor.step] at hs
    cases hs
    exact ha.quiet ⟨rfl, rfl, Or.inl rfl⟩
  | startSelection p m =>
    simp only [Editor.step, Editor.startSelection] at hs
    obtain ⟨⟨e, ac⟩, he, h1⟩ := M.bind_eq_ok.1 hs
    exact moved (ed0 := { ed with selectionMode := some m }) (ha.quiet ⟨rfl, rfl, Or.inl rfl⟩) he h1
  | extendSelection p =>
    simp only [Editor.step, Editor.extendSelection] at hs
    obtain ⟨⟨e, ac⟩, he, h1⟩ := M.bind_eq_ok.1 hs
    exact moved ha he h1
  | finishSelection =>
    simp only [Editor.step] at hs
    cases hs
    exact ha.quiet ⟨rfl, rfl, Or.inl rfl⟩
  | paste d k =>
    simp only [Editor.step, Editor.paste] at hs
    obtain ⟨⟨e', b⟩, h0, he'⟩ := M.bind_eq_ok.1 hs
    cases he'
    obtain ⟨⟨e, ac⟩, he, h1⟩ := M.bind_eq_ok.1 h0
    cases k with
    | false => cases h1
    | true =>
      simp only [if_true] at h1
      cases hd : deserializeNodes env.cfg d with
      | none => rw [hd] at h1; cases h1; exact ha.quiet (startAutocorrect_quiet he).1
      | some nodes =>
        rw [hd] at h1
        obtain ⟨e2, he2, h2⟩ := M.bind_eq_ok.1 h1
        cases h2
        exact insert he (hop nodes hd) he2
  | openAutocomplete =>
    simp only [Editor.step] at hs
    obtain ⟨⟨e, r⟩, he, h1⟩ := M.bind_eq_ok.1 hs
    cases h1
    exact ha.quiet (getAutocomplete_quiet he).1
  | getAutocomplete =>
    simp only [Editor.step] at hs
    obtain ⟨⟨e, r⟩, he, h1⟩ := M.bind_eq_ok.1 hs
    cases h1
    exact ha.quiet (getAutocomplete_quiet he).1
  | finishAutocomplete accept =>
    simp only [Editor.step, Editor.finishAutocomplete] at hs
    obtain ⟨⟨e', b⟩, h0, he'⟩ := M.bind_eq_ok.1 hs
    cases he'
    cases accept with
    | false => cases h0; exact ha
    | true =>
      simp only [Bool.not_true, Bool.false_eq_true, if_false] at h0
      obtain ⟨⟨e, r⟩, he, h1⟩ := M.bind_eq_ok.1 h0
      have hq := ha.quiet (getAutocomplete_quiet he).1
      cases r with
      | none => cases h1; exact hq
      | some a =>
        obtain ⟨s, hsel, h2⟩ := M.bind_eq_ok.1 h1
        obtain ⟨e2, he2, h3⟩ := M.bind_eq_ok.1 h2
        cases h3
        refine splice_written hq (suggestion_writable hA hres ha.input he ?_) he2
        exact List.mem_of_getElem? (munwrap_eq_ok.1 hsel)
  | moveInAutocomplete d =>
    simp only [Editor.step, Editor.moveInAutocomplete] at hs
    obtain ⟨⟨e', b⟩, h0, he'⟩ := M.bind_eq_ok.1 hs
    cases he'
    obtain ⟨⟨e, r⟩, he, h1⟩ := M.bind_eq_ok.1 h0
    have hx := ha.quiet (getAutocomplete_quiet he).1
    cases r with
    | none => cases h1; exact hx
    | some a =>
      obtain ⟨a', ha', h2⟩ := M.bind_eq_ok.1 h1
      obtain ⟨s, hs, h3⟩ := M.bind_eq_ok.1 h2
      cases h3
      exact hx.quiet ⟨rfl, rfl, Or.inl rfl⟩
  | getSyntaxTree =>
    simp only [Editor.step, Editor.getSyntaxTree] at hs
    obtain ⟨⟨e, t⟩, he, h1⟩ := M.bind_eq_ok.1 hs
    cases h1
    split at he
    · cases he; exact ha
    · obtain ⟨t', ht', h2⟩ := M.bind_eq_ok.1 he
      cases h2
      exact ⟨ha.input, ha.undo, ha.redo⟩
  | spliceAtRange r vs => exact splice_written ha hop hs

theorem AllWritable.run {ed ed' : Editor T} {ops : List Op} (hA : ¬ A [])
    (hres : WritableResults A env.rules) (ha : AllWritable A env ed)
    (hop : ∀ op ∈ ops, op.Keeps A env.cfg)
    (hs : ed.run env ops = .ok ed') : AllWritable A env ed' := by
  induction ops generalizing ed with
  | nil => cases hs; exact ha
  | cons op ops ih =>
    obtain ⟨e, h1, h2⟩ := M.bind_eq_ok.1 hs
    exact ih (ha.step hA hres (hop op (by simp)) h1) (fun o ho => hop o (by simp [ho])) h2

theorem Op.Writes.keeps {op : Op} {cfg : Cfg} (h : op.Writes A) : op.Keeps A cfg := by
  cases op <;> first | exact h | exact h.elim

/-! ## The component -/

namespace Component

open Handled

variable {S : Setting} {c c' : Component} {G : Geom} {v : View}

theorem calls_keep {t : InputEvent} (ht : t.Keeps A S) : ∀ op ∈ t.calls S, op.Keeps A S.env.cfg := by
  rcases t with _ | _ | (_ | s) | _ <;>
    simp only [InputEvent.calls, List.mem_cons, List.not_mem_nil, or_false, forall_eq_or_imp,
      forall_eq, false_implies, implies_true]
  · exact ⟨trivial, trivial⟩
  · exact ⟨trivial, trivial⟩
  · exact ⟨ht, trivial⟩

theorem handle_written (hA : ¬ A []) (hres : WritableResults A S.env.rules) {ev : Event}
    (hc : AllWritable A S.env c.editor ∧ ∀ t ∈ c.tasks, t.Keeps A S) (hev : ev.Keeps A S)
    (h : (c.handle S v ev).left = some c') :
    AllWritable A S.env c'.editor ∧ ∀ t ∈ c'.tasks, t.Keeps A S := by
  obtain ⟨hw, ht⟩ := hc
  have after : ∀ {c0 c1 : Component} {ops : List Op}, After S ops c0 c1 → AllWritable A S.env c0.editor →
      c0.tasks = c.tasks → (∀ op ∈ ops, op.Keeps A S.env.cfg) →
      AllWritable A S.env c1.editor ∧ ∀ t ∈ c1.tasks, t.Keeps A S := by
    intro c0 c1 ops h1 h2 h3 h4
    exact ⟨h2.run hA hres h4 h1.run, by rw [h1.tasks, h3]; exact ht⟩
  have edit : ∀ {c0 c1 : Component} {G : Geom} {op : Op}, (c0.handleEdit S G op).left = some c1 →
      AllWritable A S.env c0.editor → c0.tasks = c.tasks → op.Keeps A S.env.cfg →
      AllWritable A S.env c1.editor ∧ ∀ t ∈ c1.tasks, t.Keeps A S := by
    intro c0 c1 G op h1 h2 h3 h4
    refine after (handleEdit_after h1).1 h2 h3 ?_
    simp only [List.mem_cons, List.not_mem_nil, or_false, forall_eq_or_imp, forall_eq]
    exact ⟨h4, trivial⟩
  have select : ∀ {c1 : Component} {G : Geom} {op : Op}, (c.handleSelect S G op).left = some c1 →
      op.Keeps A S.env.cfg → AllWritable A S.env c1.editor ∧ ∀ t ∈ c1.tasks, t.Keeps A S := by
    intro c1 G op h1 h4
    obtain ⟨h2, h3⟩ := handleSelect_after h1
    exact ⟨hw.step hA hres h4 h2, by rw [h3]; exact ht⟩
  have release : ∀ {c1 : Component} {pos : Coord}, (c.handleRelease S v pos).left = some c1 →
      AllWritable A S.env c1.editor ∧ ∀ t ∈ c1.tasks, t.Keeps A S := by
    intro c1 pos h1
    rcases handleRelease_after h1 with ⟨rfl, -⟩ | ⟨p, ed, -, h2, rfl⟩
    · exact ⟨hw, ht⟩
    · exact ⟨(hw.step (op := .extendSelection p) hA hres trivial h2).quiet ⟨rfl, rfl, Or.inl rfl⟩, ht⟩
  have mathml : ∀ {c0 c1 : Component} {G : Geom} {d : Dom},
      (c0.handleMathML S G d).left = some c1 →
      AllWritable A S.env c0.editor → c0.tasks = c.tasks →
      (∀ nodes es, fromElement S.browser d = .ok (nodes, es) → Writable A nodes) →
      AllWritable A S.env c1.editor ∧ ∀ t ∈ c1.tasks, t.Keeps A S := by
    intro c0 c1 G d h1 h2 h3 h4
    rcases handleMathML_after h1 with ⟨rfl, -⟩ | ⟨root, es, h5, h6⟩
    · exact ⟨h2, by rw [h3]; exact ht⟩
    · refine after h6 h2 h3 ?_
      simp only [List.mem_cons, List.not_mem_nil, or_false, forall_eq_or_imp, forall_eq]
      exact ⟨h4 root es h5, trivial⟩
  cases ev with
  | arrow d => exact edit h hw rfl trivial
  | undoKey => exact edit h hw rfl trivial
  | redoKey => exact edit h hw rfl trivial
  | otherKey =>
    refine after (redraw_after h).1 hw rfl ?_
    simp only [List.mem_cons, List.not_mem_nil, or_false, forall_eq]
    trivial
  | beforeInput i =>
    cases h
    refine ⟨hw, fun t h => ?_⟩
    rcases List.mem_append.1 h with h | h
    · exact ht t h
    · rw [List.mem_singleton] at h
      subst h
      exact hev
  | timer =>
    obtain ⟨done, h1, -, h2, -⟩ := handleTasks_after c.tasks rfl h
    refine ⟨hw.run hA hres ?_ h2, fun t h3 => ht t (by rw [h1]; simp [h3])⟩
    intro op hop
    obtain ⟨t, h3, h4⟩ := List.mem_flatMap.1 hop
    exact calls_keep (ht t (by rw [h1]; simp [h3])) op h4
  | copy => obtain ⟨data, -, h2⟩ := left_call h; cases h2; exact ⟨hw, ht⟩
  | cut =>
    obtain ⟨data, -, h2⟩ := left_call h
    exact edit h2 hw rfl trivial
  | paste json text =>
    obtain ⟨⟨ed, ok⟩, h1, h2⟩ := left_call h
    have h3 : c.editor.step S.env (.paste (if json.isEmpty then text else json) true) = .ok ed := by
      simp only [Editor.step, h1, M.ok_bind]
    have h4 := hw.step (op := .paste (if json.isEmpty then text else json) true) hA hres hev h3
    cases ok with
    | true =>
      refine after (redraw_after h2).1 h4 rfl ?_
      simp only [List.mem_cons, List.not_mem_nil, or_false, forall_eq]
      trivial
    | false => cases h2; exact ⟨h4, ht⟩
  | pointerDown pos =>
    rcases left_script h with ⟨rfl, -⟩ | ⟨p, -, h2⟩
    · exact ⟨hw, ht⟩
    · exact edit h2 hw rfl trivial
  | pointerUp pos => exact release h
  | pointerCancel pos => exact release h
  | pointerMove pos =>
    simp only [handle] at h
    split at h
    · rcases left_script h with ⟨rfl, -⟩ | ⟨p, -, h2⟩
      · exact ⟨hw, ht⟩
      · exact select h2 trivial
    · cases h; exact ⟨hw, ht⟩
  | mouseDown pos clicks =>
    simp only [handle] at h
    split at h
    · rcases left_script h with ⟨rfl, -⟩ | ⟨p, -, h2⟩
      · exact ⟨hw, ht⟩
      · split at h2
        · exact select h2 trivial
        · split at h2
          · exact select h2 trivial
          · cases h2; exact ⟨hw, ht⟩
    · cases h; exact ⟨hw, ht⟩
  | connect d => exact mathml h hw rfl hev
  | disconnect => cases h; exact ⟨hw, ht⟩
  | setAttribute d => exact mathml h hw rfl hev

theorem handleAll_written (hA : ¬ A []) (hres : WritableResults A S.env.rules)
    {evs : List (View × Event)}
    (hc : AllWritable A S.env c.editor ∧ ∀ t ∈ c.tasks, t.Keeps A S)
    (hev : ∀ x ∈ evs, x.2.Keeps A S) (h : c.handleAll S evs = some c') :
    AllWritable A S.env c'.editor := by
  induction evs generalizing c with
  | nil => cases h; exact hc.1
  | cons x evs ih =>
    obtain ⟨v, ev⟩ := x
    obtain ⟨c1, h1, h2⟩ := Option.bind_eq_some_iff.1 h
    exact ih (handle_written hA hres hc (hev (v, ev) (List.mem_cons_self ..)) h1) (fun x hx => hev x (by simp [hx])) h2

end Component

end Aftermath
