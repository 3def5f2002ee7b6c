import Verif.Proof.Writable
import Verif.Proof.HandlerLeft
import Verif.Props.Words
import Verif.Props.Selection

/-! # C84: the formulas that can be written without pasting -/

namespace Aftermath

variable {A : Str → Prop} {S : Setting}

theorem shipped_writable (hA1 : ∀ c, A [c]) : WritableResults A shippedAutocomplete := by
  have hs : ∀ w : Str, Writable A (w.map fun c => Node.symbol [c]) := by
    intro w
    induction w with
    | nil => exact .nil
    | cons c w ih => exact .symbol (hA1 c) ih
  intro r hr h2
  simp only [shippedAutocomplete, List.mem_reverse, List.mem_cons, List.not_mem_nil, or_false] at hr
  rcases hr with rfl | rfl | rfl | rfl | rfl | rfl | rfl | rfl | rfl | rfl | rfl | rfl | rfl | rfl | rfl
  · simp at h2
  · simp at h2
  · simp at h2
  · exact .root .nil .nil .nil
  · exact hs "∞".toList
  · exact hs "lim".toList
  · exact hs "limsup".toList
  · exact hs "liminf".toList
  · exact hs "∑".toList
  · exact hs "∫".toList
  · exact hs "∫".toList
  · exact .table .nil .nil
  · exact .table .nil .nil
  · exact hs "≥".toList
  · exact hs "≤".toList

/-- From `ed` calls that write lead to `ed'`. -/
def WritesTo (A : Str → Prop) (S : Setting) (ed ed' : Editor SNode) : Prop :=
  ∃ ops : List Op, (∀ op ∈ ops, op.Writes A) ∧ ed.run S.env ops = .ok ed'

theorem WritesTo.refl {ed : Editor SNode} : WritesTo A S ed ed := ⟨[], by simp, rfl⟩

theorem WritesTo.trans {a b c : Editor SNode} (h : WritesTo A S a b) (h' : WritesTo A S b c) :
    WritesTo A S a c := by
  obtain ⟨o1, h1, h2⟩ := h
  obtain ⟨o2, h3, h4⟩ := h'
  refine ⟨o1 ++ o2, ?_, Editor.run_append h2 h4⟩
  intro op hop
  rcases List.mem_append.1 hop with h | h
  · exact h1 op h
  · exact h3 op h

theorem WritesTo.one {a b : Editor SNode} (op : Op) (ho : op.Writes A)
    (h : a.step S.env op = .ok b) : WritesTo A S a b := by
  refine ⟨[op], by simpa using ho, ?_⟩
  simp only [Editor.run, h, M.ok_bind]

/-- Behind nothing there is nothing to correct. -/
theorem textLeft_zero (row : Row) : TextLeft row 0 [] := ⟨Nat.zero_le _, [], by simp, by simp⟩

theorem startAutocorrect_zero {ed : Editor SNode} {q : RowIndices} {row : Row}
    (hwf : rowWf ed.input = true) (hc : ed.caret = .at ⟨q, 0⟩)
    (hrow : rowAt ed.input q = some row) :
    ed.startAutocorrect S.env = .ok ({ ed with currentAutocomplete := none }, none) := by
  rcases getAutocomplete_text hwf (env := S.env) Component.shipped_rules hc hrow
    (textLeft_zero row) with ⟨-, h⟩ | ⟨i, x, h, -, -⟩
  · simp only [Editor.startAutocorrect, h, M.ok_bind]
  · exfalso
    have : suggested S.env.rules [] = [] := by
      unfold suggested
      simp only [List.flatMap_eq_nil_iff, List.map_eq_nil_iff, List.filter_eq_nil_iff]
      intro k _ r _ hf
      have := fits_iff.1 hf
      simp at this
      omega
    rw [this] at h
    simp at h

/-- The caret can be put at the start of any row, without any replacement. -/
theorem jump {ed : Editor SNode} (q : RowIndices) (hwf : rowWf ed.input = true) :
    ∃ ed', WritesTo A S ed ed' ∧ ed'.input = ed.input ∧ ed'.caret = .at ⟨q, 0⟩ := by
  have hstart : ∃ e, ({ ed.selectAll with selectionMode := some MoveMode.char }).startAutocorrect
      S.env = .ok (e, none) := by
    by_cases hne : ed.input = []
    · refine ⟨_, startAutocorrect_zero (q := []) (row := []) hwf ?_ ?_⟩
      · simp [Editor.selectAll, hne, MinCaret.at]
      · simp [Editor.selectAll, hne]
    · have := (C51_select_all (env := S.env) hwf rfl).2.1
      refine ⟨_, startAutocorrect_selection this ?_⟩
      exact Nat.ne_of_lt (List.length_pos_iff.2 hne)
  obtain ⟨e, he⟩ := hstart
  have hq := (startAutocorrect_quiet he).1
  have h2 : ed.selectAll.startSelection S.env ⟨q, 0⟩ .char =
      .ok { e with caret := .at ⟨q, 0⟩ } := by
    simp only [Editor.startSelection, he, M.ok_bind, Editor.finishAndAutocorrect, Editor.finish,
      List.isEmpty_nil, if_true, autocorrectFinish, Editor.applyAutocorrect]
    rfl
  refine ⟨{ e with caret := .at ⟨q, 0⟩ }, (WritesTo.one .selectAll trivial rfl).trans
    (WritesTo.one (.startSelection ⟨q, 0⟩ .char) trivial h2), ?_, rfl⟩
  rw [show ({ e with caret := MinCaret.at ⟨q, 0⟩ } : Editor SNode).input = e.input from rfl, hq.input]
  rfl

/-- Changing a cell changes the row around it. -/
theorem ReplacedAt.inCell {root root' row old new : Row} {q : RowIndices} {i j w : Nat} {v : Variant}
    {cells : List Row} (h : ReplacedAt root (q ++ [(i, j)]) old new root')
    (hrow : rowAt root q = some row) (hi : row[i]? = some (.container v cells w)) :
    ReplacedAt root q row (row.set i (.container v (cells.set j new) w)) root' := by
  induction q generalizing root root' with
  | nil =>
    cases hrow
    generalize hp : [] ++ [(i, j)] = p at h
    cases h with
    | here => simp at hp
    | under hlen hn hn' ho hcl hc hc' hco h =>
      simp only [List.nil_append, List.cons.injEq, Prod.mk.injEq] at hp
      obtain ⟨⟨rfl, rfl⟩, rfl⟩ := hp
      cases h
      rw [hi] at hn
      cases hn
      have : root' = row.set i (.container v (cells.set j new) w) := by
        refine List.ext_getElem? fun k => ?_
        rw [List.getElem?_set]
        split
        · rename_i hk
          subst hk
          rw [if_pos (List.getElem?_eq_some_iff.1 hi).1, hn']
          congr 2
          refine List.ext_getElem? fun l => ?_
          rw [List.getElem?_set]
          split
          · rename_i hl
            subst hl
            rw [if_pos (List.getElem?_eq_some_iff.1 hc).1, hc']
          · exact hco l (by omega)
        · exact ho k (by omega)
      rw [this]
      exact .here _ _
  | cons ix q ih =>
    obtain ⟨a, b⟩ := ix
    obtain ⟨v', cells', w', c, h1, h2, h3⟩ := rowAt_cons.1 hrow
    generalize hp : (a, b) :: q ++ [(i, j)] = p at h
    cases h with
    | here => simp at hp
    | under hlen hn hn' ho hcl hc hc' hco h =>
      simp only [List.cons_append, List.cons.injEq, Prod.mk.injEq] at hp
      obtain ⟨⟨rfl, rfl⟩, rfl⟩ := hp
      rw [hn] at h1
      cases h1
      rw [hc] at h2
      cases h2
      exact .under hlen hn hn' ho hcl hc hc' hco (ih h h3)

/-- Whatever is writable can be written in front of any row. -/
theorem write_front (hA1 : ∀ c, A [c]) {new : Row} (hnew : Writable A new) {ed : Editor SNode}
    {q : RowIndices} {row : Row} (hwf : rowWf ed.input = true) (hrow : rowAt ed.input q = some row) :
    ∃ ed', WritesTo A S ed ed' ∧ ReplacedAt ed.input q row (new ++ row) ed'.input := by
  have word : ∀ {ed : Editor SNode} {q : RowIndices} {row result : Row} (w : String),
      rowWf ed.input = true → rowAt ed.input q = some row → (w, result) ∈ completions →
      ∃ ed', WritesTo A S ed ed' ∧ ReplacedAt ed.input q row (result ++ row) ed'.input := by
    intro ed q row result w hwf hrow hw
    obtain ⟨ed1, h1, h2, h3⟩ := jump (A := A) (S := S) q hwf
    rw [← h2] at hwf hrow
    obtain ⟨ed2, ed3, h4, h5, h6⟩ := C75_completions (S := S) hwf h3 hrow (textLeft_zero row) hw
    refine ⟨ed3, (h1.trans ⟨_, ?_, h4⟩).trans (.one (.finishAutocomplete true) trivial ?_), ?_⟩
    · intro op hop
      obtain ⟨c, -, rfl⟩ := List.mem_map.1 hop
      intro s hs
      rw [List.mem_singleton] at hs
      subst hs
      exact hA1 c
    · simp only [Editor.step, h5, M.ok_bind]
    · rw [← h2]
      simpa using h6
  induction hnew generalizing ed q row with
  | nil => exact ⟨ed, .refl, .refl hrow⟩
  | @symbol s rest hs hrest ih =>
    obtain ⟨ed1, h1, h2⟩ := ih hwf hrow
    have hwf1 := h2.wf hwf (by rw [rowWf_append, hrest.wf, rowAt_wf hwf hrow]; rfl)
    obtain ⟨ed2, h3, h4, h5⟩ := jump (A := A) (S := S) q hwf1
    have hwf2 : rowWf ed2.input = true := by rw [h4]; exact hwf1
    have hrow2 : rowAt ed2.input q = some (rest ++ row) := by rw [h4]; exact h2.rowAt_new
    have hst := startAutocorrect_zero (S := S) hwf2 h5 hrow2
    have hsel : selectionOf ed2.input ed2.caret = .ok (.row ⟨q, 0, 0⟩) := by
      rw [h5]
      exact selectionOf_at hwf2 ⟨_, hrow2, Nat.zero_le _⟩
    obtain ⟨row', ed3, a, g1, g2, g3, -, -⟩ := insertNodes_ok (env := S.env)
      (values := [s].map Node.symbol) hwf2 rfl hsel hst
    rw [hrow2] at g2
    cases g2
    refine ⟨ed3, (h1.trans h3).trans (.one (.insertAtCaret [s]) (by simpa [Op.Writes] using hs) ?_), ?_⟩
    · simp only [Editor.step, Editor.insertAtCaret, hst, M.ok_bind, g1]
    · refine h2.trans ?_
      rw [← h4]
      simpa using g3
  | @root a b rest ha hb hrest iha ihb ih =>
    obtain ⟨ed1, h1, h2⟩ := ih hwf hrow
    have hr0 := rowAt_wf hwf hrow
    have hwf1 := h2.wf hwf (by rw [rowWf_append, hrest.wf, hr0]; rfl)
    obtain ⟨ed2, h3, h4⟩ := word (result := [.root [] []]) "sqrt" hwf1 h2.rowAt_new
      (by simp [completions])
    have hwf2 := h4.wf hwf1 (by
      simp [Node.root, rowWf, Node.wf, cellsWf, shapeOk, rowWf_append, hrest.wf, hr0])
    have hc0 : rowAt ed2.input (q ++ [(0, 0)]) = some [] := by
      rw [rowAt_append, h4.rowAt_new]; rfl
    obtain ⟨ed3, h5, h6⟩ := iha hwf2 hc0
    have h7 := h6.inCell h4.rowAt_new (v := .root) (cells := [[], []]) (w := 2) rfl
    have hwf3 := h6.wf hwf2 (by simpa using ha.wf)
    have hc1 : rowAt ed3.input (q ++ [(0, 1)]) = some [] := by
      rw [rowAt_append, h7.rowAt_new]; rfl
    obtain ⟨ed4, h8, h9⟩ := ihb hwf3 hc1
    have h10 := h9.inCell h7.rowAt_new (v := .root) (cells := [a, []]) (w := 2) (by simp)
    refine ⟨ed4, ((h1.trans h3).trans h5).trans h8, ?_⟩
    have := ((h2.trans h4).trans h7).trans h10
    simpa [Node.root] using this
  | @table a rest ha hrest iha ih =>
    obtain ⟨ed1, h1, h2⟩ := ih hwf hrow
    have hr0 := rowAt_wf hwf hrow
    have hwf1 := h2.wf hwf (by rw [rowWf_append, hrest.wf, hr0]; rfl)
    obtain ⟨ed2, h3, h4⟩ := word (result := [.container .table [[]] 1]) "vector" hwf1 h2.rowAt_new
      (by simp [completions])
    have hwf2 := h4.wf hwf1 (by
      simp [rowWf, Node.wf, cellsWf, shapeOk, rowWf_append, hrest.wf, hr0])
    have hc0 : rowAt ed2.input (q ++ [(0, 0)]) = some [] := by
      rw [rowAt_append, h4.rowAt_new]; rfl
    obtain ⟨ed3, h5, h6⟩ := iha hwf2 hc0
    have h7 := h6.inCell h4.rowAt_new (v := .table) (cells := [[]]) (w := 1) rfl
    refine ⟨ed3, (h1.trans h3).trans h5, ?_⟩
    simpa using (h2.trans h4).trans h7

/-- **C84.** With the shipped rules, and if single characters can be inserted and empty symbols can
not: the formulas that a fresh editor can get to without pasting and without splicing are those of
symbols, roots and tables of one cell. -/
theorem C84 (hA0 : ¬ A []) (hA1 : ∀ c, A [c]) (row : Row) :
    (∃ ops ed, (∀ op ∈ ops, op.Writes A) ∧ Editor.new.run S.env ops = .ok ed ∧ ed.input = row) ↔
      Writable A row := by
  constructor
  · rintro ⟨ops, ed, h1, h2, rfl⟩
    exact (written_new.run hA0 (shipped_writable hA1) (fun op h => (h1 op h).keeps) h2).input
  · intro h
    obtain ⟨ed, ⟨ops, h1, h2⟩, h3⟩ := write_front (S := S) hA1 h (ed := Editor.new) (q := [])
      (row := []) rfl rfl
    refine ⟨ops, ed, h1, h2, ?_⟩
    have := h3.rowAt_new
    simpa using this

/-- A node that a writable formula may have. -/
def Node.Allowed (A : Str → Prop) (n : Node) : Prop :=
  (∃ s, n = .symbol s ∧ A s) ∨ (∃ a b, n = .root a b) ∨ ∃ a, n = .container .table [a] 1

theorem writable_of_allowed (k : Nat) : ∀ row : Row, sizeOf row ≤ k →
    (∀ q r, rowAt row q = some r → ∀ n ∈ r, n.Allowed A) → Writable A row := by
  induction k with
  | zero =>
    intro row hk
    cases row <;> simp at hk
  | succ k ih =>
    intro row hk h
    have cell : ∀ {v : Variant} {cells : List Row} {w : Nat} {c : Row},
        Node.container v cells w ∈ row → c ∈ cells → Writable A c := by
      intro v cells w c hn hc
      refine ih c ?_ fun q r hr => ?_
      · have h1 := List.sizeOf_lt_of_mem hn
        have h2 := List.sizeOf_lt_of_mem hc
        have h3 : sizeOf (Node.container v cells w) = 1 + sizeOf v + sizeOf cells + sizeOf w := by
          simp
        omega
      · obtain ⟨i, hi⟩ := List.getElem?_of_mem hn
        obtain ⟨j, hj⟩ := List.getElem?_of_mem hc
        exact h ((i, j) :: q) r (rowAt_cons.2 ⟨v, cells, w, c, hi, hj, hr⟩)
    refine writable_iff.2 fun n hn => ?_
    rcases h [] row rfl n hn with ⟨s, rfl, hs⟩ | ⟨a, b, rfl⟩ | ⟨a, rfl⟩
    · exact writable_symbol.2 hs
    · exact .root (cell hn (by simp)) (cell hn (by simp)) .nil
    · exact .table (cell hn (by simp)) .nil

/-- **C84.** These are the formulas of which all nodes, in all cells, are symbols, roots or tables of
one cell. So there is no fraction, no superscript and no subscript. -/
theorem C84_nodes (row : Row) : Writable A row ↔
    ∀ q r, rowAt row q = some r → ∀ n ∈ r, n.Allowed A := by
  constructor
  · intro h q r hr n hn
    have h1 := (h.rowAt hr).mem hn
    cases n with
    | symbol s => exact Or.inl ⟨s, rfl, writable_symbol.1 h1⟩
    | container v cells w =>
      obtain ⟨⟨rfl, h2, rfl⟩ | ⟨rfl, h2, rfl⟩, -⟩ := writable_container.1 h1
      · match cells, h2 with
        | [a, b], _ => exact Or.inr (Or.inl ⟨a, b, rfl⟩)
      · match cells, h2 with
        | [a], _ => exact Or.inr (Or.inr ⟨a, rfl⟩)
  · exact writable_of_allowed _ row (Nat.le_refl _)

/-- **C84.** In an editor with the shipped rules, formulas stay free of other nodes if what is
inserted, pasted and spliced is. -/
theorem C84_keeps (hA0 : ¬ A []) (hA1 : ∀ c, A [c]) {ops : List Op} {ed : Editor SNode}
    (hops : ∀ op ∈ ops, op.Keeps A S.cfg) (h : Editor.new.run S.env ops = .ok ed) :
    Writable A ed.input :=
  (written_new.run hA0 (shipped_writable hA1) hops h).input

/-- **C84.** The formula of a component is made of symbols, roots and tables of one cell after any
events, exceptions included, unless other nodes are pasted or set by the attribute. -/
theorem C84_component (hA0 : ¬ A []) (hA1 : ∀ c, A [c]) {c₀ c : Component}
    {evs : List (View × Event)} (h0 : Component.new S = .ok c₀)
    (hev : ∀ x ∈ evs, x.2.Keeps A S) (h : c₀.handleAll S evs = some c) :
    Writable A c.editor.input := by
  have h1 : AllWritable A S.env c₀.editor ∧ ∀ t ∈ c₀.tasks, t.Keeps A S := by
    unfold Component.new at h0
    obtain ⟨⟨ed, t⟩, h1, h2⟩ := M.bind_eq_ok.1 h0
    obtain ⟨e, -, h3⟩ := M.bind_eq_ok.1 h2
    cases h3
    refine ⟨(written_new (T := SNode)).step (op := .getSyntaxTree) hA0 (shipped_writable hA1) trivial
      ?_, by simp⟩
    simp only [Editor.step, h1, M.ok_bind]
  exact (Component.handleAll_written hA0 (shipped_writable hA1) h1 hev h).input

/-! ## Examples -/

/-- The texts of the symbols are not empty. -/
def NonEmpty (s : Str) : Prop := s ≠ []

/-- A table of the square root of `x` and `y`. -/
example : Writable NonEmpty
    [.container .table [[.root [] [.symbol ['x']], .symbol ['y']]] 1] :=
  .table (.root .nil (.symbol nofun .nil) (.symbol nofun .nil)) .nil

/-- `x^2` as a superscript is out of reach. -/
example : ¬ Writable NonEmpty [.symbol ['x'], .sup [.symbol ['2']]] := by
  intro h
  have := writable_container.1 (h.mem (n := .sup [.symbol ['2']]) (by simp))
  simp at this

/-- Typing `x/y` and moving the caret away leaves three symbols. -/
example : (Editor.run (T := Unit) ⟨.dev, fun _ => .ok (), shippedAutocomplete⟩ Editor.new
    (typing ['x', '/', 'y'] ++ [.moveCaret .left .char, .moveCaret .left .char])).map (·.input) =
    .ok [.symbol ['x'], .symbol ['/'], .symbol ['y']] := by decide +kernel

/-- An empty symbol makes a difference: in front of it, `/` becomes a fraction. -/
example : (Editor.run (T := Unit) ⟨.dev, fun _ => .ok (), shippedAutocomplete⟩ Editor.new
    [.insertAtCaret [[], ['/']], .finishAutocomplete true]).map (·.input) =
    .ok [.fraction [] []] := by decide +kernel

end Aftermath
