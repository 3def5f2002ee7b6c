import Verif.Proof.Closed
import Verif.Props.Brackets
import Verif.Props.Spaces
import Verif.Props.NotationConverse

/-! # C111: formulas without errors have their brackets and quotes closed -/

namespace Aftermath

variable {x : Xid} {g : Grammar} {m : NameMap}

/-- **C111**, the notation. -/
theorem C111_written (hx : x.Usual) {e : Formula} {row : Row} (he : e.Writes x 0 0 row) {p : RowIndices}
    {r : Row} (hr : rowAt row p = some r) : Balanced 0 r ∧ Legible x r :=
  ⟨writes_all hx balanced_concat he p r hr, writes_all hx legible_concat he p r hr⟩

theorem written_of_errorFree (hx : x.Usual) (h : createParser x = .ok (g, m)) {row : Row} {t : SNode}
    (hw : rowWf row = true) (hpl : PlainRow row) (ht : g.parse row = .ok t) (he : ErrorFree g t) :
    ∃ e : Formula, e.Writes x 0 0 row := by
  obtain ⟨g', m', h', hp⟩ := C78 x hx
  cases h.symm.trans h'
  obtain ⟨t', ht', h1, -⟩ := hp row hw hpl
  cases ht.symm.trans ht'
  exact h1.1 he

/-- **C111.** If the syntax tree of a formula has no errors, then in its row and in all cells at any
depth every bracket and every quote is closed, and all characters outside of quotes are known. -/
theorem C111 (hx : x.Usual) (h : createParser x = .ok (g, m)) {row : Row} {t : SNode}
    (hw : rowWf row = true) (hpl : PlainRow row) (ht : g.parse row = .ok t) (he : ErrorFree g t)
    {p : RowIndices} {r : Row} (hr : rowAt row p = some r) : Balanced 0 r ∧ Legible x r := by
  obtain ⟨e, hwr⟩ := written_of_errorFree hx h hw hpl ht he
  exact C111_written hx hwr hr

/-- **C111.** Of two formulas that differ only by one bracket outside of quotes, in the row or in some
cell, one has errors. So adding or deleting a bracket in a formula without errors gives an error. -/
theorem C111_bracket (hx : x.Usual) (h : createParser x = .ok (g, m)) {root root' pre post : Row}
    {p : RowIndices} {c : Char} {n : Nat} {t t' : SNode} (hc : c = '(' ∨ c = ')')
    (hpre : Balanced 0 (pre ++ List.replicate n (sy ')')))
    (hd : ReplacedAt root p (pre ++ sy c :: post) (pre ++ post) root')
    (hw : rowWf root = true) (hpl : PlainRow root) (hw' : rowWf root' = true) (hpl' : PlainRow root')
    (ht : g.parse root = .ok t) (ht' : g.parse root' = .ok t') : ¬ (ErrorFree g t ∧ ErrorFree g t') := by
  rintro ⟨h1, h2⟩
  exact balanced_bracket hc hpre (C111 hx h hw hpl ht h1 hd.rowAt_old).1
    (C111 hx h hw' hpl' ht' h2 hd.rowAt_new).1

/-- **C111.** What stands in brackets in a formula without errors, and is closed itself, has a node of
its own in the syntax tree, with the tree that it has when it is parsed alone; this tree has no errors
either. -/
theorem C111_contents (hx : x.Usual) (h : createParser x = .ok (g, m)) {pre r post : Row} {n : Nat}
    {T : SNode} (hw : rowWf (pre ++ sy '(' :: (r ++ sy ')' :: post)) = true)
    (hpl : PlainRow (pre ++ sy '(' :: (r ++ sy ')' :: post)))
    (hT : g.parse (pre ++ sy '(' :: (r ++ sy ')' :: post)) = .ok T) (he : ErrorFree g T)
    (hpre : Balanced 0 (pre ++ List.replicate n (sy ')'))) (hr : Balanced 0 r) (hne : r ≠ []) :
    ∃ t name, g.parse r = .ok t ∧ ErrorFree g t ∧
      (bracketsAround name (t.shift (pre.length + 1))).PartOf T := by
  obtain ⟨t, T', name, h1, h2, -, h3⟩ := C95 hx h hw (C111 hx h hw hpl hT he (p := []) rfl).1 hpre hr hne
  cases hT.symm.trans h2
  refine ⟨t, name, h1, fun k hk => he k ?_, h3⟩
  refine partOf_names h3 k ?_
  simp only [bracketsAround, SNode.names, treesNames, shift_names]
  simp [hk]

/-! ## Examples -/

/-- One bracket less or more, brackets that are closed before they are opened, an unknown character, and
a quote that is not closed: none of these is a formula. In quotes all is allowed. -/
example : (∃ e : Formula, e.Writes letterXid 0 0 (rowOf "(a+b)*c")) ∧
    ¬ (∃ e : Formula, e.Writes letterXid 0 0 (rowOf "(a+b*c")) ∧
    ¬ (∃ e : Formula, e.Writes letterXid 0 0 (rowOf "(a+b))*c")) ∧
    ¬ (∃ e : Formula, e.Writes letterXid 0 0 (rowOf ")a+b(")) ∧
    ¬ (∃ e : Formula, e.Writes letterXid 0 0 (rowOf "a%b")) ∧
    ¬ (∃ e : Formula, e.Writes letterXid 0 0 (rowOf "a=\"b")) ∧
    (∃ e : Formula, e.Writes letterXid 0 0 (rowOf "a=\"(%\"")) := by
  simp only [← readsText_iff]
  decide +kernel

/-- The theorem at work: `)a` is no formula in any cell. -/
example (hx : x.Usual) {pre post : Row} {w : Nat} {v : Variant} (e : Formula) :
    ¬ e.Writes x 0 0 (pre ++ .container v [[sy ')', sy 'a']] w :: post) := by
  intro h
  have h1 := (C111_written hx h (p := [(pre.length, 0)]) (r := [sy ')', sy 'a'])
    (rowAt_cons.2 ⟨v, [[sy ')', sy 'a']], w, _, by simp, rfl, rfl⟩)).1
  obtain ⟨d, h2, -⟩ := h1.close
  omega

end Aftermath
