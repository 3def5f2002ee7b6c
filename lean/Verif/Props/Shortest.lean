import Verif.Proof.Shortest
import Verif.Props.NotationConverse
import Verif.Props.Notation

/-! # C115: which formulas can be meant, and the shortest way to write each of them -/

namespace Aftermath

variable {x : Xid} {g : Grammar} {m : NameMap}

/-- **C115**, what can be meant: the parser gives a meaning to some row of single characters exactly if
numbers consist of digits, variables are names, and tables have full rows. All operators can have all
operands. -/
theorem C115_meant (hx : x.Usual) (h : createParser x = .ok (g, m)) (e : Formula) :
    (∃ row t, rowWf row = true ∧ PlainRow row ∧ g.parse row = .ok t ∧ Conveys m t e) ↔ e.Proper x := by
  obtain ⟨g', m', h', hc⟩ := C78 x hx
  cases h.symm.trans h'
  constructor
  · rintro ⟨row, t, hw, hp, ht, hce⟩
    obtain ⟨t', ht', -, h1⟩ := hc row hw hp
    cases ht.symm.trans ht'
    exact writes_proper ((h1 e).1 hce)
  · intro he
    have hwr := write_writes e he 0 0
    obtain ⟨t, ht, -, h1⟩ := hc _ (writes_wf hwr) (writes_plain hwr)
    exact ⟨_, t, writes_wf hwr, writes_plain hwr, ht, (h1 e).2 hwr⟩

/-- **C115**, the notation between any two operators. -/
theorem C115_written {e : Formula} {l r : Nat} {row : Row} (h : e.Writes x l r row) (he : e.LimitsMarked) :
    e.Writes x l r (e.write l r) ∧ rowExtent (e.write l r) ≤ rowExtent row :=
  ⟨write_writes e (writes_proper h) l r, write_shortest h he⟩

/-- **C115.** A row means a formula, in which every `lim` has a script. The formula written without
spaces and with brackets only around operands that bind too loosely for their place is read without
errors, it means the same, and it does not have more symbols and containers. So it is the shortest
row with this meaning. -/
theorem C115 (hx : x.Usual) (h : createParser x = .ok (g, m)) {row : Row} {t : SNode} {e : Formula}
    (hw : rowWf row = true) (hp : PlainRow row) (ht : g.parse row = .ok t) (hce : Conveys m t e)
    (he : e.LimitsMarked) :
    ∃ t', g.parse (e.write 0 0) = .ok t' ∧ ErrorFree g t' ∧ (∀ e', Conveys m t' e' ↔ e' = e) ∧
      rowExtent (e.write 0 0) ≤ rowExtent row := by
  obtain ⟨g', m', h', hc⟩ := C78 x hx
  cases h.symm.trans h'
  obtain ⟨t', ht', -, h1⟩ := hc row hw hp
  cases ht.symm.trans ht'
  have hwr := C115_written ((h1 e).1 hce) he
  obtain ⟨t'', ht'', h2, h3⟩ := hc _ (writes_wf hwr.1) (writes_plain hwr.1)
  refine ⟨t'', ht'', h2.2 ⟨e, hwr.1⟩, fun e' => ?_, hwr.2⟩
  rw [h3]
  constructor
  · exact fun h => C69_unambiguous x hx e' e _ h hwr.1
  · rintro rfl
    exact hwr.1

/-! ## Examples -/

private abbrev v (c : Char) : Formula := .variable [c]
private abbrev inf (o : BinOp) (a b : Formula) : Formula := .bin o 0 Fin.elim0 Fin.elim0 a b

/-- The shortest rows for the two ways to group `a-b-c`, and for products of sums. -/
example : (inf .subtract (inf .subtract (v 'a') (v 'b')) (v 'c')).write 0 0 = rowOf "a-b-c" ∧
    (inf .subtract (v 'a') (inf .subtract (v 'b') (v 'c'))).write 0 0 = rowOf "a-(b-c)" ∧
    (inf .multiply (inf .add (v 'a') (v 'b')) (.post .factorial (inf .add (v 'c') (v 'd')))).write 0 0 =
      rowOf "(a+b)*(c+d)!" := by
  refine ⟨?_, ?_, ?_⟩ <;> decide +kernel

/-- Everything is counted, with what is in scripts. -/
example : rowExtent (rowOf "a-b-c") = 5 ∧ rowExtent (rowOf "(((a)-b)-c)") = 11 ∧
    rowExtent [sy 'a', .container .sup [rowOf "2"] 1] = 3 := by
  refine ⟨?_, ?_, ?_⟩ <;> decide +kernel

/-- A `lim` without a script can be followed by letters that make it another sign. There a space is
shorter than brackets. -/
example : (Formula.pre .lim 0 Fin.elim0 Fin.elim0 (.variable ['s', 'u', 'p'])).write 0 0 = rowOf "lim(sup)" ∧
    (Formula.pre .lim 0 Fin.elim0 Fin.elim0 (.variable ['s', 'u', 'p'])).Writes letterXid 0 0
      (rowOf "lim sup") ∧ rowExtent (rowOf "lim sup") < rowExtent (rowOf "lim(sup)") := by
  refine ⟨by decide +kernel, ?_, by decide +kernel⟩
  have h : rowOf "lim sup" = (PreOp.lim.text.map sy ++ sp 1) ++ ['s', 'u', 'p'].map sy := by decide +kernel
  rw [h]
  refine .pre (rows := Fin.elim0) (Nat.zero_le _) (.sign 1) nofun (.variable ⟨'s', ['u', 'p'], rfl, ?_, ?_, ?_⟩) ?_
  · decide +kernel
  · decide +kernel
  · decide
  · decide +kernel

/-- A point alone is not a number, so that there is no row for it. -/
example : ¬ (Formula.number ['.']).Proper letterXid := by
  intro h
  have h : IsNumber ['.'] := h
  generalize hs : ['.'] = s at h
  cases h with
  | whole h =>
    subst hs
    exact absurd (h.2 '.' (by simp)) (by decide)
  | @decimal a b ha _ =>
    cases a with
    | nil => exact ha.1 rfl
    | cons c a => simp at hs

end Aftermath
