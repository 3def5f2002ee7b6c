import Verif.Proof.NotationUnique

/-! # C69: the shipped parser reads the usual notation -/

namespace Aftermath

theorem Xid.Usual.toLetters {x : Xid} (hx : x.Usual) : x.Letters := hx.letters

theorem parses_writes {x : Xid} {g : Grammar} {m : NameMap} (S : Std x g m) (hx : x.Usual)
    {e : Formula} {row : Row} (h : e.Writes x 0 0 row) :
    ∃ t, g.parse row = .ok t ∧ Conveys m t e := by
  obtain ⟨t, hs, hp⟩ := cell_parses S (writes_wf h) (written S hx h (by decide))
  exact ⟨t, hp _ (Nat.lt_succ_of_le (by simp [restWeight])), hs⟩

/-- **C69** The parser that is shipped reads every row that is written according to the levels of
the operators, whatever further brackets and spaces there are, as the formula it was written for and as no
other formula. -/
theorem C69 (x : Xid) (hx : x.Usual) :
    ∃ g m, createParser x = .ok (g, m) ∧ ∀ (e : Formula) (row : Row), e.Writes x 0 0 row →
      ∃ t, g.parse row = .ok t ∧ Conveys m t e ∧ ∀ e', Conveys m t e' → e' = e := by
  obtain ⟨g, m, h, -⟩ := createParser_good hx.toLetters
  have S := createParser_std hx.toLetters h
  refine ⟨g, m, h, fun e row hr => ?_⟩
  obtain ⟨t, ht, hs⟩ := parses_writes S hx hr
  exact ⟨t, ht, hs, fun e' hs' => conveys_unique S hs' hs⟩

/-- **C69** In particular every formula is read correctly if it is written with brackets only where
an operand has a lower level than its place needs. -/
theorem C69_few_brackets (x : Xid) (hx : x.Usual) :
    ∃ g m, createParser x = .ok (g, m) ∧ ∀ e : Formula, e.Proper x →
      ∃ t, g.parse (e.write 0 0) = .ok t ∧ Conveys m t e ∧ ∀ e', Conveys m t e' → e' = e := by
  obtain ⟨g, m, h, hp⟩ := C69 x hx
  exact ⟨g, m, h, fun e he => hp e _ (write_writes e he 0 0)⟩

/-- **C69** The notation is unambiguous: a row is a way to write one formula at most. -/
theorem C69_unambiguous (x : Xid) (hx : x.Usual) (e e' : Formula) (row : Row)
    (h : e.Writes x 0 0 row) (h' : e'.Writes x 0 0 row) : e = e' := by
  obtain ⟨g, m, -, hp⟩ := C69 x hx
  obtain ⟨t, ht, hs, hu⟩ := hp e row h
  obtain ⟨t', ht', hs', -⟩ := hp e' row h'
  rw [ht] at ht'
  cases ht'
  exact (hu e' hs').symm

/-! ## Examples -/

theorem letterXid_usual : letterXid.Usual where
  letters := letterXid_letters
  digits := fun c h => by
    simp only [letterXid, Char.isAlpha, Char.isUpper, Char.isLower, Char.isDigit, ge_iff_le,
      Bool.and_eq_true, decide_eq_true_eq, Bool.or_eq_false_iff, Bool.and_eq_false_iff,
      decide_eq_false_iff_not] at h ⊢
    simp only [UInt32.le_iff_toNat_le] at h ⊢
    have h1 : '9'.val.toNat = 57 := rfl
    have h2 : 'A'.val.toNat = 65 := rfl
    have h3 : 'a'.val.toNat = 97 := rfl
    constructor <;> omega
  reserved := by decide +kernel

/-- The usual way to write a formula as a string, for rows of symbols only. -/
def rowOf (s : String) : Row := s.toList.map sy

private abbrev v (c : Char) : Formula := .variable [c]
private abbrev n (s : String) : Formula := .number s.toList
private abbrev inf (o : BinOp) (a b : Formula) : Formula := .bin o 0 nofun nofun a b
private abbrev neg (a : Formula) : Formula := .pre .minus 0 nofun nofun a
private abbrev under (o : PreOp) (lo a : Formula) : Formula :=
  .pre o 1 (fun _ => .sub) (fun _ => lo) a
private abbrev between (o : PreOp) (lo up a : Formula) : Formula :=
  .pre o 2 (fun i => if i = 0 then .sub else .sup) (fun i => if i = 0 then lo else up) a

-- Products before sums, from left to right, signs before products, powers before signs.
example : (inf .subtract (inf .subtract (v 'a') (v 'b')) (v 'c')).write 0 0 = rowOf "a-b-c" ∧
    (inf .subtract (v 'a') (inf .subtract (v 'b') (v 'c'))).write 0 0 = rowOf "a-(b-c)" ∧
    (inf .add (n "12") (inf .multiply (n "3") (v 'x'))).write 0 0 = rowOf "12+3*x" ∧
    (inf .multiply (inf .add (n "12") (n "3")) (v 'x')).write 0 0 = rowOf "(12+3)*x" ∧
    (inf .multiply (v 'a') (neg (v 'b'))).write 0 0 = rowOf "a*-b" ∧
    (neg (.post .factorial (n "5"))).write 0 0 = rowOf "-5!" ∧
    (Formula.post .factorial (neg (n "5"))).write 0 0 = rowOf "(-5)!" ∧
    (inf .equals (.apply (v 'f') (inf .tuple (v 'x') (v 'y'))) (n "0")).write 0 0 =
      rowOf "f(x,y)=0" := by
  refine ⟨?_, ?_, ?_, ?_, ?_, ?_, ?_, ?_⟩ <;> decide +kernel

-- Not as usual: logical connectives bind more strongly than `=`, and `=` reads from left to right.
example : (inf .equals (inf .equals (v 'a') (inf .and (v 'b') (v 'c'))) (v 'd')).write 0 0 =
      rowOf "a=b∧c=d" ∧
    (inf .and (inf .equals (v 'a') (v 'b')) (inf .equals (v 'c') (v 'd'))).write 0 0 =
      rowOf "(a=b)∧(c=d)" := by
  refine ⟨?_, ?_⟩ <;> decide +kernel

-- A sum extends over the products to its right, and as the last operand it needs no brackets. Infix
-- operators can have scripts as well.
example : (inf .multiply (n "2") (.pre .sum 0 nofun nofun (inf .multiply (v 'x') (v 'y')))).write 0 0 =
      rowOf "2*∑x*y" ∧
    (inf .multiply (.pre .sum 0 nofun nofun (v 'x')) (v 'y')).write 0 0 = rowOf "(∑x)*y" ∧
    (inf .add (.pre .sum 0 nofun nofun (v 'x')) (v 'y')).write 0 0 = rowOf "∑x+y" ∧
    (.bin .add 1 (fun _ => .sub) (fun _ => v 'n') (v 'a') (v 'b') : Formula).write 0 0 =
      rowOf "a+" ++ .container .sub [rowOf "n"] 1 :: rowOf "b" := by
  refine ⟨?_, ?_, ?_, ?_⟩ <;> decide +kernel

-- Strings, limits, functions of nothing and decimals. A limit of `sup` needs brackets, because
-- `limsup` has another meaning.
example : (inf .equals (.string "a\"b".toList) (n "3.14")).write 0 0 = rowOf "\"a\\\"b\"=3.14" ∧
    (Formula.pre .lim 0 nofun nofun (.variable "sup".toList)).write 0 0 = rowOf "lim(sup)" ∧
    (Formula.pre .limSup 0 nofun nofun (v 'x')).write 0 0 = rowOf "limsupx" ∧
    (inf .add (.call (v 'f')) .unit).write 0 0 = rowOf "f()+()" := by
  refine ⟨?_, ?_, ?_, ?_⟩ <;> decide +kernel

theorem proper_digits {s : List Char} (h : s ≠ []) (h' : ∀ c ∈ s, c.isDigit = true) : IsNumber s :=
  .whole ⟨h, h'⟩

theorem proper_letter {x : Xid} {c : Char} (h : x.start c = true) : IsName x [c] :=
  ⟨c, [], rfl, h, nofun, by simp [List.cons_prefix_cons]⟩

/-- `∑` from `i=1` to `n` of `i` squared, over two -/
private def sumOfSquares : Formula :=
  .fraction (between .sum (inf .equals (v 'i') (n "1")) (v 'n') (.script .sup (v 'i') (n "2"))) (n "2")

private theorem sumOfSquares_proper : sumOfSquares.Proper letterXid := by
  have h1 : (n "1").Proper letterXid := proper_digits (by decide) (by decide)
  have h2 : (n "2").Proper letterXid := proper_digits (by decide) (by decide)
  have h3 : (v 'i').Proper letterXid := proper_letter (by decide)
  have h4 : (v 'n').Proper letterXid := proper_letter (by decide)
  refine ⟨⟨fun i => ?_, h3, h2⟩, h2⟩
  dsimp only
  split
  · exact ⟨nofun, h3, h1⟩
  · exact h4

example : sumOfSquares.write 0 0 =
    [.container .fraction [sy '∑' :: .container .sub [rowOf "i=1"] 1 ::
      .container .sup [rowOf "n"] 1 :: sy 'i' :: [.container .sup [rowOf "2"] 1], rowOf "2"] 1] := by
  decide +kernel

-- The theorem applies to them, also with more brackets than needed.
example : ∃ g m t, createParser letterXid = .ok (g, m) ∧ g.parse (sumOfSquares.write 0 0) = .ok t ∧
    Conveys m t sumOfSquares := by
  obtain ⟨g, m, h, hp⟩ := C69_few_brackets letterXid letterXid_usual
  obtain ⟨t, h1, h2, -⟩ := hp sumOfSquares sumOfSquares_proper
  exact ⟨g, m, t, h, h1, h2⟩

example : (neg (v 'x')).Writes letterXid 0 0 (rowOf "((-(x)))") :=
  .brackets (p := rowOf "(-(x))") (.brackets (p := rowOf "-(x)") (.pre (o := .minus) (n := 0)
    (w := rowOf "-") (q := rowOf "(x)") (rows := nofun) (by decide) (.sign 0) nofun
    (.brackets (p := rowOf "x") (.variable (proper_letter (by decide)))) rfl))

/-- The lower limit of the table with the rows `x, 1` and `2, x` below `x` -/
private def limitOfTable : Formula :=
  under .limInf (v 'x') (.table 2 4 fun i =>
    if i = 0 then v 'x' else if i = 1 then n "1" else if i = 2 then n "2" else v 'x')

example : limitOfTable.Proper letterXid ∧ limitOfTable.write 0 0 =
    rowOf "liminf" ++ [.container .sub [rowOf "x"] 1,
      .container .table [rowOf "x", rowOf "1", rowOf "2", rowOf "x"] 2] := by
  refine ⟨?_, by decide +kernel⟩
  simp only [limitOfTable, Formula.Proper]
  refine ⟨fun _ => proper_letter (by decide), by decide, by decide, by decide, fun i => ?_⟩
  have h1 : (v 'x').Proper letterXid := proper_letter (by decide)
  have h2 : (n "1").Proper letterXid := proper_digits (by decide) (by decide)
  have h3 : (n "2").Proper letterXid := proper_digits (by decide) (by decide)
  split
  · exact h1
  · split
    · exact h2
    · split
      · exact h3
      · exact h1

-- With spaces.
example : (inf .add (n "1") (.script .sup (v 'x') (n "2"))).Writes letterXid 0 0
    (rowOf " 1 + x " ++ [.container .sup [rowOf "2 "] 1]) := by
  have h1 : (n "1").Writes letterXid 0 3 (rowOf " 1 ") :=
    .before (p := rowOf "1 ") (.after (p := rowOf "1") (.number (.whole ⟨by decide, by decide⟩)))
  have h2 : (v 'x').Writes letterXid 3 6 (rowOf "x ") :=
    .after (p := rowOf "x") (.variable (proper_letter (by decide)))
  have h3 : (n "2").Writes letterXid 0 0 (rowOf "2 ") :=
    .after (p := rowOf "2") (.number (.whole ⟨by decide, by decide⟩))
  exact .bin (o := .add) (n := 0) (p := rowOf " 1 ") (w := rowOf "+ ")
    (q := rowOf "x " ++ [.container .sup [rowOf "2 "] 1]) (rows := nofun) (by decide) (by decide) h1
    (.sign 1) nofun (.script h2 h3)

end Aftermath
