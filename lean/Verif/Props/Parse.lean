import Verif.Model.Walk
import Verif.Model.Display
import Verif.Spec.Path
import Verif.Proof.DefaultGrammar

/-! # C43 to C47: parsing is total, and the syntax tree covers the row without loss

`Grammar.Good` is the hypothesis on the rule set: no empty symbol sequence, and every kind of
container is parsed by some rule. `createParser_good` shows it for the shipped collections, with
any character tables in which Latin letters are identifier characters. -/

namespace Aftermath

/-! ## C43 -/

/-- **C43.** Parsing a well-formed row succeeds: there is a bound on the depth of recursion from
which on the parser returns, without panicking, always the same tree. -/
theorem C43 (g : Grammar) (hg : g.Good) (row : Row) (hw : rowWf row = true) :
    ∃ t bound, ∀ f, bound ≤ f → g.parseFuel f row = .ok t := by
  obtain ⟨t, ht, -⟩ := parse_ok hg hw
  refine ⟨t, rowWeight row + 1, fun f hf => ?_⟩
  rw [parseFuel_eq hg hw (by omega), ht]

/-- **C43** in terms of `Grammar.parse`. -/
theorem C43_parse (g : Grammar) (hg : g.Good) (row : Row) (hw : rowWf row = true) :
    ∃ t, g.parse row = .ok t ∧ ∀ f, rowWeight row < f → g.parseFuel f row = .ok t := by
  obtain ⟨t, ht, -⟩ := parse_ok hg hw
  exact ⟨t, ht, fun f hf => by rw [parseFuel_eq hg hw hf, ht]⟩

/-- **C43** for the rule collections that are shipped. -/
theorem C43_shipped (x : Xid) (hx : x.Letters) :
    ∃ g m, createParser x = .ok (g, m) ∧
      ∀ row, rowWf row = true → ∃ t, g.parse row = .ok t := by
  obtain ⟨g, m, h, hg, -, -⟩ := createParser_good hx
  exact ⟨g, m, h, fun row hw => (parse_ok hg hw).imp fun _ h => h.1⟩

/-! ## C44, C45, C46 -/

/-- **C44.** The syntax tree has the range of the whole row. -/
theorem C44 (g : Grammar) (hg : g.Good) (row : Row) (hw : rowWf row = true) (t : SNode)
    (h : g.parse row = .ok t) : t.lo = 0 ∧ t.hi = row.length := by
  obtain ⟨t', h', hf⟩ := parse_ok hg hw
  rw [h] at h'
  cases h'
  exact ⟨hf.lo_eq, hf.hi_eq⟩

/-- **C45.** The syntax tree is laid out correctly over the row, see `Shaped`. -/
theorem C45 (g : Grammar) (hg : g.Good) (row : Row) (hw : rowWf row = true) (t : SNode)
    (h : g.parse row = .ok t) : Shaped row t := by
  obtain ⟨t', h', hf⟩ := parse_ok hg hw
  rw [h] at h'
  cases h'
  exact hf.fills.shaped

/-- **C46.** Reading the leaves of the syntax tree gives the text of the row. -/
theorem C46 (g : Grammar) (hg : g.Good) (row : Row) (hw : rowWf row = true) (t : SNode)
    (h : g.parse row = .ok t) : t.text = rowText row := by
  obtain ⟨t', h', hf⟩ := parse_ok hg hw
  rw [h] at h'
  cases h'
  rw [hf.fills.text, hf.lo_eq, hf.hi_eq]
  simp

/-! ## C47 -/

section Helpers

theorem FillsCells.get {Q : Row → SNode → Prop} : ∀ {cells : List Row} {ts : List SNode},
    FillsCells Q cells ts → ∀ {j : Nat} {c : Row}, cells[j]? = some c →
    ∃ t, ts[j]? = some t ∧ Q c t ∧ FillsAt Q c 0 c.length t
  | [], _, _, j, c, h => by simp at h
  | _ :: _, [], h, _, _, _ => by simp only [FillsCells] at h
  | r :: rs, t :: ts, h, j, c, hj => by
    simp only [FillsCells] at h
    cases j with
    | zero =>
      simp only [List.getElem?_cons_zero, Option.some.injEq] at hj
      subst hj
      exact ⟨t, rfl, h.2.2.1, h.2.2.2.1, h.1, h.2.1⟩
    | succ j => exact FillsCells.get h.2.2.2.2 (by simpa using hj)

mutual
theorem Fills.child {Q : Row → SNode → Prop} {row : Row} {i w : Nat} {v : Variant}
    {cells : List Row} (hr : row[i]? = some (.container v cells w)) : ∀ {t : SNode},
    Fills Q row t → t.lo ≤ i → i < t.hi →
    ∃ ts, t.childWithNewRows i = .ok ts ∧ FillsCells Q cells ts
  | .leaf _ lo hi _ _, h, h1, h2 => by
    simp only [Fills] at h
    simp only [SNode.lo, SNode.hi] at h1 h2
    obtain ⟨-, ss, hs, hl, -⟩ := h
    exfalso
    have hget : ((row.drop lo).take (hi - lo))[i - lo]? = row[i]? := by
      rw [List.getElem?_take, if_pos (by omega), List.getElem?_drop]
      congr 1
      omega
    rw [hs, hr, List.getElem?_map] at hget
    cases hss : ss[i - lo]? with
    | none => rw [hss] at hget; cases hget
    | some s => rw [hss] at hget; cases hget
  | .newRows _ lo hi ts w', h, h1, h2 => by
    simp only [Fills] at h
    simp only [SNode.lo, SNode.hi] at h1 h2
    obtain ⟨rfl, v', cells', hr', hc⟩ := h
    have : i = lo := by omega
    subst this
    rw [hr] at hr'
    cases hr'
    exact ⟨ts, rfl, hc⟩
  | .children _ lo hi cs, h, h1, h2 => by
    simp only [Fills] at h
    simp only [SNode.lo, SNode.hi] at h1 h2
    obtain ⟨ts, h3, h4⟩ := FillsList.child hr h h1 h2
    exact ⟨ts, by simp only [SNode.childWithNewRows]; exact h3, h4⟩
theorem FillsList.child {Q : Row → SNode → Prop} {row : Row} {i w : Nat} {v : Variant}
    {cells : List Row} (hr : row[i]? = some (.container v cells w)) :
    ∀ {cs : List SNode} {lo hi : Nat}, FillsList Q row lo hi cs → lo ≤ i → i < hi →
    ∃ ts, childrenWithNewRows i cs = .ok ts ∧ FillsCells Q cells ts
  | [], lo, hi, h, h1, h2 => by simp only [FillsList] at h; omega
  | c :: cs, lo, hi, h, h1, h2 => by
    simp only [FillsList] at h
    rw [childrenWithNewRows]
    by_cases hc : i < c.hi
    · have : c.containsIndex i = true := by
        simp only [SNode.containsIndex, Bool.and_eq_true, decide_eq_true_eq]; omega
      rw [if_pos this]
      exact Fills.child hr h.2.1 (by omega) hc
    · have : c.containsIndex i = false := by
        simp only [SNode.containsIndex, Bool.and_eq_false_iff, decide_eq_false_iff_not]; omega
      simp only [this, Bool.false_eq_true, if_false]
      exact FillsList.child hr h.2.2 (by omega) h2
end

theorem walk_ok {g : Grammar} : ∀ {p : RowIndices} {row r : Row} {t : SNode},
    FillsAt (ParsesTo g) row 0 row.length t → ParsesTo g row t → rowAt row p = some r →
    ∃ t', t.walk p = .ok t' ∧ ParsesTo g r t' ∧ FillsAt (ParsesTo g) r 0 r.length t'
  | [], row, r, t, hf, hp, h => by
    simp only [rowAt, Option.some.injEq] at h
    subst h
    exact ⟨t, rfl, hp, hf⟩
  | (i, j) :: p, row, r, t, hf, hp, h => by
    rw [rowAt] at h
    cases hi : row[i]? with
    | none => rw [hi] at h; cases h
    | some n =>
      rw [hi] at h
      cases n with
      | symbol s => cases h
      | container v cells w =>
        cases hj : cells[j]? with
        | none => simp only [hj] at h; cases h
        | some c =>
          simp only [hj] at h
          have hlt := (List.getElem?_eq_some_iff.1 hi).1
          obtain ⟨ts, h1, h2⟩ := hf.fills.child hi (by rw [hf.lo_eq]; omega)
            (by rw [hf.hi_eq]; exact hlt)
          obtain ⟨t', h3, h4, h5⟩ := h2.get hj
          obtain ⟨t'', h6, h7⟩ := walk_ok h5 h4 h
          refine ⟨t'', ?_, h7⟩
          have : t.containsIndex i = true := by
            simp only [SNode.containsIndex, Bool.and_eq_true, decide_eq_true_eq, hf.lo_eq, hf.hi_eq]
            exact ⟨Nat.zero_le _, hlt⟩
          rw [SNode.walk, this]
          simp only [massert, if_true, M.ok_bind, h1, h3, h6]

end Helpers

/-- **C47.** For every path that leads to a row `r` of the formula, walking down the syntax tree of
the formula by this path succeeds and ends at the tree that parsing `r` by itself gives. -/
theorem C47 (g : Grammar) (hg : g.Good) (row : Row) (hw : rowWf row = true) (t : SNode)
    (h : g.parse row = .ok t) (path : RowIndices) (r : Row) (hr : rowAt row path = some r) :
    ∃ t', t.walk path = .ok t' ∧ g.parse r = .ok t' ∧ t'.lo = 0 ∧ t'.hi = r.length := by
  obtain ⟨t0, h', hf⟩ := parse_ok hg hw
  rw [h] at h'
  cases h'
  obtain ⟨t', h1, ⟨f, h2⟩, h3⟩ := walk_ok hf ⟨_, h⟩ hr
  refine ⟨t', h1, ?_, h3.lo_eq, h3.hi_eq⟩
  obtain ⟨t'', h4, -⟩ := parse_ok hg (rowAt_wf hw hr)
  rw [h4]
  have h5 := parseWhole_mono (pratt_mono g (Nat.le_add_right f (rowWeight r + 1))) r t' h2
  have h6 := parseWhole_mono (pratt_mono g (Nat.le_add_left (rowWeight r + 1) f)) r t'' h4
  rw [h5] at h6
  exact h6.symm

/-! ## Examples -/

/-- letters and digits as identifier characters -/
def asciiXid : Xid := ⟨Char.isAlpha, Char.isAlphanum⟩

theorem asciiXid_letters : asciiXid.Letters := by
  intro c h
  exact ⟨h, by simp only [asciiXid, Char.isAlphanum, h, Bool.true_or]⟩

/-- The hypotheses of C43 to C47 can be met. -/
example : ∃ g m, createParser asciiXid = .ok (g, m) ∧ g.Good := by
  obtain ⟨g, m, h, hg, -⟩ := createParser_good asciiXid_letters
  exact ⟨g, m, h, hg⟩

/-- a symbol -/
def nsym (s : String) : Node := .symbol s.toList

/-- The row parses with the shipped rules to a tree that prints like this. -/
def parsesAs (row : Row) (s : String) : Bool :=
  match createParser asciiXid with
  | .error _ => false
  | .ok (g, m) =>
    match g.parse row with
    | .error _ => false
    | .ok t =>
      match t.display m with
      | .error _ => false
      | .ok d => d == s.toList

/-- A row with a fraction, a root with an empty cell, unmatched and unknown symbols and spaces. -/
def oddRow : Row :=
  [nsym "a", nsym ")", nsym " ", .container .fraction [[nsym "b", nsym "+"], [nsym "@"]] 1,
    nsym "(", .container .root [[], [.container .sup [[nsym "1"]] 1]] 2]

example : rowWf oddRow = true ∧
    rowAt oddRow [(5, 1), (0, 0)] = some [nsym "1"] := ⟨by decide +kernel, by rfl⟩

/- The tests of `parser/tests/parser_test.rs` hold in the model. -/
example : parsesAs [nsym "-", nsym "b", nsym "*", nsym "C"]
    "(Arithmetic::Multiply (Arithmetic::Subtract (BuiltIn::Operator \"-\") (Core::Variable \"b\")) (BuiltIn::Operator \"*\") (Core::Variable \"C\"))" = true := by
  decide +kernel
example : parsesAs [nsym "c", nsym "+", nsym "a", nsym "!"]
    "(Arithmetic::Add (Core::Variable \"c\") (BuiltIn::Operator \"+\") (Arithmetic::Factorial (Core::Variable \"a\") (BuiltIn::Operator \"!\")))" = true := by
  decide +kernel
example : parsesAs [nsym "a", .container .sub [[nsym "1"]] 1]
    "(BuiltIn::Sub (Core::Variable \"a\") (BuiltIn::Operator 1x1 (Arithmetic::Number \"1\")))" = true := by
  decide +kernel
example : parsesAs [nsym "a", .container .sup [[nsym "1"]] 1, .container .sub [[nsym "2"]] 1]
    "(BuiltIn::Sub (BuiltIn::Sup (Core::Variable \"a\") (BuiltIn::Operator 1x1 (Arithmetic::Number \"1\"))) (BuiltIn::Operator 1x1 (Arithmetic::Number \"2\")))" = true := by
  decide +kernel
example : parsesAs [nsym "(", nsym "(", nsym "(", nsym "a", nsym "!", nsym ")", nsym ")", nsym ")"]
    "(Core::RoundBrackets (BuiltIn::Operator \"(\") (Core::RoundBrackets (BuiltIn::Operator \"(\") (Core::RoundBrackets (BuiltIn::Operator \"(\") (Arithmetic::Factorial (Core::Variable \"a\") (BuiltIn::Operator \"!\")) (BuiltIn::Operator \")\")) (BuiltIn::Operator \")\")) (BuiltIn::Operator \")\"))" = true := by
  decide +kernel
example : parsesAs [nsym "a", nsym ",", nsym "b"]
    "(Collections::Tuple (Core::Variable \"a\") (BuiltIn::Operator \",\") (Core::Variable \"b\"))" = true := by
  decide +kernel
example : parsesAs [nsym "(", nsym "a", nsym ",", nsym "b", nsym ",", nsym "c", nsym ")"]
    "(Core::RoundBrackets (BuiltIn::Operator \"(\") (Collections::Tuple (Collections::Tuple (Core::Variable \"a\") (BuiltIn::Operator \",\") (Core::Variable \"b\")) (BuiltIn::Operator \",\") (Core::Variable \"c\")) (BuiltIn::Operator \")\"))" = true := by
  decide +kernel
example : parsesAs [nsym "f", nsym "(", nsym "a", nsym ",", nsym "b", nsym ")"]
    "(Function::FunctionApplication (Core::Variable \"f\") (BuiltIn::Operator (BuiltIn::Operator \"(\") (Collections::Tuple (Core::Variable \"a\") (BuiltIn::Operator \",\") (Core::Variable \"b\")) (BuiltIn::Operator \")\")))" = true := by
  decide +kernel
example : parsesAs [nsym "(", nsym "a", nsym "+", nsym "b", nsym ")"]
    "(Core::RoundBrackets (BuiltIn::Operator \"(\") (Arithmetic::Add (Core::Variable \"a\") (BuiltIn::Operator \"+\") (Core::Variable \"b\")) (BuiltIn::Operator \")\"))" = true := by
  decide +kernel
example : parsesAs [nsym "(", nsym "a", nsym "+", .container .fraction [[nsym "b"], [nsym "c"]] 1,
      nsym ")"]
    "(Core::RoundBrackets (BuiltIn::Operator \"(\") (Arithmetic::Add (Core::Variable \"a\") (BuiltIn::Operator \"+\") (BuiltIn::Fraction 1x2 (Core::Variable \"b\") (Core::Variable \"c\"))) (BuiltIn::Operator \")\"))" = true := by
  decide +kernel
example : parsesAs [] "(Error::MissingToken)" = true := by decide +kernel
example : parsesAs [.container .root [[], [nsym "a"]] 2]
    "(BuiltIn::Root 2x1 (Error::MissingToken) (Core::Variable \"a\"))" = true := by
  decide +kernel
example : parsesAs [nsym "a", nsym "+", nsym "(", nsym ")"]
    "(Arithmetic::Add (Core::Variable \"a\") (BuiltIn::Operator \"+\") (Core::RoundBrackets (BuiltIn::Operator \"(\") (BuiltIn::Operator \")\")))" = true := by
  decide +kernel

/- Some more, with errors. -/
example : parsesAs [nsym "a", nsym ")"]
    "(Error::MissingOperator (Core::Variable \"a\") (Error::MissingToken) (Error::UnknownToken \")\"))" = true := by
  decide +kernel
/-- `¬` is registered as an infix operator (`logic_rules.rs` 62-66), so that in front of an
operand it is an error. -/
example : parsesAs [nsym "¬", nsym "x"]
    "(Logic::Not (Error::MissingToken) (BuiltIn::Operator \"¬\") (Core::Variable \"x\"))" = true := by
  decide +kernel

end Aftermath
