import Verif.Proof.Combinators
import Verif.Props.Parse

/-! # C94: the parser as it is written with combinators

`Model/Combinators.lean` models the combinators that the parsers are built from - with an offset
that failing parsers leave behind, with the panic of a repetition that does not move on, and with
a mode in which closures are not called - and writes the parsers down with them. The other
properties of the parser are about `Grammar.parse`, which says directly what is read. Both are the
same, so everything that is proved about `Grammar.parse` holds for the parser as it is written. -/

namespace Aftermath

/-- **C94.** On every well-formed row the parser that is written with combinators returns the tree
of `Grammar.parse`, without a panic, at every sufficient depth of recursion. (`n` is the number of calls
of `pratt_parse`, see `C79_counted`.) -/
theorem C94 (g : Grammar) (hg : g.Good) (row : Row) (hw : rowWf row = true) :
    ∃ t, g.parse row = .ok t ∧
      ∀ f, rowWeight row < f → ∃ n, Chumsky.parse g f row = .ok (t, n) := by
  obtain ⟨t, ht, -⟩ := parse_ok hg hw
  exact ⟨t, ht, fun f hf => ⟨_, Chumsky.parse_of g f (by rw [parseFuel_eq hg hw hf, ht])⟩⟩

/-- **C79** The parser that is written with combinators counts the calls of `pratt_parse` while it
runs, those of `can_parse` included. The effort is that number. -/
theorem C79_counted (g : Grammar) (hg : g.Good) (row : Row) (hw : rowWf row = true) (f : Nat)
    (hf : rowWeight row < f) : ∃ t, Chumsky.parse g f row = .ok (t, g.effort f row) := by
  obtain ⟨t, ht, -⟩ := parse_ok hg hw
  exact ⟨t, Chumsky.parse_of g f (by rw [parseFuel_eq hg hw hf, ht])⟩

/-- **C94** for the rule collections that are shipped. -/
theorem C94_shipped (x : Xid) (hx : x.Letters) :
    ∃ g m, createParser x = .ok (g, m) ∧ ∀ row, rowWf row = true → ∀ f, rowWeight row < f →
      (Chumsky.parse g f row).map (·.1) = g.parse row := by
  obtain ⟨g, m, h, hg, -, -⟩ := createParser_good hx
  refine ⟨g, m, h, fun row hw f hf => ?_⟩
  obtain ⟨t, ht, hc⟩ := C94 g hg row hw
  obtain ⟨n, hn⟩ := hc f hf
  rw [hn, ht]
  rfl

/-- A run ends with the result, after some number of calls that does not depend on how many there
have been before. -/
def Ends {α : Type} (x : Chumsky.C α) (a : α) : Prop := ∃ n, ∀ k, x k = .ok (a, k + n)

/-- What happens when the parser of a rule is tried: it succeeds further on in the row, and
asking first whether it would says yes, or it fails, the offset is the old one, and asking first
says no. -/
def Tried (P : Chumsky.Parser SNode) (row : Row) (pos : Nat) : Prop :=
  (∃ t p, pos < p ∧ p ≤ row.length ∧ Ends (Chumsky.parseSafe P row pos) (some t, p) ∧
      Ends (Chumsky.canParse P row pos) true) ∨
    Ends (Chumsky.parseSafe P row pos) (none, pos) ∧ Ends (Chumsky.canParse P row pos) false

/-- **C94** for a single rule, anywhere in a row: `can_parse`, which does not call the closures
that build nodes and does not look into containers, gives the answer that parsing would give, and
neither panics. -/
theorem C94_check (g : Grammar) (hg : g.Good) (r : Rule) (hr : r ∈ g.rules)
    (hk : r.Parsed) (row : Row) (hw : rowWf row = true) (pos : Nat)
    (hp : pos ≤ row.length) (f : Nat) (hf : rowWeight row < f) :
    Tried (Chumsky.ruleParser (Chumsky.pratt g f) g r) row pos := by
  have hm : restWeight row pos ≤ f := by
    have := restWeight_le row (Nat.zero_le pos)
    simp only [restWeight, List.drop_zero] at this ⊢
    omega
  obtain ⟨o, ho, hres, -⟩ := ruleParse_ok (pratt_ok hg f) g (hg.1 r hr hk) hw hp hm
  have ha := Chumsky.rule_agrees (Chumsky.pratt_of g f) g r row pos
  cases o with
  | none =>
    have := ha.fails ho
    exact .inr ⟨⟨_, Chumsky.parseSafe_fails this⟩, ⟨_, Chumsky.canParse_fails this⟩⟩
  | some x =>
    obtain ⟨t, p⟩ := x
    have := ha.yields _ _ ho
    obtain ⟨hfills, hlt⟩ := hres t p rfl
    exact .inl ⟨t, p, hlt, hfills.le.2, ⟨_, Chumsky.parseSafe_yields this⟩,
      ⟨_, Chumsky.canParse_yields this⟩⟩

/-! ## Non-vacuity -/

/-- The parser written with combinators reads the row, and the tree prints like this. -/
def writtenParsesAs (row : Row) (s : String) : Bool :=
  match createParser asciiXid with
  | .error _ => false
  | .ok (g, m) =>
    match Chumsky.parse g (rowWeight row + 1) row with
    | .error _ => false
    | .ok (t, _) =>
      match t.display m with
      | .error _ => false
      | .ok d => d == s.toList

/- Numbers, names and characters that no rule reads. -/
example : writtenParsesAs [nsym "1", nsym "2", nsym ".", nsym "a", nsym "b", nsym ")"]
    "(Error::MissingOperator (Error::MissingOperator (Arithmetic::Number \"12\") (Error::MissingToken) (Error::UnknownToken \".\")) (Error::MissingToken) (Error::MissingOperator (Core::Variable \"ab\") (Error::MissingToken) (Error::UnknownToken \")\")))" = true := by
  decide +kernel
/- A string with an escaped quotation mark, and an operator with scripts and spaces. -/
example : writtenParsesAs
    [nsym "\"", nsym "\\", nsym "\"", nsym "x", nsym "\"", nsym " ", nsym "+",
      .container .sub [[nsym "1"]] 1, nsym " ", .container .sup [[nsym "("]] 1]
    "(Arithmetic::Add (BuiltIn::Whitespaces (String::String \"\\\"\\\\\\\"x\\\"\") (BuiltIn::Whitespace \" \")) (BuiltIn::Sup (BuiltIn::Sub (BuiltIn::Operator \"+\") (BuiltIn::Whitespaces (BuiltIn::Operator 1x1 (Arithmetic::Number \"1\")) (BuiltIn::Whitespace \" \"))) (BuiltIn::Operator 1x1 (Error::UnknownToken \"(\"))) (Error::MissingToken))" = true := by
  decide +kernel
/-- The number of calls that the parser written with combinators counts. -/
def writtenCalls (row : Row) : Option Nat :=
  match createParser asciiXid with
  | .error _ => none
  | .ok (g, _) => (Chumsky.parse g (rowWeight row + 1) row).toOption.map (·.2)

/- One call for the row, one for each operand behind an operator, and for the tries that fail. -/
example : writtenCalls [nsym "a", nsym "+", nsym "b"] = some 2 := by decide +kernel
example : writtenCalls [nsym "(", nsym "(", nsym "("] = some 27 := by decide +kernel
example : writtenCalls [nsym "a", .container .sub [[nsym "1"]] 1] = some 2 := by decide +kernel
/- Asking does not look into a container, parsing does. -/
example : let P := Chumsky.containerParser (fun _ _ _ _ _ => .error .todo) .sub
    P .check [.container .sub [[nsym "1"]] 1] 0 7 = .ok ((some (), 1), 7) ∧
      P .emit [.container .sub [[nsym "1"]] 1] 0 7 = .error .todo := ⟨rfl, rfl⟩
/- A failing parser leaves the offset behind, -/
example : Chumsky.justSymbols [['f'], ['o']] .check [nsym "f", nsym "x"] 0 7 =
    .ok ((none, 2), 7) := rfl
/- and repeating a parser that reads nothing panics. -/
example : Chumsky.ending.orNot.repeated .check [nsym "f", nsym "x"] 0 7 = .error .explicit := rfl

end Aftermath
