import Verif.Spec.Tokens

/-! # The words left of the caret and what is suggested for them -/

namespace Aftermath

/-- The nodes directly left of offset `o` are the characters `w`, each a symbol, and no symbol
precedes them. -/
def TextLeft (row : Row) (o : Nat) (w : Str) : Prop :=
  o ≤ row.length ∧ ∃ before, row.take o = before ++ w.map (fun c => Node.symbol [c]) ∧
    ∀ s, before.getLast? ≠ some (.symbol s)

/-- The last `k` characters of `w` begin the word of the rule, and `k` is at least 2. -/
def fits (w : Str) (k : Nat) (r : AutocompleteRule) : Bool :=
  decide (2 ≤ k ∧ k ≤ w.length) && (w.drop (w.length - k)).isPrefixOf r.parser

/-- What is suggested behind the text `w`: rules, and the number of characters that they replace.
Few characters come first; the rules of as many characters are in their own order. -/
def suggested (rules : List AutocompleteRule) (w : Str) : List (AutocompleteRule × Nat) :=
  (List.range (w.length + 1)).flatMap fun k => (rules.filter (fits w k)).map fun r => (r, k)

/-- The suggestion that is selected: the first one of the rule that was selected last, or else the
first one. -/
def chosen (last : Option AutocompleteRule) (l : List (AutocompleteRule × Nat)) :
    Option (AutocompleteRule × Nat) :=
  (last.bind fun r => l.find? fun x => x.1 == r).or l.head?

/-- The word of the rule is completed as soon as it is left of the caret, even if nothing was
selected before: no rule begins with an ending of the word that is shorter and has two characters or
more, and the rule is the first one that begins with the word. -/
def Preferred (rules : List AutocompleteRule) (r : AutocompleteRule) : Prop :=
  2 ≤ r.parser.length ∧
  (∀ r' ∈ rules, ∀ t, t <:+ r.parser → 2 ≤ t.length → t ≠ r.parser → ¬ t <+: r'.parser) ∧
  ∃ before after, rules = before ++ r :: after ∧ ∀ r' ∈ before, ¬ r.parser <+: r'.parser

/-- The word does not begin with a shorter ending of itself of two characters or more, so that it
is completed if its rule was selected before. -/
def Unbordered (r : AutocompleteRule) : Prop :=
  2 ≤ r.parser.length ∧
  ∀ t, t <:+ r.parser → 2 ≤ t.length → t ≠ r.parser → ¬ t <+: r.parser

/-- The rule that is remembered after typing `u` behind the text `w`. -/
def rememberedBy (rules : List AutocompleteRule) :
    Option AutocompleteRule → Str → Str → Option AutocompleteRule
  | last, _, [] => last
  | last, w, c :: u =>
    rememberedBy rules ((chosen last (suggested rules w)).map Prod.fst) (w ++ [c]) u

/-- Typing characters one by one. -/
def typing (u : Str) : List Op := u.map fun c => .insertAtCaret [[c]]

end Aftermath
