import Verif.Spec.Notation

/-! # Names, numbers and strings of any symbols

A symbol of a row can have several characters, for example a letter with an accent, or none. -/

namespace Aftermath

/-- The symbols are a name: the first begins with a letter, everything else can go on a name. A name
cannot begin with the symbols `l`, `i`, `m`. -/
def NameText (x : Xid) (ss : List Str) : Prop :=
  (∃ c cs rest, ss = (c :: cs) :: rest ∧ x.start c = true ∧ (∀ d ∈ cs, x.continue_ d = true) ∧
    ∀ s ∈ rest, ∀ d ∈ s, x.continue_ d = true) ∧
  ¬ [['l'], ['i'], ['m']] <+: ss

/-- At least one symbol, and all their characters are digits. -/
def DigitsText (ss : List Str) : Prop := ss ≠ [] ∧ ∀ s ∈ ss, ∀ c ∈ s, c.isDigit = true

/-- The symbols are a number. -/
def NumberText (ss : List Str) : Prop :=
  DigitsText ss ∨ ∃ a b, ss = a ++ ['.'] :: b ∧ DigitsText a ∧ DigitsText b

/-- What is between the quotes of a string. -/
inductive Quotable : List Str → Prop
  | nil : Quotable []
  | plain {s ss} : s ≠ ['"'] → s ≠ ['\\'] → Quotable ss → Quotable (s :: ss)
  | escaped {s ss} : Quotable ss → Quotable (['\\'] :: s :: ss)

/-- The symbols are a string. -/
def StringText (ss : List Str) : Prop := ∃ b, Quotable b ∧ ss = ['"'] :: b ++ [['"']]

end Aftermath
