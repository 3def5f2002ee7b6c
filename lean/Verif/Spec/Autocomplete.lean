import Verif.Model.Autocomplete
import Verif.Spec.Move

/-! # Specification of autocomplete matching -/

namespace Aftermath

/-- The nodes directly left of offset `o` of the row are the symbols `syms`. -/
def SymbolsLeftOf (row : Row) (o : Nat) (syms : List Str) : Prop :=
  o ≤ row.length ∧ ∃ before, row.take o = before ++ syms.map Node.symbol

/-- Text in which every character takes one byte. -/
def Ascii (s : Str) : Prop := ∀ c ∈ s, c.utf8Size = 1

/-- The rules are not empty and consist of ASCII characters. -/
def GoodRules (rules : List AutocompleteRule) : Prop :=
  ∀ r ∈ rules, r.parser ≠ [] ∧ Ascii r.parser

/-- There is no symbol without characters directly left of a collapsed caret. -/
def NoEmptySymbolLeft (root : Row) (m : MinCaret) : Prop :=
  ∀ q o row, m = .at ⟨q, o⟩ → rowAt root q = some row → ¬ SymbolsLeftOf row o [[]]

/-- The selected index of a list of `n` entries after moving up or down. -/
def movedIndex (dir : VDir) (i n : Nat) : Nat :=
  match dir with
  | .up => i - 1
  | .down => min (i + 1) (n - 1)

end Aftermath
