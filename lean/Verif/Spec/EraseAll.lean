import Verif.Spec.Path

/-! # What is before and what is behind a caret

Specification of C102: the symbols of a formula in reading order, up to a caret and from it on. -/

namespace Aftermath

/-- The symbols behind the offset `o` of the row at the path. -/
def symbolsAfter : Row → RowIndices → Nat → List Str
  | row, [], o => rowSymbols (row.drop o)
  | row, (i, j) :: q, o =>
    match row[i]? with
    | some (.container _ cells _) =>
      (match cells[j]? with
        | some c => symbolsAfter c q o
        | none => []) ++ cellsSymbols (cells.drop (j + 1)) ++ rowSymbols (row.drop (i + 1))
    | _ => []

/-- The symbols before the offset `o` of the row at the path. -/
def symbolsBefore : Row → RowIndices → Nat → List Str
  | row, [], o => rowSymbols (row.take o)
  | row, (i, j) :: q, o =>
    match row[i]? with
    | some (.container _ cells _) =>
      rowSymbols (row.take i) ++ (cellsSymbols (cells.take j) ++
        (match cells[j]? with
          | some c => symbolsBefore c q o
          | none => []))
    | _ => []

end Aftermath
