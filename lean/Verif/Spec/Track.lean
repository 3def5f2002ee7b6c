import Verif.Spec.Edit

/-! # Specification of tracking ranges through edits -/

namespace Aftermath

/-- The left and right end of a range. -/
def MinRange.lo (r : MinRange) : Nat := min r.start r.stop
def MinRange.hi (r : MinRange) : Nat := max r.start r.stop

/-- The part of a row left of a range, inside it and right of it. -/
def MinRange.before (r : MinRange) (row : Row) : Row := row.take r.lo
def MinRange.marked (r : MinRange) (row : Row) : Row := (row.take r.hi).drop r.lo
def MinRange.after (r : MinRange) (row : Row) : Row := row.drop r.hi

/-- The part `xs` of a row, which begins at offset `o` of the row, without the nodes whose
offsets in the row are from `k` to `k + n`. -/
def cutFrom (o : Nat) (xs : Row) (k n : Nat) : Row := xs.take (k - o) ++ xs.drop (k + n - o)

/-- Where a range in row `q ++ (i, j) :: p` should be after `n` nodes were inserted at offset `k`
of row `q`. -/
def shiftedByInsert (q : RowIndices) (i j : Nat) (p : RowIndices) (start stop k n : Nat) :
    MinRange := ⟨q ++ ((if k ≤ i then i + n else i), j) :: p, start, stop⟩

/-- Where it should be after the nodes from `k` to `k + n` of row `q` were deleted. -/
def shiftedByDelete (q : RowIndices) (i j : Nat) (p : RowIndices) (start stop k n : Nat) :
    MinRange :=
  if k ≤ i ∧ i < k + n then ⟨q, k, k⟩
  else ⟨q ++ ((if k + n ≤ i then i - n else i), j) :: p, start, stop⟩

end Aftermath
