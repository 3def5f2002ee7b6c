import Verif.Model.Syntax
import Verif.Model.Focus

/-! # Walking down a syntax tree: `src/core/index.ts` (TypeScript)

A failing `assert` is a panic. -/

namespace Aftermath

/-- The test at `index.ts` 149 and 125 -/
def SNode.containsIndex (t : SNode) (i : Nat) : Bool := decide (t.lo ≤ i) && decide (i < t.hi)

mutual
/-- `getChildWithNewRows`, `index.ts` 144-158, together with the extraction of the rows at
129-130. -/
def SNode.childWithNewRows (i : Nat) : SNode → M (List SNode)
  | .newRows _ _ _ cells _ => .ok cells
  | .leaf _ _ _ _ _ => .error .assertion
  | .children _ _ _ cs => childrenWithNewRows i cs
/-- the loop at `index.ts` 147-152: the first child that contains the index -/
def childrenWithNewRows (i : Nat) : List SNode → M (List SNode)
  | [] => .error .assertion
  | c :: cs => if c.containsIndex i then c.childWithNewRows i else childrenWithNewRows i cs
end

/-- `getNodeWithRowIndices`, `index.ts` 122-139 -/
def SNode.walk (t : SNode) : RowIndices → M SNode
  | [] => .ok t
  | (i, j) :: rest => do
    massert (t.containsIndex i)
    let rows ← t.childWithNewRows i
    match rows[j]? with
    | some t' => t'.walk rest
    | none => .error .assertion

end Aftermath
