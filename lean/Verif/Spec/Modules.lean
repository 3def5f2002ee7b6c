import Verif.Spec.Expression

/-! # The leaves of a syntax tree, and names that begin with `lim` -/

namespace Aftermath

mutual
/-- The leaves of a syntax tree: name and symbols. -/
def SNode.leaves : SNode → List (Nat × List Str)
  | .leaf n _ _ _ ss => [(n, ss)]
  | .newRows _ _ _ ts _ => treesLeaves ts
  | .children _ _ _ cs => treesLeaves cs
/-- see `SNode.leaves` -/
def treesLeaves : List SNode → List (Nat × List Str)
  | [] => []
  | c :: cs => c.leaves ++ treesLeaves cs
end

/-- The symbols begin with the letters `l`, `i`, `m`. -/
def BeginsLim (ss : List Str) : Prop := [['l'], ['i'], ['m']] <+: ss

/-- No leaf with the name `v` begins with `lim`. -/
def NoLim (v : Nat) (t : SNode) : Prop := ∀ l ∈ t.leaves, l.1 = v → ¬ BeginsLim l.2

end Aftermath
