import Verif.Model.Parser

/-! # Rows that can stand in brackets -/

namespace Aftermath

/-- The symbols between two quotes: no quote and no backslash, except behind a backslash. -/
inductive InQuotes : List Str → Prop
  | nil : InQuotes []
  | plain {s : Str} {l : List Str} : s ≠ ['"'] → s ≠ ['\\'] → InQuotes l → InQuotes (s :: l)
  | escaped {s : Str} {l : List Str} : InQuotes l → InQuotes (['\\'] :: s :: l)

/-- Every quote is closed. Outside of quotes, every opening bracket is closed, and there are `d` more
closing ones. -/
inductive Balanced : Nat → Row → Prop
  | nil : Balanced 0 []
  | container {d : Nat} {v : Variant} {cells : List Row} {w : Nat} {r : Row} : Balanced d r →
      Balanced d (.container v cells w :: r)
  | opening {d : Nat} {r : Row} : Balanced (d + 1) r → Balanced d (.symbol ['('] :: r)
  | closing {d : Nat} {r : Row} : Balanced d r → Balanced (d + 1) (.symbol [')'] :: r)
  | quotes {d : Nat} {l : List Str} {r : Row} : InQuotes l → Balanced d r →
      Balanced d (.symbol ['"'] :: (l.map Node.symbol ++ .symbol ['"'] :: r))
  | other {d : Nat} {s : Str} {r : Row} : s ≠ ['('] → s ≠ [')'] → s ≠ ['"'] → Balanced d r →
      Balanced d (.symbol s :: r)

mutual
/-- The same tree `k` places further to the right. What is in cells has its own places. -/
def SNode.shift (k : Nat) : SNode → SNode
  | .newRows n lo hi cells w => .newRows n (k + lo) (k + hi) cells w
  | .children n lo hi cs => .children n (k + lo) (k + hi) (SNode.shiftAll k cs)
  | .leaf n lo hi ty ss => .leaf n (k + lo) (k + hi) ty ss
/-- see `SNode.shift` -/
def SNode.shiftAll (k : Nat) : List SNode → List SNode
  | [] => []
  | t :: ts => t.shift k :: SNode.shiftAll k ts
end

/-- `u` is `t` or somewhere in it. What is in cells is not looked at. -/
inductive SNode.PartOf (u : SNode) : SNode → Prop
  | here : SNode.PartOf u u
  | child {n lo hi : Nat} {cs : List SNode} {c : SNode} : c ∈ cs → SNode.PartOf u c →
      SNode.PartOf u (.children n lo hi cs)

/-- The node called `n` for brackets around `u`. -/
def bracketsAround (n : Nat) (u : SNode) : SNode :=
  .children n (u.lo - 1) (u.hi + 1)
    [.leaf 0 (u.lo - 1) u.lo .operator [['(']], u, .leaf 0 u.hi (u.hi + 1) .operator [[')']]]

end Aftermath
