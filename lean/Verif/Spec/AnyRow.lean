import Verif.Spec.Expression

/-! # What a row means, well formed or not

Extends `Spec/Expression` by the three kinds of errors: an operand is missing, an operator is
missing, and symbols that are the start of nothing. -/

namespace Aftermath

/-- The expression may end here: at the end of the row or, inside of brackets, at the closing
bracket if that is not also the start of some other token. -/
def EndsAt (g : Grammar) (row : Row) (e : Ending) (pos : Nat) : Prop :=
  pos = row.length ∨ ∃ s, e = .sym s ∧ row[pos]? = some (.symbol s) ∧ ∀ role, NoneOf g role row pos

/-- Some rule of this role can be parsed at `pos`. -/
def SomeOf (g : Grammar) (role : Role) (row : Row) (pos : Nat) : Prop :=
  ∃ t r p, Chosen g role row pos t r p

/-- The symbol `s` at `pos` is not the start of anything, and the expression does not end here. -/
def Unknown (g : Grammar) (row : Row) (e : Ending) (pos : Nat) (s : Str) : Prop :=
  row[pos]? = some (.symbol s) ∧ (∀ role, NoneOf g role row pos) ∧ e ≠ .sym s

/-- The node for something that is missing at `pos`. -/
def missingAt (g : Grammar) (pos : Nat) : SNode := .children g.builtIn.missingToken pos pos []

/-- The node for the unknown symbol `s` at `pos`. -/
def unknownAt (g : Grammar) (pos : Nat) (s : Str) : SNode :=
  .leaf g.builtIn.unknownToken pos (pos + 1) .symbol [s]

/-- The node for `x` and `y` without an operator in between. -/
def juxtaposed (g : Grammar) (x y : SNode) : SNode :=
  .children g.builtIn.missingOperator x.lo y.hi [x, missingAt g x.hi, y]

/-- `t` is the node for the unknown symbols from `pos` to `p`, each with all before it. -/
inductive UnknownRun (g : Grammar) (row : Row) (e : Ending) (pos : Nat) : SNode → Nat → Prop
  | one {s} : Unknown g row e pos s → UnknownRun g row e pos (unknownAt g pos s) (pos + 1)
  | more {t p s} : UnknownRun g row e pos t p → Unknown g row e p s →
      UnknownRun g row e pos (juxtaposed g t (unknownAt g p s)) (p + 1)

/-- `t` is the node for all unknown symbols from `pos` on, up to `p`. -/
def AllUnknown (g : Grammar) (row : Row) (e : Ending) (pos : Nat) (t : SNode) (p : Nat) : Prop :=
  UnknownRun g row e pos t p ∧ ∀ s, ¬ Unknown g row e p s

/-- A token, or the place of something that is missing. -/
inductive ETok
  | operand (t : SNode)
  | pre (r : Rule) (op : SNode)
  | inf (r : Rule) (op : SNode)
  | post (r : Rule) (op : SNode)
  /-- an operator is missing -/
  | gap
  /-- unknown symbols after an operand -/
  | junk (t : SNode)

/-- From `pos` to `q` the row reads as these tokens. Where an operand is needed but an operator
comes, or the end, the operand is missing. Where an operator is needed but an operand comes, the
operator is missing. Symbols that are the start of nothing stand for an operand if one is needed;
otherwise they belong to the operand before them. Binding powers play no role. -/
inductive ReadsAny (g : Grammar) (row : Row) (e : Ending) : Expects → Nat → List ETok → Nat → Prop
  | pre {pos p q op r ts} : Chosen g .prefix row pos op r p → ReadsAny g row e .operand p ts q →
      ReadsAny g row e .operand pos (.pre r op :: ts) q
  | operand {pos p q t r ts} : NoneOf g .prefix row pos → Chosen g .atom row pos t r p →
      ReadsAny g row e .operator p ts q → ReadsAny g row e .operand pos (.operand t :: ts) q
  | missing {pos q ts} : NoneOf g .prefix row pos → NoneOf g .atom row pos →
      (SomeOf g .infix row pos ∨ SomeOf g .postfix row pos) →
      ReadsAny g row e .operator pos ts q →
      ReadsAny g row e .operand pos (.operand (missingAt g pos) :: ts) q
  | missingEnd {pos} : EndsAt g row e pos →
      ReadsAny g row e .operand pos [.operand (missingAt g pos)] pos
  | unknown {pos t p q ts} : AllUnknown g row e pos t p → ReadsAny g row e .operator p ts q →
      ReadsAny g row e .operand pos (.operand t :: ts) q
  | inf {pos p q op r ts} : Chosen g .infix row pos op r p → ReadsAny g row e .operand p ts q →
      ReadsAny g row e .operator pos (.inf r op :: ts) q
  | post {pos p q op r ts} : NoneOf g .infix row pos → Chosen g .postfix row pos op r p →
      ReadsAny g row e .operator p ts q → ReadsAny g row e .operator pos (.post r op :: ts) q
  | gap {pos q ts} : NoneOf g .infix row pos → NoneOf g .postfix row pos →
      (SomeOf g .prefix row pos ∨ SomeOf g .atom row pos) → ReadsAny g row e .operand pos ts q →
      ReadsAny g row e .operator pos (.gap :: ts) q
  | junk {pos t p q ts} : AllUnknown g row e pos t p → ReadsAny g row e .operator p ts q →
      ReadsAny g row e .operator pos (.junk t :: ts) q
  | ends {pos} : EndsAt g row e pos → ReadsAny g row e .operator pos [] pos

/-- What joins two operands or belongs to one. -/
inductive EOp
  | rule (r : Rule)
  | gap
  | junk

/-- Does the operand to the right of the first take in the second? A missing operator is like a left
infix operator of binding power 100. Unknown symbols bind more strongly than any operator. -/
def EOp.Takes : EOp → EOp → Prop
  | _, .junk => True
  | .rule r, .rule r' => Aftermath.Takes r r'
  | .rule r, .gap => r.power < 100 ∨ r.power = 100 ∧ ∃ v, r.kind = .rightInfix v
  | .gap, .rule r => 100 < r.power ∨ r.power = 100 ∧ ∀ v, r.kind ≠ .leftInfix v
  | .gap, .gap => False
  | .junk, _ => False

/-- An expression, well formed or not, with its nesting. -/
inductive ETree
  | operand (t : SNode)
  | pre (r : Rule) (op : SNode) (x : ETree)
  | inf (r : Rule) (op : SNode) (x y : ETree)
  | post (r : Rule) (op : SNode) (x : ETree)
  | gap (x y : ETree)
  | junk (x : ETree) (t : SNode)

namespace ETree

/-- The tokens from left to right. -/
def tokens : ETree → List ETok
  | operand t => [.operand t]
  | pre r op x => .pre r op :: x.tokens
  | inf r op x y => x.tokens ++ .inf r op :: y.tokens
  | post r op x => x.tokens ++ [.post r op]
  | gap x y => x.tokens ++ .gap :: y.tokens
  | junk x t => x.tokens ++ [.junk t]

/-- The syntax node of an expression. -/
def node (g : Grammar) : ETree → SNode
  | operand t => t
  | pre r op x => .children r.name op.lo (x.node g).hi [op, x.node g]
  | inf r op x y => .children r.name (x.node g).lo (y.node g).hi [x.node g, op, y.node g]
  | post r op x => .children r.name (x.node g).lo op.hi [x.node g, op]
  | gap x y => juxtaposed g (x.node g) (y.node g)
  | junk x t => juxtaposed g (x.node g) t

/-- What is reached from the root by going to the left operand again and again. -/
def leftOps : ETree → List EOp
  | operand _ => []
  | pre _ _ _ => []
  | inf r _ x _ => .rule r :: x.leftOps
  | post r _ x => .rule r :: x.leftOps
  | gap x _ => .gap :: x.leftOps
  | junk x _ => .junk :: x.leftOps

/-- What is reached from the root by going to the right operand again and again. -/
def rightOps : ETree → List EOp
  | operand _ => []
  | pre r _ x => .rule r :: x.rightOps
  | inf r _ _ y => .rule r :: y.rightOps
  | post _ _ _ => []
  | gap _ y => .gap :: y.rightOps
  | junk _ _ => []

/-- Nested according to the binding powers, as `PTree.Nested`. -/
def Nested : ETree → Prop
  | operand _ => True
  | pre r _ x => x.Nested ∧ ∀ o ∈ x.leftOps, (EOp.rule r).Takes o
  | inf r _ x y => x.Nested ∧ y.Nested ∧ (∀ o ∈ y.leftOps, (EOp.rule r).Takes o) ∧
      ∀ o ∈ x.rightOps, ¬ o.Takes (.rule r)
  | post r _ x => x.Nested ∧ ∀ o ∈ x.rightOps, ¬ o.Takes (.rule r)
  | gap x y => x.Nested ∧ y.Nested ∧ (∀ o ∈ y.leftOps, EOp.gap.Takes o) ∧
      ∀ o ∈ x.rightOps, ¬ o.Takes .gap
  | junk x _ => x.Nested ∧ ∀ o ∈ x.rightOps, ¬ o.Takes .junk

end ETree

end Aftermath
