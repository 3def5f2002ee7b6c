import Verif.Model.Parser

/-! # Operator expressions: which rule is used where, and how operators nest

Independent of the pratt parser. Only the parsing of a single token with its spaces (`ruleParse`)
is used, since brackets and containers make a token contain whole expressions. -/

namespace Aftermath

/-! ## The rule that is used at a position -/

/-- What a rule is for. -/
inductive Role
  | atom
  | prefix
  | infix
  | postfix
  deriving DecidableEq, Repr

/-- The role of a rule; a rule that is only a name has none. -/
def Rule.role (r : Rule) : Option Role :=
  match r.kind with
  | .nameOnly => none
  | .atom => some .atom
  | .prefix _ => some .prefix
  | .leftInfix _ => some .infix
  | .rightInfix _ => some .infix
  | .postfix _ => some .postfix

/-- The rule `r` can be parsed at `pos`, giving `node` and ending before `p`. -/
def RuleParses (g : Grammar) (r : Rule) (row : Row) (pos : Nat) (node : SNode) (p : Nat) : Prop :=
  ∃ f, ruleParse (pratt g f) g r row pos = .ok (some (node, p))

/-- The rule `r` cannot be parsed at `pos`. -/
def RuleFails (g : Grammar) (r : Rule) (row : Row) (pos : Nat) : Prop :=
  ∃ f, ruleParse (pratt g f) g r row pos = .ok none

/-- Among the rules of this role that can be parsed at `pos`, `r` is the one registered last
(modules in the order in which they were added, rules in the order within the module). -/
def Chosen (g : Grammar) (role : Role) (row : Row) (pos : Nat) (node : SNode) (r : Rule) (p : Nat) :
    Prop :=
  ∃ before after, g.modules.flatten = before ++ r :: after ∧ r.role = some role ∧
    RuleParses g r row pos node p ∧
    ∀ r' ∈ after, r'.role = some role → RuleFails g r' row pos

/-- No rule of this role can be parsed at `pos`. -/
def NoneOf (g : Grammar) (role : Role) (row : Row) (pos : Nat) : Prop :=
  ∀ r ∈ g.modules.flatten, r.role = some role → RuleFails g r row pos

/-! ## Reading a row as an operator expression -/

/-- A token of an expression: the rule and the syntax node of the token. -/
inductive Tok
  | operand (r : Rule) (t : SNode)
  | pre (r : Rule) (op : SNode)
  | inf (r : Rule) (op : SNode)
  | post (r : Rule) (op : SNode)

/-- the rule of a token -/
def Tok.rule : Tok → Rule
  | operand r _ => r
  | pre r _ => r
  | inf r _ => r
  | post r _ => r

/-- the syntax node of a token -/
def Tok.node : Tok → SNode
  | operand _ t => t
  | pre _ t => t
  | inf _ t => t
  | post _ t => t

/-- What has to come next. -/
inductive Expects
  | operand
  | operator
  deriving DecidableEq

/-- From `pos` to `q` the row reads as a well-formed operator expression with these tokens: operands
separated by infix operators, with prefix operators before and postfix operators after them.
The expression ends at the end of the row or, inside of brackets, at the closing bracket if that
is not also the start of some other token. Binding powers play no role. -/
inductive Reads (g : Grammar) (row : Row) (e : Ending) : Expects → Nat → List Tok → Nat → Prop
  | pre {pos p q op r ts} : Chosen g .prefix row pos op r p → Reads g row e .operand p ts q →
      Reads g row e .operand pos (.pre r op :: ts) q
  | operand {pos p q t r ts} : NoneOf g .prefix row pos → Chosen g .atom row pos t r p →
      Reads g row e .operator p ts q → Reads g row e .operand pos (.operand r t :: ts) q
  | inf {pos p q op r ts} : Chosen g .infix row pos op r p → Reads g row e .operand p ts q →
      Reads g row e .operator pos (.inf r op :: ts) q
  | post {pos p q op r ts} : NoneOf g .infix row pos → Chosen g .postfix row pos op r p →
      Reads g row e .operator p ts q → Reads g row e .operator pos (.post r op :: ts) q
  | endOfRow : Reads g row e .operator row.length [] row.length
  | closing {pos s} : e = .sym s → row[pos]? = some (.symbol s) →
      (∀ role, NoneOf g role row pos) → Reads g row e .operator pos [] pos

/-! ## Nesting -/

/-- the binding power of a rule -/
def Rule.power (r : Rule) : Nat :=
  match r.kind with
  | .prefix v => v
  | .leftInfix v => v
  | .rightInfix v => v
  | .postfix v => v
  | _ => 0

/-- Does the operand to the right of the infix or prefix operator `o` take in a following infix or
postfix operator `o'`? If `o'` has the higher binding power; and if they have the same, unless `o'`
is a left infix operator and `o` is not a right infix operator. -/
def Takes (o o' : Rule) : Prop :=
  o.power < o'.power ∨
    o.power = o'.power ∧ ((∀ v, o'.kind ≠ .leftInfix v) ∨ ∃ v, o.kind = .rightInfix v)

/-- An expression with its nesting. -/
inductive PTree
  | operand (r : Rule) (t : SNode)
  | pre (r : Rule) (op : SNode) (x : PTree)
  | inf (r : Rule) (op : SNode) (x y : PTree)
  | post (r : Rule) (op : SNode) (x : PTree)

namespace PTree

/-- The tokens from left to right. -/
def tokens : PTree → List Tok
  | operand r t => [.operand r t]
  | pre r op x => .pre r op :: x.tokens
  | inf r op x y => x.tokens ++ .inf r op :: y.tokens
  | post r op x => x.tokens ++ [.post r op]

/-- The syntax node of an expression. -/
def node : PTree → SNode
  | operand _ t => t
  | pre r op x => .children r.name op.lo x.node.hi [op, x.node]
  | inf r op x y => .children r.name x.node.lo y.node.hi [x.node, op, y.node]
  | post r op x => .children r.name x.node.lo op.hi [x.node, op]

/-- The infix and postfix operators that are reached from the root by going to the left operand
again and again: those whose left operand starts where the whole expression starts. -/
def leftOps : PTree → List Rule
  | operand _ _ => []
  | pre _ _ _ => []
  | inf r _ x _ => r :: x.leftOps
  | post r _ x => r :: x.leftOps

/-- The infix and prefix operators that are reached from the root by going to the right operand
again and again: those whose right operand ends where the whole expression ends. -/
def rightOps : PTree → List Rule
  | operand _ _ => []
  | pre r _ x => r :: x.rightOps
  | inf r _ _ y => r :: y.rightOps
  | post _ _ _ => []

/-- The operators nest according to their binding powers: a right operand contains only operators
that are taken in by the operator to the left of it, and no operator has a left operand that should
have ended later. -/
def Nested : PTree → Prop
  | operand _ _ => True
  | pre r _ x => x.Nested ∧ ∀ o ∈ x.leftOps, Takes r o
  | inf r _ x y => x.Nested ∧ y.Nested ∧ (∀ o ∈ y.leftOps, Takes r o) ∧ ∀ o ∈ x.rightOps, ¬ Takes o r
  | post r _ x => x.Nested ∧ ∀ o ∈ x.rightOps, ¬ Takes o r

/-- All operators. -/
def ops : PTree → List Rule
  | operand _ _ => []
  | pre r _ x => r :: x.ops
  | inf r _ x y => r :: (x.ops ++ y.ops)
  | post r _ x => r :: x.ops

/-- No prefix and no postfix operators. -/
def Flat : PTree → Prop
  | operand _ _ => True
  | pre _ _ _ => False
  | inf _ _ x y => x.Flat ∧ y.Flat
  | post _ _ _ => False

/-- `P` holds for every part `inf r op x y` of the tree. -/
def ForInfix (P : Rule → PTree → PTree → Prop) : PTree → Prop
  | operand _ _ => True
  | pre _ _ x => x.ForInfix P
  | inf r _ x y => P r x y ∧ x.ForInfix P ∧ y.ForInfix P
  | post _ _ x => x.ForInfix P

end PTree

/-! ## Chains of operands and infix operators -/

/-- No prefix and no postfix operators. -/
def FlatToks (toks : List Tok) : Prop := ∀ tk ∈ toks, match tk with
  | .operand _ _ => True
  | .inf _ _ => True
  | _ => False

/-- The tokens of a chain after its first operand. -/
def chainToks : List ((Rule × SNode) × (Rule × SNode)) → List Tok
  | [] => []
  | ((r, op), (a, t)) :: rest => .inf r op :: .operand a t :: chainToks rest

/-- `((x o a) o b) o c` -/
def leftChain (x : PTree) : List ((Rule × SNode) × (Rule × SNode)) → PTree
  | [] => x
  | ((r, op), (a, t)) :: rest => leftChain (.inf r op x (.operand a t)) rest

/-- `x o (a o (b o c))` -/
def rightChain (a0 : Rule) (t0 : SNode) : List ((Rule × SNode) × (Rule × SNode)) → PTree
  | [] => .operand a0 t0
  | ((r, op), (a, t)) :: rest => .inf r op (.operand a0 t0) (rightChain a t rest)

/-! ## Rows without errors -/

/-- The number of spaces at the start. -/
def leadingSpaces : List Node → Nat
  | .symbol [' '] :: rest => leadingSpaces rest + 1
  | _ => 0

/-- The expression starting at `pos` is well formed, and so are the expressions in its brackets. -/
inductive CleanFrom (g : Grammar) (row : Row) : Nat → Ending → Prop
  | mk {pos e toks q} : Reads g row e .operand pos toks q →
      (∀ tk ∈ toks, ∀ n o c, tk.rule.parser = .brackets n o c →
        CleanFrom g row (tk.node.lo + leadingSpaces (row.drop tk.node.lo) + 1) (.sym c)) →
      CleanFrom g row pos e

/-- The row is a well-formed expression, and so are all cells in it, at every depth. -/
inductive CleanRow (g : Grammar) : Row → Prop
  | mk {row : Row} : CleanFrom g row 0 .eof →
      (∀ (i : Nat) v cells w, row[i]? = some (Node.container v cells w) → ∀ c ∈ cells, CleanRow g c) →
      CleanRow g row

mutual
/-- The names of all nodes of a syntax tree. -/
def SNode.names : SNode → List Nat
  | .leaf n _ _ _ _ => [n]
  | .newRows n _ _ ts _ => n :: treesNames ts
  | .children n _ _ cs => n :: treesNames cs
/-- see `SNode.names` -/
def treesNames : List SNode → List Nat
  | [] => []
  | c :: cs => c.names ++ treesNames cs
end

/-- The names of error nodes. -/
def Grammar.errorNames (g : Grammar) : List Nat :=
  [g.builtIn.missingOperator, g.builtIn.missingToken, g.builtIn.unknownToken]

/-- There is no error node in the tree. -/
def ErrorFree (g : Grammar) (t : SNode) : Prop := ∀ n ∈ t.names, n ∉ g.errorNames

/-- No rule has the name of an error. -/
structure Grammar.ErrorsApart (g : Grammar) : Prop where
  builtIn : ∀ n ∈ [g.builtIn.operator, g.builtIn.whitespaces, g.builtIn.whitespace, g.builtIn.sub,
    g.builtIn.sup], n ∉ g.errorNames
  rules : ∀ r ∈ g.modules.flatten, r.role ≠ none → r.name ∉ g.errorNames
  brackets : ∀ r ∈ g.modules.flatten, r.role ≠ none → ∀ n o c,
    (r.parser = .brackets n o c ∨ r.parser = .emptyBrackets n o c) → n ∉ g.errorNames

end Aftermath
