import Verif.Spec.Notation

/-! # Putting formulas in the places of variables

In a formula, and in a row that is a way to write it. Nothing here uses the parser. -/

namespace Aftermath

mutual
/-- The node, or a row in brackets if it is a character that is replaced by this row. -/
def Node.subst (σ : Char → Option Row) : Node → List Node
  | .symbol [c] =>
    match σ c with
    | some q => inBrackets q
    | none => [.symbol [c]]
  | .symbol s => [.symbol s]
  | .container v cells w => [.container v (substCells σ cells) w]
/-- The row, with some characters replaced by rows in brackets, also within all cells. -/
def substRow (σ : Char → Option Row) : List Node → List Node
  | [] => []
  | n :: ns => n.subst σ ++ substRow σ ns
/-- see `substRow` -/
def substCells (σ : Char → Option Row) : List (List Node) → List (List Node)
  | [] => []
  | r :: rs => substRow σ r :: substCells σ rs
end

/-- The formula, with some variables replaced by formulas. Only variables with a name of one character
are replaced. -/
def Formula.subst (τ : Char → Option Formula) : Formula → Formula
  | .number s => .number s
  | .variable [c] => (τ c).getD (.variable [c])
  | .variable s => .variable s
  | .constant k => .constant k
  | .string s => .string s
  | .bin o n ks ss a b => .bin o n ks (fun i => (ss i).subst τ) (a.subst τ) (b.subst τ)
  | .pre o n ks ss a => .pre o n ks (fun i => (ss i).subst τ) (a.subst τ)
  | .post o a => .post o (a.subst τ)
  | .script k a b => .script k (a.subst τ) (b.subst τ)
  | .apply f a => .apply (f.subst τ) (a.subst τ)
  | .call f => .call (f.subst τ)
  | .unit => .unit
  | .fraction a b => .fraction (a.subst τ) (b.subst τ)
  | .root a b => .root (a.subst τ) (b.subst τ)
  | .table w n cells => .table w n fun i => (cells i).subst τ

/-- In the formula, characters with the property `P` are variables of their own. They are no parts of
longer names, of strings or of `lim`, `limsup` and `liminf`. -/
def Formula.Alone (P : Char → Prop) : Formula → Prop
  | .variable s => (∃ c, s = [c]) ∨ ∀ c ∈ s, ¬ P c
  | .string s => ∀ c ∈ s, ¬ P c
  | .number _ | .constant _ | .unit => True
  | .bin _ _ _ ss a b => (∀ i, (ss i).Alone P) ∧ a.Alone P ∧ b.Alone P
  | .pre o _ _ ss a => (∀ c ∈ o.text, ¬ P c) ∧ (∀ i, (ss i).Alone P) ∧ a.Alone P
  | .script _ a b | .apply a b | .fraction a b | .root a b => a.Alone P ∧ b.Alone P
  | .post _ a | .call a => a.Alone P
  | .table _ _ cells => ∀ i, (cells i).Alone P

/-- Each character that is replaced can be the name of a variable, and the row that replaces it is a
way to write the formula that replaces it. -/
structure Replaces (x : Xid) (σ : Char → Option Row) (τ : Char → Option Formula) : Prop where
  letter : ∀ c, (σ c).isSome = true → x.start c = true ∧ c ≠ '\\'
  none : ∀ c, σ c = none ↔ τ c = none
  writes : ∀ c q f, σ c = some q → τ c = some f → f.Writes x 0 0 q

end Aftermath
