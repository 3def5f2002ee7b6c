import Verif.Model.Render
import Verif.Spec.Brackets

/-! # Trees that differ in one pair of brackets -/

namespace Aftermath

/-- Two trees that are the same, except that the brackets somewhere in them are around `u₁` in the first
tree and around `u₂` in the second one. These brackets end at `k₁` and `k₂`. What stands before them has
the same place in both trees, and what stands behind them has the same distance to their end. -/
inductive SNode.Swapped (k₁ k₂ : Nat) (u₁ u₂ : SNode) : SNode → SNode → Prop
  | here (n : Nat) : SNode.Swapped k₁ k₂ u₁ u₂ (bracketsAround n u₁) (bracketsAround n u₂)
  | inside {n lo hi : Nat} {before behind : List SNode} {c₁ c₂ : SNode} :
      SNode.Swapped k₁ k₂ u₁ u₂ c₁ c₂ →
      SNode.Swapped k₁ k₂ u₁ u₂
        (.children n lo (k₁ + hi) (before ++ c₁ :: SNode.shiftAll k₁ behind))
        (.children n lo (k₂ + hi) (before ++ c₂ :: SNode.shiftAll k₂ behind))

/-- An element between two round brackets. -/
def inRoundBrackets (y : Elt) : Elt :=
  .elem .mrow false [.elem .mo false [.text ['(']], y, .elem .mo false [.text [')']]]

end Aftermath
