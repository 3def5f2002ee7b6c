import Verif.Model.Syntax
import Verif.Spec.Path

/-! # Vocabulary for what is shown

Nothing here uses the functions of the model, only its data types. -/

namespace Aftermath

/-- The node opens new rows. -/
def SNode.OpensRows : SNode → Prop
  | .newRows _ _ _ _ _ => True
  | _ => False

/-- The first thing after the base of a script node is the script itself, without spaces. -/
def BareScript : List SNode → Prop
  | _ :: s :: _ => s.OpensRows
  | _ => False

mutual
/-- Somewhere in the tree there are spaces directly before or after a script: a node `Sub` or `Sup`
whose second child is not the script itself. -/
def SpacedScript (b : BuiltIn) : SNode → Prop
  | .leaf _ _ _ _ _ => False
  | .newRows _ _ _ ts _ => SpacedScriptIn b ts
  | .children n _ _ cs => ((n = b.sub ∨ n = b.sup) ∧ ¬ BareScript cs) ∨ SpacedScriptIn b cs
/-- see `SpacedScript` -/
def SpacedScriptIn (b : BuiltIn) : List SNode → Prop
  | [] => False
  | c :: cs => SpacedScript b c ∨ SpacedScriptIn b cs
end

/-- The node is a superscript or a subscript. -/
def Node.IsScript : Node → Prop
  | .container .sup _ _ => True
  | .container .sub _ _ => True
  | _ => False

/-- Somewhere in the formula a script is directly followed by a space. -/
def ScriptThenSpace (root : Row) : Prop :=
  ∃ p row i n, rowAt root p = some row ∧ row[i]? = some n ∧ n.IsScript ∧
    row[i + 1]? = some (.symbol [' '])

/-- Somewhere in the formula a script directly follows a space. -/
def SpaceThenScript (root : Row) : Prop :=
  ∃ p row i n, rowAt root p = some row ∧ row[i]? = some (.symbol [' ']) ∧ row[i + 1]? = some n ∧
    n.IsScript

end Aftermath
