import Verif.Spec.Path
import Verif.Model.Edit

/-! # Specification of edits -/

namespace Aftermath

/-- `ReplacedAt root p old new root'`: `root'` is `root` with the row `old` at path `p`
replaced by `new`, and nothing else changed: on the way down every row keeps its length and
its other nodes, every container its variant, width, number of cells and other cells. -/
inductive ReplacedAt : Row → RowIndices → Row → Row → Row → Prop
  | here (old new : Row) : ReplacedAt old [] old new new
  | under {r r' : Row} {i j : Nat} {p : RowIndices} {old new : Row} {v : Variant}
      {cells cells' : List Row} {w : Nat} {c c' : Row}
      (hlen : r'.length = r.length)
      (hnode : r[i]? = some (.container v cells w))
      (hnode' : r'[i]? = some (.container v cells' w))
      (hother : ∀ k, k ≠ i → r'[k]? = r[k]?)
      (hclen : cells'.length = cells.length)
      (hcell : cells[j]? = some c)
      (hcell' : cells'[j]? = some c')
      (hcother : ∀ k, k ≠ j → cells'[k]? = cells[k]?)
      (h : ReplacedAt c p old new c') :
      ReplacedAt r ((i, j) :: p) old new r'

/-- An edit is recorded truthfully for a tree: it is a row edit, and if it is a deletion then
the values it records are the ones standing to the right of its position. -/
def TruthfulEdit (root : Row) : BasicEdit → Prop
  | .row e => e.editType = .delete →
      ∃ r, rowAt root e.position.rowIndices = some r ∧
        (r.drop e.position.offset).take e.values.length = e.values
  | .grid _ => False

/-- Every edit of the list is recorded truthfully for the tree it is applied to. -/
def Truthful (cfg : Cfg) : Row → List BasicEdit → Prop
  | _, [] => True
  | root, e :: es => TruthfulEdit root e ∧ ∀ root', applyEdit cfg root e = .ok root' →
      Truthful cfg root' es

end Aftermath
