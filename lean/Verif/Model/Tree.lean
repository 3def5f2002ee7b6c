import Verif.Model.Grid

/-! # Input nodes and rows: `input_tree/src/node.rs`, `row.rs` -/

namespace Aftermath

/-- `node.rs` 35-50 -/
inductive Variant
  | fraction
  | root
  | sup
  | sub
  | table
  deriving DecidableEq, Repr

/-- `node.rs` 19-26 together with `row.rs` 24-26. A row is the list of its nodes
(`InputRow.values`). Simplification of form only: the two fields of the `GridVec<InputRow>`
of a container are arguments of the constructor, `Node.grid` gives the grid back. -/
inductive Node
  | symbol (s : Str)
  | container (variant : Variant) (cells : List (List Node)) (width : Nat)

/-- `row.rs` 24-26 -/
abbrev Row := List Node

namespace Node

/-- `node.rs` 120-125 -/
def grid : Node → Option (GridVec Row)
  | symbol _ => none
  | container _ cells w => some ⟨cells, w⟩

/-- `node.rs` 113-118 and 151-161 -/
def hasResizableGrid : Node → Bool
  | container .table _ _ => true
  | _ => false

/-- `node.rs` 53-59 -/
def fraction (a b : Row) : Node := container .fraction [a, b] 1
/-- `node.rs` 61-67 -/
def root (a b : Row) : Node := container .root [a, b] 2
/-- `node.rs` 69-74 -/
def sup (a : Row) : Node := container .sup [a] 1
/-- `node.rs` 76-81 -/
def sub (a : Row) : Node := container .sub [a] 1
/-- `node.rs` 83-88. Panics on a bad width (`GridVec::from_one_dimensional`). -/
def table (cells : List Row) (width : Nat) : M Node := do
  let g ← GridVec.fromOneDimensional cells width
  .ok (container .table g.values g.width)

end Node

/-! ## Equality of nodes (derived `PartialEq`, `node.rs` 13). -/

mutual
/-- Decision procedure for equality of nodes (derived `PartialEq`, `node.rs` 13). -/
def Node.decEq : (a b : Node) → Decidable (a = b)
  | .symbol s, .symbol t =>
    if h : s = t then isTrue (by rw [h]) else isFalse (by intro e; cases e; exact h rfl)
  | .container v c w, .container v' c' w' =>
    if hv : v = v' then
      if hw : w = w' then
        match cellsDecEq c c' with
        | isTrue h => isTrue (by rw [hv, hw, h])
        | isFalse h => isFalse (by intro e; cases e; exact h rfl)
      else isFalse (by intro e; cases e; exact hw rfl)
    else isFalse (by intro e; cases e; exact hv rfl)
  | .symbol _, .container _ _ _ => isFalse (by intro e; cases e)
  | .container _ _ _, .symbol _ => isFalse (by intro e; cases e)
/-- Equality of rows (derived `PartialEq`, `row.rs` 18). -/
def rowDecEq : (a b : List Node) → Decidable (a = b)
  | [], [] => isTrue rfl
  | [], _ :: _ => isFalse (by intro e; cases e)
  | _ :: _, [] => isFalse (by intro e; cases e)
  | a :: as, b :: bs =>
    match Node.decEq a b with
    | isFalse h => isFalse (by intro e; cases e; exact h rfl)
    | isTrue h =>
      match rowDecEq as bs with
      | isTrue h' => isTrue (by rw [h, h'])
      | isFalse h' => isFalse (by intro e; cases e; exact h' rfl)
/-- Equality of grids (derived `PartialEq`, `grid.rs` 29). -/
def cellsDecEq : (a b : List (List Node)) → Decidable (a = b)
  | [], [] => isTrue rfl
  | [], _ :: _ => isFalse (by intro e; cases e)
  | _ :: _, [] => isFalse (by intro e; cases e)
  | a :: as, b :: bs =>
    match rowDecEq a b with
    | isFalse h => isFalse (by intro e; cases e; exact h rfl)
    | isTrue h =>
      match cellsDecEq as bs with
      | isTrue h' => isTrue (by rw [h, h'])
      | isFalse h' => isFalse (by intro e; cases e; exact h' rfl)
end

instance : DecidableEq Node := Node.decEq

/-! ## Well-formedness

The invariants that the constructors of `node.rs` 53-88 and `GridVec::from_one_dimensional`
establish. A table has at least one cell: `from_one_dimensional` would also accept zero
cells, but no constructor call in the workspace makes such a table. -/

/-- Shape of a container, as made by the constructors in `node.rs` 53-88. -/
def shapeOk (v : Variant) (n w : Nat) : Bool :=
  match v with
  | .fraction => n == 2 && w == 1
  | .root => n == 2 && w == 2
  | .sup => n == 1 && w == 1
  | .sub => n == 1 && w == 1
  | .table => 0 < n && 0 < w && n % w == 0

mutual
/-- Well-formed node: shape as made by the constructors (`node.rs` 53-88), recursively. -/
def Node.wf : Node → Bool
  | .symbol _ => true
  | .container v cells w => shapeOk v cells.length w && cellsWf cells
/-- Every node of the row is well-formed. -/
def rowWf : List Node → Bool
  | [] => true
  | n :: ns => n.wf && rowWf ns
/-- Every cell is a well-formed row. -/
def cellsWf : List (List Node) → Bool
  | [] => true
  | r :: rs => rowWf r && cellsWf rs
end

mutual
/-- All grids of the node have fewer than `2^bits` cells. Holds for every value that
exists in memory, since `Vec::len` is a `usize`. -/
def Node.fits (bits : Nat) : Node → Bool
  | .symbol _ => true
  | .container _ cells _ => decide (cells.length < 2 ^ bits) && cellsFit bits cells
/-- see `Node.fits` -/
def rowFits (bits : Nat) : List Node → Bool
  | [] => true
  | n :: ns => n.fits bits && rowFits bits ns
/-- see `Node.fits` -/
def cellsFit (bits : Nat) : List (List Node) → Bool
  | [] => true
  | r :: rs => rowFits bits r && cellsFit bits rs
end

/-! ## Row indices: `row.rs` 73-215 -/

/-- `row.rs` 85-91 -/
abbrev RowIndex := Nat × Nat
/-- `row.rs` 80 -/
abbrev RowIndices := List RowIndex

/-- `direction.rs` 22-25 -/
inductive HDir
  | left
  | right
  deriving DecidableEq, Repr
/-- `direction.rs` 33-36 -/
inductive VDir
  | up
  | down
  deriving DecidableEq, Repr
/-- `direction.rs` 9-14 -/
inductive Dir
  | left
  | right
  | up
  | down
  deriving DecidableEq, Repr

/-- `direction.rs` 38-45 -/
def HDir.toDir : HDir → Dir
  | .left => .left
  | .right => .right

/-- `row.rs` 41-58 -/
def offsetToIndex (row : Row) (offset : Nat) : HDir → Option Nat
  | .left => if offset = 0 then none else some (offset - 1)
  | .right => if offset ≥ row.length then none else some offset

/-- `row.rs` 123-132: zip, take while equal, map to the first. -/
def getShared (a b : RowIndices) : RowIndices :=
  ((a.zip b).takeWhile (fun p => p.1 == p.2)).map Prod.fst

/-- `row.rs` 119-121, slice `starts_with`. -/
def startsWith (a prefix_ : RowIndices) : Bool := prefix_.isPrefixOf a

/-- Derived `Ord` of `RowIndex`, `row.rs` 85: lexicographic on the two fields. -/
def RowIndex.cmp (a b : RowIndex) : Ordering := (compare a.1 b.1).then (compare a.2 b.2)

/-- `Ord` of slices (std): element-wise, then by length. Used in `row.rs` 170. -/
def RowIndices.cmp : RowIndices → RowIndices → Ordering
  | [], [] => .eq
  | [], _ :: _ => .lt
  | _ :: _, [] => .gt
  | a :: as, b :: bs => (RowIndex.cmp a b).then (RowIndices.cmp as bs)

/-- `row.rs` 160-193. The two `unwrap`s at 181 and 186 are guarded by the length test and
are modelled by the pattern match (the `none` branch is unreachable, and kept as the
offset key). The slices at 168/169 are in range because `shared_len` is the minimum. -/
def cmpIndicesAndOffset (si : RowIndices) (so : Nat) (oi : RowIndices) (oo : Nat) : Ordering :=
  let sharedLen := min si.length oi.length
  let rowOrdering := RowIndices.cmp (si.take sharedLen) (oi.take sharedLen)
  if rowOrdering ≠ .eq then rowOrdering
  else
    let selfKey := match si[sharedLen]? with
      | some ix => ix.1 * 2 + 1
      | none => so * 2
    let otherKey := match oi[sharedLen]? with
      | some ix => ix.1 * 2 + 1
      | none => oo * 2
    compare selfKey otherKey

end Aftermath
