import Verif.Model.Base

/-! # Grids: `input_tree/src/grid.rs`, `grid/index2d.rs`, `grid/grid_view.rs` -/

namespace Aftermath

/-- `grid.rs` 35-38 -/
structure GridVec (α : Type) where
  values : List α
  width : Nat
  deriving DecidableEq, Repr

/-- `grid.rs` 21-25 -/
inductive GridDirection
  | row
  | column
  deriving DecidableEq, Repr

/-- `index2d.rs` 7-11 -/
structure Index2D where
  x : Nat
  y : Nat
  width : Nat
  deriving DecidableEq, Repr

namespace Index2D

/-- `index2d.rs` 18-25. Takes the already computed `grid.size()`; every caller computes
it first, which is where a width of zero panics. -/
def fromIndex (index : Nat) (size : Nat × Nat) : Index2D :=
  ⟨index % size.1, index / size.1, size.1⟩

/-- `index2d.rs` 27-29 -/
def toIndex (i : Index2D) : Nat := i.y * i.width + i.x

/-- `index2d.rs` 47-54 -/
def withGrid (i : Index2D) (size : Nat × Nat) : Option Index2D :=
  if i.width ≠ size.1 ∨ i.x ≥ size.1 ∨ i.y ≥ size.2 then none else some i

/-- `index2d.rs` 31-37. Simplification: `checked_add` never overflows. -/
def addChecked (i : Index2D) (other : Nat × Nat) (size : Nat × Nat) : Option Index2D :=
  withGrid { i with x := i.x + other.1, y := i.y + other.2 } size

/-- `index2d.rs` 39-45 -/
def subChecked (i : Index2D) (other : Nat × Nat) (size : Nat × Nat) : Option Index2D :=
  if other.1 ≤ i.x then
    if other.2 ≤ i.y then
      withGrid { i with x := i.x - other.1, y := i.y - other.2 } size
    else none
  else none

/-- `index2d.rs` 56-59 -/
def toIndexChecked (i : Index2D) (size : Nat × Nat) : Option Nat :=
  (i.withGrid size).map toIndex

end Index2D

namespace GridVec
variable {α : Type}

/-- `grid.rs` 41-43 -/
def size (g : GridVec α) : M (Nat × Nat) :=
  if g.width = 0 then .error .divByZero else .ok (g.width, g.values.length / g.width)

/-- `grid.rs` 45-47 -/
def get (g : GridVec α) (xy : Index2D) : M (Option α) := do
  let s ← g.size
  match xy.toIndexChecked s with
  | some k => .ok g.values[k]?
  | none => .ok none

/-- `grid.rs` 51-55 -/
def fromOneDimensional (values : List α) (width : Nat) : M (GridVec α) :=
  if width = 0 then .error .assertion
  else if values.length % width = 0 then .ok ⟨values, width⟩
  else .error .assertion

/-- `grid.rs` 62-66 (`set` through `get_mut`, 57-60): the old value if there is one, and
the grid after the call. -/
def set (g : GridVec α) (xy : Index2D) (value : α) : M (Option α × GridVec α) := do
  let s ← g.size
  match xy.toIndexChecked s with
  | some k =>
    match g.values[k]? with
    | some old => .ok (some old, { g with values := g.values.set k value })
    | none => .ok (none, g)
  | none => .ok (none, g)

/-- `grid.get(Index2D::from_index(index, grid))`, the way in which a cell is looked up by
its linear index everywhere (`focus.rs` 148, `node.rs` 107, `grid_range.rs` 60). -/
def getLinear (g : GridVec α) (index : Nat) : M (Option α) := do
  let s ← g.size
  g.get (Index2D.fromIndex index s)

end GridVec

/-- `grid_view.rs` 43-54 -/
structure GridRectangle where
  start : Nat
  stop : Nat
  width : Nat
  deriving DecidableEq, Repr

namespace GridRectangle

/-- `grid_view.rs` 57-67; the range is given by its two bounds. -/
def new (start stop width : Nat) : GridRectangle :=
  ⟨start, if start < stop then stop else start, width⟩

/-- `grid_view.rs` 73-77. Division by zero panics. `end_y - start_y` cannot underflow for
values built by `new`, the subtraction is still the machine one. -/
def height (cfg : Cfg) (r : GridRectangle) : M Nat :=
  if r.width = 0 then .error .divByZero else usub cfg (r.stop / r.width) (r.start / r.width)

/-- `grid_view.rs` 79-81 -/
def size (cfg : Cfg) (r : GridRectangle) : M (Nat × Nat) := do
  let h ← r.height cfg
  .ok (r.width, h)

/-- `grid_view.rs` 83-85 -/
def isEmpty (r : GridRectangle) : Bool := r.stop ≤ r.start

/-- `grid_view.rs` 87-91 -/
def startIndex (r : GridRectangle) : M Index2D :=
  if r.width = 0 then .error .divByZero
  else .ok ⟨r.start % r.width, r.start / r.width, r.width⟩

/-- `grid_view.rs` 93-100. In the non-empty branch `end > start >= 0`, so `end - 1` does
not underflow. -/
def endIndexInclusive (r : GridRectangle) : M (Option Index2D) :=
  if r.isEmpty then .ok none
  else if r.width = 0 then .error .divByZero
  else .ok (some ⟨(r.stop - 1) % r.width, (r.stop - 1) / r.width, r.width⟩)

/-- `grid_view.rs` 102-113 -/
def fromIndicesInclusive {α : Type} (startIndex endIndex : Index2D) (g : GridVec α) :
    M GridRectangle := do
  let s ← g.size
  let a ← munwrap (startIndex.toIndexChecked s)
  let b ← munwrap (endIndex.toIndexChecked s)
  if a > b then .ok (new b (a + 1) s.1) else .ok (new a (b + 1) s.1)

end GridRectangle

/-- `grid_view.rs` 8-11 -/
structure GridView (α : Type) where
  grid : GridVec α
  range : GridRectangle

namespace GridView
variable {α : Type}

/-- `grid_view.rs` 14-16 -/
def size (cfg : Cfg) (v : GridView α) : M (Nat × Nat) := v.range.size cfg

/-- `grid_view.rs` 18-22 -/
def get (cfg : Cfg) (v : GridView α) (xy : Index2D) : M (Option α) := do
  let s ← v.size cfg
  match xy.toIndexChecked s with
  | some k => .ok v.grid.values[k + v.range.start]?
  | none => .ok none

end GridView

end Aftermath
