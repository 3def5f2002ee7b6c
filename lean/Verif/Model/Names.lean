import Verif.Model.Tree

/-! # Names of syntax nodes: `parser/src/syntax_tree/node_identifier.rs`, `node_type_id.rs`,
`parser/src/parse_modules.rs` -/

namespace Aftermath

/-- `PathIdentifier`, `node_identifier.rs` 15 -/
abbrev PathId := List Str

/-- `is_identifier`, `node_identifier.rs` 35-38, for given predicates of the crate
`unicode_ident`. -/
def isIdentifier (xidStart xidContinue : Char → Bool) : Str → Bool
  | [] => false
  | c :: cs => xidStart c && cs.all xidContinue

/-- `PathIdentifier::new`, `node_identifier.rs` 17-33 -/
def PathId.new (xidStart xidContinue : Char → Bool) (name : List Str) : M PathId := do
  massert (decide (1 < name.length))
  massert (name.all (isIdentifier xidStart xidContinue))
  .ok name

/-- `SyntaxNodeNameMap`, `node_type_id.rs` 20-25. Simplification: a `HashMap` is a list of entries
without repeated keys; the order of the entries plays no role. An id is the number inside. -/
structure NameMap where
  values : List (PathId × Nat)
  reverseValues : List (Nat × PathId)
  deriving DecidableEq

/-- `HashMap::get` (std) -/
def hashGet {α β : Type} [DecidableEq α] (m : List (α × β)) (k : α) : Option β :=
  match m with
  | [] => none
  | (k', v) :: rest => if k' = k then some v else hashGet rest k

/-- `HashMap::insert` (std): an entry with the same key is replaced. -/
def hashInsert {α β : Type} [DecidableEq α] (m : List (α × β)) (k : α) (v : β) : List (α × β) :=
  match m with
  | [] => [(k, v)]
  | (k', v') :: rest => if k' = k then (k, v) :: rest else (k', v') :: hashInsert rest k v

namespace NameMap

/-- `SyntaxNodeNameMap::new`, `node_type_id.rs` 28-33 -/
def empty : NameMap := ⟨[], []⟩

/-- `SyntaxNodeNameMap::add`, `node_type_id.rs` 35-44. `as u32` keeps the low 32 bits. -/
def add (m : NameMap) (path : PathId) : Nat × NameMap :=
  match hashGet m.values path with
  | some id => (id, m)
  | none =>
    let id := m.values.length % 4294967296
    (id, ⟨hashInsert m.values path id, hashInsert m.reverseValues id path⟩)

/-- `SyntaxNodeNameMap::get`, `node_type_id.rs` 45-47 -/
def get (m : NameMap) (path : PathId) : Option Nat := hashGet m.values path

/-- `SyntaxNodeNameMap::get_reverse`, `node_type_id.rs` 49-51 -/
def getReverse (m : NameMap) (id : Nat) : Option PathId := hashGet m.reverseValues id

/-- `ParseModules::get_rule_name`, `parse_modules.rs` 28-35. (`with_rule_name`, 24-26, is `add`.) -/
def getRuleName (m : NameMap) (path : PathId) : M Nat :=
  match m.get path with
  | some id => .ok id
  | none => .error .explicit

end NameMap

end Aftermath
