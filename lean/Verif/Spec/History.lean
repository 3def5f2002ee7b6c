import Verif.Spec.Path
import Verif.Model.Editor

/-! # Specification of undo and redo -/

namespace Aftermath

/-! ## An ideal history of whole formulas -/

/-- Whole formulas: those before the present one (most recent first), the present one, and those
that were undone (next first). -/
structure History where
  past : List Row
  now : Row
  future : List Row

namespace History

/-- The history of a fresh editor. -/
def start : History := ⟨[], [], []⟩

/-- Record a new formula; the undone ones are forgotten. -/
def record (h : History) (r : Row) : History := ⟨h.now :: h.past, r, []⟩

/-- One step back, if there is one. -/
def back (h : History) : History :=
  match h.past with
  | [] => h
  | p :: ps => ⟨ps, p, h.now :: h.future⟩

/-- One step forward, if there is one. -/
def forward (h : History) : History :=
  match h.future with
  | [] => h
  | f :: fs => ⟨h.now :: h.past, f, fs⟩

end History

/-- How many formulas a call may record: its own edit, and an autocorrect replacement. -/
def Op.maxRecords : Op → Nat
  | .insertAtCaret _ | .removeAtCaret _ | .paste _ _ => 2
  | .moveCaret _ _ | .selectWithCaret _ _ | .startSelection _ _ | .extendSelection _ => 1
  | .finishAutocomplete accept => if accept then 1 else 0
  | .spliceAtRange _ _ => 1
  | _ => 0

/-- What a call does to the ideal history. -/
inductive History.Step : History → Op → History → Prop
  | undo (h : History) : Step h .undo h.back
  | redo (h : History) : Step h .redo h.forward
  | call (h : History) {op : Op} (hu : op ≠ .undo) (hr : op ≠ .redo) (rs : List Row)
      (hrs : rs.length ≤ op.maxRecords) : Step h op (rs.foldl History.record h)

/-- The ideal history follows a list of calls, each paired with the formula the editor shows
after it. -/
inductive History.Run : History → List (Op × Row) → History → Prop
  | nil (h : History) : Run h [] h
  | cons {h h1 h2 : History} {op : Op} {r : Row} {l : List (Op × Row)} (hs : h.Step op h1)
      (hnow : h1.now = r) (hrest : Run h1 l h2) : Run h ((op, r) :: l) h2

/-- The formulas shown after each of a list of calls. -/
def Editor.formulas {T : Type} (env : Env T) : Editor T → List Op → M (List Row)
  | _, [] => .ok []
  | ed, op :: ops => do
    let ed ← ed.step env op
    let rest ← Editor.formulas env ed ops
    .ok (ed.input :: rest)

/-- A state reached by public calls from a fresh editor. -/
def Reachable {T : Type} (env : Env T) (ed : Editor T) : Prop :=
  ∃ ops, Editor.run env Editor.new ops = .ok ed

/-- Undo until it reports failure; returns the editor and the number of successful undos.
`fuel` bounds the number of calls. -/
def undoAll {T : Type} (env : Env T) : Nat → Editor T → M (Editor T × Nat)
  | 0, _ => .error .fuel
  | fuel + 1, ed => do
    let (ed', ok) ← ed.undoOp env
    if ok then do
      let (e, n) ← undoAll env fuel ed'
      .ok (e, n + 1)
    else .ok (ed', 0)

/-- `n` successful redos. -/
def redoN {T : Type} (env : Env T) : Nat → Editor T → M (Editor T)
  | 0, ed => .ok ed
  | n + 1, ed => do
    let (ed', ok) ← ed.redoOp env
    if ok then redoN env n ed' else .error .explicit

/-! ## The ideal manager: a list of actions and a cursor -/

/-- All actions known, oldest first, and how many of them are done. -/
structure Cursor (A : Type) where
  acts : List A
  done : Nat

/-- The calls of the manager. -/
inductive UOp (A : Type)
  | push (a : A)
  | undo
  | redo

/-- A call of the ideal manager and its answer: pushing cuts off what was undone, undo steps
back and hands out the action stepped over, inverted, redo steps forward and hands it out. -/
def Cursor.step {A : Type} (inv : A → A) (c : Cursor A) : UOp A → Cursor A × Option A
  | .push a => (⟨c.acts.take c.done ++ [a], c.done + 1⟩, none)
  | .undo =>
    match c.done with
    | 0 => (c, none)
    | k + 1 => (⟨c.acts, k⟩, c.acts[k]?.map inv)
  | .redo =>
    match c.acts[c.done]? with
    | none => (c, none)
    | some a => (⟨c.acts, c.done + 1⟩, some a)

/-- The answers of the ideal manager to a list of calls. -/
def Cursor.run {A : Type} (inv : A → A) : Cursor A → List (UOp A) → Cursor A × List (Option A)
  | c, [] => (c, [])
  | c, op :: ops =>
    let r := c.step inv op
    let s := Cursor.run inv r.1 ops
    (s.1, r.2 :: s.2)

end Aftermath
