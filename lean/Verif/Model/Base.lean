/-!
# Base of the model

All file references are relative to `/repo/aftermath-core`.
-/

namespace Aftermath

/-- Reasons for which the Rust code panics. A panic is terminal: in wasm it aborts
the current call with a trap. The reasons are not distinguished by any theorem about
safety; they only make the negative theorems readable. -/
inductive Panic
  /-- arithmetic overflow, build with overflow checks -/
  | overflow
  /-- division or remainder by zero (panics in every build) -/
  | divByZero
  /-- `assert!`, `assert_eq!` -/
  | assertion
  /-- `Option::unwrap` / `Result::unwrap` -/
  | unwrapNone
  /-- `expect` -/
  | expect
  /-- slice index, `Vec` range or char boundary -/
  | outOfRange
  /-- `todo!()` -/
  | todo
  /-- `panic!(..)` -/
  | explicit
  /-- not a Rust panic: the model ran out of recursion fuel (non-termination) -/
  | fuel
  deriving DecidableEq, Repr

/-- Result of a Rust call that may panic. -/
abbrev M (α : Type) := Except Panic α

/-- Build configuration. `checks`: overflow checks on (`wasm-pack build --dev`, see
`package.json` scripts `build`/`postinstall`) or off (release profile).
`bits`: width of `usize` (32 on wasm). -/
structure Cfg where
  checks : Bool
  bits : Nat
  deriving DecidableEq, Repr

/-- The build made by the npm scripts: `package.json` lines "build" and "postinstall". -/
def Cfg.dev : Cfg := ⟨true, 32⟩
/-- A release build, the default profile of `cargo build --release`. -/
def Cfg.release : Cfg := ⟨false, 32⟩

/-- `x - y` on `usize`. With overflow checks a negative result panics, without it wraps. -/
def usub (cfg : Cfg) (x y : Nat) : M Nat :=
  if y ≤ x then .ok (x - y)
  else if cfg.checks then .error .overflow
  else .ok (x + 2 ^ cfg.bits - y)

/-- `assert!(b)` -/
def massert (b : Bool) : M Unit := if b then .ok () else .error .assertion

/-- `Option::unwrap` -/
def munwrap {α : Type} : Option α → M α
  | some a => .ok a
  | none => .error .unwrapNone

/-- `Option::expect` -/
def mexpect {α : Type} : Option α → M α
  | some a => .ok a
  | none => .error .expect

/-- Strings, as the list of their Unicode scalar values. Simplification: Rust strings are
UTF-8 bytes; byte lengths are recovered with `utf8Len`. -/
abbrev Str := List Char

/-- Number of bytes, Rust's `str::len`. -/
def utf8Len (s : Str) : Nat := (s.map Char.utf8Size).sum

end Aftermath
