import Verif.Props.Display
import Verif.Model.Caret
import Verif.Model.Autocomplete

/-! # The tests of the repository, run on the model

These are no proofs about the code. They check that the model agrees with what the authors of the
code recorded as its behaviour, in the files `tests/*.rs` of the crates. Left out are
`parser/tests/parser_error_tests.rs` (asserts nothing; the outcome is recorded in
the last section) and `parser/tests/chumsky_tests.rs` (tests the crate `chumsky`). -/

namespace Aftermath

namespace RepoTests

/-! ## `parser/tests/parser_test.rs` -/

/-- `parse_row` and `with_display(..).to_string()`, `parser_test.rs` 44-48 -/
def shown (row : Row) : Option Str :=
  match createParser asciiXid with
  | .error _ => none
  | .ok (g, m) => match g.parse row with
    | .error _ => none
    | .ok t => (t.display m).toOption

/-- 50-59 -/
example : shown [nsym "-", nsym "b", nsym "*", nsym "C"] = some
    "(Arithmetic::Multiply (Arithmetic::Subtract (BuiltIn::Operator \"-\") (Core::Variable \"b\")) (BuiltIn::Operator \"*\") (Core::Variable \"C\"))".toList := by
  decide +kernel

/-- 61-74 -/
example : shown [nsym "c", nsym "+", nsym "a", nsym "!"] = some
    "(Arithmetic::Add (Core::Variable \"c\") (BuiltIn::Operator \"+\") (Arithmetic::Factorial (Core::Variable \"a\") (BuiltIn::Operator \"!\")))".toList := by
  decide +kernel

/-- 76-88 -/
example : shown [nsym "a", .sub [nsym "1"]] = some
    "(BuiltIn::Sub (Core::Variable \"a\") (BuiltIn::Operator 1x1 (Arithmetic::Number \"1\")))".toList := by
  decide +kernel

/-- 90-108 -/
example : shown [nsym "a", .sup [nsym "1"], .sub [nsym "2"]] = some
    "(BuiltIn::Sub (BuiltIn::Sup (Core::Variable \"a\") (BuiltIn::Operator 1x1 (Arithmetic::Number \"1\"))) (BuiltIn::Operator 1x1 (Arithmetic::Number \"2\")))".toList := by
  decide +kernel

/-- 110-133 -/
example : shown [nsym "(", nsym "(", nsym "(", nsym "a", nsym "!", nsym ")", nsym ")", nsym ")"] = some
    "(Core::RoundBrackets (BuiltIn::Operator \"(\") (Core::RoundBrackets (BuiltIn::Operator \"(\") (Core::RoundBrackets (BuiltIn::Operator \"(\") (Arithmetic::Factorial (Core::Variable \"a\") (BuiltIn::Operator \"!\")) (BuiltIn::Operator \")\")) (BuiltIn::Operator \")\")) (BuiltIn::Operator \")\"))".toList := by
  decide +kernel

/-- 135-148 -/
example : shown [nsym "a", nsym ",", nsym "b"] = some
    "(Collections::Tuple (Core::Variable \"a\") (BuiltIn::Operator \",\") (Core::Variable \"b\"))".toList := by
  decide +kernel

/-- 150-172 -/
example : shown [nsym "(", nsym "a", nsym ",", nsym "b", nsym ",", nsym "c", nsym ")"] = some
    "(Core::RoundBrackets (BuiltIn::Operator \"(\") (Collections::Tuple (Collections::Tuple (Core::Variable \"a\") (BuiltIn::Operator \",\") (Core::Variable \"b\")) (BuiltIn::Operator \",\") (Core::Variable \"c\")) (BuiltIn::Operator \")\"))".toList := by
  decide +kernel

/-- 174-195 -/
example : shown [nsym "f", nsym "(", nsym "a", nsym ",", nsym "b", nsym ")"] = some
    "(Function::FunctionApplication (Core::Variable \"f\") (BuiltIn::Operator (BuiltIn::Operator \"(\") (Collections::Tuple (Core::Variable \"a\") (BuiltIn::Operator \",\") (Core::Variable \"b\")) (BuiltIn::Operator \")\")))".toList := by
  decide +kernel

/-- 197-213 -/
example : shown [nsym "(", nsym "a", nsym "+", nsym "b", nsym ")"] = some
    "(Core::RoundBrackets (BuiltIn::Operator \"(\") (Arithmetic::Add (Core::Variable \"a\") (BuiltIn::Operator \"+\") (Core::Variable \"b\")) (BuiltIn::Operator \")\"))".toList := by
  decide +kernel

/-- 215-234 -/
example : shown [nsym "(", nsym "a", nsym "+", .fraction [nsym "b"] [nsym "c"], nsym ")"] = some
    "(Core::RoundBrackets (BuiltIn::Operator \"(\") (Arithmetic::Add (Core::Variable \"a\") (BuiltIn::Operator \"+\") (BuiltIn::Fraction 1x2 (Core::Variable \"b\") (Core::Variable \"c\"))) (BuiltIn::Operator \")\"))".toList := by
  decide +kernel

/-- 236-246 -/
example : shown [] = some "(Error::MissingToken)".toList := by decide +kernel

/-- 248-262 -/
example : shown [.root [] [nsym "a"]] = some
    "(BuiltIn::Root 2x1 (Error::MissingToken) (Core::Variable \"a\"))".toList := by decide +kernel

/-- 264-272 -/
example : shown [nsym "a", nsym "+", nsym "(", nsym ")"] = some
    "(Arithmetic::Add (Core::Variable \"a\") (BuiltIn::Operator \"+\") (Core::RoundBrackets (BuiltIn::Operator \"(\") (BuiltIn::Operator \")\")))".toList := by
  decide +kernel

/-! ## `input_tree/tests/printing_tests.rs` -/

/-- `to_string` -/
def text (row : Row) : Option Str := (rowDisplay row).toOption

example : text [nsym "a", .sub [nsym "1"]] = some "(row \"a\" (sub 1x1 (row \"1\")))".toList := by
  decide +kernel

example : text [nsym "a", nsym "+", .fraction [nsym "1", nsym "+", nsym "2"]
      [.fraction [] [.root [nsym "3"] [nsym "3"], .sup [nsym "1"]]]] = some
    "(row \"a\" \"+\" (frac 1x2 (row \"1\" \"+\" \"2\") (row (frac 1x2 (row) (row (root 2x1 (row \"3\") (row \"3\")) (sup 1x1 (row \"1\")))))))".toList := by
  decide +kernel

example : text [nsym "a", .sub [nsym "2"], nsym "+", .fraction [.sup [.sub [nsym "b"]]]
      [.root [nsym "3"] [nsym "3"], .sup [nsym "1"]]] = some
    "(row \"a\" (sub 1x1 (row \"2\")) \"+\" (frac 1x2 (row (sup 1x1 (row (sub 1x1 (row \"b\"))))) (row (root 2x1 (row \"3\") (row \"3\")) (sup 1x1 (row \"1\")))))".toList := by
  decide +kernel

/-! ## `input_tree/tests/edit_tests.rs` and `edit_update_range_tests.rs` -/

example : (applyEdit .dev [] (.row ⟨.insert, ⟨[], 0⟩, [nsym "b"]⟩)).toOption = some [nsym "b"] := by
  decide +kernel

example : (applyEdit .dev [nsym "a", .sub [nsym "1"]] (.row ⟨.insert, ⟨[], 1⟩, [nsym "x"]⟩)).toOption =
    some [nsym "a", nsym "x", .sub [nsym "1"]] := by decide +kernel

example : (applyEdit .dev [nsym "a", .sub [nsym "-", nsym "-", nsym "1"]]
      (.row ⟨.delete, ⟨[(1, 0)], 0⟩, [nsym "-", nsym "-"]⟩)).toOption =
    some [nsym "a", .sub [nsym "1"]] := by decide +kernel

example :
    let edit : BasicEdit := .row ⟨.insert, ⟨[], 1⟩, [.fraction [nsym "b"] [nsym "c"]]⟩
    (applyEdit .dev [nsym "a"] edit).toOption = some [nsym "a", .fraction [nsym "b"] [nsym "c"]] ∧
    (applyEdits .dev [nsym "a"] [edit, edit.inverse]).toOption = some [nsym "a"] := by decide +kernel

example : (applyEdit .dev
      [.root [nsym "2"] [.container .table [[nsym "a"], [nsym "b"], [nsym "c"], [nsym "d"], [nsym "e"], [nsym "f"]] 3]]
      (.grid ⟨.insert, ⟨[(0, 1)], 0⟩, .row, 1, ⟨[[nsym "x"], [nsym "y"], [nsym "z"]], 3⟩⟩)).toOption =
    some [.root [nsym "2"] [.container .table [[nsym "a"], [nsym "b"], [nsym "c"], [nsym "x"], [nsym "y"],
      [nsym "z"], [nsym "d"], [nsym "e"], [nsym "f"]] 3]] := by decide +kernel

example : (applyEdit .dev [.container .table [[nsym "a"]] 1]
      (.grid ⟨.insert, ⟨[], 0⟩, .column, 1, ⟨[[nsym "x"]], 1⟩⟩)).toOption =
    some [.container .table [[nsym "a"], [nsym "x"]] 2] := by decide +kernel

example : (MinRange.applyEdit .dev ⟨[], 0, 0⟩ (.row ⟨.insert, ⟨[], 0⟩, [nsym "b"]⟩)).toOption =
    some ⟨[], 0, 1⟩ := by decide +kernel

example : (MinRange.applyEdit .dev ⟨[], 1, 4⟩
      (.row ⟨.delete, ⟨[], 0⟩, [nsym "a", nsym "-", nsym "-"]⟩)).toOption = some ⟨[], 0, 1⟩ := by
  decide +kernel

/-! ## `input_tree/tests/input_focus_tests.rs` and `input_position_tests.rs` -/

/-- `a_1` -/
def subRow : Row := [nsym "a", .sub [nsym "1"]]

example : (FocusRow.fromRoot subRow).len = 2 ∧ (FocusRow.fromRoot subRow).rowIndices = [] ∧
    ((((FocusRow.fromRoot subRow).childAt 1).map fun n => (n.childAt 0).toOption.map fun r =>
      r.map FocusRow.len)) = some (some (some 1)) := by decide +kernel

example : (((FocusRow.fromRoot subRow).childAt 1).map fun n => match n.node with
    | .container .sub _ _ => true
    | _ => false) = some true := by decide +kernel

example : cmpIndicesAndOffset [] 0 [] 1 = .lt ∧ cmpIndicesAndOffset [] 1 [] 2 = .lt ∧
    cmpIndicesAndOffset [] 2 [] 2 = .eq := by decide +kernel

example : cmpIndicesAndOffset [] 1 [(1, 0)] 0 = .lt ∧ cmpIndicesAndOffset [(1, 0)] 0 [] 1 = .gt ∧
    cmpIndicesAndOffset [(1, 0)] 0 [] 2 = .lt := by decide +kernel

example : cmpIndicesAndOffset [(0, 0)] 1 [(2, 1)] 0 = .lt := by decide +kernel

/-! ## `caret/tests/selection_tests.rs` -/

/-- The selection of a caret. -/
def selected (row : Row) (a b : MinPos) : Option MinSelection :=
  ((Caret.fromMinimal row ⟨a, b⟩).toOption).map fun c => c.selection.toMinimal

example : selected [.fraction [nsym "a"] [nsym "b"], nsym "+", nsym "c"] ⟨[], 0⟩ ⟨[], 2⟩ =
    some (.row ⟨[], 0, 2⟩) := by decide +kernel

example : (match (Caret.fromMinimal
      [.container .table [[nsym "a", nsym "b"], [nsym "b"], [nsym "c"], [nsym "d"]] 2]
      ⟨⟨[(0, 0)], 1⟩, ⟨[(0, 3)], 0⟩⟩).toOption.map Caret.selection with
    | some (.grid r) => r.topLeftIndex.toOption == some (0, 0) &&
        r.bottomRightIndex.toOption == some (some (1, 1))
    | _ => false) = true := by decide +kernel

example : selected [.fraction [nsym "a"] [nsym "b"], nsym "+", .fraction [nsym "c"] [nsym "d"]]
    ⟨[(0, 0)], 1⟩ ⟨[(2, 1)], 0⟩ = some (.row ⟨[], 0, 3⟩) := by decide +kernel

/-! ## `parser/tests/autocomplete_tests.rs` -/

/-- `test_rules` -/
def rules : List AutocompleteRule := [
  ⟨"/".toList, [.fraction [] []]⟩,
  ⟨"sqrt".toList, [.root [] []]⟩,
  ⟨"^".toList, [.sup []]⟩,
  ⟨"infinity".toList, [nsym "∞"]⟩,
  ⟨"lim".toList, [nsym "l", nsym "i", nsym "m"]⟩,
  ⟨"limsup".toList, [nsym "l", nsym "i", nsym "m", nsym "s", nsym "u", nsym "p"]⟩,
  ⟨"liminf".toList, [nsym "l", nsym "i", nsym "m", nsym "i", nsym "n", nsym "f"]⟩,
  ⟨"sum".toList, [nsym "∑"]⟩,
  ⟨"integral".toList, [nsym "∫"]⟩,
  ⟨"integrate".toList, [nsym "∫"]⟩]

/-- the lengths of the matches in the input and in the rule -/
def lengths (input : Row) (min : Nat) : Option (List (Nat × Nat)) :=
  ((matchesAll rules input input.length min).toOption).map fun l =>
    l.map fun m => (m.inputMatchLength, m.ruleMatchLength)

example : (lengths [nsym "l", nsym "i"] 0).map List.length = some 6 := by decide +kernel
example : lengths [] 0 = some [] := by decide +kernel
example : (lengths [nsym "l", nsym "i", nsym "m"] 0).map List.length = some 3 := by decide +kernel
example : lengths [nsym "l", nsym "i", nsym "m", nsym "s", nsym "u"] 5 = some [(5, 5)] := by
  decide +kernel
example : lengths [nsym "l", nsym "i", nsym "g", nsym "m"] 0 = some [] := by decide +kernel
example : (lengths [nsym "c", nsym "l", nsym "i", nsym "l", nsym "i", nsym "m"] 0).map List.length =
    some 3 := by decide +kernel
example : (lengths [nsym "l", nsym "i", nsym "m", nsym "l", nsym "i", nsym "m"] 0).map List.length =
    some 3 := by decide +kernel

/-! ## `parser/tests/parser_error_tests.rs`

The tests there only print. What the model gives: -/

example : shown [nsym "-"] = some
    "(Arithmetic::Subtract (BuiltIn::Operator \"-\") (Error::MissingToken))".toList := by decide +kernel
example : shown [nsym "a", nsym "+"] = some
    "(Arithmetic::Add (Core::Variable \"a\") (BuiltIn::Operator \"+\") (Error::MissingToken))".toList := by
  decide +kernel
example : shown [nsym "a", nsym ")"] = some
    "(Error::MissingOperator (Core::Variable \"a\") (Error::MissingToken) (Error::UnknownToken \")\"))".toList := by
  decide +kernel
example : shown [nsym ")"] = some "(Error::UnknownToken \")\")".toList := by decide +kernel

end RepoTests

end Aftermath
