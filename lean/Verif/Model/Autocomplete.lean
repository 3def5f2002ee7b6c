import Verif.Model.Caret

/-! # Autocomplete: `parser/src/autocomplete.rs`, `caret/src/autocomplete.rs` -/

namespace Aftermath

/-- `autocomplete.rs` 10-15 (parser crate) -/
structure AutocompleteRule where
  parser : Str
  result : List Node
  deriving DecidableEq

/-- `autocomplete.rs` 35-42 -/
structure RuleMatch where
  rule : AutocompleteRule
  ruleMatchLength : Nat
  inputMatchLength : Nat
  deriving DecidableEq

/-- `autocomplete.rs` 44-48 -/
def RuleMatch.isComplete (m : RuleMatch) : Bool := m.ruleMatchLength == utf8Len m.rule.parser

/-- `&s[i..]` on byte index `i`; `none` when `i` is not a char boundary or out of range. -/
def dropBytes : Str → Nat → Option Str
  | s, 0 => some s
  | [], _ + 1 => none
  | c :: cs, n + 1 => if c.utf8Size ≤ n + 1 then dropBytes cs (n + 1 - c.utf8Size) else none
termination_by s _ => s.length

/-- `&s[0..i]` on byte index `i`; `none` when `i` is not a char boundary or out of range. -/
def takeBytes : Str → Nat → Option Str
  | _, 0 => some []
  | [], _ + 1 => none
  | c :: cs, n + 1 =>
    if c.utf8Size ≤ n + 1 then (takeBytes cs (n + 1 - c.utf8Size)).map (c :: ·) else none
termination_by s _ => s.length

/-- `str::find` (std): byte index of the first occurrence. Occurrences of one valid UTF-8
string in another are at char boundaries. -/
def findStr (needle : Str) : Str → Option Nat
  | [] => if needle.isEmpty then some 0 else none
  | c :: cs =>
    if needle.isPrefixOf (c :: cs) then some 0
    else (findStr needle cs).map (· + c.utf8Size)

/-- `autocomplete.rs` 76-79: the loop from byte index `i`. -/
def indicesOfFrom (needle haystack : Str) (i : Nat) : M (List Nat) :=
  if _h : i ≤ utf8Len haystack then
    match dropBytes haystack i with
    | none => .error .outOfRange
    | some rest =>
      match findStr needle rest with
      | none => .ok []
      | some k => do
        let l ← indicesOfFrom needle haystack (k + i + 1)
        .ok ((k + i) :: l)
  else .error .outOfRange
termination_by utf8Len haystack + 1 - i

/-- `autocomplete.rs` 73-81 -/
def indicesOf (needle haystack : Str) : M (List Nat) := indicesOfFrom needle haystack 0

/-- `autocomplete.rs` 110-119: walk left over the input, `rest` is the remaining reversed
input. Returns `(parser_current_index, symbol_count)`. -/
def matchLoop (parser : Str) : Nat → Nat → List Node → M (Nat × Nat)
  | cur, count, .symbol s :: rest =>
    match takeBytes parser cur with
    | none => .error .outOfRange
    | some pre =>
      if s.isSuffixOf pre then matchLoop parser (cur - utf8Len s) (count + 1) rest
      else .ok (cur, count)
  | cur, count, _ => .ok (cur, count)

/-- `autocomplete.rs` 105-133: one iteration per potential match. -/
def matchCandidates (rule : AutocompleteRule) (revInput : List Node) (minLen : Nat) :
    List Nat → M (List RuleMatch)
  | [] => .ok []
  | i :: is => do
    let (cur, count) ← matchLoop rule.parser i 1 (revInput.drop 1)
    let rest ← matchCandidates rule revInput minLen is
    if cur = 0 ∧ ¬ count < minLen then .ok (⟨rule, i + 1, count⟩ :: rest) else .ok rest

/-- `autocomplete.rs` 83-137 -/
def AutocompleteRule.matches (rule : AutocompleteRule) (input : List Node)
    (caretPosition minLen : Nat) : M (List RuleMatch) := do
  massert (!rule.parser.isEmpty)
  if caretPosition ≤ input.length then
    let revInput := (input.take caretPosition).reverse
    match revInput with
    | .symbol s :: _ => do
      let cands ← indicesOf s rule.parser
      matchCandidates rule revInput minLen cands
    | _ => .ok []
  else .error .outOfRange

/-- `parser.rs` 55-68: all rules in order. -/
def matchesAll (rules : List AutocompleteRule) (input : List Node)
    (caretPosition minLen : Nat) : M (List RuleMatch) :=
  match rules with
  | [] => .ok []
  | r :: rs => do
    let a ← r.matches input caretPosition minLen
    let b ← matchesAll rs input caretPosition minLen
    .ok (a ++ b)

/-- `caret/src/autocomplete.rs` 27-30 -/
structure AutocorrectAction where
  rule : AutocompleteRule
  caretRange : MinRange

/-- `caret/src/autocomplete.rs` 32-36 -/
structure AutocompleteResults where
  selectedIndex : Nat
  matches' : List RuleMatch
  caretPosition : MinPos

namespace AutocompleteResults

/-- `caret/src/autocomplete.rs` 39-50 -/
def new (selectedIndex : Nat) (ms : List RuleMatch) (pos : MinPos) : M AutocompleteResults := do
  massert (decide (selectedIndex < ms.length))
  .ok ⟨selectedIndex, ms, pos⟩

/-- `caret/src/autocomplete.rs` 66-68 -/
def getSelected (a : AutocompleteResults) : M RuleMatch := munwrap a.matches'[a.selectedIndex]?

/-- `caret/src/autocomplete.rs` 70-83. `matches.len() - 1` is a `usize` subtraction. -/
def moveSelection (cfg : Cfg) (a : AutocompleteResults) : VDir → M AutocompleteResults
  | .up => .ok (if a.selectedIndex > 0 then { a with selectedIndex := a.selectedIndex - 1 } else a)
  | .down => do
    let n ← usub cfg a.matches'.length 1
    .ok (if a.selectedIndex < n then { a with selectedIndex := a.selectedIndex + 1 } else a)

/-- `caret/src/autocomplete.rs` 85-96; `saturating_sub` is truncated subtraction. -/
def getCaretRange (a : AutocompleteResults) (m : RuleMatch) : MinRange :=
  ⟨a.caretPosition.rowIndices, a.caretPosition.offset,
    a.caretPosition.offset - m.inputMatchLength⟩

/-- `caret/src/autocomplete.rs` 52-64 -/
def startAutocorrect (a : AutocompleteResults) : M (Option AutocorrectAction) := do
  let selected ← a.getSelected
  if !selected.isComplete then .ok none
  else .ok (some ⟨selected.rule, a.getCaretRange selected⟩)

end AutocompleteResults

/-- `caret/src/autocomplete.rs` 17-22 -/
def autocorrectFinish (cfg : Cfg) (a : Option AutocorrectAction) (edits : List BasicEdit) :
    M (Option AutocorrectAction) :=
  match a with
  | none => .ok none
  | some a => do
    let r ← a.caretRange.applyEdits cfg edits
    .ok (some { a with caretRange := r })

/-- One step of the insertion sort `sortMatches`. -/
def insertMatch (m : RuleMatch) : List RuleMatch → List RuleMatch
  | [] => [m]
  | x :: xs => if m.ruleMatchLength ≤ x.ruleMatchLength then m :: x :: xs else x :: insertMatch m xs

/-- `matches.sort()` in `math_editor.rs` 417: the stable sort of the standard library, by
`rule_match_length` (`autocomplete.rs` 56-60). Modelled as an insertion sort. A stable sort by a
key has only one result, so the algorithm does not matter. -/
def sortMatches : List RuleMatch → List RuleMatch
  | [] => []
  | m :: ms => insertMatch m (sortMatches ms)

/-- `math_editor.rs` 408-431 (`AutocompleteState::get_autocomplete`). The state is the
remembered rule. -/
def autocompleteStateGet (current : Option AutocompleteRule) (ms : List RuleMatch) (pos : MinPos) :
    M (Option AutocompleteRule × Option AutocompleteResults) :=
  if ms.isEmpty then .ok (none, none)
  else do
    let sorted := sortMatches ms
    let selectedIndex := match current with
      | none => 0
      | some last => (sorted.findIdx? (fun m => m.rule == last)).getD 0
    let current' := (sorted[selectedIndex]?).map RuleMatch.rule
    let res ← AutocompleteResults.new selectedIndex sorted pos
    .ok (current', some res)

end Aftermath
