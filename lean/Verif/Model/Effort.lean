import Verif.Model.Parser

/-! # The effort of parsing

How often `pratt_parse` is called, `pratt_parser.rs` 278-382, for a row. The definitions follow those of
`Model/Parser` and use their results; each gives the number of calls that are made while the function
of the same name runs. What is parsed only to see if it can be parsed (`inp.check`, `pratt_parser.rs`
603-620) does not run the closures of `map`, so the cells of containers, which are parsed in such a
closure (`built_in_rules.rs` 192-217), are then not parsed. The inside of brackets is (the default of
`ExtParser::check` is `parse`, `pratt_parser.rs` 430-441). -/

namespace Aftermath

/-- The number of calls that one call leads to, itself included. -/
abbrev RecEffort := Row → Nat → Power → Ending → Nat

/-- `parseCells` -/
def cellsEffort (eff : RecEffort) : List Row → Nat
  | [] => 0
  | r :: rs => eff r 0 (0, .weak) .eof + cellsEffort eff rs

/-- `parseContainer` -/
def containerEffort (eff : RecEffort) (check : Bool) (v : Variant) (row : Row) (pos : Nat) : Nat :=
  match row[pos]? with
  | some (.container v' cells _) => if v' = v then (if check then 0 else cellsEffort eff cells) else 0
  | _ => 0

/-- `parseBrackets` -/
def bracketsEffort (eff : RecEffort) (opening closing : Str) (row : Row) (pos : Nat) : Nat :=
  match selectSym (fun s => s == opening) row pos with
  | none => 0
  | some (_, p1) => eff row p1 (0, .weak) (.sym closing)

/-- `tokenParse` -/
def tokenEffort (eff : RecEffort) (check : Bool) (tp : TokenParser) (row : Row) (pos : Nat) : Nat :=
  match tp with
  | .brackets _ o c => bracketsEffort eff o c row pos
  | .container v => containerEffort eff check v row pos
  | _ => 0

/-- `parseScripts` -/
def scriptsEffort (call : Rec) (eff : RecEffort) (check : Bool) (g : Grammar) (row : Row) :
    Nat → Nat → Nat
  | 0, _ => 0
  | n + 1, pos =>
    containerEffort eff check .sub row pos +
    match parseScript call g .sub row pos with
    | .ok (some (_, p1)) => scriptsEffort call eff check g row n p1
    | .ok none =>
      containerEffort eff check .sup row pos +
      match parseScript call g .sup row pos with
      | .ok (some (_, p1)) => scriptsEffort call eff check g row n p1
      | _ => 0
    | .error _ => 0

/-- `ruleParse` -/
def ruleEffort (call : Rec) (eff : RecEffort) (check : Bool) (g : Grammar) (r : Rule) (row : Row)
    (pos : Nat) : Nat :=
  match parseSpaces g row pos with
  | .error _ => 0
  | .ok (_, p1) =>
    tokenEffort eff check r.parser row p1 +
    match tokenParse call g r.parser row p1 with
    | .ok (some (_, p2)) =>
      match parseSpaces g row p2 with
      | .error _ => 0
      | .ok (_, p3) =>
        if r.kind.takesScripts then scriptsEffort call eff check g row (row.length + 1) p3 else 0
    | _ => 0

/-- `parseIter` -/
def iterEffort (call : Rec) (eff : RecEffort) (check : Bool) (g : Grammar) (row : Row) (pos : Nat) :
    List Rule → Nat
  | [] => 0
  | r :: rs =>
    ruleEffort call eff check g r row pos +
    match ruleParse call g r row pos with
    | .ok none => iterEffort call eff check g row pos rs
    | _ => 0

/-- `canParse` -/
def canEffort (call : Rec) (eff : RecEffort) (g : Grammar) (row : Row) (pos : Nat)
    (rs : List Rule) : Nat := iterEffort call eff true g row pos rs

/-- `canParseEither` -/
def eitherEffort (call : Rec) (eff : RecEffort) (g : Grammar) (row : Row) (pos : Nat)
    (rs rs' : List Rule) : Nat :=
  canEffort call eff g row pos rs +
  match canParse call g row pos rs with
  | .ok false => canEffort call eff g row pos rs'
  | _ => 0

/-- `unknownStops` -/
def stopsEffort (call : Rec) (eff : RecEffort) (g : Grammar) (row : Row) (pos : Nat) (e : Ending) :
    Nat :=
  if isAtEnd row pos e then 0
  else
    canEffort call eff g row pos g.prefixes +
    match canParse call g row pos g.prefixes with
    | .ok false =>
      canEffort call eff g row pos g.atoms +
      match canParse call g row pos g.atoms with
      | .ok false =>
        canEffort call eff g row pos g.infixes +
        match canParse call g row pos g.infixes with
        | .ok false => canEffort call eff g row pos g.postfixes
        | _ => 0
      | _ => 0
    | _ => 0

/-- `unknownLoop` -/
def unknownLoopEffort (call : Rec) (eff : RecEffort) (g : Grammar) (row : Row) (e : Ending) :
    Nat → Nat → Nat
  | 0, _ => 0
  | n + 1, pos =>
    stopsEffort call eff g row pos e +
    match unknownStops call g row pos e with
    | .ok false => unknownLoopEffort call eff g row e n (pos + 1)
    | _ => 0

/-- `parseUnknown` -/
def unknownEffort (call : Rec) (eff : RecEffort) (g : Grammar) (row : Row) (e : Ending) (pos : Nat) :
    Nat := unknownLoopEffort call eff g row e (row.length + 1) (pos + 1)

/-- `prattStart` -/
def startEffort (call : Rec) (eff : RecEffort) (g : Grammar) (row : Row) (e : Ending) (pos : Nat) :
    Nat :=
  if atInputEnd row pos then 0
  else
    iterEffort call eff false g row pos g.prefixes +
    match parseIter call g row pos g.prefixes with
    | .ok (some (_, r, p1)) => eff row p1 r.kind.strengthRight e
    | .ok none =>
      iterEffort call eff false g row pos g.atoms +
      match parseIter call g row pos g.atoms with
      | .ok none =>
        eitherEffort call eff g row pos g.infixes g.postfixes +
        match canParseEither call g row pos g.infixes g.postfixes with
        | .ok false => if isAtEnd row pos e then 0 else unknownEffort call eff g row e pos
        | _ => 0
      | _ => 0
    | .error _ => 0

/-- `prattLoop` -/
def loopEffort (call : Rec) (eff : RecEffort) (g : Grammar) (row : Row) (min : Power) (e : Ending) :
    Nat → Nat → Nat
  | 0, _ => 0
  | n + 1, pos =>
    let go (pos : Nat) (power : Power) : Nat :=
      eff row pos power e +
      match call row pos power e with
      | .ok (.expression _, p2) => loopEffort call eff g row min e n p2
      | _ => 0
    if atInputEnd row pos then 0
    else
      iterEffort call eff false g row pos g.infixes +
      match parseIter call g row pos g.infixes with
      | .ok (some (_, r, p1)) =>
        if r.kind.strengthLeft.lt min then 0 else go p1 r.kind.strengthRight
      | .ok none =>
        iterEffort call eff false g row pos g.postfixes +
        match parseIter call g row pos g.postfixes with
        | .ok (some (_, r, p1)) =>
          if r.kind.strengthLeft.lt min then 0 else loopEffort call eff g row min e n p1
        | .ok none =>
          eitherEffort call eff g row pos g.prefixes g.atoms +
          match canParseEither call g row pos g.prefixes g.atoms with
          | .ok true =>
            if missingOperatorKind.strengthLeft.lt min then 0
            else go pos missingOperatorKind.strengthRight
          | .ok false =>
            if isAtEnd row pos e then 0
            else
              unknownEffort call eff g row e pos +
              match parseUnknown call g row e pos with
              | .ok (_, p2) => loopEffort call eff g row min e n p2
              | .error _ => 0
          | .error _ => 0
        | .error _ => 0
      | .error _ => 0

/-- `prattBody` -/
def bodyEffort (call : Rec) (eff : RecEffort) (g : Grammar) (row : Row) (pos : Nat) (min : Power)
    (e : Ending) : Nat :=
  startEffort call eff g row e pos +
  match prattStart call g row e pos with
  | .ok (.left _, p) => loopEffort call eff g row min e (row.length + 1) p
  | _ => 0

/-- `pratt` -/
def prattEffort (g : Grammar) : Nat → RecEffort
  | 0 => fun _ _ _ _ => 0
  | f + 1 => fun row pos min e => 1 + bodyEffort (pratt g f) (prattEffort g f) g row pos min e

/-- The number of calls for a whole row, with a bound on the depth of recursive calls. -/
def Grammar.effort (g : Grammar) (f : Nat) (row : Row) : Nat := prattEffort g f row 0 (0, .weak) .eof

end Aftermath
