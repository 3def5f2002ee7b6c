import Verif.Model.Syntax

/-! # The parser: `parser/src/math_parser.rs`, `parser/pratt_parser.rs`, `make_parser.rs`,
`rule_collection.rs`, `parser.rs` and the token parsers of `rule_collections/`

The Rust code builds `chumsky` parsers and runs them. This file says directly what each of them
reads: a parser either succeeds at a position and returns the position after it, or fails and the
caller goes on from where it was. Which parsers are combined how, in which order, and everything
in `pratt_parser.rs`, which is hand-written on top of `InputRef`, is followed line by line.
`Model/Combinators.lean` has the same parsers written with the combinators, and theorem `C94` shows
that both agree.

A parser state is the row and an offset into it. A result `.ok none` is a failed parse, `.error`
a panic.

`InputRef::check` (used by `can_parse`) is modelled by running the parser and dropping the
result. In check mode `chumsky` skips the closures given to `map`; this, too, is modelled in
`Model/Combinators.lean`, and by `C94` it makes no difference. -/

namespace Aftermath

/-- `pratt_parser.rs` 496-499, with the derived order `Weak < Strong`. -/
inductive Strength
  | weak
  | strong
  deriving DecidableEq, Repr

/-- `pratt_parser.rs` 501-508 -/
def Strength.invert : Strength → Strength
  | .weak => .strong
  | .strong => .weak

/-- The type `(u16, Strength)`. Simplification: `u16` is a natural number; nothing is computed
with it. -/
abbrev Power := Nat × Strength

/-- Derived lexicographic `<` on `(u16, Strength)`. -/
def Power.lt (a b : Power) : Bool :=
  decide (a.1 < b.1) || (decide (a.1 = b.1) && (a.2 == .weak && b.2 == .strong))

/-- The closures and structs implementing `MakeParser`: every one that occurs in the
workspace. -/
inductive TokenParser
  /-- `MakeSymbolsParser`, `make_parser.rs` 65-91 -/
  | symbols (ss : List Str) (ty : LeafType)
  /-- `make_brackets_parser`, `make_parser.rs` 93-134 -/
  | brackets (operatorName : Nat) (opening closing : Str)
  /-- `make_empty_brackets_parser`, `make_parser.rs` 136-168 -/
  | emptyBrackets (operatorName : Nat) (opening closing : Str)
  /-- `make_container_parser`, `built_in_rules.rs` 182-220 -/
  | container (v : Variant)
  /-- the rule `Core::Variable`, `core_rules.rs` 62-82 -/
  | variable
  /-- the rule `Arithmetic::Number`, `arithmetic_rules.rs` 50-72 -/
  | number
  /-- the rule `String::String`, `string_rules.rs` 46-77 -/
  | string
  deriving DecidableEq, Repr

/-- The variants of `ParseRule` without their common fields, `parse_module.rs` 24-32 -/
inductive RuleKind
  | nameOnly
  | atom
  | prefix (power : Nat)
  | leftInfix (power : Nat)
  | rightInfix (power : Nat)
  | postfix (power : Nat)
  deriving DecidableEq, Repr

/-- `ParseRule`, `parse_module.rs` 24-32. The parser of a name-only rule is never looked at. -/
structure Rule where
  name : Nat
  kind : RuleKind
  parser : TokenParser
  deriving DecidableEq, Repr

/-- `BindingPower::strength_left`, `pratt_parser.rs` 527-535, for the binding power that
`math_parser.rs` 198-229 gives to the rule. Atoms have none; the value is never used. -/
def RuleKind.strengthLeft : RuleKind → Power
  | .prefix v => (v, .weak)
  | .leftInfix v => (v, .weak)
  | .postfix v => (v, .strong)
  | .rightInfix v => (v, .strong)
  | .atom => (0, .weak)
  | .nameOnly => (0, .weak)

/-- `BindingPower::strength_right`, `pratt_parser.rs` 537-540 -/
def RuleKind.strengthRight (k : RuleKind) : Power :=
  (k.strengthLeft.1, k.strengthLeft.2.invert)

/-- What a `MathParser` is made from: `ParseModuleCollection` (`parse_modules.rs` 48-53) with the
rules of each module in order, the names of the built-in rules, and the two predicates of the
crate `unicode_ident`, which are left arbitrary. -/
structure Grammar where
  builtIn : BuiltIn
  modules : List (List Rule)
  xidStart : Char → Bool
  xidContinue : Char → Bool

namespace Grammar

/-- `math_parser.rs` 68-73: all rules of all modules, in reverse order. -/
def rules (g : Grammar) : List Rule := g.modules.flatten.reverse

/-- `atom_parsers`, `math_parser.rs` 199 -/
def atoms (g : Grammar) : List Rule :=
  g.rules.filter fun r => match r.kind with | .atom => true | _ => false
/-- `prefix_parsers`, `math_parser.rs` 200-206 -/
def prefixes (g : Grammar) : List Rule :=
  g.rules.filter fun r => match r.kind with | .prefix _ => true | _ => false
/-- `infix_parsers`, `math_parser.rs` 207-220 -/
def infixes (g : Grammar) : List Rule :=
  g.rules.filter fun r => match r.kind with
    | .leftInfix _ => true
    | .rightInfix _ => true
    | _ => false
/-- `postfix_parsers`, `math_parser.rs` 221-227 -/
def postfixes (g : Grammar) : List Rule :=
  g.rules.filter fun r => match r.kind with | .postfix _ => true | _ => false

end Grammar

/-- The ending parsers in use: `end()` (`math_parser.rs` 40, `built_in_rules.rs` 198) and
`just_symbol(closing)` (`make_parser.rs` 106). -/
inductive Ending
  | eof
  | sym (s : Str)
  deriving DecidableEq, Repr

/-- `PrattParseResult`, `pratt_parser.rs` 132-135 -/
inductive PResult
  | expression (t : SNode)
  | stop (t : SNode)

/-- The node inside, `pratt_parser.rs` 437-440 -/
def PResult.node : PResult → SNode
  | .expression t => t
  | .stop t => t

/-- A call of `PrattParser::pratt_parse` on a row at an offset, with a minimal binding power and
an ending parser. The functions below take the recursive calls as an argument. -/
abbrev Rec := Row → Nat → Power → Ending → M (PResult × Nat)

/-! ## Token parsers -/

/-- `select! { InputNode::Symbol(a) if f(a) => a }` and `just_symbol` (`parser_extensions.rs`
4-11). -/
def selectSym (f : Str → Bool) (row : Row) (pos : Nat) : Option (Str × Nat) :=
  match row[pos]? with
  | some (.symbol s) => if f s then some (s, pos + 1) else none
  | _ => none

/-- `select! { InputNode::Symbol(a) if f(a) => a }.repeated().collect()` on the rest of the
row. -/
def symRun (f : Str → Bool) : List Node → List Str
  | .symbol s :: rest => if f s then s :: symRun f rest else []
  | _ => []

/-- `just_symbols`, `parser_extensions.rs` 13-28: the concatenation of the symbols. -/
def justSymbols (ss : List Str) (row : Row) (pos : Nat) : Option (Str × Nat) :=
  if (ss.map Node.symbol).isPrefixOf (row.drop pos) then some (ss.flatten, pos + ss.length)
  else none

/-- `is_identifier_start`, `core_rules.rs` 49-53 -/
def isIdentifierStart (g : Grammar) : Str → Bool
  | [] => false
  | c :: cs => g.xidStart c && cs.all g.xidContinue

/-- `is_identifier_continue`, `core_rules.rs` 55-57 -/
def isIdentifierContinue (g : Grammar) (s : Str) : Bool := s.all g.xidContinue

/-- `core_rules.rs` 64-81 -/
def parseVariable (g : Grammar) (row : Row) (pos : Nat) : Option (SChildren × Nat) := do
  let (a, p1) ← selectSym (isIdentifierStart g) row pos
  let rest := symRun (isIdentifierContinue g) (row.drop p1)
  some (.leaf .symbol (a :: rest), p1 + rest.length)

/-- The predicate at `arithmetic_rules.rs` 54 -/
def isDigits (s : Str) : Bool := s.all fun c => decide ('0' ≤ c) && decide (c ≤ '9')

/-- `digits`, `arithmetic_rules.rs` 53-58 -/
def numberDigits (row : Row) (pos : Nat) : Option (List Str × Nat) :=
  let ds := symRun isDigits (row.drop pos)
  if ds.isEmpty then none else some (ds, pos + ds.length)

/-- `just_symbol(".").then(digits)`, `arithmetic_rules.rs` 61 -/
def parseFractional (row : Row) (pos : Nat) : Option (List Str × Nat) := do
  let (c, p1) ← selectSym (fun s => s == ['.']) row pos
  let (d, p2) ← numberDigits row p1
  some (c :: d, p2)

/-- `arithmetic_rules.rs` 52-72 -/
def parseNumber (row : Row) (pos : Nat) : Option (SChildren × Nat) := do
  let (a, p1) ← numberDigits row pos
  match parseFractional row p1 with
  | some (d, p2) => some (.leaf .symbol (a ++ d), p2)
  | none => some (.leaf .symbol a, p1)

/-- The repeated part of the string parser, `string_rules.rs` 52-61: any symbol other than quote
and backslash, or a backslash and any symbol. -/
def stringBody : List Node → List Str
  | .symbol a :: rest =>
    if a == ['\\'] then
      match rest with
      | .symbol b :: rest' => a :: b :: stringBody rest'
      | _ => []
    else if a == ['"'] then []
    else a :: stringBody rest
  | _ => []

/-- `string_rules.rs` 50-75 -/
def parseString (row : Row) (pos : Nat) : Option (SChildren × Nat) := do
  let (a, p1) ← selectSym (fun s => s == ['"']) row pos
  let b := stringBody (row.drop p1)
  let (c, p2) ← selectSym (fun s => s == ['"']) row (p1 + b.length)
  some (.leaf .symbol (a :: b ++ [c]), p2)

/-- `Parser::parse` of a whole row with the top-level call of the pratt parser, as in
`built_in_rules.rs` 195-211 and `parser.rs` 42-52: input left over is an error, and errors
panic. A pratt parser always has an output (`pratt_parser.rs` 430-441), so `unwrap_or_else` is
never taken. -/
def parseWhole (call : Rec) (row : Row) : M SNode := do
  let (res, p) ← call row 0 (0, .weak) .eof
  if p = row.length then .ok res.node else .error .explicit

/-- `v.values().map(|row| ..).collect()`, `built_in_rules.rs` 194-214 -/
def parseCells (call : Rec) : List Row → M (List SNode)
  | [] => .ok []
  | r :: rs => do
    let t ← parseWhole call r
    let ts ← parseCells call rs
    .ok (t :: ts)

/-- `make_container_parser`, `built_in_rules.rs` 182-220 -/
def parseContainer (call : Rec) (v : Variant) (row : Row) (pos : Nat) :
    M (Option (SChildren × Nat)) :=
  match row[pos]? with
  | some (.container v' cells w) =>
    if v' = v then do
      let ts ← parseCells call cells
      let grid ← GridVec.fromOneDimensional ts w
      .ok (some (.newRows grid.values grid.width, pos + 1))
    else .ok none
  | _ => .ok none

/-- `make_brackets_parser`, `make_parser.rs` 93-134 -/
def parseBrackets (call : Rec) (name : Nat) (opening closing : Str) (row : Row) (pos : Nat) :
    M (Option (SChildren × Nat)) :=
  match selectSym (fun s => s == opening) row pos with
  | none => .ok none
  | some (l, p1) => do
    let (child, p2) ← call row p1 (0, .weak) (.sym closing)
    match selectSym (fun s => s == closing) row p2 with
    | none => .ok none
    | some (r, p3) => do
      let left ← SNode.new name pos p1 (.leaf .operator [l])
      let right ← SNode.new name p2 p3 (.leaf .operator [r])
      .ok (some (.children [left, child.node, right], p3))

/-- `make_empty_brackets_parser`, `make_parser.rs` 136-168 -/
def parseEmptyBrackets (name : Nat) (opening closing : Str) (row : Row) (pos : Nat) :
    M (Option (SChildren × Nat)) :=
  match selectSym (fun s => s == opening) row pos with
  | none => .ok none
  | some (l, p1) =>
    match selectSym (fun s => s == closing) row p1 with
    | none => .ok none
    | some (r, p2) => do
      let left ← SNode.new name pos p1 (.leaf .operator [l])
      let right ← SNode.new name p1 p2 (.leaf .operator [r])
      .ok (some (.children [left, right], p2))

/-- `make_parser.build(pratt.clone())`, `math_parser.rs` 101: the parser of a token without its
name and spaces. -/
def tokenParse (call : Rec) (g : Grammar) (tp : TokenParser) (row : Row) (pos : Nat) :
    M (Option (SChildren × Nat)) :=
  match tp with
  | .symbols ss ty =>
    .ok ((justSymbols ss row pos).map fun r => (.leaf ty [r.1], r.2))
  | .brackets n o c => parseBrackets call n o c row pos
  | .emptyBrackets n o c => parseEmptyBrackets n o c row pos
  | .container v => parseContainer call v row pos
  | .variable => .ok (parseVariable g row pos)
  | .number => .ok (parseNumber row pos)
  | .string => .ok (parseString row pos)

/-! ## Rules with spaces, sub- and superscripts -/

/-- `space_parser`, `math_parser.rs` 51-65 -/
def parseSpaces (g : Grammar) (row : Row) (pos : Nat) : M (Option SNode × Nat) :=
  let ss := symRun (fun s => s == [' ']) (row.drop pos)
  if ss.isEmpty then .ok (none, pos)
  else do
    let node ← g.builtIn.whitespaceNode ss pos (pos + ss.length)
    .ok (some node, pos + ss.length)

/-- `sub_parser` and `sup_parser`, `math_parser.rs` 129-151 and 153-175, without the builder. -/
def parseScript (call : Rec) (g : Grammar) (v : Variant) (row : Row) (pos : Nat) :
    M (Option (SNode × Nat)) := do
  match ← parseContainer call v row pos with
  | none => .ok none
  | some (c, p1) => do
    let node ← SNode.new g.builtIn.operator pos p1 c
    let (after, p2) ← parseSpaces g row p1
    let node ← g.builtIn.whitespacesNode none node after pos p2
    .ok (some (node, p2))

/-- `combine_ranges`, `rule_collection.rs` 99-103 and `math_parser.rs` 29-33 -/
def combineRanges (a b : Nat × Nat) : Nat × Nat := (min a.1 b.1, max a.2 b.2)

/-- `SyntaxNode::range` as a pair -/
def SNode.range (t : SNode) : Nat × Nat := (t.lo, t.hi)

/-- `InfixBuilderImpl::build`, `rule_collection.rs` 60-69 -/
def buildInfix (name : Nat) (op left right : SNode) : M SNode :=
  let r := combineRanges left.range (combineRanges op.range right.range)
  SNode.new name r.1 r.2 (.children [left, op, right])

/-- `PrefixBuilderImpl::build`, `rule_collection.rs` 75-83 -/
def buildPrefix (name : Nat) (op right : SNode) : M SNode :=
  let r := combineRanges op.range right.range
  SNode.new name r.1 r.2 (.children [op, right])

/-- `PostfixBuilderImpl::build`, `rule_collection.rs` 89-97 -/
def buildPostfix (name : Nat) (op left : SNode) : M SNode :=
  let r := combineRanges left.range op.range
  SNode.new name r.1 r.2 (.children [left, op])

/-- `choice((sub_parser, sup_parser)).repeated()` and the loop over the collected scripts,
`math_parser.rs` 183-193. Each script is wrapped around the node as soon as it is parsed instead
of after collecting all of them, which is the same by `C94`. The first argument bounds the number of
rounds; every round consumes a node of the row. -/
def parseScripts (call : Rec) (g : Grammar) (row : Row) : Nat → SNode → Nat → M (SNode × Nat)
  | 0, _, _ => .error .fuel
  | n + 1, node, pos => do
    match ← parseScript call g .sub row pos with
    | some (s, p1) => do
      let node ← buildPostfix g.builtIn.sub s node
      parseScripts call g row n node p1
    | none => do
      match ← parseScript call g .sup row pos with
      | some (s, p1) => do
        let node ← buildPostfix g.builtIn.sup s node
        parseScripts call g row n node p1
      | none => .ok (node, pos)

/-- The name given to the token itself, `math_parser.rs` 93-100 -/
def tokenName (g : Grammar) (r : Rule) : Nat :=
  match r.kind with
  | .atom => r.name
  | _ => g.builtIn.operator

/-- The two match arms at `math_parser.rs` 177-196: only prefix and infix operators take scripts. -/
def RuleKind.takesScripts : RuleKind → Bool
  | .prefix _ => true
  | .leftInfix _ => true
  | .rightInfix _ => true
  | _ => false

/-- `rule_parser`, `math_parser.rs` 83-122 and 177-196 -/
def ruleParse (call : Rec) (g : Grammar) (r : Rule) (row : Row) (pos : Nat) :
    M (Option (SNode × Nat)) := do
  let (before, p1) ← parseSpaces g row pos
  match ← tokenParse call g r.parser row p1 with
  | none => .ok none
  | some (c, p2) => do
    let node ← SNode.new (tokenName g r) p1 p2 c
    let (after, p3) ← parseSpaces g row p2
    let node ← g.builtIn.whitespacesNode before node after pos p3
    if r.kind.takesScripts then do
      let res ← parseScripts call g row (row.length + 1) node p3
      .ok (some res)
    else .ok (some (node, p3))

/-- `parse_iter`, `pratt_parser.rs` 591-601, and `choice`, `math_parser.rs` 233: the first parser
that succeeds. -/
def parseIter (call : Rec) (g : Grammar) (row : Row) (pos : Nat) :
    List Rule → M (Option (SNode × Rule × Nat))
  | [] => .ok none
  | r :: rs => do
    match ← ruleParse call g r row pos with
    | some (node, p) => .ok (some (node, r, p))
    | none => parseIter call g row pos rs

/-- `can_parse_iter` and `can_parse` of the atoms, `pratt_parser.rs` 603-620 -/
def canParse (call : Rec) (g : Grammar) (row : Row) (pos : Nat) (rs : List Rule) : M Bool := do
  match ← parseIter call g row pos rs with
  | some _ => .ok true
  | none => .ok false

/-- The two disjunctions at `pratt_parser.rs` 303-304 and 343-344. -/
def canParseEither (call : Rec) (g : Grammar) (row : Row) (pos : Nat) (rs rs' : List Rule) :
    M Bool := do
  if ← canParse call g row pos rs then .ok true else canParse call g row pos rs'

/-! ## The pratt parser -/

/-- `inp.is_at_end()`, `pratt_parser.rs` 575-577 -/
def atInputEnd (row : Row) (pos : Nat) : Bool := decide (row.length ≤ pos)

/-- `is_at_end`, `pratt_parser.rs` 204-213 -/
def isAtEnd (row : Row) (pos : Nat) : Ending → Bool
  | .eof => atInputEnd row pos
  | .sym s => atInputEnd row pos || (selectSym (fun t => t == s) row pos).isSome

/-- `make_missing_atom`, `math_parser.rs` 245-248 -/
def makeMissingAtom (g : Grammar) (pos : Nat) : M SNode := g.builtIn.errorMissingToken pos

/-- `make_missing_operator`, `math_parser.rs` 249-258 -/
def makeMissingOperator (g : Grammar) (a b : SNode) : M SNode :=
  let r := combineRanges a.range b.range
  g.builtIn.errorMissingOperator r.1 r.2 a b

/-- `next_maybe().unwrap()` and `make_unknown_atom`, `pratt_parser.rs` 222-223 and 236-238,
`math_parser.rs` 259-267 -/
def makeUnknownAtom (g : Grammar) (row : Row) (pos : Nat) : M SNode := do
  let n ← munwrap row[pos]?
  g.builtIn.errorUnknownToken pos (pos + 1) n

/-- `missing_operator_binding_power`, `math_parser.rs` 268 -/
def missingOperatorKind : RuleKind := .leftInfix 100

/-- The test at `pratt_parser.rs` 225-230. `||` is lazy in Rust; here the four
parsers are run one after the other until one succeeds. -/
def unknownStops (call : Rec) (g : Grammar) (row : Row) (pos : Nat) (e : Ending) : M Bool := do
  if isAtEnd row pos e then .ok true
  else if ← canParse call g row pos g.prefixes then .ok true
  else if ← canParse call g row pos g.atoms then .ok true
  else if ← canParse call g row pos g.infixes then .ok true
  else canParse call g row pos g.postfixes

/-- The loop of `parse_unknown`, `pratt_parser.rs` 224-245. The first number bounds the rounds. -/
def unknownLoop (call : Rec) (g : Grammar) (row : Row) (e : Ending) :
    Nat → SNode → Nat → M (SNode × Nat)
  | 0, _, _ => .error .fuel
  | n + 1, atom, pos => do
    if ← unknownStops call g row pos e then .ok (atom, pos)
    else do
      let next ← makeUnknownAtom g row pos
      let joined ← makeMissingOperator g atom next
      unknownLoop call g row e n joined (pos + 1)

/-- `parse_unknown`, `pratt_parser.rs` 215-246 -/
def parseUnknown (call : Rec) (g : Grammar) (row : Row) (e : Ending) (pos : Nat) :
    M (SNode × Nat) := do
  let atom ← makeUnknownAtom g row pos
  unknownLoop call g row e (row.length + 1) atom (pos + 1)

/-- What the first part of `pratt_parse` does: go on with a left operand, or return. -/
inductive Start
  | left (t : SNode)
  | finished (t : SNode)

/-- `pratt_parse`, first part, `pratt_parser.rs` 285-314 -/
def prattStart (call : Rec) (g : Grammar) (row : Row) (e : Ending) (pos : Nat) :
    M (Start × Nat) := do
  if atInputEnd row pos then do
    let t ← makeMissingAtom g pos
    .ok (.finished t, pos)
  else do
    match ← parseIter call g row pos g.prefixes with
    | some (op, r, p1) => do
      let (right, p2) ← call row p1 r.kind.strengthRight e
      let t ← buildPrefix r.name op right.node
      match right with
      | .expression _ => .ok (.left t, p2)
      | .stop _ => .ok (.finished t, p2)
    | none => do
      match ← parseIter call g row pos g.atoms with
      | some (t, _, p1) => .ok (.left t, p1)
      | none => do
        if ← canParseEither call g row pos g.infixes g.postfixes then do
          let t ← makeMissingAtom g pos
          .ok (.left t, pos)
        else if isAtEnd row pos e then do
          let t ← makeMissingAtom g pos
          .ok (.finished t, pos)
        else do
          let (t, p1) ← parseUnknown call g row e pos
          .ok (.left t, p1)

/-- `pratt_parse`, the operator loop, `pratt_parser.rs` 316-381. The first number bounds the
rounds; every round consumes a node of the row. -/
def prattLoop (call : Rec) (g : Grammar) (row : Row) (min : Power) (e : Ending) :
    Nat → SNode → Nat → M (PResult × Nat)
  | 0, _, _ => .error .fuel
  | n + 1, left, pos => do
    if atInputEnd row pos then .ok (.stop left, pos)
    else do
      match ← parseIter call g row pos g.infixes with
      | some (op, r, p1) =>
        if r.kind.strengthLeft.lt min then .ok (.expression left, pos)
        else do
          let (right, p2) ← call row p1 r.kind.strengthRight e
          let t ← buildInfix r.name op left right.node
          match right with
          | .expression _ => prattLoop call g row min e n t p2
          | .stop _ => .ok (.stop t, p2)
      | none => do
        match ← parseIter call g row pos g.postfixes with
        | some (op, r, p1) =>
          if r.kind.strengthLeft.lt min then .ok (.expression left, pos)
          else do
            let t ← buildPostfix r.name op left
            prattLoop call g row min e n t p1
        | none => do
          if ← canParseEither call g row pos g.prefixes g.atoms then
            if missingOperatorKind.strengthLeft.lt min then .ok (.expression left, pos)
            else do
              let (right, p2) ← call row pos missingOperatorKind.strengthRight e
              let t ← makeMissingOperator g left right.node
              match right with
              | .expression _ => prattLoop call g row min e n t p2
              | .stop _ => .ok (.stop t, p2)
          else if isAtEnd row pos e then .ok (.stop left, pos)
          else do
            let (right, p2) ← parseUnknown call g row e pos
            let t ← makeMissingOperator g left right
            prattLoop call g row min e n t p2

/-- `pratt_parse`, `pratt_parser.rs` 278-382, given its recursive calls. -/
def prattBody (call : Rec) (g : Grammar) (row : Row) (pos : Nat) (min : Power) (e : Ending) :
    M (PResult × Nat) := do
  let (s, p) ← prattStart call g row e pos
  match s with
  | .finished t => .ok (.stop t, p)
  | .left t => prattLoop call g row min e (row.length + 1) t p

/-- `pratt_parse` with a bound on the depth of recursive calls; running out of it is the
pseudo-panic `fuel`. -/
def pratt (g : Grammar) : Nat → Rec
  | 0 => fun _ _ _ _ => .error .fuel
  | f + 1 => prattBody (pratt g f) g

/-- `MathParser::parse`, `parser.rs` 42-52, with a bound on the depth of recursive calls. -/
def Grammar.parseFuel (g : Grammar) (f : Nat) (row : Row) : M SNode := parseWhole (pratt g f) row

mutual
/-- Size of a node: one for each node and one for each cell in it. -/
def Node.weight : Node → Nat
  | .symbol _ => 1
  | .container _ cells _ => 1 + cellsWeight cells
/-- see `Node.weight` -/
def rowWeight : List Node → Nat
  | [] => 0
  | n :: ns => n.weight + rowWeight ns
/-- see `Node.weight` -/
def cellsWeight : List (List Node) → Nat
  | [] => 0
  | r :: rs => rowWeight r + 1 + cellsWeight rs
end

/-- `MathParser::parse`, `parser.rs` 42-52. The bound on the depth of recursion is larger than
the number of nodes; theorem `C43` shows that it is never reached and that any larger one gives
the same result. -/
def Grammar.parse (g : Grammar) (row : Row) : M SNode := g.parseFuel (rowWeight row + 1) row

end Aftermath
