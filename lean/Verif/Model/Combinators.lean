import Verif.Model.Parser

/-! # The parser as it is written: combinators on an input that is advanced and rewound

`Model/Parser.lean` describes each parser by what it reads. The Rust code builds these parsers
with the combinators of the crate `chumsky` (`Cargo.lock` 131-138) and runs them on an
`InputRef`, whose offset stays where it is when a parser fails, so that every caller has to go
back by itself, and in two modes: in *emit* mode the closures given to `map` are called, in
*check* mode (`can_parse`, `pratt_parser.rs` 603-608) they are not.

This file models the combinators that are used, with both modes and with the offset that failing
parsers leave behind, and then writes down the parsers of the workspace with them, expression by
expression. Theorem `C94` (`Props/Combinators.lean`) shows that both models agree. The run also
counts the calls of `pratt_parse`; by `C79_counted` this is what `Model/Effort.lean` computes.

`chumsky` is not part of the repository, so the combinators are modelled from its documentation.
Left out are its error values, which the workspace only looks at to see whether there are any. -/

namespace Aftermath.Chumsky

/-- A computation that may panic and that counts the calls of `pratt_parse`: from the number of
calls so far to the result and the number of calls afterwards. The counter is not in the code; it is
there to state `C79_counted`. -/
def C (α : Type) : Type := Nat → M (α × Nat)

instance : Monad C where
  pure a := fun k => .ok (a, k)
  bind x f := fun k => do
    let (a, k') ← x k
    f a k'

/-- A computation without calls -/
def C.lift {α : Type} (x : M α) : C α := fun k => do
  let a ← x
  .ok (a, k)

/-- A panic -/
def C.panic {α : Type} (e : Panic) : C α := C.lift (.error e)

/-- One more call -/
def C.tick : C Unit := fun k => .ok ((), k + 1)

/-- A call of `PrattParser::pratt_parse`, see `Rec` -/
abbrev CRec := Row → Nat → Power → Ending → C (PResult × Nat)

/-- The two modes of running a parser, the `Mode` trait of `chumsky` -/
inductive Mode
  | emit
  | check
  deriving DecidableEq, Repr

/-- What a parser hands back in each mode -/
def Mode.Out : Mode → Type → Type
  | .emit, α => α
  | .check, _ => Unit

/-- `Mode::bind` for a closure that does not panic -/
def Mode.of {α : Type} : (m : Mode) → α → m.Out α
  | .emit, a => a
  | .check, _ => ()

/-- `Mode::map`. The closure is called in emit mode only. -/
def Mode.map {α β : Type} : (m : Mode) → m.Out α → (α → C β) → C (m.Out β)
  | .emit, a, f => f a
  | .check, _, _ => pure ()

/-- `Mode::combine` -/
def Mode.combine {α β γ : Type} : (m : Mode) → m.Out α → m.Out β → (α → β → γ) → m.Out γ
  | .emit, a, b, f => f a b
  | .check, _, _, _ => ()

/-- `Parser::go`: run in a mode on the input at an offset. The result is the output, or `none` if
the parser failed, and the offset afterwards - also if it failed. -/
def Parser (α : Type) : Type := (m : Mode) → Row → Nat → C (Option (m.Out α) × Nat)

/-! ## Combinators -/

/-- `InputRef::next`: the node at the offset, if there is one, and the offset after it. -/
def next (row : Row) (pos : Nat) : Option Node × Nat :=
  match row[pos]? with
  | some n => (some n, pos + 1)
  | none => (none, pos)

/-- The loop of `just`: one node after the other has to be the expected one. -/
def justLoop : List Node → Row → Nat → Bool × Nat
  | [], _, pos => (true, pos)
  | n :: ns, row, pos =>
    match next row pos with
    | (some n', p) => if n' = n then justLoop ns row p else (false, p)
    | (none, p) => (false, p)

/-- `just` -/
def just (ns : List Node) : Parser (List Node) := fun m row pos =>
  match justLoop ns row pos with
  | (true, p) => pure (some (m.of ns), p)
  | (false, p) => pure (none, p)

/-- `select!` and `select_ref!`: the next node, if the pattern accepts it. -/
def select {α : Type} (f : Node → Option α) : Parser α := fun m row pos =>
  match next row pos with
  | (some n, p) =>
    match f n with
    | some a => pure (some (m.of a), p)
    | none => pure (none, p)
  | (none, p) => pure (none, p)

/-- `end()` -/
def ending : Parser Unit := fun m row pos =>
  match next row pos with
  | (some _, p) => pure (none, p)
  | (none, p) => pure (some (m.of ()), p)

/-- `then`. A failure of either parser leaves the offset where it is. -/
def Parser.then {α β : Type} (a : Parser α) (b : Parser β) : Parser (α × β) := fun m row pos => do
  match ← a m row pos with
  | (none, p) => pure (none, p)
  | (some x, p) => do
    match ← b m row p with
    | (none, q) => pure (none, q)
    | (some y, q) => pure (some (m.combine x y Prod.mk), q)

/-- `map_with_span`, with a closure that may panic or parse -/
def Parser.mapWithSpanC {α β : Type} (a : Parser α) (f : α → Nat → Nat → C β) : Parser β :=
  fun m row pos => do
    match ← a m row pos with
    | (none, p) => pure (none, p)
    | (some x, p) => do
      let y ← m.map x fun x => f x pos p
      pure (some y, p)

/-- `map_with_span`, with a closure that may panic -/
def Parser.mapWithSpan {α β : Type} (a : Parser α) (f : α → Nat → Nat → M β) : Parser β :=
  a.mapWithSpanC fun x lo hi => .lift (f x lo hi)

/-- `map`, with a closure that may panic or parse -/
def Parser.mapC {α β : Type} (a : Parser α) (f : α → C β) : Parser β :=
  a.mapWithSpanC fun x _ _ => f x

/-- `map`, with a closure that may panic -/
def Parser.mapM {α β : Type} (a : Parser α) (f : α → M β) : Parser β :=
  a.mapWithSpan fun x _ _ => f x

/-- `map` -/
def Parser.map {α β : Type} (a : Parser α) (f : α → β) : Parser β := a.mapM fun x => .ok (f x)

/-- `or_not` goes back if the parser fails. -/
def Parser.orNot {α : Type} (a : Parser α) : Parser (Option α) := fun m row pos => do
  match ← a m row pos with
  | (none, _) => pure (some (m.of none), pos)
  | (some x, p) => do
    let y ← m.map x fun x => pure (some x)
    pure (some y, p)

/-- `or` and `choice`: the first parser that succeeds; each starts at the same offset. -/
def choice {α : Type} : List (Parser α) → Parser α
  | [] => fun _ _ pos => pure (none, pos)
  | a :: as => fun m row pos => do
    match ← a m row pos with
    | (none, _) => choice as m row pos
    | (some x, p) => pure (some x, p)

/-- The loop of `repeated().at_least(n).collect()`. It goes back to before the parser that
failed. In a debug build it panics if a round has not moved on. The first number bounds the
rounds. -/
def collectLoop {α : Type} (a : Parser α) (atLeast : Nat) (m : Mode) (row : Row) :
    Nat → Nat → m.Out (List α) → Nat → C (Option (m.Out (List α)) × Nat)
  | 0, _, _, _ => .panic .fuel
  | n + 1, count, acc, pos => do
    match ← a m row pos with
    | (none, _) => if atLeast ≤ count then pure (some acc, pos) else pure (none, pos)
    | (some x, p) =>
      if p = pos then .panic .explicit
      else collectLoop a atLeast m row n (count + 1) (m.combine acc x fun l x => l ++ [x]) p

/-- `repeated().at_least(n).collect()` -/
def Parser.repeatedAtLeast {α : Type} (a : Parser α) (atLeast : Nat) : Parser (List α) :=
  fun m row pos => collectLoop a atLeast m row (row.length + 1) 0 (m.of []) pos

/-- `repeated().collect()` -/
def Parser.repeated {α : Type} (a : Parser α) : Parser (List α) := a.repeatedAtLeast 0

/-- `Ext`, used by `call_pratt_parser` (`pratt_parser.rs` 386-459): a hand-written parser, here
one that never fails. In check mode its result is dropped. -/
def ext {α : Type} (f : Row → Nat → C (α × Nat)) : Parser α := fun m row pos => do
  let (x, p) ← f row pos
  pure (some (m.of x), p)

/-- `Parser::parse`: the parser, and then the input has to be at its end. `none` if that failed,
in which case there are errors. -/
def Parser.parse {α : Type} (a : Parser α) (row : Row) : C (Option α) := do
  match ← (a.then ending) .emit row 0 with
  | (none, _) => pure none
  | (some x, _) => pure (some (show α × Unit from x).1)

/-! ## Token parsers -/

/-- The pattern `InputNode::Symbol(a) if f(a) => a` -/
def symbolIf (f : Str → Bool) : Node → Option Str
  | .symbol a => if f a then some a else none
  | _ => none

/-- The pattern `InputNode::Container(c_type, a) if c_type == v => a`, `built_in_rules.rs` 190 -/
def containerOf (v : Variant) : Node → Option (List Row × Nat)
  | .container v' cells w => if v' = v then some (cells, w) else none
  | _ => none

/-- The closures at `parser_extensions.rs` 7-10 and 22-25 -/
def symbolText : Node → M Str
  | .symbol v => .ok v
  | _ => .error .explicit

/-- `just(InputNode)` of a single node is the case of one expected node. -/
def oneOf : List Node → M Str
  | n :: _ => symbolText n
  | [] => .error .explicit

/-- `just_symbol`, `parser_extensions.rs` 4-11 -/
def justSymbol (s : Str) : Parser Str := (just [.symbol s]).mapM oneOf

/-- The closure at `parser_extensions.rs` 21-27 -/
def symbolTexts : List Node → M Str
  | [] => .ok []
  | n :: ns => do
    let s ← symbolText n
    let t ← symbolTexts ns
    .ok (s ++ t)

/-- `just_symbols`, `parser_extensions.rs` 13-28 -/
def justSymbols (ss : List Str) : Parser Str := (just (ss.map .symbol)).mapM symbolTexts

/-- `call_pratt_parser`, `pratt_parser.rs` 430-459: both results are a success. -/
def callPratt (call : CRec) (min : Power) (e : Ending) : Parser SNode := ext fun row pos => do
  let (r, p) ← call row pos min e
  pure (r.node, p)

/-- `MakeSymbolsParser::build`, `make_parser.rs` 70-76 -/
def symbolsParser (ss : List Str) (ty : LeafType) : Parser SChildren :=
  (justSymbols ss).map fun v => .leaf ty [v]

/-- `just_symbol(..).map_with_span(|v, span| (v, span.into_range()))` -/
def spanned (s : Str) : Parser (Str × Nat × Nat) :=
  (justSymbol s).mapWithSpan fun v lo hi => .ok (v, lo, hi)

/-- The closure at `make_parser.rs` 112-131 -/
def bracketsNode (name : Nat) : ((Str × Nat × Nat) × SNode) × Str × Nat × Nat → M SChildren
  | (((l, llo, lhi), child), (r, rlo, rhi)) => do
    let left ← SNode.new name llo lhi (.leaf .operator [l])
    let right ← SNode.new name rlo rhi (.leaf .operator [r])
    .ok (.children [left, child, right])

/-- `make_brackets_parser`, `make_parser.rs` 93-134 -/
def bracketsParser (call : CRec) (name : Nat) (opening closing : Str) : Parser SChildren :=
  (((spanned opening).then (callPratt call (0, .weak) (.sym closing))).then
    (spanned closing)).mapM (bracketsNode name)

/-- The closure at `make_parser.rs` 150-164 -/
def emptyBracketsNode (name : Nat) : (Str × Nat × Nat) × Str × Nat × Nat → M SChildren
  | ((l, llo, lhi), (r, rlo, rhi)) => do
    let left ← SNode.new name llo lhi (.leaf .operator [l])
    let right ← SNode.new name rlo rhi (.leaf .operator [r])
    .ok (.children [left, right])

/-- `make_empty_brackets_parser`, `make_parser.rs` 136-168 -/
def emptyBracketsParser (name : Nat) (opening closing : Str) : Parser SChildren :=
  ((spanned opening).then (spanned closing)).mapM (emptyBracketsNode name)

/-- `p.parse(..)` and what is done with its result, `built_in_rules.rs` 197-211: errors panic. -/
def parseRow (call : CRec) (row : Row) : C SNode := do
  match ← (callPratt call (0, .weak) .eof).parse row with
  | some t => pure t
  | none => .panic .explicit

/-- `v.values().map(|row| ..).collect()`, `built_in_rules.rs` 194-214 -/
def parseRows (call : CRec) : List Row → C (List SNode)
  | [] => pure []
  | r :: rs => do
    let t ← parseRow call r
    let ts ← parseRows call rs
    pure (t :: ts)

/-- The closure at `built_in_rules.rs` 192-217 -/
def containerNode (call : CRec) : List Row × Nat → C SChildren
  | (cells, w) => do
    let ts ← parseRows call cells
    let grid ← C.lift (GridVec.fromOneDimensional ts w)
    pure (.newRows grid.values grid.width)

/-- `make_container_parser`, `built_in_rules.rs` 182-220 -/
def containerParser (call : CRec) (v : Variant) : Parser SChildren :=
  (select (containerOf v)).mapC (containerNode call)

/-- The rule `Core::Variable`, `core_rules.rs` 64-80 -/
def variableParser (g : Grammar) : Parser SChildren :=
  ((select (symbolIf (isIdentifierStart g))).then
    (select (symbolIf (isIdentifierContinue g))).repeated).map
    fun v => .leaf .symbol ([v.1] ++ v.2)

/-- `digits`, `arithmetic_rules.rs` 53-58 -/
def digits : Parser (List Str) := (select (symbolIf isDigits)).repeatedAtLeast 1

/-- The closure at `arithmetic_rules.rs` 62-68 -/
def numberSymbols : List Str × Option (Str × List Str) → List Str
  | (a, some (c, d)) => a ++ [c] ++ d
  | (a, none) => a

/-- The rule `Arithmetic::Number`, `arithmetic_rules.rs` 60-70 -/
def numberParser : Parser SChildren :=
  ((digits.then ((justSymbol ['.']).then digits).orNot).map numberSymbols).map
    fun v => .leaf .symbol v

/-- The loop at `string_rules.rs` 66-71 -/
def stringPieces : List (Str × Option Str) → List Str
  | [] => []
  | (a, none) :: rest => [a] ++ stringPieces rest
  | (a, some b) :: rest => [a] ++ [b] ++ stringPieces rest

/-- One piece of a string, `string_rules.rs` 52-59 -/
def stringPiece : Parser (Str × Option Str) :=
  choice [
    (select (symbolIf fun a => a != ['"'] && a != ['\\'])).map fun a => (a, none),
    ((justSymbol ['\\']).then (select (symbolIf fun _ => true))).map fun ab => (ab.1, some ab.2)]

/-- The rule `String::String`, `string_rules.rs` 50-74 -/
def stringParser : Parser SChildren :=
  (((justSymbol ['"']).then stringPiece.repeated).then (justSymbol ['"'])).map
    fun v => .leaf .symbol ([v.1.1] ++ stringPieces v.1.2 ++ [v.2])

/-- `make_parser.build(pratt.clone())`, `math_parser.rs` 101 -/
def tokenParser (call : CRec) (g : Grammar) : TokenParser → Parser SChildren
  | .symbols ss ty => symbolsParser ss ty
  | .brackets n o c => bracketsParser call n o c
  | .emptyBrackets n o c => emptyBracketsParser n o c
  | .container v => containerParser call v
  | .variable => variableParser g
  | .number => numberParser
  | .string => stringParser

/-! ## Rules -/

/-- The closure at `math_parser.rs` 58-64 -/
def spacesNode (g : Grammar) (v : List Str) (lo hi : Nat) : M (Option SNode) :=
  if v.isEmpty then .ok none
  else do
    let node ← g.builtIn.whitespaceNode v lo hi
    .ok (some node)

/-- `space_parser`, `math_parser.rs` 51-65 -/
def spaceParser (g : Grammar) : Parser (Option SNode) :=
  (select (symbolIf fun v => v == [' '])).repeated.mapWithSpan (spacesNode g)

/-- `basic_parser`, `math_parser.rs` 83-104 -/
def basicParser (call : CRec) (g : Grammar) (r : Rule) : Parser SNode :=
  (tokenParser call g r.parser).mapWithSpan fun v lo hi => SNode.new (tokenName g r) lo hi v

/-- `rule_parser`, `math_parser.rs` 108-122 -/
def spacedParser (call : CRec) (g : Grammar) (r : Rule) : Parser SNode :=
  (((spaceParser g).then (basicParser call g r)).then (spaceParser g)).mapWithSpan
    fun v lo hi => g.builtIn.whitespacesNode v.1.1 v.1.2 v.2 lo hi

/-- `sub_parser` and `sup_parser`, `math_parser.rs` 129-151 and 153-175; the number is the name in
the `PostfixBuilderImpl`. -/
def scriptParser (call : CRec) (g : Grammar) (v : Variant) (name : Nat) : Parser (SNode × Nat) :=
  (((containerParser call v).mapWithSpan fun c lo hi => SNode.new g.builtIn.operator lo hi c).then
    (spaceParser g)).mapWithSpan fun x lo hi => do
      let node ← g.builtIn.whitespacesNode none x.1 x.2 lo hi
      .ok (node, name)

/-- The loop at `math_parser.rs` 189-191 -/
def wrapScripts : SNode → List (SNode × Nat) → M SNode
  | node, [] => .ok node
  | node, (s, name) :: rest => do
    let node ← buildPostfix name s node
    wrapScripts node rest

/-- `rule_parser`, `math_parser.rs` 177-196 -/
def ruleParser (call : CRec) (g : Grammar) (r : Rule) : Parser SNode :=
  if r.kind.takesScripts then
    ((spacedParser call g r).then
      (choice [scriptParser call g .sub g.builtIn.sub,
        scriptParser call g .sup g.builtIn.sup]).repeated).mapM fun v => wrapScripts v.1 v.2
  else spacedParser call g r

/-! ## The pratt parser -/

/-- `parse_safe`, `pratt_parser.rs` 579-589: the output and the offset; after a failure the offset
is the old one. -/
def parseSafe {α : Type} (a : Parser α) (row : Row) (pos : Nat) : C (Option α × Nat) := do
  match ← a .emit row pos with
  | (some x, p) => pure (some x, p)
  | (none, _) => pure (none, pos)

/-- `can_parse`, `pratt_parser.rs` 603-608. The offset is put back, so only the answer is left. -/
def canParse {α : Type} (a : Parser α) (row : Row) (pos : Nat) : C Bool := do
  match ← a .check row pos with
  | (some _, _) => pure true
  | (none, _) => pure false

/-- `parse_iter`, `pratt_parser.rs` 591-601 -/
def parseIter (call : CRec) (g : Grammar) (row : Row) : List Rule → Nat →
    C (Option (SNode × Rule) × Nat)
  | [], pos => pure (none, pos)
  | r :: rs, pos => do
    match ← parseSafe (ruleParser call g r) row pos with
    | (some x, p) => pure (some (x, r), p)
    | (none, p) => parseIter call g row rs p

/-- `can_parse_iter`, `pratt_parser.rs` 610-620 -/
def canParseIter (call : CRec) (g : Grammar) (row : Row) (pos : Nat) : List Rule → C Bool
  | [] => pure false
  | r :: rs => do
    if ← canParse (ruleParser call g r) row pos then pure true
    else canParseIter call g row pos rs

/-- `atom`, `math_parser.rs` 233 -/
def atomParser (call : CRec) (g : Grammar) : Parser SNode := choice (g.atoms.map (ruleParser call g))

/-- The ending parsers in use, see `Ending` -/
def endingParser : Ending → Parser Unit
  | .eof => ending
  | .sym s => (justSymbol s).map fun _ => ()

/-- `inp.is_at_end()`, `pratt_parser.rs` 575-577 -/
def inputAtEnd (row : Row) (pos : Nat) : Bool := (next row pos).1.isNone

/-- `is_at_end`, `pratt_parser.rs` 204-213 -/
def isAtEnd (row : Row) (pos : Nat) (e : Ending) : C Bool :=
  if inputAtEnd row pos then pure true else canParse (endingParser e) row pos

/-- `a || b`, where `b` is evaluated only if `a` is false -/
def orElse (a : C Bool) (b : C Bool) : C Bool := do
  if ← a then pure true else b

/-- The disjunction at `pratt_parser.rs` 225-229 -/
def unknownStops (call : CRec) (g : Grammar) (row : Row) (pos : Nat) (e : Ending) : C Bool :=
  orElse (isAtEnd row pos e) <|
  orElse (canParseIter call g row pos g.prefixes) <|
  orElse (canParse (atomParser call g) row pos) <|
  orElse (canParseIter call g row pos g.infixes) <|
  canParseIter call g row pos g.postfixes

/-- `next_maybe().unwrap()` and `make_unknown_atom`, `pratt_parser.rs` 222-223 and 236-238: the
node and the offset after it. -/
def unknownAtom (g : Grammar) (row : Row) (pos : Nat) : C (SNode × Nat) := do
  match next row pos with
  | (some n, p) => do
    let t ← C.lift (g.builtIn.errorUnknownToken pos (pos + 1) n)
    pure (t, p)
  | (none, _) => .panic .unwrapNone

/-- The loop of `parse_unknown`, `pratt_parser.rs` 224-245 -/
def unknownLoop (call : CRec) (g : Grammar) (row : Row) (e : Ending) :
    Nat → SNode → Nat → C (SNode × Nat)
  | 0, _, _ => .panic .fuel
  | n + 1, atom, pos => do
    if ← unknownStops call g row pos e then pure (atom, pos)
    else do
      let (next, p) ← unknownAtom g row pos
      let joined ← C.lift (makeMissingOperator g atom next)
      unknownLoop call g row e n joined p

/-- `parse_unknown`, `pratt_parser.rs` 215-246 -/
def parseUnknown (call : CRec) (g : Grammar) (row : Row) (e : Ending) (pos : Nat) :
    C (SNode × Nat) := do
  let (atom, p) ← unknownAtom g row pos
  unknownLoop call g row e (row.length + 1) atom p

/-- `pratt_parse`, first part, `pratt_parser.rs` 285-314. The offset is threaded through all
attempts. -/
def prattStart (call : CRec) (g : Grammar) (row : Row) (e : Ending) (pos : Nat) :
    C (Start × Nat) := do
  if inputAtEnd row pos then do
    let t ← C.lift (makeMissingAtom g pos)
    pure (.finished t, pos)
  else do
    match ← parseIter call g row g.prefixes pos with
    | (some (op, r), p1) => do
      let (right, p2) ← call row p1 r.kind.strengthRight e
      let t ← C.lift (buildPrefix r.name op right.node)
      match right with
      | .expression _ => pure (.left t, p2)
      | .stop _ => pure (.finished t, p2)
    | (none, p0) => do
      match ← parseSafe (atomParser call g) row p0 with
      | (some t, p1) => pure (.left t, p1)
      | (none, p1) => do
        if ← orElse (canParseIter call g row p1 g.infixes)
            (canParseIter call g row p1 g.postfixes) then do
          let t ← C.lift (makeMissingAtom g p1)
          pure (.left t, p1)
        else if ← isAtEnd row p1 e then do
          let t ← C.lift (makeMissingAtom g p1)
          pure (.finished t, p1)
        else do
          let (t, p2) ← parseUnknown call g row e p1
          pure (.left t, p2)

/-- `pratt_parse`, the operator loop, `pratt_parser.rs` 316-381 -/
def prattLoop (call : CRec) (g : Grammar) (row : Row) (min : Power) (e : Ending) :
    Nat → SNode → Nat → C (PResult × Nat)
  | 0, _, _ => .panic .fuel
  | n + 1, left, preOp => do
    if inputAtEnd row preOp then pure (.stop left, preOp)
    else do
      match ← parseIter call g row g.infixes preOp with
      | (some (op, r), p1) =>
        if r.kind.strengthLeft.lt min then pure (.expression left, preOp)
        else do
          let (right, p2) ← call row p1 r.kind.strengthRight e
          let t ← C.lift (buildInfix r.name op left right.node)
          match right with
          | .expression _ => prattLoop call g row min e n t p2
          | .stop _ => pure (.stop t, p2)
      | (none, p0) => do
        match ← parseIter call g row g.postfixes p0 with
        | (some (op, r), p1) =>
          if r.kind.strengthLeft.lt min then pure (.expression left, preOp)
          else do
            let t ← C.lift (buildPostfix r.name op left)
            prattLoop call g row min e n t p1
        | (none, p1) => do
          if ← orElse (canParseIter call g row p1 g.prefixes)
              (canParse (atomParser call g) row p1) then
            if missingOperatorKind.strengthLeft.lt min then pure (.expression left, p1)
            else do
              let (right, p2) ← call row p1 missingOperatorKind.strengthRight e
              let t ← C.lift (makeMissingOperator g left right.node)
              match right with
              | .expression _ => prattLoop call g row min e n t p2
              | .stop _ => pure (.stop t, p2)
          else if ← isAtEnd row p1 e then pure (.stop left, p1)
          else do
            let (right, p2) ← parseUnknown call g row e p1
            let t ← C.lift (makeMissingOperator g left right)
            prattLoop call g row min e n t p2

/-- `pratt_parse`, `pratt_parser.rs` 278-382, given its recursive calls. It counts
itself. -/
def prattBody (call : CRec) (g : Grammar) (row : Row) (pos : Nat) (min : Power) (e : Ending) :
    C (PResult × Nat) := do
  C.tick
  let (s, p) ← prattStart call g row e pos
  match s with
  | .finished t => pure (.stop t, p)
  | .left t => prattLoop call g row min e (row.length + 1) t p

/-- `pratt_parse` with a bound on the depth of recursive calls -/
def pratt (g : Grammar) : Nat → CRec
  | 0 => fun _ _ _ _ => .panic .fuel
  | f + 1 => prattBody (pratt g f) g

/-- `MathParser::parse`, `parser.rs` 42-52, with the parser of `math_parser.rs` 38-42: errors
panic, so the missing output of line 51 is never seen. The number bounds the depth of recursive
calls. The result is the tree and the number of calls that were made. -/
def parse (g : Grammar) (f : Nat) (row : Row) : M (SNode × Nat) := parseRow (pratt g f) row 0

end Aftermath.Chumsky
