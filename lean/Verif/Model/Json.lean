import Verif.Model.Tree

/-! # Clipboard format: `serialization/src/lib.rs`

The derived `Serialize`/`Deserialize` implementations (`node.rs` 13, 29; `row.rs` 18;
`grid.rs` 29; `lib.rs` 15-19) run through serde_json 1.0.107. Writing is the compact form of
`serde_json::to_string`. Reading is modelled in two steps, text to JSON value and JSON value
to data.

Modelled of `serde_json::from_str`: the whole JSON syntax (white space, string escapes, numbers,
literals), the recursion limit of 128, which does not apply inside ignored fields, object fields in
any order, unknown, missing and duplicate fields, the array form of a struct, both forms of unit
variants, lone surrogates (errors in strings that are read, accepted inside ignored fields),
integer ranges and trailing characters. -/

namespace Aftermath

/-- JSON values that can occur in an accepted document. -/
inductive Json
  | str (s : Str)
  | num (n : Nat)
  | arr (l : List Json)
  | obj (l : List (Str × Json))

/-! ## Writer -/

/-- Lower-case hexadecimal digit, as written by serde_json. -/
def hexDigit (n : Nat) : Char :=
  if n < 10 then Char.ofNat (48 + n) else Char.ofNat (87 + n)

/-- serde_json `format_escaped_str_contents`: quotes, backslash and control characters. -/
def jsonEscapeChar (c : Char) : Str :=
  if c = '"' then ['\\', '"']
  else if c = '\\' then ['\\', '\\']
  else if c.toNat = 8 then ['\\', 'b']
  else if c.toNat = 9 then ['\\', 't']
  else if c.toNat = 10 then ['\\', 'n']
  else if c.toNat = 12 then ['\\', 'f']
  else if c.toNat = 13 then ['\\', 'r']
  else if c.toNat < 32 then
    ['\\', 'u', '0', '0', hexDigit (c.toNat / 16), hexDigit (c.toNat % 16)]
  else [c]

/-- serde_json `format_escaped_str` -/
def jsonStr (s : Str) : Str := '"' :: (s.flatMap jsonEscapeChar ++ ['"'])

/-- Decimal digits, as written by `itoa`. -/
def natDigits (n : Nat) : Str := Nat.toDigits 10 n

mutual
/-- serde_json compact formatter -/
def Json.print : Json → Str
  | .str s => jsonStr s
  | .num n => natDigits n
  | .arr l => '[' :: (Json.printList l ++ [']'])
  | .obj l => '{' :: (Json.printFields l ++ ['}'])
/-- comma separated values -/
def Json.printList : List Json → Str
  | [] => []
  | [x] => x.print
  | x :: y :: ys => x.print ++ ',' :: Json.printList (y :: ys)
/-- comma separated fields -/
def Json.printFields : List (Str × Json) → Str
  | [] => []
  | [(k, x)] => jsonStr k ++ ':' :: x.print
  | (k, x) :: y :: ys => jsonStr k ++ ':' :: (x.print ++ ',' :: Json.printFields (y :: ys))
end

/-- Derived `Serialize` of `InputNodeVariant`, `node.rs` 29: unit variants are strings. -/
def variantName : Variant → Str
  | .fraction => "Fraction".toList
  | .root => "Root".toList
  | .sup => "Sup".toList
  | .sub => "Sub".toList
  | .table => "Table".toList

mutual
/-- Derived `Serialize` of `InputNode`, `node.rs` 13: externally tagged. -/
def Node.toJson : Node → Json
  | .symbol s => .obj [("Symbol".toList, .str s)]
  | .container v cells w =>
    .obj [("Container".toList, .arr [.str (variantName v),
      .obj [("values".toList, .arr (cellsToJson cells)), ("width".toList, .num w)]])]
/-- `InputRow.values` -/
def rowToJson : List Node → List Json
  | [] => []
  | n :: ns => n.toJson :: rowToJson ns
/-- Derived `Serialize` of `InputRow`, `row.rs` 18, for each cell. -/
def cellsToJson : List (List Node) → List Json
  | [] => []
  | r :: rs => .obj [("values".toList, .arr (rowToJson r))] :: cellsToJson rs
end

/-- `serialization/src/lib.rs` 28-39 (cannot fail) -/
def serializeNodes (nodes : List Node) : Str :=
  (Json.obj [("version".toList, .num 1), ("data".toList, .arr (rowToJson nodes))]).print

/-! ## Reader -/

/-- JSON documents as they are read. A string is `none` if it contains an escaped surrogate that
is not half of a pair; such strings are only accepted where they are ignored (serde_json
`ignore_str` against `parse_str`). -/
inductive JDoc
  | null
  | bool (b : Bool)
  | nat (n : Nat)
  /-- a number with a sign, a fraction or an exponent -/
  | number
  | str (s : Option Str)
  | arr (l : List JDoc)
  | obj (l : List (Option Str × JDoc))

/-- JSON white space -/
def isJsonSpace (c : Char) : Bool := c = ' ' || c = '\n' || c = '\t' || c = '\r'

/-- skip white space -/
def skipSpace : Str → Str
  | [] => []
  | c :: cs => if isJsonSpace c then skipSpace cs else c :: cs

/-- value of a hexadecimal digit, either case -/
def hexVal (c : Char) : Option Nat :=
  if '0' ≤ c ∧ c ≤ '9' then some (c.toNat - 48)
  else if 'a' ≤ c ∧ c ≤ 'f' then some (c.toNat - 87)
  else if 'A' ≤ c ∧ c ≤ 'F' then some (c.toNat - 55)
  else none

/-- four hexadecimal digits -/
def hex4 : Str → Option (Nat × Str)
  | a :: b :: c :: d :: rest => do
    let a ← hexVal a
    let b ← hexVal b
    let c ← hexVal c
    let d ← hexVal d
    some (((a * 16 + b) * 16 + c) * 16 + d, rest)
  | _ => none

/-- serde_json `parse_escape`: the character after a backslash. -/
def shortEscape (e : Char) : Option Char :=
  if e = '"' then some '"'
  else if e = '\\' then some '\\'
  else if e = '/' then some '/'
  else if e = 'b' then some (Char.ofNat 8)
  else if e = 'f' then some (Char.ofNat 12)
  else if e = 'n' then some (Char.ofNat 10)
  else if e = 'r' then some (Char.ofNat 13)
  else if e = 't' then some (Char.ofNat 9)
  else none

/-- An escaped low surrogate. -/
def lowEscape : Str → Option (Nat × Str)
  | '\\' :: 'u' :: rest =>
    match hex4 rest with
    | some (m, rest) => if 0xDC00 ≤ m ∧ m ≤ 0xDFFF then some (m, rest) else none
    | none => none
  | _ => none

/-- serde_json `parse_unicode_escape`, after `\u`. -/
def unicodeEscape (s : Str) : Option (Option Char × Str) :=
  match hex4 s with
  | none => none
  | some (n, rest) =>
    if 0xDC00 ≤ n ∧ n ≤ 0xDFFF then some (none, rest)
    else if 0xD800 ≤ n ∧ n ≤ 0xDBFF then
      match lowEscape rest with
      | some (m, rest) => some (some (Char.ofNat ((n - 0xD800) * 1024 + (m - 0xDC00) + 0x10000)), rest)
      | none => some (none, rest)
    else some (some (Char.ofNat n), rest)

/-- One character of a string, escaped or not. Control characters are errors. -/
def strChar : Str → Option (Option Char × Str)
  | [] => none
  | c :: cs =>
    if c = '\\' then
      match cs with
      | [] => none
      | e :: es =>
        match shortEscape e with
        | some x => some (some x, es)
        | none => if e = 'u' then unicodeEscape es else none
    else if c.toNat < 32 then none
    else some (some c, cs)

/-- Put a character in front of a string. -/
def consChar : Option Char → Option Str → Option Str
  | some c, some s => some (c :: s)
  | _, _ => none

/-- serde_json `parse_str`, after the opening quote. -/
def parseStrBody : Nat → Str → Option (Option Str × Str)
  | 0, _ => none
  | fuel + 1, s =>
    match s with
    | '"' :: r => some (some [], r)
    | s =>
      match strChar s with
      | none => none
      | some (c, r) => (parseStrBody fuel r).map fun (t, r) => (consChar c t, r)

/-- is an ASCII digit -/
def isDigit (c : Char) : Bool := '0' ≤ c && c ≤ '9'

/-- the number denoted by digits, most significant first -/
def decimal (ds : Str) : Nat := ds.foldl (fun n c => 10 * n + (c.toNat - 48)) 0

/-- serde_json `parse_integer`, `ignore_integer`: no leading zeros. -/
def intPart (s : Str) : Option (Str × Str) :=
  match s.takeWhile isDigit with
  | [] => none
  | '0' :: _ :: _ => none
  | ds => some (ds, s.dropWhile isDigit)

/-- serde_json `parse_decimal`: whether there is a fraction. -/
def fracPart (s : Str) : Option (Bool × Str) :=
  match s with
  | '.' :: r => if (r.takeWhile isDigit).isEmpty then none else some (true, r.dropWhile isDigit)
  | _ => some (false, s)

/-- the sign of an exponent -/
def skipSign : Str → Str
  | [] => []
  | d :: r => if d = '+' ∨ d = '-' then r else d :: r

/-- serde_json `parse_exponent`: whether there is an exponent. -/
def expPart (s : Str) : Option (Bool × Str) :=
  match s with
  | c :: r =>
    if c = 'e' ∨ c = 'E' then
      if ((skipSign r).takeWhile isDigit).isEmpty then none
      else some (true, (skipSign r).dropWhile isDigit)
    else some (false, s)
  | [] => some (false, s)

/-- whether there is a minus sign -/
def minusPart (s : Str) : Bool × Str :=
  match s with
  | '-' :: r => (true, r)
  | _ => (false, s)

/-- A JSON number. Numbers too large for `u64` are read as floating point numbers, which are
errors like all numbers outside of the range of the integer type that is read. -/
def readNumber (s : Str) : Option (JDoc × Str) := do
  let (ds, r) ← intPart (minusPart s).2
  let (frac, r) ← fracPart r
  let (exp, r) ← expPart r
  some (if (minusPart s).1 || frac || exp then .number else .nat (decimal ds), r)

/-- serde_json `parse_ident` -/
def keyword (word : Str) (d : JDoc) (s : Str) : Option (JDoc × Str) :=
  if word.isPrefixOf s then some (d, s.drop word.length) else none

mutual
/-- A JSON value. `fuel` bounds the recursion. -/
def parseValue : Nat → Str → Option (JDoc × Str)
  | 0, _ => none
  | fuel + 1, s =>
    match skipSpace s with
    | [] => none
    | c :: cs =>
      if c = '"' then (parseStrBody (cs.length + 1) cs).map fun (x, r) => (.str x, r)
      else if c = '[' then (parseElems fuel true cs).map fun (x, r) => (.arr x, r)
      else if c = '{' then (parseFields fuel true cs).map fun (x, r) => (.obj x, r)
      else if c = 'n' then keyword "ull".toList .null cs
      else if c = 't' then keyword "rue".toList (.bool true) cs
      else if c = 'f' then keyword "alse".toList (.bool false) cs
      else readNumber (c :: cs)
/-- The elements of an array after `[` (`first`) or after an element. -/
def parseElems : Nat → Bool → Str → Option (List JDoc × Str)
  | 0, _, _ => none
  | fuel + 1, first, s =>
    match skipSpace s with
    | [] => none
    | c :: cs =>
      if c = ']' then some ([], cs)
      else if first ∨ c = ',' then
        match parseValue fuel (if first then c :: cs else cs) with
        | none => none
        | some (x, r) => (parseElems fuel false r).map fun (xs, r) => (x :: xs, r)
      else none
/-- The fields of an object after `{` (`first`) or after a field. -/
def parseFields : Nat → Bool → Str → Option (List (Option Str × JDoc) × Str)
  | 0, _, _ => none
  | fuel + 1, first, s =>
    match skipSpace s with
    | [] => none
    | c :: cs =>
      if c = '}' then some ([], cs)
      else if first ∨ c = ',' then
        match skipSpace (if first then c :: cs else cs) with
        | '"' :: ks =>
          match parseStrBody (ks.length + 1) ks with
          | none => none
          | some (k, r) =>
            match skipSpace r with
            | ':' :: r =>
              match parseValue fuel r with
              | none => none
              | some (x, r) => (parseFields fuel false r).map fun (xs, r) => ((k, x) :: xs, r)
            | _ => none
        | _ => none
      else none
end

/-- serde_json `from_str`: one value, then only white space. -/
def parseJson (s : Str) : Option JDoc :=
  match parseValue (2 * s.length + 2) s with
  | some (j, r) => if (skipSpace r).isEmpty then some j else none
  | none => none

/-! `depth` is serde_json's `remaining_depth`: entering an array or object decrements it and fails
at zero. Fields that are ignored are read without this limit. -/

/-- The elements of an array. -/
def elemsOf (depth : Nat) : JDoc → Option (List JDoc)
  | .arr l => if depth ≤ 1 then none else some l
  | _ => none

/-- The field `k` of an object, neither missing nor repeated. -/
def fieldOf (k : Str) (l : List (Option Str × JDoc)) : Option JDoc :=
  match l.filter fun f => f.1 = some k with
  | [(_, x)] => some x
  | _ => none

/-- The two fields `a`, `b` of a struct, object form or array form. Field names are read as
strings, other fields are ignored. -/
def twoFields (depth : Nat) (a b : Str) : JDoc → Option (JDoc × JDoc)
  | .obj l =>
    if depth ≤ 1 then none
    else if l.all fun f => f.1.isSome then do
      let x ← fieldOf a l
      let y ← fieldOf b l
      some (x, y)
    else none
  | .arr [x, y] => if depth ≤ 1 then none else some (x, y)
  | _ => none

/-- The single field of a struct, object form or array form. -/
def oneField (depth : Nat) (a : Str) : JDoc → Option JDoc
  | .obj l =>
    if depth ≤ 1 then none
    else if l.all fun f => f.1.isSome then fieldOf a l
    else none
  | .arr [x] => if depth ≤ 1 then none else some x
  | _ => none

/-- The variant with a name. -/
def variantOf (s : Str) : Option Variant :=
  if s = "Fraction".toList then some .fraction
  else if s = "Root".toList then some .root
  else if s = "Sup".toList then some .sup
  else if s = "Sub".toList then some .sub
  else if s = "Table".toList then some .table
  else none

/-- Derived `Deserialize` of `InputNodeVariant`: the name, or an object from the name to `null`. -/
def variantFromDoc (depth : Nat) : JDoc → Option Variant
  | .str (some s) => variantOf s
  | .obj [(some s, .null)] => if depth ≤ 1 then none else variantOf s
  | _ => none

/-- An unsigned integer type with so many bits. -/
def natFromDoc (bits : Nat) : JDoc → Option Nat
  | .nat n => if n < 2 ^ bits then some n else none
  | _ => none

/-- A `Vec` -/
def readAll {α β : Type} (f : α → Option β) : List α → Option (List β)
  | [] => some []
  | x :: xs => do
    let y ← f x
    let ys ← readAll f xs
    some (y :: ys)

/-- Derived `Deserialize` of `InputNode` and, inlined, of `GridVec<InputRow>` and `InputRow`.
The derived implementation does not run `GridVec::from_one_dimensional`. `fuel` bounds the
nesting. -/
def nodeFromDoc (cfg : Cfg) : Nat → Nat → JDoc → Option Node
  | 0, _, _ => none
  | fuel + 1, depth, .obj [(some k, x)] =>
    if depth ≤ 1 then none
    else if k = "Symbol".toList then
      match x with
      | .str (some s) => some (.symbol s)
      | _ => none
    else if k = "Container".toList then
      match x with
      | .arr [v, g] =>
        if depth - 1 ≤ 1 then none
        else do
          let v ← variantFromDoc (depth - 2) v
          let (vals, w) ← twoFields (depth - 2) "values".toList "width".toList g
          let cells ← elemsOf (depth - 3) vals
          let cells ← readAll (fun cell => do
            let vals ← oneField (depth - 4) "values".toList cell
            let row ← elemsOf (depth - 5) vals
            readAll (nodeFromDoc cfg fuel (depth - 6)) row) cells
          let w ← natFromDoc cfg.bits w
          some (.container v cells w)
      | _ => none
    else none
  | _ + 1, _, _ => none

/-- `serialization/src/lib.rs` 41-50 for `Some(JsonInputTree)`; `none` is `Err`. The version
is read as `u32` and ignored. -/
def deserializeNodes (cfg : Cfg) (s : Str) : Option (List Node) := do
  let j ← parseJson s
  let (version, data) ← twoFields 128 "version".toList "data".toList j
  let _ ← natFromDoc 32 version
  let l ← elemsOf 127 data
  readAll (nodeFromDoc cfg 128 126) l

end Aftermath
