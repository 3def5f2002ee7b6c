import Verif.Model.Json

/-! # Specification of JSON texts and of the nodes they describe

The syntax is that of RFC 8259, written as relations between a document and its texts. The second
part says which documents stand for which nodes. -/

namespace Aftermath

/-! ## Syntax -/

/-- White space. -/
def Blank (s : Str) : Prop := ∀ c ∈ s, c = ' ' ∨ c = '\t' ∨ c = '\n' ∨ c = '\r'

/-- A hexadecimal digit and its value. -/
def HexDigit (c : Char) (n : Nat) : Prop :=
  "0123456789abcdef".toList[n]? = some c ∨ "0123456789ABCDEF".toList[n]? = some c

/-- Four hexadecimal digits and their value. -/
def HexCode (s : Str) (n : Nat) : Prop :=
  ∃ a b c d i j k l, HexDigit a i ∧ HexDigit b j ∧ HexDigit c k ∧ HexDigit d l ∧
    s = [a, b, c, d] ∧ n = 4096 * i + 256 * j + 16 * k + l

/-- The first half of a pair of surrogates. -/
def IsHigh (n : Nat) : Prop := 0xD800 ≤ n ∧ n < 0xDC00

/-- The second half of a pair of surrogates. -/
def IsLow (n : Nat) : Prop := 0xDC00 ≤ n ∧ n < 0xE000

/-- The characters that are written as a backslash and one character. -/
def shortEscapes : List (Char × Char) :=
  [('"', '"'), ('\\', '\\'), ('/', '/'), ('b', '\x08'), ('f', '\x0c'), ('n', '\n'), ('r', '\r'),
    ('t', '\t')]

/-- The text between the quotes of a string. A string with a surrogate that is not half of a pair
is not a sequence of characters; it is `none`. -/
inductive Quoted : Option Str → Str → Prop
  | nil : Quoted (some []) []
  | plain {c s t} (hq : c ≠ '"') (hb : c ≠ '\\') (hc : 32 ≤ c.toNat) (h : Quoted s t) :
    Quoted (s.map (c :: ·)) (c :: t)
  | short {e c s t} (he : (e, c) ∈ shortEscapes) (h : Quoted s t) :
    Quoted (s.map (c :: ·)) ('\\' :: e :: t)
  | code {u n s t} (hu : HexCode u n) (h1 : ¬ IsHigh n) (h2 : ¬ IsLow n) (h : Quoted s t) :
    Quoted (s.map (Char.ofNat n :: ·)) ('\\' :: 'u' :: (u ++ t))
  | pair {u n v m s t} (hu : HexCode u n) (h1 : IsHigh n) (hv : HexCode v m) (h2 : IsLow m)
      (h : Quoted s t) :
    Quoted (s.map (Char.ofNat (0x10000 + 0x400 * (n - 0xD800) + (m - 0xDC00)) :: ·))
      ('\\' :: 'u' :: (u ++ '\\' :: 'u' :: (v ++ t)))
  | low {u n s t} (hu : HexCode u n) (h1 : IsLow n) (h : Quoted s t) :
    Quoted none ('\\' :: 'u' :: (u ++ t))
  | high {u n s t} (hu : HexCode u n) (h1 : IsHigh n)
      (h2 : ∀ v m t', t = '\\' :: 'u' :: (v ++ t') → HexCode v m → ¬ IsLow m) (h : Quoted s t) :
    Quoted none ('\\' :: 'u' :: (u ++ t))

/-- One or more decimal digits. -/
def Digits (s : Str) : Prop := s ≠ [] ∧ ∀ c ∈ s, c ∈ "0123456789".toList

/-- A fraction, or nothing. -/
def Fraction (s : Str) : Prop := s = [] ∨ ∃ ds, Digits ds ∧ s = '.' :: ds

/-- An exponent, or nothing. -/
def Exponent (s : Str) : Prop :=
  s = [] ∨ ∃ c sign ds, (c = 'e' ∨ c = 'E') ∧ (sign = [] ∨ sign = ['+'] ∨ sign = ['-']) ∧
    Digits ds ∧ s = c :: (sign ++ ds)

mutual
/-- The texts of a document, without white space around it. -/
inductive JDoc.Text : JDoc → Str → Prop
  | null : JDoc.Text .null "null".toList
  | yes : JDoc.Text (.bool true) "true".toList
  | no : JDoc.Text (.bool false) "false".toList
  /-- JSON has no leading zeros: a number is written in its decimal digits. -/
  | nat (n : Nat) : JDoc.Text (.nat n) (Nat.toDigits 10 n)
  | number {sign frac exp : Str} (n : Nat) (hs : sign = [] ∨ sign = ['-']) (hf : Fraction frac)
      (he : Exponent exp) (hne : sign ++ frac ++ exp ≠ []) :
    JDoc.Text .number (sign ++ Nat.toDigits 10 n ++ frac ++ exp)
  | str {s t} (h : Quoted s t) : JDoc.Text (.str s) ('"' :: (t ++ ['"']))
  | arrNil {b} (hb : Blank b) : JDoc.Text (.arr []) ('[' :: (b ++ [']']))
  | arr {l t} (h : JDoc.Items l t) : JDoc.Text (.arr l) ('[' :: (t ++ [']']))
  | objNil {b} (hb : Blank b) : JDoc.Text (.obj []) ('{' :: (b ++ ['}']))
  | obj {l t} (h : JDoc.Members l t) : JDoc.Text (.obj l) ('{' :: (t ++ ['}']))
/-- One or more elements of an array, separated by commas. -/
inductive JDoc.Items : List JDoc → Str → Prop
  | one {a d t b} (ha : Blank a) (h : JDoc.Text d t) (hb : Blank b) :
    JDoc.Items [d] (a ++ (t ++ b))
  | more {a d t b l u} (ha : Blank a) (h : JDoc.Text d t) (hb : Blank b) (hl : JDoc.Items l u) :
    JDoc.Items (d :: l) (a ++ (t ++ (b ++ ',' :: u)))
/-- One or more members of an object, separated by commas. -/
inductive JDoc.Members : List (Option Str × JDoc) → Str → Prop
  | one {a k q b c d t e} (ha : Blank a) (hk : Quoted k q) (hb : Blank b) (hc : Blank c)
      (h : JDoc.Text d t) (he : Blank e) :
    JDoc.Members [(k, d)] (a ++ '"' :: (q ++ '"' :: (b ++ ':' :: (c ++ (t ++ e)))))
  | more {a k q b c d t e l u} (ha : Blank a) (hk : Quoted k q) (hb : Blank b) (hc : Blank c)
      (h : JDoc.Text d t) (he : Blank e) (hl : JDoc.Members l u) :
    JDoc.Members ((k, d) :: l)
      (a ++ '"' :: (q ++ '"' :: (b ++ ':' :: (c ++ (t ++ (e ++ ',' :: u))))))
end

/-- The texts of a document. -/
def JDoc.Written (d : JDoc) (s : Str) : Prop :=
  ∃ a t b, Blank a ∧ JDoc.Text d t ∧ Blank b ∧ s = a ++ (t ++ b)

/-! ## Meaning -/

/-- The member `k` of an object is there once. -/
def IsMember (l : List (Option Str × JDoc)) (k : String) (x : JDoc) : Prop :=
  ∃ before after, l = before ++ (some k.toList, x) :: after ∧
    ∀ f ∈ before ++ after, f.1 ≠ some k.toList

/-- A record with one field: an object, whose other members are ignored, or an array. -/
def Record1 (d : JDoc) (k : String) (x : JDoc) : Prop :=
  d = .arr [x] ∨ ∃ l, d = .obj l ∧ (∀ f ∈ l, f.1 ≠ none) ∧ IsMember l k x

/-- A record with two fields. -/
def Record2 (d : JDoc) (k k' : String) (x y : JDoc) : Prop :=
  d = .arr [x, y] ∨ ∃ l, d = .obj l ∧ (∀ f ∈ l, f.1 ≠ none) ∧ IsMember l k x ∧ IsMember l k' y

/-- The names of the kinds of containers. -/
def kindNames : List (Variant × String) :=
  [(.fraction, "Fraction"), (.root, "Root"), (.sup, "Sup"), (.sub, "Sub"), (.table, "Table")]

/-- How a kind of container is written. -/
def IsKind (d : JDoc) (v : Variant) : Prop :=
  ∃ name, (v, name) ∈ kindNames ∧
    (d = .str (some name.toList) ∨ d = .obj [(some name.toList, .null)])

mutual
/-- The document stands for the node. `room` is how many brackets may be opened inside of each
other. Widths have `bits` bits. -/
inductive JDoc.IsNode (bits : Nat) : Nat → JDoc → Node → Prop
  | symbol {room} (s : Str) :
    JDoc.IsNode bits (room + 1) (.obj [(some "Symbol".toList, .str (some s))]) (.symbol s)
  | container {room kind grid values v cells w} (hv : IsKind kind v)
      (hg : Record2 grid "values" "width" (.arr values) (.nat w)) (hw : w < 2 ^ bits)
      (hc : JDoc.AreCells bits room values cells) :
    JDoc.IsNode bits (room + 4) (.obj [(some "Container".toList, .arr [kind, grid])])
      (.container v cells w)
/-- The documents stand for the nodes. -/
inductive JDoc.AreNodes (bits : Nat) : Nat → List JDoc → List Node → Prop
  | nil {room} : JDoc.AreNodes bits room [] []
  | cons {room d ds n ns} (h : JDoc.IsNode bits room d n) (hs : JDoc.AreNodes bits room ds ns) :
    JDoc.AreNodes bits room (d :: ds) (n :: ns)
/-- The documents stand for the cells of a grid. -/
inductive JDoc.AreCells (bits : Nat) : Nat → List JDoc → List Row → Prop
  | nil {room} : JDoc.AreCells bits room [] []
  | cons {room d ds values row rows} (h : Record1 d "values" (.arr values))
      (hr : JDoc.AreNodes bits room values row) (hs : JDoc.AreCells bits (room + 2) ds rows) :
    JDoc.AreCells bits (room + 2) (d :: ds) (row :: rows)
end

/-- The text describes the nodes: a record of a version number, which is not looked at, and the
nodes. At most 127 brackets are open at any place, not counting the ones inside of members that are
ignored. -/
def Describes (bits : Nat) (s : Str) (nodes : List Node) : Prop :=
  ∃ d version values, JDoc.Written d s ∧
    Record2 d "version" "data" (.nat version) (.arr values) ∧ version < 2 ^ 32 ∧
    JDoc.AreNodes bits 125 values nodes

/-! ## The text that is written

There are many texts for the same nodes. This is the one that is put on the clipboard: without white
space, with escapes only where they are needed, and with the short ones where there are any. -/

/-- How a character is written between quotes. -/
inductive CharText : Char → Str → Prop
  | plain {c} (hq : c ≠ '"') (hb : c ≠ '\\') (hc : 32 ≤ c.toNat) : CharText c [c]
  | short {e c} (he : (e, c) ∈ shortEscapes) (hs : e ≠ '/') : CharText c ['\\', e]
  | code {c a b} (hc : c.toNat < 32) (hs : ∀ e, (e, c) ∉ shortEscapes)
      (ha : "0123456789abcdef".toList[c.toNat / 16]? = some a)
      (hb : "0123456789abcdef".toList[c.toNat % 16]? = some b) :
    CharText c ['\\', 'u', '0', '0', a, b]

/-- How a string is written between quotes. -/
inductive StrText : Str → Str → Prop
  | nil : StrText [] []
  | cons {c s t u} (hc : CharText c t) (hs : StrText s u) : StrText (c :: s) (t ++ u)

mutual
/-- How a node is written. -/
inductive NodeText : Node → Str → Prop
  | symbol {s t} (h : StrText s t) :
    NodeText (.symbol s) ("{\"Symbol\":\"".toList ++ t ++ "\"}".toList)
  | container {v name cells t w} (hv : (v, name) ∈ kindNames) (h : CellsText cells t) :
    NodeText (.container v cells w) ("{\"Container\":[\"".toList ++ name.toList ++
      "\",{\"values\":[".toList ++ t ++ "],\"width\":".toList ++ Nat.toDigits 10 w ++ "}]}".toList)
/-- How nodes are written behind each other. -/
inductive NodesText : List Node → Str → Prop
  | nil : NodesText [] []
  | one {n t} (h : NodeText n t) : NodesText [n] t
  | more {n t n' ns u} (h : NodeText n t) (hs : NodesText (n' :: ns) u) :
    NodesText (n :: n' :: ns) (t ++ ',' :: u)
/-- How cells are written behind each other. -/
inductive CellsText : List (List Node) → Str → Prop
  | nil : CellsText [] []
  | one {r t} (h : NodesText r t) : CellsText [r] ("{\"values\":[".toList ++ t ++ "]}".toList)
  | more {r t r' rs u} (h : NodesText r t) (hs : CellsText (r' :: rs) u) :
    CellsText (r :: r' :: rs) ("{\"values\":[".toList ++ t ++ "]},".toList ++ u)
end

/-- The text that is put on the clipboard. -/
def ClipText (nodes : List Node) (s : Str) : Prop :=
  ∃ t, NodesText nodes t ∧ s = "{\"version\":1,\"data\":[".toList ++ t ++ "]}".toList

end Aftermath
