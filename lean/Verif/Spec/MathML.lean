import Verif.Model.MathML

/-! # What MathML means, and which documents are read without complaint

Stated with the elements of the document only, not with the way `parsing.ts` goes through it. -/

namespace Aftermath

/-- The number of children an element must have, if that is fixed. -/
def Tag.arity : Tag → Option Nat
  | .mfrac | .mroot | .msub | .msup | .munder | .mover => some 2
  | .msubsup | .munderover => some 3
  | _ => none

/-- A table made of `mtr` made of `mtd`. -/
def Dom.Tabular (d : Dom) : Prop :=
  ∀ r ∈ d.children, r.tag = .mtr ∧ ∀ c ∈ r.children, c.tag = .mtd

/-- An `msub`, `msup` or `msubsup` without children. -/
def Dom.BareScript (d : Dom) : Prop :=
  (d.tag = .msub ∨ d.tag = .msup ∨ d.tag = .msubsup) ∧ d.children = []

/-- `Complains d e`: the element itself, whatever is inside, gives the error `e`. -/
inductive Dom.Complains : Dom → ImportError → Prop
  | arity {d n} : d.tag.arity = some n → d.children.length ≠ n →
      Complains d (.expectedChildren n d.tag)
  | table {d} : d.tag = .mtable → ¬d.Tabular → Complains d .unexpectedChildren
  | semantics {d} : d.tag = .semantics → d.children = [] → Complains d (.unknownElement .semantics)
  | mtr {d} : d.tag = .mtr → Complains d (.unknownElement .mtr)
  | other {d name} : d.tag = .other name → Complains d (.unknownElement (.other name))

/-- `LooksAt d c`: the element `c` directly inside `d` (inside a row of `d`, for tables) is looked
at when `d` is read. -/
inductive Dom.LooksAt : Dom → Dom → Prop
  | group {d c} : d.tag = .math ∨ d.tag = .mrow ∨ d.tag = .mtd ∨ d.tag = .msqrt →
      c ∈ d.children → LooksAt d c
  | semantics {d c} : d.tag = .semantics → d.children[0]? = some c → LooksAt d c
  | fixed {d n c} : d.tag.arity = some n → d.children.length = n → c ∈ d.children → LooksAt d c
  | base {d c} : d.tag = .msub ∨ d.tag = .msup ∨ d.tag = .msubsup → d.children[0]? = some c →
      LooksAt d c
  | cell {d r c} : d.tag = .mtable → d.Tabular → r ∈ d.children → c ∈ r.children → LooksAt d c

/-- `Reads d c`: reading `d` gets to `c`. -/
inductive Dom.Reads : Dom → Dom → Prop
  | refl (d : Dom) : Reads d d
  | step {d c c'} : LooksAt d c → Reads c c' → Reads d c'

/-- A table of `mtr` of `mtd` in which there is no `mtd`. -/
def Dom.EmptyTable (d : Dom) : Prop :=
  d.tag = .mtable ∧ d.Tabular ∧ ∀ r ∈ d.children, r.children = []

mutual
/-- `Means b d r`: the meaning of the element `d` is the row `r`. There is no meaning for an element
with the wrong number of children or for an unknown element. -/
inductive Means (b : Browser) : Dom → Row → Prop
  /-- one after the other -/
  | group {t text cs rs} : t = .math ∨ t = .mrow ∨ t = .mtd → MeansAll b cs rs →
      Means b (.elem t text cs) rs.flatten
  /-- only the first child counts -/
  | semantics {text c cs r} : Means b c r → Means b (.elem .semantics text (c :: cs)) r
  /-- text in quotation marks -/
  | text {t text cs} : t = .mtext ∨ t = .ms →
      Means b (.elem t text cs) ([.symbol (b.nfd ['"'])] ++
        (b.split (b.trim text)).map (fun s => .symbol (b.nfd s)) ++ [.symbol (b.nfd ['"'])])
  /-- a symbol for each grapheme -/
  | token {t text cs} : t = .mi ∨ t = .mn ∨ t = .mo →
      Means b (.elem t text cs) ((b.split (b.trim text)).map fun s => .symbol (b.nfd s))
  /-- numerator, denominator -/
  | frac {text x y rx ry} : Means b x rx → Means b y ry →
      Means b (.elem .mfrac text [x, y]) [.container .fraction [rx, ry] 1]
  /-- the root with index 2 -/
  | sqrt {text cs rs} : MeansAll b cs rs →
      Means b (.elem .msqrt text cs) [.container .root [[.symbol (b.nfd ['2'])], rs.flatten] 2]
  /-- radicand, index -/
  | root {text x y rx ry} : Means b x rx → Means b y ry →
      Means b (.elem .mroot text [x, y]) [.container .root [ry, rx] 2]
  /-- base, lower script -/
  | sub {t text x y rx ry} : t = .msub ∨ t = .munder → Means b x rx → Means b y ry →
      Means b (.elem t text [x, y]) (rx ++ [.container .sub [ry] 1])
  /-- base, upper script -/
  | sup {t text x y rx ry} : t = .msup ∨ t = .mover → Means b x rx → Means b y ry →
      Means b (.elem t text [x, y]) (rx ++ [.container .sup [ry] 1])
  /-- base, lower script, upper script -/
  | subsup {t text x y z rx ry rz} : t = .msubsup ∨ t = .munderover →
      Means b x rx → Means b y ry → Means b z rz →
      Means b (.elem t text [x, y, z])
        (rx ++ [.container .sub [ry] 1, .container .sup [rz] 1])
  /-- The table has as many columns as its longest row; shorter rows end with empty cells. -/
  | table {text rows w cells} : MeansRows b rows cells →
      (∀ r ∈ rows, r.children.length ≤ w) → (rows = [] → w = 0) →
      (rows ≠ [] → ∃ r ∈ rows, r.children.length = w) →
      Means b (.elem .mtable text rows) [.container .table
        (cells.flatMap fun l => l ++ List.replicate (w - l.length) []) w]
  /-- not looked at -/
  | style {text cs} : Means b (.elem .mstyle text cs) []
/-- One meaning for each element. -/
inductive MeansAll (b : Browser) : List Dom → List Row → Prop
  | nil : MeansAll b [] []
  | cons {d ds r rs} : Means b d r → MeansAll b ds rs → MeansAll b (d :: ds) (r :: rs)
/-- One list of cells for each row of a table. -/
inductive MeansRows (b : Browser) : List Dom → List (List Row) → Prop
  | nil : MeansRows b [] []
  | cons {text cs rs ds rss} : (∀ c ∈ cs, c.tag = .mtd) → MeansAll b cs rs → MeansRows b ds rss →
      MeansRows b (.elem .mtr text cs :: ds) (rs :: rss)
end

end Aftermath
