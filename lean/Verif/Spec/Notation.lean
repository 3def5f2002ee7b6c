import Verif.Model.DefaultGrammar
import Verif.Spec.Path

/-! # The usual notation for formulas

Formulas as a mathematician thinks of them, how they are written down with as few brackets as
possible, and which syntax tree says the same. There is a formula for every rule of the shipped
parser. Nothing here uses the parser. -/

namespace Aftermath

/-- The infix operators. -/
inductive BinOp
  | equals | greater | less | greaterEq | lessEq | tuple
  | add | subtract | and | or | not | equivalent | implies
  | multiply | divide
  deriving DecidableEq, Repr

/-- The prefix operators. -/
inductive PreOp
  | plus | minus
  | sum | integral | lim | limSup | limInf
  deriving DecidableEq, Repr

/-- The postfix operators. -/
inductive PostOp
  | factorial | exponent
  deriving DecidableEq, Repr

/-- The constants. -/
inductive Constant
  | infinity | true | false
  deriving DecidableEq, Repr

/-- The two kinds of scripts. -/
inductive ScriptKind
  | sub | sup
  deriving DecidableEq, Repr

/-- A formula. Infix and prefix operators can have scripts, for example the limits of a sum: `n` of
them, which are of the kinds `ks` and contain the formulas `ss`. -/
inductive Formula
  | number (text : List Char)
  | variable (name : List Char)
  | constant (k : Constant)
  | string (text : List Char)
  | bin (o : BinOp) (n : Nat) (ks : Fin n → ScriptKind) (ss : Fin n → Formula) (a b : Formula)
  | pre (o : PreOp) (n : Nat) (ks : Fin n → ScriptKind) (ss : Fin n → Formula) (a : Formula)
  | post (o : PostOp) (a : Formula)
  /-- `a` with the script `b` -/
  | script (k : ScriptKind) (a b : Formula)
  | apply (f a : Formula)
  /-- a function of nothing -/
  | call (f : Formula)
  /-- nothing, in brackets -/
  | unit
  | fraction (a b : Formula)
  | root (a b : Formula)
  | table (width count : Nat) (cells : Fin count → Formula)

/-- How an infix operator is written. -/
def BinOp.char : BinOp → Char
  | equals => '=' | greater => '>' | less => '<' | greaterEq => '≥' | lessEq => '≤'
  | tuple => ','
  | add => '+' | subtract => '-'
  | and => '∧' | or => '∨' | not => '¬' | equivalent => '⇔' | implies => '⟹'
  | multiply => '*' | divide => '/'

/-- The name of an infix operator. -/
def BinOp.path : BinOp → String × String
  | equals => ("Comparison", "Equals") | greater => ("Comparison", "GreaterThan")
  | less => ("Comparison", "LessThan") | greaterEq => ("Comparison", "GreaterThanOrEquals")
  | lessEq => ("Comparison", "LessThanOrEquals")
  | tuple => ("Collections", "Tuple")
  | add => ("Arithmetic", "Add") | subtract => ("Arithmetic", "Subtract")
  | and => ("Logic", "And") | or => ("Logic", "Or") | not => ("Logic", "Not")
  | equivalent => ("Logic", "Equivalent") | implies => ("Logic", "Implies")
  | multiply => ("Arithmetic", "Multiply") | divide => ("Arithmetic", "Divide")

/-- How tightly an infix operator binds. -/
def BinOp.level : BinOp → Nat
  | equals => 1
  | greater | less | greaterEq | lessEq | tuple => 2
  | add | subtract | and | or | not | equivalent | implies => 3
  | multiply | divide => 4

/-- How a prefix operator is written. -/
def PreOp.text : PreOp → List Char
  | plus => ['+'] | minus => ['-']
  | sum => ['∑'] | integral => ['∫']
  | lim => ['l', 'i', 'm']
  | limSup => ['l', 'i', 'm', 's', 'u', 'p']
  | limInf => ['l', 'i', 'm', 'i', 'n', 'f']

/-- The name of a prefix operator. -/
def PreOp.path : PreOp → String × String
  | plus => ("Arithmetic", "Add") | minus => ("Arithmetic", "Subtract")
  | sum => ("Calculus", "Sum") | integral => ("Calculus", "Integral")
  | lim => ("Calculus", "Lim") | limSup => ("Calculus", "LimSup") | limInf => ("Calculus", "LimInf")

/-- How tightly a prefix operator binds. -/
def PreOp.level : PreOp → Nat
  | plus | minus => 5
  | sum | integral | lim | limSup | limInf => 3

/-- The container of a script. -/
def ScriptKind.variant : ScriptKind → Variant
  | sub => .sub
  | sup => .sup

/-- The name of a script. -/
def ScriptKind.path : ScriptKind → String × String
  | sub => ("BuiltIn", "Sub")
  | sup => ("BuiltIn", "Sup")

/-- How a postfix operator is written. -/
def PostOp.char : PostOp → Char
  | factorial => '!'
  | exponent => '^'

/-- The name of a postfix operator. -/
def PostOp.path : PostOp → String × String
  | factorial => ("Arithmetic", "Factorial")
  | exponent => ("Arithmetic", "Exponent")

/-- How a constant is written. -/
def Constant.char : Constant → Char
  | infinity => '∞'
  | true => '⊤'
  | false => '⊥'

/-- The name of a constant. -/
def Constant.path : Constant → String × String
  | infinity => ("Calculus", "Infinity")
  | true => ("Logic", "True")
  | false => ("Logic", "False")

/-- A symbol of one character. -/
def sy (c : Char) : Node := .symbol [c]

/-- Spaces. -/
def sp (k : Nat) : Row := List.replicate k (sy ' ')

/-- In round brackets. -/
def inBrackets (r : Row) : Row := sy '(' :: r ++ [sy ')']

/-- At least one digit. -/
def IsDigits (s : List Char) : Prop := s ≠ [] ∧ ∀ c ∈ s, c.isDigit = true

/-- Digits, or digits with a point between them. -/
inductive IsNumber : List Char → Prop
  | whole {s} : IsDigits s → IsNumber s
  | decimal {a b} : IsDigits a → IsDigits b → IsNumber (a ++ '.' :: b)

/-- The name of a variable. `lim` is the sign of an operator, also if more letters follow. -/
def IsName (x : Xid) (s : List Char) : Prop :=
  ∃ c cs, s = c :: cs ∧ x.start c = true ∧ (∀ d ∈ cs, x.continue_ d = true) ∧
    ¬ ['l', 'i', 'm'] <+: s

/-- How the text is written between quotes: quotes and backslashes must have a backslash in front,
other characters can have one. -/
inductive Escapes : List Char → List Char → Prop
  | nil : Escapes [] []
  | plain {c s t} : c ≠ '"' → c ≠ '\\' → Escapes s t → Escapes (c :: s) (c :: t)
  | escaped {c s t} : Escapes s t → Escapes (c :: s) ('\\' :: c :: t)

/-- One way to do so. -/
def escape : List Char → List Char
  | [] => []
  | c :: s => if c = '"' ∨ c = '\\' then '\\' :: c :: escape s else c :: escape s

/-- The row, which starts with the sign of the operator, starts with the sign of a longer one. -/
def PreOp.joins : PreOp → Row → Bool
  | .lim, r => (PreOp.limSup.text.map sy).isPrefixOf r || (PreOp.limInf.text.map sy).isPrefixOf r
  | _, _ => false

/-- The row is a way to write the sign of an operator with these scripts. Spaces can be put after the
sign and after each script. -/
inductive WritesOp (sign : List Char) : List (ScriptKind × Row) → Row → Prop
  | sign (j : Nat) : WritesOp sign [] (sign.map sy ++ sp j)
  | script {ss r k q} (j : Nat) : WritesOp sign ss r →
      WritesOp sign (ss ++ [(k, q)]) (r ++ .container k.variant [q] 1 :: sp j)

/-- The row is a way to write the formula between an operator of level `l` and one of level `r`. The
levels are: equality 1, comparisons and commas 2, sums and logic 3, products 4, signs 5, and 6 for
what comes after an operand; 0 is for no operator. Operators of the same level are read from left to
right. Brackets and spaces can be put around everything. -/
inductive Formula.Writes (x : Xid) : Formula → Nat → Nat → Row → Prop
  | number {l r s} : IsNumber s → Writes x (.number s) l r (s.map sy)
  | variable {l r s} : IsName x s → Writes x (.variable s) l r (s.map sy)
  | constant {l r} {k : Constant} : Writes x (.constant k) l r [sy k.char]
  | string {l r s t} : Escapes s t → Writes x (.string s) l r (sy '"' :: t.map sy ++ [sy '"'])
  | bin {l r a b p w q} {o : BinOp} {n} {ks : Fin n → ScriptKind} {ss : Fin n → Formula}
      {rows : Fin n → Row} : l < o.level → r ≤ o.level → Writes x a l o.level p →
      WritesOp [o.char] (List.ofFn fun i => (ks i, rows i)) w → (∀ i, Writes x (ss i) 0 0 (rows i)) →
      Writes x b o.level r q → Writes x (.bin o n ks ss a b) l r (p ++ (w ++ q))
  | pre {l r a w q} {o : PreOp} {n} {ks : Fin n → ScriptKind} {ss : Fin n → Formula}
      {rows : Fin n → Row} : r ≤ o.level →
      WritesOp o.text (List.ofFn fun i => (ks i, rows i)) w → (∀ i, Writes x (ss i) 0 0 (rows i)) →
      Writes x a o.level r q → o.joins (w ++ q) = false → Writes x (.pre o n ks ss a) l r (w ++ q)
  | post {l r a p} {o : PostOp} : Writes x a l 6 p → Writes x (.post o a) l r (p ++ [sy o.char])
  | script {l r a b p q} {k : ScriptKind} : Writes x a l 6 p → Writes x b 0 0 q →
      Writes x (.script k a b) l r (p ++ [.container k.variant [q] 1])
  | apply {l r a b p q} : Writes x a l 6 p → Writes x b 0 0 q →
      Writes x (.apply a b) l r (p ++ inBrackets q)
  | call {l r a p} : Writes x a l 6 p → Writes x (.call a) l r (p ++ inBrackets [])
  | unit {l r} : Writes x .unit l r (inBrackets [])
  | fraction {l r a b p q} : Writes x a 0 0 p → Writes x b 0 0 q →
      Writes x (.fraction a b) l r [.container .fraction [p, q] 1]
  | root {l r a b p q} : Writes x a 0 0 p → Writes x b 0 0 q →
      Writes x (.root a b) l r [.container .root [p, q] 2]
  | table {l r w n} {cells : Fin n → Formula} {rows : Fin n → Row} : 0 < w → 0 < n → n % w = 0 →
      (∀ i, Writes x (cells i) 0 0 (rows i)) →
      Writes x (.table w n cells) l r [.container .table (List.ofFn rows) w]
  | brackets {l r e p} : Writes x e 0 0 p → Writes x e l r (inBrackets p)
  | before {l r e p} : Writes x e l r p → Writes x e l r (sy ' ' :: p)
  | after {l r e p} : Writes x e l r p → Writes x e l r (p ++ [sy ' '])

/-- The sign of an operator with scripts. -/
def writeOp (sign : List Char) (ss : List (ScriptKind × Row)) : Row :=
  sign.map sy ++ ss.map fun s => .container s.1.variant [s.2] 1

/-- One way to write the formula between operators of these levels: without spaces and with as few
brackets as possible. -/
def Formula.write : Formula → Nat → Nat → Row
  | .number s, _, _ => s.map sy
  | .variable s, _, _ => s.map sy
  | .constant k, _, _ => [sy k.char]
  | .string s, _, _ => sy '"' :: (escape s).map sy ++ [sy '"']
  | .bin o _ ks ss a b, l, r =>
    let w := writeOp [o.char] (List.ofFn fun i => (ks i, (ss i).write 0 0))
    if l < o.level ∧ r ≤ o.level then a.write l o.level ++ (w ++ b.write o.level r)
    else inBrackets (a.write 0 o.level ++ (w ++ b.write o.level 0))
  | .pre o _ ks ss a, _, r =>
    let w := writeOp o.text (List.ofFn fun i => (ks i, (ss i).write 0 0))
    let rest (r : Nat) :=
      if o.joins (w ++ a.write o.level r) then inBrackets (a.write 0 0) else a.write o.level r
    if r ≤ o.level then w ++ rest r else inBrackets (w ++ rest 0)
  | .post o a, l, _ => a.write l 6 ++ [sy o.char]
  | .script k a b, l, _ => a.write l 6 ++ [.container k.variant [b.write 0 0] 1]
  | .apply f a, l, _ => f.write l 6 ++ inBrackets (a.write 0 0)
  | .call f, l, _ => f.write l 6 ++ inBrackets []
  | .unit, _, _ => inBrackets []
  | .fraction a b, _, _ => [.container .fraction [a.write 0 0, b.write 0 0] 1]
  | .root a b, _, _ => [.container .root [a.write 0 0, b.write 0 0] 2]
  | .table w _ cells, _, _ => [.container .table (List.ofFn fun i => (cells i).write 0 0) w]

/-- Numbers are made of digits, variables are names, and tables have full rows. -/
def Formula.Proper (x : Xid) : Formula → Prop
  | .number s => IsNumber s
  | .variable s => IsName x s
  | .constant _ | .string _ | .unit => True
  | .bin _ _ _ ss a b => (∀ i, (ss i).Proper x) ∧ a.Proper x ∧ b.Proper x
  | .pre _ _ _ ss a => (∀ i, (ss i).Proper x) ∧ a.Proper x
  | .script _ a b | .apply a b | .fraction a b | .root a b => a.Proper x ∧ b.Proper x
  | .post _ a | .call a => a.Proper x
  | .table w n cells => 0 < w ∧ 0 < n ∧ n % w = 0 ∧ ∀ i, (cells i).Proper x

/-- The name with this path has this number. -/
def IsNamed (m : NameMap) (p : String × String) (n : Nat) : Prop :=
  hashGet m.values [p.1.toList, p.2.toList] = some n

/-- The node is a number of spaces. -/
def IsSpace (m : NameMap) (t : SNode) : Prop :=
  ∃ k lo hi ty n, t = .leaf k lo hi ty (List.replicate n [' ']) ∧
    IsNamed m ("BuiltIn", "Whitespace") k

/-- The second node is the first one, with spaces before or after it or without. -/
inductive Spaced (m : NameMap) (t : SNode) : SNode → Prop
  | none : Spaced m t t
  | some {n lo hi cs before after} : IsNamed m ("BuiltIn", "Whitespaces") n →
      cs = before ++ t :: after → (∀ s ∈ before ++ after, IsSpace m s) →
      Spaced m t (.children n lo hi cs)

/-- The node is the sign `s` of an operator or a bracket. -/
def IsSign (m : NameMap) (s : List Char) (t : SNode) : Prop :=
  ∃ k lo hi ty, Spaced m (.leaf k lo hi ty [s]) t ∧ IsNamed m ("BuiltIn", "Operator") k

/-- The node is a script with one cell. -/
def IsScript (m : NameMap) (y t : SNode) : Prop :=
  ∃ k lo hi w, Spaced m (.newRows k lo hi [y] w) t ∧ IsNamed m ("BuiltIn", "Operator") k

/-- The node is the sign `s` of an operator with scripts, which contain these nodes. -/
inductive IsOp (m : NameMap) (s : List Char) : List (ScriptKind × SNode) → SNode → Prop
  | sign {t} : IsSign m s t → IsOp m s [] t
  | script {ss ss' k n lo hi y op t} : IsOp m s ss op → IsNamed m k.path n → IsScript m y t →
      ss' = ss ++ [(k, y)] → IsOp m s ss' (.children n lo hi [op, t])

/-- The syntax tree says what the formula says. Brackets and spaces say nothing. -/
inductive Conveys (m : NameMap) : SNode → Formula → Prop
  | number {n lo hi ty ss} {s : List Char} : IsNamed m ("Arithmetic", "Number") n →
      ss = (s.map fun c => [c]) → Conveys m (.leaf n lo hi ty ss) (.number s)
  | variable {n lo hi ty ss} {s : List Char} : IsNamed m ("Core", "Variable") n →
      ss = (s.map fun c => [c]) → Conveys m (.leaf n lo hi ty ss) (.variable s)
  | constant {n lo hi ty ss} {k : Constant} : IsNamed m k.path n → ss = [[k.char]] →
      Conveys m (.leaf n lo hi ty ss) (.constant k)
  | string {n lo hi ty ss} {s t : List Char} : IsNamed m ("String", "String") n → Escapes s t →
      ss = ['"'] :: (t.map fun c => [c]) ++ [['"']] → Conveys m (.leaf n lo hi ty ss) (.string s)
  | bin {n lo hi x op y} {o : BinOp} {k} {ks : Fin k → ScriptKind} {ss : Fin k → Formula}
      {ts : Fin k → SNode} {a b} : IsNamed m o.path n →
      IsOp m [o.char] (List.ofFn fun i => (ks i, ts i)) op → (∀ i, Conveys m (ts i) (ss i)) →
      Conveys m x a → Conveys m y b → Conveys m (.children n lo hi [x, op, y]) (.bin o k ks ss a b)
  | pre {n lo hi op x} {o : PreOp} {k} {ks : Fin k → ScriptKind} {ss : Fin k → Formula}
      {ts : Fin k → SNode} {a} : IsNamed m o.path n →
      IsOp m o.text (List.ofFn fun i => (ks i, ts i)) op → (∀ i, Conveys m (ts i) (ss i)) →
      Conveys m x a → Conveys m (.children n lo hi [op, x]) (.pre o k ks ss a)
  | post {n lo hi x op} {o : PostOp} {a} : IsNamed m o.path n → IsSign m [o.char] op →
      Conveys m x a → Conveys m (.children n lo hi [x, op]) (.post o a)
  | script {n lo hi x s y} {k : ScriptKind} {a b} : IsNamed m k.path n → IsScript m y s →
      Conveys m x a → Conveys m y b → Conveys m (.children n lo hi [x, s]) (.script k a b)
  | apply {n lo hi x k lo' hi' l y r s} {a b} : IsNamed m ("Function", "FunctionApplication") n →
      IsNamed m ("BuiltIn", "Operator") k → IsSign m ['('] l → IsSign m [')'] r →
      Spaced m (.children k lo' hi' [l, y, r]) s → Conveys m x a → Conveys m y b →
      Conveys m (.children n lo hi [x, s]) (.apply a b)
  | call {n lo hi x k lo' hi' l r s} {a} : IsNamed m ("Function", "FunctionApplication") n →
      IsNamed m ("BuiltIn", "Operator") k → IsSign m ['('] l → IsSign m [')'] r →
      Spaced m (.children k lo' hi' [l, r]) s → Conveys m x a →
      Conveys m (.children n lo hi [x, s]) (.call a)
  | unit {n lo hi l r} : IsNamed m ("Core", "RoundBrackets") n → IsSign m ['('] l →
      IsSign m [')'] r → Conveys m (.children n lo hi [l, r]) .unit
  | fraction {n lo hi x y w} {a b} : IsNamed m ("BuiltIn", "Fraction") n → Conveys m x a →
      Conveys m y b → Conveys m (.newRows n lo hi [x, y] w) (.fraction a b)
  | root {n lo hi x y w} {a b} : IsNamed m ("BuiltIn", "Root") n → Conveys m x a →
      Conveys m y b → Conveys m (.newRows n lo hi [x, y] w) (.root a b)
  | table {n lo hi w k ts} {cells : Fin k → Formula} {ts' : Fin k → SNode} :
      IsNamed m ("BuiltIn", "Table") n → ts = List.ofFn ts' → (∀ i, Conveys m (ts' i) (cells i)) →
      Conveys m (.newRows n lo hi ts w) (.table w k cells)
  | brackets {n lo hi l x r a} : IsNamed m ("Core", "RoundBrackets") n → IsSign m ['('] l →
      IsSign m [')'] r → Conveys m x a → Conveys m (.children n lo hi [l, x, r]) a
  | spaces {n lo hi cs before x after a} : IsNamed m ("BuiltIn", "Whitespaces") n →
      cs = before ++ x :: after → (∀ s ∈ before ++ after, IsSpace m s) → Conveys m x a →
      Conveys m (.children n lo hi cs) a

/-- Characters with a meaning of their own. -/
def reservedChars : List Char := "=<>≥≤,+-∧∨¬⇔⟹*/!^()∑∫∞⊤⊥ .\"".toList

/-- What is used of the tables of Unicode: letters are letters, digits cannot start a name, and the
characters with a meaning of their own cannot be part of a name. -/
structure Xid.Usual (x : Xid) : Prop where
  letters : ∀ c : Char, c.isAlpha = true → x.start c = true ∧ x.continue_ c = true
  digits : ∀ c : Char, c.isDigit = true → x.start c = false
  reserved : ∀ c ∈ reservedChars, x.start c = false ∧ x.continue_ c = false

/-- Every symbol, in the row and in all cells of containers, is a single character. -/
def PlainRow (root : Row) : Prop :=
  ∀ p r s, rowAt root p = some r → Node.symbol s ∈ r → ∃ c, s = [c]

end Aftermath
