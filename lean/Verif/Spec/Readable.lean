import Verif.Spec.Notation

/-! # Formulas without a notion of precedence

Which rows are made of operands and operators, without saying which operator binds tighter. Nothing
here uses the parser. -/

namespace Aftermath

/-- The row is made of operands and operators. A row of this kind can be the operand of every operator,
on every side. -/
inductive Readable (x : Xid) : Row → Prop
  | number {s} : IsNumber s → Readable x (s.map sy)
  | variable {s} : IsName x s → Readable x (s.map sy)
  | constant {k : Constant} : Readable x [sy k.char]
  | string {s t} : Escapes s t → Readable x (sy '"' :: t.map sy ++ [sy '"'])
  | bin {p w q} {o : BinOp} {n} {ks : Fin n → ScriptKind} {rows : Fin n → Row} : Readable x p →
      WritesOp [o.char] (List.ofFn fun i => (ks i, rows i)) w → (∀ i, Readable x (rows i)) →
      Readable x q → Readable x (p ++ (w ++ q))
  | pre {w q} {o : PreOp} {n} {ks : Fin n → ScriptKind} {rows : Fin n → Row} :
      WritesOp o.text (List.ofFn fun i => (ks i, rows i)) w → (∀ i, Readable x (rows i)) →
      Readable x q → o.joins (w ++ q) = false → Readable x (w ++ q)
  | post {p} {o : PostOp} : Readable x p → Readable x (p ++ [sy o.char])
  | script {p q} {k : ScriptKind} : Readable x p → Readable x q →
      Readable x (p ++ [.container k.variant [q] 1])
  | apply {p q} : Readable x p → Readable x q → Readable x (p ++ inBrackets q)
  | call {p} : Readable x p → Readable x (p ++ inBrackets [])
  | unit : Readable x (inBrackets [])
  | fraction {p q} : Readable x p → Readable x q → Readable x [.container .fraction [p, q] 1]
  | root {p q} : Readable x p → Readable x q → Readable x [.container .root [p, q] 2]
  | table {w n} {rows : Fin n → Row} : 0 < w → 0 < n → n % w = 0 → (∀ i, Readable x (rows i)) →
      Readable x [.container .table (List.ofFn rows) w]
  | brackets {p} : Readable x p → Readable x (inBrackets p)
  | before {p} : Readable x p → Readable x (sy ' ' :: p)
  | after {p} : Readable x p → Readable x (p ++ [sy ' '])

end Aftermath
