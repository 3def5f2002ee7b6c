import Verif.Proof.ReadableSplit
import Verif.Props.NotationConverse

/-! # C112: precedence decides what a formula means, not whether it can be read -/

namespace Aftermath

variable {x : Xid} {g : Grammar} {m : NameMap}

/-- **C112**, the notation: a row that is made of operands and operators is a way to write a formula. -/
theorem C112_written {row : Row} : Readable x row ↔ ∃ e : Formula, e.Writes x 0 0 row := readable_iff

/-- **C112.** A row is read without errors exactly if it is made of operands and operators, in whatever
order the operators bind. -/
theorem C112 (hx : x.Usual) (h : createParser x = .ok (g, m)) {row : Row} {t : SNode}
    (hw : rowWf row = true) (hpl : PlainRow row) (ht : g.parse row = .ok t) :
    ErrorFree g t ↔ Readable x row := by
  obtain ⟨g', m', h', hp⟩ := C78 x hx
  cases h.symm.trans h'
  obtain ⟨t', ht', h1, -⟩ := hp row hw hpl
  cases ht.symm.trans ht'
  rw [h1, readable_iff]

/-- **C112.** Two formulas without errors and an infix operator between them are a formula without
errors; so is a formula without errors with a postfix operator, a script or an argument behind it. No
brackets are needed. -/
theorem C112_join (hx : x.Usual) (h : createParser x = .ok (g, m)) {p q row : Row} {t t' T : SNode}
    (hwp : rowWf p = true) (hpp : PlainRow p) (htp : g.parse p = .ok t) (hep : ErrorFree g t)
    (hwq : rowWf q = true) (hpq : PlainRow q) (htq : g.parse q = .ok t') (heq : ErrorFree g t')
    (hrow : (∃ o : BinOp, row = p ++ sy o.char :: q) ∨ (∃ o : PostOp, row = p ++ [sy o.char]) ∨
      (∃ k : ScriptKind, row = p ++ [.container k.variant [q] 1]) ∨ row = p ++ inBrackets q)
    (hw : rowWf row = true) (hpl : PlainRow row) (ht : g.parse row = .ok T) : ErrorFree g T := by
  have hp := (C112 hx h hwp hpp htp).1 hep
  have hq := (C112 hx h hwq hpq htq).1 heq
  rw [C112 hx h hw hpl ht]
  rcases hrow with ⟨o, rfl⟩ | ⟨o, rfl⟩ | ⟨k, rfl⟩ | rfl
  · exact .bin (n := 0) (ks := Fin.elim0) (rows := Fin.elim0) hp (.sign 0) nofun hq
  · exact .post hp
  · exact .script hp hq
  · exact .apply hp hq

/-- **C112.** An infix operator that is no prefix operator splits a formula: the row is read without
errors exactly if both sides are. The operator must not be in brackets or in quotes, and it has no
script. -/
theorem C112_split (hx : x.Usual) (h : createParser x = .ok (g, m)) {o : BinOp}
    (ho : o ≠ .add ∧ o ≠ .subtract) {p q : Row} {t t' T : SNode} (hb : Balanced 0 p)
    (hs : ∀ (j : Nat) (k : ScriptKind) (cell r : Row), q ≠ sp j ++ .container k.variant [cell] 1 :: r)
    (hwp : rowWf p = true) (hpp : PlainRow p) (htp : g.parse p = .ok t)
    (hwq : rowWf q = true) (hpq : PlainRow q) (htq : g.parse q = .ok t')
    (hw : rowWf (p ++ sy o.char :: q) = true) (hpl : PlainRow (p ++ sy o.char :: q))
    (ht : g.parse (p ++ sy o.char :: q) = .ok T) : ErrorFree g T ↔ ErrorFree g t ∧ ErrorFree g t' := by
  rw [C112 hx h hwp hpp htp, C112 hx h hwq hpq htq, C112 hx h hw hpl ht]
  constructor
  · intro hr
    obtain ⟨h1, h2⟩ := readable_divides hx ho hr p q rfl hb
    exact ⟨h1, h2.plain hs⟩
  · rintro ⟨h1, h2⟩
    exact .bin (n := 0) (ks := Fin.elim0) (rows := Fin.elim0) h1 (.sign 0) nofun h2

/-- **C112.** With scripts at the operator it is the same: what is before it is read without errors,
and so is what comes after the scripts. -/
theorem C112_scripts (hx : x.Usual) (h : createParser x = .ok (g, m)) {o : BinOp}
    (ho : o ≠ .add ∧ o ≠ .subtract) {p q : Row} {T : SNode} (hb : Balanced 0 p)
    (hw : rowWf (p ++ sy o.char :: q) = true) (hpl : PlainRow (p ++ sy o.char :: q))
    (ht : g.parse (p ++ sy o.char :: q) = .ok T) : ErrorFree g T ↔ Readable x p ∧
      ∃ (n : Nat) (ks : Fin n → ScriptKind) (rows : Fin n → Row) (w q' : Row),
        sy o.char :: q = w ++ q' ∧ WritesOp [o.char] (List.ofFn fun i => (ks i, rows i)) w ∧
        (∀ i, Readable x (rows i)) ∧ Readable x q' := by
  rw [C112 hx h hw hpl ht]
  constructor
  · exact fun hr => readable_divides hx ho hr p q rfl hb
  · rintro ⟨h1, n, ks, rows, w, q', h2, h3, h4, h5⟩
    rw [h2]
    exact .bin h1 h3 h4 h5

/-- **C112** on the page: a formula is shown without marks for errors or for something missing exactly
if it is made of operands and operators. -/
theorem C112_shown (hx : x.Usual) {row : Row} {e : RElem} (hs : Shown x row e) (hpl : PlainRow row) :
    (eltsCount (fun _ marked => marked) e.elements = 0 ∧
      eltsCount (fun tag _ => tag == .other "merror".toList) e.elements = 0) ↔ Readable x row := by
  rw [C78_shown hx hs hpl, readable_iff]

/-! ## Examples -/

theorem readsText_readable (s : String) : readsText s = true ↔ Readable letterXid (rowOf s) := by
  rw [readsText_iff, readable_iff]

/-- `a=b` and `∑c>d`, joined by the tighter `*`, are read without errors, and the postfix `!` can be put
behind `a=b`. One part that is not read is enough for the whole. A `+` can be a prefix of what follows:
`a*+b` is read and `a*` is not. -/
example : Readable letterXid (rowOf "a=b") ∧ Readable letterXid (rowOf "∑c>d") ∧
    Readable letterXid (rowOf "a=b*∑c>d") ∧ Readable letterXid (rowOf "a=b!") ∧
    ¬ Readable letterXid (rowOf "a,*b") ∧ ¬ Readable letterXid (rowOf "a,") ∧
    Readable letterXid (rowOf "a*+b") ∧ ¬ Readable letterXid (rowOf "a*") := by
  simp only [← readsText_readable]
  decide +kernel

/-- Without an operator between them it is different. -/
example : Readable letterXid (rowOf "a") ∧ Readable letterXid (rowOf "1") ∧ Readable letterXid (rowOf "a+1") ∧
    ¬ Readable letterXid (rowOf "1a") := by
  simp only [← readsText_readable]
  decide +kernel

/-- The theorem at work: nothing that ends with `=` is a formula. -/
example (hx : x.Usual) {p : Row} (hb : Balanced 0 p) : ¬ Readable x (p ++ [sy '=']) := by
  intro h
  obtain ⟨-, h1⟩ := readable_divides hx (o := .equals) ⟨by decide, by decide⟩ h p [] rfl hb
  have h2 := h1.plain (q := []) (by intro j k cell r h; simp at h)
  exact h2.ne_nil rfl

end Aftermath
