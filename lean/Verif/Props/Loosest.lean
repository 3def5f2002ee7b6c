import Verif.Proof.Loosest
import Verif.Props.NotationConverse
import Verif.Props.Notation

/-! # C113: a formula is read at its loosest operator -/

namespace Aftermath

variable {x : Xid} {g : Grammar} {m : NameMap}

/-- **C113**, the notation, also for operators with scripts. -/
theorem C113_written (hx : x.Usual) {o : BinOp} {p w q : Row} {e f : Formula} {n : Nat}
    {ks : Fin n → ScriptKind} {ss : Fin n → Formula} {rows : Fin n → Row} (he : e.Writes x 0 0 p)
    (hw : WritesOp [o.char] (List.ofFn fun i => (ks i, rows i)) w)
    (hs : ∀ i, (ss i).Writes x 0 0 (rows i)) (hf : f.Writes x 0 0 q) (hp : AsTight x o.level p)
    (hq : Tighter x o.level q) : (Formula.bin o n ks ss e f).Writes x 0 0 (p ++ (w ++ q)) :=
  .bin (by cases o <;> decide) (Nat.zero_le _) (writes_asTight hx he hp) hw hs (writes_tighter hx hf hq)

/-- **C113.** Two rows have a meaning, and there is an infix operator between them. If the operators of
the left row do not bind less tightly, and the infix operators of the right row bind more tightly, then
the meaning of the whole is the operator applied to the meanings of the two rows. Only operators outside
of brackets and quotes count. -/
theorem C113 (hx : x.Usual) (h : createParser x = .ok (g, m)) {o : BinOp} {p q : Row} {e f : Formula}
    {t t' : SNode} (hwp : rowWf p = true) (hpp : PlainRow p) (htp : g.parse p = .ok t)
    (he : Conveys m t e) (hwq : rowWf q = true) (hpq : PlainRow q) (htq : g.parse q = .ok t')
    (hf : Conveys m t' f) (hp : AsTight x o.level p) (hq : Tighter x o.level q) :
    ∃ T, g.parse (p ++ sy o.char :: q) = .ok T ∧ ErrorFree g T ∧
      ∀ e', Conveys m T e' ↔ e' = .bin o 0 Fin.elim0 Fin.elim0 e f := by
  obtain ⟨g', m', h', hc⟩ := C78 x hx
  cases h.symm.trans h'
  obtain ⟨g', m', h', hr⟩ := C69 x hx
  cases h.symm.trans h'
  have back : ∀ {row t e}, rowWf row = true → PlainRow row → g.parse row = .ok t → Conveys m t e →
      e.Writes x 0 0 row := by
    intro row t e hw hpl ht hce
    obtain ⟨t', ht', -, h1⟩ := hc row hw hpl
    cases ht.symm.trans ht'
    exact (h1 e).1 hce
  obtain ⟨T, h1, h2, h3⟩ := hr _ _ (C113_written hx (n := 0) (ks := Fin.elim0) (ss := Fin.elim0)
    (rows := Fin.elim0) (back hwp hpp htp he) (.sign 0) nofun (back hwq hpq htq hf) hp hq)
  refine ⟨T, h1, conveys_errorFree (createParser_std hx.toLetters h) h2, fun e' => ⟨h3 e', ?_⟩⟩
  rintro rfl
  exact h2

/-- **C113** for equalities: they are the loosest operators. So an equation is read as the equality of
its two sides, whatever stands on the left, if there is no second `=` on the right. -/
theorem C113_equals (hx : x.Usual) (h : createParser x = .ok (g, m)) {p q : Row} {e f : Formula}
    {t t' : SNode} (hwp : rowWf p = true) (hpp : PlainRow p) (htp : g.parse p = .ok t)
    (he : Conveys m t e) (hwq : rowWf q = true) (hpq : PlainRow q) (htq : g.parse q = .ok t')
    (hf : Conveys m t' f)
    (hq : ∀ a b, q = a ++ sy '=' :: b → ¬ Balanced 0 a) :
    ∃ T, g.parse (p ++ sy '=' :: q) = .ok T ∧ ErrorFree g T ∧
      ∀ e', Conveys m T e' ↔ e' = .bin .equals 0 Fin.elim0 Fin.elim0 e f := by
  refine C113 hx h (o := .equals) hwp hpp htp he hwq hpq htq hf (asTight_one p) ?_
  intro o a b hab hb _
  cases o with
  | equals => exact absurd hb (hq a b hab)
  | _ => decide

/-! ## Examples -/

/-- `a-b-c` is `(a-b)-c`: the second `-` is the one at which it is read. The right row must not have an
operator of the same level, as `a-(b-c)` would be something else. -/
example : AsTight letterXid 3 (rowOf "a-b") ∧ ¬ Tighter letterXid 3 (rowOf "b-c") := by
  constructor
  · refine asTight_of_bin (by omega) fun o p q he _ _ => ?_
    have hm : sy o.char ∈ rowOf "a-b" := by rw [he]; simp
    revert hm
    cases o <;> decide
  · intro h
    have h1 : (Formula.variable ['b']).Writes letterXid 0 0 [sy 'b'] :=
      .variable ⟨'b', [], rfl, by decide +kernel, nofun, by decide⟩
    have := h .subtract [sy 'b'] [sy 'c'] (by decide +kernel)
      (.other (by decide) (by decide) (by decide) .nil) (readable_of_writes h1)
    exact absurd this (by decide)

/-- A sum on the left of a product takes what follows: `∑a*b` is the sum of `a*b`, although the infix
operators in `∑a` are all tight. -/
example : ¬ AsTight letterXid BinOp.multiply.level (rowOf "∑a") ∧
    (∃ e : Formula, e.Writes letterXid 0 0 (rowOf "∑a*b")) := by
  constructor
  · intro h
    have := h.pre .sum [] [sy 'a'] (by decide +kernel) .nil
    exact absurd this (by decide)
  · rw [← readsText_iff]
    decide +kernel

/-- The theorem at work: `a-b-c` and the equation `a-b=c`, with any names of one letter. -/
example (hx : x.Usual) {a b c : Char} (ha : x.start a = true) (hb : x.start b = true)
    (hc : x.start c = true) :
    (Formula.bin .equals 0 Fin.elim0 Fin.elim0
      (.bin .subtract 0 Fin.elim0 Fin.elim0 (.variable [a]) (.variable [b])) (.variable [c])).Writes x 0 0
        [sy a, sy '-', sy b, sy '=', sy c] := by
  have hv : ∀ {d : Char}, x.start d = true → (Formula.variable [d]).Writes x 0 0 [sy d] := fun {d} hd =>
    .variable ⟨d, [], rfl, hd, nofun, by simp⟩
  have hn : ∀ {d : Char} {k : Nat}, x.start d = true → Tighter x k [sy d] ∧ ∀ o : BinOp, sy o.char ≠ sy d := by
    intro d k hd
    have key : ∀ o : BinOp, sy o.char ≠ sy d := by
      intro o h
      have h1 : o.char = d := by simpa [sy] using h
      have := (hx.reserved _ o.char_reserved).1
      rw [h1, hd] at this
      cases this
    refine ⟨fun o p q he _ _ => ?_, key⟩
    have : sy o.char ∈ [sy d] := by rw [he]; simp
    exact absurd (List.mem_singleton.1 this) (key o)
  have h1 := C113_written hx (o := .subtract) (n := 0) (ks := Fin.elim0) (ss := Fin.elim0)
    (rows := Fin.elim0) (hv ha) (.sign 0) nofun (hv hb) (asTight_of_bin (by decide) fun o p q he _ _ => by
      have : sy o.char ∈ [sy a] := by rw [he]; simp
      exact absurd (List.mem_singleton.1 this) ((hn (k := 0) ha).2 o)) (hn hb).1
  exact C113_written hx (o := .equals) (n := 0) (ks := Fin.elim0) (ss := Fin.elim0)
    (rows := Fin.elim0) h1 (.sign 0) nofun (hv hc) (asTight_one _) (hn hc).1

end Aftermath
