import Verif.Proof.Loosest
import Verif.Props.NotationConverse
import Verif.Props.Notation

/-! # C116: what a sign in front of a formula or behind it applies to -/

namespace Aftermath

variable {x : Xid} {g : Grammar} {m : NameMap}

/-- The row is read without errors, and the formula is its only meaning. -/
private def OnlyMeans (g : Grammar) (m : NameMap) (row : Row) (e : Formula) : Prop :=
  ∃ t, g.parse row = .ok t ∧ ErrorFree g t ∧ ∀ e', Conveys m t e' ↔ e' = e

private theorem onlyMeans (hx : x.Usual) (h : createParser x = .ok (g, m)) {row : Row} {e : Formula}
    (he : e.Writes x 0 0 row) : OnlyMeans g m row e := by
  obtain ⟨g', m', h', hr⟩ := C69 x hx
  cases h.symm.trans h'
  obtain ⟨t, h1, h2, h3⟩ := hr e row he
  refine ⟨t, h1, conveys_errorFree (createParser_std hx.toLetters h) h2, fun e' => ⟨h3 e', ?_⟩⟩
  rintro rfl
  exact h2

private theorem read_back (hx : x.Usual) (h : createParser x = .ok (g, m)) {row : Row} {t : SNode} {e : Formula}
    (hw : rowWf row = true) (hp : PlainRow row) (ht : g.parse row = .ok t) (he : Conveys m t e) :
    e.Writes x 0 0 row := by
  obtain ⟨g', m', h', hc⟩ := C78 x hx
  cases h.symm.trans h'
  obtain ⟨t', h1, -, h3⟩ := hc row hw hp
  cases ht.symm.trans h1
  exact (h3 e).1 he

/-- A row without operators outside of brackets and quotes is a single operand, which is written alike between any
operators. -/
theorem C116_operand (hx : x.Usual) {e : Formula} {p : Row} (he : e.Writes x 0 0 p) (hp : AsTight x 6 p)
    (l : Nat) : e.Writes x l 6 p := by
  refine writes_tighter hx (writes_asTight hx he hp) fun o a b hab hb hr => ?_
  have := hp.bin o a b hab hb hr
  have : o.level ≤ 4 := by cases o <;> decide
  omega

/-- **C116**, in front: a prefix operator applies to the whole row behind it, if all infix operators
outside of brackets and quotes in the row bind more tightly. (The signs `limsup` and `liminf` are not
`lim` and a name.) -/
theorem C116_prefix (hx : x.Usual) (h : createParser x = .ok (g, m)) {o : PreOp} {q : Row} {t : SNode}
    {e : Formula} (hw : rowWf q = true) (hp : PlainRow q) (ht : g.parse q = .ok t) (he : Conveys m t e)
    (hq : Tighter x o.level q) (hj : o.joins (o.text.map sy ++ q) = false) :
    ∃ T, g.parse (o.text.map sy ++ q) = .ok T ∧ ErrorFree g T ∧
      ∀ e', Conveys m T e' ↔ e' = .pre o 0 Fin.elim0 Fin.elim0 e := by
  have hws : WritesOp o.text (List.ofFn fun i : Fin 0 => ((Fin.elim0 i : ScriptKind), (Fin.elim0 i : Row)))
      (o.text.map sy) := by
    have := WritesOp.sign (sign := o.text) 0
    simpa [sp] using this
  exact onlyMeans hx h (.pre (rows := Fin.elim0) (Nat.zero_le _) hws nofun
    (writes_tighter hx (read_back hx h hw hp ht he) hq) hj)

/-- **C116**, behind: a postfix operator, a script, brackets with a formula and empty brackets apply to
the whole row before them, if there are no operators outside of brackets and quotes in it. -/
theorem C116_postfix (hx : x.Usual) (h : createParser x = .ok (g, m)) {p q : Row} {t t' : SNode}
    {e f : Formula} (hw : rowWf p = true) (hp : PlainRow p) (ht : g.parse p = .ok t) (he : Conveys m t e)
    (hs : AsTight x 6 p) (hw' : rowWf q = true) (hp' : PlainRow q) (ht' : g.parse q = .ok t')
    (hf : Conveys m t' f) :
    (∀ o : PostOp, ∃ T, g.parse (p ++ [sy o.char]) = .ok T ∧ ErrorFree g T ∧
      ∀ e', Conveys m T e' ↔ e' = .post o e) ∧
    (∀ k : ScriptKind, ∃ T, g.parse (p ++ [.container k.variant [q] 1]) = .ok T ∧ ErrorFree g T ∧
      ∀ e', Conveys m T e' ↔ e' = .script k e f) ∧
    (∃ T, g.parse (p ++ inBrackets q) = .ok T ∧ ErrorFree g T ∧ ∀ e', Conveys m T e' ↔ e' = .apply e f) ∧
    ∃ T, g.parse (p ++ inBrackets []) = .ok T ∧ ErrorFree g T ∧ ∀ e', Conveys m T e' ↔ e' = .call e := by
  have h1 := C116_operand hx (read_back hx h hw hp ht he) hs 0
  have h2 := read_back hx h hw' hp' ht' hf
  exact ⟨fun o => onlyMeans hx h (.post h1), fun k => onlyMeans hx h (.script h1 h2), onlyMeans hx h (.apply h1 h2),
    onlyMeans hx h (.call h1)⟩

/-- **C116.** Behind an infix operator they apply only to the operand on the right of it, whichever
operator it is. So postfix operators, scripts and arguments bind more tightly than all infix operators. -/
theorem C116 (hx : x.Usual) (h : createParser x = .ok (g, m)) {o : BinOp} {u p q : Row} {t t' t'' : SNode}
    {d e f : Formula} (hwu : rowWf u = true) (hpu : PlainRow u) (htu : g.parse u = .ok t'')
    (hd : Conveys m t'' d) (hu : AsTight x o.level u)
    (hw : rowWf p = true) (hp : PlainRow p) (ht : g.parse p = .ok t) (he : Conveys m t e)
    (hs : AsTight x 6 p) (hw' : rowWf q = true) (hp' : PlainRow q) (ht' : g.parse q = .ok t')
    (hf : Conveys m t' f) :
    (∀ s : PostOp, ∃ T, g.parse (u ++ sy o.char :: (p ++ [sy s.char])) = .ok T ∧ ErrorFree g T ∧
      ∀ e', Conveys m T e' ↔ e' = .bin o 0 Fin.elim0 Fin.elim0 d (.post s e)) ∧
    (∀ k : ScriptKind, ∃ T, g.parse (u ++ sy o.char :: (p ++ [.container k.variant [q] 1])) = .ok T ∧
      ErrorFree g T ∧ ∀ e', Conveys m T e' ↔ e' = .bin o 0 Fin.elim0 Fin.elim0 d (.script k e f)) ∧
    (∃ T, g.parse (u ++ sy o.char :: (p ++ inBrackets q)) = .ok T ∧ ErrorFree g T ∧
      ∀ e', Conveys m T e' ↔ e' = .bin o 0 Fin.elim0 Fin.elim0 d (.apply e f)) ∧
    ∃ T, g.parse (u ++ sy o.char :: (p ++ inBrackets [])) = .ok T ∧ ErrorFree g T ∧
      ∀ e', Conveys m T e' ↔ e' = .bin o 0 Fin.elim0 Fin.elim0 d (.call e) := by
  have h1 := C116_operand hx (read_back hx h hw hp ht he) hs o.level
  have h2 := read_back hx h hw' hp' ht' hf
  have h3 := writes_asTight hx (read_back hx h hwu hpu htu hd) hu
  have key : ∀ {e' : Formula} {p' : Row}, e'.Writes x o.level 0 p' →
      OnlyMeans g m (u ++ sy o.char :: p') (.bin o 0 Fin.elim0 Fin.elim0 d e') := by
    intro e' p' h'
    exact onlyMeans hx h (.bin (rows := Fin.elim0) (by cases o <;> decide) (Nat.zero_le _) h3 (.sign 0) nofun h')
  exact ⟨fun o => key (.post h1), fun k => key (.script h1 h2), key (.apply h1 h2), key (.call h1)⟩

/-! ## Examples -/

private abbrev v (c : Char) : Formula := .variable [c]

private theorem letter {c : Char} (h : letterXid.start c = true) : (v c).Writes letterXid 0 0 [sy c] :=
  .variable ⟨c, [], rfl, h, nofun, by simp⟩

/-- The row `a` is a single operand, and `a+b` is not. So `a!` is the factorial of `a`, and `a+b!` is not
the one of `a+b`. -/
example : AsTight letterXid 6 (rowOf "a") ∧ ¬ AsTight letterXid 6 (rowOf "a+b") := by
  constructor
  · refine ⟨fun o p q he _ _ => ?_, fun o p q he _ => ?_⟩
    · have hm : sy o.char ∈ rowOf "a" := by rw [he]; simp
      revert hm
      cases o <;> decide
    · have hm : ∀ n ∈ o.text.map sy, n ∈ rowOf "a" := by
        intro n hn
        rw [he]
        simp only [List.mem_append]
        exact .inr (.inl hn)
      revert hm
      cases o <;> decide
  · intro h
    have := h.bin .add [sy 'a'] [sy 'b'] (by decide +kernel)
      (.other (by decide) (by decide) (by decide) .nil) (readable_of_writes (letter (by decide +kernel)))
    exact absurd this (by decide)

/-- In brackets there can be anything: `(a+b)` is a single operand as well, written between any operators. -/
example (l : Nat) : (Formula.bin .add 0 Fin.elim0 Fin.elim0 (v 'a') (v 'b')).Writes letterXid l 6
    (inBrackets ([sy 'a'] ++ ([sy '+'] ++ [sy 'b']))) :=
  .brackets (.bin (o := .add) (rows := Fin.elim0) (by decide) (by decide)
    (.variable ⟨'a', [], rfl, by decide +kernel, nofun, by simp⟩) (.sign 0) nofun
    (.variable ⟨'b', [], rfl, by decide +kernel, nofun, by simp⟩))

/-- A sign in front of a sum is only for the first summand, but a `∑` in front of a product is for the
whole product. -/
example : ¬ Tighter letterXid PreOp.minus.level (rowOf "a+b") ∧ Tighter letterXid PreOp.sum.level (rowOf "a*b") := by
  constructor
  · intro h
    have := h .add [sy 'a'] [sy 'b'] (by decide +kernel) (.other (by decide) (by decide) (by decide) .nil)
      (readable_of_writes (letter (by decide +kernel)))
    exact absurd this (by decide)
  · intro o p q he _ _
    have hm : sy o.char ∈ rowOf "a*b" := by rw [he]; simp
    revert hm
    cases o <;> decide

end Aftermath
