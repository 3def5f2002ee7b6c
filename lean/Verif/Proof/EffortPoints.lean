import Verif.Proof.EffortGrowth

/-! # Brackets behind characters that cannot be read

`parse_unknown` asks whether an operand comes next, which reads the brackets; then they are read as the
argument of a function. -/

namespace Aftermath

variable {x : Xid} {g : Grammar} {m : NameMap} {call : Rec} {eff : RecEffort} {check : Bool}

theorem pointTower_cons : ∀ n, ∃ l, pointTower n = sy '.' :: l
  | 0 => ⟨_, rfl⟩
  | _ + 1 => ⟨_, rfl⟩

theorem pointTower_wf : ∀ n, rowWf (pointTower n) = true
  | 0 => rfl
  | n + 1 => by
    simp [pointTower, rowWf, Node.wf, sy, rowWf_append, pointTower_wf n]

theorem rowWeight_append (a : Row) : ∀ b : Row, rowWeight (a ++ b) = rowWeight a + rowWeight b := by
  induction a with
  | nil => intro b; simp [rowWeight]
  | cons n ns ih =>
    intro b
    simp only [List.cons_append, rowWeight, ih]
    omega

theorem pointTower_weight : ∀ n, rowWeight (pointTower n) = 3 * n + 1
  | 0 => rfl
  | n + 1 => by
    simp only [pointTower, rowWeight, rowWeight_append, pointTower_weight n, Node.weight, sy]
    omega

/-- What comes behind ends the expression. -/
inductive Closes : Ending → Row → Prop
  | eof : Closes .eof []
  | sym (r : Row) : Closes (.sym [')']) (sy ')' :: r)

theorem Closes.atEnd {e : Ending} {rest row : Row} {q : Nat} (h : Closes e rest)
    (hd : row.drop q = rest) : isAtEnd row q e = true := by
  cases h with
  | eof => simpa [isAtEnd, atInputEnd] using hd
  | sym r => simp [isAtEnd, selectSym, (drop_cons hd).1, sy]

/-- The loop ends where the expression ends. -/
theorem closes_loop (S : Std x g m) (hx : x.Usual) {e : Ending} {rest row : Row} {q F n : Nat}
    {min : Power} {left : SNode} (h : Closes e rest) (hd : row.drop q = rest) (hw : rowWf row = true)
    (hq : q ≤ row.length) (hF : restWeight row q ≤ F) :
    prattLoop (pratt g F) g row min e (n + 1) left q = .ok (.stop left, q) ∧
      loopEffort (pratt g F) (prattEffort g F) g row min e (n + 1) q = 0 := by
  have hae := h.atEnd hd
  cases h with
  | eof =>
    have hend : atInputEnd row q = true := by simpa [atInputEnd] using hd
    simp only [prattLoop, loopEffort, hend, if_true, and_self]
  | sym r =>
    have hs := (drop_cons hd).1
    have hdp : Deep g row q F := ⟨S.good, hw, hq, hF⟩
    have hno := closing_none S hx hd
    have hlt := (List.getElem?_eq_some_iff.1 hs).1
    have hend : atInputEnd row q = false := by simp [atInputEnd]; omega
    have h1 := (hno .infix).at hdp
    have h2 := (hno .postfix).at hdp
    have h3 := (hno .prefix).at hdp
    have h4 := (hno .atom).at hdp
    have e1 := iterEffort_none (eff := prattEffort g F) (check := false) (parseIter_none.1 h1)
      (noBracket_closing S .infix hs)
    have e2 := iterEffort_none (eff := prattEffort g F) (check := false) (parseIter_none.1 h2)
      (noBracket_closing S .postfix hs)
    have e3 := canEffort_none (eff := prattEffort g F) h3 (noBracket_closing S .prefix hs)
    have e4 := canEffort_none (eff := prattEffort g F) h4 (noBracket_closing S .atom hs)
    simp only [Grammar.ofRole] at h1 h2 h3 h4 e1 e2 e3 e4
    constructor
    · simp only [prattLoop, hend, Bool.false_eq_true, if_false, h1, h2, M.ok_bind, canParseEither,
        canParse_of h3, canParse_of h4, Option.isSome_none, hae, if_true]
    · simp only [loopEffort, hend, Bool.false_eq_true, if_false, h1, h2, e1, e2, eitherEffort, e3, e4,
        canParseEither, canParse_of h3, canParse_of h4, Option.isSome_none, M.ok_bind, hae, if_true]

/-- The rule for brackets where they are closed. -/
theorem closed_rule {F : Nat} (S : Std x g m) {row rest rest' : Row} {pos q : Nat} {r : Rule}
    {res : PResult} (hw : rowWf row = true) (hF : restWeight row pos ≤ F)
    (hd : row.drop pos = sy '(' :: rest) (hr : r.parser = .brackets 0 ['('] [')'])
    (hk : r.kind.takesScripts = false)
    (h : pratt g F row (pos + 1) (0, .weak) (.sym [')']) = .ok (res, q))
    (hq : row.drop q = sy ')' :: rest') (hs : isSym [' '] rest'.head? = false) :
    (∃ t, ruleParse (pratt g F) g r row pos = .ok (some (t, q + 1))) ∧
      ruleEffort (pratt g F) eff check g r row pos = eff row (pos + 1) (0, .weak) (.sym [')']) := by
  have hget : row[pos]? = some (.symbol ['(']) := by rw [drop_head hd]; rfl
  have hsp : parseSpaces g row pos = .ok (none, pos) := parseSpaces_none (by rw [hget]; rfl)
  have hsel : selectSym (fun s => s == ['(']) row pos = some (['('], pos + 1) := by
    simp [selectSym, hget]
  obtain ⟨hq1, hq2⟩ := drop_cons hq
  have hend : selectSym (fun s => s == [')']) row q = some ([')'], q + 1) := by
    simp [selectSym, hq1, sy]
  have hsp2 : parseSpaces g row (q + 1) = .ok (none, q + 1) :=
    parseSpaces_none (by rw [drop_head hq2]; exact hs)
  have htok : ∃ c, tokenParse (pratt g F) g r.parser row pos = .ok (some (c, q + 1)) := by
    rw [hr]
    simp only [tokenParse, parseBrackets, hsel, h, M.ok_bind, hend, new_leaf]
    exact ⟨_, rfl⟩
  obtain ⟨c, htok⟩ := htok
  have hne : r.parser.NonEmpty := by rw [hr]; trivial
  obtain ⟨o, ho, -⟩ := ruleParse_ok (pratt_ok S.good F) g hne hw
    (Nat.le_of_lt (List.getElem?_eq_some_iff.1 hget).1) hF
  constructor
  · cases o with
    | none =>
      obtain ⟨before, k1, k2⟩ := ruleParse_none_steps ho
      rw [hsp] at k1
      injection k1 with k1
      injection k1 with _ k1
      rw [← k1, htok] at k2
      cases k2
    | some y =>
      obtain ⟨t, p⟩ := y
      obtain ⟨before, p1, c', p2, after, p3, k1, k2, k3, k4, -⟩ := ruleParse_steps ho
      rw [hsp] at k1
      cases k1
      rw [htok] at k2
      cases k2
      rw [hsp2] at k3
      cases k3
      obtain rfl := k4 hk
      exact ⟨t, ho⟩
  · simp only [ruleEffort, hsp, htok, hsp2, hk, Bool.false_eq_true, if_false, Nat.add_zero]
    simp only [hr, tokenEffort, bracketsEffort, hsel]

/-- No rule can read the point. -/
theorem point_none (S : Std x g m) (hx : x.Usual) {row rest : Row} {p : Nat}
    (h : row.drop p = sy '.' :: rest) (role : Role) :
    parseIter call g row p (g.ofRole role) = .ok none ∧
      ∀ check, iterEffort call eff check g row p (g.ofRole role) = 0 := by
  have hd : row.drop p = sp 0 ++ sy '.' :: rest := h
  have hv : x.start '.' = false := (hx.reserved _ (by decide +kernel)).1
  have hdg : isDigits ['.'] = false := by decide +kernel
  have key : ((g.ofRole role).filter fun r => starts g (sy '.' :: rest) r.parser) = [] := by
    cases role with
    | atom =>
      rw [Grammar.ofRole, S.atoms]
      simp [shippedAtoms, starts, beginsWith, isSym, sy, hdg, isIdentifierStart, S.start, hv]
    | «prefix» => rw [Grammar.ofRole, S.prefixes]; rfl
    | «infix» => rw [Grammar.ofRole, S.infixes]; rfl
    | «postfix» => rw [Grammar.ofRole, S.postfixes]; rfl
  constructor
  · rw [parseIter_starts hd rfl, key]; rfl
  · intro check
    rw [iterEffort_starts h rfl, key]; rfl

/-- What is read at brackets that are closed, and what that costs. -/
theorem closed_at {F : Nat} (S : Std x g m) (hx : x.Usual) {row rest rest' : Row} {pos q : Nat}
    {res : PResult} (hw : rowWf row = true) (hF : restWeight row pos ≤ F)
    (hd : row.drop pos = sy '(' :: rest) (hn : isSym [')'] rest.head? = false)
    (h : pratt g F row (pos + 1) (0, .weak) (.sym [')']) = .ok (res, q))
    (hq : row.drop q = sy ')' :: rest') (hs : isSym [' '] rest'.head? = false) :
    (∃ y, parseIter (pratt g F) g row pos g.atoms = .ok (some y)) ∧
    (∃ t, parseIter (pratt g F) g row pos g.postfixes =
      .ok (some (t, ⟨33, .postfix 800, .brackets 0 ['('] [')']⟩, q + 1))) ∧
    parseIter (pratt g F) g row pos g.prefixes = .ok none ∧
    parseIter (pratt g F) g row pos g.infixes = .ok none ∧
    ∀ check, iterEffort (pratt g F) eff check g row pos g.atoms =
        eff row (pos + 1) (0, .weak) (.sym [')']) ∧
      iterEffort (pratt g F) eff check g row pos g.postfixes =
        eff row (pos + 1) (0, .weak) (.sym [')']) ∧
      iterEffort (pratt g F) eff check g row pos g.prefixes = 0 ∧
      iterEffort (pratt g F) eff check g row pos g.infixes = 0 := by
  have hd' : row.drop pos = sp 0 ++ (sy '(' :: rest) := hd
  have hsp : isSym [' '] (sy '(' :: rest).head? = false := rfl
  have hp : (shippedPrefixes.filter fun r => starts g (sy '(' :: rest) r.parser) = [] := by rfl
  have hi : (shippedInfixes.filter fun r => starts g (sy '(' :: rest) r.parser) = [] := by rfl
  have ha := open_atoms S hx hn
  have hp' := open_postfixes (g := g) hn
  have ra := fun check => closed_rule (eff := eff) (check := check) S
    (r := ⟨13, .atom, .brackets 0 ['('] [')']⟩) hw hF hd rfl rfl h hq hs
  have rq := fun check => closed_rule (eff := eff) (check := check) S
    (r := ⟨33, .postfix 800, .brackets 0 ['('] [')']⟩) hw hF hd rfl rfl h hq hs
  obtain ⟨ta, hta⟩ := (ra true).1
  obtain ⟨tq, htq⟩ := (rq true).1
  refine ⟨⟨(ta, ⟨13, .atom, .brackets 0 ['('] [')']⟩, q + 1), ?_⟩, ⟨tq, ?_⟩, ?_, ?_,
    fun check => ⟨?_, ?_, ?_, ?_⟩⟩
  · rw [S.atoms, parseIter_starts hd' hsp, ha, parseIter, hta]; rfl
  · rw [S.postfixes, parseIter_starts hd' hsp, hp', parseIter, htq]; rfl
  · rw [S.prefixes, parseIter_starts hd' hsp, hp]; rfl
  · rw [S.infixes, parseIter_starts hd' hsp, hi]; rfl
  · rw [S.atoms, iterEffort_starts hd hsp, ha, iterEffort, hta, (ra check).2]; rfl
  · rw [S.postfixes, iterEffort_starts hd hsp, hp', iterEffort, htq, (rq check).2]; rfl
  · rw [S.prefixes, iterEffort_starts hd hsp, hp]; rfl
  · rw [S.infixes, iterEffort_starts hd hsp, hi]; rfl

theorem point_call (S : Std x g m) (hx : x.Usual) : ∀ (n f : Nat) {row rest : Row} {pos : Nat}
    {e : Ending}, rowWf row = true → row.drop pos = pointTower n ++ rest → Closes e rest →
    restWeight row pos < f →
    (∃ res, pratt g f row pos (0, .weak) e = .ok (res, pos + (pointTower n).length)) ∧
      prattEffort g f row pos (0, .weak) e + 1 = 2 ^ (n + 1)
  | _, 0, _, _, _, _, _, _, _, hf => by omega
  | n, f + 1, row, rest, pos, e, hw, hd, he, hf => by
    obtain ⟨l, hl⟩ := pointTower_cons n
    have hd1 : row.drop pos = sy '.' :: (l ++ rest) := by rw [hd, hl]; rfl
    obtain ⟨hget, hd2⟩ := drop_cons hd1
    have hlt := (List.getElem?_eq_some_iff.1 hget).1
    have hwt := restWeight_symbol (s := ['.']) hget
    have hend : atInputEnd row pos = false := by simp [atInputEnd]; omega
    have hae : isAtEnd row pos e = false := by
      cases e <;> cases he <;> simp [isAtEnd, hend, selectSym, hget, sy]
    have h1 := point_none (call := pratt g f) (eff := prattEffort g f) S hx hd1 .prefix
    have h2 := point_none (call := pratt g f) (eff := prattEffort g f) S hx hd1 .atom
    have h3 := point_none (call := pratt g f) (eff := prattEffort g f) S hx hd1 .infix
    have h4 := point_none (call := pratt g f) (eff := prattEffort g f) S hx hd1 .postfix
    simp only [Grammar.ofRole] at h1 h2 h3 h4
    obtain ⟨atom, hatom, -⟩ := makeUnknownAtom_ok (Q := fun _ _ => True) g hget
    have heither : canParseEither (pratt g f) g row pos g.infixes g.postfixes = .ok false := by
      simp only [canParseEither, canParse_of h3.1, canParse_of h4.1, M.ok_bind,
        Option.isSome_none, Bool.false_eq_true, if_false]
    -- what follows the point
    have hrest : ∃ E, unknownStops (pratt g f) g row (pos + 1) e = .ok true ∧
        stopsEffort (pratt g f) (prattEffort g f) g row (pos + 1) e = E ∧
        (∃ t, prattLoop (pratt g f) g row (0, .weak) e (row.length + 1) atom (pos + 1) =
          .ok (.stop t, pos + (pointTower n).length)) ∧
        2 + E + loopEffort (pratt g f) (prattEffort g f) g row (0, .weak) e (row.length + 1) (pos + 1)
          = 2 ^ (n + 1) := by
      cases n with
      | zero =>
        cases hl
        have hd2' : row.drop (pos + 1) = rest := hd2
        obtain ⟨k1, k2⟩ := closes_loop S hx (n := row.length) (min := (0, .weak)) (left := atom)
          (F := f) he hd2' hw hlt (by omega)
        have hae2 := he.atEnd hd2'
        refine ⟨0, ?_, ?_, ⟨atom, k1⟩, by rw [k2]⟩
        · simp only [unknownStops, hae2, if_true]
        · simp only [stopsEffort, hae2, if_true]
      | succ n =>
        cases hl
        have hd2' : row.drop (pos + 1) = sy '(' :: (pointTower n ++ (sy ')' :: rest)) := by
          simpa using hd2
        obtain ⟨hget2, hd3⟩ := drop_cons hd2'
        have hlt2 := (List.getElem?_eq_some_iff.1 hget2).1
        have hwt2 := restWeight_symbol (s := ['(']) hget2
        obtain ⟨⟨res, hcall⟩, hcost⟩ := point_call S hx n f (e := .sym [')']) hw hd3 (.sym rest) (by omega)
        have hd4 : row.drop (pos + 1 + 1 + (pointTower n).length) = sy ')' :: rest := drop_append hd3
        obtain ⟨hget4, hd5⟩ := drop_cons hd4
        have hlt4 := (List.getElem?_eq_some_iff.1 hget4).1
        have hsp : isSym [' '] rest.head? = false := by cases he <;> rfl
        have hn : isSym [')'] (pointTower n ++ (sy ')' :: rest)).head? = false := by
          obtain ⟨l', hl'⟩ := pointTower_cons n
          rw [hl']; rfl
        obtain ⟨⟨y, ka⟩, ⟨tq, kq⟩, kp, ki, keff⟩ := closed_at (eff := prattEffort g f) S hx hw
          (F := f) (by omega) hd2' hn hcall hd4 hsp
        have hend2 : atInputEnd row (pos + 1) = false := by simp [atInputEnd]; omega
        have hae2 : isAtEnd row (pos + 1) e = false := by
          cases e <;> cases he <;> simp [isAtEnd, hend2, selectSym, hget2, sy]
        have hlen : pos + (pointTower (n + 1)).length = pos + 1 + 1 + (pointTower n).length + 1 := by
          simp [pointTower]; omega
        obtain ⟨res', p', hall, hgood⟩ := (pratt_ok S.good (f + 1)).2 row pos (0, .weak) e hw
          (Nat.le_of_lt hlt) hf
        have hw5 := restWeight_le row (show pos + 1 ≤ pos + 1 + 1 + (pointTower n).length + 1 by omega)
        have hstop : unknownStops (pratt g f) g row (pos + 1) e = .ok true := by
          simp only [unknownStops, hae2, Bool.false_eq_true, if_false, canParse_of kp, canParse_of ka,
            M.ok_bind, Option.isSome_none, Option.isSome_some, if_true]
        -- building the node does not fail, as the whole does not
        rw [pratt, prattBody] at hall
        simp only [prattStart, hend, Bool.false_eq_true, if_false, h1.1, h2.1, M.ok_bind, heither, hae,
          parseUnknown, hatom, unknownLoop, hstop, if_true] at hall
        obtain ⟨L, hL⟩ : ∃ L, row.length = L + 1 := ⟨row.length - 1, by omega⟩
        rw [hL, prattLoop] at hall
        simp only [hend2, Bool.false_eq_true, if_false, ki, kq, M.ok_bind] at hall
        rw [if_neg (by decide)] at hall
        obtain ⟨t, ht, hall⟩ := M.bind_eq_ok.1 hall
        obtain ⟨k1, k2⟩ := closes_loop S hx (n := L) (min := (0, .weak)) (left := t)
          (F := f) he hd5 hw hlt4 (by omega)
        refine ⟨prattEffort g f row (pos + 1 + 1) (0, .weak) (.sym [')']), hstop, ?_, ⟨t, ?_⟩, ?_⟩
        · simp only [stopsEffort, hae2, Bool.false_eq_true, if_false, canEffort, (keff true).1,
            (keff true).2.2.1, canParse_of kp, canParse_of ka, Option.isSome_none, Option.isSome_some,
            Nat.zero_add, Nat.add_zero]
        · rw [hL, prattLoop]
          simp only [hend2, Bool.false_eq_true, if_false, ki, kq, M.ok_bind]
          rw [if_neg (by decide), ht]
          rw [hlen]
          exact k1
        · rw [hL, loopEffort]
          simp only [hend2, Bool.false_eq_true, if_false, ki, kq, (keff false).2.2.2, (keff false).2.1]
          rw [if_neg (by decide), k2, Nat.pow_succ]
          exact (by omega : 2 + prattEffort g f row (pos + 1 + 1) (0, .weak) (.sym [')']) +
            (0 + (prattEffort g f row (pos + 1 + 1) (0, .weak) (.sym [')']) + 0)) = 2 ^ (n + 1) * 2)
    obtain ⟨E, hst, hse, ⟨t, hloop⟩, hcost⟩ := hrest
    have hstart : prattStart (pratt g f) g row e pos = .ok (.left atom, pos + 1) := by
      simp only [prattStart, hend, Bool.false_eq_true, if_false, h1.1, h2.1, M.ok_bind, heither, hae,
        parseUnknown, hatom, unknownLoop, hst, if_true]
    constructor
    · exact ⟨.stop t, by rw [pratt, prattBody, hstart]; exact hloop⟩
    · simp only [prattEffort, bodyEffort, hstart, startEffort, hend, Bool.false_eq_true, if_false,
        h1.1, h1.2, h2.1, h2.2, eitherEffort, canEffort, h3.2, h4.2, canParse_of h3.1,
        Option.isSome_none, heither, hae, unknownEffort, unknownLoopEffort, hse, hst]
      exact (by omega : 1 + (0 + (0 + (0 + 0 + (E + 0))) + loopEffort (pratt g f) (prattEffort g f) g row
        (0, .weak) e (row.length + 1) (pos + 1)) + 1 = 2 ^ (n + 1))

end Aftermath
