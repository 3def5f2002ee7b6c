import Verif.Proof.Effort
import Verif.Proof.Notation

/-! # Rows whose effort grows fast -/

namespace Aftermath

variable {x : Xid} {g : Grammar} {m : NameMap} {call : Rec} {eff : RecEffort} {check : Bool}

/-! ## Opening brackets -/

theorem ruleEffort_starts {row rest : Row} {pos : Nat} {r : Rule}
    (hd : row.drop pos = rest) (hs : isSym [' '] rest.head? = false)
    (h : starts g rest r.parser = false) : ruleEffort call eff check g r row pos = 0 := by
  have hd' : row.drop pos = sp 0 ++ rest := hd
  refine ruleEffort_none (ruleParse_none hd' hs h) ?_
  intro n o c hp hg
  rw [hp, starts] at h
  have : leadingSpaces (row.drop pos) = 0 := by
    rw [hd]
    cases rest with
    | nil => rfl
    | cons a l =>
      cases a with
      | container => rfl
      | symbol s =>
        by_cases hsp : s = [' ']
        · subst hsp
          cases hs
        · unfold leadingSpaces
          split
          · rename_i heq
            cases heq
            exact absurd rfl hsp
          · rfl
  rw [this, Nat.add_zero, drop_head hd] at hg
  rw [hg, isSym, beq_self_eq_true] at h
  cases h

/-- Only the rules that can start here cost anything. -/
theorem iterEffort_starts {row rest : Row} {pos : Nat}
    (hd : row.drop pos = rest) (hs : isSym [' '] rest.head? = false) : ∀ (rs : List Rule),
    iterEffort call eff check g row pos rs =
      iterEffort call eff check g row pos (rs.filter fun r => starts g rest r.parser)
  | [] => rfl
  | r :: rs => by
    cases h : starts g rest r.parser with
    | false =>
      have hd' : row.drop pos = sp 0 ++ rest := hd
      rw [List.filter_cons_of_neg (by simp [h]), iterEffort, ruleParse_none hd' hs h,
        ruleEffort_starts hd hs h, Nat.zero_add]
      exact iterEffort_starts hd hs rs
    | true =>
      rw [List.filter_cons_of_pos (by exact h), iterEffort, iterEffort, iterEffort_starts hd hs rs]

/-- The rule for brackets where they are not closed. -/
theorem open_rule {row rest : Row} {pos : Nat} {r : Rule} {res : PResult}
    (hd : row.drop pos = sy '(' :: rest) (hr : r.parser = .brackets 0 ['('] [')'])
    (h : call row (pos + 1) (0, .weak) (.sym [')']) = .ok (res, row.length)) :
    ruleParse call g r row pos = .ok none ∧
      ruleEffort call eff check g r row pos = eff row (pos + 1) (0, .weak) (.sym [')']) := by
  have hget : row[pos]? = some (.symbol ['(']) := by rw [drop_head hd]; rfl
  have hsp : parseSpaces g row pos = .ok (none, pos) := parseSpaces_none (by rw [hget]; rfl)
  have hsel : selectSym (fun s => s == ['(']) row pos = some (['('], pos + 1) := by
    simp [selectSym, hget]
  have hend : selectSym (fun s => s == [')']) row row.length = none := by
    simp [selectSym]
  have htok : tokenParse call g r.parser row pos = .ok none := by
    rw [hr]
    simp only [tokenParse, parseBrackets, hsel, h, M.ok_bind, hend]
  constructor
  · simp only [ruleParse, hsp, M.ok_bind, htok]
  · simp only [ruleEffort, hsp, htok]
    simp only [hr, tokenEffort, bracketsEffort, hsel, Nat.add_zero]

/-- A row of opening brackets. -/
def openings (n : Nat) : Row := List.replicate n (sy '(')

theorem openings_drop {n j : Nat} (h : j < n) :
    (openings n).drop j = sy '(' :: (openings n).drop (j + 1) := by
  rw [List.drop_eq_getElem_cons (by simpa [openings] using h)]
  simp [openings]

theorem openings_next {n j : Nat} : isSym [')'] ((openings n).drop j).head? = false := by
  rw [List.head?_drop]
  cases h : (openings n)[j]? with
  | none => rfl
  | some a =>
    have := List.mem_of_getElem? h
    rw [List.eq_of_mem_replicate this]
    rfl

/-- What the lists of rules give and cost at an opening bracket. -/
structure OpenAt (call : Rec) (eff : RecEffort) (g : Grammar) (row : Row) (j E : Nat) : Prop where
  prefixes : parseIter call g row j g.prefixes = .ok none
  atoms : parseIter call g row j g.atoms = .ok none
  infixes : parseIter call g row j g.infixes = .ok none
  postfixes : parseIter call g row j g.postfixes = .ok none
  effPrefixes : ∀ check, iterEffort call eff check g row j g.prefixes = 0
  effAtoms : ∀ check, iterEffort call eff check g row j g.atoms = E
  effInfixes : ∀ check, iterEffort call eff check g row j g.infixes = 0
  effPostfixes : ∀ check, iterEffort call eff check g row j g.postfixes = E

theorem open_at (S : Std x g m) (hx : x.Usual) {n j : Nat} (hj : j < n) {res : PResult}
    (h : call (openings n) (j + 1) (0, .weak) (.sym [')']) = .ok (res, n)) :
    OpenAt call eff g (openings n) j (eff (openings n) (j + 1) (0, .weak) (.sym [')'])) := by
  have hd := openings_drop hj
  have hd' : (openings n).drop j = sp 0 ++ (sy '(' :: (openings n).drop (j + 1)) := hd
  have hs : isSym [' '] (sy '(' :: (openings n).drop (j + 1)).head? = false := rfl
  have h' : call (openings n) (j + 1) (0, .weak) (.sym [')']) = .ok (res, (openings n).length) := by
    rw [h]; simp [openings]
  have hp : (shippedPrefixes.filter fun r => starts g (sy '(' :: (openings n).drop (j + 1)) r.parser)
      = [] := by rfl
  have hi : (shippedInfixes.filter fun r => starts g (sy '(' :: (openings n).drop (j + 1)) r.parser)
      = [] := by rfl
  have ha := open_atoms S hx (openings_next (n := n) (j := j + 1))
  have hq := open_postfixes (g := g) (openings_next (n := n) (j := j + 1))
  have ra := fun check => open_rule (g := g) (eff := eff) (check := check)
    (r := ⟨13, .atom, .brackets 0 ['('] [')']⟩) hd rfl h'
  have rq := fun check => open_rule (g := g) (eff := eff) (check := check)
    (r := ⟨33, .postfix 800, .brackets 0 ['('] [')']⟩) hd rfl h'
  constructor
  · rw [S.prefixes, parseIter_starts hd' hs, hp]; rfl
  · rw [S.atoms, parseIter_starts hd' hs, ha, parseIter, (ra true).1]; rfl
  · rw [S.infixes, parseIter_starts hd' hs, hi]; rfl
  · rw [S.postfixes, parseIter_starts hd' hs, hq, parseIter, (rq true).1]; rfl
  · intro check; rw [S.prefixes, iterEffort_starts hd hs, hp]; rfl
  · intro check; rw [S.atoms, iterEffort_starts hd hs, ha, iterEffort, (ra check).1, (ra check).2]; rfl
  · intro check; rw [S.infixes, iterEffort_starts hd hs, hi]; rfl
  · intro check; rw [S.postfixes, iterEffort_starts hd hs, hq, iterEffort, (rq check).1, (rq check).2]; rfl

theorem open_atEnd {n j : Nat} (hj : j < n) {e : Ending} (he : ∀ s, e = .sym s → s = [')']) :
    isAtEnd (openings n) j e = false := by
  have hget : (openings n)[j]? = some (.symbol ['(']) := by rw [drop_head (openings_drop hj)]; rfl
  cases e with
  | eof => simp [isAtEnd, atInputEnd, openings]; omega
  | sym s =>
    obtain rfl := he s rfl
    have hlen : (openings n).length = n := by simp [openings]
    simp [isAtEnd, atInputEnd, selectSym, hget, hlen]
    omega

theorem pow_step {n j : Nat} (h : j < n) : 3 ^ (n - j) = 3 * 3 ^ (n - (j + 1)) := by
  rw [show n - j = n - (j + 1) + 1 by omega, Nat.pow_succ, Nat.mul_comm]

theorem open_unknown {n pos : Nat} {e : Ending} (he : ∀ s, e = .sym s → s = [')'])
    (hat : ∀ j < n, pos ≤ j → OpenAt call eff g (openings n) j (3 ^ (n - (j + 1)))) :
    ∀ (k : Nat) {atom t : SNode} {j p : Nat}, j ≤ n → pos ≤ j →
    unknownLoop call g (openings n) e k atom j = .ok (t, p) →
    p = n ∧ unknownLoopEffort call eff g (openings n) e k j + 1 = 3 ^ (n - j)
  | 0, _, _, _, _, _, _, h => by cases h
  | k + 1, atom, t, j, p, hj, hpj, h => by
    rw [unknownLoop] at h
    rw [unknownLoopEffort]
    rcases Nat.lt_or_eq_of_le hj with hlt | rfl
    · have hno := open_atEnd hlt he
      have ho := hat j hlt hpj
      have hstop : unknownStops call g (openings n) j e = .ok false := by
        simp only [unknownStops, hno, Bool.false_eq_true, if_false, canParse_of ho.prefixes,
          canParse_of ho.atoms, canParse_of ho.infixes, canParse_of ho.postfixes, M.ok_bind,
          Option.isSome_none]
      have hcost : stopsEffort call eff g (openings n) j e = 2 * 3 ^ (n - (j + 1)) := by
        simp only [stopsEffort, hno, Bool.false_eq_true, if_false, canEffort, ho.effPrefixes,
          ho.effAtoms, ho.effInfixes, ho.effPostfixes, canParse_of ho.prefixes,
          canParse_of ho.atoms, canParse_of ho.infixes, Option.isSome_none]
        exact (by omega : 0 + (3 ^ (n - (j + 1)) + (0 + 3 ^ (n - (j + 1)))) = 2 * 3 ^ (n - (j + 1)))
      rw [hstop] at h ⊢
      simp only [M.ok_bind, Bool.false_eq_true, if_false] at h
      obtain ⟨next, -, h⟩ := M.bind_eq_ok.1 h
      obtain ⟨joined, -, h⟩ := M.bind_eq_ok.1 h
      obtain ⟨rfl, h2⟩ := open_unknown he hat k (j := j + 1) hlt (by omega) h
      refine ⟨rfl, ?_⟩
      rw [hcost, pow_step hlt]
      exact (by omega : 2 * 3 ^ (p - (j + 1)) +
        unknownLoopEffort call eff g (openings p) e k (j + 1) + 1 = 3 * 3 ^ (p - (j + 1)))
    · have hend : isAtEnd (openings j) j e = true := by
        cases e <;> simp [isAtEnd, atInputEnd, openings]
      have hstop : unknownStops call g (openings j) j e = .ok true := by
        simp only [unknownStops, hend, if_true]
      rw [hstop] at h ⊢
      simp only [M.ok_bind, if_true] at h
      cases h
      simp [stopsEffort, hend]

theorem openings_wf (n : Nat) : rowWf (openings n) = true := by
  induction n with
  | zero => rfl
  | succ n ih =>
    rw [openings, List.replicate_succ, rowWf, sy_wf, Bool.true_and]
    exact ih

theorem openings_weight (n j : Nat) : restWeight (openings n) j = n - j := by
  have key : ∀ n, rowWeight (List.replicate n (sy '(')) = n := by
    intro n
    induction n with
    | zero => rfl
    | succ n ih =>
      rw [List.replicate_succ, rowWeight, ih]
      simp only [sy, Node.weight]
      omega
  rw [restWeight, openings, List.drop_replicate, key]

theorem open_call (S : Std x g m) (hx : x.Usual) (n : Nat) : ∀ (f : Nat) {pos : Nat} {min : Power}
    {e : Ending}, pos ≤ n → n - pos < f → (∀ s, e = .sym s → s = [')']) →
    (∃ res, pratt g f (openings n) pos min e = .ok (res, n)) ∧
      prattEffort g f (openings n) pos min e = 3 ^ (n - pos)
  | 0, _, _, _, _, h, _ => by omega
  | f + 1, pos, min, e, hp, hf, he => by
    have hlen : (openings n).length = n := by simp [openings]
    obtain ⟨res, p, h, -⟩ := (pratt_ok S.good (f + 1)).2 (openings n) pos min e (openings_wf n)
      (by rw [hlen]; exact hp) (by rw [openings_weight]; exact hf)
    have h0 := h
    rw [pratt, prattBody] at h
    simp only [prattEffort, bodyEffort]
    rcases Nat.lt_or_eq_of_le hp with hlt | rfl
    · have hat : ∀ j < n, pos ≤ j →
          OpenAt (pratt g f) (prattEffort g f) g (openings n) j (3 ^ (n - (j + 1))) := by
        intro j hj hpj
        obtain ⟨⟨r, h1⟩, h2⟩ := open_call S hx n f (pos := j + 1) (min := (0, .weak))
          (e := .sym [')']) hj (by omega) (by rintro s ⟨⟩; rfl)
        rw [← h2]
        exact open_at S hx hj h1
      have hend : atInputEnd (openings n) pos = false := by simp [atInputEnd, hlen]; omega
      have ho := hat pos hlt (Nat.le_refl _)
      have hno := open_atEnd hlt he
      have heither : canParseEither (pratt g f) g (openings n) pos g.infixes g.postfixes =
          .ok false := by
        simp only [canParseEither, canParse_of ho.infixes, canParse_of ho.postfixes, M.ok_bind,
          Option.isSome_none, Bool.false_eq_true, if_false]
      obtain ⟨⟨s, p'⟩, h1, h⟩ := M.bind_eq_ok.1 h
      have h1' := h1
      simp only [prattStart, hend, Bool.false_eq_true, if_false, ho.prefixes, ho.atoms, M.ok_bind,
        heither, hno] at h1
      obtain ⟨⟨t, p1⟩, h2, h1⟩ := M.bind_eq_ok.1 h1
      cases h1
      obtain ⟨atom, -, h3⟩ := M.bind_eq_ok.1 h2
      obtain ⟨rfl, hun⟩ := open_unknown he hat _ (j := pos + 1) hlt (Nat.le_succ _) h3
      have hloop : atInputEnd (openings p1) p1 = true := by simp [atInputEnd, openings]
      dsimp only at h
      rw [prattLoop, if_pos hloop] at h
      cases h
      refine ⟨⟨_, h0⟩, ?_⟩
      rw [h1', pow_step hlt]
      simp only [startEffort, hend, Bool.false_eq_true, if_false, ho.prefixes, ho.atoms, heither, hno,
        ho.effPrefixes, ho.effAtoms, eitherEffort, canEffort, ho.effInfixes, ho.effPostfixes,
        canParse_of ho.infixes, Option.isSome_none, loopEffort, hloop, if_true, unknownEffort]
      exact (by omega : 1 + (0 + (3 ^ (p - (pos + 1)) + (0 + 3 ^ (p - (pos + 1)) +
        unknownLoopEffort (pratt g f) (prattEffort g f) g (openings p) e ((openings p).length + 1)
          (pos + 1))) + 0) = 3 * 3 ^ (p - (pos + 1)))
    · have hend : atInputEnd (openings pos) pos = true := by simp [atInputEnd, openings]
      simp only [prattStart, hend, if_true] at h
      obtain ⟨⟨s, p'⟩, h1, h⟩ := M.bind_eq_ok.1 h
      obtain ⟨t, h2, h1⟩ := M.bind_eq_ok.1 h1
      cases h1
      cases h
      refine ⟨⟨_, h0⟩, ?_⟩
      simp [startEffort, hend, prattStart, h2, M.ok_bind]

/-! ## Scripts at operators -/

theorem isName_letter (hx : x.Usual) {c : Char} (h : c.isAlpha = true) : IsName x [c] :=
  ⟨c, [], rfl, (hx.letters c h).1, nofun, by simp [List.cons_prefix_cons]⟩

/-- The formula of `scriptTower`. -/
def towerFormula : Nat → Formula
  | 0 => .variable ['a']
  | n + 1 => .bin .add 1 (fun _ => .sub) (fun _ => towerFormula n)
      (.pre .minus 0 Fin.elim0 Fin.elim0 (.variable ['a'])) (.variable ['b'])

theorem tower_writes (hx : x.Usual) : ∀ n, (towerFormula n).Writes x 0 0 (scriptTower n)
  | 0 => .variable (isName_letter hx (by decide +kernel))
  | n + 1 => by
    have h1 : Formula.Writes x (.pre .minus 0 Fin.elim0 Fin.elim0 (.variable ['a'])) 0 3
        ([sy '-'] ++ [sy 'a']) :=
      .pre (o := .minus) (rows := Fin.elim0) (by decide) (.sign 0) (fun i => i.elim0)
        (.variable (s := ['a']) (isName_letter hx (by decide +kernel))) rfl
    have h2 : WritesOp [BinOp.add.char] (List.ofFn fun _ : Fin 1 => (ScriptKind.sub, scriptTower n))
        [sy '+', .container .sub [scriptTower n] 1] := by
      rw [List.ofFn_succ, List.ofFn_zero]
      exact .script (k := .sub) 0 (.sign (sign := ['+']) 0)
    exact .bin (o := .add) (l := 0) (r := 0) (rows := fun _ => scriptTower n) (by decide) (by decide) h1
      h2 (fun _ => tower_writes hx n)
      (.variable (s := ['b']) (isName_letter hx (by decide +kernel)))

theorem tower_wf : ∀ n, rowWf (scriptTower n) = true
  | 0 => rfl
  | n + 1 => by
    simp [scriptTower, rowWf, Node.wf, sy, shapeOk, cellsWf, tower_wf n]

theorem tower_weight : ∀ n, rowWeight (scriptTower n) = 6 * n + 1
  | 0 => rfl
  | n + 1 => by
    simp only [scriptTower, rowWeight, Node.weight, cellsWeight, sy, tower_weight n]
    omega

/-- What is read at the operator, and what that costs at least. -/
theorem tower_operator (S : Std x g m) (hx : x.Usual) (n : Nat) {F : Nat} (hF : 6 * n + 5 ≤ F) :
    ∃ t, parseIter (pratt g F) g (scriptTower (n + 1)) 2 g.infixes =
        .ok (some (t, BinOp.rule .add, 4)) ∧
      g.effort F (scriptTower n) ≤
        iterEffort (pratt g F) (prattEffort g F) false g (scriptTower (n + 1)) 2 g.infixes := by
  have hwr := written S hx (tower_writes hx n) (by decide)
  obtain ⟨tc, -, f, hf⟩ := cells_one S (tower_wf n) hwr
  obtain ⟨t, hc, -⟩ := infix_chosen S hx .add (row := scriptTower (n + 1)) (p := 2)
    (rest := [sy 'b']) (w := [sy '+', .container .sub [scriptTower n] 1]) (f := f)
    (zs := [(.sub, scriptTower n, tc)]) (.script (k := .sub) 0 (.sign (sign := ['+']) 0))
    (by simpa using hf f (Nat.le_refl _)) rfl
    (by simp [firstOk, sy, (hx.letters 'b' (by decide +kernel)).1])
  have hd : Deep g (scriptTower (n + 1)) 2 F := by
    refine ⟨S.good, tower_wf _, by simp [scriptTower], ?_⟩
    simp only [restWeight, scriptTower, List.drop_succ_cons, List.drop_zero, rowWeight, Node.weight,
      cellsWeight, sy, tower_weight n]
    omega
  have h1 := hc.at hd
  refine ⟨t, h1, ?_⟩
  obtain ⟨a, b, hl, ha, hr⟩ := parseIter_some.1 h1
  have hl' : g.infixes = a ++ BinOp.rule .add :: b := hl
  rw [hl', iterEffort_some ha (before_noBracket S hx hl hr) hr]
  obtain ⟨before, p1, c, p2, after, p3, k1, k2, k3, -, -⟩ := ruleParse_steps hr
  have e1 : p1 = 2 := by rw [parseSpaces_pos k1]; rfl
  subst e1
  have e2 : p2 = 3 := (symbols_inv k2).len
  subst e2
  have e3 : p3 = 3 := by rw [parseSpaces_pos k3]; rfl
  subst e3
  simp only [ruleEffort, k1, k2, k3]
  rw [if_pos (show (BinOp.rule .add).kind.takesScripts = true from rfl), scriptsEffort]
  have : containerEffort (prattEffort g F) false .sub (scriptTower (n + 1)) 3 =
      g.effort F (scriptTower n) + 0 := rfl
  rw [this]
  omega

theorem prattEffort_succ (f : Nat) (row : Row) (pos : Nat) (min : Power) (e : Ending) :
    prattEffort g (f + 1) row pos min e =
      1 + bodyEffort (pratt g f) (prattEffort g f) g row pos min e := rfl

theorem tower_effort (S : Std x g m) (hx : x.Usual) : ∀ (n : Nat) {f : Nat}, 6 * n + 1 < f →
    2 ^ n ≤ g.effort f (scriptTower n)
  | 0, f, h => by
    obtain ⟨f, rfl⟩ : ∃ f', f = f' + 1 := ⟨f - 1, by omega⟩
    simp only [Grammar.effort, prattEffort]
    omega
  | n + 1, f, h => by
    obtain ⟨F, rfl⟩ : ∃ F, f = F + 2 := ⟨f - 2, by omega⟩
    have i1 := tower_effort S hx n (f := F) (by omega)
    have i2 := tower_effort S hx n (f := F + 1) (by omega)
    obtain ⟨t1, o1, c1⟩ := tower_operator S hx n (F := F) (by omega)
    obtain ⟨t2, o2, c2⟩ := tower_operator S hx n (F := F + 1) (by omega)
    have hlen : (scriptTower (n + 1)).length = 5 := rfl
    have hweight : restWeight (scriptTower (n + 1)) 0 = 6 * n + 7 := by
      rw [restWeight, List.drop_zero, tower_weight]; omega
    have hd : Deep g (scriptTower (n + 1)) 0 (F + 1) :=
      ⟨S.good, tower_wf _, Nat.zero_le _, by omega⟩
    have hw1 := restWeight_lt (scriptTower (n + 1)) (p := 0) (q := 1) (by omega) (by omega)
    have hd1 : Deep g (scriptTower (n + 1)) 1 F :=
      ⟨S.good, tower_wf _, by omega, by omega⟩
    obtain ⟨tp, hp, -⟩ := prefix_chosen S hx .minus (row := scriptTower (n + 1)) (pos := 0) (i := 0)
      (f := 0) (w := [sy '-']) (rest := (scriptTower (n + 1)).drop 1) (zs := []) (.sign 0) nofun rfl rfl
      (by simp [firstOk, scriptTower, sy, (hx.letters 'a' (by decide +kernel)).1])
    obtain ⟨tv, rv, hno, hv, -⟩ := variable_read S hx (isName_letter hx (c := 'a') (by decide +kernel))
      (row := scriptTower (n + 1)) (pos := 1) (i := 0) (k := 0) (rest := (scriptTower (n + 1)).drop 2)
      rfl rfl
    have hp := hp.at hd
    have hno := hno.at hd1
    have hv := hv.at hd1
    simp only [Grammar.ofRole] at hp hno hv
    have hend : ∀ j, j < 5 → atInputEnd (scriptTower (n + 1)) j = false := by
      intro j hj
      simp [atInputEnd, hlen]; omega
    have hlt : (BinOp.rule .add).kind.strengthLeft.lt (PreOp.rule .minus).kind.strengthRight = true := by
      decide +kernel
    -- the operand of the sign
    have hstart1 : prattStart (pratt g F) g (scriptTower (n + 1)) .eof 1 = .ok (.left tv, 2) := by
      simp only [prattStart, hend 1 (by omega), Bool.false_eq_true, if_false, hno, hv, M.ok_bind]
      rfl
    have hcall : pratt g (F + 1) (scriptTower (n + 1)) 1 (PreOp.rule .minus).kind.strengthRight .eof =
        .ok (.expression tv, 2) := by
      rw [pratt, prattBody, hstart1]
      simp only [M.ok_bind]
      rw [prattLoop]
      simp only [hend 2 (by omega), Bool.false_eq_true, if_false, o1, M.ok_bind, hlt, if_true]
    have hcost : 2 ^ n ≤
        prattEffort g (F + 1) (scriptTower (n + 1)) 1 (PreOp.rule .minus).kind.strengthRight .eof := by
      simp only [prattEffort, bodyEffort, hstart1]
      rw [loopEffort]
      simp only [hend 2 (by omega), Bool.false_eq_true, if_false]
      omega
    -- the whole
    obtain ⟨res, p, hall, -⟩ := (pratt_ok S.good (F + 2)).2 (scriptTower (n + 1)) 0 (0, .weak) .eof
      (tower_wf _) (Nat.zero_le _) (by omega)
    rw [pratt, prattBody] at hall
    obtain ⟨⟨st, p'⟩, hst, -⟩ := M.bind_eq_ok.1 hall
    have hst' := hst
    simp only [prattStart, hend 0 (by omega), Bool.false_eq_true, if_false, hp, M.ok_bind] at hst
    rw [show 0 + 0 + [sy '-'].length = 1 from rfl] at hst
    simp only [hcall, M.ok_bind] at hst
    obtain ⟨t, -, hst⟩ := M.bind_eq_ok.1 hst
    cases hst
    rw [Grammar.effort, prattEffort_succ, bodyEffort, hst']
    dsimp only
    rw [loopEffort]
    simp only [hend 2 (by omega), Bool.false_eq_true, if_false, startEffort, hend 0 (by omega), hp]
    rw [show 0 + 0 + [sy '-'].length = 1 from rfl]
    rw [Nat.pow_succ]
    omega

end Aftermath
