import Verif.Proof.EffortGrowth
import Verif.Spec.Depth

/-! # Lemmas about the depth of recursion of the parser -/

namespace Aftermath

variable {x : Xid} {g : Grammar} {m : NameMap}

theorem pratt_succ (g : Grammar) (f : Nat) (row : Row) (pos : Nat) (min : Power) (e : Ending) :
    pratt g (f + 1) row pos min e = prattBody (pratt g f) g row pos min e := rfl

/-- A bound below which nothing works and from which on everything works. -/
theorem depth_of {row : Row} {d : Nat} (h1 : ∃ t, g.parseFuel d row = .ok t)
    (h2 : ∀ f, f < d → ¬ ∃ t, g.parseFuel f row = .ok t) : ParseDepth g row d := by
  intro f
  constructor
  · intro h
    by_contra hlt
    exact h2 f (by omega) h
  · intro h
    obtain ⟨t, ht⟩ := h1
    exact ⟨t, parseWhole_mono (pratt_mono g h) row t ht⟩

theorem least_below {P : Nat → Prop} : ∀ n, P n → ∃ d, d ≤ n ∧ P d ∧ ∀ f, f < d → ¬ P f := by
  intro n
  induction n using Nat.strongRecOn with
  | _ n ih =>
    intro h
    by_cases hex : ∃ f, f < n ∧ P f
    · obtain ⟨f, hf, hp⟩ := hex
      obtain ⟨d, h1, h2⟩ := ih f hf hp
      exact ⟨d, by omega, h2⟩
    · exact ⟨n, Nat.le_refl _, h, fun f hf hp => hex ⟨f, hf, hp⟩⟩

theorem depth_exists (hg : g.Good) {row : Row} (hw : rowWf row = true) :
    ∃ d, d ≤ rowWeight row + 1 ∧ ParseDepth g row d := by
  obtain ⟨t, ht, -⟩ := parseFuel_ok hg hw (Nat.lt_succ_self (rowWeight row))
  obtain ⟨d, h1, h2, h3⟩ := least_below (P := fun f => ∃ t, g.parseFuel f row = .ok t) _ ⟨t, ht⟩
  exact ⟨d, h1, depth_of h2 h3⟩

/-- A rule for one symbol, whatever calls do. -/
theorem symbol_rule (S : Std x g m) {call : Rec} {row rest : Row} {pos name : Nat} {c : Char}
    {kind : RuleKind} {ty : LeafType} (hd : row.drop pos = sy c :: rest) (hc : c ≠ ' ')
    (hs : isSym [' '] rest.head? = false) (hn : isScript rest.head? = false) :
    ∃ t, ruleParse call g ⟨name, kind, .symbols [[c]] ty⟩ row pos = .ok (some (t, pos + 1)) ∧
      t.lo = pos ∧ t.hi = pos + 1 := by
  have hd' : row.drop pos = sp 0 ++ (sy c :: rest) := hd
  have hdrop : row.drop (pos + 1) = sp 0 ++ rest := by
    rw [← List.drop_drop, hd]; rfl
  obtain ⟨t, h1, -, h2, h3⟩ := ruleParse_plain S (call := call) (r := ⟨name, kind, .symbols [[c]] ty⟩)
    (i := 0) (k := 0) (p := pos + 1) (rest' := rest) (c := .leaf ty [[c]])
    (t := .leaf (tokenName g ⟨name, kind, .symbols [[c]] ty⟩) pos (pos + 1) ty [[c]]) hd'
    (by simp [isSym, sy, hc]) (tokenParse_symbol hd) rfl rfl rfl hdrop hs (fun _ => hn)
  exact ⟨t, h1, h2, h3⟩

/-- At a minus sign the prefix operator is read, whatever calls do. -/
theorem minus_prefix (S : Std x g m) {call : Rec} {row rest : Row} {pos : Nat}
    (hd : row.drop pos = sy '-' :: rest) (hs : isSym [' '] rest.head? = false)
    (hn : isScript rest.head? = false) :
    ∃ t, parseIter call g row pos g.prefixes =
      .ok (some (t, ⟨16, .prefix 400, .symbols [['-']] .operator⟩, pos + 1)) := by
  have hf : (shippedPrefixes.filter fun r => starts g (sy '-' :: rest) r.parser) =
      [⟨16, .prefix 400, .symbols [['-']] .operator⟩] := by rfl
  obtain ⟨t, h1, -⟩ := symbol_rule S (call := call) (name := 16) (kind := .prefix 400) (ty := .operator)
    hd (by decide) hs hn
  refine ⟨t, ?_⟩
  rw [S.prefixes, parseIter_starts (i := 0) hd (by rfl), hf, parseIter, h1]
  rfl

/-- Each minus sign at the start needs a call of its own. -/
theorem minus_deep (S : Std x g m) {rest : Row} (hs : isSym [' '] rest.head? = false)
    (hn : isScript rest.head? = false) : ∀ (f k pos : Nat) (row : Row) (min : Power) (e : Ending),
    f ≤ k → row.drop pos = List.replicate k (sy '-') ++ rest → pratt g f row pos min e = .error .fuel
  | 0, _, _, _, _, _, _, _ => rfl
  | f + 1, 0, _, _, _, _, h, _ => by omega
  | f + 1, k + 1, pos, row, min, e, h, hd => by
    have hd' : row.drop pos = sy '-' :: (List.replicate k (sy '-') ++ rest) := hd
    obtain ⟨t, ht⟩ := minus_prefix S (call := pratt g f) hd' (by cases k; exacts [hs, rfl])
      (by cases k; exacts [hn, rfl])
    have hend : atInputEnd row pos = false := by
      rw [atInputEnd, decide_eq_false_iff_not]
      intro hle
      rw [List.drop_eq_nil_of_le hle] at hd'
      cases hd'
    have ih := minus_deep S hs hn f k (pos + 1) row
      (RuleKind.strengthRight (.prefix 400)) e (by omega)
      (by rw [← List.drop_drop, hd']; rfl)
    rw [pratt_succ, prattBody, prattStart]
    simp only [hend, Bool.false_eq_true, if_false, ht, M.ok_bind, ih, M.error_bind]

/-! ## Sums -/

theorem sums_cons (n : Nat) : ∃ l, sums n = sy '∞' :: l ∧ (l = [] ∧ n = 0 ∨ ∃ k, n = k + 1 ∧ l = sy '+' :: sums k) := by
  cases n with
  | zero => exact ⟨[], rfl, .inl ⟨rfl, rfl⟩⟩
  | succ k => exact ⟨_, rfl, .inr ⟨k, rfl, rfl⟩⟩

theorem sum_start (S : Std x g m) (hx : x.Usual) {call : Rec} {row : Row} {pos n : Nat} {e : Ending}
    (hd : row.drop pos = sums n) : ∃ t, prattStart call g row e pos = .ok (.left t, pos + 1) ∧
      t.lo = pos ∧ t.hi = pos + 1 := by
  obtain ⟨l, hl, hl'⟩ := sums_cons n
  rw [hl] at hd
  have hend : atInputEnd row pos = false := by
    rw [atInputEnd, decide_eq_false_iff_not]
    intro hle
    rw [List.drop_eq_nil_of_le hle] at hd
    cases hd
  have hs : isSym [' '] l.head? = false ∧ isScript l.head? = false := by
    rcases hl' with ⟨rfl, -⟩ | ⟨k, -, rfl⟩ <;> simp [isSym, isScript, sy]
  have hp : (shippedPrefixes.filter fun r => starts g (sy '∞' :: l) r.parser) = [] := by rfl
  have ha : (shippedAtoms.filter fun r => starts g (sy '∞' :: l) r.parser) =
      [⟨21, .atom, .symbols [['∞']] .symbol⟩] := by
    have hv : x.start '∞' = false := (hx.reserved _ (by decide +kernel)).1
    have hdg : isDigits ['∞'] = false := by decide +kernel
    simp [shippedAtoms, starts, beginsWith, isSym_symbol, sy, hdg, isIdentifierStart, S.start, hv]
  obtain ⟨t, h1, h2⟩ := symbol_rule S (call := call) (name := 21) (kind := .atom) (ty := .symbol) hd
    (by decide) hs.1 hs.2
  refine ⟨t, ?_, h2⟩
  have e1 : parseIter call g row pos g.prefixes = .ok none := by
    rw [S.prefixes, parseIter_starts (i := 0) hd (by rfl), hp]; rfl
  have e2 : parseIter call g row pos g.atoms =
      .ok (some (t, ⟨21, .atom, .symbols [['∞']] .symbol⟩, pos + 1)) := by
    rw [S.atoms, parseIter_starts (i := 0) hd (by rfl), ha, parseIter, h1]; rfl
  unfold prattStart
  simp only [hend, Bool.false_eq_true, if_false, e1, e2, M.ok_bind]

theorem sum_infix (S : Std x g m) {call : Rec} {row : Row} {pos n : Nat}
    (hd : row.drop pos = sy '+' :: sums n) : ∃ t, parseIter call g row pos g.infixes =
      .ok (some (t, ⟨15, .leftInfix 100, .symbols [['+']] .operator⟩, pos + 1)) ∧ t.lo = pos ∧
      t.hi = pos + 1 := by
  obtain ⟨l, hl, -⟩ := sums_cons n
  have hf : (shippedInfixes.filter fun r => starts g (sy '+' :: sums n) r.parser) =
      [⟨15, .leftInfix 100, .symbols [['+']] .operator⟩] := by rw [hl]; rfl
  obtain ⟨t, h1, h2⟩ := symbol_rule S (call := call) (name := 15) (kind := .leftInfix 100) (ty := .operator)
    hd (by decide) (by rw [hl]; rfl) (by rw [hl]; rfl)
  refine ⟨t, ?_, h2⟩
  rw [S.infixes, parseIter_starts (i := 0) hd (by rfl), hf, parseIter, h1]
  rfl

/-- One call reads one summand. -/
theorem sum_one (S : Std x g m) (hx : x.Usual) {f : Nat} {row : Row} {pos n : Nat}
    (hd : row.drop pos = sums n) : ∃ res, pratt g (f + 1) row pos (100, .strong) .eof =
      .ok (res, pos + 1) ∧ res.node.lo = pos ∧ res.node.hi = pos + 1 ∧
      (n = 0 → ∃ t, res = .stop t) ∧ (n ≠ 0 → ∃ t, res = .expression t) := by
  obtain ⟨t, h1, h2, h3⟩ := sum_start S hx (call := pratt g f) (e := .eof) hd
  rw [pratt_succ, prattBody, h1]
  simp only [M.ok_bind]
  have hd1 : row.drop (pos + 1) = (sums n).tail := by rw [← List.drop_drop, hd, List.drop_one]
  rw [prattLoop]
  cases n with
  | zero =>
    have hend : atInputEnd row (pos + 1) = true := by
      rw [atInputEnd, decide_eq_true_eq]
      exact List.drop_eq_nil_iff.1 hd1
    simp only [hend, if_true]
    exact ⟨_, rfl, h2, h3, fun _ => ⟨t, rfl⟩, fun h => absurd rfl h⟩
  | succ n =>
    have hd2 : row.drop (pos + 1) = sy '+' :: sums n := hd1
    have hend : atInputEnd row (pos + 1) = false := by
      rw [atInputEnd, decide_eq_false_iff_not]
      intro hle
      rw [List.drop_eq_nil_of_le hle] at hd2
      cases hd2
    obtain ⟨o, h4, -⟩ := sum_infix S (call := pratt g f) hd2
    have hlt : Power.lt (RuleKind.strengthLeft (.leftInfix 100)) (100, .strong) = true := by decide
    simp only [hend, Bool.false_eq_true, if_false, h4, M.ok_bind, hlt, if_true]
    exact ⟨_, rfl, h2, h3, nofun, fun _ => ⟨t, rfl⟩⟩

/-- A node for an infix operator between two operands that touch it. -/
theorem buildInfix_at {l o r : SNode} (name : Nat) (h1 : l.lo ≤ l.hi) (h2 : l.hi = o.lo) (h3 : o.lo ≤ o.hi)
    (h4 : o.hi = r.lo) (h5 : r.lo ≤ r.hi) :
    ∃ t, buildInfix name o l r = .ok t ∧ t.lo = l.lo ∧ t.hi = r.hi := by
  refine ⟨.children name l.lo r.hi [l, o, r], ?_, rfl, rfl⟩
  have e1 : combineRanges l.range (combineRanges o.range r.range) = (l.lo, r.hi) := by
    simp only [combineRanges, SNode.range, Prod.mk.injEq]
    omega
  unfold buildInfix
  simp only [e1]
  simp only [SNode.new, SNode.combinedRange, SNode.contiguousFrom, h2, h4, beq_self_eq_true, decide_true, massert, if_true,
    M.ok_bind, Nat.le_refl, Bool.and_self, SNode.make]

theorem sum_loop (S : Std x g m) (hx : x.Usual) {f : Nat} {row : Row} : ∀ (n k pos : Nat) (left : SNode),
    row.drop pos = (sums n).tail → left.hi = pos → left.lo ≤ pos → pos ≤ row.length → n < k →
    ∃ res, prattLoop (pratt g (f + 1)) g row (0, .weak) .eof k left pos = .ok (res, row.length)
  | n, 0, _, _, _, _, _, _, h => by omega
  | 0, k + 1, pos, left, hd, _, _, hp, _ => by
    have hle : row.length ≤ pos := List.drop_eq_nil_iff.1 hd
    have hend : atInputEnd row pos = true := by rw [atInputEnd, decide_eq_true_eq]; exact hle
    rw [prattLoop]
    simp only [hend, if_true]
    exact ⟨.stop left, by rw [Nat.le_antisymm hp hle]⟩
  | n + 1, k + 1, pos, left, hd, hhi, hlo, hp, hk => by
    have hd2 : row.drop pos = sy '+' :: sums n := hd
    have hd3 : row.drop (pos + 1) = sums n := by rw [← List.drop_drop, hd2]; rfl
    have hd4 : row.drop (pos + 1 + 1) = (sums n).tail := by
      rw [← List.drop_drop, hd3, List.drop_one]
    have hlen : pos + 2 ≤ row.length := by
      have h := congrArg List.length hd2
      obtain ⟨l, hl, -⟩ := sums_cons n
      rw [hl] at h
      simp only [List.length_drop, List.length_cons] at h
      omega
    have hend : atInputEnd row pos = false := by
      rw [atInputEnd, decide_eq_false_iff_not]
      omega
    obtain ⟨o, h4, h5, h6⟩ := sum_infix S (call := pratt g (f + 1)) hd2
    obtain ⟨res, h7, h8, h9, h10, h11⟩ := sum_one S hx (f := f) hd3
    obtain ⟨t, h12, h13, h14⟩ := buildInfix_at 15 (l := left) (o := o) (r := res.node) (by omega) (by omega)
      (by omega) (by omega) (by omega)
    have hlt : Power.lt (RuleKind.strengthLeft (.leftInfix 100)) (0, .weak) = false := by decide
    have hr : RuleKind.strengthRight (.leftInfix 100) = (100, .strong) := rfl
    rw [prattLoop]
    simp only [hend, Bool.false_eq_true, if_false, h4, M.ok_bind, hlt, hr, h7, h12]
    by_cases hn : n = 0
    · obtain ⟨u, rfl⟩ := h10 hn
      refine ⟨.stop t, ?_⟩
      have : row.length = pos + 1 + 1 := by
        subst hn
        have h := List.drop_eq_nil_iff.1 hd4
        omega
      rw [this]
    · obtain ⟨u, rfl⟩ := h11 hn
      exact sum_loop S hx n k (pos + 1 + 1) t hd4 (by omega) (by omega) hlen (by omega)

theorem sums_length (n : Nat) : (sums n).length = 2 * n + 1 := by
  induction n with
  | zero => rfl
  | succ n ih => simp only [sums, List.length_cons, ih]; omega

/-- Two calls suffice for a sum. -/
theorem sum_two (S : Std x g m) (hx : x.Usual) (n : Nat) : ∃ t, g.parseFuel 2 (sums n) = .ok t := by
  obtain ⟨t, h1, h2, h3⟩ := sum_start S hx (call := pratt g 1) (row := sums n) (pos := 0) (e := .eof) rfl
  obtain ⟨res, h4⟩ := sum_loop S hx (f := 0) (row := sums n) n ((sums n).length + 1) 1 t
    (List.drop_one ..) h3 (by omega) (by have := sums_length n; omega) (by have := sums_length n; omega)
  refine ⟨res.node, ?_⟩
  unfold Grammar.parseFuel parseWhole
  rw [pratt_succ, prattBody, h1]
  simp only [M.ok_bind, h4, if_true]

/-- One call does not suffice for a sum of more than one term. -/
theorem sum_not_one (S : Std x g m) (hx : x.Usual) (n : Nat) : ¬ ∃ t, g.parseFuel 1 (sums (n + 1)) = .ok t := by
  rintro ⟨t', ht⟩
  obtain ⟨t, h1, h2, h3⟩ := sum_start S hx (call := pratt g 0) (row := sums (n + 1)) (pos := 0) (e := .eof) rfl
  have hd2 : (sums (n + 1)).drop 1 = sy '+' :: sums n := rfl
  obtain ⟨o, h4, h5, h6⟩ := sum_infix S (call := pratt g 0) hd2
  have hend : atInputEnd (sums (n + 1)) 1 = false := by
    rw [atInputEnd, decide_eq_false_iff_not, sums_length]
    omega
  have hlt : Power.lt (RuleKind.strengthLeft (.leftInfix 100)) (0, .weak) = false := by decide
  have h0 : ∀ p a e, pratt g 0 (sums (n + 1)) p a e = .error .fuel := fun _ _ _ => rfl
  unfold Grammar.parseFuel parseWhole at ht
  rw [pratt_succ, prattBody, h1] at ht
  simp only [M.ok_bind, prattLoop, hend, Bool.false_eq_true, if_false, h4, hlt, h0, M.error_bind] at ht
  cases ht

theorem fuel_zero (g : Grammar) (row : Row) : ¬ ∃ t, g.parseFuel 0 row = .ok t := by
  rintro ⟨t, ht⟩
  cases ht

end Aftermath
