import Verif.Spec.OneToken
import Verif.Proof.NotationConverse
import Verif.Proof.SizeSharp
import Verif.Props.AnyRow

/-! # Lemmas on rows with a single token -/

namespace Aftermath

variable {x : Xid} {g : Grammar} {m : NameMap}

theorem symbols_wf (ss : List Str) : rowWf (ss.map Node.symbol) = true := by
  rw [rowWf_iff]
  intro n hn
  obtain ⟨c, -, rfl⟩ := List.mem_map.1 hn
  rfl

/-- A row that is one token is parsed to the leaf of the token. -/
theorem one_token (S : Std x g m) {row : Row} (hw : rowWf row = true)
    (hs : isSym [' '] row.head? = false)
    (hpf : (shippedPrefixes.filter fun r => starts g row r.parser) = []) {r : Rule} {rs : List Rule}
    (haf : (shippedAtoms.filter fun r => starts g row r.parser) = r :: rs) {ty : LeafType}
    {ss : List Str}
    (ht : tokenParse (pratt g 0) g r.parser row 0 = .ok (some (.leaf ty ss, row.length))) :
    g.parse row = .ok (.leaf r.name 0 row.length ty ss) := by
  have hk : r.kind = .atom := by
    have : r ∈ shippedAtoms := (List.mem_filter.1 (by rw [haf]; simp)).1
    clear * - this
    revert r; decide
  have hd : row.drop 0 = sp 0 ++ row := rfl
  have hr : ruleParse (pratt g 0) g r row 0 =
      .ok (some (.leaf r.name 0 row.length ty ss, row.length)) := by
    unfold ruleParse
    rw [parseSpaces_none (by rw [← List.head?_eq_getElem?]; exact hs)]
    simp only [M.ok_bind, ht, new_leaf, parseSpaces_none (g := g) (row := row) (pos := row.length)
      (by rw [List.getElem?_eq_none (Nat.le_refl _)]; rfl), BuiltIn.whitespacesNode, hk,
      RuleKind.takesScripts, tokenName]
    rfl
  have hn := noneOf_here (role := .prefix) (rs := shippedPrefixes) S.prefixes hd hs hpf
  have hc := chosen_first (role := .atom) (rs := shippedAtoms) (f := 0) S.atoms hd hs haf hr
  exact C72_tree S.good hw (T := .operand _) (.operand hn hc (.ends (.inl rfl))) trivial

/-- The other way round. -/
theorem one_token_inv (S : Std x g m) {row : Row} {n lo hi : Nat} {ty : LeafType} {ss : List Str}
    (h : g.parse row = .ok (.leaf n lo hi ty ss)) (hn : n ≠ 7) :
    ∃ r ∈ shippedAtoms, r.name = n ∧ ∃ call,
      tokenParse call g r.parser row 0 = .ok (some (.leaf ty ss, row.length)) := by
  have hm := made_parse S.good h
  generalize ht : SNode.leaf n lo hi ty ss = t at hm
  generalize hc : Cat.expr = k at hm
  generalize ha : 0 = a at hm
  generalize hb : row.length = b at hm
  cases hm <;> (try cases hc) <;> (try cases ht)
  · rw [S.builtIn] at hn
    exact absurd rfl hn
  · rename_i r hr h1
    have hr : r ∈ shippedAtoms := by
      rw [← S.atoms]; exact hr
    generalize ht : SNode.leaf n lo hi ty ss = t at h1
    cases h1 with
    | @tok _ _ p q _ _ t' sb sa _ hsb _ hcore hsa _ =>
      cases sb with
      | some _ => cases sa <;> cases ht
      | none =>
        cases sa with
        | some _ => cases ht
        | none =>
          simp only [wrapSpc] at ht
          subst ht
          have e1 : a = p := by
            rcases hsb with ⟨-, h⟩ | ⟨-, h, -⟩
            · exact h
            · cases h
          have e2 : q = b := by
            rcases hsa with ⟨-, h⟩ | ⟨-, h, -⟩
            · exact h
            · cases h
          subst e1 e2
          generalize hN : r.name = N at hcore
          generalize hP : r.parser = P at hcore
          generalize ht : SNode.leaf n lo hi ty ss = t at hcore
          cases hcore <;> cases ht
          subst hP ha hb
          exact ⟨r, hr, hN, _, ‹_›⟩

/-- Nothing else than the leaf of an operand has a leaf as its tree, so no prefix operator is at the
beginning. -/
theorem leaf_no_prefix (S : Std x g m) {row : Row} (hw : rowWf row = true) {n lo hi : Nat}
    {ty : LeafType} {ss : List Str} (h : g.parse row = .ok (.leaf n lo hi ty ss)) :
    NoneOf g .prefix row 0 := by
  obtain ⟨toks, T, h1, h2, -, h3, -⟩ := C72 S.good hw
  rw [h] at h3
  injection h3 with h3
  cases T <;> simp only [ETree.node, juxtaposed, reduceCtorEq] at h3
  subst h3
  rw [ETree.tokens] at h2
  subst h2
  cases h1 with
  | operand hn => exact hn
  | unknown hall =>
    obtain ⟨s, hu⟩ := hall.1.first
    exact hu.2.1 _

theorem symRun_symbols {f : Str → Bool} : ∀ (ss : List Str) (rest : Row), (∀ s ∈ ss, f s = true) →
    (∀ s, rest.head? = some (.symbol s) → f s = false) →
    symRun f (ss.map Node.symbol ++ rest) = ss
  | [], rest, _, hr => by
    have := symRun_nil (f := f) (row := rest) (pos := 0)
      (fun s hs => hr s (by rw [← hs, List.head?_eq_getElem?]))
    simpa using this
  | s :: ss, rest, h, hr => by
    simp only [List.map_cons, List.cons_append, symRun, h s (List.mem_cons_self ..), if_true]
    rw [symRun_symbols ss rest (fun c hc => h c (List.mem_cons_of_mem _ hc)) hr]

theorem symRun_prefix (f : Str → Bool) : ∀ (l : Row), (symRun f l).map Node.symbol <+: l
  | [] => List.nil_prefix
  | .container _ _ _ :: _ => List.nil_prefix
  | .symbol s :: rest => by
    rw [symRun]
    split
    · rw [List.map_cons, List.cons_prefix_cons]
      exact ⟨rfl, symRun_prefix f rest⟩
    · exact List.nil_prefix

/-- A prefix of the rest of the row that reaches its end. -/
theorem rest_eq {row : Row} {pos : Nat} {ss : List Str} (h : ss.map Node.symbol <+: row.drop pos)
    (hl : pos + ss.length = row.length) : row.drop pos = ss.map Node.symbol := by
  refine (h.eq_of_length ?_).symm
  simp only [List.length_map, List.length_drop]
  omega

theorem isDigits_iff {s : Str} : isDigits s = true ↔ ∀ c ∈ s, c.isDigit = true := by
  simp [isDigits, Char.isDigit, Char.le_def]

theorem stringBody_prefix : ∀ (n : Nat) {l : Row}, l.length ≤ n →
    (stringBody l).map Node.symbol <+: l ∧ Quotable (stringBody l)
  | _, [], _ => by rw [stringBody]; exact ⟨List.nil_prefix, .nil⟩; nofun
  | _, .container _ _ _ :: _, _ => by rw [stringBody]; exact ⟨List.nil_prefix, .nil⟩; nofun
  | n, .symbol a :: rest, hn => by
    rw [stringBody_cons]
    by_cases h1 : a = ['\\']
    · subst h1
      rw [if_pos (by decide)]
      rcases rest with _ | ⟨b | _, rest⟩
      · exact ⟨List.nil_prefix, .nil⟩
      · match n, hn with
        | n + 1, hn =>
          obtain ⟨h2, h3⟩ := stringBody_prefix n (l := rest)
            (by simp only [List.length_cons] at hn; omega)
          refine ⟨?_, .escaped h3⟩
          simp only [List.map_cons, List.cons_prefix_cons]
          exact ⟨trivial, trivial, h2⟩
      · exact ⟨List.nil_prefix, .nil⟩
    · rw [if_neg (by simpa using h1)]
      by_cases h2 : a = ['"']
      · rw [if_pos (by simpa using h2)]
        exact ⟨List.nil_prefix, .nil⟩
      · rw [if_neg (by simpa using h2)]
        match n, hn with
        | n + 1, hn =>
          obtain ⟨h3, h4⟩ := stringBody_prefix n (l := rest)
            (by simp only [List.length_cons] at hn; omega)
          refine ⟨?_, .plain h2 h1 h4⟩
          simp only [List.map_cons, List.cons_prefix_cons]
          exact ⟨trivial, h3⟩

theorem stringBody_quotable {b : List Str} (h : Quotable b) (rest : Row) :
    stringBody (b.map Node.symbol ++ .symbol ['"'] :: rest) = b := by
  induction h with
  | nil =>
    rw [List.map_nil, List.nil_append, stringBody_cons, if_neg (by decide), if_pos (by decide)]
  | plain h1 h2 _ ih =>
    rw [List.map_cons, List.cons_append, stringBody_cons, if_neg (by simpa using h2),
      if_neg (by simpa using h1), ih]
  | escaped _ ih =>
    rw [List.map_cons, List.map_cons, List.cons_append, List.cons_append, stringBody_cons,
      if_pos (by decide)]
    simp only [ih]

/-! ## Names -/

theorem name_parse (S : Std x g m) (hx : x.Usual) {ss : List Str} (h : NameText x ss) :
    g.parse (ss.map Node.symbol) = .ok (.leaf 12 0 ss.length .symbol ss) := by
  obtain ⟨⟨c, cs, rest, rfl, hc, hcs, hrest⟩, hlim⟩ := h
  have hne : ∀ r ∈ reservedChars, ∀ ds : Str, c :: cs ≠ r :: ds := by
    intro r hr ds h
    injection h with h _
    exact start_ne hx hc hr h
  have hs : ∀ r ∈ reservedChars, isSym [r] (some (.symbol (c :: cs))) = false := by
    intro r hr
    simpa [isSym] using fun h => absurd h (start_ne hx hc hr)
  have hd : isDigits (c :: cs) = false := by
    have := not_digits hx hc
    simp only [isDigits, List.all_cons, List.all_nil, Bool.and_true] at this ⊢
    rw [this, Bool.false_and]
  have hst : isIdentifierStart g (c :: cs) = true := by
    simp only [isIdentifierStart, S.start, S.continue_, hc, Bool.true_and, List.all_eq_true]
    exact hcs
  have := one_token S (row := ((c :: cs) :: rest).map Node.symbol) (r := ⟨12, .atom, .variable⟩)
    (rs := []) (ty := .symbol) (ss := (c :: cs) :: rest) (symbols_wf _) (hs ' ' (by decide +kernel))
    ?_ ?_ ?_
  · simpa using this
  · refine no_prefixes ?_ ?_
    · intro r hr
      exact hs r (by revert r; decide +kernel)
    · cases hb : beginsWith [['l'], ['i'], ['m']] (((c :: cs) :: rest).map Node.symbol) with
      | false => exact hb
      | true =>
        have hp : [['l'], ['i'], ['m']] <+: (c :: cs) :: rest := by
          generalize (c :: cs) :: rest = ss at hb
          rcases ss with _ | ⟨s1, _ | ⟨s2, _ | ⟨s3, ss⟩⟩⟩ <;> simp [beginsWith, isSym] at hb
          obtain ⟨rfl, rfl, rfl⟩ := hb
          exact ⟨ss, rfl⟩
        exact absurd hp hlim
  · have h1 := hs '(' (by decide +kernel)
    have h2 := hs '"' (by decide +kernel)
    have h3 := hs '∞' (by decide +kernel)
    have h4 := hs '⊤' (by decide +kernel)
    have h5 := hs '⊥' (by decide +kernel)
    simp [shippedAtoms, starts, beginsWith, hd, hst, h1, h2, h3, h4, h5]
  · have h1 : selectSym (isIdentifierStart g) (((c :: cs) :: rest).map Node.symbol) 0 =
        some (c :: cs, 1) := by
      simp [selectSym, hst]
    have h2 : symRun (isIdentifierContinue g) ((((c :: cs) :: rest).map Node.symbol).drop 1) =
        rest := by
      have := symRun_symbols (f := isIdentifierContinue g) rest [] (fun s hs => by
        simp only [isIdentifierContinue, S.continue_, List.all_eq_true]
        exact hrest s hs) nofun
      simpa using this
    simp only [tokenParse, parseVariable, h1, h2, Option.bind_eq_bind, Option.bind_some]
    simp
    omega

theorem name_inv (S : Std x g m) {row : Row} {lo hi : Nat} {ty : LeafType} {ss : List Str}
    (h : g.parse row = .ok (.leaf 12 lo hi ty ss)) :
    row = ss.map Node.symbol ∧ NameText x ss := by
  obtain ⟨r, hr, hn, call, ht⟩ := one_token_inv S h (by decide)
  have hp : r.parser = .variable := by
    clear * - hr hn
    revert r; decide
  rw [hp] at ht
  simp only [tokenParse, parseVariable, Except.ok.injEq] at ht
  obtain ⟨⟨a, p1⟩, h1, ht⟩ := Option.bind_eq_some_iff.1 ht
  simp only [Option.some.injEq, Prod.mk.injEq, SChildren.leaf.injEq] at ht
  obtain ⟨⟨rfl, rfl⟩, hlen⟩ := ht
  obtain ⟨k1, k2, rfl⟩ := selectSym_some h1
  have hrest := rest_eq (symRun_prefix (isIdentifierContinue g) (row.drop 1)) hlen
  have hrow : row = (a :: symRun (isIdentifierContinue g) (row.drop 1)).map Node.symbol := by
    rw [List.map_cons, ← hrest]
    have := (Cut.one k1).eq
    simpa using this
  refine ⟨hrow, ?_, ?_⟩
  · cases a with
    | nil => cases k2
    | cons c cs =>
      simp only [isIdentifierStart, S.start, S.continue_, Bool.and_eq_true, List.all_eq_true] at k2
      refine ⟨c, cs, _, rfl, k2.1, k2.2, fun s hs => ?_⟩
      have := symRun_all _ _ s hs
      simpa only [isIdentifierContinue, S.continue_, List.all_eq_true] using this
  · intro hl
    have hwf : rowWf row = true := by
      rw [hrow]; exact symbols_wf _
    have hmem : PreOp.lim.rule ∈ g.ofRole .prefix := by
      show _ ∈ g.prefixes
      rw [S.prefixes]; decide
    obtain ⟨e1, e2⟩ := mem_ofRole.1 hmem
    have hf := ruleFails_symbols (leaf_no_prefix S hwf h _ e1 e2) rfl
    have hlm := hl.map Node.symbol
    rw [← hrow] at hlm
    have h0 : leadingSpaces (row.drop 0) = 0 := by
      obtain ⟨q, hq⟩ := hlm
      rw [← hq]; rfl
    rw [h0] at hf
    exact hf hlm

/-! ## Numbers -/

theorem numberDigits_text {ss : List Str} (h : DigitsText ss) {row rest : Row} {p : Nat}
    (hd : row.drop p = ss.map Node.symbol ++ rest)
    (hr : ∀ s, rest.head? = some (.symbol s) → isDigits s = false) :
    numberDigits row p = some (ss, p + ss.length) := by
  have hrun : symRun isDigits (row.drop p) = ss := by
    rw [hd]
    exact symRun_symbols _ _ (fun s hs => isDigits_iff.2 (h.2 s hs)) hr
  simp only [numberDigits, hrun]
  simp [h.1]

theorem numberText_cons {ss : List Str} (h : NumberText ss) :
    ∃ s rest, ss = s :: rest ∧ isDigits s = true := by
  rcases h with h | ⟨a, b, rfl, h, -⟩
  · obtain ⟨s, rest, rfl⟩ := List.exists_cons_of_ne_nil h.1
    exact ⟨s, rest, rfl, isDigits_iff.2 (h.2 s (List.mem_cons_self ..))⟩
  · obtain ⟨s, rest, rfl⟩ := List.exists_cons_of_ne_nil h.1
    exact ⟨s, _, rfl, isDigits_iff.2 (h.2 s (List.mem_cons_self ..))⟩

theorem parseNumber_text {ss : List Str} (h : NumberText ss) :
    parseNumber (ss.map Node.symbol) 0 = some (.leaf .symbol ss, ss.length) := by
  rcases h with h | ⟨a, b, rfl, ha, hb⟩
  · have h1 := numberDigits_text h (row := ss.map Node.symbol) (p := 0) (rest := []) (by simp) nofun
    have h2 : selectSym (fun s => s == ['.']) (ss.map Node.symbol) (0 + ss.length) = none :=
      selectSym_none (fun s hs => by simp at hs)
    rw [Nat.zero_add] at h1 h2
    simp only [parseNumber, h1, parseFractional, h2, Option.bind_eq_bind, Option.bind_some,
      Option.bind_none]
  · have h1 := numberDigits_text ha (row := (a ++ ['.'] :: b).map Node.symbol) (p := 0)
      (rest := (['.'] :: b).map Node.symbol) (by simp) (by
        intro s hs
        simp only [List.map_cons, List.head?_cons, Option.some.injEq, Node.symbol.injEq] at hs
        subst hs
        decide +kernel)
    have h2 : selectSym (fun s => s == ['.']) ((a ++ ['.'] :: b).map Node.symbol) (0 + a.length) =
        some (['.'], 0 + a.length + 1) := by
      simp [selectSym]
    have h3 := numberDigits_text hb (row := (a ++ ['.'] :: b).map Node.symbol)
      (p := 0 + a.length + 1) (rest := []) (by simp [List.drop_append]) nofun
    simp only [parseNumber, h1, parseFractional, h2, h3, Option.bind_eq_bind, Option.bind_some]
    simp
    omega

theorem number_parse (S : Std x g m) (hx : x.Usual) {ss : List Str} (h : NumberText ss) :
    g.parse (ss.map Node.symbol) = .ok (.leaf 14 0 ss.length .symbol ss) := by
  have ht := parseNumber_text h
  obtain ⟨s, rest, rfl, hd⟩ := numberText_cons h
  have hs : ∀ r : Char, r.isDigit = false → isSym [r] (some (.symbol s)) = false := by
    intro r hr
    simp only [isSym, beq_eq_false_iff_ne, ne_eq]
    rintro rfl
    have := isDigits_iff.1 hd r (List.mem_cons_self ..)
    rw [hr] at this
    cases this
  have hst : isIdentifierStart g s = false := by
    cases s with
    | nil => rfl
    | cons c cs =>
      simp only [isIdentifierStart, S.start, hx.digits c (isDigits_iff.1 hd c (List.mem_cons_self ..)),
        Bool.false_and]
  have := one_token S (row := (s :: rest).map Node.symbol) (r := ⟨14, .atom, .number⟩)
    (rs := []) (ty := .symbol) (ss := s :: rest) (symbols_wf _) (hs ' ' (by decide +kernel))
    ?_ ?_ ?_
  · simpa using this
  · refine no_prefixes ?_ ?_
    · intro r hr
      exact hs r (by revert r; decide +kernel)
    · simp [beginsWith, hs 'l' (by decide)]
  · have h1 := hs '(' (by decide +kernel)
    have h2 := hs '"' (by decide +kernel)
    have h3 := hs '∞' (by decide +kernel)
    have h4 := hs '⊤' (by decide +kernel)
    have h5 := hs '⊥' (by decide +kernel)
    simp [shippedAtoms, starts, beginsWith, hd, hst, h1, h2, h3, h4, h5]
  · simp only [tokenParse, ht, List.length_map]

theorem numberDigits_some {row : Row} {pos p : Nat} {ds : List Str}
    (h : numberDigits row pos = some (ds, p)) :
    DigitsText ds ∧ p = pos + ds.length ∧ ds.map Node.symbol <+: row.drop pos := by
  unfold numberDigits at h
  dsimp only at h
  split at h
  · cases h
  · rename_i he
    cases h
    exact ⟨⟨by simpa using he, fun s hs => isDigits_iff.1 (symRun_all _ _ s hs)⟩, rfl,
      symRun_prefix _ _⟩

theorem number_inv (S : Std x g m) {row : Row} {lo hi : Nat} {ty : LeafType} {ss : List Str}
    (h : g.parse row = .ok (.leaf 14 lo hi ty ss)) :
    row = ss.map Node.symbol ∧ NumberText ss := by
  obtain ⟨r, hr, hn, call, ht⟩ := one_token_inv S h (by decide)
  have hp : r.parser = .number := by
    clear * - hr hn
    revert r; decide
  rw [hp] at ht
  simp only [tokenParse, parseNumber, Except.ok.injEq] at ht
  obtain ⟨⟨a, p1⟩, h1, ht⟩ := Option.bind_eq_some_iff.1 ht
  obtain ⟨ha, rfl, hpre⟩ := numberDigits_some h1
  dsimp only at ht
  cases hf : parseFractional row (0 + a.length) with
  | none =>
    rw [hf] at ht
    simp only [Option.some.injEq, Prod.mk.injEq, SChildren.leaf.injEq] at ht
    obtain ⟨⟨rfl, rfl⟩, hlen⟩ := ht
    have := rest_eq hpre hlen
    rw [List.drop_zero] at this
    exact ⟨this, .inl ha⟩
  | some dp =>
    obtain ⟨d, p2⟩ := dp
    rw [hf] at ht
    simp only [Option.some.injEq, Prod.mk.injEq, SChildren.leaf.injEq] at ht
    obtain ⟨⟨rfl, rfl⟩, rfl⟩ := ht
    unfold parseFractional at hf
    obtain ⟨⟨dot, p3⟩, h3, hf⟩ := Option.bind_eq_some_iff.1 hf
    obtain ⟨⟨e, p4⟩, h4, hf⟩ := Option.bind_eq_some_iff.1 hf
    simp only [Option.some.injEq, Prod.mk.injEq] at hf
    obtain ⟨rfl, rfl⟩ := hf
    obtain ⟨k1, k2, rfl⟩ := selectSym_some h3
    obtain rfl := eq_of_beq_sym k2
    obtain ⟨he, hlen, hpre2⟩ := numberDigits_some h4
    refine ⟨?_, .inr ⟨a, e, rfl, ha, he⟩⟩
    have h5 := rest_eq hpre2 hlen.symm
    have h6 := (Cut.of_prefix hpre).eq
    rw [List.drop_zero, List.length_map] at h6
    rw [h6, (Cut.one k1).eq, h5]
    simp

/-! ## Strings -/

theorem string_parse (S : Std x g m) (hx : x.Usual) {ss : List Str} (h : StringText ss) :
    g.parse (ss.map Node.symbol) = .ok (.leaf 41 0 ss.length .symbol ss) := by
  obtain ⟨b, hb, rfl⟩ := h
  have hst : isIdentifierStart g ['"'] = false := by
    simp [isIdentifierStart, S.start, (hx.reserved '"' (by decide +kernel)).1]
  have := one_token S (row := (['"'] :: b ++ [['"']]).map Node.symbol) (r := ⟨41, .atom, .string⟩)
    (rs := []) (ty := .symbol) (ss := ['"'] :: b ++ [['"']]) (symbols_wf _) rfl ?_ ?_ ?_
  · simpa using this
  · exact no_prefixes (by decide +kernel) rfl
  · simp [shippedAtoms, starts, beginsWith, isSym, isDigits, hst]
  · have h1 : selectSym (fun s => s == ['"']) ((['"'] :: b ++ [['"']]).map Node.symbol) 0 =
        some (['"'], 1) := rfl
    have h2 : stringBody (((['"'] :: b ++ [['"']]).map Node.symbol).drop 1) = b := by
      have := stringBody_quotable hb []
      simpa using this
    have h3 : selectSym (fun s => s == ['"']) ((['"'] :: b ++ [['"']]).map Node.symbol)
        (1 + b.length) = some (['"'], 1 + b.length + 1) := by
      simp [selectSym, Nat.add_comm 1]
    simp only [tokenParse, parseString, h1, h2, h3, Option.bind_eq_bind, Option.bind_some]
    simp
    omega

theorem string_inv (S : Std x g m) {row : Row} {lo hi : Nat} {ty : LeafType} {ss : List Str}
    (h : g.parse row = .ok (.leaf 41 lo hi ty ss)) :
    row = ss.map Node.symbol ∧ StringText ss := by
  obtain ⟨r, hr, hn, call, ht⟩ := one_token_inv S h (by decide)
  have hp : r.parser = .string := by
    clear * - hr hn
    revert r; decide
  rw [hp] at ht
  simp only [tokenParse, parseString, Except.ok.injEq] at ht
  obtain ⟨⟨a, p1⟩, h1, ht⟩ := Option.bind_eq_some_iff.1 ht
  obtain ⟨⟨c, p2⟩, h2, ht⟩ := Option.bind_eq_some_iff.1 ht
  simp only [Option.some.injEq, Prod.mk.injEq, SChildren.leaf.injEq] at ht
  obtain ⟨⟨rfl, rfl⟩, rfl⟩ := ht
  obtain ⟨k1, k2, rfl⟩ := selectSym_some h1
  obtain rfl := eq_of_beq_sym k2
  obtain ⟨h3, h4⟩ := stringBody_prefix _ (Nat.le_refl (row.drop (0 + 1)).length)
  obtain ⟨k3, k4, hlen⟩ := selectSym_some h2
  obtain rfl := eq_of_beq_sym k4
  refine ⟨?_, _, h4, rfl⟩
  have h5 := (Cut.one k1).eq
  have h6 := (Cut.of_prefix h3).eq
  rw [List.length_map] at h6
  have h7 := (Cut.one k3).eq
  rw [List.drop_zero] at h5
  rw [← hlen, List.drop_length] at h7
  rw [h6, h7] at h5
  conv => lhs; rw [h5]
  simp

end Aftermath
