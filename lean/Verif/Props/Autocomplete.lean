import Verif.Proof.Splice

/-! # Property theorems C30 to C32 and C34: autocomplete -/

namespace Aftermath

/-! ## C30 -/

/-- C30: every reported match belongs to the rule, covers the symbols directly left of the caret,
at least the requested number, and these symbols concatenated are a prefix of the rule text. The
reported rule length counts the bytes of all covered symbols but the last, plus one. -/
theorem C30_sound {rule : AutocompleteRule} {row : Row} {o minLen : Nat} {ms : List RuleMatch}
    (h : rule.matches row o minLen = .ok ms) {m : RuleMatch} (hm : m ∈ ms) :
    m.rule = rule ∧ minLen ≤ m.inputMatchLength ∧
    ∃ init last, SymbolsLeftOf row o (init ++ [last]) ∧
      m.inputMatchLength = (init ++ [last]).length ∧
      (init ++ [last]).flatten <+: rule.parser ∧ last ≠ [] ∧
      m.ruleMatchLength = utf8Len init.flatten + 1 := by
  unfold AutocompleteRule.matches at h
  obtain ⟨-, -, h1⟩ := M.bind_eq_ok.1 h
  split at h1
  · rename_i ho
    simp only at h1
    split at h1
    · rename_i s rest hrev
      obtain ⟨cands, hcands, h2⟩ := M.bind_eq_ok.1 h1
      obtain ⟨i, hi, count, hl, hmin, rfl⟩ := matchCandidates_sound h2 m hm
      obtain ⟨-, pre, post, hp, rfl⟩ := (indicesOfFrom_sound (Nat.le_refl _) hcands).1 i hi
      obtain ⟨syms, pre', rest', h3, h4, h5⟩ :=
        matchLoop_spec (parser := rule.parser) ((row.take o).reverse.drop 1) pre (s ++ post) 1 (by rw [hp, List.append_assoc])
      rw [h3] at hl
      simp only [Except.ok.injEq, Prod.mk.injEq] at hl
      obtain ⟨hl1, rfl⟩ := hl
      have hpre' := utf8Len_eq_zero hl1
      subst hpre'
      rw [hrev, List.drop_one, List.tail_cons] at h4
      have hrow : row.take o = rest'.reverse ++ (syms ++ [s]).map Node.symbol := by
        have := congrArg List.reverse hrev
        rw [List.reverse_reverse] at this
        rw [this, h4]; simp
      refine ⟨rfl, hmin, syms, s, ⟨ho, _, hrow⟩, by simp [Nat.add_comm], ⟨post, ?_⟩, ?_, ?_⟩
      · rw [hp, h5]; simp
      · rintro rfl
        unfold indicesOf at hcands
        rw [indicesOfFrom_nil _ _ _ (Nat.le_refl _)] at hcands
        cases hcands
      · rw [h5]; rfl
    · cases h1; cases hm
  · cases h1

theorem SymbolsLeftOf.unique {row : Row} {o : Nat} {a b : List Str} (ha : SymbolsLeftOf row o a)
    (hb : SymbolsLeftOf row o b) (h : a.length = b.length) : a = b := by
  obtain ⟨-, x, hx⟩ := ha
  obtain ⟨-, y, hy⟩ := hb
  rw [hx] at hy
  have := List.append_inj_right' hy (by simp [h])
  exact List.map_injective_iff.2 (fun s t h => Node.symbol.inj h) this

/-- C30, single ASCII characters: the reported rule length is the length of the prefix of the
rule text that the covered symbols spell, and the match is reported as complete exactly when they
spell all of it. -/
theorem C30_ascii {rule : AutocompleteRule} {row : Row} {o minLen : Nat} {ms : List RuleMatch}
    (h : rule.matches row o minLen = .ok ms) {m : RuleMatch} (hm : m ∈ ms) {syms : List Str}
    (hs : SymbolsLeftOf row o syms) (hlen : syms.length = m.inputMatchLength)
    (hascii : ∀ s ∈ syms, ∃ c : Char, s = [c] ∧ c.utf8Size = 1) :
    m.ruleMatchLength = utf8Len syms.flatten ∧ m.ruleMatchLength = m.inputMatchLength ∧
    (m.isComplete = true ↔ syms.flatten = rule.parser) := by
  obtain ⟨hr, -, init, last, h1, h2, h3, -, h5⟩ := C30_sound h hm
  have := hs.unique h1 (by omega)
  subst this
  obtain ⟨c, rfl, hc⟩ := hascii last (by simp)
  have hall : ∀ l : List Str, (∀ s ∈ l, ∃ c : Char, s = [c] ∧ c.utf8Size = 1) →
      utf8Len l.flatten = l.length := by
    intro l
    induction l with
    | nil => simp
    | cons s l ih =>
      intro hl
      obtain ⟨d, rfl, hd⟩ := hl s (by simp)
      have := ih (fun s hs => hl s (by simp [hs]))
      simp [hd, this]; omega
  have e : m.ruleMatchLength = utf8Len (init ++ [[c]]).flatten := by
    rw [h5]; simp [hc]
  refine ⟨e, by rw [e, hall _ hascii, hlen], ?_⟩
  unfold RuleMatch.isComplete
  rw [beq_iff_eq, e, hr]
  constructor
  · intro he
    obtain ⟨t, ht⟩ := h3
    rw [← ht, utf8Len_append] at he
    have : t = [] := utf8Len_eq_zero (by omega)
    rw [← ht, this, List.append_nil]
  · intro he; rw [he]

/-- The rule `lim` in the row `x l i` at its end: two symbols covered, incomplete. -/
example : (AutocompleteRule.matches ⟨['l', 'i', 'm'], []⟩
    [.symbol ['x'], .symbol ['l'], .symbol ['i']] 3 2) =
    .ok [⟨⟨['l', 'i', 'm'], []⟩, 2, 2⟩] := by decide +kernel

example : SymbolsLeftOf [.symbol ['x'], .symbol ['l'], .symbol ['i']] 3 [['l'], ['i']] :=
  ⟨by decide, [.symbol ['x']], rfl⟩

/-- Without the ASCII hypothesis completeness is misreported: a last symbol of several characters
counts as one byte. -/
example : ∃ ms m, AutocompleteRule.matches ⟨['l', 'i', 'm'], []⟩
      [.symbol ['l'], .symbol ['i', 'm']] 2 2 = .ok ms ∧ m ∈ ms ∧ m.isComplete = false :=
  ⟨[⟨⟨['l', 'i', 'm'], []⟩, 2, 2⟩], ⟨⟨['l', 'i', 'm'], []⟩, 2, 2⟩, by decide +kernel, by simp,
    by decide +kernel⟩

/-! ## C31 -/

/-- C31: matching an ASCII rule does not panic if the symbols left of the caret are not empty, and whenever the
symbols directly left of the caret spell a prefix of the rule text, and there are enough of them,
the match that covers exactly these symbols is reported, exactly once. -/
theorem C31_complete {rule : AutocompleteRule} {row : Row} {o minLen : Nat}
    (hrule : rule.parser ≠ []) (hascii : Ascii rule.parser) (ho : o ≤ row.length)
    (hsym : ∀ s syms, SymbolsLeftOf row o (s :: syms) → s ≠ []) :
    ∃ ms, rule.matches row o minLen = .ok ms ∧
      (∀ syms, SymbolsLeftOf row o syms → syms ≠ [] → minLen ≤ syms.length →
        syms.flatten <+: rule.parser → ∃ m ∈ ms, m.inputMatchLength = syms.length) ∧
      (ms.map RuleMatch.inputMatchLength).Nodup := by
  have hex : ∃ ms, rule.matches row o minLen = .ok ms ∧
      (∀ syms, SymbolsLeftOf row o syms → syms ≠ [] → minLen ≤ syms.length →
        syms.flatten <+: rule.parser → ∃ m ∈ ms, m.inputMatchLength = syms.length) ∧
      ms.Pairwise (fun a b => a.ruleMatchLength < b.ruleMatchLength) := by
    unfold AutocompleteRule.matches
    have hne : rule.parser.isEmpty = false := by simpa using hrule
    rw [hne]
    simp only [Bool.not_false, massert, if_true, M.ok_bind]
    rw [if_pos ho]
    have none : ∀ syms, SymbolsLeftOf row o syms → syms ≠ [] →
        ∃ s rest, (row.take o).reverse = .symbol s :: rest := by
      rintro syms ⟨-, before, hb⟩ hne
      rw [hb, ← List.dropLast_append_getLast hne]
      simp
    cases hrev : (row.take o).reverse with
    | nil =>
      refine ⟨[], rfl, ?_, by simp⟩
      intro syms hs hne
      obtain ⟨s, rest, hx⟩ := none syms hs hne
      rw [hrev] at hx; cases hx
    | cons n rest =>
      cases n with
      | container v cells w =>
        refine ⟨[], rfl, ?_, by simp⟩
        intro syms hs hne
        obtain ⟨s, rest, hx⟩ := none syms hs hne
        rw [hrev] at hx; cases hx
      | symbol s =>
        simp only
        have hs : s ≠ [] := hsym s [] ⟨ho, rest.reverse, by
          have := congrArg List.reverse hrev
          simpa using this⟩
        obtain ⟨l, hl, hc⟩ := indicesOfFrom_complete (Nat.le_refl _) hs hascii (Nat.zero_le _)
        have hsound := indicesOfFrom_sound (Nat.le_refl _) hl
        obtain ⟨ms, hms, hcm⟩ := matchCandidates_complete (rule := rule)
          (rev := .symbol s :: rest) (minLen := minLen) (is := l) (by
            intro i hi
            obtain ⟨-, pre, post, h1, h2⟩ := hsound.1 i hi
            exact ⟨pre, s ++ post, by simp [h1], h2⟩)
        refine ⟨ms, ?_, ?_, matchCandidates_sorted hms hsound.2⟩
        · simp only [indicesOf, hl, M.ok_bind, hms]
        · rintro syms ⟨-, before, hb⟩ hne hmin ⟨post, hpost⟩
          rw [← List.dropLast_append_getLast hne] at hb hpost hmin ⊢
          generalize syms.dropLast = init at hb hpost hmin ⊢
          generalize syms.getLast hne = last at hb hpost hmin ⊢
          have hrev' := congrArg List.reverse hb
          rw [hrev] at hrev'
          simp only [List.map_append, List.map_cons, List.map_nil, List.reverse_append,
            List.reverse_cons, List.reverse_nil, List.nil_append, List.cons_append,
            List.append_assoc, List.cons.injEq, Node.symbol.injEq] at hrev'
          obtain ⟨rfl, hrest⟩ := hrev'
          have hocc : OccursAt s rule.parser (utf8Len init.flatten) :=
            ⟨init.flatten, post, by rw [← hpost]; simp, rfl⟩
          have hmem := hc _ (Nat.zero_le _) hocc
          have hloop := matchLoop_complete (parser := rule.parser) init (s ++ post)
            before.reverse 1 (by rw [← hpost]; simp) (by
              intro t u htu
              refine hsym t (init ++ [s]) ⟨ho, u.reverse, ?_⟩
              have := congrArg List.reverse htu
              rw [List.reverse_reverse] at this
              rw [hb, this]
              simp)
          rw [← hrest] at hloop
          have := hcm _ hmem _ (by simpa using hloop) (by simpa [Nat.add_comm] using hmin)
          exact ⟨_, this, by simp [Nat.add_comm]⟩
  obtain ⟨ms, h1, h2, h3⟩ := hex
  refine ⟨ms, h1, h2, ?_⟩
  rw [List.Nodup, List.pairwise_map]
  refine List.Pairwise.imp_of_mem ?_ h3
  intro a b ha hb hab heq
  obtain ⟨-, -, i1, l1, p1, p2, -, -, p5⟩ := C30_sound h1 ha
  obtain ⟨-, -, i2, l2, q1, q2, -, -, q5⟩ := C30_sound h1 hb
  have := p1.unique q1 (by omega)
  have h4 := List.append_inj_left' this rfl
  subst h4
  omega

example : Ascii ['l', 'i', 'm', 's', 'u', 'p'] := by unfold Ascii; decide

/-- A rule in which the symbol left of the caret occurs twice: `s u m` and only the matching
occurrence counts. -/
example : (AutocompleteRule.matches ⟨['s', 'u', 's'], []⟩
    [.symbol ['s'], .symbol ['u'], .symbol ['s']] 3 1) =
    .ok [⟨⟨['s', 'u', 's'], []⟩, 1, 1⟩, ⟨⟨['s', 'u', 's'], []⟩, 3, 3⟩] := by decide +kernel

/-- C31, the excluded case: an empty symbol left of the caret makes every rule panic. -/
theorem C31_empty_panics {rule : AutocompleteRule} {row : Row} {o minLen : Nat}
    (ho : o ≤ row.length) (hs : SymbolsLeftOf row o [[]]) :
    ∃ e, rule.matches row o minLen = .error e := by
  unfold AutocompleteRule.matches
  by_cases hne : rule.parser.isEmpty = true
  · exact ⟨.assertion, by rw [hne]; rfl⟩
  · have hne : rule.parser.isEmpty = false := by simpa using hne
    rw [hne]
    simp only [Bool.not_false, massert, if_true, M.ok_bind]
    rw [if_pos ho]
    obtain ⟨-, before, hb⟩ := hs
    have hrev : (row.take o).reverse = .symbol [] :: before.reverse := by rw [hb]; simp
    rw [hrev]
    simp only [indicesOf, indicesOfFrom_nil _ _ _ (Nat.le_refl _), M.error_bind]
    exact ⟨_, rfl⟩

example : SymbolsLeftOf [.symbol ['x'], .symbol []] 2 [[]] := ⟨by decide, [.symbol ['x']], rfl⟩

/-! ## C32 -/

variable {T : Type} {env : Env T}

theorem matchesAll_mem {rules : List AutocompleteRule} {row : Row} {o minLen : Nat}
    {ms : List RuleMatch} (h : matchesAll rules row o minLen = .ok ms) {m : RuleMatch} (hm : m ∈ ms) :
    ∃ rule ∈ rules, ∃ ms', rule.matches row o minLen = .ok ms' ∧ m ∈ ms' := by
  induction rules generalizing ms with
  | nil => cases h; cases hm
  | cons r rs ih =>
    simp only [matchesAll] at h
    obtain ⟨a, ha, h1⟩ := M.bind_eq_ok.1 h
    obtain ⟨b, hb, h2⟩ := M.bind_eq_ok.1 h1
    cases h2
    rcases List.mem_append.1 hm with hm | hm
    · exact ⟨r, by simp, a, ha, hm⟩
    · obtain ⟨r', hr', x⟩ := ih hb hm
      exact ⟨r', by simp [hr'], x⟩

/-- C32: an open autocompletion list belongs to the collapsed selection of the caret, contains
exactly the matches of all rules there (a rearrangement of the list over all rules), sorted by
matched length (with the order of the rules among equal lengths), is not empty, and its selected index is inside. If the list still contains the
rule last selected, this rule is selected again. The rule selected is remembered, nothing else in
the editor changes. -/
theorem C32_open {ed ed' : Editor T} {res : AutocompleteResults}
    (h : ed.getAutocomplete env = .ok (ed', some res)) :
    ∃ q o row ms m, selectionOf ed.input ed.caret = .ok (.row ⟨q, o, o⟩) ∧
      rowAt ed.input q = some row ∧ res.caretPosition = ⟨q, o⟩ ∧
      matchesAll env.rules row o 2 = .ok ms ∧ res.matches'.Perm ms ∧
      res.matches'.Pairwise (fun a b => a.ruleMatchLength ≤ b.ruleMatchLength) ∧
      (∀ k, res.matches'.filter (fun x => x.ruleMatchLength == k) =
        ms.filter (fun x => x.ruleMatchLength == k)) ∧
      res.matches'[res.selectedIndex]? = some m ∧
      (∀ last, ed.currentAutocomplete = some last → (∃ x ∈ res.matches', x.rule = last) →
        m.rule = last) ∧
      ed' = { ed with currentAutocomplete := some m.rule } := by
  obtain ⟨q, o, row, ms, h1, h2, h3, h4, h5, h6, h7, h8, h9, h10⟩ := getAutocomplete_some h
  have hm : res.matches'[res.selectedIndex]? = some res.matches'[res.selectedIndex] :=
    List.getElem?_eq_getElem h8
  refine ⟨q, o, row, ms, _, h1, h2, h6, h4, ?_, ?_, ?_, hm, ?_, ?_⟩
  · rw [h7]; exact sortMatches_perm _
  · rw [h7]; exact sortMatches_sorted _
  · rw [h7]; exact sortMatches_filter _
  · intro last hl hex
    rw [hl] at h9
    simp only at h9
    cases hf : res.matches'.findIdx? (fun m => m.rule == last) with
    | none =>
      rw [List.findIdx?_eq_none_iff] at hf
      obtain ⟨x, hx, hxl⟩ := hex
      have := hf x hx
      simp [hxl] at this
    | some i =>
      rw [hf, Option.getD_some] at h9
      obtain ⟨hi, hp, -⟩ := List.findIdx?_eq_some_iff_getElem.1 hf
      have : res.matches'[res.selectedIndex] = res.matches'[i] := by congr 1
      rw [this]; simpa using hp
  · rw [h10, hm]; rfl

/-- C32: moving the selection in an open list moves it by one, or not at all at the end of the
list, and remembers the rule of a match of the list. -/
theorem C32_move {ed e : Editor T} {res : AutocompleteResults} (dir : VDir)
    (h : ed.getAutocomplete env = .ok (e, some res)) :
    ∃ m, res.matches'[movedIndex dir res.selectedIndex res.matches'.length]? = some m ∧
      ed.moveInAutocomplete env dir =
        .ok ({ ed with currentAutocomplete := some m.rule }, true) := by
  obtain ⟨q, o, row, ms, m0, -, -, -, -, -, -, -, hsel, -, rfl⟩ := C32_open h
  have hlt := (List.getElem?_eq_some_iff.1 hsel).1
  unfold Editor.moveInAutocomplete
  rw [h]
  simp only [M.ok_bind]
  cases dir with
  | up =>
    simp only [movedIndex]
    obtain ⟨m, hm⟩ : ∃ m, res.matches'[res.selectedIndex - 1]? = some m :=
      ⟨_, List.getElem?_eq_getElem (by omega)⟩
    refine ⟨_, hm, ?_⟩
    simp only [AutocompleteResults.moveSelection, M.ok_bind, AutocompleteResults.getSelected]
    by_cases h0 : res.selectedIndex > 0
    · simp only [h0, if_true, hm, munwrap, M.ok_bind]
    · have : res.selectedIndex - 1 = res.selectedIndex := by omega
      rw [this] at hm
      simp only [h0, if_false, hm, munwrap, M.ok_bind, this]
  | down =>
    simp only [movedIndex]
    obtain ⟨m, hm⟩ : ∃ m, res.matches'[min (res.selectedIndex + 1) (res.matches'.length - 1)]? =
        some m := ⟨_, List.getElem?_eq_getElem (by omega)⟩
    refine ⟨_, hm, ?_⟩
    have hu : usub env.cfg res.matches'.length 1 = .ok (res.matches'.length - 1) := by
      unfold usub; rw [if_pos (by omega)]
    simp only [AutocompleteResults.moveSelection, hu, M.ok_bind, AutocompleteResults.getSelected]
    by_cases h0 : res.selectedIndex < res.matches'.length - 1
    · have e1 : min (res.selectedIndex + 1) (res.matches'.length - 1) = res.selectedIndex + 1 := by
        omega
      simp only [e1] at hm ⊢
      simp only [h0, if_true, hm, munwrap, M.ok_bind]
    · have e1 : min (res.selectedIndex + 1) (res.matches'.length - 1) = res.selectedIndex := by
        omega
      simp only [e1] at hm ⊢
      simp only [h0, if_false, hm, munwrap, M.ok_bind]

/-- C32: asking again after a move lists the same matches, and the rule moved to is selected. -/
theorem C32_stays {ed e ed' : Editor T} {res : AutocompleteResults} {dir : VDir}
    (h : ed.getAutocomplete env = .ok (e, some res))
    (hmove : ed.moveInAutocomplete env dir = .ok (ed', true)) :
    ∃ e' res' m m', ed'.getAutocomplete env = .ok (e', some res') ∧
      res'.matches' = res.matches' ∧ res'.caretPosition = res.caretPosition ∧
      res.matches'[movedIndex dir res.selectedIndex res.matches'.length]? = some m ∧
      res'.matches'[res'.selectedIndex]? = some m' ∧ m'.rule = m.rule := by
  obtain ⟨m, hm, hmv⟩ := C32_move dir h
  rw [hmove] at hmv
  have hed := (Prod.mk.inj (Except.ok.inj hmv)).1
  subst hed
  obtain ⟨e', res', h1, h2, h3⟩ := getAutocomplete_again (some m.rule) h
  obtain ⟨_, _, _, _, m', -, -, -, -, -, -, -, hsel, hkeep, -⟩ := C32_open h1
  refine ⟨e', res', m, m', h1, h2, h3, hm, hsel, ?_⟩
  exact hkeep m.rule rfl ⟨m, by rw [h2]; exact List.mem_of_getElem? hm, rfl⟩

/-- If no rule occurs twice in the list, the entry moved to itself is selected. -/
theorem C32_stays_exact {ed e ed' : Editor T} {res : AutocompleteResults} {dir : VDir}
    (h : ed.getAutocomplete env = .ok (e, some res))
    (hnd : (res.matches'.map RuleMatch.rule).Nodup)
    (hmove : ed.moveInAutocomplete env dir = .ok (ed', true)) :
    ∃ e' res', ed'.getAutocomplete env = .ok (e', some res') ∧ res'.matches' = res.matches' ∧
      res'.selectedIndex = movedIndex dir res.selectedIndex res.matches'.length := by
  obtain ⟨e', res', m, m', h1, h2, -, h3, h4, h5⟩ := C32_stays h hmove
  refine ⟨e', res', h1, h2, ?_⟩
  rw [h2] at h4
  have e1 : (res.matches'.map RuleMatch.rule)[res'.selectedIndex]? = some m.rule := by
    rw [List.getElem?_map, h4, Option.map_some, h5]
  have e2 : (res.matches'.map RuleMatch.rule)[movedIndex dir res.selectedIndex
      res.matches'.length]? = some m.rule := by
    rw [List.getElem?_map, h3, Option.map_some]
  obtain ⟨l1, g1⟩ := List.getElem?_eq_some_iff.1 e1
  obtain ⟨l2, g2⟩ := List.getElem?_eq_some_iff.1 e2
  exact (List.getElem_inj hnd).1 (g1.trans g2.symm)

/-- The rules of the examples. -/
def exampleRules : List AutocompleteRule :=
  [⟨['l', 'i', 'm'], [.symbol ['L']]⟩, ⟨['l', 'i', 'm', 's', 'u', 'p'], [.symbol ['S']]⟩]

/-- An editor with `x l i m` and the caret at the end. -/
def exampleEditor : Editor Unit :=
  { Editor.new with
    input := [.symbol ['x'], .symbol ['l'], .symbol ['i'], .symbol ['m']]
    caret := .at ⟨[], 4⟩ }

/-- Two matches are listed, the first one is selected. Moving down selects the second one. -/
example : (do
    let (ed, r) ← exampleEditor.getAutocomplete ⟨.dev, fun _ => .ok (), exampleRules⟩
    let (ed', moved) ← ed.moveInAutocomplete ⟨.dev, fun _ => .ok (), exampleRules⟩ .down
    let (_, r') ← ed'.getAutocomplete ⟨.dev, fun _ => .ok (), exampleRules⟩
    .ok (r.map AutocompleteResults.selectedIndex, r.map (fun x : AutocompleteResults => x.matches'.length), moved,
      r'.map AutocompleteResults.selectedIndex)) =
    .ok (some 0, some 2, true, some 1) := by decide +kernel

/-- The condition of `C32_stays_exact` is needed: with the rule `aaa` and the row `a a a` there are
two matches with the same rule, and moving down never gets past the first one. -/
theorem C32_stuck : ∃ (env : Env Unit) (ed : Editor Unit), (do
    let (ed, r) ← ed.getAutocomplete env
    let (ed', moved) ← ed.moveInAutocomplete env .down
    let (_, r') ← ed'.getAutocomplete env
    .ok (r.map AutocompleteResults.selectedIndex, r.map (fun x : AutocompleteResults => x.matches'.length), moved,
      r'.map AutocompleteResults.selectedIndex)) =
    .ok (some 0, some 2, true, some 0) :=
  ⟨⟨.dev, fun _ => .ok (), [⟨['a', 'a', 'a'], []⟩]⟩,
    { Editor.new with
      input := [.symbol ['a'], .symbol ['a'], .symbol ['a']]
      caret := .at ⟨[], 3⟩ }, by decide +kernel⟩

/-! ## C34 -/

/-- C34: accepting an open autocompletion succeeds, and replaces exactly the symbols directly left
of the caret that the selected match covers, as one undo step. -/
theorem C34_accept {ed e : Editor T} {res : AutocompleteResults} (hwf : rowWf ed.input = true)
    (h : ed.getAutocomplete env = .ok (e, some res)) :
    ∃ ed' m q o row syms, ed.finishAutocomplete env true = .ok (ed', true) ∧
      res.matches'[res.selectedIndex]? = some m ∧ m.rule ∈ env.rules ∧
      ed.caret = .at ⟨q, o⟩ ∧ rowAt ed.input q = some row ∧
      SymbolsLeftOf row o syms ∧ syms.length = m.inputMatchLength ∧ 2 ≤ syms.length ∧
      syms.flatten <+: m.rule.parser ∧
      ReplacedAt ed.input q row (row.take (o - syms.length) ++ m.rule.result ++ row.drop o)
        ed'.input ∧
      ∃ a, ed'.undo = ed.undo.push a := by
  obtain ⟨q, o, row, ms, m, h1, h2, h3, h4, h5, -, -, h6, -, rfl⟩ := C32_open h
  have hmem : m ∈ ms := h5.subset (List.mem_of_getElem? h6)
  obtain ⟨rule, hrule, ms', hms', hm'⟩ := matchesAll_mem h4 hmem
  obtain ⟨hr1, hr2, init, last, hs1, hs2, hs3, -, -⟩ := C30_sound hms' hm'
  obtain ⟨hc, hv⟩ := collapsed_caret hwf h1
  have ho : o ≤ row.length := hs1.1
  have hrange : res.getCaretRange m = ⟨q, o, o - m.inputMatchLength⟩ := by
    simp [AutocompleteResults.getCaretRange, h3]
  obtain ⟨ed', hed'⟩ := splice_ok (env := env)
    (ed := { ed with currentAutocomplete := some m.rule }) hwf (range := res.getCaretRange m)
    (by rw [hrange]; exact ⟨row, h2, ho, Nat.le_trans (Nat.sub_le _ _) ho⟩)
    (by rw [hrange]; exact Or.inl (by simp [hc, MinCaret.at]))
    (by rw [hrange]; exact Or.inl (by simp [hc, MinCaret.at])) m.rule.result
  obtain ⟨⟨row', e1, e2, e3, e4, a, e5⟩, e6⟩ := splice_sound hed'
  rw [hrange] at e1 e2 e3 e4
  simp only at e1 e2 e3 e4
  rw [h2] at e1
  cases e1
  have f1 : min o (o - m.inputMatchLength) = o - (init ++ [last]).length := by omega
  have f2 : max o (o - m.inputMatchLength) = o := by omega
  rw [f1, f2] at e4
  refine ⟨ed', m, q, o, row, init ++ [last], ?_, h6, hr1 ▸ hrule, hc, h2, hs1, hs2.symm, by omega,
    hr1 ▸ hs3, e4, a, e5⟩
  unfold Editor.finishAutocomplete
  simp only [Bool.not_true, Bool.false_eq_true, if_false, h, M.ok_bind,
    AutocompleteResults.getSelected, h6, munwrap, hed']

/-- Accepting `lim` in `x l i m`. -/
example : (do
    let (ed, _) ← exampleEditor.finishAutocomplete ⟨.dev, fun _ => .ok (), exampleRules⟩ true
    .ok ed.input) = .ok [.symbol ['x'], .symbol ['L']] := by decide +kernel

end Aftermath
