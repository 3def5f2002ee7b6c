import Verif.Spec.Tokens
import Verif.Props.Pending

/-! # A token of any symbols left of the caret -/

namespace Aftermath

variable {T : Type} {env : Env T}

theorem matchLoop_zero (parser : Str) (count : Nat) (rest : List Node) :
    ∃ n, matchLoop parser 0 count rest = .ok (0, n) ∧ count ≤ n := by
  induction rest generalizing count with
  | nil => exact ⟨count, rfl, Nat.le_refl _⟩
  | cons x rest ih =>
    cases x with
    | container v cells w => exact ⟨count, rfl, Nat.le_refl _⟩
    | symbol s =>
      rw [matchLoop]
      have : takeBytes parser 0 = some [] := by cases parser <;> simp [takeBytes]
      rw [this]
      simp only
      split
      · obtain ⟨n, h1, h2⟩ := ih (count + 1)
        exact ⟨n, by simpa using h1, by omega⟩
      · exact ⟨count, rfl, Nat.le_refl _⟩

theorem matchLoop_reach {parser : Str} (init : List Str) (post : Str) (rest : List Node)
    (count : Nat) (h : parser = init.flatten ++ post) :
    ∃ n, matchLoop parser (utf8Len init.flatten) count ((init.map Node.symbol).reverse ++ rest) =
      .ok (0, n) ∧ count ≤ n := by
  induction init using List.reverseRecOn generalizing post count with
  | nil => simpa using matchLoop_zero parser count rest
  | append_singleton init s ih =>
    have ht : takeBytes parser (utf8Len (init ++ [s]).flatten) = some ((init ++ [s]).flatten) := by
      rw [h]; exact takeBytes_append _ _
    have hs : s.isSuffixOf ((init ++ [s]).flatten) = true := by
      rw [List.isSuffixOf_iff_suffix]; simp
    have e : ((init ++ [s]).map Node.symbol).reverse ++ rest =
        .symbol s :: ((init.map Node.symbol).reverse ++ rest) := by simp
    rw [e, matchLoop, ht]
    simp only
    rw [if_pos hs]
    have e2 : utf8Len (init ++ [s]).flatten - utf8Len s = utf8Len init.flatten := by
      simp
    obtain ⟨n, h1, h2⟩ := ih (s ++ post) (count + 1) (by simp [h])
    rw [e2]
    exact ⟨n, h1, by omega⟩

/-- A complete match means that the symbols spell the rule, and that the last is one character. -/
theorem complete_spells {rule : AutocompleteRule} {row : Row} {o minLen : Nat}
    {ms : List RuleMatch} (ha : Ascii rule.parser) (h : rule.matches row o minLen = .ok ms)
    {m : RuleMatch} (hm : m ∈ ms) (hc : m.isComplete = true) :
    ∃ init c, SymbolsLeftOf row o (init ++ [[c]]) ∧ (init ++ [[c]]).flatten = rule.parser ∧
      m.inputMatchLength = (init ++ [[c]]).length := by
  obtain ⟨hr, -, init, last, h1, h2, ⟨post, h3⟩, h4, h5⟩ := C30_sound h hm
  have hc : m.ruleMatchLength = utf8Len rule.parser := by
    have := eq_of_beq hc
    rw [hr] at this; exact this
  rw [h5, ha.utf8Len] at hc
  have hi : Ascii init.flatten := by
    intro c hc
    refine ha c ?_
    rw [← h3]; simp only [List.flatten_append, List.mem_append]
    exact Or.inl (Or.inl hc)
  rw [hi.utf8Len, ← h3] at hc
  simp only [List.flatten_append, List.length_append, List.flatten_cons, List.flatten_nil,
    List.append_nil] at hc
  have hl : 0 < last.length := List.length_pos_of_ne_nil h4
  match last, h4 with
  | [c], _ =>
    refine ⟨init, c, h1, ?_, h2⟩
    have : post = [] := by
      simp only [List.length_singleton] at hc
      exact List.eq_nil_of_length_eq_zero (by omega)
    rw [← h3, this, List.append_nil]
  | c :: d :: l, _ => simp at hc; omega

/-- Matching a rule anywhere: it panics exactly behind the end of the row and behind an empty
symbol, and otherwise is complete exactly if the symbols spell the rule. -/
theorem matches_exact {rule : AutocompleteRule} (hrule : rule.parser ≠ [])
    (ha : Ascii rule.parser) (vs : Row) (o : Nat) :
    ((vs.length < o ∨ SymbolsLeftOf vs o [[]]) ∧ ∃ x, rule.matches vs o 1 = .error x) ∨
    (¬ (vs.length < o ∨ SymbolsLeftOf vs o [[]]) ∧ ∃ ms, rule.matches vs o 1 = .ok ms ∧
      (ms.any RuleMatch.isComplete = true ↔ Completes rule vs o)) := by
  have hne : rule.parser.isEmpty = false := by simpa using hrule
  by_cases ho : vs.length < o
  · refine Or.inl ⟨Or.inl ho, .outOfRange, ?_⟩
    unfold AutocompleteRule.matches
    rw [hne]
    simp only [Bool.not_false, massert, if_true, M.ok_bind]
    rw [if_neg (by omega)]
  · have ho : o ≤ vs.length := by omega
    by_cases hs : SymbolsLeftOf vs o [[]]
    · exact Or.inl ⟨Or.inr hs, C31_empty_panics ho hs⟩
    · refine Or.inr ⟨by rintro (h | h); exacts [absurd h (by omega), hs h], ?_⟩
      obtain ⟨ms, hms⟩ := matches_ok (minLen := 1) hrule ha ho hs
      refine ⟨ms, hms, ?_⟩
      constructor
      · intro hany
        obtain ⟨m, hm, hc⟩ := List.any_eq_true.1 hany
        obtain ⟨init, c, h1, h2, -⟩ := complete_spells ha hms hm hc
        exact ⟨init, c, h1, h2⟩
      · rintro ⟨init, c, ⟨-, before, hb⟩, hfl⟩
        have hrev : (vs.take o).reverse =
            .symbol [c] :: ((init.map Node.symbol).reverse ++ before.reverse) := by
          rw [hb]; simp
        unfold AutocompleteRule.matches at hms
        rw [hne] at hms
        simp only [Bool.not_false, massert, if_true, M.ok_bind] at hms
        rw [if_pos ho, hrev] at hms
        simp only at hms
        obtain ⟨l, hl, hms⟩ := M.bind_eq_ok.1 hms
        obtain ⟨l', hl', hcomp⟩ := indicesOfFrom_complete (Nat.le_refl _)
          (show ([c] : Str) ≠ [] by simp) ha (Nat.zero_le _)
        rw [show indicesOf [c] rule.parser = .ok l' from hl'] at hl
        cases hl
        have hsound := indicesOfFrom_sound (Nat.le_refl _) hl'
        obtain ⟨ms', hms', hcm⟩ := matchCandidates_complete (rule := rule)
          (rev := .symbol [c] :: ((init.map Node.symbol).reverse ++ before.reverse))
          (minLen := 1) (is := l) (by
            intro i hi
            obtain ⟨-, pre, post, h1, h2⟩ := hsound.1 i hi
            exact ⟨pre, [c] ++ post, by simp [h1], h2⟩)
        rw [hms'] at hms
        cases hms
        have hocc : OccursAt [c] rule.parser (utf8Len init.flatten) :=
          ⟨init.flatten, [], by rw [← hfl]; simp, rfl⟩
        obtain ⟨n, hn1, hn2⟩ := matchLoop_reach (parser := rule.parser) init [c]
          before.reverse 1 (by rw [← hfl]; simp)
        have hmem := hcm _ (hcomp _ (Nat.zero_le _) hocc) n hn1 hn2
        refine List.any_eq_true.2 ⟨_, hmem, ?_⟩
        simp only [RuleMatch.isComplete, beq_iff_eq]
        have hi : Ascii init.flatten := by
          intro d hd
          refine ha d ?_
          rw [← hfl]; simp only [List.flatten_append, List.mem_append]
          exact Or.inl hd
        rw [ha.utf8Len, hi.utf8Len, ← hfl]
        simp

/-- The token is what is pending. -/
theorem tokenLeft_start {ed : Editor T} {rule : AutocompleteRule} {q : RowIndices}
    {o : Nat} {row : Row} {syms : List Str} (hwf : rowWf ed.input = true)
    (h : TokenLeft env ed rule q o row syms) (x : Option MoveMode) :
    rule ∈ env.rules ∧ syms ≠ [] ∧ ∃ e, Quiet env ed e ∧ e.caret = ed.caret ∧
      ({ ed with selectionMode := x }).startAutocorrect env =
        .ok (e, some ⟨rule, ⟨q, o, o - syms.length⟩⟩) := by
  obtain ⟨e, res, m, h1, h2, h3, rfl, h5, h6, h7, h8⟩ := h
  obtain ⟨q', o', row', ms, m', g1, g2, g3, g4, g5, -, -, g6, -, -⟩ := C32_open h1
  rw [h2] at g6
  cases g6
  obtain ⟨hcc, -⟩ := collapsed_caret hwf g1
  rw [h6] at hcc
  have := congrArg MinCaret.start hcc
  simp only [MinCaret.at] at this
  cases this
  rw [h7] at g2
  cases g2
  obtain ⟨rule, hrule, ms', hms', hm'⟩ := matchesAll_mem g4 (g5.subset (List.mem_of_getElem? h2))
  obtain ⟨hr1, hr2, -⟩ := C30_sound hms' hm'
  have hq := getAutocomplete_quiet h1
  refine ⟨hr1 ▸ hrule, ?_, { e with selectionMode := x },
    ⟨hq.1.input, hq.1.undo, hq.1.parsed⟩, hq.2, ?_⟩
  · rintro rfl
    rw [h5] at hr2
    simp at hr2
  · simp only [Editor.startAutocorrect, getAutocomplete_mode x h1, M.ok_bind,
      AutocompleteResults.startAutocorrect, AutocompleteResults.getSelected, h2, munwrap, h3,
      Bool.not_true, Bool.false_eq_true, if_false, AutocompleteResults.getCaretRange, g3, h5]

/-- A pending autocorrection is always a token. -/
theorem tokenLeft_cases {ed : Editor T} (hwf : rowWf ed.input = true)
    (hv : ValidCaret ed.input ed.caret) (hr : GoodRules env.rules)
    (hsym : NoEmptySymbolLeft ed.input ed.caret) :
    (∃ e, ed.startAutocorrect env = .ok (e, none)) ∨
    ∃ rule q o row syms, TokenLeft env ed rule q o row syms := by
  obtain ⟨e, ac, hs⟩ := startAutocorrect_ok hwf hv hr hsym
  cases ac with
  | none => exact Or.inl ⟨e, hs⟩
  | some ac =>
    right
    obtain ⟨res, m, h1, h2, h3, rfl⟩ := startAutocorrect_some hs
    obtain ⟨q, o, row, ms, m', g1, g2, g3, g4, g5, -, -, g6, -, -⟩ := C32_open h1
    rw [h2] at g6
    cases g6
    obtain ⟨rule, hrule, ms', hms', hm'⟩ := matchesAll_mem g4
      (g5.subset (List.mem_of_getElem? h2))
    obtain ⟨hr1, hr2, init, last, hs1, hs2, -, -, -⟩ := C30_sound hms' hm'
    obtain ⟨hc, -⟩ := collapsed_caret hwf g1
    exact ⟨m.rule, q, o, row, init ++ [last], e, res, m, h1, h2, h3, rfl, hs2, hc, g2, hs1⟩

theorem TokenLeft.get {ed : Editor T} {rule : AutocompleteRule} {q : RowIndices} {o : Nat}
    {row : Row} {syms : List Str} (h : TokenLeft env ed rule q o row syms) :
    ∃ e res, ed.getAutocomplete env = .ok (e, some res) := by
  obtain ⟨e, res, m, h, -⟩ := h
  exact ⟨e, res, h⟩

/-- There is only one token. -/
theorem tokenLeft_unique {ed : Editor T} {rule rule' : AutocompleteRule} {q q' : RowIndices}
    {o o' : Nat} {row row' : Row} {syms syms' : List Str}
    (h : TokenLeft env ed rule q o row syms) (h' : TokenLeft env ed rule' q' o' row' syms') :
    rule = rule' ∧ q = q' ∧ o = o' ∧ syms.length = syms'.length := by
  obtain ⟨e, res, m, g1, g2, -, g4, g5, g6, -⟩ := h
  obtain ⟨e', res', m', k1, k2, -, k4, k5, k6, -⟩ := h'
  rw [g1] at k1
  cases k1
  rw [g2] at k2
  cases k2
  rw [g6] at k6
  have := congrArg MinCaret.start k6
  simp only [MinCaret.at, MinPos.mk.injEq] at this
  exact ⟨g4.symm.trans k4, this.1, this.2, g5.symm.trans k5⟩

/-- The exact panics of a pending replacement. -/
theorem apply_exact {ed : Editor T} {rule : AutocompleteRule} (hrule : rule.parser ≠ [])
    (ha : Ascii rule.parser) (hwf : rowWf ed.input = true) (r : MinRange)
    (hlen : ValidCaret ed.input ed.caret → env.cfg.checks = false →
      ed.caret.start.rowIndices.length < 2 ^ env.cfg.bits ∧
      ed.caret.stop.rowIndices.length < 2 ^ env.cfg.bits) :
    (∃ x, ed.applyAutocorrect env (some ⟨rule, r⟩) = .error x) ↔ ReplacePanics ed rule r := by
  apply panic_iff
  by_cases hv : ValidCaret ed.input ed.caret
  swap
  · refine Or.inl ⟨Or.inl hv, ?_⟩
    cases h : Caret.fromMinimal ed.input ed.caret with
    | error p => exact ⟨p, by simp only [Editor.applyAutocorrect, h, M.error_bind]⟩
    | ok c =>
      obtain ⟨h1, h2⟩ := Caret.fromMinimal_sound h
      refine absurd ?_ hv
      rw [← h2]
      exact ⟨h1.1.valid, h1.2.1.valid⟩
  obtain ⟨c, hc, hin, hcm⟩ := Caret.fromMinimal_valid hwf hv
  have hsel : selectionOf ed.input ed.caret = .ok c.selection.toMinimal := by
    simp only [selectionOf, hc, M.ok_bind]
  unfold ReplacePanics
  rw [hsel]
  cases hcs : c.selection with
  | grid g =>
    right
    refine ⟨?_, ed, by simp only [Editor.applyAutocorrect, hc, M.ok_bind, hcs]⟩
    rintro (h | ⟨rng, h, -⟩)
    · exact h hv
    · cases h
  | row cr =>
    have hpm : cr.startPosition.toMinimal = ⟨cr.toMinimal.rowIndices, cr.toMinimal.start⟩ := rfl
    by_cases hvr : ValidRange ed.input r
    swap
    · left
      refine ⟨Or.inr ⟨cr.toMinimal, rfl, Or.inl hvr⟩, ?_⟩
      cases h1 : RowRange.fromMinimal (.fromRoot ed.input) r with
      | error x =>
        exact ⟨x, by simp only [Editor.applyAutocorrect, hc, M.ok_bind, hcs, h1, M.error_bind]⟩
      | ok rr =>
        obtain ⟨h2, h3, h4⟩ := RowRange.fromMinimal_sound h1
        refine absurd ⟨_, h2.rowAt_eq, ?_, ?_⟩ hvr
        · rw [← h4]; exact h3.1
        · rw [← h4]; exact h3.2
    obtain ⟨rr, w1, w2, w3⟩ := RowRange.fromMinimal_valid hwf hvr
    have e1 : rr.start = r.start := by have := congrArg MinRange.start w2; exact this
    have e2 : rr.stop = r.stop := by have := congrArg MinRange.stop w2; exact this
    have hlo : rr.leftOffset = r.lo := by rw [rr.leftOffset_min, e1, e2]; rfl
    have hhi : rr.rightOffset = r.hi := by rw [rr.rightOffset_max, e1, e2]; rfl
    obtain ⟨row, hrow, hb1, hb2⟩ := id hvr
    have hrr : rr.focus.row = row := by
      have := w3.rowAt_eq; rw [hrow] at this; exact (Option.some.inj this).symm
    have hhib : r.hi ≤ row.length := Nat.max_le.2 ⟨hb1, hb2⟩
    have hlh : r.lo ≤ r.hi := Nat.le_trans (Nat.min_le_left _ _) (Nat.le_max_left _ _)
    have hvals : rr.values = .ok ((row.take r.hi).drop r.lo) := by
      unfold RowRange.values
      rw [hlo, hhi, hrr, if_pos hhib]
    have key : ed.applyAutocorrect env (some ⟨rule, r⟩) =
        (if rr.contains cr.startPosition then .ok ed else do
          let ms ← rule.matches ((row.take r.hi).drop r.lo) r.lo 1
          if ms.any RuleMatch.isComplete then ed.spliceAtRange env r rule.result
          else .ok ed) := by
      simp only [Editor.applyAutocorrect, hc, M.ok_bind, hcs, w1]
      split
      · rfl
      · simp only [hvals, M.ok_bind, hlo, w2]
    have hcov : rr.contains cr.startPosition = true ↔
        Covers r.rowIndices r.lo r.hi ⟨cr.toMinimal.rowIndices, cr.toMinimal.start⟩ := by
      rw [contains_iff w3, hpm, hlo, hhi]; rfl
    have hlenv : ((row.take r.hi).drop r.lo).length = r.hi - r.lo := by
      rw [List.length_drop, List.length_take]; omega
    rw [key]
    by_cases hcv : rr.contains cr.startPosition = true
    · rw [if_pos hcv]
      right
      refine ⟨?_, _, rfl⟩
      rintro (h | ⟨rng, h, h1 | ⟨row', h1, h2, -⟩⟩)
      · exact h hv
      · exact h1 hvr
      · cases h
        exact h2 (hcov.1 hcv)
    · rw [if_neg hcv]
      have hncov := fun h => hcv (hcov.2 h)
      rcases matches_exact hrule ha ((row.take r.hi).drop r.lo) r.lo with
        ⟨h1, x, hx⟩ | ⟨h1, ms, hms, hany⟩
      · left
        refine ⟨Or.inr ⟨_, rfl, Or.inr ⟨row, hrow, hncov, ?_⟩⟩, x, by rw [hx, M.error_bind]⟩
        rw [hlenv] at h1
        exact h1.imp_right Or.inl
      · rw [hms, M.ok_bind]
        rw [hlenv] at h1
        by_cases hcomp : Completes rule ((row.take r.hi).drop r.lo) r.lo
        · rw [if_pos (hany.2 hcomp)]
          have hx := splice_exact (env := env) hwf hvr rule.result (hlen hv)
          by_cases hin : r.rowIndices = [] ∧ CaretInElement ed.caret
          · exact Or.inl ⟨Or.inr ⟨_, rfl, Or.inr ⟨row, hrow, hncov, Or.inr (Or.inr ⟨hcomp, hin⟩)⟩⟩,
              hx.2 hin⟩
          · right
            constructor
            · rintro (h | ⟨rng, -, h2 | ⟨row', h2, -, h3⟩⟩)
              · exact h hv
              · exact h2 hvr
              · rw [hrow] at h2
                cases h2
                rcases h3 with h3 | h3 | ⟨-, h3⟩
                · exact h1 (Or.inl h3)
                · exact h1 (Or.inr h3)
                · exact hin h3
            · cases hsp : ed.spliceAtRange env r rule.result with
              | error x => exact absurd (hx.1 ⟨x, hsp⟩) hin
              | ok ed' => exact ⟨ed', rfl⟩
        · rw [if_neg (fun h => hcomp (hany.1 h))]
          right
          refine ⟨?_, _, rfl⟩
          rintro (h | ⟨rng, -, h2 | ⟨row', h2, -, h3⟩⟩)
          · exact h hv
          · exact h2 hvr
          · rw [hrow] at h2
            cases h2
            rcases h3 with h3 | h3 | ⟨h3, -⟩
            · exact h1 (Or.inl h3)
            · exact h1 (Or.inr h3)
            · exact hcomp h3

/-! ## The row in which a token is looked for after its element was dissolved -/

theorem track_delete_above (cfg : Cfg) (q0 : RowIndices) {a b i j start stop : Nat}
    {vs : List Node} (hv : vs.length = 1) (hai : a ≠ i) :
    (⟨q0 ++ [(a, b)] ++ [(i, j)], start, stop⟩ : MinRange).applyEdit cfg
        (.row ⟨.delete, ⟨q0 ++ [(a, b)], i⟩, vs⟩) =
      .ok ⟨q0 ++ [(if a < i then a else a - 1, b)] ++ [(i, j)], start, stop⟩ := by
  have hins : ¬ (i > i + vs.length) := by omega
  have hne : q0 ++ [(a, b)] ++ [(i, j)] ≠ q0 ++ [(a, b)] := by
    intro h; have := congrArg List.length h; simp at this
  have hget : (q0 ++ [(a, b)] ++ [(i, j)])[q0.length]? = some (a, b) := by simp
  have hset : (q0 ++ [(a, b)] ++ [(i, j)]).set q0.length (a - 1, b) =
      q0 ++ [(a - 1, b)] ++ [(i, j)] := by simp
  have hu : usub cfg (q0 ++ [(a, b)]).length 1 = .ok q0.length := by simp [usub]
  have hsw : startsWith (q0 ++ [(a, b)] ++ [(i, j)]) (q0 ++ [(a, b)]) = true :=
    startsWith_append _ _
  simp only [MinRange.applyEdit, BasicEdit.getRowIndicesEdit, RowEdit.getRowIndicesEdit,
    M.ok_bind, hsw, Bool.not_true, Bool.false_eq_true, if_false, hne, and_false,
    RowIndicesEdit.isInsert, hins, decide_false, hu, hget, munwrap,
    Nat.add_sub_cancel_left]
  rw [hv, hset]
  by_cases hlt : a < i
  · rw [if_neg (by omega), if_neg (by omega), if_pos hlt]
    by_cases hf : start ≤ stop <;> simp [hf, M.ok_bind]
  · rw [if_neg (by omega), if_pos (by omega), if_neg hlt]
    by_cases hf : start ≤ stop <;> simp [hf, M.ok_bind]

theorem track_dissolve (cfg : Cfg) (q0 : RowIndices) {a b i j start stop : Nat} {row : Row}
    (hi : i < row.length) (hai : a ≠ i) (vs : List Node) :
    (⟨q0 ++ [(a, b)] ++ [(i, j)], start, stop⟩ : MinRange).applyEdits cfg
        [deleteEdit (q0 ++ [(a, b)]) row i (i + 1), .row ⟨.insert, ⟨q0 ++ [(a, b)], i⟩, vs⟩] =
      .ok ⟨q0 ++ [(if a < i then a else a - 1, b)] ++ [(i, j)], start, stop⟩ := by
  have hlen : ((row.take (i + 1)).drop i).length = 1 := by
    rw [List.length_drop, List.length_take]; omega
  simp only [MinRange.applyEdits, deleteEdit, track_delete_above cfg q0 hlen hai, M.ok_bind]
  by_cases hlt : a < i
  · rw [if_pos hlt]
    by_cases hv : vs = []
    · subst hv
      have hne : q0 ++ [(a, b)] ++ [(i, j)] ≠ q0 ++ [(a, b)] := by
        intro h; have := congrArg List.length h; simp at this
      have hget : (q0 ++ [(a, b)] ++ [(i, j)])[q0.length]? = some (a, b) := by simp
      have hu : usub cfg (q0 ++ [(a, b)]).length 1 = .ok q0.length := by simp [usub]
      have hsw : startsWith (q0 ++ [(a, b)] ++ [(i, j)]) (q0 ++ [(a, b)]) = true :=
        startsWith_append _ _
      have hins : ¬ (i > i) := by omega
      simp only [MinRange.applyEdit, BasicEdit.getRowIndicesEdit, RowEdit.getRowIndicesEdit,
        M.ok_bind, hsw, Bool.not_true, Bool.false_eq_true, if_false, hne, and_false,
        RowIndicesEdit.isInsert, hins, decide_false, hu, hget, munwrap, List.length_nil,
        Nat.add_zero, Nat.sub_self]
      rw [if_neg (by omega), if_neg (by omega)]
      by_cases hf : start ≤ stop <;> simp [hf, M.ok_bind]
    · have := track_insert_above cfg q0 a b i j [] start stop i hv
      rw [if_neg (by omega)] at this
      rw [this]; rfl
  · rw [if_neg hlt]
    have : ¬ q0 ++ [(a, b)] <+: q0 ++ [(a - 1, b)] ++ [(i, j)] := by
      rintro ⟨t, ht⟩
      simp only [List.append_assoc, List.append_cancel_left_eq, List.cons_append,
        List.nil_append, List.cons.injEq, Prod.mk.injEq] at ht
      omega
    rw [C29_unrelated_partial cfg ⟨q0 ++ [(a - 1, b)] ++ [(i, j)], start, stop⟩ .insert _ i vs this]
    rfl

/-! ## The whole call -/

theorem replacePanics_congr {a b : Editor T} (hi : a.input = b.input) (hc : a.caret = b.caret)
    (rule : AutocompleteRule) (r : MinRange) :
    ReplacePanics a rule r ↔ ReplacePanics b rule r := by
  unfold ReplacePanics
  rw [hi, hc]

/-- The exact panics of a call with a token left of the caret that does not panic without rules. -/
theorem token_step_panics {ed ed0 : Editor T} {rule : AutocompleteRule} {q : RowIndices} {o : Nat}
    {row : Row} {syms : List Str} {op : Op} (hwf : rowWf ed.input = true)
    (hrules : GoodRules env.rules) (h : TokenLeft env ed rule q o row syms) (hop : op.Corrects)
    (hgood : op.GoodNodes env.cfg)
    (hfit : env.cfg.checks = false → rowFits env.cfg.bits ed.input = true)
    (hdeep : env.cfg.checks = false → ∀ p, ValidPos ed.input p →
      p.rowIndices.length + 1 < 2 ^ env.cfg.bits)
    (h0 : ed.step env.plain op = .ok ed0) :
    (∃ x, ed.step env op = .error x) ↔ TokenPanics ed ed0 rule q o syms.length := by
  obtain ⟨hmem, hne, e1, hq1, hqc1, hs1⟩ := tokenLeft_start hwf h ed.selectionMode
  obtain ⟨hr1, hr2⟩ := hrules rule hmem
  obtain ⟨-, -, -, -, -, -, -, -, hcaret, hrow, hleft⟩ := h
  obtain ⟨e, hs, hstep, hplain⟩ := step_plain hop hs1
  obtain ⟨⟨z, hz⟩, -⟩ := startAutocorrect_plain hs
  have hei : e.input = ed.input := by rw [hz]; cases op <;> rfl
  have heu : e.undo = ed.undo := by rw [hz]; cases op <;> rfl
  have hec : e.caret = ed.caret := by rw [hz]; cases op <;> rfl
  rw [h0] at hplain
  cases hcore : op.core env.cfg ed.input ed.caret with
  | error p => rw [hcore] at hplain; cases hplain
  | ok x =>
    rw [hcore] at hplain hstep
    simp only [M.ok_bind] at hplain hstep
    obtain ⟨ed1, hed1, hfg⟩ := outcome_ok hplain.symm
    have heq : ed1 = { ed0 with currentAutocomplete := ed1.currentAutocomplete } := forget_eq hfg
    have hed1i : ed0.input = ed1.input := by rw [heq]
    have hed1c : ed0.caret = ed1.caret := by rw [heq]
    have hed1u : ed0.undo = ed1.undo := by rw [heq]
    rw [hcaret] at hcore
    have hcase := core_case hwf hrow hleft hne hgood hfit hcore
    have hwf' := hwf
    rw [← hei] at hwf'
    apply panic_iff
    cases hcase with
    | stop =>
      right
      have hed1' : ed1 = e := (Except.ok.inj hed1).symm
      subst hed1'
      refine ⟨?_, _, hstep⟩
      have hu : ed0.undo = ed.undo := hed1u.trans heu
      rintro (⟨-, h1⟩ | ⟨h1, -⟩ | ⟨q', ⟨h1, -⟩, -⟩)
      · rw [replacePanics_congr (hed1i.trans hei) (hed1c.trans hec)] at h1
        have hv : ValidPos ed.input ⟨q, o⟩ := ⟨row, hrow, hleft.1⟩
        rcases h1 with h1 | ⟨rng, h1, h2 | ⟨row', -, h3, -⟩⟩
        · rw [hcaret] at h1
          exact h1 ⟨hv, hv⟩
        · exact h2 ⟨row, hrow, hleft.1, Nat.le_trans (Nat.sub_le _ _) hleft.1⟩
        · rw [hcaret, selectionOf_at hwf hv] at h1
          cases h1
          apply h3
          constructor
          · rw [MinPos.le_same]; exact Nat.min_le_left _ _
          · rw [MinPos.le_same]; exact Nat.le_max_left _ _
      · exact h1 hu
      · exact h1 hu
    | still m =>
      obtain ⟨c1, c2, -⟩ := conclude_none hed1
      have c2 := c2 rfl
      have hu : ed0.undo = ed.undo := by rw [hed1u, c2]; exact heu
      have hi0 : ed0.input = ed.input := by rw [hed1i, c2]; exact hei
      have hfin : ed.step env op =
          ed1.applyAutocorrect env (some ⟨rule, ⟨q, o, o - syms.length⟩⟩) := by
        rw [hstep, c2]
        simp only [Editor.conclude, Editor.finishAndAutocorrect, Editor.finish, List.isEmpty_nil,
          if_true, M.ok_bind, autocorrectFinish, MinRange.applyEdits]
      have hx := apply_exact (env := env) (ed := ed1) hr1 hr2
        (by rw [← hed1i, hi0]; exact hwf) ⟨q, o, o - syms.length⟩ (fun hv hck => by
          rw [← hed1i, hi0] at hv
          exact ⟨Nat.lt_of_succ_lt (hdeep hck _ hv.1), Nat.lt_of_succ_lt (hdeep hck _ hv.2)⟩)
      rw [← replacePanics_congr hed1i hed1c, ← hfin] at hx
      by_cases hp : ReplacePanics ed0 rule ⟨q, o, o - syms.length⟩
      · exact Or.inl ⟨Or.inl ⟨hu, hp⟩, hx.2 hp⟩
      · right
        constructor
        · rintro (⟨-, h1⟩ | ⟨h1, -⟩ | ⟨q', ⟨h1, -⟩, -⟩)
          exacts [hp h1, h1 hu, h1 hu]
        · cases hst : ed.step env op with
          | error p => exact absurd (hx.1 ⟨p, hst⟩) hp
          | ok ed' => exact ⟨ed', rfl⟩
    | @near edits p hp hne' hst =>
      obtain ⟨c1, -, c3⟩ := conclude_none hed1
      have hu : ed0.undo ≠ ed.undo := by rw [hed1u, ← heu]; exact c3 hne'
      have hc0 : ed0.caret.start.rowIndices = q := by rw [hed1c, c1]; exact hp
      right
      constructor
      · rintro (⟨h1, -⟩ | ⟨-, h1, h2⟩ | ⟨q', ⟨-, p0, a, b, i, j, h1, h2, -⟩, -⟩)
        · exact hu h1
        · exact h2 (hc0 ▸ h1)
        · rw [hc0, h2] at h1
          have := congrArg List.length h1
          simp at this
      · refine ⟨ed1, ?_⟩
        rw [hstep, ← hed1]
        rw [← hei] at hst
        exact StillIn.finish (ac := ⟨rule, ⟨q, o, o - syms.length⟩⟩) hst
    | @far p i j n rw' v cells w hq hrow2 hi hn =>
      obtain ⟨c1, -, c3⟩ := conclude_none hed1
      have hrow2' := hrow2
      rw [← hei] at hrow2
      have hu : ed0.undo ≠ ed.undo := by rw [hed1u, ← heu]; exact c3 (by simp)
      have hc0 : ed0.caret.start.rowIndices = p := by rw [hed1c, c1]
      cases p using List.reverseRecOn with
      | nil =>
        left
        refine ⟨Or.inr (Or.inl ⟨hu, hc0, by rw [hq]; simp⟩), ?_⟩
        rw [hstep]
        refine ⟨_, far_root hwf' hrow2 hi (by rw [hq]; rfl) fun hck => ?_⟩
        have := hdeep hck ⟨[], 0⟩ ⟨_, rfl, Nat.zero_le _⟩
        simpa using this
      | append_singleton p0 ab =>
        obtain ⟨a, b⟩ := ab
        have hno : ¬ (ed0.undo = ed.undo ∧ ReplacePanics ed0 rule ⟨q, o, o - syms.length⟩) :=
          fun h1 => hu h1.1
        have hno2 : ¬ (ed0.undo ≠ ed.undo ∧ ed0.caret.start.rowIndices = [] ∧ q ≠ []) := by
          rintro ⟨-, h1, -⟩
          rw [hc0] at h1
          simp at h1
        have huniq : ∀ q', LooksAt ed ed0 q q' → a ≠ i ∧
            q' = p0 ++ [(if a < i then a else a - 1, b)] ++ [(i, j)] := by
          rintro q' ⟨-, p0', a', b', i', j', k1, k2, k3, k4⟩
          rw [hc0] at k1
          rw [hq] at k2
          obtain ⟨g1, g2⟩ := List.append_inj' k1 rfl
          obtain ⟨-, g3⟩ := List.append_inj' k2 rfl
          simp only [List.cons.injEq, Prod.mk.injEq, and_true] at g2 g3
          rw [g1, g2.1, g2.2, g3.1, g3.2]
          exact ⟨k3, k4⟩
        by_cases hai : a = i
        · subst hai
          right
          constructor
          · rintro (h1 | h1 | ⟨q', h1, -⟩)
            exacts [hno h1, hno2 h1, (huniq q' h1).1 rfl]
          · refine ⟨ed1, ?_⟩
            rw [hstep, ← hed1]
            refine StillIn.finish (ac := ⟨rule, ⟨q, o, o - syms.length⟩⟩) ?_
            rw [hq]
            exact far_still hwf' hrow2 hi hn
        · have hlt := (List.getElem?_eq_some_iff.1 hi).1
          have htr := track_dissolve env.cfg p0 (a := a) (b := b) (i := i) (j := j) (start := o)
            (stop := o - syms.length) hlt hai cells.flatten
          have hfin : ed.step env op = ed1.applyAutocorrect env (some ⟨rule,
              ⟨p0 ++ [(if a < i then a else a - 1, b)] ++ [(i, j)], o, o - syms.length⟩⟩) := by
            rw [hstep]
            simp only [Editor.conclude, Editor.finishAndAutocorrect, Editor.finish,
              List.isEmpty_cons, Bool.false_eq_true, if_false] at hed1 ⊢
            cases ha : applyEdits env.cfg e.input [deleteEdit (p0 ++ [(a, b)]) rw' i (i + 1),
                .row ⟨.insert, ⟨p0 ++ [(a, b)], i⟩, cells.flatten⟩] with
            | error x => rw [ha] at hed1; cases hed1
            | ok root' =>
              rw [ha] at hed1
              simp only [M.ok_bind, autocorrectFinish, Editor.applyAutocorrect] at hed1
              cases hed1
              simp only [M.ok_bind, autocorrectFinish, hq, htr]
          have hwf1 : rowWf ed1.input = true := by
            obtain ⟨root', k1, k2⟩ := replace_ok (cfg := env.cfg) cells.flatten hwf' hrow2
              (Nat.le_succ i) hlt
            have : ed1.input = root' := by
              simp only [Editor.conclude, Editor.finishAndAutocorrect, Editor.finish,
                List.isEmpty_cons, Bool.false_eq_true, if_false] at hed1
              simp only [Nat.succ_eq_add_one] at k1
              rw [k1] at hed1
              cases hed1
              rfl
            rw [this]
            have hw := rowAt_wf hwf' hrow2
            refine k2.wf hwf' ?_
            have hcells : rowWf cells.flatten = true := by
              rw [rowWf_iff]
              intro n hn
              obtain ⟨c, hc, hnc⟩ := List.mem_flatten.1 hn
              have hnode : (Node.container v cells w).wf = true :=
                rowWf_iff.1 hw _ (List.mem_of_getElem? hi)
              exact rowWf_iff.1 ((wf_container.1 hnode).2 c hc) n hnc
            rw [rowWf_append, rowWf_append, rowWf_take hw, rowWf_drop hw, hcells]; rfl
          have hx := apply_exact (env := env) (ed := ed1) hr1 hr2 hwf1
            ⟨p0 ++ [(if a < i then a else a - 1, b)] ++ [(i, j)], o, o - syms.length⟩
            (fun _ hck => by
              have := hdeep hck ⟨p0 ++ [(a, b)], 0⟩ ⟨_, hrow2', Nat.zero_le _⟩
              rw [c1]
              exact ⟨Nat.lt_of_succ_lt this, Nat.lt_of_succ_lt this⟩)
          rw [← replacePanics_congr hed1i hed1c, ← hfin] at hx
          by_cases hp : ReplacePanics ed0 rule
              ⟨p0 ++ [(if a < i then a else a - 1, b)] ++ [(i, j)], o, o - syms.length⟩
          · exact Or.inl ⟨Or.inr (Or.inr ⟨_, ⟨hu, p0, a, b, i, j, hc0, hq, hai, rfl⟩, hp⟩),
              hx.2 hp⟩
          · right
            constructor
            · rintro (h1 | h1 | ⟨q', h1, h2⟩)
              · exact hno h1
              · exact hno2 h1
              · rw [(huniq q' h1).2] at h2
                exact hp h2
            · cases hst : ed.step env op with
              | error p => exact absurd (hx.1 ⟨p, hst⟩) hp
              | ok ed' => exact ⟨ed', rfl⟩

end Aftermath
