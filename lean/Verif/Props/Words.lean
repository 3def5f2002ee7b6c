import Verif.Proof.Words
import Verif.Props.Ends
import Mathlib.Data.List.Infix

/-! # C75: which words are suggested and completed -/

namespace Aftermath

variable {T : Type} {env : Env T}

/-- **C75.** Behind a text, the autocompletion list is that of `suggested`, `chosen` of it is
selected, and its rule is remembered. If nothing is suggested there is no list and no rule is
remembered. -/
theorem C75_list {ed : Editor T} {q : RowIndices} {o : Nat} {row : Row} {w : Str}
    (hwf : rowWf ed.input = true) (hr : GoodRules env.rules) (hc : ed.caret = .at ⟨q, o⟩)
    (hrow : rowAt ed.input q = some row) (ht : TextLeft row o w) :
    ∃ res, ed.getAutocomplete env = .ok ({ ed with currentAutocomplete :=
        (chosen ed.currentAutocomplete (suggested env.rules w)).map Prod.fst }, res) ∧
      (res = none ↔ suggested env.rules w = []) ∧
      ∀ a, res = some a → a.caretPosition = ⟨q, o⟩ ∧
        a.matches' = (suggested env.rules w).map (fun x => ⟨x.1, x.2, x.2⟩) ∧
        ∃ x, a.matches'[a.selectedIndex]? = some ⟨x.1, x.2, x.2⟩ ∧
          chosen ed.currentAutocomplete (suggested env.rules w) = some x := by
  rcases getAutocomplete_text hwf hr hc hrow ht with ⟨h1, h2⟩ | ⟨i, x, h1, h2, h3⟩
  · refine ⟨none, ?_, by simp [h1], by simp⟩
    rw [h2, h1]
    cases ed.currentAutocomplete <;> rfl
  · refine ⟨_, by rw [h3, h2]; rfl, ?_, ?_⟩
    · simp only [reduceCtorEq, false_iff]
      intro h
      rw [h] at h1
      cases h1
    · rintro a ⟨⟩
      refine ⟨rfl, rfl, x, ?_, h2⟩
      simp only [List.getElem?_map, h1, Option.map_some]
      rfl

/-- **C75.** The token of a rule is completed if and only if all characters of its word are what the
selected suggestion covers. -/
theorem C75_completed {ed : Editor T} {q : RowIndices} {o : Nat} {row : Row} {w : Str}
    (hwf : rowWf ed.input = true) (hr : GoodRules env.rules) (hc : ed.caret = .at ⟨q, o⟩)
    (hrow : rowAt ed.input q = some row) (ht : TextLeft row o w) (rule : AutocompleteRule) :
    (∃ syms, TokenLeft env ed rule q o row syms) ↔
      chosen ed.currentAutocomplete (suggested env.rules w) =
        some (rule, rule.parser.length) := by
  obtain ⟨res, h1, h2, h3⟩ := C75_list hwf hr hc hrow ht
  have hin : ∀ x, chosen ed.currentAutocomplete (suggested env.rules w) = some x →
      x ∈ suggested env.rules w := by
    intro x hx
    unfold chosen at hx
    cases hf : (ed.currentAutocomplete.bind fun r => (suggested env.rules w).find? fun x => x.1 == r) with
    | none => rw [hf] at hx; exact List.mem_of_mem_head? hx
    | some y =>
      rw [hf] at hx
      cases hx
      obtain ⟨r, -, h⟩ := Option.bind_eq_some_iff.1 hf
      exact List.mem_of_find?_eq_some h
  have hmem : ∀ x, x ∈ suggested env.rules w → x.1 ∈ env.rules ∧ fits w x.2 x.1 = true := by
    intro x hx
    unfold suggested at hx
    obtain ⟨k, -, hx⟩ := List.mem_flatMap.1 hx
    obtain ⟨r, hr', rfl⟩ := List.mem_map.1 hx
    exact List.mem_filter.1 hr'
  constructor
  · rintro ⟨syms, e, res', m, g1, g2, g3, g4, g5, -⟩
    rw [h1] at g1
    have hres := (Prod.mk.inj (Except.ok.inj g1)).2
    obtain ⟨-, -, x, k1, k2⟩ := h3 res' hres
    rw [k1] at g2
    cases g2
    obtain ⟨e1, e2⟩ := hmem x (hin x k2)
    rw [k2]
    have : x.2 = utf8Len x.1.parser := by simpa [RuleMatch.isComplete] using g3
    rw [(hr _ e1).2.utf8Len] at this
    rw [← g4, ← this]
  · intro hch
    obtain ⟨e1, e2⟩ := hmem _ (hin _ hch)
    obtain ⟨f1, f2, f3⟩ := fits_iff.1 e2
    cases res with
    | none => rw [h2.1 rfl] at hch; cases hc' : ed.currentAutocomplete <;> rw [hc'] at hch <;> cases hch
    | some a =>
      obtain ⟨-, -, x, k1, k2⟩ := h3 a rfl
      rw [hch] at k2
      cases k2
      refine ⟨_, _, a, _, h1, k1, ?_, rfl, ?_, hc, hrow, ht.symbolsLeft rule.parser.length⟩
      · simp [RuleMatch.isComplete, (hr _ e1).2.utf8Len]
      · simp only at f2
        simp
        omega

/-- **C75.** Accepting the suggestion behind a text replaces the characters that the selected
suggestion covers by the result of its rule, and nothing else; the caret stays where it is, even if
the row is now too short for it. If nothing is suggested, accepting does nothing. -/
theorem C75_accept {ed : Editor T} {q : RowIndices} {o : Nat} {row : Row} {w : Str}
    (hwf : rowWf ed.input = true) (hr : GoodRules env.rules) (hc : ed.caret = .at ⟨q, o⟩)
    (hrow : rowAt ed.input q = some row) (ht : TextLeft row o w) :
    (chosen ed.currentAutocomplete (suggested env.rules w) = none →
      ∃ ed', ed.finishAutocomplete env true = .ok (ed', false) ∧ ed'.input = ed.input ∧
        ed'.caret = ed.caret ∧ ed'.undo = ed.undo) ∧
    ∀ rule k, chosen ed.currentAutocomplete (suggested env.rules w) = some (rule, k) →
      ∃ ed' a, ed.finishAutocomplete env true = .ok (ed', true) ∧
        ReplacedAt ed.input q row (row.take (o - k) ++ rule.result ++ row.drop o) ed'.input ∧
        ed'.caret = ed.caret ∧ ed'.undo = ed.undo.push a := by
  obtain ⟨res, h1, h2, h3⟩ := C75_list hwf hr hc hrow ht
  constructor
  · intro hn
    have hnone : res = none := by
      cases res with
      | none => rfl
      | some a =>
        obtain ⟨-, -, x, -, h4⟩ := h3 a rfl
        rw [hn] at h4
        cases h4
    subst hnone
    refine ⟨{ ed with currentAutocomplete :=
      (chosen ed.currentAutocomplete (suggested env.rules w)).map Prod.fst }, ?_, rfl, rfl, rfl⟩
    simp only [Editor.finishAutocomplete, Bool.not_true, Bool.false_eq_true, if_false, h1, M.ok_bind]
  · intro rule k hk
    obtain ⟨a, rfl⟩ : ∃ a, res = some a := by
      cases res with
      | some a => exact ⟨a, rfl⟩
      | none =>
        rw [h2.1 rfl] at hk
        cases hl : ed.currentAutocomplete with
        | none => rw [hl] at hk; cases hk
        | some r => rw [hl] at hk; cases hk
    obtain ⟨h4, -, x, h5, h6⟩ := h3 a rfl
    rw [hk] at h6
    cases h6
    have hrange : a.getCaretRange ⟨rule, k, k⟩ = ⟨q, o, o - k⟩ := by
      simp [AutocompleteResults.getCaretRange, h4]
    obtain ⟨ed', hed'⟩ := splice_ok (env := env) (ed := { ed with currentAutocomplete :=
        (chosen ed.currentAutocomplete (suggested env.rules w)).map Prod.fst }) hwf
      (range := ⟨q, o, o - k⟩) ⟨row, hrow, ht.1, Nat.le_trans (Nat.sub_le _ _) ht.1⟩
      (Or.inl (by simp [hc, MinCaret.at])) (Or.inl (by simp [hc, MinCaret.at])) rule.result
    obtain ⟨⟨row', e1, e2, e3, e4, act, e5⟩, e6⟩ := splice_sound hed'
    simp only at e1 e2 e3 e4 e5 e6
    rw [hrow] at e1
    cases e1
    rw [min_eq_right (Nat.sub_le _ _), max_eq_left (Nat.sub_le _ _)] at e4
    refine ⟨ed', act, ?_, e4, e6, e5⟩
    simp only [Editor.finishAutocomplete, Bool.not_true, Bool.false_eq_true, if_false, h1, M.ok_bind,
      AutocompleteResults.getSelected, h5, munwrap, hrange, hed']

/-- **C75.** Whether the word of a rule is what the selected suggestion covers: the text ends with
the word, and either the rule was selected before and the word is unbordered; or the rule selected
before does not fit any more, and the word is preferred. -/
theorem C75_word {rules : List AutocompleteRule} {last : Option AutocompleteRule} {w : Str}
    {r : AutocompleteRule} :
    chosen last (suggested rules w) = some (r, r.parser.length) ↔
      r.parser <:+ w ∧ ((last = some r ∧ r ∈ rules ∧ Unbordered r) ∨
        (∀ r0, last = some r0 → r0 ∈ rules → ∀ k, fits w k r0 = false) ∧ Preferred rules r) := by
  have hfirst : (suggested rules w).head? = some (r, r.parser.length) ↔
      r.parser <:+ w ∧ Preferred rules r := by
    rw [suggested_head]
    constructor
    · rintro ⟨h1, h2⟩
      obtain ⟨h3, h4⟩ := fits_full.1 (List.find?_some h2)
      refine ⟨h4, h3, fun r' hr' => (fits_ending h4).1 (fun j hj => h1 j hj r' hr'), ?_⟩
      obtain ⟨-, before, after, rfl, h5⟩ := List.find?_eq_some_iff_append.1 h2
      refine ⟨before, after, rfl, fun r' hr' hp => ?_⟩
      have := h5 r' hr'
      rw [Bool.not_eq_true', Bool.eq_false_iff] at this
      exact this (fits_iff.2 ⟨h3, h4.length_le, by rw [suffix_drop h4]; exact hp⟩)
    · rintro ⟨h1, h2, h3, before, after, rfl, h4⟩
      refine ⟨fun j hj r' hr' => (fits_ending h1).2 (h3 r' hr') j hj, ?_⟩
      rw [List.find?_eq_some_iff_append]
      refine ⟨fits_full.2 ⟨h2, h1⟩, before, after, rfl, fun r' hr' => ?_⟩
      rw [Bool.not_eq_true', Bool.eq_false_iff]
      intro hf
      have := (fits_iff.1 hf).2.2
      rw [suffix_drop h1] at this
      exact h4 r' hr' this
  unfold chosen
  cases last with
  | none => simp [hfirst]
  | some r0 =>
    simp only [Option.bind_some, Option.some.injEq]
    cases hf : (suggested rules w).find? fun x => x.1 == r0 with
    | none =>
      rw [Option.none_or, hfirst]
      have hno : ∀ k, r0 ∈ rules → fits w k r0 = false := by
        intro k hr
        rw [Bool.eq_false_iff]
        intro hk
        have h1 : (r0, k) ∈ suggested rules w := by
          unfold suggested
          have := fits_iff.1 hk
          exact List.mem_flatMap.2 ⟨k, List.mem_range.2 (by omega),
            List.mem_map.2 ⟨r0, List.mem_filter.2 ⟨hr, hk⟩, rfl⟩⟩
        have := List.find?_eq_none.1 hf _ h1
        simp at this
      constructor
      · rintro ⟨h1, h2⟩
        refine ⟨h1, Or.inr ⟨?_, h2⟩⟩
        rintro _ rfl hr k
        exact hno k hr
      · rintro ⟨h1, ⟨rfl, h2, h3⟩ | ⟨-, h2⟩⟩
        · have := hno r0.parser.length h2
          rw [fits_full.2 ⟨h3.1, h1⟩] at this
          cases this
        · exact ⟨h1, h2⟩
    | some x =>
      rw [Option.some_or, Option.some.injEq]
      obtain ⟨h1, h2, h3, h4⟩ := suggested_find.1 hf
      constructor
      · rintro rfl
        simp only at h2 h3 h4
        subst h2
        obtain ⟨h5, h6⟩ := fits_full.1 h4
        exact ⟨h6, Or.inl ⟨rfl, h1, h5, (fits_ending h6).1 h3⟩⟩
      · rintro ⟨h5, ⟨rfl, h6, h7⟩ | ⟨h6, -⟩⟩
        · have h8 := fits_full.2 ⟨h7.1, h5⟩
          have h9 := (fits_ending h5).2 h7.2
          have : x.2 = r0.parser.length := by
            rcases Nat.lt_trichotomy x.2 r0.parser.length with h | h | h
            · rw [h9 _ h] at h4; cases h4
            · exact h
            · rw [h3 _ h] at h8; cases h8
          rw [← this, ← h2]
        · rw [h6 r0 rfl h1 x.2] at h4
          cases h4

/-- **C75.** Typing characters one by one behind a text, whatever is suggested or completed in
between: they are inserted, nothing is replaced, and the remembered rule is that of `rememberedBy`. -/
theorem C75_typed {ed : Editor T} {q : RowIndices} {o : Nat} {row : Row} {w : Str} (u : Str)
    (hwf : rowWf ed.input = true) (hr : GoodRules env.rules) (hc : ed.caret = .at ⟨q, o⟩)
    (hrow : rowAt ed.input q = some row) (ht : TextLeft row o w) :
    ∃ ed' row', ed.run env (typing u) = .ok ed' ∧ rowWf ed'.input = true ∧
      row' = row.take o ++ u.map (fun c => .symbol [c]) ++ row.drop o ∧
      ReplacedAt ed.input q row row' ed'.input ∧ ed'.caret = .at ⟨q, o + u.length⟩ ∧
      TextLeft row' (o + u.length) (w ++ u) ∧
      ed'.currentAutocomplete = rememberedBy env.rules ed.currentAutocomplete w u := by
  induction u generalizing ed o row w with
  | nil =>
    refine ⟨ed, row, rfl, hwf, by simp, .refl hrow, hc, by simpa using ht, rfl⟩
  | cons c u ih =>
    obtain ⟨res, h1, -, -⟩ := C75_list hwf hr hc hrow ht
    have hval : ValidPos ed.input ⟨q, o⟩ := ⟨row, hrow, ht.1⟩
    have hnoempty : NoEmptySymbolLeft ed.input ed.caret := by
      intro q' o' row' hc' hrow' hs
      rw [hc] at hc'
      have := congrArg MinCaret.start hc'
      simp only [MinCaret.at, MinPos.mk.injEq] at this
      obtain ⟨rfl, rfl⟩ := this
      rw [hrow] at hrow'
      cases hrow'
      have := (ht.symbols hs).2
      have hm : ([] : Str) ∈ [([] : Str)] := by simp
      rw [this] at hm
      obtain ⟨_, -, h⟩ := List.mem_map.1 hm
      cases h
    obtain ⟨e, ac, hs⟩ := startAutocorrect_ok hwf (by rw [hc]; exact ⟨hval, hval⟩) hr hnoempty
    have hcur : e.currentAutocomplete =
        (chosen ed.currentAutocomplete (suggested env.rules w)).map Prod.fst := by
      have hs' := hs
      unfold Editor.startAutocorrect at hs'
      rw [h1, M.ok_bind] at hs'
      simp only at hs'
      split at hs'
      · cases hs'; rfl
      · obtain ⟨x, -, hs'⟩ := M.bind_eq_ok.1 hs'
        cases hs'; rfl
    have hsel := selectionOf_at hwf hval
    rw [← hc] at hsel
    obtain ⟨row1, ed1, a, g1, g2, g3, g4, -⟩ := C36_type [[c]] hwf hsel hs
    simp only [Nat.min_self, Nat.max_self, List.length_singleton, List.map_cons, List.map_nil]
      at g2 g3 g4
    rw [hrow] at g2
    cases g2
    have hcur1 : ed1.currentAutocomplete = e.currentAutocomplete := by
      unfold Editor.insertAtCaret at g1
      rw [hs, M.ok_bind] at g1
      exact insertNodes_current g1
    have hrw := rowAt_wf hwf hrow
    have hwf1 : rowWf ed1.input = true := by
      refine g3.wf hwf ?_
      rw [rowWf_append, rowWf_append, rowWf_take hrw, rowWf_drop hrw]
      rfl
    have ho := ht.1
    have htk : (row.take o).length = o := by rw [List.length_take]; omega
    have ht1 : TextLeft (row.take o ++ [.symbol [c]] ++ row.drop o) (o + 1) (w ++ [c]) := by
      obtain ⟨-, before, k1, k2⟩ := ht
      refine ⟨by simp; omega, before, ?_, k2⟩
      have : (row.take o ++ [Node.symbol [c]]).length = o + 1 := by simp; omega
      rw [List.take_append_of_le_length (by omega), List.take_of_length_le (by omega), k1]
      simp
    obtain ⟨ed', row', f1, f2, f3, f4, f5, f6, f7⟩ := ih hwf1 g4 g3.rowAt_new ht1
    refine ⟨ed', row', ?_, f2, ?_, g3.trans f4, ?_, ?_, ?_⟩
    · simp only [typing, List.map_cons, Editor.run, Editor.step, g1, M.ok_bind]
      exact f1
    · rw [f3]
      have : (row.take o ++ [Node.symbol [c]]).length = o + 1 := by simp; omega
      rw [List.take_append_of_le_length (by omega), List.take_of_length_le (by omega),
        ← this, List.drop_left]
      simp
    · rw [f5, List.length_cons]; congr 2; omega
    · rw [List.length_cons, show o + (u.length + 1) = o + 1 + u.length by omega]
      simpa using f6
    · rw [f7, hcur1, hcur]; rfl

/-! ## The rules that are shipped -/

/-- `Preferred` in a form that can be computed. -/
theorem preferred_iff {rules : List AutocompleteRule} {r : AutocompleteRule} :
    Preferred rules r ↔ 2 ≤ r.parser.length ∧
      (∀ r' ∈ rules, ∀ t ∈ r.parser.tails, 2 ≤ t.length → t ≠ r.parser →
        t.isPrefixOf r'.parser = false) ∧
      rules.find? (fun r' => r.parser.isPrefixOf r'.parser) = some r := by
  unfold Preferred
  refine and_congr_right fun _ => and_congr ?_ ?_
  · simp only [List.mem_tails, Bool.eq_false_iff, ne_eq, List.isPrefixOf_iff_prefix]
  · rw [List.find?_eq_some_iff_append]
    simp only [Bool.not_eq_true', Bool.eq_false_iff, ne_eq, List.isPrefixOf_iff_prefix,
      List.prefix_rfl, true_and]

theorem unbordered_iff {r : AutocompleteRule} :
    Unbordered r ↔ 2 ≤ r.parser.length ∧ ∀ t ∈ r.parser.tails, 2 ≤ t.length → t ≠ r.parser →
      t.isPrefixOf r.parser = false := by
  unfold Unbordered
  simp only [List.mem_tails, Bool.eq_false_iff, ne_eq, List.isPrefixOf_iff_prefix]

instance (rules : List AutocompleteRule) (r : AutocompleteRule) : Decidable (Preferred rules r) :=
  decidable_of_iff' _ preferred_iff

instance (r : AutocompleteRule) : Decidable (Unbordered r) :=
  decidable_of_iff' _ unbordered_iff

/-- The words that are completed as soon as they are left of the caret. -/
def preferredWords : List String :=
  ["<=", ">=", "matrix", "vector", "integrate", "integral", "sum", "limsup", "infinity", "sqrt"]

/-- The words that are completed if their rule was selected before. -/
def allWords : List String := "liminf" :: "lim" :: preferredWords

theorem shipped_preferred : (shippedAutocomplete.filter fun r =>
    decide (Preferred shippedAutocomplete r)).map (fun r => r.parser) =
    preferredWords.map String.toList := by decide +kernel

theorem shipped_unbordered : ∀ r ∈ shippedAutocomplete, 2 ≤ r.parser.length →
    Unbordered r := by decide +kernel

theorem shipped_words : ∀ r ∈ shippedAutocomplete,
    2 ≤ r.parser.length ↔ r.parser ∈ allWords.map String.toList := by decide +kernel

variable {S : Setting}

/-- **C75.** With the rules that are shipped: if no suggestion was selected before, a word is
completed if and only if the text left of the caret ends with one of ten words. `lim` and `liminf`
are not among them, and neither are `^`, `_` and `/`. -/
theorem C75_shipped {ed : Editor SNode} {q : RowIndices} {o : Nat} {row : Row} {w : Str}
    (hwf : rowWf ed.input = true) (hc : ed.caret = .at ⟨q, o⟩)
    (hrow : rowAt ed.input q = some row) (ht : TextLeft row o w)
    (hnone : ed.currentAutocomplete = none) :
    (∃ rule syms, TokenLeft S.env ed rule q o row syms) ↔
      ∃ s ∈ preferredWords, s.toList <:+ w := by
  have h := fun rule => C75_completed (env := S.env) hwf Component.shipped_rules hc hrow ht rule
  simp only [h, C75_word, hnone, reduceCtorEq, false_and, false_or, false_implies, implies_true,
    true_and]
  have hm : ∀ s : Str, (∃ r ∈ shippedAutocomplete, Preferred shippedAutocomplete r ∧ r.parser = s) ↔
      s ∈ preferredWords.map String.toList := by
    intro s
    rw [← shipped_preferred, List.mem_map]
    simp only [List.mem_filter, decide_eq_true_eq, and_assoc]
  constructor
  · rintro ⟨r, h1, h2⟩
    have hr : r ∈ shippedAutocomplete := by
      obtain ⟨-, -, before, after, he, -⟩ := h2
      have he : shippedAutocomplete = before ++ r :: after := he
      rw [he]; simp
    obtain ⟨s, hs, he⟩ := List.mem_map.1 ((hm r.parser).1 ⟨r, hr, h2, rfl⟩)
    exact ⟨s, hs, by rw [he]; exact h1⟩
  · rintro ⟨s, hs, h1⟩
    obtain ⟨r, -, h2, h3⟩ := (hm s.toList).2 (List.mem_map_of_mem hs)
    exact ⟨r, by rw [h3]; exact h1, h2⟩

/-- **C75.** The suggestion of a shipped rule that was selected before is completed if and only if
the text ends with its word, which has at least two characters. -/
theorem C75_shipped_kept {ed : Editor SNode} {q : RowIndices} {o : Nat} {row : Row} {w : Str}
    {rule : AutocompleteRule} (hwf : rowWf ed.input = true) (hc : ed.caret = .at ⟨q, o⟩)
    (hrow : rowAt ed.input q = some row) (ht : TextLeft row o w)
    (hrule : rule ∈ shippedAutocomplete) (hlast : ed.currentAutocomplete = some rule) :
    (∃ syms, TokenLeft S.env ed rule q o row syms) ↔
      rule.parser ∈ allWords.map String.toList ∧ rule.parser <:+ w := by
  rw [C75_completed (env := S.env) hwf Component.shipped_rules hc hrow ht rule, C75_word, hlast,
    ← shipped_words rule hrule]
  constructor
  · rintro ⟨h1, ⟨-, -, h2⟩ | ⟨-, h2⟩⟩
    · exact ⟨h2.1, h1⟩
    · exact ⟨h2.1, h1⟩
  · rintro ⟨h1, h2⟩
    exact ⟨h2, Or.inl ⟨rfl, hrule, shipped_unbordered rule hrule h1⟩⟩

/-- The words that are completed when they are typed. -/
def typedWords : List String := "liminf" :: preferredWords

theorem typed_chosen : ∀ r ∈ shippedAutocomplete,
    chosen (rememberedBy shippedAutocomplete none [] r.parser)
      (suggested shippedAutocomplete r.parser) = some (r, r.parser.length) ↔
    r.parser ∈ typedWords.map String.toList := by decide +kernel

theorem remembered_start (rules : List AutocompleteRule) (last : Option AutocompleteRule) {u : Str}
    (hu : u ≠ []) : rememberedBy rules last [] u = rememberedBy rules none [] u := by
  cases u with
  | nil => exact absurd rfl hu
  | cons c u =>
    have : suggested rules [] = [] := by
      unfold suggested
      simp only [List.flatMap_eq_nil_iff, List.map_eq_nil_iff, List.filter_eq_nil_iff]
      intro k _ r _ hf
      have := fits_iff.1 hf
      simp at this
      omega
    simp only [rememberedBy, this]
    cases last <;> rfl

/-- **C75.** With the rules that are shipped: typing the word of a rule character by character, not
directly behind a symbol, completes it, if and only if it is one of eleven words. In particular
`lim` is never completed by typing it. -/
theorem C75_typed_shipped {ed : Editor SNode} {q : RowIndices} {o : Nat} {row : Row}
    {rule : AutocompleteRule} (hwf : rowWf ed.input = true) (hc : ed.caret = .at ⟨q, o⟩)
    (hrow : rowAt ed.input q = some row) (ht : TextLeft row o [])
    (hrule : rule ∈ shippedAutocomplete) :
    ∃ ed' row', ed.run S.env (typing rule.parser) = .ok ed' ∧
      row' = row.take o ++ rule.parser.map (fun c => .symbol [c]) ++ row.drop o ∧
      ReplacedAt ed.input q row row' ed'.input ∧
      ed'.caret = .at ⟨q, o + rule.parser.length⟩ ∧
      ((∃ syms, TokenLeft S.env ed' rule q (o + rule.parser.length) row' syms) ↔
        rule.parser ∈ typedWords.map String.toList) := by
  obtain ⟨ed', row', h1, h2, h3, h4, h5, h6, h7⟩ :=
    C75_typed (env := S.env) rule.parser hwf Component.shipped_rules hc hrow ht
  refine ⟨ed', row', h1, h3, h4, h5, ?_⟩
  rw [C75_completed (env := S.env) h2 Component.shipped_rules h5 h4.rowAt_new h6, h7,
    remembered_start _ _ (Component.shipped_rules rule hrule).1]
  exact typed_chosen rule hrule

/-- What each of the words stands for. -/
def completions : List (String × Row) :=
  [("<=", [.symbol ['≤']]), (">=", [.symbol ['≥']]),
    ("matrix", [.container .table [[]] 1]), ("vector", [.container .table [[]] 1]),
    ("integrate", [.symbol ['∫']]), ("integral", [.symbol ['∫']]), ("sum", [.symbol ['∑']]),
    ("limsup", "limsup".toList.map fun c => .symbol [c]),
    ("liminf", "liminf".toList.map fun c => .symbol [c]),
    ("infinity", [.symbol ['∞']]), ("sqrt", [.root [] []])]

theorem completions_chosen : ∀ p ∈ completions, ∃ r ∈ shippedAutocomplete,
    r.parser = p.1.toList ∧ r.result = p.2 ∧
    chosen (rememberedBy shippedAutocomplete none [] r.parser)
      (suggested shippedAutocomplete r.parser) = some (r, r.parser.length) := by decide +kernel

/-- **C75.** With the rules that are shipped: typing one of the eleven words, not directly behind a
symbol, and accepting the suggestion puts what the word stands for in the place of the word. -/
theorem C75_completions {ed : Editor SNode} {q : RowIndices} {o : Nat} {row : Row} {word : String}
    {result : Row} (hwf : rowWf ed.input = true) (hc : ed.caret = .at ⟨q, o⟩)
    (hrow : rowAt ed.input q = some row) (ht : TextLeft row o [])
    (hword : (word, result) ∈ completions) :
    ∃ ed1 ed2, ed.run S.env (typing word.toList) = .ok ed1 ∧
      ed1.finishAutocomplete S.env true = .ok (ed2, true) ∧
      ReplacedAt ed.input q row (row.take o ++ result ++ row.drop o) ed2.input := by
  obtain ⟨r, hr, h1, h2, h3⟩ := completions_chosen _ hword
  simp only at h1 h2
  obtain ⟨ed1, row1, g1, g2, g3, g4, g5, g6, g7⟩ :=
    C75_typed (env := S.env) word.toList hwf Component.shipped_rules hc hrow ht
  have hne : word.toList ≠ [] := by rw [← h1]; exact (Component.shipped_rules r hr).1
  have hch : chosen ed1.currentAutocomplete (suggested S.env.rules ([] ++ word.toList)) =
      some (r, word.toList.length) := by
    rw [g7, remembered_start _ _ hne, List.nil_append, ← h1]
    exact h3
  obtain ⟨ed2, a, k1, k2, -, -⟩ := (C75_accept (env := S.env) g2 Component.shipped_rules g5
    g4.rowAt_new g6).2 r _ hch
  refine ⟨ed1, ed2, g1, k1, ?_⟩
  have ho : o ≤ row.length := ht.1
  have hrow2 : row1.take (o + word.toList.length - word.toList.length) ++ r.result ++
      row1.drop (o + word.toList.length) = row.take o ++ result ++ row.drop o := by
    rw [Nat.add_sub_cancel, g3, h2]
    congr 1
    · congr 1
      rw [List.append_assoc, List.take_append_of_le_length (by simp; omega), List.take_take,
        Nat.min_self]
    · have : o + word.toList.length =
          (row.take o ++ word.toList.map (fun c => Node.symbol [c])).length := by
        simp; omega
      rw [this, List.drop_left]
  rw [hrow2] at k2
  exact g4.trans k2

/-! ## Examples -/

/-- Behind `x l i m i n f`: with nothing remembered `infinity` is suggested first. -/
example : (suggested shippedAutocomplete "xliminf".toList).map (fun x => (String.ofList x.1.parser, x.2)) =
    [("infinity", 3), ("liminf", 6)] := by decide +kernel

example : rememberedBy shippedAutocomplete none [] "liminf".toList =
    shippedAutocomplete.find? (fun r => r.parser = "liminf".toList) := by decide +kernel

/-- Behind `l i m` three rules are suggested, and `lim` comes last. -/
example : (suggested shippedAutocomplete "lim".toList).map (fun x => (String.ofList x.1.parser, x.2)) =
    [("liminf", 3), ("limsup", 3), ("lim", 3)] := by decide +kernel

/-- A word in the cell of a fraction, behind another element. -/
example : TextLeft [.fraction [] [], .symbol ['s'], .symbol ['u'], .symbol ['x']] 3 ['s', 'u'] :=
  ⟨by decide, [.fraction [] []], by decide, by intro s; exact nofun⟩

/-- Bordered words: `abab` is not completed even if it was selected. -/
example : ¬ Unbordered ⟨['a', 'b', 'a', 'b'], []⟩ := by decide +kernel

end Aftermath
