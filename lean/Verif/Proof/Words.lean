import Verif.Spec.Words
import Verif.Proof.Tokens

/-! # Proofs about suggestions -/

namespace Aftermath

variable {T : Type} {env : Env T}

theorem matches_sorted {rule : AutocompleteRule} {row : Row} {o minLen : Nat} {ms : List RuleMatch}
    (h : rule.matches row o minLen = .ok ms) :
    ms.Pairwise (fun a b => a.ruleMatchLength < b.ruleMatchLength) := by
  unfold AutocompleteRule.matches at h
  obtain ⟨-, -, h1⟩ := M.bind_eq_ok.1 h
  split at h1
  · simp only at h1
    split at h1
    · obtain ⟨cands, hcands, h2⟩ := M.bind_eq_ok.1 h1
      exact matchCandidates_sorted h2 (indicesOfFrom_sound (Nat.le_refl _) hcands).2
    · cases h1; exact .nil
  · cases h1

theorem map_singles {w : Str} : (w.map fun c => [c]).flatten = w := by
  induction w with
  | nil => rfl
  | cons c w ih => simp [ih]

/-- The symbols left of the caret are endings of the text. -/
theorem TextLeft.symbols {row : Row} {o : Nat} {w : Str} (h : TextLeft row o w) {syms : List Str}
    (hs : SymbolsLeftOf row o syms) :
    syms.length ≤ w.length ∧ syms = (w.drop (w.length - syms.length)).map fun c => [c] := by
  obtain ⟨-, before, h1, h2⟩ := h
  obtain ⟨-, b', h3⟩ := hs
  rw [h1] at h3
  have hw : w.map (fun c => Node.symbol [c]) = (w.map fun c => [c]).map Node.symbol := by simp
  have hinj : ∀ a b : List Str, a.map Node.symbol = b.map Node.symbol → a = b := fun a b hab =>
    List.map_injective_iff.2 (fun x y hxy => by cases hxy; rfl) hab
  rcases List.append_eq_append_iff.1 h3 with ⟨a, h4, h5⟩ | ⟨a, h4, h5⟩
  · have hl := congrArg List.length h5
    simp only [List.length_append, List.length_map] at hl
    refine ⟨by omega, hinj _ _ ?_⟩
    have := congrArg (List.drop (w.length - syms.length)) h5
    rw [show w.length - syms.length = a.length by omega, List.drop_left] at this
    rw [show w.length - syms.length = a.length by omega, ← this, ← List.map_drop, List.map_map]
    rfl
  · cases a using List.reverseRecOn with
    | nil =>
      rw [List.nil_append, hw] at h5
      have := hinj _ _ h5
      subst this
      simp
    | append_singleton a x =>
      exfalso
      have : x ∈ syms.map Node.symbol := by rw [h5]; simp
      obtain ⟨s, -, rfl⟩ := List.mem_map.1 this
      exact h2 s (by rw [h4, ← List.append_assoc, List.getLast?_append]; simp)

theorem TextLeft.symbolsLeft {row : Row} {o : Nat} {w : Str} (h : TextLeft row o w) (k : Nat) :
    SymbolsLeftOf row o ((w.drop (w.length - k)).map fun c => [c]) := by
  obtain ⟨h0, before, h1, -⟩ := h
  refine ⟨h0, before ++ (w.take (w.length - k)).map (fun c => Node.symbol [c]), ?_⟩
  rw [h1, List.append_assoc]
  congr 1
  rw [List.map_map]
  have : (Node.symbol ∘ fun c : Char => [c]) = fun c => Node.symbol [c] := rfl
  rw [this, ← List.map_append, List.take_append_drop]

theorem fits_iff {w : Str} {k : Nat} {r : AutocompleteRule} :
    fits w k r = true ↔ 2 ≤ k ∧ k ≤ w.length ∧ w.drop (w.length - k) <+: r.parser := by
  simp only [fits, Bool.and_eq_true, decide_eq_true_eq, List.isPrefixOf_iff_prefix, and_assoc]

theorem sorted_ext : ∀ {l l' : List Nat}, l.Pairwise (· < ·) → l'.Pairwise (· < ·) →
    (∀ k, k ∈ l ↔ k ∈ l') → l = l'
  | [], [], _, _, _ => rfl
  | [], b :: _, _, _, h => absurd ((h b).2 (by simp)) (by simp)
  | a :: _, [], _, _, h => absurd ((h a).1 (by simp)) (by simp)
  | a :: l, b :: l', h1, h2, h => by
    have h1' := List.pairwise_cons.1 h1
    have h2' := List.pairwise_cons.1 h2
    have hab : a = b := by
      rcases List.mem_cons.1 ((h a).1 (by simp)) with e | e
      · exact e
      · rcases List.mem_cons.1 ((h b).2 (by simp)) with e' | e'
        · exact e'.symm
        · have := h1'.1 _ e'
          have := h2'.1 _ e
          omega
    subst hab
    rw [sorted_ext h1'.2 h2'.2 (fun k => ?_)]
    constructor
    · intro hk
      rcases List.mem_cons.1 ((h k).1 (by simp [hk])) with e | e
      · have := h1'.1 _ hk; omega
      · exact e
    · intro hk
      rcases List.mem_cons.1 ((h k).2 (by simp [hk])) with e | e
      · have := h2'.1 _ hk; omega
      · exact e

/-- The matches of one rule. -/
theorem TextLeft.matches_eq {row : Row} {o : Nat} {w : Str} (h : TextLeft row o w)
    {rule : AutocompleteRule} (hrule : rule.parser ≠ []) (ha : Ascii rule.parser) :
    rule.matches row o 2 = .ok (((List.range (w.length + 1)).filter (fun k => fits w k rule)).map
      fun k => ⟨rule, k, k⟩) := by
  obtain ⟨ms, h1, h2, -⟩ := C31_complete (minLen := 2) hrule ha h.1 (by
    intro s syms hs
    have := (h.symbols hs).2
    have hm : s ∈ s :: syms := by simp
    rw [this] at hm
    obtain ⟨c, -, rfl⟩ := List.mem_map.1 hm
    simp)
  rw [h1]
  congr 1
  have hform : ∀ m ∈ ms, m = ⟨rule, m.ruleMatchLength, m.ruleMatchLength⟩ ∧
      fits w m.ruleMatchLength rule = true := by
    intro m hm
    obtain ⟨g1, g2, init, last, g3, g4, g5, -, -⟩ := C30_sound h1 hm
    obtain ⟨k1, k2⟩ := h.symbols g3
    have hfl : (init ++ [last]).flatten = w.drop (w.length - (init ++ [last]).length) := by
      rw [k2, map_singles, List.length_map, List.length_drop]
      congr 1
      omega
    rw [hfl] at g5
    obtain ⟨-, g6, -⟩ := C30_ascii h1 hm g3 g4.symm (by
      intro s hs
      rw [k2] at hs
      obtain ⟨c, hc, rfl⟩ := List.mem_map.1 hs
      exact ⟨c, rfl, ha c (g5.subset hc)⟩)
    refine ⟨?_, fits_iff.2 ⟨by omega, by omega, by rw [g6, g4]; exact g5⟩⟩
    cases m
    simp only at g1 g6
    simp only [g1, g6]
  have hback : ms = (ms.map RuleMatch.ruleMatchLength).map fun k => ⟨rule, k, k⟩ := by
    rw [List.map_map]
    conv => lhs; rw [← List.map_id ms]
    exact List.map_congr_left fun m hm => (hform m hm).1
  rw [hback]
  congr 1
  apply sorted_ext
  · rw [List.pairwise_map]; exact matches_sorted h1
  · exact List.Pairwise.filter _ List.pairwise_lt_range
  · intro k
    rw [List.mem_filter, List.mem_range, List.mem_map]
    constructor
    · rintro ⟨m, hm, rfl⟩
      have := (hform m hm).2
      exact ⟨by have := fits_iff.1 this; omega, this⟩
    · rintro ⟨-, hk⟩
      obtain ⟨k1, k2, k3⟩ := fits_iff.1 hk
      have hl : ((w.drop (w.length - k)).map fun c => [c]).length = k := by simp; omega
      obtain ⟨m, hm, he⟩ := h2 _ (h.symbolsLeft k) (by
          intro hn; rw [hn] at hl; simp at hl; omega) (by omega) (by rw [map_singles]; exact k3)
      refine ⟨m, hm, ?_⟩
      have := congrArg RuleMatch.inputMatchLength (hform m hm).1
      simp only at this
      omega

/-- The match of a suggestion. -/
def toMatch (x : AutocompleteRule × Nat) : RuleMatch := ⟨x.1, x.2, x.2⟩

theorem TextLeft.matchesAll_eq {row : Row} {o : Nat} {w : Str} (h : TextLeft row o w)
    {rules : List AutocompleteRule} (hr : GoodRules rules) :
    matchesAll rules row o 2 = .ok (rules.flatMap fun r =>
      ((List.range (w.length + 1)).filter (fun k => fits w k r)).map fun k => ⟨r, k, k⟩) := by
  induction rules with
  | nil => rfl
  | cons r rs ih =>
    simp only [matchesAll, h.matches_eq (hr r (by simp)).1 (hr r (by simp)).2,
      ih (fun r hr' => hr r (by simp [hr'])), M.ok_bind, List.flatMap_cons]

theorem sorted_filter_ext : ∀ {l l' : List RuleMatch},
    l.Pairwise (fun a b => a.ruleMatchLength ≤ b.ruleMatchLength) →
    l'.Pairwise (fun a b => a.ruleMatchLength ≤ b.ruleMatchLength) →
    (∀ k, l.filter (fun x => x.ruleMatchLength == k) =
      l'.filter (fun x => x.ruleMatchLength == k)) → l = l'
  | [], [], _, _, _ => rfl
  | [], b :: _, _, _, h => by have := h b.ruleMatchLength; simp at this
  | a :: _, [], _, _, h => by have := h a.ruleMatchLength; simp at this
  | a :: l, b :: l', h1, h2, h => by
    have h1' := List.pairwise_cons.1 h1
    have h2' := List.pairwise_cons.1 h2
    have hmem : ∀ x, x ∈ a :: l ↔ x ∈ b :: l' := by
      intro x
      have := congrArg (x ∈ ·) (h x.ruleMatchLength)
      simpa only [List.mem_filter, beq_self_eq_true, and_true, eq_iff_iff] using this
    have hle : a.ruleMatchLength = b.ruleMatchLength := by
      have e1 : b.ruleMatchLength ≤ a.ruleMatchLength := by
        rcases List.mem_cons.1 ((hmem a).1 (by simp)) with e | e
        · rw [e]
        · exact h2'.1 _ e
      have e2 : a.ruleMatchLength ≤ b.ruleMatchLength := by
        rcases List.mem_cons.1 ((hmem b).2 (by simp)) with e | e
        · rw [e]
        · exact h1'.1 _ e
      omega
    have hab : a = b := by
      have := h a.ruleMatchLength
      rw [List.filter_cons_of_pos (by simp), List.filter_cons_of_pos (by simp [hle])] at this
      exact (List.cons.inj this).1
    subst hab
    rw [sorted_filter_ext h1'.2 h2'.2 (fun k => ?_)]
    have := h k
    rw [List.filter_cons, List.filter_cons] at this
    split at this
    · exact (List.cons.inj this).2
    · exact this

theorem filter_range_eq (n k : Nat) (p : Nat → Bool) (hp : ∀ j, p j = true → j < n) :
    ((List.range n).filter p).filter (fun j => j == k) = if p k then [k] else [] := by
  apply sorted_ext
  · exact List.Pairwise.filter _ (List.Pairwise.filter _ List.pairwise_lt_range)
  · split <;> simp
  · intro j
    simp only [List.mem_filter, List.mem_range, beq_iff_eq]
    split
    · rename_i h
      rw [List.mem_singleton]
      exact ⟨fun h => h.2, fun h' => by subst h'; exact ⟨⟨hp _ h, h⟩, rfl⟩⟩
    · rename_i h
      simp only [List.not_mem_nil, iff_false, not_and]
      rintro ⟨-, h1⟩ rfl
      exact h h1

theorem suggested_pairwise (rules : List AutocompleteRule) (w : Str) :
    (suggested rules w).Pairwise fun a b => a.2 ≤ b.2 := by
  unfold suggested
  rw [List.pairwise_flatMap]
  constructor
  · intro k _
    rw [List.pairwise_map]
    exact List.pairwise_of_forall (fun _ _ => Nat.le_refl _)
  · refine List.pairwise_lt_range.imp ?_
    intro a b hab x hx y hy
    obtain ⟨_, -, rfl⟩ := List.mem_map.1 hx
    obtain ⟨_, -, rfl⟩ := List.mem_map.1 hy
    exact Nat.le_of_lt hab

theorem suggested_filter (rules : List AutocompleteRule) (w : Str) (k : Nat) :
    (suggested rules w).filter (fun x => x.2 == k) =
      (rules.filter (fits w k)).map fun r => (r, k) := by
  unfold suggested
  rw [List.filter_flatMap]
  have h1 : (fun j => ((rules.filter (fits w j)).map fun r => (r, j)).filter
      (fun x : AutocompleteRule × Nat => x.2 == k)) =
      fun j => if j = k then (rules.filter (fits w k)).map fun r => (r, k) else [] := by
    funext j
    rw [List.filter_map]
    split
    · rename_i h
      subst h
      congr 1
      apply List.filter_eq_self.2
      simp
    · rename_i h
      rw [List.map_eq_nil_iff, List.filter_eq_nil_iff]
      simpa using fun _ _ _ => h
  rw [h1]
  by_cases hk : k < w.length + 1
  · generalize (rules.filter (fits w k)).map (fun r => (r, k)) = X
    have : ∀ n, (List.range n).flatMap (fun j => if j = k then X else []) =
        if k < n then X else [] := by
      intro n
      induction n with
      | zero => simp
      | succ n ih =>
        rw [List.range_succ, List.flatMap_append, ih, List.flatMap_singleton]
        by_cases h2 : k < n
        · rw [if_pos h2, if_neg (by omega), if_pos (by omega), List.append_nil]
        · rw [if_neg h2, List.nil_append]
          by_cases h3 : n = k
          · rw [if_pos h3, if_pos (by omega)]
          · rw [if_neg h3, if_neg (by omega)]
    rw [this, if_pos hk]
  · have h0 : rules.filter (fits w k) = [] := by
      rw [List.filter_eq_nil_iff]
      intro r _ hf
      have := fits_iff.1 hf
      omega
    rw [h0]
    simp

/-- The sorted list of the matches of all rules. -/
theorem sort_suggested (rules : List AutocompleteRule) (w : Str) :
    sortMatches (rules.flatMap fun r =>
      ((List.range (w.length + 1)).filter (fun k => fits w k r)).map fun k => ⟨r, k, k⟩) =
    (suggested rules w).map toMatch := by
  apply sorted_filter_ext (sortMatches_sorted _)
  · rw [List.pairwise_map]
    exact suggested_pairwise rules w
  · intro k
    rw [sortMatches_filter, List.filter_flatMap, List.filter_map]
    have : ((fun x : RuleMatch => x.ruleMatchLength == k) ∘ toMatch) = fun x => x.2 == k := rfl
    rw [this, suggested_filter, List.map_map]
    have h2 : ∀ r, ((((List.range (w.length + 1)).filter (fun k => fits w k r)).map
        fun k => (⟨r, k, k⟩ : RuleMatch)).filter fun x => x.ruleMatchLength == k) =
        if fits w k r then [⟨r, k, k⟩] else [] := by
      intro r
      rw [List.filter_map]
      have : ((fun x : RuleMatch => x.ruleMatchLength == k) ∘ fun k => ⟨r, k, k⟩) =
        fun j => j == k := rfl
      rw [this, filter_range_eq _ _ _ (fun j hj => by have := fits_iff.1 hj; omega)]
      split <;> rfl
    simp only [h2]
    clear h2
    induction rules with
    | nil => rfl
    | cons r rs ih =>
      rw [List.flatMap_cons, ih, List.filter_cons]
      split <;> rfl

theorem getAutocomplete_at {ed : Editor T} {q : RowIndices} {o : Nat} {row : Row}
    (hwf : rowWf ed.input = true) (hc : ed.caret = .at ⟨q, o⟩) (hrow : rowAt ed.input q = some row)
    (ho : o ≤ row.length) :
    ed.getAutocomplete env = (do
      let ms ← matchesAll env.rules row o 2
      let (cur, res) ← autocompleteStateGet ed.currentAutocomplete ms ⟨q, o⟩
      .ok ({ ed with currentAutocomplete := cur }, res)) := by
  obtain ⟨p, -, hin, hp, hf⟩ := Position.fromMinimal_valid (m := ⟨q, o⟩) hwf ⟨row, hrow, ho⟩
  have hc' : Caret.fromMinimal ed.input ed.caret = .ok (Caret.collapsed p) := by
    rw [hc, ← hp]; exact collapsed_of_minimal hwf hin
  have hr : p.focus.row = row := by
    have := hf.rowAt_eq
    rw [hrow] at this
    exact (Option.some.inj this).symm
  have hpo : p.offset = o := congrArg MinPos.offset hp
  unfold Editor.getAutocomplete
  rw [hc']
  simp only [M.ok_bind, Caret.collapsed]
  rw [if_pos (by simp [RowRange.isCollapsed, RowRange.ofPosition])]
  show (do
    let ms ← matchesAll env.rules p.focus.row p.offset 2
    let (cur, res) ← autocompleteStateGet ed.currentAutocomplete ms p.toMinimal
    Except.ok ({ ed with currentAutocomplete := cur }, res)) = _
  rw [hr, hpo, hp]

/-- What autocompletion gives behind a text. -/
theorem getAutocomplete_text {ed : Editor T} {q : RowIndices} {o : Nat} {row : Row} {w : Str}
    (hwf : rowWf ed.input = true) (hr : GoodRules env.rules) (hc : ed.caret = .at ⟨q, o⟩)
    (hrow : rowAt ed.input q = some row) (ht : TextLeft row o w) :
    (suggested env.rules w = [] ∧
      ed.getAutocomplete env = .ok ({ ed with currentAutocomplete := none }, none)) ∨
    ∃ i x, (suggested env.rules w)[i]? = some x ∧
      chosen ed.currentAutocomplete (suggested env.rules w) = some x ∧
      ed.getAutocomplete env = .ok ({ ed with currentAutocomplete := some x.1 },
        some ⟨i, (suggested env.rules w).map toMatch, ⟨q, o⟩⟩) := by
  rw [getAutocomplete_at hwf hc hrow ht.1, ht.matchesAll_eq hr]
  simp only [M.ok_bind]
  have hsort := sort_suggested env.rules w
  generalize (env.rules.flatMap fun r => ((List.range (w.length + 1)).filter
    (fun k => fits w k r)).map fun k => (⟨r, k, k⟩ : RuleMatch)) = ms at hsort
  generalize suggested env.rules w = l at hsort
  have hlen : ms.length = l.length := by
    have := congrArg List.length hsort
    rw [(sortMatches_perm ms).length_eq, List.length_map] at this
    exact this
  cases l with
  | nil =>
    have : ms = [] := List.eq_nil_of_length_eq_zero hlen
    subst this
    exact Or.inl ⟨rfl, rfl⟩
  | cons y l =>
    right
    have hne : ms.isEmpty = false := by
      cases ms with
      | nil => cases hlen
      | cons => rfl
    have hfind : ∀ last : AutocompleteRule,
        ((y :: l).map toMatch).findIdx? (fun m => m.rule == last) =
          (y :: l).findIdx? (fun x => x.1 == last) := by
      intro last
      rw [List.findIdx?_map]
      rfl
    have key : ∀ cur i x, (y :: l)[i]? = some x → chosen cur (y :: l) = some x →
        (∀ r, cur = some r → ((y :: l).findIdx? (fun x => x.1 == r)).getD 0 = i) →
        (cur = none → i = 0) →
        autocompleteStateGet cur ms ⟨q, o⟩ =
          .ok (some x.1, some ⟨i, (y :: l).map toMatch, ⟨q, o⟩⟩) := by
      intro cur i x h1 h2 h3 h4
      have hi := (List.getElem?_eq_some_iff.1 h1).1
      have fin : ∀ j, j = i → (do
          let res ← AutocompleteResults.new j ((y :: l).map toMatch) ⟨q, o⟩
          Except.ok (((y :: l).map toMatch)[j]?.map RuleMatch.rule, some res)) =
          (.ok (some x.1, some ⟨i, (y :: l).map toMatch, ⟨q, o⟩⟩) :
            M (Option AutocompleteRule × Option AutocompleteResults)) := by
        rintro j rfl
        simp only [AutocompleteResults.new, List.length_map, hi, decide_true, massert, if_true,
          M.ok_bind, List.getElem?_map, h1, Option.map_some]
        rfl
      cases cur with
      | none =>
        simp only [autocompleteStateGet, hne, Bool.false_eq_true, if_false, hsort]
        exact fin _ (h4 rfl).symm
      | some r =>
        simp only [autocompleteStateGet, hne, Bool.false_eq_true, if_false, hsort, hfind]
        exact fin _ (h3 r rfl)
    cases hcur : ed.currentAutocomplete with
    | none =>
      refine ⟨0, y, rfl, rfl, ?_⟩
      rw [key none 0 y rfl rfl (by simp) (fun _ => rfl)]
      rfl
    | some last =>
      cases hf : (y :: l).findIdx? (fun x => x.1 == last) with
      | none =>
        have h1 : (y :: l).find? (fun x => x.1 == last) = none := by
          rw [List.find?_eq_none]
          rw [List.findIdx?_eq_none_iff] at hf
          intro x hx
          simp [hf x hx]
        have h2 : chosen (some last) (y :: l) = some y := by simp [chosen, h1]
        refine ⟨0, y, rfl, h2, ?_⟩
        rw [key (some last) 0 y rfl h2 (by rintro r ⟨⟩; rw [hf]; rfl) (by simp)]
        rfl
      | some i =>
        obtain ⟨hi, hp, hm⟩ := List.findIdx?_eq_some_iff_getElem.1 hf
        have h1 : (y :: l).find? (fun x => x.1 == last) = some (y :: l)[i] := by
          rw [List.find?_eq_some_iff_getElem]
          exact ⟨hp, i, hi, rfl, fun j hj => by simpa using hm j hj⟩
        have h2 : chosen (some last) (y :: l) = some (y :: l)[i] := by simp [chosen, h1]
        refine ⟨i, (y :: l)[i], List.getElem?_eq_getElem hi, h2, ?_⟩
        rw [key (some last) i _ (List.getElem?_eq_getElem hi) h2
          (by rintro r ⟨⟩; rw [hf]; rfl) (by simp)]
        rfl

theorem find_range {α : Type} (f : Nat → List α) (p : α → Bool) (x : α) (m : Nat) :
    ((List.range m).flatMap f).find? p = some x ↔
      ∃ k, k < m ∧ (∀ j, j < k → (f j).find? p = none) ∧ (f k).find? p = some x := by
  induction m with
  | zero => simp
  | succ m ih =>
    rw [List.range_succ, List.flatMap_append, List.find?_append, List.flatMap_singleton]
    have hnone : ((List.range m).flatMap f).find? p = none ↔
        ∀ j, j < m → (f j).find? p = none := by
      simp only [List.find?_eq_none, List.mem_flatMap, List.mem_range]
      exact ⟨fun h j hj x hx => h x ⟨j, hj, hx⟩, fun h x ⟨j, hj, hx⟩ => h j hj x hx⟩
    cases hc : ((List.range m).flatMap f).find? p with
    | some y =>
      rw [hc] at ih hnone
      simp only [Option.some_or, ih]
      constructor
      · rintro ⟨k, h1, h2⟩
        exact ⟨k, by omega, h2⟩
      · rintro ⟨k, h1, h2, h3⟩
        refine ⟨k, ?_, h2, h3⟩
        rcases Nat.lt_or_eq_of_le (Nat.lt_succ_iff.1 h1) with h | rfl
        · exact h
        · exact absurd (hnone.2 h2) (by simp)
    | none =>
      rw [hc] at hnone
      simp only [Option.none_or]
      have hall := hnone.1 rfl
      constructor
      · intro h
        exact ⟨m, by omega, hall, h⟩
      · rintro ⟨k, h1, h2, h3⟩
        rcases Nat.lt_or_eq_of_le (Nat.lt_succ_iff.1 h1) with h | rfl
        · rw [hall k h] at h3; cases h3
        · exact h3

theorem suggested_head {rules : List AutocompleteRule} {w : Str} {r : AutocompleteRule} {k : Nat} :
    (suggested rules w).head? = some (r, k) ↔ (∀ j, j < k → ∀ r' ∈ rules, fits w j r' = false) ∧
      rules.find? (fits w k) = some r := by
  have e : (suggested rules w).head? = (suggested rules w).find? (fun _ => true) := by
    cases suggested rules w <;> rfl
  rw [e, suggested, find_range]
  have h0 : ∀ j, (((rules.filter (fits w j)).map fun r => (r, j)).find? fun _ => true) =
      (rules.find? (fits w j)).map fun r => (r, j) := by
    intro j
    rw [← List.head?_filter (p := fits w j)]
    cases rules.filter (fits w j) <;> rfl
  simp only [h0, Option.map_eq_none_iff, List.find?_eq_none, Option.map_eq_some_iff, Prod.mk.injEq,
    Bool.not_eq_true]
  constructor
  · rintro ⟨k', h1, h2, r', h3, rfl, rfl⟩
    exact ⟨h2, h3⟩
  · rintro ⟨h2, h3⟩
    have := fits_iff.1 (List.find?_some h3)
    exact ⟨k, by omega, h2, r, h3, rfl, rfl⟩

theorem suggested_find {rules : List AutocompleteRule} {w : Str} {r : AutocompleteRule}
    {x : AutocompleteRule × Nat} :
    ((suggested rules w).find? fun x => x.1 == r) = some x ↔ r ∈ rules ∧ x.1 = r ∧
      (∀ j, j < x.2 → fits w j r = false) ∧ fits w x.2 r = true := by
  rw [suggested, find_range]
  have h0 : ∀ j, (((rules.filter (fits w j)).map fun r => (r, j)).find? fun x => x.1 == r) =
      if r ∈ rules ∧ fits w j r = true then some (r, j) else none := by
    intro j
    split
    · rename_i h
      rw [List.find?_map]
      have hm : r ∈ rules.filter (fits w j) := List.mem_filter.2 h
      obtain ⟨y, hy⟩ : ∃ y, (rules.filter (fits w j)).find? (fun y => y == r) = some y := by
        rw [← Option.isSome_iff_exists, List.find?_isSome]
        exact ⟨r, hm, by simp⟩
      have : y = r := by simpa using List.find?_some hy
      subst this
      show Option.map _ ((rules.filter (fits w j)).find? (fun z => z == y)) = _
      rw [hy]
      rfl
    · rename_i h
      rw [List.find?_eq_none]
      intro x hx
      obtain ⟨y, hy, rfl⟩ := List.mem_map.1 hx
      obtain ⟨hy1, hy2⟩ := List.mem_filter.1 hy
      simp only [beq_iff_eq]
      rintro rfl
      exact h ⟨hy1, hy2⟩
  simp only [h0]
  constructor
  · rintro ⟨k, h1, h2, h3⟩
    split at h3
    · rename_i h
      cases h3
      refine ⟨h.1, rfl, fun j hj => ?_, h.2⟩
      have := h2 j hj
      split at this
      · cases this
      · rename_i h'
        rw [Bool.eq_false_iff]
        exact fun h'' => h' ⟨h.1, h''⟩
    · cases h3
  · rintro ⟨h1, rfl, h2, h3⟩
    have := fits_iff.1 h3
    refine ⟨x.2, by omega, fun j hj => ?_, by rw [if_pos ⟨h1, h3⟩]⟩
    rw [if_neg]
    rw [h2 j hj]
    simp

theorem suffix_drop {t w : Str} (h : t <:+ w) : w.drop (w.length - t.length) = t :=
  (List.suffix_iff_eq_drop.1 h).symm

/-- All characters of the word fit if and only if the text ends with it. -/
theorem fits_full {w : Str} {r : AutocompleteRule} :
    fits w r.parser.length r = true ↔ 2 ≤ r.parser.length ∧ r.parser <:+ w := by
  rw [fits_iff]
  constructor
  · rintro ⟨h1, h2, h3⟩
    refine ⟨h1, ?_⟩
    have := h3.eq_of_length (by rw [List.length_drop]; omega)
    rw [← this]
    exact List.drop_suffix _ _
  · rintro ⟨h1, h2⟩
    refine ⟨h1, h2.length_le, ?_⟩
    rw [suffix_drop h2]
    exact List.prefix_rfl

/-- For texts that end with a word, the shorter endings are those of the word. -/
theorem fits_ending {w p : Str} (h : p <:+ w) {r : AutocompleteRule} :
    (∀ j, j < p.length → fits w j r = false) ↔
      ∀ t, t <:+ p → 2 ≤ t.length → t ≠ p → ¬ t <+: r.parser := by
  constructor
  · intro hf t ht h2 hne hp
    have hlt : t.length < p.length := by
      rcases Nat.lt_or_eq_of_le ht.length_le with h | h
      · exact h
      · exact absurd (ht.eq_of_length h) hne
    have := hf t.length hlt
    rw [Bool.eq_false_iff] at this
    refine this (fits_iff.2 ⟨h2, (ht.trans h).length_le, ?_⟩)
    rw [suffix_drop (ht.trans h)]
    exact hp
  · intro hf j hj
    rw [Bool.eq_false_iff]
    intro h'
    obtain ⟨h1, h2, h3⟩ := fits_iff.1 h'
    have ht : p.drop (p.length - j) <:+ p := List.drop_suffix _ _
    have hl : (p.drop (p.length - j)).length = j := by rw [List.length_drop]; omega
    have he := suffix_drop (ht.trans h)
    rw [hl] at he
    rw [he] at h3
    exact hf _ ht (by omega) (fun e => by rw [e] at hl; omega) h3

theorem spliceAtRange_current {ed ed' : Editor T} {range : MinRange} {vs : List Node}
    (h : ed.spliceAtRange env range vs = .ok ed') :
    ed'.currentAutocomplete = ed.currentAutocomplete := by
  unfold Editor.spliceAtRange at h
  obtain ⟨r, -, h⟩ := M.bind_eq_ok.1 h
  obtain ⟨⟨edits, _⟩, -, h⟩ := M.bind_eq_ok.1 h
  obtain ⟨a, -, h⟩ := M.bind_eq_ok.1 h
  obtain ⟨b, -, h⟩ := M.bind_eq_ok.1 h
  obtain ⟨⟨e, _⟩, he, h⟩ := M.bind_eq_ok.1 h
  cases h
  unfold Editor.finish at he
  simp only at he
  split at he
  · cases he; rfl
  · obtain ⟨i, -, he⟩ := M.bind_eq_ok.1 he
    cases he; rfl

theorem insertNodes_current {ed ed' : Editor T} {ac : Option AutocorrectAction} {vs : List Node}
    (h : ed.insertNodes env ac vs = .ok ed') :
    ed'.currentAutocomplete = ed.currentAutocomplete := by
  unfold Editor.insertNodes at h
  obtain ⟨c, -, h⟩ := M.bind_eq_ok.1 h
  split at h
  · obtain ⟨⟨edits, p⟩, -, h⟩ := M.bind_eq_ok.1 h
    unfold Editor.finishAndAutocorrect at h
    obtain ⟨⟨e, act⟩, he, h⟩ := M.bind_eq_ok.1 h
    obtain ⟨ac', -, h⟩ := M.bind_eq_ok.1 h
    have hfin : e.currentAutocomplete = ed.currentAutocomplete := by
      unfold Editor.finish at he
      simp only at he
      split at he
      · cases he; rfl
      · obtain ⟨i, -, he⟩ := M.bind_eq_ok.1 he
        cases he; rfl
    rw [← hfin]
    cases ac' with
    | none => cases h; rfl
    | some ac' =>
      unfold Editor.applyAutocorrect at h
      obtain ⟨c, -, h⟩ := M.bind_eq_ok.1 h
      split at h
      · cases h; rfl
      · obtain ⟨range, -, h⟩ := M.bind_eq_ok.1 h
        split at h
        · cases h; rfl
        · obtain ⟨vs, -, h⟩ := M.bind_eq_ok.1 h
          obtain ⟨ms, -, h⟩ := M.bind_eq_ok.1 h
          split at h
          · exact spliceAtRange_current h
          · cases h; rfl
  · cases h

end Aftermath
