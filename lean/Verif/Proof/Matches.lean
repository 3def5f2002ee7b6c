import Verif.Proof.Basic
import Verif.Spec.Autocomplete
import Mathlib.Data.List.Induction

/-! # Searching rule texts: byte indices, occurrences, matching backwards -/

namespace Aftermath

@[simp] theorem utf8Len_nil : utf8Len [] = 0 := rfl

@[simp] theorem utf8Len_cons (c : Char) (s : Str) : utf8Len (c :: s) = c.utf8Size + utf8Len s := by
  simp [utf8Len]

@[simp] theorem utf8Len_append (s t : Str) : utf8Len (s ++ t) = utf8Len s + utf8Len t := by
  simp [utf8Len]

theorem length_le_utf8Len (s : Str) : s.length ≤ utf8Len s := by
  induction s with
  | nil => simp
  | cons c s ih => have := c.utf8Size_pos; simp; omega

theorem utf8Len_eq_zero {s : Str} (h : utf8Len s = 0) : s = [] := by
  have := length_le_utf8Len s
  exact List.eq_nil_of_length_eq_zero (by omega)

theorem Ascii.utf8Len {s : Str} (h : Ascii s) : utf8Len s = s.length := by
  induction s with
  | nil => rfl
  | cons c s ih =>
    rw [utf8Len_cons, ih (fun d hd => h d (by simp [hd])), h c (by simp), List.length_cons]
    omega

theorem dropBytes_append (pre rest : Str) : dropBytes (pre ++ rest) (utf8Len pre) = some rest := by
  induction pre with
  | nil => simp [dropBytes]
  | cons c pre ih =>
    have := c.utf8Size_pos
    obtain ⟨n, hn⟩ : ∃ n, c.utf8Size + utf8Len pre = n + 1 := ⟨c.utf8Size + utf8Len pre - 1, by omega⟩
    rw [utf8Len_cons, hn, List.cons_append, dropBytes, if_pos (by omega),
      show n + 1 - c.utf8Size = utf8Len pre by omega, ih]

theorem takeBytes_append (pre rest : Str) : takeBytes (pre ++ rest) (utf8Len pre) = some pre := by
  induction pre with
  | nil => simp [takeBytes]
  | cons c pre ih =>
    have := c.utf8Size_pos
    obtain ⟨n, hn⟩ : ∃ n, c.utf8Size + utf8Len pre = n + 1 := ⟨c.utf8Size + utf8Len pre - 1, by omega⟩
    rw [utf8Len_cons, hn, List.cons_append, takeBytes, if_pos (by omega),
      show n + 1 - c.utf8Size = utf8Len pre by omega, ih]
    rfl

theorem dropBytes_some {s rest : Str} {n : Nat} (h : dropBytes s n = some rest) :
    ∃ pre, s = pre ++ rest ∧ utf8Len pre = n := by
  induction s generalizing n with
  | nil =>
    cases n with
    | zero => simp [dropBytes] at h; exact ⟨[], by simp [h], rfl⟩
    | succ n => simp [dropBytes] at h
  | cons c s ih =>
    cases n with
    | zero => simp [dropBytes] at h; exact ⟨[], by simp [h], rfl⟩
    | succ n =>
      rw [dropBytes] at h
      split at h
      · obtain ⟨pre, h1, h2⟩ := ih h
        exact ⟨c :: pre, by simp [h1], by rw [utf8Len_cons, h2]; omega⟩
      · cases h

theorem findStr_some {needle hay : Str} {k : Nat} (h : findStr needle hay = some k) :
    ∃ pre post, hay = pre ++ needle ++ post ∧ utf8Len pre = k := by
  induction hay generalizing k with
  | nil =>
    simp only [findStr] at h
    split at h
    · rename_i h0
      cases h
      exact ⟨[], [], by simpa using h0, rfl⟩
    · cases h
  | cons c cs ih =>
    simp only [findStr] at h
    split at h
    · rename_i h0
      cases h
      obtain ⟨post, hp⟩ := List.isPrefixOf_iff_prefix.1 h0
      exact ⟨[], post, by simp [hp], rfl⟩
    · rw [Option.map_eq_some_iff] at h
      obtain ⟨j, hj, rfl⟩ := h
      obtain ⟨pre, post, h1, h2⟩ := ih hj
      exact ⟨c :: pre, post, by simp [h1], by rw [utf8Len_cons, h2]; omega⟩

/-- `findStr` finds the first occurrence: nothing occurs before it. -/
theorem findStr_first {needle hay : Str} (hn : needle ≠ []) {pre post : Str}
    (h : hay = pre ++ needle ++ post) : ∃ k, findStr needle hay = some k ∧ k ≤ utf8Len pre := by
  induction hay generalizing pre with
  | nil =>
    exfalso
    have := congrArg List.length h
    simp at this
    exact hn (List.eq_nil_of_length_eq_zero (by omega))
  | cons c cs ih =>
    simp only [findStr]
    split
    · exact ⟨0, rfl, Nat.zero_le _⟩
    · rename_i h0
      cases pre with
      | nil =>
        exfalso
        apply h0
        rw [List.isPrefixOf_iff_prefix]
        exact ⟨post, by simpa using h.symm⟩
      | cons d pre =>
        simp only [List.cons_append, List.cons.injEq] at h
        obtain ⟨rfl, h1⟩ := h
        obtain ⟨k, hk, hle⟩ := ih (pre := pre) (by simpa using h1)
        exact ⟨k + c.utf8Size, by rw [hk]; rfl, by rw [utf8Len_cons]; omega⟩

/-- The needle occurs in the text at byte index `i`. -/
def OccursAt (needle hay : Str) (i : Nat) : Prop :=
  ∃ pre post, hay = pre ++ needle ++ post ∧ utf8Len pre = i

theorem indicesOfFrom_nil (hay : Str) (n i : Nat) (h : utf8Len hay + 1 - i ≤ n) :
    indicesOfFrom [] hay i = .error .outOfRange := by
  induction n generalizing i with
  | zero => rw [indicesOfFrom, dif_neg (by omega)]
  | succ n ih =>
    rw [indicesOfFrom]
    split
    · split
      · rfl
      · rename_i rest _
        have : findStr [] rest = some 0 := by cases rest <;> simp [findStr]
        rw [this]
        simp only [Nat.zero_add]
        rw [ih (i + 1) (by omega)]
        rfl
    · rfl

theorem indicesOfFrom_sound {needle hay : Str} {n i : Nat} {l : List Nat}
    (hn : utf8Len hay + 1 - i ≤ n) (h : indicesOfFrom needle hay i = .ok l) :
    (∀ j ∈ l, i ≤ j ∧ OccursAt needle hay j) ∧ l.Pairwise (· < ·) := by
  induction n generalizing i l with
  | zero => rw [indicesOfFrom, dif_neg (by omega)] at h; cases h
  | succ n ih =>
    rw [indicesOfFrom] at h
    split at h
    · split at h
      · cases h
      · rename_i rest hrest
        split at h
        · cases h; simp
        · rename_i k hk
          obtain ⟨l', hl', h1⟩ := M.bind_eq_ok.1 h
          cases h1
          obtain ⟨h2, h3⟩ := ih (by omega) hl'
          obtain ⟨pre, h4, h5⟩ := dropBytes_some hrest
          obtain ⟨pre', post, h6, h7⟩ := findStr_some hk
          constructor
          · intro j hj
            rcases List.mem_cons.1 hj with rfl | hj
            · exact ⟨by omega, pre ++ pre', post, by rw [h4, h6]; simp, by
                rw [utf8Len_append, h5, h7]; omega⟩
            · have := h2 j hj
              exact ⟨by omega, this.2⟩
          · rw [List.pairwise_cons]
            exact ⟨fun j hj => by have := (h2 j hj).1; omega, h3⟩
    · cases h

/-- For ASCII texts all occurrences are found. -/
theorem indicesOfFrom_complete {needle hay : Str} {n i : Nat} (hn : hay.length - i ≤ n)
    (hne : needle ≠ []) (ha : Ascii hay) (hi : i ≤ hay.length) :
    ∃ l, indicesOfFrom needle hay i = .ok l ∧
      ∀ j, i ≤ j → OccursAt needle hay j → j ∈ l := by
  have hlen := ha.utf8Len
  have hasc : ∀ a b : Str, hay = a ++ b → utf8Len a = a.length := by
    intro a b hab
    exact Ascii.utf8Len (fun c hc => ha c (by simp [hab, hc]))
  have hdrop : dropBytes hay i = some (hay.drop i) := by
    have h := dropBytes_append (hay.take i) (hay.drop i)
    rw [List.take_append_drop] at h
    rwa [hasc (hay.take i) (hay.drop i) (by simp), List.length_take, Nat.min_eq_left hi] at h
  have hnl : 0 < needle.length := List.length_pos_iff.2 hne
  induction n generalizing i with
  | zero =>
    have hi' : i = hay.length := by omega
    rw [indicesOfFrom, dif_pos (by omega), hdrop]
    subst hi'
    simp only [List.drop_length]
    have : findStr needle [] = none := by
      simp [findStr, hne]
    rw [this]
    refine ⟨[], rfl, ?_⟩
    rintro j hj ⟨pre, post, h1, h2⟩
    exfalso
    rw [hasc pre (needle ++ post) (by simp [h1])] at h2
    have := congrArg List.length h1
    simp at this
    omega
  | succ n ih =>
    rw [indicesOfFrom, dif_pos (by omega), hdrop]
    simp only
    cases hf : findStr needle (hay.drop i) with
    | none =>
      refine ⟨[], rfl, ?_⟩
      rintro j hj ⟨pre, post, h1, h2⟩
      exfalso
      rw [hasc pre (needle ++ post) (by simp [h1])] at h2
      have h3 : hay.drop i = pre.drop i ++ needle ++ post := by
        rw [h1, List.append_assoc, List.drop_append_of_le_length (by omega), List.append_assoc]
      obtain ⟨k, hk, -⟩ := findStr_first hne h3
      rw [hf] at hk; cases hk
    | some k =>
      obtain ⟨pre', post', h4, h5⟩ := findStr_some hf
      have h6 : hay = (hay.take i ++ pre') ++ (needle ++ post') := by
        conv_lhs => rw [← List.take_append_drop i hay, h4]
        simp
      have h7 : utf8Len pre' = pre'.length :=
        Ascii.utf8Len (fun c hc => ha c (by rw [h6]; simp [hc]))
      have h8 : k + i + 1 ≤ hay.length := by
        have := congrArg List.length h6
        simp at this
        omega
      have h9 : dropBytes hay (k + i + 1) = some (hay.drop (k + i + 1)) := by
        have h := dropBytes_append (hay.take (k + i + 1)) (hay.drop (k + i + 1))
        rw [List.take_append_drop] at h
        rwa [hasc (hay.take (k + i + 1)) (hay.drop (k + i + 1)) (by simp), List.length_take,
          Nat.min_eq_left h8] at h
      obtain ⟨l, hl, hc⟩ := ih (i := k + i + 1) (by omega) h8 h9
      refine ⟨(k + i) :: l, by simp only [hl, M.ok_bind], ?_⟩
      intro j hj hocc
      by_cases hjk : j = k + i
      · simp [hjk]
      · refine List.mem_cons_of_mem _ (hc j ?_ hocc)
        obtain ⟨pre, post, h1, h2⟩ := hocc
        have h3 : hay.drop i = pre.drop i ++ needle ++ post := by
          have : utf8Len pre = pre.length := hasc pre (needle ++ post) (by simp [h1])
          rw [h1, List.append_assoc, List.drop_append_of_le_length (by omega), List.append_assoc]
        obtain ⟨k', hk', hle⟩ := findStr_first hne h3
        rw [hf] at hk'; cases hk'
        have hp : utf8Len pre = pre.length := hasc pre (needle ++ post) (by simp [h1])
        have hp' : utf8Len (pre.drop i) = (pre.drop i).length :=
          Ascii.utf8Len (fun c hc => ha c (by rw [h1]; simp [List.mem_of_mem_drop hc]))
        rw [hp', List.length_drop] at hle
        omega

theorem isSuffixOf_split {s pre : Str} (h : s.isSuffixOf pre = true) : ∃ p, pre = p ++ s := by
  obtain ⟨p, hp⟩ := List.isSuffixOf_iff_suffix.1 h
  exact ⟨p, hp.symm⟩

/-- What the backward loop does: it runs over symbols that spell the end of the part of the rule
text that is left, as many as possible, and it does not panic. -/
theorem matchLoop_spec {parser : Str} (rest : List Node) (pre post : Str) (count : Nat)
    (h : parser = pre ++ post) :
    ∃ (syms : List Str) (pre' : Str) (rest' : List Node),
      matchLoop parser (utf8Len pre) count rest = .ok (utf8Len pre', count + syms.length) ∧
      rest = (syms.map Node.symbol).reverse ++ rest' ∧ pre = pre' ++ syms.flatten := by
  induction rest generalizing pre post count with
  | nil => exact ⟨[], pre, [], rfl, rfl, by simp⟩
  | cons n rest ih =>
    cases n with
    | container v cells w => exact ⟨[], pre, _, rfl, rfl, by simp⟩
    | symbol s =>
      simp only [matchLoop]
      have : takeBytes parser (utf8Len pre) = some pre := by rw [h]; exact takeBytes_append _ _
      rw [this]
      simp only
      by_cases hs : s.isSuffixOf pre = true
      · rw [if_pos hs]
        obtain ⟨p, rfl⟩ := isSuffixOf_split hs
        rw [utf8Len_append, Nat.add_sub_cancel]
        obtain ⟨syms, pre', rest', h1, h2, h3⟩ := ih p (s ++ post) (count + 1) (by simp [h])
        refine ⟨syms ++ [s], pre', rest', ?_, ?_, ?_⟩
        · rw [h1]; simp; omega
        · simp [h2]
        · simp [h3]
      · rw [if_neg hs]
        exact ⟨[], pre, _, rfl, rfl, by simp⟩

/-- Completeness of the backward loop. -/
theorem matchLoop_complete {parser : Str} (init : List Str) (post : Str) (rest : List Node)
    (count : Nat) (h : parser = init.flatten ++ post)
    (hrest : ∀ s t, rest = .symbol s :: t → s ≠ []) :
    matchLoop parser (utf8Len init.flatten) count ((init.map Node.symbol).reverse ++ rest) =
      .ok (0, count + init.length) := by
  induction init using List.reverseRecOn generalizing post count with
  | nil =>
    cases rest with
    | nil => rfl
    | cons n rest =>
      cases n with
      | container v cells w => rfl
      | symbol s =>
        have hs := hrest s rest rfl
        have : s.isSuffixOf ([] : Str) = false := by
          rw [Bool.eq_false_iff, Ne, List.isSuffixOf_iff_suffix, List.suffix_nil]
          exact hs
        simp [matchLoop, takeBytes, this]
  | append_singleton init s ih =>
    have ht : takeBytes parser (utf8Len (init ++ [s]).flatten) = some ((init ++ [s]).flatten) := by
      rw [h]; exact takeBytes_append _ _
    have hs : s.isSuffixOf ((init ++ [s]).flatten) = true := by
      rw [List.isSuffixOf_iff_suffix]; simp
    have e : ((init ++ [s]).map Node.symbol).reverse ++ rest =
        .symbol s :: ((init.map Node.symbol).reverse ++ rest) := by simp
    rw [e, matchLoop, ht]
    simp only
    rw [if_pos hs]
    have e2 : utf8Len (init ++ [s]).flatten - utf8Len s = utf8Len init.flatten := by
      simp
    rw [e2, ih (s ++ post) (count + 1) (by simp [h])]
    simp; omega

theorem matchCandidates_sound {rule : AutocompleteRule} {rev : List Node} {minLen : Nat}
    {is : List Nat} {ms : List RuleMatch}
    (h : matchCandidates rule rev minLen is = .ok ms) :
    ∀ m ∈ ms, ∃ i ∈ is, ∃ count, matchLoop rule.parser i 1 (rev.drop 1) = .ok (0, count) ∧
      minLen ≤ count ∧ m = ⟨rule, i + 1, count⟩ := by
  induction is generalizing ms with
  | nil => cases h; simp
  | cons i is ih =>
    simp only [matchCandidates] at h
    obtain ⟨⟨cur, count⟩, hl, h1⟩ := M.bind_eq_ok.1 h
    obtain ⟨rest, hrest, h2⟩ := M.bind_eq_ok.1 h1
    have ih := ih hrest
    simp only at h2
    have tail : ∀ m ∈ rest, ∃ i' ∈ i :: is, ∃ count,
        matchLoop rule.parser i' 1 (rev.drop 1) = .ok (0, count) ∧
        minLen ≤ count ∧ m = ⟨rule, i' + 1, count⟩ := by
      intro m hm
      obtain ⟨i', hi', x⟩ := ih m hm
      exact ⟨i', by simp [hi'], x⟩
    split at h2
    · rename_i hc
      cases h2
      intro m hm
      rcases List.mem_cons.1 hm with rfl | hm
      · exact ⟨i, by simp, count, by rw [hl, hc.1], by omega, rfl⟩
      · exact tail m hm
    · cases h2
      exact tail

theorem matchCandidates_sorted {rule : AutocompleteRule} {rev : List Node} {minLen : Nat}
    {is : List Nat} {ms : List RuleMatch}
    (h : matchCandidates rule rev minLen is = .ok ms) (hs : is.Pairwise (· < ·)) :
    ms.Pairwise (fun a b => a.ruleMatchLength < b.ruleMatchLength) := by
  induction is generalizing ms with
  | nil => cases h; simp
  | cons i is ih =>
    simp only [matchCandidates] at h
    obtain ⟨⟨cur, count⟩, hl, h1⟩ := M.bind_eq_ok.1 h
    obtain ⟨rest, hrest, h2⟩ := M.bind_eq_ok.1 h1
    rw [List.pairwise_cons] at hs
    have ih := ih hrest hs.2
    simp only at h2
    split at h2
    · cases h2
      rw [List.pairwise_cons]
      refine ⟨?_, ih⟩
      intro m hm
      obtain ⟨i', hi', -, -, -, rfl⟩ := matchCandidates_sound hrest m hm
      have := hs.1 i' hi'
      show i + 1 < i' + 1
      omega
    · cases h2; exact ih

theorem matchCandidates_complete {rule : AutocompleteRule} {rev : List Node} {minLen : Nat}
    {is : List Nat} (hocc : ∀ i ∈ is, ∃ pre post, rule.parser = pre ++ post ∧ utf8Len pre = i) :
    ∃ ms, matchCandidates rule rev minLen is = .ok ms ∧
      ∀ i ∈ is, ∀ count, matchLoop rule.parser i 1 (rev.drop 1) = .ok (0, count) →
        minLen ≤ count → ⟨rule, i + 1, count⟩ ∈ ms := by
  induction is with
  | nil => exact ⟨[], rfl, by simp⟩
  | cons i is ih =>
    obtain ⟨ms, hms, hc⟩ := ih (fun i hi => hocc i (by simp [hi]))
    obtain ⟨pre, post, hp, rfl⟩ := hocc i (by simp)
    obtain ⟨syms, pre', rest', h1, -, -⟩ := matchLoop_spec (rev.drop 1) pre post 1 hp
    simp only [matchCandidates, h1, hms, M.ok_bind]
    by_cases hcond : utf8Len pre' = 0 ∧ ¬ 1 + syms.length < minLen
    · rw [if_pos hcond]
      refine ⟨_, rfl, ?_⟩
      intro i hi count hl hmin
      rcases List.mem_cons.1 hi with rfl | hi
      · rw [h1] at hl
        simp only [Except.ok.injEq, Prod.mk.injEq] at hl
        rw [← hl.2]; simp
      · exact List.mem_cons_of_mem _ (hc i hi count hl hmin)
    · rw [if_neg hcond]
      refine ⟨_, rfl, ?_⟩
      intro i hi count hl hmin
      rcases List.mem_cons.1 hi with rfl | hi
      · exfalso
        rw [h1] at hl
        simp only [Except.ok.injEq, Prod.mk.injEq] at hl
        exact hcond ⟨hl.1, by omega⟩
      · exact hc i hi count hl hmin

/-! ## Sorting -/

theorem insertMatch_perm (m : RuleMatch) (ms : List RuleMatch) : (insertMatch m ms).Perm (m :: ms) := by
  induction ms with
  | nil => exact .refl _
  | cons x xs ih =>
    unfold insertMatch
    split
    · exact .refl _
    · exact (ih.cons x).trans (.swap _ _ _)

theorem sortMatches_perm (ms : List RuleMatch) : (sortMatches ms).Perm ms := by
  induction ms with
  | nil => exact .refl _
  | cons x xs ih => exact (insertMatch_perm _ _).trans (ih.cons x)

theorem insertMatch_sorted (m : RuleMatch) {ms : List RuleMatch}
    (h : ms.Pairwise (fun a b => a.ruleMatchLength ≤ b.ruleMatchLength)) :
    (insertMatch m ms).Pairwise (fun a b => a.ruleMatchLength ≤ b.ruleMatchLength) := by
  induction ms with
  | nil => exact List.pairwise_singleton _ _
  | cons x xs ih =>
    obtain ⟨hx, hxs⟩ := List.pairwise_cons.1 h
    unfold insertMatch
    split
    · rename_i hle
      refine List.pairwise_cons.2 ⟨fun y hy => ?_, h⟩
      rcases List.mem_cons.1 hy with rfl | hy
      · exact hle
      · exact Nat.le_trans hle (hx y hy)
    · rename_i hle
      refine List.pairwise_cons.2 ⟨fun y hy => ?_, ih hxs⟩
      rcases List.mem_cons.1 ((insertMatch_perm m xs).subset hy) with rfl | hy
      · omega
      · exact hx y hy

theorem sortMatches_sorted (ms : List RuleMatch) :
    (sortMatches ms).Pairwise (fun a b => a.ruleMatchLength ≤ b.ruleMatchLength) := by
  induction ms with
  | nil => exact .nil
  | cons x xs ih => exact insertMatch_sorted x ih

theorem insertMatch_filter (m : RuleMatch) (ms : List RuleMatch) (k : Nat) :
    (insertMatch m ms).filter (fun x => x.ruleMatchLength == k) =
      (m :: ms).filter (fun x => x.ruleMatchLength == k) := by
  induction ms with
  | nil => rfl
  | cons x xs ih =>
    unfold insertMatch
    split
    · rfl
    · rename_i hle
      rw [List.filter_cons, ih]
      simp only [List.filter_cons]
      by_cases hm : m.ruleMatchLength = k
      · have hx : ¬ x.ruleMatchLength = k := by omega
        simp [hm, hx]
      · simp [hm]

/-- The sort is stable. -/
theorem sortMatches_filter (ms : List RuleMatch) (k : Nat) :
    (sortMatches ms).filter (fun x => x.ruleMatchLength == k) =
      ms.filter (fun x => x.ruleMatchLength == k) := by
  induction ms with
  | nil => rfl
  | cons x xs ih =>
    rw [sortMatches, insertMatch_filter, List.filter_cons, List.filter_cons, ih]

end Aftermath
