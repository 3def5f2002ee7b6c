import Verif.Spec.Grids
import Verif.Proof.ParseTotal

/-! # What has been parsed has full grids -/

namespace Aftermath

theorem rowGrids_iff : ∀ {row : Row}, rowGrids row ↔ ∀ n ∈ row, n.Grids
  | [] => by simp [rowGrids]
  | n :: ns => by rw [rowGrids, rowGrids_iff (row := ns)]; simp

/-- The nodes from `p` up to `q` have full grids. -/
def Full (row : Row) (p q : Nat) : Prop := ∀ i n, p ≤ i → i < q → row[i]? = some n → n.Grids

theorem Full.refl (row : Row) (p : Nat) : Full row p p := fun i _ h1 h2 => by omega

theorem Full.trans {row : Row} {p q r : Nat} (h : Full row p q) (h' : Full row q r) : Full row p r :=
  fun i n h1 h2 hn =>
    if hq : i < q then h i n h1 hq hn else h' i n (Nat.le_of_not_lt hq) h2 hn

theorem Full.one {row : Row} {p : Nat} (h : ∀ n, row[p]? = some n → n.Grids) : Full row p (p + 1) :=
  fun i n h1 h2 hn => h n (by rwa [show p = i by omega])

/-- Parts that consist of symbols. -/
theorem full_symbols {row : Row} {p k : Nat} (h : ∀ i, i < k → ∀ n, (row.drop p)[i]? = some n →
    ∃ s, n = .symbol s) : Full row p (p + k) := by
  intro i n h1 h2 hn
  obtain ⟨s, rfl⟩ := h (i - p) (by omega) n (by rw [List.getElem?_drop, ← hn]; congr 1; omega)
  exact trivial

theorem symRun_onlySymbols (f : Str → Bool) : ∀ (l : Row) (i : Nat), i < (symRun f l).length →
    ∀ n, l[i]? = some n → ∃ s, n = .symbol s
  | [], _, _, _, hn => by simp at hn
  | .container _ _ _ :: _, _, h, _, _ => by simp [symRun] at h
  | .symbol s :: l, 0, _, n, hn => ⟨s, by simpa using hn.symm⟩
  | .symbol s :: l, i + 1, h, n, hn => by
    rw [symRun] at h
    split at h
    · exact symRun_onlySymbols f l i (by simpa using h) n (by simpa using hn)
    · simp at h

theorem stringBody_symbols (l : Row) (i : Nat) (h : i < (stringBody l).length) (n : Node)
    (hn : l[i]? = some n) : ∃ s, n = .symbol s := by
  fun_induction stringBody l generalizing i with
  | case1 a ha b rest' ih =>
    match i with
    | 0 => exact ⟨a, by simpa using hn.symm⟩
    | 1 => exact ⟨b, by simpa using hn.symm⟩
    | i + 2 => exact ih i (by simpa using h) (by simpa using hn)
  | case2 => simp at h
  | case3 => simp at h
  | case4 a rest _ _ ih =>
    match i with
    | 0 => exact ⟨a, by simpa using hn.symm⟩
    | i + 1 => exact ih i (by simpa using h) (by simpa using hn)
  | case5 => simp at h

variable {g : Grammar} {row : Row} {p q : Nat}

theorem full_symRun (f : Str → Bool) : Full row p (p + (symRun f (row.drop p)).length) :=
  full_symbols (symRun_onlySymbols f _)

theorem full_select {f : Str → Bool} {s : Str} (h : selectSym f row p = some (s, q)) :
    Full row p q := by
  unfold selectSym at h
  split at h
  · rename_i s' hs
    split at h
    · cases h
      exact Full.one fun n hn => by rw [hs] at hn; cases hn; exact trivial
    · cases h
  · cases h

theorem full_spaces {o : Option SNode} (h : parseSpaces g row p = .ok (o, q)) : Full row p q := by
  unfold parseSpaces at h
  simp only at h
  split at h
  · cases h; exact .refl _ _
  · obtain ⟨n, -, h2⟩ := M.bind_eq_ok.1 h
    cases h2
    exact full_symRun _

theorem full_just {ss : List Str} {s : Str} (h : justSymbols ss row p = some (s, q)) :
    Full row p q := by
  unfold justSymbols at h
  split at h
  · rename_i hp
    cases h
    obtain ⟨t, ht⟩ := List.isPrefixOf_iff_prefix.1 hp
    refine full_symbols fun i hi n hn => ?_
    rw [← ht, List.getElem?_append_left (by simpa using hi), List.getElem?_map] at hn
    obtain ⟨s, -, rfl⟩ := Option.map_eq_some_iff.1 hn
    exact ⟨s, rfl⟩
  · cases h

theorem full_variable {c : SChildren} (h : parseVariable g row p = some (c, q)) : Full row p q := by
  unfold parseVariable at h
  obtain ⟨⟨a, p1⟩, h1, h2⟩ := Option.bind_eq_some_iff.1 h
  cases h2
  exact (full_select h1).trans (full_symRun _)

theorem full_digits {l : List Str} (h : numberDigits row p = some (l, q)) : Full row p q := by
  unfold numberDigits at h
  simp only at h
  split at h
  · cases h
  · cases h; exact full_symRun _

theorem full_number {c : SChildren} (h : parseNumber row p = some (c, q)) : Full row p q := by
  unfold parseNumber at h
  obtain ⟨⟨a, p1⟩, h1, h2⟩ := Option.bind_eq_some_iff.1 h
  have h1 := full_digits h1
  simp only at h2
  split at h2
  · rename_i d p2 h3
    cases h2
    unfold parseFractional at h3
    obtain ⟨⟨b, p3⟩, h4, h5⟩ := Option.bind_eq_some_iff.1 h3
    obtain ⟨⟨d', p4⟩, h6, h7⟩ := Option.bind_eq_some_iff.1 h5
    cases h7
    exact h1.trans ((full_select h4).trans (full_digits h6))
  · cases h2; exact h1

theorem full_string {c : SChildren} (h : parseString row p = some (c, q)) : Full row p q := by
  unfold parseString at h
  obtain ⟨⟨a, p1⟩, h1, h2⟩ := Option.bind_eq_some_iff.1 h
  obtain ⟨⟨b, p2⟩, h3, h4⟩ := Option.bind_eq_some_iff.1 h2
  cases h4
  exact (full_select h1).trans ((full_symbols (stringBody_symbols _)).trans (full_select h3))

/-- Everything that the recursive calls consume has full grids. -/
def CallFull (call : Rec) : Prop :=
  ∀ row pos min e res q, call row pos min e = .ok (res, q) → Full row pos q

variable {call : Rec}

theorem full_whole (hc : CallFull call) {t : SNode} (h : parseWhole call row = .ok t) :
    rowGrids row := by
  unfold parseWhole at h
  obtain ⟨⟨res, p⟩, h1, h2⟩ := M.bind_eq_ok.1 h
  simp only at h2
  split at h2
  · rename_i hp
    refine rowGrids_iff.2 fun n hn => ?_
    obtain ⟨i, hi, rfl⟩ := List.mem_iff_getElem.1 hn
    exact hc _ _ _ _ _ _ h1 i _ (Nat.zero_le _) (hp ▸ hi) (List.getElem?_eq_getElem hi)
  · cases h2

theorem full_cells (hc : CallFull call) : ∀ {cells : List Row} {ts : List SNode},
    parseCells call cells = .ok ts → cellsGrids cells ∧ ts.length = cells.length
  | [], _, h => by cases h; exact ⟨trivial, rfl⟩
  | r :: rs, _, h => by
    rw [parseCells] at h
    obtain ⟨t, h1, h⟩ := M.bind_eq_ok.1 h
    obtain ⟨ts, h2, h⟩ := M.bind_eq_ok.1 h
    cases h
    obtain ⟨h3, h4⟩ := full_cells hc h2
    exact ⟨⟨full_whole hc h1, h3⟩, by simp [h4]⟩

theorem full_container (hc : CallFull call) {v : Variant} {c : SChildren}
    (h : parseContainer call v row p = .ok (some (c, q))) : Full row p q := by
  unfold parseContainer at h
  split at h
  · rename_i v' cells w hn
    split at h
    · obtain ⟨ts, h1, h⟩ := M.bind_eq_ok.1 h
      obtain ⟨gr, h2, h⟩ := M.bind_eq_ok.1 h
      cases h
      obtain ⟨h3, h4⟩ := full_cells hc h1
      refine Full.one fun n hn' => ?_
      rw [hn] at hn'
      cases hn'
      unfold GridVec.fromOneDimensional at h2
      split at h2
      · cases h2
      · rename_i hw
        split at h2
        · rename_i hl
          rw [h4] at hl
          exact ⟨hw, hl, h3⟩
        · cases h2
    · cases h
  · cases h

theorem full_brackets (hc : CallFull call) {name : Nat} {o cl : Str} {c : SChildren}
    (h : parseBrackets call name o cl row p = .ok (some (c, q))) : Full row p q := by
  unfold parseBrackets at h
  split at h
  · cases h
  · rename_i l p1 h1
    obtain ⟨⟨child, p2⟩, h2, h⟩ := M.bind_eq_ok.1 h
    simp only at h
    split at h
    · cases h
    · rename_i r p3 h3
      obtain ⟨_, _, h⟩ := M.bind_eq_ok.1 h
      obtain ⟨_, _, h⟩ := M.bind_eq_ok.1 h
      cases h
      exact (full_select h1).trans ((hc _ _ _ _ _ _ h2).trans (full_select h3))

theorem full_emptyBrackets {name : Nat} {o cl : Str} {c : SChildren}
    (h : parseEmptyBrackets name o cl row p = .ok (some (c, q))) : Full row p q := by
  unfold parseEmptyBrackets at h
  split at h
  · cases h
  · rename_i l p1 h1
    split at h
    · cases h
    · rename_i r p2 h2
      obtain ⟨_, _, h⟩ := M.bind_eq_ok.1 h
      obtain ⟨_, _, h⟩ := M.bind_eq_ok.1 h
      cases h
      exact (full_select h1).trans (full_select h2)

theorem full_token (hc : CallFull call) {tp : TokenParser} {c : SChildren}
    (h : tokenParse call g tp row p = .ok (some (c, q))) : Full row p q := by
  unfold tokenParse at h
  split at h
  · simp only [Except.ok.injEq] at h
    obtain ⟨⟨s, q'⟩, h1, h2⟩ := Option.map_eq_some_iff.1 h
    cases h2
    exact full_just h1
  · exact full_brackets hc h
  · exact full_emptyBrackets h
  · exact full_container hc h
  · exact full_variable (by simpa using h)
  · exact full_number (by simpa using h)
  · exact full_string (by simpa using h)

theorem full_script (hc : CallFull call) {v : Variant} {t : SNode}
    (h : parseScript call g v row p = .ok (some (t, q))) : Full row p q := by
  unfold parseScript at h
  obtain ⟨o, h1, h⟩ := M.bind_eq_ok.1 h
  cases o with
  | none => cases h
  | some y =>
    obtain ⟨c, p1⟩ := y
    obtain ⟨_, _, h⟩ := M.bind_eq_ok.1 h
    obtain ⟨⟨after, p2⟩, h2, h⟩ := M.bind_eq_ok.1 h
    obtain ⟨_, _, h⟩ := M.bind_eq_ok.1 h
    cases h
    exact (full_container hc h1).trans (full_spaces h2)

theorem full_scripts (hc : CallFull call) : ∀ (n : Nat) {t t' : SNode} {p q : Nat},
    parseScripts call g row n t p = .ok (t', q) → Full row p q
  | 0, _, _, _, _, h => by cases h
  | n + 1, t, t', p, q, h => by
    rw [parseScripts] at h
    obtain ⟨o, h1, h⟩ := M.bind_eq_ok.1 h
    cases o with
    | some y =>
      obtain ⟨s, p1⟩ := y
      obtain ⟨_, _, h⟩ := M.bind_eq_ok.1 h
      exact (full_script hc h1).trans (full_scripts hc n h)
    | none =>
      obtain ⟨o, h2, h⟩ := M.bind_eq_ok.1 h
      cases o with
      | some y =>
        obtain ⟨s, p1⟩ := y
        obtain ⟨_, _, h⟩ := M.bind_eq_ok.1 h
        exact (full_script hc h2).trans (full_scripts hc n h)
      | none => cases h; exact .refl _ _

theorem full_rule (hc : CallFull call) {r : Rule} {t : SNode}
    (h : ruleParse call g r row p = .ok (some (t, q))) : Full row p q := by
  unfold ruleParse at h
  obtain ⟨⟨before, p1⟩, h1, h⟩ := M.bind_eq_ok.1 h
  obtain ⟨o, h2, h⟩ := M.bind_eq_ok.1 h
  cases o with
  | none => cases h
  | some y =>
    obtain ⟨c, p2⟩ := y
    obtain ⟨_, _, h⟩ := M.bind_eq_ok.1 h
    obtain ⟨⟨after, p3⟩, h3, h⟩ := M.bind_eq_ok.1 h
    obtain ⟨_, _, h⟩ := M.bind_eq_ok.1 h
    have h4 := (full_spaces h1).trans ((full_token hc h2).trans (full_spaces h3))
    split at h
    · obtain ⟨⟨t', q'⟩, h5, h⟩ := M.bind_eq_ok.1 h
      cases h
      exact h4.trans (full_scripts hc _ h5)
    · cases h; exact h4

theorem full_iter (hc : CallFull call) : ∀ {rs : List Rule} {t : SNode} {r : Rule} {q : Nat},
    parseIter call g row p rs = .ok (some (t, r, q)) → Full row p q
  | [], _, _, _, h => by cases h
  | r :: rs, _, _, _, h => by
    rw [parseIter] at h
    obtain ⟨o, h1, h⟩ := M.bind_eq_ok.1 h
    cases o with
    | none => exact full_iter hc h
    | some y => cases h; exact full_rule hc h1

/-! ## What no rule takes is a symbol -/

theorem container_taken {r : Rule} {v : Variant} {cells : List Row} {w : Nat}
    (hr : r.parser = .container v) (hn : row[p]? = some (.container v cells w)) :
    ruleParse call g r row p ≠ .ok none := by
  intro h
  have hsp : parseSpaces g row p = .ok (none, p) := by
    have : symRun (fun s => s == [' ']) (row.drop p) = [] := by
      cases hd : row.drop p with
      | nil => rfl
      | cons a l =>
        have : (row.drop p)[0]? = some (.container v cells w) := by
          rw [List.getElem?_drop]; exact hn
        rw [hd] at this
        cases this
        rfl
    unfold parseSpaces
    simp only [this, List.isEmpty_nil, if_true]
  unfold ruleParse at h
  simp only [hsp, M.ok_bind, hr, tokenParse, parseContainer, hn, if_true] at h
  obtain ⟨o, h1, h⟩ := M.bind_eq_ok.1 h
  cases o with
  | none =>
    obtain ⟨ts, -, h1⟩ := M.bind_eq_ok.1 h1
    obtain ⟨gr, -, h1⟩ := M.bind_eq_ok.1 h1
    cases h1
  | some y =>
    obtain ⟨c, p2⟩ := y
    obtain ⟨_, _, h⟩ := M.bind_eq_ok.1 h
    obtain ⟨⟨after, p3⟩, -, h⟩ := M.bind_eq_ok.1 h
    obtain ⟨_, _, h⟩ := M.bind_eq_ok.1 h
    simp only at h
    split at h
    · obtain ⟨_, _, h⟩ := M.bind_eq_ok.1 h
      cases h
    · cases h

theorem iter_none {rs : List Rule} (h : parseIter call g row p rs = .ok none) :
    ∀ r ∈ rs, ruleParse call g r row p = .ok none := by
  induction rs with
  | nil => simp
  | cons r rs ih =>
    rw [parseIter] at h
    obtain ⟨o, h1, h⟩ := M.bind_eq_ok.1 h
    cases o with
    | some y => cases h
    | none =>
      intro r' hr'
      rcases List.mem_cons.1 hr' with rfl | hr'
      · exact h1
      · exact ih h r' hr'

theorem can_none {rs : List Rule} (h : canParse call g row p rs = .ok false) :
    parseIter call g row p rs = .ok none := by
  unfold canParse at h
  obtain ⟨o, h1, h⟩ := M.bind_eq_ok.1 h
  cases o with
  | none => exact h1
  | some y => cases h

theorem either_none {rs rs' : List Rule} (h : canParseEither call g row p rs rs' = .ok false) :
    parseIter call g row p rs = .ok none ∧ parseIter call g row p rs' = .ok none := by
  unfold canParseEither at h
  obtain ⟨b, h1, h⟩ := M.bind_eq_ok.1 h
  cases b with
  | true => cases h
  | false => exact ⟨can_none h1, can_none h⟩

theorem full_none (hg : g.Good) (h1 : parseIter call g row p g.prefixes = .ok none)
    (h2 : parseIter call g row p g.atoms = .ok none) (h3 : parseIter call g row p g.infixes = .ok none)
    (h4 : parseIter call g row p g.postfixes = .ok none) : Full row p (p + 1) := by
  refine Full.one fun n hn => ?_
  cases n with
  | symbol s => exact trivial
  | container v cells w =>
    obtain ⟨r, hr, hp, hv⟩ := hg.containers v
    refine absurd ?_ (container_taken (call := call) (g := g) hv hn)
    rcases Grammar.mem_kinds hr hp with h | h | h | h
    · exact iter_none h2 r h
    · exact iter_none h1 r h
    · exact iter_none h3 r h
    · exact iter_none h4 r h

theorem full_unknownLoop (hg : g.Good) (hc : CallFull call) {e : Ending} : ∀ (n : Nat) {t t' : SNode}
    {p q : Nat}, unknownLoop call g row e n t p = .ok (t', q) → Full row p q
  | 0, _, _, _, _, h => by cases h
  | n + 1, t, t', p, q, h => by
    rw [unknownLoop] at h
    obtain ⟨b, h1, h⟩ := M.bind_eq_ok.1 h
    cases b with
    | true => cases h; exact .refl _ _
    | false =>
      obtain ⟨_, _, h⟩ := M.bind_eq_ok.1 h
      obtain ⟨_, _, h⟩ := M.bind_eq_ok.1 h
      refine Full.trans ?_ (full_unknownLoop hg hc n h)
      unfold unknownStops at h1
      split at h1
      · cases h1
      · obtain ⟨b, k1, h1⟩ := M.bind_eq_ok.1 h1
        cases b with
        | true => cases h1
        | false =>
          obtain ⟨b, k2, h1⟩ := M.bind_eq_ok.1 h1
          cases b with
          | true => cases h1
          | false =>
            obtain ⟨b, k3, h1⟩ := M.bind_eq_ok.1 h1
            cases b with
            | true => cases h1
            | false => exact full_none hg (can_none k1) (can_none k2) (can_none k3) (can_none h1)

theorem full_unknown (hg : g.Good) (hc : CallFull call) {e : Ending} {t : SNode}
    (h1 : parseIter call g row p g.prefixes = .ok none)
    (h2 : parseIter call g row p g.atoms = .ok none) (h3 : parseIter call g row p g.infixes = .ok none)
    (h4 : parseIter call g row p g.postfixes = .ok none)
    (h : parseUnknown call g row e p = .ok (t, q)) : Full row p q := by
  unfold parseUnknown at h
  obtain ⟨_, _, h⟩ := M.bind_eq_ok.1 h
  exact (full_none hg h1 h2 h3 h4).trans (full_unknownLoop hg hc _ h)

theorem full_start (hg : g.Good) (hc : CallFull call) {e : Ending} {s : Start}
    (h : prattStart call g row e p = .ok (s, q)) : Full row p q := by
  unfold prattStart at h
  split at h
  · obtain ⟨_, _, h⟩ := M.bind_eq_ok.1 h
    cases h; exact .refl _ _
  · obtain ⟨o, h1, h⟩ := M.bind_eq_ok.1 h
    cases o with
    | some y =>
      obtain ⟨op, r, p1⟩ := y
      obtain ⟨⟨right, p2⟩, h2, h⟩ := M.bind_eq_ok.1 h
      obtain ⟨_, _, h⟩ := M.bind_eq_ok.1 h
      have := (full_iter hc h1).trans (hc _ _ _ _ _ _ h2)
      cases right <;> (cases h; exact this)
    | none =>
      obtain ⟨o, h2, h⟩ := M.bind_eq_ok.1 h
      cases o with
      | some y => cases h; exact full_iter hc h2
      | none =>
        obtain ⟨b, h3, h⟩ := M.bind_eq_ok.1 h
        cases b with
        | true =>
          obtain ⟨_, _, h⟩ := M.bind_eq_ok.1 h
          cases h; exact .refl _ _
        | false =>
          simp only [Bool.false_eq_true, if_false] at h
          split at h
          · obtain ⟨_, _, h⟩ := M.bind_eq_ok.1 h
            cases h; exact .refl _ _
          · obtain ⟨⟨t, p1⟩, h4, h⟩ := M.bind_eq_ok.1 h
            cases h
            obtain ⟨h5, h6⟩ := either_none h3
            exact full_unknown hg hc h1 h2 h5 h6 h4

theorem full_loop (hg : g.Good) (hc : CallFull call) {min : Power} {e : Ending} : ∀ (n : Nat)
    {t : SNode} {res : PResult} {p q : Nat}, prattLoop call g row min e n t p = .ok (res, q) →
    Full row p q
  | 0, _, _, _, _, h => by cases h
  | n + 1, t, res, p, q, h => by
    rw [prattLoop] at h
    split at h
    · cases h; exact .refl _ _
    · obtain ⟨o, h1, h⟩ := M.bind_eq_ok.1 h
      cases o with
      | some y =>
        obtain ⟨op, r, p1⟩ := y
        simp only at h
        split at h
        · cases h; exact .refl _ _
        · obtain ⟨⟨right, p2⟩, h2, h⟩ := M.bind_eq_ok.1 h
          obtain ⟨_, _, h⟩ := M.bind_eq_ok.1 h
          have h3 := (full_iter hc h1).trans (hc _ _ _ _ _ _ h2)
          cases right with
          | expression _ => exact h3.trans (full_loop hg hc n h)
          | stop _ => cases h; exact h3
      | none =>
        obtain ⟨o, h2, h⟩ := M.bind_eq_ok.1 h
        cases o with
        | some y =>
          obtain ⟨op, r, p1⟩ := y
          simp only at h
          split at h
          · cases h; exact .refl _ _
          · obtain ⟨_, _, h⟩ := M.bind_eq_ok.1 h
            exact (full_iter hc h2).trans (full_loop hg hc n h)
        | none =>
          obtain ⟨b, h3, h⟩ := M.bind_eq_ok.1 h
          cases b with
          | true =>
            simp only [if_true] at h
            split at h
            · cases h; exact .refl _ _
            · obtain ⟨⟨right, p2⟩, h4, h⟩ := M.bind_eq_ok.1 h
              obtain ⟨_, _, h⟩ := M.bind_eq_ok.1 h
              have h5 := hc _ _ _ _ _ _ h4
              cases right with
              | expression _ => exact h5.trans (full_loop hg hc n h)
              | stop _ => cases h; exact h5
          | false =>
            simp only [Bool.false_eq_true, if_false] at h
            split at h
            · cases h; exact .refl _ _
            · obtain ⟨⟨right, p2⟩, h4, h⟩ := M.bind_eq_ok.1 h
              obtain ⟨_, _, h⟩ := M.bind_eq_ok.1 h
              obtain ⟨h5, h6⟩ := either_none h3
              exact (full_unknown hg hc h5 h6 h1 h2 h4).trans (full_loop hg hc n h)

theorem full_pratt (hg : g.Good) : ∀ f, CallFull (pratt g f)
  | 0 => fun _ _ _ _ _ _ h => by cases h
  | f + 1 => fun row pos min e res q h => by
    rw [pratt, prattBody] at h
    obtain ⟨⟨s, p⟩, hs, h⟩ := M.bind_eq_ok.1 h
    have hstart := full_start hg (full_pratt hg f) hs
    cases s with
    | finished t => cases h; exact hstart
    | left t => exact hstart.trans (full_loop hg (full_pratt hg f) _ h)

/-- Only rows with full grids are parsed. -/
theorem parse_grids (hg : g.Good) {t : SNode} (h : g.parse row = .ok t) : rowGrids row :=
  full_whole (full_pratt hg _) h

end Aftermath
