import Verif.Proof.GridsTotal

/-! # The parser ends on every row

The proof is that of `Verif/Proof/ParseTotal.lean`, for all rows: there is a result, or an assertion
fails. -/

namespace Aftermath.Any

variable {Q : Row → SNode → Prop}

/-- The recursive calls on everything smaller than `m` are fine. -/
def CallOk (Q : Row → SNode → Prop) (call : Rec) (m : Nat) : Prop :=
  (∀ row t, parseWhole call row = .ok t → Q row t) ∧
  ∀ row pos min e, pos ≤ row.length → restWeight row pos < m →
    call row pos min e = .error .assertion ∨
    ∃ res p, call row pos min e = .ok (res, p) ∧ PrattGood Q row pos min e res p

theorem parseWhole_ok {call : Rec} {m : Nat} (hc : CallOk Q call m) {row : Row}
    (hm : rowWeight row < m) :
    parseWhole call row = .error .assertion ∨
    ∃ t, parseWhole call row = .ok t ∧ Q row t ∧ FillsAt Q row 0 row.length t := by
  rcases hc.2 row 0 (0, .weak) .eof (Nat.zero_le _) (by simpa [restWeight] using hm) with
    he | ⟨res, p, h, hg⟩
  · exact .inl (by simp only [parseWhole, he, M.error_bind])
  have hp : p = row.length := by
    have hle := hg.fills.le.2
    cases res with
    | expression t =>
      obtain ⟨s, hs⟩ := hg.expression t rfl
      rw [power_not_lt_zero] at hs
      cases hs
    | stop t =>
      have := hg.stop t rfl
      simp only [isAtEnd, atInputEnd, decide_eq_true_eq] at this
      omega
  have hres : parseWhole call row = .ok res.node := by
    simp only [parseWhole, h, M.ok_bind, hp, if_true]
  exact .inr ⟨res.node, hres, hc.1 _ _ hres, by rw [← hp]; exact hg.fills⟩

theorem parseCells_ok {call : Rec} {m : Nat} (hc : CallOk Q call m) : ∀ {cells : List Row},
    cellsWeight cells ≤ m →
    parseCells call cells = .error .assertion ∨
    ∃ ts, parseCells call cells = .ok ts ∧ FillsCells Q cells ts ∧ ts.length = cells.length
  | [], _ => .inr ⟨[], rfl, by simp only [FillsCells], rfl⟩
  | r :: rs, hm => by
    rw [cellsWeight] at hm
    rcases parseWhole_ok hc (by omega : rowWeight r < m) with he | ⟨t, ht, hq, hf⟩
    · exact .inl (by simp only [parseCells, he, M.error_bind])
    rcases parseCells_ok hc (by omega : cellsWeight rs ≤ m) with he | ⟨ts, hts, hfs, hl⟩
    · exact .inl (by simp only [parseCells, ht, he, M.ok_bind, M.error_bind])
    refine .inr ⟨t :: ts, by simp only [parseCells, ht, hts, M.ok_bind], ?_, by simp [hl]⟩
    simp only [FillsCells]
    exact ⟨hf.lo_eq, hf.hi_eq, hq, hf.fills, hfs⟩

/-- The container parser succeeds exactly on containers of its kind. -/
theorem parseContainer_ok {call : Rec} {m : Nat} (hc : CallOk Q call m) (v : Variant) {row : Row}
    {pos : Nat} (hm : restWeight row pos ≤ m) :
    parseContainer call v row pos = .error .assertion ∨
   ∃ o, parseContainer call v row pos = .ok o ∧
      (∀ c p, o = some (c, p) → TokenOk Q row pos p c) ∧
      (∀ cells w, row[pos]? = some (.container v cells w) → o.isSome = true) := by
  cases hr : row[pos]? with
  | none =>
    exact .inr ⟨none, by simp [parseContainer, hr], nofun, nofun⟩
  | some n =>
    cases n with
    | symbol s =>
      exact .inr ⟨none, by simp [parseContainer, hr], nofun, nofun⟩
    | container v' cells w =>
      by_cases hv : v' = v
      · have hwt := restWeight_of_get hr
        rw [Node.weight] at hwt
        rcases parseCells_ok hc (by omega : cellsWeight cells ≤ m) with he | ⟨ts, hts, hf, hl⟩
        · exact .inl (by simp only [parseContainer, hr, hv, if_true, he, M.error_bind])
        have hgrid : GridVec.fromOneDimensional ts w = .error .assertion ∨
            GridVec.fromOneDimensional ts w = .ok ⟨ts, w⟩ := by
          unfold GridVec.fromOneDimensional
          split
          · exact .inl rfl
          · split
            · exact .inr rfl
            · exact .inl rfl
        rcases hgrid with he | this
        · exact .inl (by
            simp only [parseContainer, hr, hv, if_true, hts, M.ok_bind, he, M.error_bind])
        refine .inr ⟨some (.newRows ts w, pos + 1), ?_, ?_, fun _ _ _ => rfl⟩
        · simp only [parseContainer, hr, hv, if_true, hts, M.ok_bind, this]
        · intro c p h
          simp only [Option.some.injEq, Prod.mk.injEq] at h
          obtain ⟨rfl, rfl⟩ := h
          have hlt := (List.getElem?_eq_some_iff.1 hr).1
          refine ⟨by omega, by omega, fun name => ⟨_, new_newRows _ _ _ _ _, ?_, rfl, rfl⟩⟩
          simp only [Fills]
          exact ⟨trivial, v', cells, hr, hf⟩
      · refine .inr ⟨none, by simp [parseContainer, hr, hv], nofun, ?_⟩
        intro cells' w' h
        simp only [Option.some.injEq, Node.container.injEq] at h
        exact absurd h.1 hv

theorem parseBrackets_ok {call : Rec} {m : Nat} (hc : CallOk Q call m) (n : Nat) (o c : Str)
    {row : Row} {pos : Nat} (hm : restWeight row pos ≤ m) :
    parseBrackets call n o c row pos = .error .assertion ∨
    ∃ r, parseBrackets call n o c row pos = .ok r ∧
      ∀ ch p, r = some (ch, p) → TokenOk Q row pos p ch := by
  unfold parseBrackets
  cases h1 : selectSym (fun s => s == o) row pos with
  | none => exact .inr ⟨none, rfl, nofun⟩
  | some x =>
    obtain ⟨l, p1⟩ := x
    obtain ⟨hs, -, -, hp1⟩ := selectSym_spec h1
    rcases hc.2 row p1 (0, .weak) (.sym c) hs.le
      (Nat.lt_of_lt_of_le (restWeight_lt row (by omega) hs.le) hm) with he | ⟨res, p2, hcall, hg⟩
    · exact .inl (by simp only [he, M.error_bind])
    simp only [hcall, M.ok_bind]
    cases h2 : selectSym (fun s => s == c) row p2 with
    | none => exact .inr ⟨none, rfl, nofun⟩
    | some y =>
      obtain ⟨r, p3⟩ := y
      obtain ⟨ht, -, -, hp3⟩ := selectSym_spec h2
      refine .inr ⟨_, rfl, ?_⟩
      intro ch p h
      simp only [Option.some.injEq, Prod.mk.injEq] at h
      obtain ⟨rfl, rfl⟩ := h
      have hle := hg.fills.le
      refine ⟨by omega, ht.le, fun name => new_children name ?_⟩
      exact (hs.fills (by omega) rfl n .operator).cons
        (hg.fills.cons (ht.fills (by omega) rfl n .operator).list1)

theorem tokenParse_ok {call : Rec} {m : Nat} (hc : CallOk Q call m) (g : Grammar)
    {tp : TokenParser} (hne : tp.NonEmpty) {row : Row} {pos : Nat}
    (hp : pos ≤ row.length) (hm : restWeight row pos ≤ m) :
    tokenParse call g tp row pos = .error .assertion ∨
  ∃ r, tokenParse call g tp row pos = .ok r ∧ ∀ ch p, r = some (ch, p) → TokenOk Q row pos p ch := by
  cases tp with
  | symbols ss ty =>
    refine .inr ⟨_, rfl, ?_⟩
    intro ch p h
    obtain ⟨⟨s, q⟩, hs, he⟩ := Option.map_eq_some_iff.1 h
    simp only [Prod.mk.injEq] at he
    obtain ⟨rfl, rfl⟩ := he
    exact justSymbols_token hne hp hs ty
  | brackets n o c => exact parseBrackets_ok hc n o c hm
  | emptyBrackets n o c => exact .inr (parseEmptyBrackets_ok n o c row pos)
  | container v =>
    rcases parseContainer_ok hc v hm with he | ⟨o, h1, h2, -⟩
    · exact .inl he
    · exact .inr ⟨o, h1, h2⟩
  | «variable» => exact .inr ⟨_, rfl, fun ch p h => parseVariable_token h⟩
  | number => exact .inr ⟨_, rfl, fun ch p h => parseNumber_token hp h⟩
  | string => exact .inr ⟨_, rfl, fun ch p h => parseString_token h⟩

theorem parseScript_ok {call : Rec} {m : Nat} (hc : CallOk Q call m) (g : Grammar) (v : Variant)
    {row : Row} {pos : Nat} (hm : restWeight row pos ≤ m) :
    parseScript call g v row pos = .error .assertion ∨
  ∃ o, parseScript call g v row pos = .ok o ∧
      ∀ t p, o = some (t, p) → FillsAt Q row pos p t ∧ pos < p := by
  unfold parseScript
  rcases parseContainer_ok hc v hm with he | ⟨o, h1, h2, -⟩
  · exact .inl (by rw [he]; rfl)
  rw [h1]
  cases o with
  | none => exact .inr ⟨none, rfl, nofun⟩
  | some x =>
    obtain ⟨c, p1⟩ := x
    have hk := h2 c p1 rfl
    obtain ⟨t, ht, hf⟩ := hk.make g.builtIn.operator
    obtain ⟨sa, p2, hsp, hop, hle, hle2⟩ := parseSpaces_ok g hk.le
    obtain ⟨t', ht', hf'⟩ := whitespacesNode_ok g.builtIn (sb := none) (p0 := pos) rfl hf hop
    refine .inr ⟨some (t', p2), by simp only [M.ok_bind, ht, hsp, ht'], ?_⟩
    intro u q h
    simp only [Option.some.injEq, Prod.mk.injEq] at h
    obtain ⟨rfl, rfl⟩ := h
    exact ⟨hf', Nat.lt_of_lt_of_le hk.lt hle⟩

theorem parseScripts_ok {call : Rec} {m : Nat} (hc : CallOk Q call m) (g : Grammar) {row : Row}
    {p0 : Nat} : ∀ (n : Nat) {t : SNode} {pos : Nat},
    FillsAt Q row p0 pos t → restWeight row pos ≤ m → row.length < n + pos →
    parseScripts call g row n t pos = .error .assertion ∨
    ∃ t' p, parseScripts call g row n t pos = .ok (t', p) ∧ FillsAt Q row p0 p t' ∧ pos ≤ p
  | 0, t, pos, hf, _, hn => by have := hf.le; omega
  | n + 1, t, pos, hf, hm, hn => by
    unfold parseScripts
    rcases parseScript_ok hc g .sub hm with he | ⟨o, h1, h2⟩
    · exact .inl (by rw [he]; rfl)
    rw [h1]
    cases o with
    | some x =>
      obtain ⟨s, p1⟩ := x
      obtain ⟨hs, hlt⟩ := h2 s p1 rfl
      obtain ⟨u, hu, huf⟩ := buildPostfix_ok g.builtIn.sub hf hs
      simp only [M.ok_bind, hu]
      rcases parseScripts_ok hc g n huf
        (Nat.le_trans (restWeight_le row (Nat.le_of_lt hlt)) hm) (by omega) with
        he | ⟨t', p, h, hf', hle⟩
      · exact .inl he
      exact .inr ⟨t', p, h, hf', by omega⟩
    | none =>
      rcases parseScript_ok hc g .sup hm with he | ⟨o, h1, h2⟩
      · exact .inl (by simp only [M.ok_bind, he, M.error_bind])
      simp only [M.ok_bind, h1]
      cases o with
      | some x =>
        obtain ⟨s, p1⟩ := x
        obtain ⟨hs, hlt⟩ := h2 s p1 rfl
        obtain ⟨u, hu, huf⟩ := buildPostfix_ok g.builtIn.sup hf hs
        simp only [M.ok_bind, hu]
        rcases parseScripts_ok hc g n huf
          (Nat.le_trans (restWeight_le row (Nat.le_of_lt hlt)) hm) (by omega) with
          he | ⟨t', p, h, hf', hle⟩
        · exact .inl he
        exact .inr ⟨t', p, h, hf', by omega⟩
      | none => exact .inr ⟨t, pos, rfl, hf, Nat.le_refl _⟩

theorem ruleParse_ok {call : Rec} {m : Nat} (hc : CallOk Q call m) (g : Grammar) {r : Rule}
    (hne : r.parser.NonEmpty) {row : Row} {pos : Nat}
    (hp : pos ≤ row.length) (hm : restWeight row pos ≤ m) :
    ruleParse call g r row pos = .error .assertion ∨
    ∃ o, ruleParse call g r row pos = .ok o ∧ RuleOk Q row pos o ∧
      (∀ v cells w, r.parser = .container v → row[pos]? = some (.container v cells w) →
        o.isSome = true) := by
  obtain ⟨sb, p1, hsb, hob, hle1, hle1'⟩ := parseSpaces_ok g hp
  have hm1 : restWeight row p1 ≤ m := Nat.le_trans (restWeight_le row hle1) hm
  unfold ruleParse
  rcases tokenParse_ok hc g hne hle1' hm1 with he | ⟨o, ho, hk⟩
  · exact .inl (by simp only [hsb, M.ok_bind, he, M.error_bind])
  simp only [hsb, M.ok_bind, ho]
  cases o with
  | none =>
    refine .inr ⟨none, rfl, nofun, ?_⟩
    intro v cells w hv hr
    have hpos : p1 = pos := by
      unfold parseSpaces at hsb
      obtain ⟨hlt, he⟩ := List.getElem?_eq_some_iff.1 hr
      rw [List.drop_eq_getElem_cons hlt, he] at hsb
      simp only [symRun, List.isEmpty_nil, if_true, Except.ok.injEq, Prod.mk.injEq] at hsb
      exact hsb.2.symm
    subst hpos
    rw [hv] at ho
    simp only [tokenParse] at ho
    rcases parseContainer_ok hc v hm1 with he | ⟨o', h1, -, h3⟩
    · rw [he] at ho; cases ho
    rw [h1] at ho
    cases ho
    exact absurd (h3 cells w hr) (by simp)
  | some x =>
    obtain ⟨c, p2⟩ := x
    have hk := hk c p2 rfl
    obtain ⟨t, ht, hf⟩ := hk.make (tokenName g r)
    obtain ⟨sa, p3, hsa, hoa, hle3, hle3'⟩ := parseSpaces_ok g hk.le
    obtain ⟨t', ht', hf'⟩ := whitespacesNode_ok g.builtIn hob hf hoa
    simp only [M.ok_bind, ht, hsa, ht']
    have hlt := hk.lt
    by_cases hts : r.kind.takesScripts
    · rcases parseScripts_ok hc g (row.length + 1) hf'
        (Nat.le_trans (restWeight_le row (by omega)) hm) (by omega) with
        he | ⟨u, p4, hu, huf, hle4⟩
      · exact .inl (by simp only [hts, if_true, he, M.error_bind])
      simp only [hts, if_true, hu, M.ok_bind]
      refine .inr ⟨_, rfl, ?_, fun _ _ _ _ _ => rfl⟩
      intro t p h
      simp only [Option.some.injEq, Prod.mk.injEq] at h
      obtain ⟨rfl, rfl⟩ := h
      exact ⟨huf, by omega⟩
    · simp only [hts]
      refine .inr ⟨_, rfl, ?_, fun _ _ _ _ _ => rfl⟩
      intro t p h
      simp only [Option.some.injEq, Prod.mk.injEq] at h
      obtain ⟨rfl, rfl⟩ := h
      exact ⟨hf', by omega⟩

theorem parseIter_ok {call : Rec} {m : Nat} (hc : CallOk Q call m) (g : Grammar) {row : Row}
    {pos : Nat} (hp : pos ≤ row.length) (hm : restWeight row pos ≤ m) :
    ∀ {rs : List Rule}, (∀ r ∈ rs, r.parser.NonEmpty) →
    parseIter call g row pos rs = .error .assertion ∨
 ∃ o, parseIter call g row pos rs = .ok o ∧
      (∀ t r p, o = some (t, r, p) → FillsAt Q row pos p t ∧ pos < p ∧ r ∈ rs) ∧
      (∀ v cells w r, r ∈ rs → r.parser = .container v →
        row[pos]? = some (.container v cells w) → o.isSome = true)
  | [], _ => .inr ⟨none, rfl, nofun, nofun⟩
  | r :: rs, hne => by
    unfold parseIter
    rcases ruleParse_ok hc g (hne r (List.mem_cons_self ..)) hp hm with he | ⟨o, ho, hk, hcov⟩
    · exact .inl (by rw [he]; rfl)
    rw [ho]
    cases o with
    | some x =>
      obtain ⟨t, p⟩ := x
      refine .inr ⟨_, rfl, ?_, fun _ _ _ _ _ _ _ => rfl⟩
      intro t' r' p' h
      simp only [Option.some.injEq, Prod.mk.injEq] at h
      obtain ⟨rfl, rfl, rfl⟩ := h
      obtain ⟨h1, h2⟩ := hk t p rfl
      exact ⟨h1, h2, List.mem_cons_self ..⟩
    | none =>
      simp only [M.ok_bind]
      rcases parseIter_ok hc g hp hm (rs := rs) (fun r hr => hne r (List.mem_cons_of_mem _ hr)) with
        he | ⟨o', ho', hk', hcov'⟩
      · exact .inl he
      refine .inr ⟨o', ho', ?_, ?_⟩
      · intro t' r' p' h
        obtain ⟨h1, h2, h3⟩ := hk' t' r' p' h
        exact ⟨h1, h2, List.mem_cons_of_mem _ h3⟩
      · intro v cells w r' hr' hv hrow
        rcases List.mem_cons.1 hr' with rfl | hr'
        · have := hcov v cells w hv hrow
          cases this
        · exact hcov' v cells w r' hr' hv hrow

/-- Where nothing can be parsed there is a symbol. -/
theorem symbol_of_none {call : Rec} {m : Nat} (hc : CallOk Q call m) {g : Grammar} (hg : g.Good)
    {row : Row} {pos : Nat} (hp : pos < row.length)
    (hm : restWeight row pos ≤ m)
    (h1 : parseIter call g row pos g.prefixes = .ok none)
    (h2 : parseIter call g row pos g.atoms = .ok none)
    (h3 : parseIter call g row pos g.infixes = .ok none)
    (h4 : parseIter call g row pos g.postfixes = .ok none) :
    ∃ s, row[pos]? = some (.symbol s) := by
  have hget : row[pos]? = some row[pos] := by simp
  cases hn : row[pos] with
  | symbol s => exact ⟨s, by rw [hget, hn]⟩
  | container v cells w =>
    rw [hn] at hget
    obtain ⟨r, hr, hrp, hrc⟩ := hg.containers v
    exfalso
    rcases Grammar.mem_kinds hr hrp with h | h | h | h
    · rcases parseIter_ok hc g (Nat.le_of_lt hp) hm hg.atoms with he | ⟨o, ho, -, hcov⟩
      · rw [h2] at he; cases he
      rw [h2] at ho; cases ho
      exact absurd (hcov v cells w r h hrc hget) (by simp)
    · rcases parseIter_ok hc g (Nat.le_of_lt hp) hm hg.prefixes with he | ⟨o, ho, -, hcov⟩
      · rw [h1] at he; cases he
      rw [h1] at ho; cases ho
      exact absurd (hcov v cells w r h hrc hget) (by simp)
    · rcases parseIter_ok hc g (Nat.le_of_lt hp) hm hg.infixes with he | ⟨o, ho, -, hcov⟩
      · rw [h3] at he; cases he
      rw [h3] at ho; cases ho
      exact absurd (hcov v cells w r h hrc hget) (by simp)
    · rcases parseIter_ok hc g (Nat.le_of_lt hp) hm hg.postfixes with he | ⟨o, ho, -, hcov⟩
      · rw [h4] at he; cases he
      rw [h4] at ho; cases ho
      exact absurd (hcov v cells w r h hrc hget) (by simp)

theorem canParse_error {call : Rec} {g : Grammar} {row : Row} {pos : Nat} {rs : List Rule} {p : Panic}
    (h : parseIter call g row pos rs = .error p) : canParse call g row pos rs = .error p := by
  unfold canParse
  rw [h]
  rfl

theorem unknownStops_ok {call : Rec} {m : Nat} (hc : CallOk Q call m) {g : Grammar} (hg : g.Good)
    {row : Row} {pos : Nat} (e : Ending) (hp : pos ≤ row.length)
    (hm : restWeight row pos ≤ m) :
    unknownStops call g row pos e = .error .assertion ∨
   ∃ b, unknownStops call g row pos e = .ok b ∧
      (b = false → ∃ s, row[pos]? = some (.symbol s)) := by
  unfold unknownStops
  cases he : isAtEnd row pos e with
  | true => exact .inr ⟨true, rfl, by simp⟩
  | false =>
    simp only [Bool.false_eq_true, if_false]
    rcases parseIter_ok hc g hp hm hg.prefixes with h1 | ⟨o1, h1, -, -⟩
    · exact .inl (by simp only [canParse_error h1, M.error_bind])
    simp only [canParse_of h1, M.ok_bind]
    cases o1 with
    | some _ => exact .inr ⟨true, rfl, by simp⟩
    | none =>
    simp only [Option.isSome_none, Bool.false_eq_true, if_false]
    rcases parseIter_ok hc g hp hm hg.atoms with h2 | ⟨o2, h2, -, -⟩
    · exact .inl (by simp only [canParse_error h2, M.error_bind])
    simp only [canParse_of h2, M.ok_bind]
    cases o2 with
    | some _ => exact .inr ⟨true, rfl, by simp⟩
    | none =>
    simp only [Option.isSome_none, Bool.false_eq_true, if_false]
    rcases parseIter_ok hc g hp hm hg.infixes with h3 | ⟨o3, h3, -, -⟩
    · exact .inl (by simp only [canParse_error h3, M.error_bind])
    simp only [canParse_of h3, M.ok_bind]
    cases o3 with
    | some _ => exact .inr ⟨true, rfl, by simp⟩
    | none =>
    simp only [Option.isSome_none, Bool.false_eq_true, if_false]
    rcases parseIter_ok hc g hp hm hg.postfixes with h4 | ⟨o4, h4, -, -⟩
    · exact .inl (canParse_error h4)
    simp only [canParse_of h4]
    cases o4 with
    | some _ => exact .inr ⟨true, rfl, by simp⟩
    | none =>
      exact .inr ⟨false, rfl, fun _ => symbol_of_none hc hg (not_isAtEnd he) hm h1 h2 h3 h4⟩

theorem unknownLoop_ok {call : Rec} {m : Nat} (hc : CallOk Q call m) {g : Grammar} (hg : g.Good)
    {row : Row} (e : Ending) {p0 : Nat} :
    ∀ (n : Nat) {t : SNode} {pos : Nat}, FillsAt Q row p0 pos t → restWeight row pos ≤ m →
    row.length < n + pos →
    unknownLoop call g row e n t pos = .error .assertion ∨
    ∃ t' p, unknownLoop call g row e n t pos = .ok (t', p) ∧ FillsAt Q row p0 p t' ∧ pos ≤ p
  | 0, t, pos, hf, _, hn => by have := hf.le; omega
  | n + 1, t, pos, hf, hm, hn => by
    unfold unknownLoop
    rcases unknownStops_ok hc hg e hf.le.2 hm with he | ⟨b, hb, hsym⟩
    · exact .inl (by rw [he]; rfl)
    rw [hb]
    cases b with
    | true => exact .inr ⟨t, pos, rfl, hf, Nat.le_refl _⟩
    | false =>
      obtain ⟨s, hs⟩ := hsym rfl
      obtain ⟨u, hu, huf⟩ := makeUnknownAtom_ok g hs
      obtain ⟨j, hj, hjf⟩ := makeMissingOperator_ok g hf huf
      simp only [M.ok_bind, hu, hj, Bool.false_eq_true, if_false]
      rcases unknownLoop_ok hc hg e n hjf
        (Nat.le_trans (restWeight_succ_le row pos) hm) (by omega) with he | ⟨t', p, h, hf', hle⟩
      · exact .inl he
      exact .inr ⟨t', p, h, hf', by omega⟩

theorem parseUnknown_ok {call : Rec} {m : Nat} (hc : CallOk Q call m) {g : Grammar} (hg : g.Good)
    {row : Row} (e : Ending) {pos : Nat} {s : Str}
    (hs : row[pos]? = some (.symbol s)) (hm : restWeight row pos ≤ m) :
    parseUnknown call g row e pos = .error .assertion ∨
   ∃ t p, parseUnknown call g row e pos = .ok (t, p) ∧ FillsAt Q row pos p t ∧ pos < p := by
  obtain ⟨u, hu, huf⟩ := makeUnknownAtom_ok g hs
  unfold parseUnknown
  simp only [hu, M.ok_bind]
  rcases unknownLoop_ok hc hg e (row.length + 1) huf
    (Nat.le_trans (restWeight_succ_le row pos) hm) (by omega) with he | ⟨t', p, h, hf', hle⟩
  · exact .inl he
  exact .inr ⟨t', p, h, hf', by omega⟩

theorem prattStart_ok {call : Rec} {m : Nat} (hc : CallOk Q call m) {g : Grammar} (hg : g.Good)
    {row : Row} (e : Ending) {pos : Nat} (hp : pos ≤ row.length)
    (hm : restWeight row pos ≤ m) :
    prattStart call g row e pos = .error .assertion ∨
 ∃ s p, prattStart call g row e pos = .ok (s, p) ∧ StartGood Q call g row pos e s p := by
  unfold prattStart
  obtain ⟨a, ha, haf⟩ := makeMissingAtom_ok g hp
  simp only [ha, M.ok_bind]
  cases hend : atInputEnd row pos with
  | true =>
    refine .inr ⟨.finished a, pos, rfl, haf, fun t _ => isAtEnd_of_atInputEnd hend, nofun,
      fun _ h => absurd (hend.symm.trans h) (by simp)⟩
  | false =>
    rcases parseIter_ok hc g hp hm hg.prefixes with h1 | ⟨o1, h1, hk1, -⟩
    · exact .inl (by simp only [h1, M.error_bind, Bool.false_eq_true, if_false])
    simp only [h1, M.ok_bind, Bool.false_eq_true, if_false]
    cases o1 with
    | some x =>
      obtain ⟨op, r, p1⟩ := x
      obtain ⟨hof, hlt, -⟩ := hk1 op r p1 rfl
      rcases hc.2 row p1 r.kind.strengthRight e hof.le.2
        (Nat.lt_of_lt_of_le (restWeight_lt row hlt hof.le.2) hm) with he | ⟨res, p2, hcall, hgood⟩
      · exact .inl (by simp only [he, M.error_bind])
      obtain ⟨t, ht, htf⟩ := buildPrefix_ok r.name hof hgood.fills
      have hle := hgood.fills.le
      simp only [hcall, M.ok_bind, ht]
      cases res with
      | expression u =>
        exact .inr ⟨.left t, p2, rfl, htf, nofun, fun _ _ _ => by omega,
          fun _ _ => by omega⟩
      | stop u =>
        refine .inr ⟨.finished t, p2, rfl, htf, fun _ _ => hgood.stop u rfl, nofun,
          fun _ _ => by omega⟩
    | none =>
      simp only
      rcases parseIter_ok hc g hp hm hg.atoms with h2 | ⟨o2, h2, hk2, -⟩
      · exact .inl (by simp only [h2, M.error_bind])
      simp only [h2, M.ok_bind]
      cases o2 with
      | some x =>
        obtain ⟨t, r, p1⟩ := x
        obtain ⟨hof, hlt, -⟩ := hk2 t r p1 rfl
        exact .inr ⟨.left t, p1, rfl, hof, nofun, fun _ _ _ => by omega,
          fun _ _ => hlt⟩
      | none =>
        have hnone : ((∃ x, parseIter call g row pos g.prefixes = .ok (some x)) ∨
            (∃ x, parseIter call g row pos g.atoms = .ok (some x))) → False := by
          rintro (⟨x, hx⟩ | ⟨x, hx⟩)
          · rw [h1] at hx; cases hx
          · rw [h2] at hx; cases hx
        rcases parseIter_ok hc g hp hm hg.infixes with h3 | ⟨o3, h3, -, -⟩
        · exact .inl (by simp only [canParseEither, canParse_error h3, M.error_bind])
        simp only [canParseEither, canParse_of h3, M.ok_bind]
        cases o3 with
        | some x =>
          exact .inr ⟨.left a, pos, rfl, haf, nofun, fun _ _ _ => .inl ⟨x, h3⟩,
            fun h => absurd h hnone⟩
        | none =>
          simp only [Option.isSome_none, Bool.false_eq_true, if_false]
          rcases parseIter_ok hc g hp hm hg.postfixes with h4 | ⟨o4, h4, -, -⟩
          · exact .inl (by simp only [canParse_error h4, M.error_bind])
          simp only [canParse_of h4, M.ok_bind]
          cases o4 with
          | some x =>
            exact .inr ⟨.left a, pos, rfl, haf, nofun, fun _ _ _ => .inr ⟨x, h4⟩,
              fun h => absurd h hnone⟩
          | none =>
            cases he : isAtEnd row pos e with
            | true =>
              exact .inr ⟨.finished a, pos, rfl, haf, fun _ _ => he, nofun,
                fun h => absurd h hnone⟩
            | false =>
              obtain ⟨s, hs⟩ := symbol_of_none hc hg (not_isAtEnd he) hm h1 h2 h3 h4
              simp only [Option.isSome_none, Bool.false_eq_true, if_false]
              rcases parseUnknown_ok hc hg e hs hm with he | ⟨t, p, ht, htf, hlt⟩
              · exact .inl (by simp only [he, M.error_bind])
              simp only [ht, M.ok_bind]
              exact .inr ⟨.left t, p, rfl, htf, nofun, fun _ _ _ => by omega,
                fun h => absurd h hnone⟩

theorem prattLoop_ok {call : Rec} {m : Nat} (hc : CallOk Q call m) {g : Grammar} (hg : g.Good)
    {row : Row} (min : Power) (e : Ending) (hpr : CallProgress call g row e m)
    {p0 : Nat} :
    ∀ (n : Nat) {left : SNode} {pos : Nat}, FillsAt Q row p0 pos left → restWeight row pos ≤ m →
    row.length < n + pos →
    (restWeight row pos = m → (∃ x, parseIter call g row pos g.infixes = .ok (some x)) ∨
      (∃ x, parseIter call g row pos g.postfixes = .ok (some x))) →
    prattLoop call g row min e n left pos = .error .assertion ∨
    ∃ res p, prattLoop call g row min e n left pos = .ok (res, p) ∧
      PrattGood Q row p0 min e res p ∧ pos ≤ p
  | 0, t, pos, hf, _, hn, _ => by have := hf.le; omega
  | n + 1, left, pos, hf, hm, hn, hfirst => by
    unfold prattLoop
    have hp := hf.le.2
    cases hend : atInputEnd row pos with
    | true =>
      exact .inr ⟨.stop left, pos, rfl,
        ⟨hf, fun _ _ => isAtEnd_of_atInputEnd hend, nofun⟩, Nat.le_refl _⟩
    | false =>
      -- what happens after the loop has advanced to `p2`
      have next : ∀ {t : SNode} {p2 : Nat}, FillsAt Q row p0 p2 t → pos < p2 →
          prattLoop call g row min e n t p2 = .error .assertion ∨
          ∃ res p, prattLoop call g row min e n t p2 = .ok (res, p) ∧
            PrattGood Q row p0 min e res p ∧ pos ≤ p := by
        intro t p2 htf hlt
        have hlt' := restWeight_lt row hlt htf.le.2
        rcases prattLoop_ok hc hg min e hpr n htf (by omega) (by omega)
          (by omega) with he | ⟨res, p, h, hgd, hle⟩
        · exact .inl he
        exact .inr ⟨res, p, h, hgd, by omega⟩
      rcases parseIter_ok hc g hp hm hg.infixes with h3 | ⟨o3, h3, hk3, -⟩
      · exact .inl (by simp only [h3, M.error_bind, Bool.false_eq_true, if_false])
      simp only [h3, M.ok_bind, Bool.false_eq_true, if_false]
      cases o3 with
      | some x =>
        obtain ⟨op, r, p1⟩ := x
        obtain ⟨hof, hlt, -⟩ := hk3 op r p1 rfl
        simp only
        cases hlts : r.kind.strengthLeft.lt min with
        | true =>
          exact .inr ⟨.expression left, pos, rfl, ⟨hf, nofun, fun _ _ => ⟨_, hlts⟩⟩,
            Nat.le_refl _⟩
        | false =>
          rcases hc.2 row p1 r.kind.strengthRight e hof.le.2
            (Nat.lt_of_lt_of_le (restWeight_lt row hlt hof.le.2) hm) with
            he | ⟨res, p2, hcall, hgood⟩
          · exact .inl (by simp only [he, M.error_bind, Bool.false_eq_true, if_false])
          obtain ⟨t, ht, htf⟩ := buildInfix_ok r.name hf hof hgood.fills
          have hle := hgood.fills.le
          simp only [hcall, M.ok_bind, ht, Bool.false_eq_true, if_false]
          cases res with
          | expression u => exact next htf (by omega)
          | stop u =>
            exact .inr ⟨.stop t, p2, rfl, ⟨htf, fun _ _ => hgood.stop u rfl, nofun⟩,
              by omega⟩
      | none =>
        simp only
        rcases parseIter_ok hc g hp hm hg.postfixes with h4 | ⟨o4, h4, hk4, -⟩
        · exact .inl (by simp only [h4, M.error_bind])
        simp only [h4, M.ok_bind]
        cases o4 with
        | some x =>
          obtain ⟨op, r, p1⟩ := x
          obtain ⟨hof, hlt, -⟩ := hk4 op r p1 rfl
          simp only
          cases hlts : r.kind.strengthLeft.lt min with
          | true =>
            exact .inr ⟨.expression left, pos, rfl, ⟨hf, nofun, fun _ _ => ⟨_, hlts⟩⟩,
              Nat.le_refl _⟩
          | false =>
            obtain ⟨t, ht, htf⟩ := buildPostfix_ok r.name hf hof
            simp only [M.ok_bind, ht, Bool.false_eq_true, if_false]
            exact next htf hlt
        | none =>
          have hlt' : restWeight row pos < m := by
            rcases Nat.lt_or_eq_of_le hm with h | h
            · exact h
            · exfalso
              rcases hfirst h with ⟨x, hx⟩ | ⟨x, hx⟩
              · rw [h3] at hx; cases hx
              · rw [h4] at hx; cases hx
          have missing : ∀ (hsome : (∃ x, parseIter call g row pos g.prefixes = .ok (some x)) ∨
              (∃ x, parseIter call g row pos g.atoms = .ok (some x))),
              (if missingOperatorKind.strengthLeft.lt min then
                  (.ok (.expression left, pos) : M (PResult × Nat))
                else do
                  let (right, p2) ← call row pos missingOperatorKind.strengthRight e
                  let t ← makeMissingOperator g left right.node
                  match right with
                  | .expression _ => prattLoop call g row min e n t p2
                  | .stop _ => .ok (.stop t, p2)) = .error .assertion ∨
              ∃ res p, (if missingOperatorKind.strengthLeft.lt min then
                  (.ok (.expression left, pos) : M (PResult × Nat))
                else do
                  let (right, p2) ← call row pos missingOperatorKind.strengthRight e
                  let t ← makeMissingOperator g left right.node
                  match right with
                  | .expression _ => prattLoop call g row min e n t p2
                  | .stop _ => .ok (.stop t, p2)) = .ok (res, p) ∧
                PrattGood Q row p0 min e res p ∧ pos ≤ p := by
            intro hsome
            cases hlts : missingOperatorKind.strengthLeft.lt min with
            | true =>
              exact .inr ⟨.expression left, pos, rfl, ⟨hf, nofun, fun _ _ => ⟨_, hlts⟩⟩,
                Nat.le_refl _⟩
            | false =>
              rcases hc.2 row pos missingOperatorKind.strengthRight e hp hlt' with
                he | ⟨res, p2, hcall, hgood⟩
              · exact .inl (by simp only [he, M.error_bind, Bool.false_eq_true, if_false])
              have hlt := hpr pos _ res p2 hlt' hcall hsome hend
              obtain ⟨t, ht, htf⟩ := makeMissingOperator_ok g hf hgood.fills
              simp only [hcall, M.ok_bind, ht, Bool.false_eq_true, if_false]
              cases res with
              | expression u => exact next htf hlt
              | stop u =>
                exact .inr ⟨.stop t, p2, rfl, ⟨htf, fun _ _ => hgood.stop u rfl, nofun⟩, by omega⟩
          rcases parseIter_ok hc g hp hm hg.prefixes with h1 | ⟨o1, h1, -, -⟩
          · exact .inl (by simp only [canParseEither, canParse_error h1, M.error_bind])
          simp only [canParseEither, canParse_of h1, M.ok_bind]
          cases o1 with
          | some x => exact missing (.inl ⟨x, h1⟩)
          | none =>
            simp only [Option.isSome_none, Bool.false_eq_true, if_false]
            rcases parseIter_ok hc g hp hm hg.atoms with h2 | ⟨o2, h2, -, -⟩
            · exact .inl (by simp only [canParse_error h2, M.error_bind])
            simp only [canParse_of h2, M.ok_bind]
            cases o2 with
            | some x => exact missing (.inr ⟨x, h2⟩)
            | none =>
              simp only [Option.isSome_none, Bool.false_eq_true, if_false]
              cases he : isAtEnd row pos e with
              | true =>
                exact .inr ⟨.stop left, pos, rfl, ⟨hf, fun _ _ => he, nofun⟩,
                  Nat.le_refl _⟩
              | false =>
                obtain ⟨s, hs⟩ := symbol_of_none hc hg (not_isAtEnd he) hm h1 h2 h3 h4
                rcases parseUnknown_ok hc hg e hs hm with he | ⟨u, p2, hu, huf, hlt⟩
                · exact .inl (by simp only [he, M.error_bind, Bool.false_eq_true, if_false])
                obtain ⟨t, ht, htf⟩ := makeMissingOperator_ok g hf huf
                simp only [hu, M.ok_bind, ht, Bool.false_eq_true, if_false]
                exact next htf hlt

/-- One more level of recursion. -/
theorem prattBody_ok {call : Rec} {m : Nat} (hc : CallOk Q call m) {g : Grammar} (hg : g.Good)
    {row : Row} (e : Ending) (hpr : CallProgress call g row e m)
    {pos : Nat} (min : Power) (hp : pos ≤ row.length) (hm : restWeight row pos ≤ m) :
    prattBody call g row pos min e = .error .assertion ∨
    ∃ res p, prattBody call g row pos min e = .ok (res, p) ∧ PrattGood Q row pos min e res p ∧
      (((∃ x, parseIter call g row pos g.prefixes = .ok (some x)) ∨
        (∃ x, parseIter call g row pos g.atoms = .ok (some x))) → atInputEnd row pos = false →
        pos < p) := by
  unfold prattBody
  rcases prattStart_ok hc hg e hp hm with he | ⟨s, p, hs, hgd⟩
  · exact .inl (by simp only [he, M.error_bind])
  simp only [hs, M.ok_bind]
  cases s with
  | finished t =>
    exact .inr ⟨.stop t, p, rfl, ⟨hgd.fills, fun _ _ => hgd.finished t rfl, nofun⟩, hgd.progress⟩
  | left t =>
    have hle := hgd.fills.le
    have hmp := restWeight_le row hle.1
    rcases prattLoop_ok hc hg min e hpr (row.length + 1) hgd.fills
      (Nat.le_trans hmp hm) (by omega) (by
        intro heq
        have hpp : p = pos := by
          rcases Nat.lt_or_eq_of_le hle.1 with h | h
          · have := restWeight_lt row h hle.2; omega
          · exact h.symm
        have := hgd.stuck t rfl hpp
        rw [hpp]
        exact this) with he | ⟨res, q, h, hgood, hq⟩
    · exact .inl he
    exact .inr ⟨res, q, h, hgood, fun h1 h2 => Nat.lt_of_lt_of_le (hgd.progress h1 h2) hq⟩

theorem pratt_both {g : Grammar} (hg : g.Good) : ∀ f, CallOk (ParsesTo g) (pratt g f) f ∧
    ∀ row e, CallProgress (pratt g f) g row e f
  | 0 => ⟨⟨fun row t h => ⟨0, h⟩, fun row pos min e _ h => absurd h (by omega)⟩,
    fun row e pos min res p h => absurd h (by omega)⟩
  | f + 1 => by
    obtain ⟨hc, hpr⟩ := pratt_both hg f
    refine ⟨⟨fun row t h => ⟨f + 1, h⟩, fun row pos min e hp hm => ?_⟩,
      fun row e pos min res p hm hcall hsome hend => ?_⟩
    · rcases prattBody_ok hc hg e (hpr row e) min hp (Nat.lt_succ_iff.1 hm) with
        he | ⟨res, p, h, hgood, -⟩
      · exact .inl he
      exact .inr ⟨res, p, h, hgood⟩
    · have hp := Nat.le_of_lt (not_atInputEnd hend)
      have hm' := Nat.lt_succ_iff.1 hm
      rcases prattBody_ok hc hg e (hpr row e) min hp hm' with he | ⟨res', p', h, -, hprog⟩
      · rw [pratt, he] at hcall; cases hcall
      rw [pratt, h] at hcall
      cases hcall
      refine hprog ?_ hend
      have hmono := pratt_mono_succ g f
      -- the prefixes have been tried
      rcases parseIter_ok hc g hp hm' hg.prefixes with h1 | ⟨o1, h1, -, -⟩
      · simp only [prattBody, prattStart, hend, h1, M.error_bind, Bool.false_eq_true, if_false] at h
        cases h
      cases o1 with
      | some x => exact .inl ⟨x, h1⟩
      | none =>
        rcases parseIter_ok hc g hp hm' hg.atoms with h2 | ⟨o2, h2, -, -⟩
        · simp only [prattBody, prattStart, hend, h1, h2, M.ok_bind, M.error_bind,
            Bool.false_eq_true, if_false] at h
          cases h
        have h1' := parseIter_mono hmono g row pos g.prefixes _ h1
        have h2' := parseIter_mono hmono g row pos g.atoms _ h2
        rcases hsome with ⟨x, hx⟩ | ⟨x, hx⟩
        · rw [h1'] at hx; cases hx
        · rw [h2'] at hx; cases hx; exact .inr ⟨x, h2⟩

/-- The pratt parser has a result wherever it is given enough depth. -/
theorem pratt_ok {g : Grammar} (hg : g.Good) (f : Nat) : CallOk (ParsesTo g) (pratt g f) f :=
  (pratt_both hg f).1

theorem parseFuel_ends {g : Grammar} (hg : g.Good) (row : Row) {f : Nat} (hf : rowWeight row < f) :
    g.parseFuel f row = .error .assertion ∨
    ∃ t, g.parseFuel f row = .ok t ∧ FillsAt (ParsesTo g) row 0 row.length t := by
  rcases parseWhole_ok (pratt_ok hg f) hf with he | ⟨t, h1, -, h2⟩
  · exact .inl he
  · exact .inr ⟨t, h1, h2⟩

end Aftermath.Any
