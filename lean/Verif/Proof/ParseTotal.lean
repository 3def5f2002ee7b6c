import Verif.Proof.ParseMono

/-! # The parser terminates, does not panic, and its trees fill their range -/

namespace Aftermath

variable {Q : Row → SNode → Prop}

/-! ## Sizes -/

/-- Weight of the row from an offset on. -/
def restWeight (row : Row) (pos : Nat) : Nat := rowWeight (row.drop pos)

theorem Node.weight_pos (n : Node) : 1 ≤ n.weight := by
  cases n <;> simp [Node.weight]

theorem restWeight_of_get {row : Row} {pos : Nat} {n : Node} (h : row[pos]? = some n) :
    restWeight row pos = n.weight + restWeight row (pos + 1) := by
  obtain ⟨hlt, he⟩ := List.getElem?_eq_some_iff.1 h
  unfold restWeight
  rw [List.drop_eq_getElem_cons hlt, he, rowWeight]

theorem restWeight_succ_le (row : Row) (pos : Nat) :
    restWeight row (pos + 1) ≤ restWeight row pos := by
  cases h : row[pos]? with
  | none =>
    have hl := List.getElem?_eq_none_iff.1 h
    unfold restWeight
    rw [List.drop_of_length_le (by omega), List.drop_of_length_le (by omega)]
    exact Nat.le_refl _
  | some n => rw [restWeight_of_get h]; omega

theorem restWeight_le (row : Row) {p q : Nat} (h : p ≤ q) : restWeight row q ≤ restWeight row p := by
  induction h with
  | refl => exact Nat.le_refl _
  | step _ ih => exact Nat.le_trans (restWeight_succ_le row _) ih

theorem restWeight_lt (row : Row) {p q : Nat} (h : p < q) (hq : q ≤ row.length) :
    restWeight row q < restWeight row p := by
  have h1 : restWeight row q ≤ restWeight row (p + 1) := restWeight_le row h
  have h2 := restWeight_of_get (row := row) (pos := p) (n := row[p]'(by omega)) (by simp)
  have := (row[p]'(by omega)).weight_pos
  omega

theorem rowWeight_lt_cells {r : Row} {cells : List Row} (h : r ∈ cells) :
    rowWeight r < cellsWeight cells := by
  induction cells with
  | nil => cases h
  | cons c cs ih =>
    rw [cellsWeight]
    rcases List.mem_cons.1 h with rfl | h
    · omega
    · have := ih h; omega

/-! ## Runs of symbols -/

theorem symRun_spec (f : Str → Bool) : ∀ (l : List Node),
    l.take (symRun f l).length = (symRun f l).map Node.symbol ∧ (symRun f l).length ≤ l.length
  | [] => by simp [symRun]
  | .container _ _ _ :: _ => by simp [symRun]
  | .symbol s :: rest => by
    rw [symRun]
    have ih := symRun_spec f rest
    by_cases h : f s
    · simp only [h, if_true, List.length_cons, List.take_succ_cons, List.map_cons, ih.1]
      exact ⟨trivial, by omega⟩
    · simp [h]

theorem stringBody_spec : ∀ (l : List Node),
    l.take (stringBody l).length = (stringBody l).map Node.symbol ∧
      (stringBody l).length ≤ l.length
  | [] => by simp [stringBody]
  | .container _ _ _ :: _ => by simp [stringBody]
  | .symbol s :: rest => by
    rw [stringBody.eq_def]
    simp only
    by_cases h : (s == ['\\']) = true
    · simp only [h, if_true]
      cases rest with
      | nil => simp
      | cons n rest' =>
        cases n with
        | container => simp
        | symbol b =>
          have ih := stringBody_spec rest'
          simp only [List.length_cons, List.take_succ_cons, List.map_cons, ih.1]
          exact ⟨trivial, by omega⟩
    · simp only [h]
      by_cases h2 : (s == ['"']) = true
      · simp [h2]
      · have ih := stringBody_spec rest
        simp only [h2, if_false, List.length_cons, List.take_succ_cons, List.map_cons, ih.1,
          Bool.false_eq_true]
        exact ⟨trivial, by omega⟩

/-- The symbols `ss` stand in the row from `lo` to `hi`. -/
structure SymsAt (row : Row) (lo hi : Nat) (ss : List Str) : Prop where
  take : (row.drop lo).take ss.length = ss.map Node.symbol
  hi_eq : hi = lo + ss.length
  le : hi ≤ row.length

theorem SymsAt.nil {row : Row} {p : Nat} (h : p ≤ row.length) : SymsAt row p p [] :=
  ⟨by simp, by simp, h⟩

theorem SymsAt.append {row : Row} {a b c : Nat} {s t : List Str} (h1 : SymsAt row a b s)
    (h2 : SymsAt row b c t) : SymsAt row a c (s ++ t) := by
  refine ⟨?_, by have := h1.hi_eq; have := h2.hi_eq; simp; omega, h2.le⟩
  have hb := h1.hi_eq
  rw [List.length_append, List.take_add, h1.take, List.drop_drop, ← hb, h2.take, List.map_append]

theorem selectSym_spec {f : Str → Bool} {row : Row} {pos p : Nat} {s : Str}
    (h : selectSym f row pos = some (s, p)) :
    SymsAt row pos p [s] ∧ f s = true ∧ row[pos]? = some (.symbol s) ∧ p = pos + 1 := by
  unfold selectSym at h
  cases hr : row[pos]? with
  | none => rw [hr] at h; cases h
  | some n =>
    rw [hr] at h
    cases n with
    | container => cases h
    | symbol t =>
      simp only at h
      by_cases hf : f t
      · simp only [hf, if_true, Option.some.injEq, Prod.mk.injEq] at h
        obtain ⟨rfl, rfl⟩ := h
        obtain ⟨hlt, he⟩ := List.getElem?_eq_some_iff.1 hr
        refine ⟨⟨?_, rfl, by omega⟩, hf, rfl, rfl⟩
        rw [List.drop_eq_getElem_cons hlt, he]
        simp
      · simp [hf] at h

theorem symRun_syms (f : Str → Bool) {row : Row} {pos : Nat} (h : pos ≤ row.length) :
    SymsAt row pos (pos + (symRun f (row.drop pos)).length) (symRun f (row.drop pos)) := by
  have := symRun_spec f (row.drop pos)
  rw [List.length_drop] at this
  exact ⟨this.1, rfl, by omega⟩

theorem stringBody_syms {row : Row} {pos : Nat} (h : pos ≤ row.length) :
    SymsAt row pos (pos + (stringBody (row.drop pos)).length) (stringBody (row.drop pos)) := by
  have := stringBody_spec (row.drop pos)
  rw [List.length_drop] at this
  exact ⟨this.1, rfl, by omega⟩

theorem SymsAt.fills {row : Row} {lo hi : Nat} {ss syms : List Str} (h : SymsAt row lo hi ss)
    (hlt : lo < hi) (hf : ss.flatten = syms.flatten) (name : Nat) (ty : LeafType) :
    FillsAt Q row lo hi (.leaf name lo hi ty syms) := by
  refine ⟨?_, rfl, rfl⟩
  simp only [Fills]
  have : ss.length = hi - lo := by have := h.hi_eq; omega
  exact ⟨hlt, ss, by rw [← this]; exact h.take, this, hf⟩

/-! ## Token parsers -/

/-- Contents from which a node over `lo..hi` can be made, whatever its name. -/
structure TokenOk (Q : Row → SNode → Prop) (row : Row) (lo hi : Nat) (c : SChildren) : Prop where
  lt : lo < hi
  le : hi ≤ row.length
  make : ∀ name, ∃ t, SNode.new name lo hi c = .ok t ∧ FillsAt Q row lo hi t

theorem SymsAt.token {row : Row} {lo hi : Nat} {ss syms : List Str} (h : SymsAt row lo hi ss)
    (hne : ss ≠ []) (hf : ss.flatten = syms.flatten) (ty : LeafType) :
    TokenOk Q row lo hi (.leaf ty syms) := by
  have hl : 0 < ss.length := List.length_pos_iff.2 hne
  have := h.hi_eq
  have hlt : lo < hi := by omega
  exact ⟨hlt, h.le, fun name => ⟨_, new_leaf _ _ _ _ _, h.fills hlt hf name ty⟩⟩

theorem justSymbols_token {ss : List Str} {row : Row} {pos p : Nat} {s : Str} (hne : ss ≠ [])
    (hp : pos ≤ row.length) (h : justSymbols ss row pos = some (s, p)) (ty : LeafType) :
    TokenOk Q row pos p (.leaf ty [s]) := by
  unfold justSymbols at h
  by_cases hb : (ss.map Node.symbol).isPrefixOf (row.drop pos)
  · simp only [hb, if_true, Option.some.injEq, Prod.mk.injEq] at h
    obtain ⟨rfl, rfl⟩ := h
    have hpre := List.isPrefixOf_iff_prefix.1 hb
    have ht := List.prefix_iff_eq_take.1 hpre
    have hle := hpre.length_le
    simp only [List.length_map, List.length_drop] at ht hle
    exact SymsAt.token (ss := ss) ⟨ht.symm, rfl, by omega⟩ hne (by simp) ty
  · simp [hb] at h

theorem parseVariable_token {g : Grammar} {row : Row} {pos p : Nat} {c : SChildren}
    (h : parseVariable g row pos = some (c, p)) : TokenOk Q row pos p c := by
  unfold parseVariable at h
  obtain ⟨⟨a, p1⟩, ha, h⟩ := Option.bind_eq_some_iff.1 h
  obtain ⟨hs, -, -, -⟩ := selectSym_spec ha
  simp only [Option.some.injEq, Prod.mk.injEq] at h
  obtain ⟨rfl, rfl⟩ := h
  exact (hs.append (symRun_syms _ hs.le)).token (by simp) rfl _

theorem numberDigits_syms {row : Row} {pos p : Nat} {ds : List Str} (hp : pos ≤ row.length)
    (h : numberDigits row pos = some (ds, p)) : SymsAt row pos p ds ∧ ds ≠ [] := by
  unfold numberDigits at h
  simp only at h
  by_cases he : (symRun isDigits (row.drop pos)).isEmpty
  · simp [he] at h
  · simp only [he, Bool.false_eq_true, if_false, Option.some.injEq, Prod.mk.injEq] at h
    obtain ⟨rfl, rfl⟩ := h
    exact ⟨symRun_syms _ hp, by simpa using he⟩

theorem parseFractional_syms {row : Row} {pos p : Nat} {ds : List Str}
    (h : parseFractional row pos = some (ds, p)) : SymsAt row pos p ds := by
  unfold parseFractional at h
  obtain ⟨⟨a, p1⟩, ha, h⟩ := Option.bind_eq_some_iff.1 h
  obtain ⟨⟨d, p2⟩, hd, h⟩ := Option.bind_eq_some_iff.1 h
  obtain ⟨hs, -, -, -⟩ := selectSym_spec ha
  simp only [Option.some.injEq, Prod.mk.injEq] at h
  obtain ⟨rfl, rfl⟩ := h
  exact hs.append (numberDigits_syms hs.le hd).1

theorem parseNumber_token {row : Row} {pos p : Nat} {c : SChildren} (hp : pos ≤ row.length)
    (h : parseNumber row pos = some (c, p)) : TokenOk Q row pos p c := by
  unfold parseNumber at h
  obtain ⟨⟨a, p1⟩, ha, h⟩ := Option.bind_eq_some_iff.1 h
  have hs := numberDigits_syms hp ha
  cases hf : parseFractional row p1 with
  | none =>
    simp only [hf, Option.some.injEq, Prod.mk.injEq] at h
    obtain ⟨rfl, rfl⟩ := h
    exact hs.1.token hs.2 rfl _
  | some x =>
    obtain ⟨d, p2⟩ := x
    simp only [hf, Option.some.injEq, Prod.mk.injEq] at h
    obtain ⟨rfl, rfl⟩ := h
    exact (hs.1.append (parseFractional_syms hf)).token (by simp [hs.2]) rfl _

theorem parseString_token {row : Row} {pos p : Nat} {c : SChildren}
    (h : parseString row pos = some (c, p)) : TokenOk Q row pos p c := by
  unfold parseString at h
  obtain ⟨⟨a, p1⟩, ha, h⟩ := Option.bind_eq_some_iff.1 h
  obtain ⟨⟨b, p2⟩, hb, h⟩ := Option.bind_eq_some_iff.1 h
  obtain ⟨hs, -, -, -⟩ := selectSym_spec ha
  obtain ⟨ht, -, -, -⟩ := selectSym_spec hb
  simp only [Option.some.injEq, Prod.mk.injEq] at h
  obtain ⟨rfl, rfl⟩ := h
  exact ((hs.append (stringBody_syms hs.le)).append ht).token (by simp) (by simp) _

/-! ## Recursive calls -/

/-- What a call of the pratt parser guarantees. -/
structure PrattGood (Q : Row → SNode → Prop) (row : Row) (pos : Nat) (min : Power) (e : Ending) (res : PResult) (p : Nat) :
    Prop where
  fills : FillsAt Q row pos p res.node
  stop : ∀ t, res = .stop t → isAtEnd row p e = true
  expression : ∀ t, res = .expression t → ∃ s : Power, s.lt min = true

/-- The recursive calls on everything smaller than `m` are fine. -/
def CallOk (Q : Row → SNode → Prop) (call : Rec) (m : Nat) : Prop :=
  (∀ row t, parseWhole call row = .ok t → Q row t) ∧ ∀ row pos min e, rowWf row = true → pos ≤ row.length → restWeight row pos < m →
    ∃ res p, call row pos min e = .ok (res, p) ∧ PrattGood Q row pos min e res p

theorem power_not_lt_zero (s : Power) : s.lt (0, .weak) = false := by
  obtain ⟨n, s⟩ := s
  cases s <;> simp [Power.lt]

theorem parseWhole_ok {call : Rec} {m : Nat} (hc : CallOk Q call m) {row : Row}
    (hw : rowWf row = true) (hm : rowWeight row < m) :
    ∃ t, parseWhole call row = .ok t ∧ Q row t ∧ FillsAt Q row 0 row.length t := by
  obtain ⟨res, p, h, hg⟩ := hc.2 row 0 (0, .weak) .eof hw (Nat.zero_le _) (by simpa [restWeight] using hm)
  have hp : p = row.length := by
    have hle := hg.fills.le.2
    cases res with
    | expression t =>
      obtain ⟨s, hs⟩ := hg.expression t rfl
      rw [power_not_lt_zero] at hs
      cases hs
    | stop t =>
      have := hg.stop t rfl
      simp only [isAtEnd, atInputEnd, decide_eq_true_eq] at this
      omega
  have hres : parseWhole call row = .ok res.node := by
    simp only [parseWhole, h, M.ok_bind, hp, if_true]
  exact ⟨res.node, hres, hc.1 _ _ hres, by rw [← hp]; exact hg.fills⟩

theorem parseCells_ok {call : Rec} {m : Nat} (hc : CallOk Q call m) : ∀ {cells : List Row},
    cellsWf cells = true → cellsWeight cells ≤ m →
    ∃ ts, parseCells call cells = .ok ts ∧ FillsCells Q cells ts ∧ ts.length = cells.length
  | [], _, _ => ⟨[], rfl, by simp only [FillsCells], rfl⟩
  | r :: rs, hw, hm => by
    simp only [cellsWf, Bool.and_eq_true] at hw
    rw [cellsWeight] at hm
    obtain ⟨t, ht, hq, hf⟩ := parseWhole_ok hc hw.1 (by omega)
    obtain ⟨ts, hts, hfs, hl⟩ := parseCells_ok hc hw.2 (by omega : cellsWeight rs ≤ m)
    refine ⟨t :: ts, by simp only [parseCells, ht, hts, M.ok_bind], ?_, by simp [hl]⟩
    simp only [FillsCells]
    exact ⟨hf.lo_eq, hf.hi_eq, hq, hf.fills, hfs⟩

theorem rowWf_get {row : Row} (hw : rowWf row = true) {pos : Nat} {n : Node}
    (h : row[pos]? = some n) : n.wf = true := by
  induction row generalizing pos with
  | nil => simp at h
  | cons a as ih =>
    simp only [rowWf, Bool.and_eq_true] at hw
    cases pos with
    | zero =>
      simp only [List.getElem?_cons_zero, Option.some.injEq] at h
      rw [← h]; exact hw.1
    | succ k => exact ih hw.2 (by simpa using h)

theorem shapeOk_width {v : Variant} {n w : Nat} (h : shapeOk v n w = true) : 0 < w ∧ n % w = 0 := by
  cases v
  case table => simp [shapeOk] at h; exact ⟨h.1.2, h.2⟩
  all_goals
    simp [shapeOk] at h
    obtain ⟨rfl, rfl⟩ := h
    decide

/-- The container parser succeeds exactly on containers of its kind. -/
theorem parseContainer_ok {call : Rec} {m : Nat} (hc : CallOk Q call m) (v : Variant) {row : Row}
    {pos : Nat} (hw : rowWf row = true) (hm : restWeight row pos ≤ m) :
    ∃ o, parseContainer call v row pos = .ok o ∧
      (∀ c p, o = some (c, p) → TokenOk Q row pos p c) ∧
      (∀ cells w, row[pos]? = some (.container v cells w) → o.isSome = true) := by
  cases hr : row[pos]? with
  | none =>
    exact ⟨none, by simp [parseContainer, hr], nofun, nofun⟩
  | some n =>
    cases n with
    | symbol s =>
      exact ⟨none, by simp [parseContainer, hr], nofun, nofun⟩
    | container v' cells w =>
      by_cases hv : v' = v
      · have hn := rowWf_get hw hr
        simp only [Node.wf, Bool.and_eq_true] at hn
        have hwt := restWeight_of_get hr
        rw [Node.weight] at hwt
        obtain ⟨ts, hts, hf, hl⟩ := parseCells_ok hc hn.2 (by omega)
        obtain ⟨hw0, hmod⟩ := shapeOk_width hn.1
        refine ⟨some (.newRows ts w, pos + 1), ?_, ?_, fun _ _ _ => rfl⟩
        · have : GridVec.fromOneDimensional ts w = .ok ⟨ts, w⟩ := by
            unfold GridVec.fromOneDimensional
            rw [if_neg (by omega), if_pos (by rw [hl]; exact hmod)]
          simp only [parseContainer, hr, hv, if_true, hts, M.ok_bind, this]
        · intro c p h
          simp only [Option.some.injEq, Prod.mk.injEq] at h
          obtain ⟨rfl, rfl⟩ := h
          have hlt := (List.getElem?_eq_some_iff.1 hr).1
          refine ⟨by omega, by omega, fun name => ⟨_, new_newRows _ _ _ _ _, ?_, rfl, rfl⟩⟩
          simp only [Fills]
          exact ⟨trivial, v', cells, hr, hf⟩
      · refine ⟨none, by simp [parseContainer, hr, hv], nofun, ?_⟩
        intro cells' w' h
        simp only [Option.some.injEq, Node.container.injEq] at h
        exact absurd h.1 hv

theorem parseBrackets_ok {call : Rec} {m : Nat} (hc : CallOk Q call m) (n : Nat) (o c : Str)
    {row : Row} {pos : Nat} (hw : rowWf row = true) (hm : restWeight row pos ≤ m) :
    ∃ r, parseBrackets call n o c row pos = .ok r ∧
      ∀ ch p, r = some (ch, p) → TokenOk Q row pos p ch := by
  unfold parseBrackets
  cases h1 : selectSym (fun s => s == o) row pos with
  | none => exact ⟨none, rfl, nofun⟩
  | some x =>
    obtain ⟨l, p1⟩ := x
    obtain ⟨hs, -, -, hp1⟩ := selectSym_spec h1
    obtain ⟨res, p2, hcall, hg⟩ := hc.2 row p1 (0, .weak) (.sym c) hw hs.le
      (Nat.lt_of_lt_of_le (restWeight_lt row (by omega) hs.le) hm)
    simp only [hcall, M.ok_bind]
    cases h2 : selectSym (fun s => s == c) row p2 with
    | none => exact ⟨none, rfl, nofun⟩
    | some y =>
      obtain ⟨r, p3⟩ := y
      obtain ⟨ht, -, -, hp3⟩ := selectSym_spec h2
      refine ⟨_, rfl, ?_⟩
      intro ch p h
      simp only [Option.some.injEq, Prod.mk.injEq] at h
      obtain ⟨rfl, rfl⟩ := h
      have hle := hg.fills.le
      refine ⟨by omega, ht.le, fun name => new_children name ?_⟩
      exact (hs.fills (by omega) rfl n .operator).cons
        (hg.fills.cons (ht.fills (by omega) rfl n .operator).list1)

theorem parseEmptyBrackets_ok (n : Nat) (o c : Str) (row : Row) (pos : Nat) :
    ∃ r, parseEmptyBrackets n o c row pos = .ok r ∧
      ∀ ch p, r = some (ch, p) → TokenOk Q row pos p ch := by
  unfold parseEmptyBrackets
  cases h1 : selectSym (fun s => s == o) row pos with
  | none => exact ⟨none, rfl, nofun⟩
  | some x =>
    obtain ⟨l, p1⟩ := x
    obtain ⟨hs, -, -, hp1⟩ := selectSym_spec h1
    simp only
    cases h2 : selectSym (fun s => s == c) row p1 with
    | none => exact ⟨none, rfl, nofun⟩
    | some y =>
      obtain ⟨r, p2⟩ := y
      obtain ⟨ht, -, -, hp2⟩ := selectSym_spec h2
      refine ⟨_, rfl, ?_⟩
      intro ch p h
      simp only [Option.some.injEq, Prod.mk.injEq] at h
      obtain ⟨rfl, rfl⟩ := h
      refine ⟨by omega, ht.le, fun name => new_children name ?_⟩
      exact (hs.fills (by omega) rfl n .operator).cons (ht.fills (by omega) rfl n .operator).list1

/-- No symbol sequence of the grammar is empty. -/
def TokenParser.NonEmpty : TokenParser → Prop
  | .symbols ss _ => ss ≠ []
  | _ => True

theorem tokenParse_ok {call : Rec} {m : Nat} (hc : CallOk Q call m) (g : Grammar)
    {tp : TokenParser} (hne : tp.NonEmpty) {row : Row} {pos : Nat} (hw : rowWf row = true)
    (hp : pos ≤ row.length) (hm : restWeight row pos ≤ m) :
    ∃ r, tokenParse call g tp row pos = .ok r ∧ ∀ ch p, r = some (ch, p) → TokenOk Q row pos p ch := by
  cases tp with
  | symbols ss ty =>
    refine ⟨_, rfl, ?_⟩
    intro ch p h
    obtain ⟨⟨s, q⟩, hs, he⟩ := Option.map_eq_some_iff.1 h
    simp only [Prod.mk.injEq] at he
    obtain ⟨rfl, rfl⟩ := he
    exact justSymbols_token hne hp hs ty
  | brackets n o c => exact parseBrackets_ok hc n o c hw hm
  | emptyBrackets n o c => exact parseEmptyBrackets_ok n o c row pos
  | container v =>
    obtain ⟨o, h1, h2, -⟩ := parseContainer_ok hc v hw hm
    exact ⟨o, h1, h2⟩
  | «variable» => exact ⟨_, rfl, fun ch p h => parseVariable_token h⟩
  | number => exact ⟨_, rfl, fun ch p h => parseNumber_token hp h⟩
  | string => exact ⟨_, rfl, fun ch p h => parseString_token h⟩

/-! ## Rules -/

/-- An optional node before or after another one. -/
def OptFills (Q : Row → SNode → Prop) (row : Row) (lo hi : Nat) : Option SNode → Prop
  | none => lo = hi
  | some t => FillsAt Q row lo hi t ∧ lo < hi

theorem parseSpaces_ok (g : Grammar) {row : Row} {pos : Nat} (hp : pos ≤ row.length) :
    ∃ o p, parseSpaces g row pos = .ok (o, p) ∧ OptFills Q row pos p o ∧ pos ≤ p ∧ p ≤ row.length := by
  unfold parseSpaces
  simp only
  have hs := symRun_syms (fun s => s == [' ']) hp
  by_cases he : (symRun (fun s => s == [' ']) (row.drop pos)).isEmpty
  · exact ⟨none, pos, by simp [he], rfl, Nat.le_refl _, hp⟩
  · have hne : 0 < (symRun (fun s => s == [' ']) (row.drop pos)).length :=
      List.length_pos_iff.2 (by simpa using he)
    simp only [he, Bool.false_eq_true, if_false, BuiltIn.whitespaceNode, new_leaf, M.ok_bind]
    refine ⟨_, _, rfl, ⟨hs.fills (by omega) rfl _ _, by omega⟩, by omega, hs.le⟩

theorem whitespacesNode_ok (b : BuiltIn) {row : Row} {p0 p1 p2 p3 : Nat} {sb sa : Option SNode}
    {t : SNode} (hb : OptFills Q row p0 p1 sb) (ht : FillsAt Q row p1 p2 t) (ha : OptFills Q row p2 p3 sa) :
    ∃ t', b.whitespacesNode sb t sa p0 p3 = .ok t' ∧ FillsAt Q row p0 p3 t' := by
  cases sb with
  | none =>
    have : p0 = p1 := hb
    subst this
    cases sa with
    | none =>
      have : p2 = p3 := ha
      subst this
      exact ⟨t, rfl, ht⟩
    | some a => exact new_children _ (ht.cons ha.1.list1)
  | some s =>
    cases sa with
    | none =>
      have : p2 = p3 := ha
      subst this
      exact new_children _ (hb.1.cons ht.list1)
    | some a => exact new_children _ (hb.1.cons (ht.cons ha.1.list1))

theorem parseScript_ok {call : Rec} {m : Nat} (hc : CallOk Q call m) (g : Grammar) (v : Variant)
    {row : Row} {pos : Nat} (hw : rowWf row = true) (hm : restWeight row pos ≤ m) :
    ∃ o, parseScript call g v row pos = .ok o ∧
      ∀ t p, o = some (t, p) → FillsAt Q row pos p t ∧ pos < p := by
  obtain ⟨o, h1, h2, -⟩ := parseContainer_ok hc v hw hm
  unfold parseScript
  rw [h1]
  cases o with
  | none => exact ⟨none, rfl, nofun⟩
  | some x =>
    obtain ⟨c, p1⟩ := x
    have hk := h2 c p1 rfl
    obtain ⟨t, ht, hf⟩ := hk.make g.builtIn.operator
    obtain ⟨sa, p2, hsp, hop, hle, hle2⟩ := parseSpaces_ok g hk.le
    obtain ⟨t', ht', hf'⟩ := whitespacesNode_ok g.builtIn (sb := none) (p0 := pos) rfl hf hop
    refine ⟨some (t', p2), by simp only [M.ok_bind, ht, hsp, ht'], ?_⟩
    intro u q h
    simp only [Option.some.injEq, Prod.mk.injEq] at h
    obtain ⟨rfl, rfl⟩ := h
    exact ⟨hf', Nat.lt_of_lt_of_le hk.lt hle⟩

theorem combineRanges_two {row : Row} {a b c : Nat} {l r : SNode} (hl : FillsAt Q row a b l)
    (hr : FillsAt Q row b c r) : combineRanges l.range r.range = (a, c) := by
  have h1 := hl.le
  have h2 := hr.le
  simp only [combineRanges, SNode.range, hl.lo_eq, hl.hi_eq, hr.lo_eq, hr.hi_eq, Prod.mk.injEq]
  omega

theorem buildPostfix_ok {row : Row} {a b c : Nat} {l o : SNode} (name : Nat)
    (hl : FillsAt Q row a b l) (ho : FillsAt Q row b c o) :
    ∃ t, buildPostfix name o l = .ok t ∧ FillsAt Q row a c t := by
  unfold buildPostfix
  simp only [combineRanges_two hl ho]
  exact new_children name (hl.cons ho.list1)

theorem buildPrefix_ok {row : Row} {a b c : Nat} {o r : SNode} (name : Nat)
    (ho : FillsAt Q row a b o) (hr : FillsAt Q row b c r) :
    ∃ t, buildPrefix name o r = .ok t ∧ FillsAt Q row a c t := by
  unfold buildPrefix
  simp only [combineRanges_two ho hr]
  exact new_children name (ho.cons hr.list1)

theorem buildInfix_ok {row : Row} {a b c d : Nat} {l o r : SNode} (name : Nat)
    (hl : FillsAt Q row a b l) (ho : FillsAt Q row b c o) (hr : FillsAt Q row c d r) :
    ∃ t, buildInfix name o l r = .ok t ∧ FillsAt Q row a d t := by
  unfold buildInfix
  simp only [combineRanges_two ho hr]
  have h1 := hl.le
  have h2 := ho.le
  have h3 := hr.le
  have : combineRanges l.range (b, d) = (a, d) := by
    simp only [combineRanges, SNode.range, hl.lo_eq, hl.hi_eq, Prod.mk.injEq]; omega
  simp only [this]
  exact new_children name (hl.cons (ho.cons hr.list1))

theorem makeMissingOperator_ok (g : Grammar) {row : Row} {a b c : Nat} {l r : SNode}
    (hl : FillsAt Q row a b l) (hr : FillsAt Q row b c r) :
    ∃ t, makeMissingOperator g l r = .ok t ∧ FillsAt Q row a c t := by
  unfold makeMissingOperator BuiltIn.errorMissingOperator BuiltIn.errorMissingToken
  have hb : FillsList Q row b b [] := by simp only [FillsList]; exact ⟨trivial, hl.le.2⟩
  obtain ⟨t, ht, hf⟩ := new_children g.builtIn.missingToken hb
  simp only [combineRanges_two hl hr, hl.hi_eq, ht, M.ok_bind]
  exact new_children _ (hl.cons (hf.cons hr.list1))

theorem makeMissingAtom_ok (g : Grammar) {row : Row} {pos : Nat} (h : pos ≤ row.length) :
    ∃ t, makeMissingAtom g pos = .ok t ∧ FillsAt Q row pos pos t :=
  new_children _ (by simp only [FillsList]; exact ⟨trivial, h⟩)

theorem parseScripts_ok {call : Rec} {m : Nat} (hc : CallOk Q call m) (g : Grammar) {row : Row}
    (hw : rowWf row = true) {p0 : Nat} : ∀ (n : Nat) {t : SNode} {pos : Nat},
    FillsAt Q row p0 pos t → restWeight row pos ≤ m → row.length < n + pos →
    ∃ t' p, parseScripts call g row n t pos = .ok (t', p) ∧ FillsAt Q row p0 p t' ∧ pos ≤ p
  | 0, t, pos, hf, _, hn => by have := hf.le; omega
  | n + 1, t, pos, hf, hm, hn => by
    unfold parseScripts
    obtain ⟨o, h1, h2⟩ := parseScript_ok hc g .sub hw hm
    rw [h1]
    cases o with
    | some x =>
      obtain ⟨s, p1⟩ := x
      obtain ⟨hs, hlt⟩ := h2 s p1 rfl
      obtain ⟨u, hu, huf⟩ := buildPostfix_ok g.builtIn.sub hf hs
      simp only [M.ok_bind, hu]
      obtain ⟨t', p, h, hf', hle⟩ := parseScripts_ok hc g hw n huf
        (Nat.le_trans (restWeight_le row (Nat.le_of_lt hlt)) hm) (by omega)
      exact ⟨t', p, h, hf', by omega⟩
    | none =>
      obtain ⟨o, h1, h2⟩ := parseScript_ok hc g .sup hw hm
      simp only [M.ok_bind, h1]
      cases o with
      | some x =>
        obtain ⟨s, p1⟩ := x
        obtain ⟨hs, hlt⟩ := h2 s p1 rfl
        obtain ⟨u, hu, huf⟩ := buildPostfix_ok g.builtIn.sup hf hs
        simp only [M.ok_bind, hu]
        obtain ⟨t', p, h, hf', hle⟩ := parseScripts_ok hc g hw n huf
          (Nat.le_trans (restWeight_le row (Nat.le_of_lt hlt)) hm) (by omega)
        exact ⟨t', p, h, hf', by omega⟩
      | none => exact ⟨t, pos, rfl, hf, Nat.le_refl _⟩

/-- The result of a rule parser. -/
def RuleOk (Q : Row → SNode → Prop) (row : Row) (pos : Nat) (o : Option (SNode × Nat)) : Prop :=
  ∀ t p, o = some (t, p) → FillsAt Q row pos p t ∧ pos < p

theorem ruleParse_ok {call : Rec} {m : Nat} (hc : CallOk Q call m) (g : Grammar) {r : Rule}
    (hne : r.parser.NonEmpty) {row : Row} {pos : Nat} (hw : rowWf row = true)
    (hp : pos ≤ row.length) (hm : restWeight row pos ≤ m) :
    ∃ o, ruleParse call g r row pos = .ok o ∧ RuleOk Q row pos o ∧
      (∀ v cells w, r.parser = .container v → row[pos]? = some (.container v cells w) →
        o.isSome = true) := by
  obtain ⟨sb, p1, hsb, hob, hle1, hle1'⟩ := parseSpaces_ok g hp
  have hm1 : restWeight row p1 ≤ m := Nat.le_trans (restWeight_le row hle1) hm
  obtain ⟨o, ho, hk⟩ := tokenParse_ok hc g hne hw hle1' hm1
  unfold ruleParse
  simp only [hsb, M.ok_bind, ho]
  cases o with
  | none =>
    refine ⟨none, rfl, nofun, ?_⟩
    intro v cells w hv hr
    have hpos : p1 = pos := by
      unfold parseSpaces at hsb
      obtain ⟨hlt, he⟩ := List.getElem?_eq_some_iff.1 hr
      rw [List.drop_eq_getElem_cons hlt, he] at hsb
      simp only [symRun, List.isEmpty_nil, if_true, Except.ok.injEq, Prod.mk.injEq] at hsb
      exact hsb.2.symm
    subst hpos
    rw [hv] at ho
    obtain ⟨o', h1, -, h3⟩ := parseContainer_ok hc v hw hm1
    simp only [tokenParse] at ho
    rw [h1] at ho
    cases ho
    exact absurd (h3 cells w hr) (by simp)
  | some x =>
    obtain ⟨c, p2⟩ := x
    have hk := hk c p2 rfl
    obtain ⟨t, ht, hf⟩ := hk.make (tokenName g r)
    obtain ⟨sa, p3, hsa, hoa, hle3, hle3'⟩ := parseSpaces_ok g hk.le
    obtain ⟨t', ht', hf'⟩ := whitespacesNode_ok g.builtIn hob hf hoa
    simp only [M.ok_bind, ht, hsa, ht']
    have hlt := hk.lt
    by_cases hts : r.kind.takesScripts
    · obtain ⟨u, p4, hu, huf, hle4⟩ := parseScripts_ok hc g hw (row.length + 1) hf'
        (Nat.le_trans (restWeight_le row (by omega)) hm) (by omega)
      simp only [hts, if_true, hu, M.ok_bind]
      refine ⟨_, rfl, ?_, fun _ _ _ _ _ => rfl⟩
      intro t p h
      simp only [Option.some.injEq, Prod.mk.injEq] at h
      obtain ⟨rfl, rfl⟩ := h
      exact ⟨huf, by omega⟩
    · simp only [hts]
      refine ⟨_, rfl, ?_, fun _ _ _ _ _ => rfl⟩
      intro t p h
      simp only [Option.some.injEq, Prod.mk.injEq] at h
      obtain ⟨rfl, rfl⟩ := h
      exact ⟨hf', by omega⟩

theorem parseIter_ok {call : Rec} {m : Nat} (hc : CallOk Q call m) (g : Grammar) {row : Row}
    {pos : Nat} (hw : rowWf row = true) (hp : pos ≤ row.length) (hm : restWeight row pos ≤ m) :
    ∀ {rs : List Rule}, (∀ r ∈ rs, r.parser.NonEmpty) →
    ∃ o, parseIter call g row pos rs = .ok o ∧
      (∀ t r p, o = some (t, r, p) → FillsAt Q row pos p t ∧ pos < p ∧ r ∈ rs) ∧
      (∀ v cells w r, r ∈ rs → r.parser = .container v →
        row[pos]? = some (.container v cells w) → o.isSome = true)
  | [], _ => ⟨none, rfl, nofun, nofun⟩
  | r :: rs, hne => by
    obtain ⟨o, ho, hk, hcov⟩ := ruleParse_ok hc g (hne r (List.mem_cons_self ..)) hw hp hm
    obtain ⟨o', ho', hk', hcov'⟩ := parseIter_ok hc g hw hp hm
      (rs := rs) (fun r hr => hne r (List.mem_cons_of_mem _ hr))
    unfold parseIter
    rw [ho]
    cases o with
    | some x =>
      obtain ⟨t, p⟩ := x
      refine ⟨_, rfl, ?_, fun _ _ _ _ _ _ _ => rfl⟩
      intro t' r' p' h
      simp only [Option.some.injEq, Prod.mk.injEq] at h
      obtain ⟨rfl, rfl, rfl⟩ := h
      obtain ⟨h1, h2⟩ := hk t p rfl
      exact ⟨h1, h2, List.mem_cons_self ..⟩
    | none =>
      simp only [M.ok_bind]
      refine ⟨o', ho', ?_, ?_⟩
      · intro t' r' p' h
        obtain ⟨h1, h2, h3⟩ := hk' t' r' p' h
        exact ⟨h1, h2, List.mem_cons_of_mem _ h3⟩
      · intro v cells w r' hr' hv hrow
        rcases List.mem_cons.1 hr' with rfl | hr'
        · have := hcov v cells w hv hrow
          cases this
        · exact hcov' v cells w r' hr' hv hrow

/-! ## The grammar -/

/-- Rules that are parsed at all. -/
def Rule.Parsed (r : Rule) : Prop := r.kind ≠ .nameOnly

/-- A usable grammar: no empty symbol sequence, and every kind of container is parsed by some
rule. -/
structure Grammar.Good (g : Grammar) : Prop where
  nonEmpty : ∀ r ∈ g.rules, r.Parsed → r.parser.NonEmpty
  containers : ∀ v, ∃ r ∈ g.rules, r.Parsed ∧ r.parser = .container v

theorem Grammar.Good.atoms {g : Grammar} (h : g.Good) : ∀ r ∈ g.atoms, r.parser.NonEmpty := by
  intro r hr
  unfold Grammar.atoms at hr
  obtain ⟨h1, h2⟩ := List.mem_filter.1 hr
  refine h.nonEmpty r h1 fun hk => ?_
  rw [hk] at h2; cases h2
theorem Grammar.Good.prefixes {g : Grammar} (h : g.Good) :
    ∀ r ∈ g.prefixes, r.parser.NonEmpty := by
  intro r hr
  unfold Grammar.prefixes at hr
  obtain ⟨h1, h2⟩ := List.mem_filter.1 hr
  refine h.nonEmpty r h1 fun hk => ?_
  rw [hk] at h2; cases h2
theorem Grammar.Good.infixes {g : Grammar} (h : g.Good) : ∀ r ∈ g.infixes, r.parser.NonEmpty := by
  intro r hr
  unfold Grammar.infixes at hr
  obtain ⟨h1, h2⟩ := List.mem_filter.1 hr
  refine h.nonEmpty r h1 fun hk => ?_
  rw [hk] at h2; cases h2
theorem Grammar.Good.postfixes {g : Grammar} (h : g.Good) :
    ∀ r ∈ g.postfixes, r.parser.NonEmpty := by
  intro r hr
  unfold Grammar.postfixes at hr
  obtain ⟨h1, h2⟩ := List.mem_filter.1 hr
  refine h.nonEmpty r h1 fun hk => ?_
  rw [hk] at h2; cases h2

theorem Grammar.mem_kinds {g : Grammar} {r : Rule} (h : r ∈ g.rules) (hp : r.Parsed) :
    r ∈ g.atoms ∨ r ∈ g.prefixes ∨ r ∈ g.infixes ∨ r ∈ g.postfixes := by
  unfold Grammar.atoms Grammar.prefixes Grammar.infixes Grammar.postfixes
  simp only [List.mem_filter, h, true_and]
  cases hk : r.kind with
  | nameOnly => exact absurd hk hp
  | _ => simp

/-! ## The pratt parser -/

theorem canParse_of {call : Rec} {g : Grammar} {row : Row} {pos : Nat} {rs : List Rule}
    {o : Option (SNode × Rule × Nat)} (h : parseIter call g row pos rs = .ok o) :
    canParse call g row pos rs = .ok o.isSome := by
  unfold canParse
  rw [h]
  cases o <;> rfl

/-- Where nothing can be parsed there is a symbol. -/
theorem symbol_of_none {call : Rec} {m : Nat} (hc : CallOk Q call m) {g : Grammar} (hg : g.Good)
    {row : Row} {pos : Nat} (hw : rowWf row = true) (hp : pos < row.length)
    (hm : restWeight row pos ≤ m)
    (h1 : parseIter call g row pos g.prefixes = .ok none)
    (h2 : parseIter call g row pos g.atoms = .ok none)
    (h3 : parseIter call g row pos g.infixes = .ok none)
    (h4 : parseIter call g row pos g.postfixes = .ok none) :
    ∃ s, row[pos]? = some (.symbol s) := by
  have hget : row[pos]? = some row[pos] := by simp
  cases hn : row[pos] with
  | symbol s => exact ⟨s, by rw [hget, hn]⟩
  | container v cells w =>
    rw [hn] at hget
    obtain ⟨r, hr, hrp, hrc⟩ := hg.containers v
    exfalso
    rcases Grammar.mem_kinds hr hrp with h | h | h | h
    · obtain ⟨o, ho, -, hcov⟩ := parseIter_ok hc g hw (Nat.le_of_lt hp) hm hg.atoms
      rw [h2] at ho; cases ho
      exact absurd (hcov v cells w r h hrc hget) (by simp)
    · obtain ⟨o, ho, -, hcov⟩ := parseIter_ok hc g hw (Nat.le_of_lt hp) hm hg.prefixes
      rw [h1] at ho; cases ho
      exact absurd (hcov v cells w r h hrc hget) (by simp)
    · obtain ⟨o, ho, -, hcov⟩ := parseIter_ok hc g hw (Nat.le_of_lt hp) hm hg.infixes
      rw [h3] at ho; cases ho
      exact absurd (hcov v cells w r h hrc hget) (by simp)
    · obtain ⟨o, ho, -, hcov⟩ := parseIter_ok hc g hw (Nat.le_of_lt hp) hm hg.postfixes
      rw [h4] at ho; cases ho
      exact absurd (hcov v cells w r h hrc hget) (by simp)

theorem makeUnknownAtom_ok (g : Grammar) {row : Row} {pos : Nat} {s : Str}
    (h : row[pos]? = some (.symbol s)) :
    ∃ t, makeUnknownAtom g row pos = .ok t ∧ FillsAt Q row pos (pos + 1) t := by
  have hs : selectSym (fun _ => true) row pos = some (s, pos + 1) := by simp [selectSym, h]
  obtain ⟨hs, -, -, -⟩ := selectSym_spec hs
  refine ⟨.leaf g.builtIn.unknownToken pos (pos + 1) .symbol [s], ?_, hs.fills (by omega) rfl _ _⟩
  simp only [makeUnknownAtom, h, munwrap_some, M.ok_bind, BuiltIn.errorUnknownToken, new_leaf]

theorem not_atInputEnd {row : Row} {pos : Nat} (h : atInputEnd row pos = false) :
    pos < row.length := by
  simp only [atInputEnd, decide_eq_false_iff_not] at h; omega

theorem not_isAtEnd {row : Row} {pos : Nat} {e : Ending} (h : isAtEnd row pos e = false) :
    pos < row.length := by
  cases e with
  | eof => exact not_atInputEnd h
  | sym s =>
    simp only [isAtEnd, Bool.or_eq_false_iff] at h
    exact not_atInputEnd h.1

theorem unknownStops_ok {call : Rec} {m : Nat} (hc : CallOk Q call m) {g : Grammar} (hg : g.Good)
    {row : Row} {pos : Nat} (e : Ending) (hw : rowWf row = true) (hp : pos ≤ row.length)
    (hm : restWeight row pos ≤ m) :
    ∃ b, unknownStops call g row pos e = .ok b ∧
      (b = false → ∃ s, row[pos]? = some (.symbol s)) := by
  obtain ⟨o1, h1, -, -⟩ := parseIter_ok hc g hw hp hm hg.prefixes
  obtain ⟨o2, h2, -, -⟩ := parseIter_ok hc g hw hp hm hg.atoms
  obtain ⟨o3, h3, -, -⟩ := parseIter_ok hc g hw hp hm hg.infixes
  obtain ⟨o4, h4, -, -⟩ := parseIter_ok hc g hw hp hm hg.postfixes
  unfold unknownStops
  cases he : isAtEnd row pos e with
  | true => exact ⟨true, rfl, by simp⟩
  | false =>
    simp only [canParse_of h1, canParse_of h2, canParse_of h3, canParse_of h4, M.ok_bind,
      Bool.false_eq_true, if_false]
    cases o1 with
    | some _ => exact ⟨true, rfl, by simp⟩
    | none =>
      cases o2 with
      | some _ => exact ⟨true, rfl, by simp⟩
      | none =>
        cases o3 with
        | some _ => exact ⟨true, rfl, by simp⟩
        | none =>
          cases o4 with
          | some _ => exact ⟨true, rfl, by simp⟩
          | none =>
            exact ⟨false, rfl, fun _ => symbol_of_none hc hg hw (not_isAtEnd he) hm h1 h2 h3 h4⟩

theorem unknownLoop_ok {call : Rec} {m : Nat} (hc : CallOk Q call m) {g : Grammar} (hg : g.Good)
    {row : Row} (e : Ending) (hw : rowWf row = true) {p0 : Nat} :
    ∀ (n : Nat) {t : SNode} {pos : Nat}, FillsAt Q row p0 pos t → restWeight row pos ≤ m →
    row.length < n + pos →
    ∃ t' p, unknownLoop call g row e n t pos = .ok (t', p) ∧ FillsAt Q row p0 p t' ∧ pos ≤ p
  | 0, t, pos, hf, _, hn => by have := hf.le; omega
  | n + 1, t, pos, hf, hm, hn => by
    obtain ⟨b, hb, hsym⟩ := unknownStops_ok hc hg e hw hf.le.2 hm
    unfold unknownLoop
    rw [hb]
    cases b with
    | true => exact ⟨t, pos, rfl, hf, Nat.le_refl _⟩
    | false =>
      obtain ⟨s, hs⟩ := hsym rfl
      obtain ⟨u, hu, huf⟩ := makeUnknownAtom_ok g hs
      obtain ⟨j, hj, hjf⟩ := makeMissingOperator_ok g hf huf
      simp only [M.ok_bind, hu, hj, Bool.false_eq_true, if_false]
      obtain ⟨t', p, h, hf', hle⟩ := unknownLoop_ok hc hg e hw n hjf
        (Nat.le_trans (restWeight_succ_le row pos) hm) (by omega)
      exact ⟨t', p, h, hf', by omega⟩

theorem parseUnknown_ok {call : Rec} {m : Nat} (hc : CallOk Q call m) {g : Grammar} (hg : g.Good)
    {row : Row} (e : Ending) (hw : rowWf row = true) {pos : Nat} {s : Str}
    (hs : row[pos]? = some (.symbol s)) (hm : restWeight row pos ≤ m) :
    ∃ t p, parseUnknown call g row e pos = .ok (t, p) ∧ FillsAt Q row pos p t ∧ pos < p := by
  obtain ⟨u, hu, huf⟩ := makeUnknownAtom_ok g hs
  unfold parseUnknown
  simp only [hu, M.ok_bind]
  obtain ⟨t', p, h, hf', hle⟩ := unknownLoop_ok hc hg e hw (row.length + 1) huf
    (Nat.le_trans (restWeight_succ_le row pos) hm) (by omega)
  exact ⟨t', p, h, hf', by omega⟩

/-- The node of a start. -/
def Start.node : Start → SNode
  | .left t => t
  | .finished t => t

/-- What the first part of the pratt parser guarantees. -/
structure StartGood (Q : Row → SNode → Prop) (call : Rec) (g : Grammar) (row : Row) (pos : Nat) (e : Ending) (s : Start)
    (p : Nat) : Prop where
  fills : FillsAt Q row pos p s.node
  finished : ∀ t, s = .finished t → isAtEnd row p e = true
  /-- nothing is consumed only if an infix or postfix operator follows -/
  stuck : ∀ t, s = .left t → p = pos →
    (∃ x, parseIter call g row pos g.infixes = .ok (some x)) ∨
    (∃ x, parseIter call g row pos g.postfixes = .ok (some x))
  progress : ((∃ x, parseIter call g row pos g.prefixes = .ok (some x)) ∨
    (∃ x, parseIter call g row pos g.atoms = .ok (some x))) → atInputEnd row pos = false → pos < p

theorem isAtEnd_of_atInputEnd {row : Row} {pos : Nat} {e : Ending}
    (h : atInputEnd row pos = true) : isAtEnd row pos e = true := by
  cases e with
  | eof => exact h
  | sym s => simp [isAtEnd, h]

theorem prattStart_ok {call : Rec} {m : Nat} (hc : CallOk Q call m) {g : Grammar} (hg : g.Good)
    {row : Row} (e : Ending) (hw : rowWf row = true) {pos : Nat} (hp : pos ≤ row.length)
    (hm : restWeight row pos ≤ m) :
    ∃ s p, prattStart call g row e pos = .ok (s, p) ∧ StartGood Q call g row pos e s p := by
  unfold prattStart
  obtain ⟨a, ha, haf⟩ := makeMissingAtom_ok g hp
  simp only [ha, M.ok_bind]
  cases hend : atInputEnd row pos with
  | true =>
    refine ⟨.finished a, pos, rfl, haf, fun t _ => isAtEnd_of_atInputEnd hend, nofun, fun _ h => absurd (hend.symm.trans h) (by simp)⟩
  | false =>
    obtain ⟨o1, h1, hk1, -⟩ := parseIter_ok hc g hw hp hm hg.prefixes
    obtain ⟨o2, h2, hk2, -⟩ := parseIter_ok hc g hw hp hm hg.atoms
    obtain ⟨o3, h3, -, -⟩ := parseIter_ok hc g hw hp hm hg.infixes
    obtain ⟨o4, h4, -, -⟩ := parseIter_ok hc g hw hp hm hg.postfixes
    simp only [h1, M.ok_bind, Bool.false_eq_true, if_false]
    cases o1 with
    | some x =>
      obtain ⟨op, r, p1⟩ := x
      obtain ⟨hof, hlt, -⟩ := hk1 op r p1 rfl
      obtain ⟨res, p2, hcall, hgood⟩ := hc.2 row p1 r.kind.strengthRight e hw hof.le.2
        (Nat.lt_of_lt_of_le (restWeight_lt row hlt hof.le.2) hm)
      obtain ⟨t, ht, htf⟩ := buildPrefix_ok r.name hof hgood.fills
      have hle := hgood.fills.le
      simp only [hcall, M.ok_bind, ht]
      cases res with
      | expression u =>
        exact ⟨.left t, p2, rfl, htf, nofun, fun _ _ _ => by omega,
          fun _ _ => by omega⟩
      | stop u =>
        refine ⟨.finished t, p2, rfl, htf, fun _ _ => hgood.stop u rfl, nofun,
          fun _ _ => by omega⟩
    | none =>
      simp only [h2, M.ok_bind]
      cases o2 with
      | some x =>
        obtain ⟨t, r, p1⟩ := x
        obtain ⟨hof, hlt, -⟩ := hk2 t r p1 rfl
        exact ⟨.left t, p1, rfl, hof, nofun, fun _ _ _ => by omega,
          fun _ _ => hlt⟩
      | none =>
        have hnone : ((∃ x, parseIter call g row pos g.prefixes = .ok (some x)) ∨
            (∃ x, parseIter call g row pos g.atoms = .ok (some x))) → False := by
          rintro (⟨x, hx⟩ | ⟨x, hx⟩)
          · rw [h1] at hx; cases hx
          · rw [h2] at hx; cases hx
        simp only [canParseEither, canParse_of h3, canParse_of h4, M.ok_bind]
        cases o3 with
        | some x =>
          exact ⟨.left a, pos, rfl, haf, nofun, fun _ _ _ => .inl ⟨x, h3⟩,
            fun h => absurd h hnone⟩
        | none =>
          cases o4 with
          | some x =>
            exact ⟨.left a, pos, rfl, haf, nofun, fun _ _ _ => .inr ⟨x, h4⟩,
              fun h => absurd h hnone⟩
          | none =>
            cases he : isAtEnd row pos e with
            | true =>
              exact ⟨.finished a, pos, rfl, haf, fun _ _ => he, nofun,
                fun h => absurd h hnone⟩
            | false =>
              obtain ⟨s, hs⟩ := symbol_of_none hc hg hw (not_isAtEnd he) hm h1 h2 h3 h4
              obtain ⟨t, p, ht, htf, hlt⟩ := parseUnknown_ok hc hg e hw hs hm
              simp only [ht, M.ok_bind, Option.isSome_none, Bool.false_eq_true, if_false]
              exact ⟨.left t, p, rfl, htf, nofun, fun _ _ _ => by omega,
                fun h => absurd h hnone⟩

/-- The recursive calls consume something wherever a prefix or an atom can be parsed. -/
def CallProgress (call : Rec) (g : Grammar) (row : Row) (e : Ending) (m : Nat) : Prop :=
  ∀ pos min res p, restWeight row pos < m → call row pos min e = .ok (res, p) →
    ((∃ x, parseIter call g row pos g.prefixes = .ok (some x)) ∨
      (∃ x, parseIter call g row pos g.atoms = .ok (some x))) → atInputEnd row pos = false → pos < p

theorem prattLoop_ok {call : Rec} {m : Nat} (hc : CallOk Q call m) {g : Grammar} (hg : g.Good)
    {row : Row} (min : Power) (e : Ending) (hw : rowWf row = true) (hpr : CallProgress call g row e m)
    {p0 : Nat} :
    ∀ (n : Nat) {left : SNode} {pos : Nat}, FillsAt Q row p0 pos left → restWeight row pos ≤ m →
    row.length < n + pos →
    (restWeight row pos = m → (∃ x, parseIter call g row pos g.infixes = .ok (some x)) ∨
      (∃ x, parseIter call g row pos g.postfixes = .ok (some x))) →
    ∃ res p, prattLoop call g row min e n left pos = .ok (res, p) ∧
      PrattGood Q row p0 min e res p ∧ pos ≤ p
  | 0, t, pos, hf, _, hn, _ => by have := hf.le; omega
  | n + 1, left, pos, hf, hm, hn, hfirst => by
    unfold prattLoop
    have hp := hf.le.2
    cases hend : atInputEnd row pos with
    | true =>
      exact ⟨.stop left, pos, rfl, ⟨hf, fun _ _ => isAtEnd_of_atInputEnd hend, nofun⟩, Nat.le_refl _⟩
    | false =>
      obtain ⟨o1, h1, -, -⟩ := parseIter_ok hc g hw hp hm hg.prefixes
      obtain ⟨o2, h2, -, -⟩ := parseIter_ok hc g hw hp hm hg.atoms
      obtain ⟨o3, h3, hk3, -⟩ := parseIter_ok hc g hw hp hm hg.infixes
      obtain ⟨o4, h4, hk4, -⟩ := parseIter_ok hc g hw hp hm hg.postfixes
      -- what happens after the loop has advanced to `p2`
      have next : ∀ {t : SNode} {p2 : Nat}, FillsAt Q row p0 p2 t → pos < p2 →
          ∃ res p, prattLoop call g row min e n t p2 = .ok (res, p) ∧
            PrattGood Q row p0 min e res p ∧ pos ≤ p := by
        intro t p2 htf hlt
        have hlt' := restWeight_lt row hlt htf.le.2
        obtain ⟨res, p, h, hgd, hle⟩ := prattLoop_ok hc hg min e hw hpr n htf (by omega) (by omega)
          (by omega)
        exact ⟨res, p, h, hgd, by omega⟩
      simp only [h3, M.ok_bind, Bool.false_eq_true, if_false]
      cases o3 with
      | some x =>
        obtain ⟨op, r, p1⟩ := x
        obtain ⟨hof, hlt, -⟩ := hk3 op r p1 rfl
        simp only
        cases hlts : r.kind.strengthLeft.lt min with
        | true =>
          exact ⟨.expression left, pos, rfl, ⟨hf, nofun, fun _ _ => ⟨_, hlts⟩⟩,
            Nat.le_refl _⟩
        | false =>
          obtain ⟨res, p2, hcall, hgood⟩ := hc.2 row p1 r.kind.strengthRight e hw hof.le.2
            (Nat.lt_of_lt_of_le (restWeight_lt row hlt hof.le.2) hm)
          obtain ⟨t, ht, htf⟩ := buildInfix_ok r.name hf hof hgood.fills
          have hle := hgood.fills.le
          simp only [hcall, M.ok_bind, ht, Bool.false_eq_true, if_false]
          cases res with
          | expression u => exact next htf (by omega)
          | stop u =>
            exact ⟨.stop t, p2, rfl, ⟨htf, fun _ _ => hgood.stop u rfl, nofun⟩,
              by omega⟩
      | none =>
        simp only [h4, M.ok_bind]
        cases o4 with
        | some x =>
          obtain ⟨op, r, p1⟩ := x
          obtain ⟨hof, hlt, -⟩ := hk4 op r p1 rfl
          simp only
          cases hlts : r.kind.strengthLeft.lt min with
          | true =>
            exact ⟨.expression left, pos, rfl, ⟨hf, nofun, fun _ _ => ⟨_, hlts⟩⟩,
              Nat.le_refl _⟩
          | false =>
            obtain ⟨t, ht, htf⟩ := buildPostfix_ok r.name hf hof
            simp only [M.ok_bind, ht, Bool.false_eq_true, if_false]
            exact next htf hlt
        | none =>
          have hlt' : restWeight row pos < m := by
            rcases Nat.lt_or_eq_of_le hm with h | h
            · exact h
            · exfalso
              rcases hfirst h with ⟨x, hx⟩ | ⟨x, hx⟩
              · rw [h3] at hx; cases hx
              · rw [h4] at hx; cases hx
          simp only [canParseEither, canParse_of h1, canParse_of h2, M.ok_bind]
          have missing : ∀ (hsome : (∃ x, parseIter call g row pos g.prefixes = .ok (some x)) ∨
              (∃ x, parseIter call g row pos g.atoms = .ok (some x))),
              ∃ res p, (if missingOperatorKind.strengthLeft.lt min then
                  (.ok (.expression left, pos) : M (PResult × Nat))
                else do
                  let (right, p2) ← call row pos missingOperatorKind.strengthRight e
                  let t ← makeMissingOperator g left right.node
                  match right with
                  | .expression _ => prattLoop call g row min e n t p2
                  | .stop _ => .ok (.stop t, p2)) = .ok (res, p) ∧
                PrattGood Q row p0 min e res p ∧ pos ≤ p := by
            intro hsome
            cases hlts : missingOperatorKind.strengthLeft.lt min with
            | true =>
              exact ⟨.expression left, pos, rfl, ⟨hf, nofun, fun _ _ => ⟨_, hlts⟩⟩,
                Nat.le_refl _⟩
            | false =>
              obtain ⟨res, p2, hcall, hgood⟩ := hc.2 row pos missingOperatorKind.strengthRight e hw hp
                hlt'
              have hlt := hpr pos _ res p2 hlt' hcall hsome hend
              obtain ⟨t, ht, htf⟩ := makeMissingOperator_ok g hf hgood.fills
              simp only [hcall, M.ok_bind, ht, Bool.false_eq_true, if_false]
              cases res with
              | expression u => exact next htf hlt
              | stop u =>
                exact ⟨.stop t, p2, rfl, ⟨htf, fun _ _ => hgood.stop u rfl, nofun⟩, by omega⟩
          cases o1 with
          | some x => exact missing (.inl ⟨x, h1⟩)
          | none =>
            cases o2 with
            | some x => exact missing (.inr ⟨x, h2⟩)
            | none =>
              simp only [Option.isSome_none, Bool.false_eq_true, if_false, M.ok_bind]
              cases he : isAtEnd row pos e with
              | true =>
                exact ⟨.stop left, pos, rfl, ⟨hf, fun _ _ => he, nofun⟩,
                  Nat.le_refl _⟩
              | false =>
                obtain ⟨s, hs⟩ := symbol_of_none hc hg hw (not_isAtEnd he) hm h1 h2 h3 h4
                obtain ⟨u, p2, hu, huf, hlt⟩ := parseUnknown_ok hc hg e hw hs hm
                obtain ⟨t, ht, htf⟩ := makeMissingOperator_ok g hf huf
                simp only [hu, M.ok_bind, ht, Bool.false_eq_true, if_false]
                exact next htf hlt

/-- One more level of recursion. -/
theorem prattBody_ok {call : Rec} {m : Nat} (hc : CallOk Q call m) {g : Grammar} (hg : g.Good)
    {row : Row} (e : Ending) (hw : rowWf row = true) (hpr : CallProgress call g row e m)
    {pos : Nat} (min : Power) (hp : pos ≤ row.length) (hm : restWeight row pos ≤ m) :
    ∃ res p, prattBody call g row pos min e = .ok (res, p) ∧ PrattGood Q row pos min e res p ∧
      (((∃ x, parseIter call g row pos g.prefixes = .ok (some x)) ∨
        (∃ x, parseIter call g row pos g.atoms = .ok (some x))) → atInputEnd row pos = false →
        pos < p) := by
  obtain ⟨s, p, hs, hgd⟩ := prattStart_ok hc hg e hw hp hm
  unfold prattBody
  simp only [hs, M.ok_bind]
  cases s with
  | finished t =>
    exact ⟨.stop t, p, rfl, ⟨hgd.fills, fun _ _ => hgd.finished t rfl, nofun⟩, hgd.progress⟩
  | left t =>
    have hle := hgd.fills.le
    have hmp := restWeight_le row hle.1
    obtain ⟨res, q, h, hgood, hq⟩ := prattLoop_ok hc hg min e hw hpr (row.length + 1) hgd.fills
      (Nat.le_trans hmp hm) (by omega) (by
        intro heq
        have hpp : p = pos := by
          rcases Nat.lt_or_eq_of_le hle.1 with h | h
          · have := restWeight_lt row h hle.2; omega
          · exact h.symm
        have := hgd.stuck t rfl hpp
        rw [hpp]
        exact this)
    exact ⟨res, q, h, hgood, fun h1 h2 => Nat.lt_of_lt_of_le (hgd.progress h1 h2) hq⟩

/-- Some depth of recursion gives this tree. -/
def ParsesTo (g : Grammar) (row : Row) (t : SNode) : Prop := ∃ f, g.parseFuel f row = .ok t

theorem pratt_both {g : Grammar} (hg : g.Good) : ∀ f, CallOk (ParsesTo g) (pratt g f) f ∧
    ∀ row e, rowWf row = true → CallProgress (pratt g f) g row e f
  | 0 => ⟨⟨fun row t h => ⟨0, h⟩, fun row pos min e _ _ h => absurd h (by omega)⟩,
    fun row e _ pos min res p h => absurd h (by omega)⟩
  | f + 1 => by
    obtain ⟨hc, hpr⟩ := pratt_both hg f
    refine ⟨⟨fun row t h => ⟨f + 1, h⟩, fun row pos min e hw hp hm => ?_⟩,
      fun row e hw pos min res p hm hcall hsome hend => ?_⟩
    · obtain ⟨res, p, h, hgood, -⟩ :=
        prattBody_ok hc hg e hw (hpr row e hw) min hp (Nat.lt_succ_iff.1 hm)
      exact ⟨res, p, h, hgood⟩
    · have hp := Nat.le_of_lt (not_atInputEnd hend)
      have hm' := Nat.lt_succ_iff.1 hm
      obtain ⟨res', p', h, -, hprog⟩ := prattBody_ok hc hg e hw (hpr row e hw) min hp hm'
      rw [pratt, h] at hcall
      cases hcall
      refine hprog ?_ hend
      have hmono := pratt_mono_succ g f
      obtain ⟨o1, h1, -, -⟩ := parseIter_ok hc g hw hp hm' hg.prefixes
      obtain ⟨o2, h2, -, -⟩ := parseIter_ok hc g hw hp hm' hg.atoms
      have h1' := parseIter_mono hmono g row pos g.prefixes _ h1
      have h2' := parseIter_mono hmono g row pos g.atoms _ h2
      rcases hsome with ⟨x, hx⟩ | ⟨x, hx⟩
      · rw [h1'] at hx; cases hx; exact .inl ⟨x, h1⟩
      · rw [h2'] at hx; cases hx; exact .inr ⟨x, h2⟩

/-- The pratt parser has a result wherever it is given enough depth. -/
theorem pratt_ok {g : Grammar} (hg : g.Good) (f : Nat) : CallOk (ParsesTo g) (pratt g f) f :=
  (pratt_both hg f).1

theorem parseFuel_ok {g : Grammar} (hg : g.Good) {row : Row} (hw : rowWf row = true) {f : Nat}
    (hf : rowWeight row < f) :
    ∃ t, g.parseFuel f row = .ok t ∧ FillsAt (ParsesTo g) row 0 row.length t :=
  let ⟨t, h1, _, h2⟩ := parseWhole_ok (pratt_ok hg f) hw hf
  ⟨t, h1, h2⟩

theorem parse_ok {g : Grammar} (hg : g.Good) {row : Row} (hw : rowWf row = true) :
    ∃ t, g.parse row = .ok t ∧ FillsAt (ParsesTo g) row 0 row.length t :=
  parseFuel_ok hg hw (Nat.lt_succ_self _)

theorem parseFuel_eq {g : Grammar} (hg : g.Good) {row : Row} (hw : rowWf row = true) {f : Nat}
    (hf : rowWeight row < f) : g.parseFuel f row = g.parse row := by
  obtain ⟨t, ht, -⟩ := parse_ok hg hw
  rw [ht]
  exact parseWhole_mono (pratt_mono g (Nat.succ_le_of_lt hf)) row t ht

end Aftermath
