import Verif.Spec.Notation
import Verif.Proof.ErrorFree
import Verif.Proof.DefaultGrammar

/-! # The shipped rules, one by one, and which of them can start where -/

namespace Aftermath

def shippedAtoms : List Rule :=
  [⟨41, .atom, .string⟩, ⟨35, .atom, .symbols [['⊥']] .symbol⟩, ⟨34, .atom, .symbols [['⊤']] .symbol⟩,
    ⟨21, .atom, .symbols [['∞']] .symbol⟩, ⟨14, .atom, .number⟩,
    ⟨13, .atom, .emptyBrackets 0 ['('] [')']⟩, ⟨13, .atom, .brackets 0 ['('] [')']⟩,
    ⟨12, .atom, .variable⟩, ⟨11, .atom, .container .table⟩, ⟨10, .atom, .container .root⟩,
    ⟨9, .atom, .container .fraction⟩]

def shippedPrefixes : List Rule :=
  [⟨26, .prefix 100, .symbols [['∫']] .operator⟩, ⟨25, .prefix 100, .symbols [['∑']] .operator⟩,
    ⟨24, .prefix 100, .symbols [['l'], ['i'], ['m'], ['i'], ['n'], ['f']] .operator⟩,
    ⟨23, .prefix 100, .symbols [['l'], ['i'], ['m'], ['s'], ['u'], ['p']] .operator⟩,
    ⟨22, .prefix 100, .symbols [['l'], ['i'], ['m']] .operator⟩,
    ⟨16, .prefix 400, .symbols [['-']] .operator⟩, ⟨15, .prefix 400, .symbols [['+']] .operator⟩]

def shippedInfixes : List Rule :=
  [⟨40, .leftInfix 100, .symbols [['⟹']] .operator⟩, ⟨39, .leftInfix 100, .symbols [['⇔']] .operator⟩,
    ⟨38, .leftInfix 100, .symbols [['¬']] .operator⟩, ⟨37, .leftInfix 100, .symbols [['∨']] .operator⟩,
    ⟨36, .leftInfix 100, .symbols [['∧']] .operator⟩, ⟨32, .leftInfix 50, .symbols [['≤']] .operator⟩,
    ⟨31, .leftInfix 50, .symbols [['≥']] .operator⟩, ⟨30, .leftInfix 50, .symbols [['<']] .operator⟩,
    ⟨29, .leftInfix 50, .symbols [['>']] .operator⟩, ⟨28, .leftInfix 40, .symbols [['=']] .operator⟩,
    ⟨27, .leftInfix 50, .symbols [[',']] .operator⟩, ⟨18, .leftInfix 200, .symbols [['/']] .operator⟩,
    ⟨17, .leftInfix 200, .symbols [['*']] .operator⟩, ⟨16, .leftInfix 100, .symbols [['-']] .operator⟩,
    ⟨15, .leftInfix 100, .symbols [['+']] .operator⟩]

def shippedPostfixes : List Rule :=
  [⟨33, .postfix 800, .emptyBrackets 0 ['('] [')']⟩, ⟨33, .postfix 800, .brackets 0 ['('] [')']⟩,
    ⟨20, .postfix 600, .symbols [['!']] .operator⟩, ⟨19, .postfix 850, .symbols [['^']] .operator⟩,
    ⟨3, .postfix 1000, .container .sub⟩, ⟨4, .postfix 1000, .container .sup⟩]

/-- The paths that formulas use, with their numbers. -/
def shippedNumbers : List ((String × String) × Nat) :=
  [(("BuiltIn", "Operator"), 0), (("BuiltIn", "Whitespaces"), 1), (("BuiltIn", "Whitespace"), 2), (("BuiltIn", "Sub"), 3), (("BuiltIn", "Sup"), 4), (("BuiltIn", "Fraction"), 9),
    (("BuiltIn", "Root"), 10), (("BuiltIn", "Table"), 11), (("Calculus", "Lim"), 22),
    (("Calculus", "LimSup"), 23), (("Calculus", "LimInf"), 24), (("String", "String"), 41), (("Core", "Variable"), 12), (("Core", "RoundBrackets"), 13),
    (("Arithmetic", "Number"), 14), (("Arithmetic", "Add"), 15), (("Arithmetic", "Subtract"), 16),
    (("Arithmetic", "Multiply"), 17), (("Arithmetic", "Divide"), 18), (("Arithmetic", "Exponent"), 19),
    (("Arithmetic", "Factorial"), 20), (("Calculus", "Infinity"), 21), (("Calculus", "Sum"), 25),
    (("Calculus", "Integral"), 26), (("Collections", "Tuple"), 27), (("Comparison", "Equals"), 28),
    (("Comparison", "GreaterThan"), 29), (("Comparison", "LessThan"), 30),
    (("Comparison", "GreaterThanOrEquals"), 31), (("Comparison", "LessThanOrEquals"), 32),
    (("Function", "FunctionApplication"), 33), (("Logic", "True"), 34), (("Logic", "False"), 35),
    (("Logic", "And"), 36), (("Logic", "Or"), 37), (("Logic", "Not"), 38),
    (("Logic", "Equivalent"), 39), (("Logic", "Implies"), 40)]

/-- What the shipped parser consists of. -/
structure Std (x : Xid) (g : Grammar) (m : NameMap) : Prop where
  good : g.Good
  builtIn : g.builtIn = ⟨0, 1, 2, 3, 4, 5, 6, 7, 8⟩
  atoms : g.atoms = shippedAtoms
  prefixes : g.prefixes = shippedPrefixes
  infixes : g.infixes = shippedInfixes
  postfixes : g.postfixes = shippedPostfixes
  start : g.xidStart = x.start
  continue_ : g.xidContinue = x.continue_
  numbers : ∀ p ∈ shippedNumbers, hashGet m.values [p.1.1.toList, p.1.2.toList] = some p.2
  pairs : m.values.Pairwise fun a b => a.2 ≠ b.2

theorem createParser_std {x : Xid} (hx : x.Letters) {g : Grammar} {m : NameMap}
    (h : createParser x = .ok (g, m)) : Std x g m := by
  have hd : (match createParser letterXid with
      | .ok r => goodRules r.1.rules && decide (r.1.builtIn = ⟨0, 1, 2, 3, 4, 5, 6, 7, 8⟩) &&
          decide (r.1.atoms = shippedAtoms) && decide (r.1.prefixes = shippedPrefixes) &&
          decide (r.1.infixes = shippedInfixes) && decide (r.1.postfixes = shippedPostfixes) &&
          decide (∀ p ∈ shippedNumbers,
            hashGet r.2.values [p.1.1.toList, p.1.2.toList] = some p.2) &&
          decide (r.2.values.Pairwise fun a b => a.2 ≠ b.2)
      | .error _ => false) = true := by decide +kernel
  rw [createParser_eq hx] at h
  cases hc : createParser letterXid with
  | error e => rw [hc] at hd; cases hd
  | ok r =>
    rw [hc] at hd h
    simp only [Bool.and_eq_true, decide_eq_true_eq] at hd
    obtain ⟨⟨⟨⟨⟨⟨⟨h1, h2⟩, h3⟩, h4⟩, h5⟩, h6⟩, h7⟩, h8⟩ := hd
    simp only [M.ok_bind] at h
    obtain ⟨rfl, rfl⟩ := Prod.mk.inj (Except.ok.inj h)
    exact ⟨good_of_goodRules (g := ⟨r.1.builtIn, r.1.modules, x.start, x.continue_⟩) h1, h2, h3, h4,
      h5, h6, rfl, rfl, h7, h8⟩

/-! ## Which rules can start at a node -/

def isSym (s : Str) : Option Node → Bool
  | some (.symbol t) => t == s
  | _ => false

/-- The row begins with these symbols. -/
def beginsWith : List Str → Row → Bool
  | [], _ => true
  | s :: ss, rest => isSym s rest.head? && beginsWith ss rest.tail

/-- Whether the parser can succeed where the row goes on like this; an approximation. -/
def starts (g : Grammar) (rest : Row) : TokenParser → Bool
  | .symbols ss _ => beginsWith ss rest
  | .brackets _ o _ => isSym o rest.head?
  | .emptyBrackets _ o c => isSym o rest.head? && isSym c rest.tail.head?
  | .container v => match rest.head? with
    | some (.container v' _ _) => decide (v' = v)
    | _ => false
  | .variable => match rest.head? with
    | some (.symbol s) => isIdentifierStart g s
    | _ => false
  | .number => match rest.head? with
    | some (.symbol s) => isDigits s
    | _ => false
  | .string => isSym ['"'] rest.head?

theorem beginsWith_of_prefix : ∀ {ss : List Str} {rest : Row}, ss.map Node.symbol <+: rest →
    beginsWith ss rest = true
  | [], _, _ => rfl
  | s :: ss, rest, h => by
    obtain ⟨r, rfl⟩ := h
    simp only [List.map_cons, List.cons_append, beginsWith, List.head?_cons, isSym, beq_self_eq_true,
      List.tail_cons, Bool.true_and]
    exact beginsWith_of_prefix (List.prefix_append ..)

theorem selectSym_none {f : Str → Bool} {row : Row} {pos : Nat}
    (h : ∀ s, row[pos]? = some (.symbol s) → f s = false) : selectSym f row pos = none := by
  unfold selectSym
  split
  · rename_i s hs
    rw [h s hs]; rfl
  · rfl

theorem isSym_false {s : Str} {n : Option Node} (h : isSym s n = false) :
    ∀ t, n = some (.symbol t) → (t == s) = false := by
  rintro t rfl
  exact h

theorem symRun_nil {f : Str → Bool} {row : Row} {pos : Nat}
    (h : ∀ s, row[pos]? = some (.symbol s) → f s = false) : symRun f (row.drop pos) = [] := by
  cases hd : row.drop pos with
  | nil => rfl
  | cons n rest =>
    have hn : row[pos]? = some n := by
      have := congrArg (·[0]?) hd
      simpa using this
    cases n with
    | symbol s => rw [symRun, h s hn]; rfl
    | container v c w => rfl

theorem drop_head {row : Row} {pos : Nat} {rest : Row} (h : row.drop pos = rest) :
    row[pos]? = rest.head? := by
  subst h
  rw [List.head?_drop]

theorem drop_tail {row : Row} {pos : Nat} {rest : Row} (h : row.drop pos = rest) :
    row.drop (pos + 1) = rest.tail := by
  subst h
  rw [List.tail_drop]

theorem tokenParse_none {call : Rec} {g : Grammar} {row rest : Row} {pos : Nat} {tp : TokenParser}
    (hd : row.drop pos = rest) (h : starts g rest tp = false) :
    tokenParse call g tp row pos = .ok none := by
  have h0 := drop_head hd
  have h1 := drop_head (drop_tail hd)
  cases tp with
  | symbols ss ty =>
    have hj : justSymbols ss row pos = none := by
      unfold justSymbols
      rw [if_neg]
      intro hp
      have hp := List.isPrefixOf_iff_prefix.1 hp
      rw [hd] at hp
      rw [starts, beginsWith_of_prefix hp] at h
      cases h
    simp only [tokenParse, hj]
    rfl
  | brackets n o c =>
    simp only [tokenParse, parseBrackets,
      selectSym_none (f := fun s => s == o) (isSym_false (by rw [h0]; simpa only [starts] using h))]
  | emptyBrackets n o c =>
    simp only [tokenParse, parseEmptyBrackets]
    simp only [starts, Bool.and_eq_false_iff] at h
    rcases h with h | h
    · simp only [selectSym_none (f := fun s => s == o) (isSym_false (h0 ▸ h))]
    · cases hs : selectSym (fun s => s == o) row pos with
      | none => rfl
      | some r =>
        obtain ⟨l, p1⟩ := r
        have hp : p1 = pos + 1 := by
          unfold selectSym at hs
          split at hs
          · split at hs
            · cases hs; rfl
            · cases hs
          · cases hs
        subst hp
        simp only [selectSym_none (f := fun s => s == c) (isSym_false (h1 ▸ h))]
  | container v =>
    simp only [tokenParse, parseContainer]
    simp only [starts, ← h0] at h
    split
    · rename_i v' cells w hv
      rw [hv] at h
      rw [if_neg (by simpa using h)]
    · rfl
  | «variable» =>
    simp only [starts, ← h0] at h
    have : selectSym (isIdentifierStart g) row pos = none :=
      selectSym_none fun s hs => by rw [hs] at h; exact h
    simp only [tokenParse, parseVariable, this]
    rfl
  | number =>
    simp only [starts, ← h0] at h
    have hr : symRun isDigits (row.drop pos) = [] :=
      symRun_nil fun s hs => by rw [hs] at h; exact h
    simp only [tokenParse, parseNumber, numberDigits, hr]
    rfl
  | string =>
    simp only [starts, ← h0] at h
    have : selectSym (fun s => s == ['"']) row pos = none := selectSym_none (isSym_false h)
    simp only [tokenParse, parseString, this]
    rfl

/-! ## Spaces -/

theorem sp_add (i j : Nat) : sp (i + j) = sp i ++ sp j := by
  simp [sp, List.replicate_append_replicate]

theorem sp_succ (k : Nat) : sp (k + 1) = sy ' ' :: sp k := rfl

theorem drop_append {row : Row} {pos : Nat} {a rest : Row} (h : row.drop pos = a ++ rest) :
    row.drop (pos + a.length) = rest := by
  rw [← List.drop_drop, h, List.drop_left]

theorem drop_sp {row : Row} {pos k : Nat} {rest : Row} (h : row.drop pos = sp k ++ rest) :
    row.drop (pos + k) = rest := by
  simpa [sp] using drop_append h

/-- The node for spaces, if there are any. -/
def blanks (g : Grammar) (pos k : Nat) : Option SNode :=
  if k = 0 then none
  else some (.leaf g.builtIn.whitespace pos (pos + k) .operator (List.replicate k [' ']))

theorem symRun_sp {rest : Row} (hr : isSym [' '] rest.head? = false) : ∀ k,
    symRun (fun s => s == [' ']) (sp k ++ rest) = List.replicate k [' ']
  | 0 => by
    have := symRun_nil (f := fun s => s == [' ']) (row := rest) (pos := 0)
      (isSym_false (by rwa [List.head?_eq_getElem?] at hr))
    simpa [sp] using this
  | k + 1 => by
    rw [sp_succ, List.cons_append, sy, symRun, symRun_sp hr k]
    rfl

theorem parseSpaces_sp {g : Grammar} {row rest : Row} {pos k : Nat}
    (h : row.drop pos = sp k ++ rest) (hr : isSym [' '] rest.head? = false) :
    parseSpaces g row pos = .ok (blanks g pos k, pos + k) := by
  unfold parseSpaces
  rw [h, symRun_sp hr k]
  cases k with
  | zero => rfl
  | succ k =>
    simp [blanks, List.replicate_succ, BuiltIn.whitespaceNode, SNode.new, SNode.combinedRange,
      SNode.make, M.ok_bind]

theorem parseSpaces_none {g : Grammar} {row : Row} {pos : Nat} (h : isSym [' '] row[pos]? = false) :
    parseSpaces g row pos = .ok (none, pos) := by
  unfold parseSpaces
  rw [symRun_nil (isSym_false h)]
  rfl

theorem ruleParse_none {call : Rec} {g : Grammar} {row rest : Row} {pos i : Nat} {r : Rule}
    (hd : row.drop pos = sp i ++ rest) (hs : isSym [' '] rest.head? = false)
    (h : starts g rest r.parser = false) : ruleParse call g r row pos = .ok none := by
  unfold ruleParse
  rw [parseSpaces_sp hd hs]
  simp only [M.ok_bind, tokenParse_none (drop_sp hd) h]

theorem parseIter_starts {call : Rec} {g : Grammar} {row rest : Row} {pos i : Nat}
    (hd : row.drop pos = sp i ++ rest) (hs : isSym [' '] rest.head? = false) : ∀ (rs : List Rule),
    parseIter call g row pos rs =
      parseIter call g row pos (rs.filter fun r => starts g rest r.parser)
  | [] => rfl
  | r :: rs => by
    cases h : starts g rest r.parser with
    | false =>
      rw [List.filter_cons_of_neg (by simp [h]), parseIter, ruleParse_none hd hs h]
      simp only [M.ok_bind]
      exact parseIter_starts hd hs rs
    | true =>
      rw [List.filter_cons_of_pos (by exact h), parseIter, parseIter]
      cases ruleParse call g r row pos with
      | error e => rfl
      | ok o =>
        cases o with
        | none => exact parseIter_starts hd hs rs
        | some o => rfl

def isScript : Option Node → Bool
  | some (.container v _ _) => decide (v = .sub) || decide (v = .sup)
  | _ => false

theorem parseContainer_none {call : Rec} {v : Variant} {row : Row} {pos : Nat}
    (h : ∀ cells w, row[pos]? ≠ some (.container v cells w)) :
    parseContainer call v row pos = .ok none := by
  unfold parseContainer
  split
  · rename_i v' cells w hv
    rw [if_neg (fun e : v' = v => h cells w (by rw [hv, e]))]
  · rfl

theorem isScript_false {n : Option Node} (h : isScript n = false) (v : Variant)
    (hv : v = .sub ∨ v = .sup) : ∀ cells w, n ≠ some (.container v cells w) := by
  rintro cells w rfl
  rcases hv with rfl | rfl <;> simp [isScript] at h

theorem parseScripts_stop {call : Rec} {g : Grammar} {row : Row} {n : Nat} {node : SNode} {pos : Nat}
    (h : isScript row[pos]? = false) :
    parseScripts call g row (n + 1) node pos = .ok (node, pos) := by
  simp only [parseScripts, parseScript, parseContainer_none (isScript_false h _ (.inl rfl)),
    parseContainer_none (isScript_false h _ (.inr rfl)), M.ok_bind]

theorem new_two {name lo : Nat} {a b : SNode} (h1 : a.lo = lo) (h2 : b.lo = a.hi) :
    SNode.new name lo b.hi (.children [a, b]) = .ok (.children name lo b.hi [a, b]) := by
  simp [SNode.new, SNode.combinedRange, SNode.contiguousFrom, massert, M.ok_bind, h1, h2, SNode.make]

theorem new_three {name lo : Nat} {a b c : SNode} (h1 : a.lo = lo) (h2 : b.lo = a.hi)
    (h3 : c.lo = b.hi) :
    SNode.new name lo c.hi (.children [a, b, c]) = .ok (.children name lo c.hi [a, b, c]) := by
  simp [SNode.new, SNode.combinedRange, SNode.contiguousFrom, massert, M.ok_bind, h1, h2, h3,
    SNode.make]

theorem isSpace_node {x : Xid} {g : Grammar} {m : NameMap} (S : Std x g m) {pos k : Nat} {t : SNode}
    (h : t ∈ blanks g pos k) : IsSpace m t ∧ t.lo = pos ∧ t.hi = pos + k := by
  unfold blanks at h
  split at h
  · cases h
  · cases h
    refine ⟨⟨_, _, _, _, _, rfl, ?_⟩, rfl, rfl⟩
    rw [S.builtIn]
    exact S.numbers (("BuiltIn", "Whitespace"), 2) (by decide +kernel)

/-- Putting spaces around a node. -/
theorem whitespaces_spaced {x : Xid} {g : Grammar} {m : NameMap} (S : Std x g m) (t : SNode)
    {i k lo : Nat} (hlo : t.lo = lo + i) :
    ∃ t', g.builtIn.whitespacesNode (blanks g lo i) t (blanks g t.hi k) lo (t.hi + k) = .ok t' ∧
      Spaced m t t' ∧ t'.lo = lo ∧ t'.hi = t.hi + k := by
  have hn : IsNamed m ("BuiltIn", "Whitespaces") g.builtIn.whitespaces := by
    rw [S.builtIn]
    exact S.numbers (("BuiltIn", "Whitespaces"), 1) (by decide +kernel)
  have hb := fun s => isSpace_node (t := s) S (pos := lo) (k := i)
  have ha := fun s => isSpace_node (t := s) S (pos := t.hi) (k := k)
  cases h1 : blanks g lo i with
  | none =>
    obtain rfl : i = 0 := by
      unfold blanks at h1
      split at h1
      · assumption
      · cases h1
    cases h2 : blanks g t.hi k with
    | none =>
      obtain rfl : k = 0 := by
        unfold blanks at h2
        split at h2
        · assumption
        · cases h2
      exact ⟨t, rfl, .none, hlo, rfl⟩
    | some b =>
      obtain ⟨hb1, hb2, hb3⟩ := ha b (by rw [h2]; rfl)
      refine ⟨.children _ lo b.hi [t, b], by rw [← hb3]; exact new_two hlo hb2, ?_, rfl, hb3⟩
      exact .some (before := []) (after := [b]) hn rfl (by simpa using hb1)
  | some a =>
    obtain ⟨ha1, ha2, ha3⟩ := hb a (by rw [h1]; rfl)
    cases h2 : blanks g t.hi k with
    | none =>
      obtain rfl : k = 0 := by
        unfold blanks at h2
        split at h2
        · assumption
        · cases h2
      refine ⟨_, new_two ha2 (hlo.trans ha3.symm), ?_, rfl, rfl⟩
      exact .some (before := [a]) (after := []) hn rfl (by simpa using ha1)
    | some b =>
      obtain ⟨hb1, hb2, hb3⟩ := ha b (by rw [h2]; rfl)
      refine ⟨.children _ lo b.hi [a, t, b], by rw [← hb3]; exact new_three ha2 (hlo.trans ha3.symm) hb2, ?_,
        rfl, hb3⟩
      exact .some (before := [a]) (after := [b]) hn rfl (by
        simp only [List.singleton_append, List.mem_cons, List.not_mem_nil, or_false, forall_eq_or_imp,
          forall_eq]
        exact ⟨ha1, hb1⟩)

/-- A token without scripts. -/
theorem ruleParse_plain {x : Xid} {m : NameMap} {call : Rec} {g : Grammar} (S : Std x g m)
    {row rest rest' : Row} {pos i k p : Nat}
    {r : Rule} {c : SChildren} {t : SNode} (hd : row.drop pos = sp i ++ rest)
    (hs : isSym [' '] rest.head? = false)
    (ht : tokenParse call g r.parser row (pos + i) = .ok (some (c, p)))
    (hn : SNode.new (tokenName g r) (pos + i) p c = .ok t) (hlo : t.lo = pos + i) (hhi : t.hi = p)
    (hp : row.drop p = sp k ++ rest') (hs' : isSym [' '] rest'.head? = false)
    (hk : r.kind.takesScripts = true → isScript rest'.head? = false) :
    ∃ t', ruleParse call g r row pos = .ok (some (t', p + k)) ∧ Spaced m t t' ∧ t'.lo = pos ∧
      t'.hi = p + k := by
  subst hhi
  obtain ⟨t', h1, h2⟩ := whitespaces_spaced S t (k := k) hlo
  refine ⟨t', ?_, h2⟩
  unfold ruleParse
  rw [parseSpaces_sp hd hs]
  simp only [M.ok_bind, ht, hn, parseSpaces_sp hp hs', h1]
  split
  · rename_i h
    have := drop_head (drop_sp hp)
    rw [parseScripts_stop (by rw [this]; exact hk h)]
    rfl
  · rfl

end Aftermath
