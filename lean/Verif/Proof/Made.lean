import Verif.Proof.TreeNames

/-! # The shape of the trees that the parser makes

`Made` lists the ways in which the parser puts nodes together, without saying which of them is
chosen when. -/

namespace Aftermath

/-- A space in a row. -/
abbrev spaceNode : Node := .symbol [' ']

/-- Parts of a syntax tree. -/
inductive Cat
  /-- an operand or a whole expression -/
  | expr
  /-- a token without spaces around it -/
  | core (name : Nat) (tp : TokenParser)
  /-- a token with the spaces around it -/
  | tok (name : Nat) (tp : TokenParser)
  /-- a prefix or infix operator with scripts after it -/
  | opr (tp : TokenParser)

/-- The spaces from `a` to `b` as a node, if there are any. -/
def Spc (g : Grammar) (row : Row) (a b : Nat) (o : Option SNode) : Prop :=
  (o = none ∧ a = b) ∨
  (a < b ∧ o = some (.leaf g.builtIn.whitespace a b .operator (List.replicate (b - a) [' '])) ∧
    SymsAt row a b (List.replicate (b - a) [' ']))

/-- A node with spaces around it. -/
def wrapSpc (g : Grammar) (sb : Option SNode) (t : SNode) (sa : Option SNode) (a b : Nat) : SNode :=
  match sb, sa with
  | none, none => t
  | _, _ => .children g.builtIn.whitespaces a b (sb.toList ++ t :: sa.toList)

/-- The name of a script. -/
def ScriptName (g : Grammar) (v : Variant) (n : Nat) : Prop :=
  (v = .sub ∧ n = g.builtIn.sub) ∨ (v = .sup ∧ n = g.builtIn.sup)

/-- `t` is a part of the given kind over `row` from `a` to `b`. -/
inductive Made (g : Grammar) : Cat → Row → Nat → Nat → SNode → Prop
  | missing {row : Row} {a : Nat} : a ≤ row.length →
      Made g .expr row a a (.children g.builtIn.missingToken a a [])
  | unknown {row : Row} {a : Nat} {s : Str} : row[a]? = some (.symbol s) →
      Made g .expr row a (a + 1) (.leaf g.builtIn.unknownToken a (a + 1) .symbol [s])
  | missingOperator {row : Row} {a b c : Nat} {l r : SNode} : Made g .expr row a b l →
      Made g .expr row b c r →
      Made g .expr row a c (.children g.builtIn.missingOperator a c
        [l, .children g.builtIn.missingToken b b [], r])
  | atom {row : Row} {a b : Nat} {t : SNode} {r : Rule} : r ∈ g.ofRole .atom →
      Made g (.tok r.name r.parser) row a b t → Made g .expr row a b t
  | prefix {row : Row} {a b c : Nat} {o t : SNode} {r : Rule} : r ∈ g.ofRole .prefix →
      Made g (.opr r.parser) row a b o → Made g .expr row b c t →
      Made g .expr row a c (.children r.name a c [o, t])
  | infix {row : Row} {a b c d : Nat} {l o t : SNode} {r : Rule} : r ∈ g.ofRole .infix →
      Made g .expr row a b l → Made g (.opr r.parser) row b c o → Made g .expr row c d t →
      Made g .expr row a d (.children r.name a d [l, o, t])
  | postfix {row : Row} {a b c : Nat} {l o : SNode} {r : Rule} : r ∈ g.ofRole .postfix →
      Made g .expr row a b l → Made g (.tok g.builtIn.operator r.parser) row b c o →
      Made g .expr row a c (.children r.name a c [l, o])
  | opr {row : Row} {a b : Nat} {t : SNode} {tp : TokenParser} :
      Made g (.tok g.builtIn.operator tp) row a b t → Made g (.opr tp) row a b t
  | script {row : Row} {a b p c n : Nat} {t s : SNode} {sa : Option SNode} {tp : TokenParser}
      {v : Variant} : ScriptName g v n → Made g (.opr tp) row a b t →
      Made g (.core g.builtIn.operator (.container v)) row b p s → Spc g row p c sa →
      row[c]? ≠ some spaceNode →
      Made g (.opr tp) row a c (.children n a c [t, wrapSpc g none s sa b c])
  | tok {row : Row} {a p q b n : Nat} {t : SNode} {sb sa : Option SNode} {tp : TokenParser} :
      Spc g row a p sb → row[p]? ≠ some spaceNode → Made g (.core n tp) row p q t →
      Spc g row q b sa → row[b]? ≠ some spaceNode →
      Made g (.tok n tp) row a b (wrapSpc g sb t sa a b)
  | leaf {row : Row} {a b n : Nat} {tp : TokenParser} {ty : LeafType} {ss ss' : List Str}
      {call : Rec} : tokenParse call g tp row a = .ok (some (.leaf ty ss, b)) → a < b →
      SymsAt row a b ss' → ss'.flatten = ss.flatten → ss ≠ [] →
      Made g (.core n tp) row a b (.leaf n a b ty ss)
  | emptyBrackets {row : Row} {a n m : Nat} {o c : Str} : row[a]? = some (.symbol o) →
      row[a + 1]? = some (.symbol c) →
      Made g (.core n (.emptyBrackets m o c)) row a (a + 2) (.children n a (a + 2)
        [.leaf m a (a + 1) .operator [o], .leaf m (a + 1) (a + 2) .operator [c]])
  | brackets {row : Row} {a b n m : Nat} {o c : Str} {t : SNode} : row[a]? = some (.symbol o) →
      Made g .expr row (a + 1) b t → row[b]? = some (.symbol c) →
      Made g (.core n (.brackets m o c)) row a (b + 1) (.children n a (b + 1)
        [.leaf m a (a + 1) .operator [o], t, .leaf m b (b + 1) .operator [c]])
  | container {row : Row} {a n w : Nat} {v : Variant} {cells : List Row} {ts : List SNode} :
      row[a]? = some (.container v cells w) → ts.length = cells.length → 0 < w →
      cells.length % w = 0 →
      (∀ (i : Nat) (c : Row) (t : SNode), cells[i]? = some c → ts[i]? = some t →
        Made g .expr c 0 c.length t) →
      Made g (.core n (.container v)) row a (a + 1) (.newRows n a (a + 1) ts w)

variable {g : Grammar}

theorem Spc.le {row : Row} {a b : Nat} {o : Option SNode} (h : Spc g row a b o) : a ≤ b := by
  rcases h with ⟨-, rfl⟩ | ⟨h, -⟩ <;> omega

theorem Spc.le_length {row : Row} {a b : Nat} {o : Option SNode} (h : Spc g row a b o)
    (ha : a ≤ row.length) : b ≤ row.length := by
  rcases h with ⟨-, rfl⟩ | ⟨-, -, h⟩
  · exact ha
  · exact h.le

theorem wrapSpc_range {sb sa : Option SNode} {t : SNode} {row : Row} {a b p q : Nat}
    (hb : Spc g row a p sb) (hs : Spc g row q b sa) (ht : t.lo = p ∧ t.hi = q) :
    (wrapSpc g sb t sa a b).lo = a ∧ (wrapSpc g sb t sa a b).hi = b := by
  cases sb with
  | none =>
    cases sa with
    | none =>
      rcases hb with ⟨-, rfl⟩ | ⟨-, h, -⟩
      · rcases hs with ⟨-, rfl⟩ | ⟨-, h, -⟩
        · exact ht
        · cases h
      · cases h
    | some _ => exact ⟨rfl, rfl⟩
  | some _ => cases sa <;> exact ⟨rfl, rfl⟩

/-- The range of a part. -/
theorem Made.range {k : Cat} {row : Row} {a b : Nat} {t : SNode} (h : Made g k row a b t) :
    (t.lo = a ∧ t.hi = b) ∧ a ≤ b ∧ b ≤ row.length := by
  induction h with
  | missing h => exact ⟨⟨rfl, rfl⟩, Nat.le_refl _, h⟩
  | unknown h => exact ⟨⟨rfl, rfl⟩, Nat.le_succ _, (List.getElem?_eq_some_iff.1 h).1⟩
  | missingOperator _ _ ih1 ih2 => exact ⟨⟨rfl, rfl⟩, by omega, ih2.2.2⟩
  | atom _ _ ih => exact ih
  | «prefix» _ _ _ ih1 ih2 => exact ⟨⟨rfl, rfl⟩, by omega, ih2.2.2⟩
  | «infix» _ _ _ _ ih1 ih2 ih3 => exact ⟨⟨rfl, rfl⟩, by omega, ih3.2.2⟩
  | «postfix» _ _ _ ih1 ih2 => exact ⟨⟨rfl, rfl⟩, by omega, ih2.2.2⟩
  | opr _ ih => exact ih
  | script _ _ _ hs _ ih1 ih2 =>
    have := hs.le
    exact ⟨⟨rfl, rfl⟩, by omega, hs.le_length ih2.2.2⟩
  | tok hb _ _ hs _ ih =>
    have := hb.le
    have := hs.le
    exact ⟨wrapSpc_range hb hs ih.1, by omega, hs.le_length ih.2.2⟩
  | leaf _ h1 h2 _ _ => exact ⟨⟨rfl, rfl⟩, by omega, h2.le⟩
  | emptyBrackets _ h => exact ⟨⟨rfl, rfl⟩, by omega, (List.getElem?_eq_some_iff.1 h).1⟩
  | brackets _ _ h ih => exact ⟨⟨rfl, rfl⟩, by omega, (List.getElem?_eq_some_iff.1 h).1⟩
  | container h _ _ _ _ => exact ⟨⟨rfl, rfl⟩, by omega, (List.getElem?_eq_some_iff.1 h).1⟩

/-! ## The parser makes only such trees -/

/-- The results of a recursive call. -/
def CallMade (g : Grammar) (call : Rec) : Prop :=
  ∀ row pos min e res q, pos ≤ row.length → call row pos min e = .ok (res, q) →
    Made g .expr row pos q res.node

theorem symRun_all (f : Str → Bool) : ∀ (l : List Node), ∀ s ∈ symRun f l, f s = true
  | [] => by simp [symRun]
  | .container _ _ _ :: _ => by simp [symRun]
  | .symbol s :: rest => by
    rw [symRun]
    by_cases h : f s
    · simp only [h, if_true, List.mem_cons, forall_eq_or_imp, true_and]
      exact symRun_all f rest
    · simp [h]

theorem symRun_max (f : Str → Bool) : ∀ (l : List Node) (s : Str),
    l[(symRun f l).length]? = some (.symbol s) → f s = false
  | [], s, h => by simp [symRun] at h
  | .container _ _ _ :: _, s, h => by simp [symRun] at h
  | .symbol s :: rest, s', h => by
    rw [symRun] at h
    by_cases hs : f s
    · simp only [hs, if_true, List.length_cons, List.getElem?_cons_succ] at h
      exact symRun_max f rest s' h
    · simp only [hs, Bool.false_eq_true, if_false, List.length_nil, List.getElem?_cons_zero,
        Option.some.injEq, Node.symbol.injEq] at h
      rw [← h]
      simpa using hs

theorem made_spaces {row : Row} {pos p : Nat} {o : Option SNode} (hp : pos ≤ row.length)
    (h : parseSpaces g row pos = .ok (o, p)) :
    Spc g row pos p o ∧ row[p]? ≠ some spaceNode := by
  have hmax : row[pos + (symRun (fun s => s == [' ']) (row.drop pos)).length]? ≠
      some spaceNode := by
    intro hh
    have := symRun_max (fun s => s == [' ']) (row.drop pos) [' '] (by rw [List.getElem?_drop]; exact hh)
    simp at this
  unfold parseSpaces at h
  simp only at h
  split at h
  · rename_i he
    cases h
    rw [List.isEmpty_iff.1 he] at hmax
    exact ⟨.inl ⟨rfl, rfl⟩, hmax⟩
  · rename_i he
    obtain ⟨u, hu, h⟩ := M.bind_eq_ok.1 h
    cases h
    refine ⟨.inr ?_, hmax⟩
    have hrep : symRun (fun s => s == [' ']) (row.drop pos) =
        List.replicate (symRun (fun s => s == [' ']) (row.drop pos)).length [' '] :=
      List.eq_replicate_of_mem fun s hs => by simpa using symRun_all _ _ s hs
    have hlen : 0 < (symRun (fun s => s == [' ']) (row.drop pos)).length :=
      List.length_pos_iff.2 (by simpa using he)
    have hsy := symRun_syms (fun s => s == [' ']) hp
    cases hu
    refine ⟨by omega, ?_, ?_⟩
    · rw [Nat.add_sub_cancel_left, ← hrep]
      rfl
    · rw [Nat.add_sub_cancel_left, ← hrep]
      exact hsy

theorem whitespaces_eq {sb sa : Option SNode} {t t' : SNode} {a b : Nat}
    (h : g.builtIn.whitespacesNode sb t sa a b = .ok t') : t' = wrapSpc g sb t sa a b := by
  unfold BuiltIn.whitespacesNode at h
  cases sb <;> cases sa
  · cases h; rfl
  all_goals exact new_eq h

theorem made_whole {call : Rec} (hc : CallMade g call) {row : Row} {t : SNode}
    (h : parseWhole call row = .ok t) : Made g .expr row 0 row.length t := by
  unfold parseWhole at h
  obtain ⟨⟨res, p⟩, hcall, h⟩ := M.bind_eq_ok.1 h
  simp only at h
  split at h
  · rename_i hp
    cases h
    have := hc _ _ _ _ _ _ (Nat.zero_le _) hcall
    rwa [hp] at this
  · cases h

theorem made_cells {call : Rec} (hc : CallMade g call) : ∀ {cells : List Row} {ts : List SNode},
    parseCells call cells = .ok ts → ts.length = cells.length ∧
      ∀ (i : Nat) (c : Row) (t : SNode), cells[i]? = some c → ts[i]? = some t →
        Made g .expr c 0 c.length t
  | [], ts, h => by cases h; exact ⟨rfl, by simp⟩
  | r :: rs, ts, h => by
    rw [parseCells] at h
    obtain ⟨t, ht, h⟩ := M.bind_eq_ok.1 h
    obtain ⟨ts', hts, h⟩ := M.bind_eq_ok.1 h
    cases h
    obtain ⟨h1, h2⟩ := made_cells hc hts
    refine ⟨by simp [h1], fun i c u hi hu => ?_⟩
    cases i with
    | zero =>
      simp only [List.getElem?_cons_zero, Option.some.injEq] at hi hu
      subst hi; subst hu
      exact made_whole hc ht
    | succ i => exact h2 i c u (by simpa using hi) (by simpa using hu)

theorem made_container {call : Rec} (hc : CallMade g call) {row : Row} {v : Variant}
    {pos p n : Nat} {c : SChildren} {t : SNode}
    (h : parseContainer call v row pos = .ok (some (c, p)))
    (hn : SNode.new n pos p c = .ok t) : Made g (.core n (.container v)) row pos p t := by
  unfold parseContainer at h
  cases hr : row[pos]? with
  | none => rw [hr] at h; cases h
  | some nd =>
    rw [hr] at h
    cases nd with
    | symbol s => cases h
    | container v' cells w =>
      simp only at h
      split at h
      · rename_i hv
        subst hv
        obtain ⟨ts, hts, h⟩ := M.bind_eq_ok.1 h
        obtain ⟨gr, hgr, h⟩ := M.bind_eq_ok.1 h
        cases h
        unfold GridVec.fromOneDimensional at hgr
        split at hgr
        · cases hgr
        · rename_i hw
          split at hgr
          · rename_i hmod
            cases hgr
            cases hn
            obtain ⟨h1, h2⟩ := made_cells hc hts
            exact .container hr h1 (Nat.pos_of_ne_zero hw) (by rw [← h1]; exact hmod) h2
          · cases hgr
      · cases h

theorem made_token {call : Rec} (hc : CallMade g call) {row : Row} {tp : TokenParser}
    (hne : tp.NonEmpty) {pos p n : Nat} {c : SChildren} {t : SNode} (hp : pos ≤ row.length)
    (h : tokenParse call g tp row pos = .ok (some (c, p)))
    (hn : SNode.new n pos p c = .ok t) : Made g (.core n tp) row pos p t := by
  have h0 := h
  cases tp with
  | symbols ss ty =>
    simp only [tokenParse, Except.ok.injEq, Option.map_eq_some_iff, Prod.mk.injEq] at h
    obtain ⟨⟨s, q⟩, hs, rfl, rfl⟩ := h
    cases hn
    unfold justSymbols at hs
    by_cases hb : (ss.map Node.symbol).isPrefixOf (row.drop pos)
    · simp only [hb, if_true, Option.some.injEq, Prod.mk.injEq] at hs
      obtain ⟨rfl, rfl⟩ := hs
      have hpre := List.isPrefixOf_iff_prefix.1 hb
      have ht := List.prefix_iff_eq_take.1 hpre
      have hle := hpre.length_le
      simp only [List.length_map, List.length_drop] at ht hle
      have hpos : 0 < ss.length := List.length_pos_iff.2 hne
      exact .leaf h0 (by simp only; omega) (ss' := ss) ⟨ht.symm, rfl, by simp only; omega⟩ (by simp) (by simp)
    · simp [hb] at hs
  | «variable» =>
    simp only [tokenParse, Except.ok.injEq] at h
    unfold parseVariable at h
    obtain ⟨⟨a, p1⟩, ha, h⟩ := Option.bind_eq_some_iff.1 h
    obtain ⟨hs, -, -, -⟩ := selectSym_spec ha
    cases h
    cases hn
    have := hs.append (symRun_syms (isIdentifierContinue g) hs.le)
    have hh := hs.hi_eq
    simp only [List.length_singleton] at hh
    exact .leaf h0 (by omega) this (by simp) (by simp)
  | number =>
    simp only [tokenParse, Except.ok.injEq] at h
    unfold parseNumber at h
    obtain ⟨⟨a, p1⟩, ha, h⟩ := Option.bind_eq_some_iff.1 h
    obtain ⟨hs, hsne⟩ := numberDigits_syms hp ha
    have hpos : 0 < a.length := List.length_pos_iff.2 hsne
    have hh := hs.hi_eq
    cases hf : parseFractional row p1 with
    | none =>
      simp only [hf, Option.some.injEq, Prod.mk.injEq] at h
      obtain ⟨rfl, rfl⟩ := h
      cases hn
      exact .leaf h0 (by omega) hs rfl hsne
    | some x =>
      obtain ⟨d, p2⟩ := x
      simp only [hf, Option.some.injEq, Prod.mk.injEq] at h
      obtain ⟨rfl, rfl⟩ := h
      cases hn
      have hd := parseFractional_syms hf
      have := hd.hi_eq
      exact .leaf h0 (by omega) (hs.append hd) rfl (by simp [hsne])
  | string =>
    simp only [tokenParse, Except.ok.injEq] at h
    unfold parseString at h
    obtain ⟨⟨a, p1⟩, ha, h⟩ := Option.bind_eq_some_iff.1 h
    obtain ⟨⟨b, p2⟩, hb, h⟩ := Option.bind_eq_some_iff.1 h
    obtain ⟨hs, -, -, -⟩ := selectSym_spec ha
    obtain ⟨ht, -, -, -⟩ := selectSym_spec hb
    cases h
    cases hn
    have := (hs.append (stringBody_syms hs.le)).append ht
    have h1 := this.hi_eq
    simp only [List.length_append, List.length_singleton] at h1
    exact .leaf h0 (by omega) this (by simp) (by simp)
  | container v => exact made_container hc h hn
  | emptyBrackets m o cl =>
    simp only [tokenParse] at h
    unfold parseEmptyBrackets at h
    cases h1 : selectSym (fun s => s == o) row pos with
    | none => rw [h1] at h; cases h
    | some x =>
      obtain ⟨l, p1⟩ := x
      simp only [h1] at h
      cases h2 : selectSym (fun s => s == cl) row p1 with
      | none => rw [h2] at h; cases h
      | some y =>
        obtain ⟨r, p2⟩ := y
        simp only [h2, new_leaf, M.ok_bind] at h
        obtain ⟨-, e1, g1, rfl⟩ := selectSym_spec h1
        obtain ⟨-, e2, g2, rfl⟩ := selectSym_spec h2
        have e1 : l = o := by simpa using e1
        have e2 : r = cl := by simpa using e2
        subst e1; subst e2
        cases h
        rw [new_eq hn]
        exact .emptyBrackets g1 g2
  | brackets m o cl =>
    simp only [tokenParse] at h
    unfold parseBrackets at h
    cases h1 : selectSym (fun s => s == o) row pos with
    | none => rw [h1] at h; cases h
    | some x =>
      obtain ⟨l, p1⟩ := x
      obtain ⟨hs, e1, g1, rfl⟩ := selectSym_spec h1
      simp only [h1] at h
      obtain ⟨⟨res, p2⟩, hcall, h⟩ := M.bind_eq_ok.1 h
      have hres := hc _ _ _ _ _ _ hs.le hcall
      cases h2 : selectSym (fun s => s == cl) row p2 with
      | none => simp only [h2] at h; cases h
      | some y =>
        obtain ⟨r, p3⟩ := y
        simp only [h2, new_leaf, M.ok_bind] at h
        obtain ⟨-, e2, g2, rfl⟩ := selectSym_spec h2
        have e1 : l = o := by simpa using e1
        have e2 : r = cl := by simpa using e2
        cases h
        rw [new_eq hn, e1, e2]
        exact .brackets (e1 ▸ g1) hres (e2 ▸ g2)

theorem postfix_made {name : Nat} {o l t : SNode} {a b c : Nat} (hl : l.lo = a ∧ l.hi = b)
    (ho : o.lo = b ∧ o.hi = c) (h1 : a ≤ b) (h2 : b ≤ c) (h : buildPostfix name o l = .ok t) :
    t = .children name a c [l, o] := by
  unfold buildPostfix at h
  have := new_eq h
  rw [this]
  simp only [combineRanges, SNode.range, hl, ho]
  congr 1 <;> omega

theorem prefix_made {name : Nat} {o l t : SNode} {a b c : Nat} (ho : o.lo = a ∧ o.hi = b)
    (hl : l.lo = b ∧ l.hi = c) (h1 : a ≤ b) (h2 : b ≤ c) (h : buildPrefix name o l = .ok t) :
    t = .children name a c [o, l] := by
  unfold buildPrefix at h
  have := new_eq h
  rw [this]
  simp only [combineRanges, SNode.range, hl, ho]
  congr 1 <;> omega

theorem infix_made {name : Nat} {o l r t : SNode} {a b c d : Nat} (hl : l.lo = a ∧ l.hi = b)
    (ho : o.lo = b ∧ o.hi = c) (hr : r.lo = c ∧ r.hi = d) (h1 : a ≤ b) (h2 : b ≤ c) (h3 : c ≤ d)
    (h : buildInfix name o l r = .ok t) : t = .children name a d [l, o, r] := by
  unfold buildInfix at h
  have := new_eq h
  rw [this]
  simp only [combineRanges, SNode.range, hl, ho, hr]
  congr 1 <;> omega

theorem missingOperator_made {l r t : SNode} {a b c : Nat} (hl : l.lo = a ∧ l.hi = b)
    (hr : r.lo = b ∧ r.hi = c) (h1 : a ≤ b) (h2 : b ≤ c) (h : makeMissingOperator g l r = .ok t) :
    t = .children g.builtIn.missingOperator a c [l, .children g.builtIn.missingToken b b [], r] := by
  unfold makeMissingOperator BuiltIn.errorMissingOperator at h
  obtain ⟨m, hm, h⟩ := M.bind_eq_ok.1 h
  have e : m = .children g.builtIn.missingToken b b [] := by
    have := new_eq hm
    rw [this, hl.2]
  have := new_eq h
  rw [this, e]
  simp only [combineRanges, SNode.range, hl, hr]
  congr 1 <;> omega

theorem made_scripts {call : Rec} (hc : CallMade g call) {row : Row} {tp : TokenParser} {a : Nat} :
    ∀ (n : Nat) {t : SNode} {pos : Nat} {t' : SNode} {p : Nat}, Made g (.opr tp) row a pos t →
    parseScripts call g row n t pos = .ok (t', p) → Made g (.opr tp) row a p t'
  | 0, _, _, _, _, _, h => by cases h
  | n + 1, t, pos, t', p, ht, h => by
    have key : ∀ v nm, ScriptName g v nm → ∀ s p1 u,
        parseScript call g v row pos = .ok (some (s, p1)) → buildPostfix nm s t = .ok u →
        Made g (.opr tp) row a p1 u := by
      intro v nm hv s p1 u h hu
      unfold parseScript at h
      obtain ⟨o, ho, h⟩ := M.bind_eq_ok.1 h
      cases o with
      | none => cases h
      | some x =>
        obtain ⟨c, p2⟩ := x
        obtain ⟨node, hnode, h⟩ := M.bind_eq_ok.1 h
        obtain ⟨⟨sa, p3⟩, hsa, h⟩ := M.bind_eq_ok.1 h
        obtain ⟨t1, ht1, h⟩ := M.bind_eq_ok.1 h
        cases h
        have hm := made_container (n := g.builtIn.operator) hc ho hnode
        have hr := hm.range
        obtain ⟨hs, hmax⟩ := made_spaces hr.2.2 hsa
        have hw := wrapSpc_range (g := g) (row := row) (sb := none) (.inl ⟨rfl, rfl⟩) hs hr.1
        rw [whitespaces_eq ht1] at hu
        have hl := hs.le
        rw [postfix_made ht.range.1 hw ht.range.2.1 (by omega) hu]
        exact .script hv ht hm hs hmax
    unfold parseScripts at h
    obtain ⟨o, ho, h⟩ := M.bind_eq_ok.1 h
    cases o with
    | some x =>
      obtain ⟨s, p1⟩ := x
      obtain ⟨u, hu, h⟩ := M.bind_eq_ok.1 h
      exact made_scripts hc n (key _ _ (.inl ⟨rfl, rfl⟩) _ _ _ ho hu) h
    | none =>
      obtain ⟨o, ho, h⟩ := M.bind_eq_ok.1 h
      cases o with
      | some x =>
        obtain ⟨s, p1⟩ := x
        obtain ⟨u, hu, h⟩ := M.bind_eq_ok.1 h
        exact made_scripts hc n (key _ _ (.inr ⟨rfl, rfl⟩) _ _ _ ho hu) h
      | none => cases h; exact ht

/-- A token with its spaces and scripts. -/
theorem made_rule {call : Rec} (hc : CallMade g call) {row : Row} {r : Rule}
    (hne : r.parser.NonEmpty) {pos p : Nat} {t : SNode} (hp : pos ≤ row.length)
    (h : ruleParse call g r row pos = .ok (some (t, p))) :
    (r.kind.takesScripts = false → Made g (.tok (tokenName g r) r.parser) row pos p t) ∧
    (r.kind.takesScripts = true → Made g (.opr r.parser) row pos p t) := by
  unfold ruleParse at h
  obtain ⟨⟨sb, p1⟩, hsb, h⟩ := M.bind_eq_ok.1 h
  obtain ⟨hb, hbmax⟩ := made_spaces hp hsb
  obtain ⟨o, ho, h⟩ := M.bind_eq_ok.1 h
  cases o with
  | none => cases h
  | some x =>
    obtain ⟨c, p2⟩ := x
    obtain ⟨node, hnode, h⟩ := M.bind_eq_ok.1 h
    obtain ⟨⟨sa, p3⟩, hsa, h⟩ := M.bind_eq_ok.1 h
    obtain ⟨t', ht', h⟩ := M.bind_eq_ok.1 h
    have hm := made_token hc hne (hb.le_length hp) ho hnode
    obtain ⟨hs, hsmax⟩ := made_spaces hm.range.2.2 hsa
    have htok : Made g (.tok (tokenName g r) r.parser) row pos p3 t' := by
      rw [whitespaces_eq ht']
      exact .tok hb hbmax hm hs hsmax
    split at h
    · rename_i hk
      obtain ⟨⟨u, p4⟩, hu, h⟩ := M.bind_eq_ok.1 h
      cases h
      refine ⟨fun h => absurd (h.symm.trans hk) (by simp), fun _ => ?_⟩
      have hname : tokenName g r = g.builtIn.operator := by
        unfold tokenName
        split
        · rename_i hka; rw [hka] at hk; cases hk
        · rfl
      rw [hname] at htok
      exact made_scripts hc _ (.opr htok) hu
    · rename_i hk
      cases h
      exact ⟨fun _ => htok, fun h => absurd h hk⟩

theorem made_iter (hg : g.Good) {call : Rec} (hc : CallMade g call) {row : Row} {role : Role}
    {pos p : Nat} {t : SNode} {r : Rule} (hp : pos ≤ row.length)
    (h : parseIter call g row pos (g.ofRole role) = .ok (some (t, r, p))) :
    r ∈ g.ofRole role ∧ match role with
      | .atom => Made g (.tok r.name r.parser) row pos p t
      | .postfix => Made g (.tok g.builtIn.operator r.parser) row pos p t
      | _ => Made g (.opr r.parser) row pos p t := by
  obtain ⟨a, b, hs, -, h2⟩ := parseIter_some.1 h
  have hmem : r ∈ g.ofRole role := by rw [hs]; simp
  obtain ⟨h3, h4⟩ := mem_ofRole.1 hmem
  have hpar : r.Parsed := by
    unfold Rule.Parsed
    intro he
    unfold Rule.role at h4
    rw [he] at h4
    cases h4
  have hrules : r ∈ g.rules := by unfold Grammar.rules; simpa using h3
  obtain ⟨m1, m2⟩ := made_rule hc (hg.nonEmpty r hrules hpar) hp h2
  refine ⟨hmem, ?_⟩
  unfold Rule.role at h4
  cases hk : r.kind <;> rw [hk] at h4 m1 m2 <;> cases h4 <;>
    simp only [RuleKind.takesScripts, tokenName, hk, forall_const, Bool.false_eq_true,
      Bool.true_eq_false, IsEmpty.forall_iff] at m1 m2 ⊢ <;> assumption

theorem made_missingAtom {row : Row} {pos : Nat} {t : SNode} (hp : pos ≤ row.length)
    (h : makeMissingAtom g pos = .ok t) : Made g .expr row pos pos t := by
  have := new_eq h
  rw [this]
  exact .missing hp

theorem made_unknownAtom {row : Row} {pos : Nat} {t : SNode}
    (h : makeUnknownAtom g row pos = .ok t) : Made g .expr row pos (pos + 1) t := by
  unfold makeUnknownAtom at h
  obtain ⟨n, hn, h⟩ := M.bind_eq_ok.1 h
  have hn : row[pos]? = some n := by
    cases hr : row[pos]? with
    | none => rw [hr] at hn; cases hn
    | some m => rw [hr] at hn; cases hn; rfl
  cases n with
  | container v cells w => cases h
  | symbol s =>
    cases h
    exact .unknown hn

theorem made_missingOperator {row : Row} {a b c : Nat} {l r t : SNode} (hl : Made g .expr row a b l)
    (hr : Made g .expr row b c r) (h : makeMissingOperator g l r = .ok t) :
    Made g .expr row a c t := by
  rw [missingOperator_made hl.range.1 hr.range.1 hl.range.2.1 hr.range.2.1 h]
  exact .missingOperator hl hr

theorem made_unknownLoop {call : Rec} {row : Row} {e : Ending} {s : Nat} :
    ∀ (n : Nat) {a t : SNode} {pos p : Nat}, Made g .expr row s pos a →
    unknownLoop call g row e n a pos = .ok (t, p) → Made g .expr row s p t
  | 0, _, _, _, _, _, h => by cases h
  | n + 1, a, t, pos, p, hna, h => by
    rw [unknownLoop] at h
    obtain ⟨b, hb, h⟩ := M.bind_eq_ok.1 h
    cases b with
    | true => cases h; exact hna
    | false =>
      obtain ⟨x, hx, h⟩ := M.bind_eq_ok.1 h
      obtain ⟨y, hy, h⟩ := M.bind_eq_ok.1 h
      exact made_unknownLoop n (made_missingOperator hna (made_unknownAtom hx) hy) h

theorem made_unknown {call : Rec} {row : Row} {e : Ending} {t : SNode}
    {pos p : Nat} (h : parseUnknown call g row e pos = .ok (t, p)) : Made g .expr row pos p t := by
  unfold parseUnknown at h
  obtain ⟨x, hx, h⟩ := M.bind_eq_ok.1 h
  exact made_unknownLoop _ (made_unknownAtom hx) h

theorem made_start (hg : g.Good) {call : Rec} (hc : CallMade g call) {row : Row} {e : Ending}
    {pos q : Nat} {s : Start} (hp : pos ≤ row.length)
    (h : prattStart call g row e pos = .ok (s, q)) :
    match s with
    | .left t => Made g .expr row pos q t
    | .finished t => Made g .expr row pos q t := by
  unfold prattStart at h
  split at h
  · obtain ⟨t, ht, h⟩ := M.bind_eq_ok.1 h
    cases h
    exact made_missingAtom hp ht
  · obtain ⟨o, ho, h⟩ := M.bind_eq_ok.1 h
    cases o with
    | some x =>
      obtain ⟨op, r, p1⟩ := x
      obtain ⟨h1, h2⟩ := made_iter (role := .prefix) hg hc hp ho
      simp only at h2
      obtain ⟨⟨right, p2⟩, hcall, h⟩ := M.bind_eq_ok.1 h
      obtain ⟨t, ht, h⟩ := M.bind_eq_ok.1 h
      have h3 := hc _ _ _ _ _ _ h2.range.2.2 hcall
      have key := Made.prefix h1 h2 h3
      rw [← prefix_made h2.range.1 h3.range.1 h2.range.2.1 h3.range.2.1 ht] at key
      cases right with
      | expression u => cases h; exact key
      | stop u => cases h; exact key
    | none =>
      obtain ⟨o, ho, h⟩ := M.bind_eq_ok.1 h
      cases o with
      | some x =>
        obtain ⟨t, r, p1⟩ := x
        cases h
        obtain ⟨h1, h2⟩ := made_iter (role := .atom) hg hc hp ho
        exact .atom h1 h2
      | none =>
        obtain ⟨b, hb, h⟩ := M.bind_eq_ok.1 h
        cases b with
        | true =>
          obtain ⟨t, ht, h⟩ := M.bind_eq_ok.1 h
          cases h
          exact made_missingAtom hp ht
        | false =>
          simp only [Bool.false_eq_true, if_false] at h
          split at h
          · obtain ⟨t, ht, h⟩ := M.bind_eq_ok.1 h
            cases h
            exact made_missingAtom hp ht
          · obtain ⟨⟨t, p1⟩, ht, h⟩ := M.bind_eq_ok.1 h
            cases h
            exact made_unknown ht

theorem made_loop (hg : g.Good) {call : Rec} (hc : CallMade g call) {row : Row} {min : Power}
    {e : Ending} {a : Nat} : ∀ (n : Nat) {left : SNode} {pos q : Nat} {res : PResult},
    Made g .expr row a pos left →
    prattLoop call g row min e n left pos = .ok (res, q) → Made g .expr row a q res.node
  | 0, _, _, _, _, _, h => by cases h
  | n + 1, left, pos, q, res, hl, h => by
    have hp := hl.range.2.2
    rw [prattLoop] at h
    split at h
    · cases h; exact hl
    · obtain ⟨o, ho, h⟩ := M.bind_eq_ok.1 h
      cases o with
      | some x =>
        obtain ⟨op, r, p1⟩ := x
        obtain ⟨h1, h2⟩ := made_iter (role := .infix) hg hc hp ho
        simp only at h h2
        split at h
        · cases h; exact hl
        · obtain ⟨⟨right, p2⟩, hcall, h⟩ := M.bind_eq_ok.1 h
          obtain ⟨t, ht, h⟩ := M.bind_eq_ok.1 h
          have h3 := hc _ _ _ _ _ _ h2.range.2.2 hcall
          have key := Made.infix h1 hl h2 h3
          rw [← infix_made hl.range.1 h2.range.1 h3.range.1 hl.range.2.1 h2.range.2.1
            h3.range.2.1 ht] at key
          cases right with
          | expression u => exact made_loop hg hc n key h
          | stop u => cases h; exact key
      | none =>
        obtain ⟨o, ho, h⟩ := M.bind_eq_ok.1 h
        cases o with
        | some x =>
          obtain ⟨op, r, p1⟩ := x
          obtain ⟨h1, h2⟩ := made_iter (role := .postfix) hg hc hp ho
          simp only at h h2
          split at h
          · cases h; exact hl
          · obtain ⟨t, ht, h⟩ := M.bind_eq_ok.1 h
            have key := Made.postfix h1 hl h2
            rw [← postfix_made hl.range.1 h2.range.1 hl.range.2.1 h2.range.2.1 ht] at key
            exact made_loop hg hc n key h
        | none =>
          obtain ⟨b, hb, h⟩ := M.bind_eq_ok.1 h
          cases b with
          | true =>
            simp only [if_true] at h
            split at h
            · cases h; exact hl
            · obtain ⟨⟨right, p2⟩, hcall, h⟩ := M.bind_eq_ok.1 h
              obtain ⟨t, ht, h⟩ := M.bind_eq_ok.1 h
              have key := made_missingOperator hl (hc _ _ _ _ _ _ hp hcall) ht
              cases right with
              | expression u => exact made_loop hg hc n key h
              | stop u => cases h; exact key
          | false =>
            simp only [Bool.false_eq_true, if_false] at h
            split at h
            · cases h; exact hl
            · obtain ⟨⟨right, p2⟩, hcall, h⟩ := M.bind_eq_ok.1 h
              obtain ⟨t, ht, h⟩ := M.bind_eq_ok.1 h
              exact made_loop hg hc n (made_missingOperator hl (made_unknown hcall) ht) h

theorem made_pratt (hg : g.Good) : ∀ f, CallMade g (pratt g f)
  | 0 => fun _ _ _ _ _ _ _ h => by cases h
  | f + 1 => fun row pos min e res q hp h => by
    rw [pratt, prattBody] at h
    obtain ⟨⟨s, p⟩, hs, h⟩ := M.bind_eq_ok.1 h
    have hstart := made_start hg (made_pratt hg f) hp hs
    cases s with
    | finished t => cases h; exact hstart
    | left t => exact made_loop hg (made_pratt hg f) _ hstart h

/-- The shape of parse trees. -/
theorem made_parse (hg : g.Good) {f : Nat} {row : Row} {t : SNode}
    (h : g.parseFuel f row = .ok t) : Made g .expr row 0 row.length t :=
  made_whole (made_pratt hg f) h

end Aftermath
