import Verif.Spec.Expression
import Verif.Proof.ParseTotal

/-! # The pratt parser on operator expressions -/

namespace Aftermath

/-! ## The rules of a role -/

/-- The list of rules the parser tries for a role. -/
def Grammar.ofRole (g : Grammar) : Role → List Rule
  | .atom => g.atoms
  | .prefix => g.prefixes
  | .infix => g.infixes
  | .postfix => g.postfixes

theorem ofRole_eq (g : Grammar) (role : Role) :
    g.ofRole role = (g.modules.flatten.filter fun r => r.role == some role).reverse := by
  rw [← List.filter_reverse]
  cases role <;>
    simp only [Grammar.ofRole, Grammar.atoms, Grammar.prefixes, Grammar.infixes,
      Grammar.postfixes, Grammar.rules] <;>
    congr 1 <;> funext r <;> cases h : r.kind <;> simp [Rule.role, h]

theorem mem_ofRole {g : Grammar} {role : Role} {r : Rule} :
    r ∈ g.ofRole role ↔ r ∈ g.modules.flatten ∧ r.role = some role := by
  rw [ofRole_eq, List.mem_reverse, List.mem_filter]
  simp

theorem Grammar.Good.ofRole {g : Grammar} (hg : g.Good) (role : Role) :
    ∀ r ∈ g.ofRole role, r.parser.NonEmpty := by
  cases role
  · exact hg.atoms
  · exact hg.prefixes
  · exact hg.infixes
  · exact hg.postfixes

theorem parseIter_append {call : Rec} {g : Grammar} {row : Row} {pos : Nat} :
    ∀ {a b : List Rule}, (∀ r ∈ a, ruleParse call g r row pos = .ok none) →
    parseIter call g row pos (a ++ b) = parseIter call g row pos b
  | [], b, _ => rfl
  | r :: a, b, h => by
    rw [List.cons_append, parseIter, h r (List.mem_cons_self ..)]
    exact parseIter_append fun r' hr' => h r' (List.mem_cons_of_mem _ hr')

theorem parseIter_none {call : Rec} {g : Grammar} {row : Row} {pos : Nat} :
    ∀ {a : List Rule}, parseIter call g row pos a = .ok none ↔
      ∀ r ∈ a, ruleParse call g r row pos = .ok none
  | [] => by simp [parseIter]
  | r :: a => by
    constructor
    · intro h
      rw [parseIter] at h
      obtain ⟨o, ho, h⟩ := M.bind_eq_ok.1 h
      cases o with
      | some x => cases h
      | none =>
        intro r' hr'
        rcases List.mem_cons.1 hr' with rfl | hr'
        · exact ho
        · exact parseIter_none.1 h r' hr'
    · intro h
      have := parseIter_append (b := []) h
      rw [List.append_nil] at this
      rw [this]
      rfl

theorem parseIter_some {call : Rec} {g : Grammar} {row : Row} {pos : Nat} {t : SNode} {r : Rule}
    {p : Nat} : ∀ {rs : List Rule}, parseIter call g row pos rs = .ok (some (t, r, p)) ↔
      ∃ a b, rs = a ++ r :: b ∧ (∀ r' ∈ a, ruleParse call g r' row pos = .ok none) ∧
        ruleParse call g r row pos = .ok (some (t, p))
  | [] => by
    constructor
    · intro h; cases h
    · rintro ⟨a, b, h, -⟩; simp at h
  | r0 :: rs => by
    constructor
    · intro h
      rw [parseIter] at h
      obtain ⟨o, ho, h⟩ := M.bind_eq_ok.1 h
      cases o with
      | some x =>
        obtain ⟨t', p'⟩ := x
        cases h
        exact ⟨[], rs, rfl, nofun, ho⟩
      | none =>
        obtain ⟨a, b, rfl, h1, h2⟩ := parseIter_some.1 h
        refine ⟨r0 :: a, b, rfl, fun r' hr' => ?_, h2⟩
        rcases List.mem_cons.1 hr' with rfl | hr'
        · exact ho
        · exact h1 r' hr'
    · rintro ⟨a, b, h, h1, h2⟩
      rw [h, parseIter_append h1, parseIter, h2]
      rfl

/-- A split of a filtered list comes from a split of the list. -/
theorem filter_split {α : Type} {P : α → Bool} : ∀ {l a b : List α} {x : α},
    l.filter P = a ++ x :: b → ∃ c d, l = c ++ x :: d ∧ c.filter P = a ∧ d.filter P = b
  | [], a, b, x, h => by simp at h
  | y :: l, a, b, x, h => by
    by_cases hy : P y
    · rw [List.filter_cons_of_pos hy] at h
      cases a with
      | nil =>
        obtain ⟨rfl, rfl⟩ := List.cons.inj h
        exact ⟨[], l, rfl, rfl, rfl⟩
      | cons z a =>
        obtain ⟨rfl, h'⟩ := List.cons.inj h
        obtain ⟨c, d, rfl, rfl, rfl⟩ := filter_split h'
        exact ⟨y :: c, d, rfl, by rw [List.filter_cons_of_pos hy], rfl⟩
    · rw [List.filter_cons_of_neg hy] at h
      obtain ⟨c, d, rfl, rfl, rfl⟩ := filter_split h
      exact ⟨y :: c, d, rfl, by rw [List.filter_cons_of_neg hy], rfl⟩

theorem chosen_of_parseIter {g : Grammar} {role : Role} {row : Row} {pos f : Nat} {t : SNode}
    {r : Rule} {p : Nat}
    (h : parseIter (pratt g f) g row pos (g.ofRole role) = .ok (some (t, r, p))) :
    Chosen g role row pos t r p := by
  obtain ⟨a, b, hs, h1, h2⟩ := parseIter_some.1 h
  rw [ofRole_eq] at hs
  have hs' := congrArg List.reverse hs
  simp only [List.reverse_reverse, List.reverse_append, List.reverse_cons, List.append_assoc,
    List.cons_append, List.nil_append] at hs'
  obtain ⟨c, d, hcd, hc, hd⟩ := filter_split hs'
  have hr : r ∈ g.modules.flatten.filter fun r => r.role == some role := by
    rw [hs']; simp
  refine ⟨c, d, hcd, by simpa using (List.mem_filter.1 hr).2, ⟨f, h2⟩, fun r' hr' hrole => ⟨f, h1 r' ?_⟩⟩
  have : r' ∈ d.filter fun r => r.role == some role := List.mem_filter.2 ⟨hr', by simpa using hrole⟩
  rw [hd] at this
  exact List.mem_reverse.1 this

theorem noneOf_of_parseIter {g : Grammar} {role : Role} {row : Row} {pos f : Nat}
    (h : parseIter (pratt g f) g row pos (g.ofRole role) = .ok none) : NoneOf g role row pos :=
  fun r hr hrole => ⟨f, parseIter_none.1 h r (mem_ofRole.2 ⟨hr, hrole⟩)⟩

theorem ruleParse_unique {g : Grammar} {r : Rule} {row : Row} {pos f f' : Nat}
    {o o' : Option (SNode × Nat)} (h : ruleParse (pratt g f) g r row pos = .ok o)
    (h' : ruleParse (pratt g f') g r row pos = .ok o') : o = o' := by
  have h1 := ruleParse_mono (pratt_mono g (Nat.le_add_right f f')) g r row pos o h
  have h2 := ruleParse_mono (pratt_mono g (Nat.le_add_left f' f)) g r row pos o' h'
  rw [h1] at h2
  cases h2
  rfl

/-- Enough depth for everything from `pos` on. -/
structure Deep (g : Grammar) (row : Row) (pos F : Nat) : Prop where
  good : g.Good
  wf : rowWf row = true
  le : pos ≤ row.length
  weight : restWeight row pos ≤ F

theorem Deep.later {g : Grammar} {row : Row} {pos p F : Nat} (h : Deep g row pos F) (hp : pos ≤ p)
    (hle : p ≤ row.length) : Deep g row p F :=
  ⟨h.good, h.wf, hle, Nat.le_trans (restWeight_le row hp) h.weight⟩

theorem ruleParse_at {g : Grammar} {row : Row} {pos F f : Nat} (hd : Deep g row pos F) {r : Rule}
    {role : Role} (hr : r ∈ g.ofRole role) {o : Option (SNode × Nat)}
    (h : ruleParse (pratt g f) g r row pos = .ok o) : ruleParse (pratt g F) g r row pos = .ok o := by
  obtain ⟨o', h', -, -⟩ := ruleParse_ok (pratt_ok hd.good F) g (hd.good.ofRole role r hr) hd.wf hd.le
    hd.weight
  rw [h', ruleParse_unique h' h]

theorem NoneOf.at {g : Grammar} {role : Role} {row : Row} {pos F : Nat} (h : NoneOf g role row pos)
    (hd : Deep g row pos F) : parseIter (pratt g F) g row pos (g.ofRole role) = .ok none := by
  refine parseIter_none.2 fun r hr => ?_
  obtain ⟨h1, h2⟩ := mem_ofRole.1 hr
  obtain ⟨f, hf⟩ := h r h1 h2
  exact ruleParse_at hd hr hf

theorem Chosen.at {g : Grammar} {role : Role} {row : Row} {pos F : Nat} {t : SNode} {r : Rule}
    {p : Nat} (h : Chosen g role row pos t r p) (hd : Deep g row pos F) :
    parseIter (pratt g F) g row pos (g.ofRole role) = .ok (some (t, r, p)) := by
  obtain ⟨before, after, hs, hrole, ⟨f, hf⟩, hfail⟩ := h
  have hr : r ∈ g.ofRole role := mem_ofRole.2 ⟨by rw [hs]; simp, hrole⟩
  refine parseIter_some.2 ⟨(after.filter fun r => r.role == some role).reverse,
    (before.filter fun r => r.role == some role).reverse, ?_, ?_, ruleParse_at hd hr hf⟩
  · rw [ofRole_eq, hs, List.filter_append, List.filter_cons_of_pos (by simpa using hrole)]
    simp
  · intro r' hr'
    obtain ⟨h1, h2⟩ := List.mem_filter.1 (List.mem_reverse.1 hr')
    have h2 : r'.role = some role := by simpa using h2
    obtain ⟨f', hf'⟩ := hfail r' h1 h2
    exact ruleParse_at hd (mem_ofRole.2 ⟨by rw [hs]; simp [h1], h2⟩) hf'

theorem Chosen.fills {g : Grammar} {role : Role} {row : Row} {pos F : Nat} {t : SNode} {r : Rule}
    {p : Nat} (h : Chosen g role row pos t r p) (hd : Deep g row pos F) :
    FillsAt (ParsesTo g) row pos p t ∧ pos < p := by
  obtain ⟨o, ho, hk, -⟩ := parseIter_ok (pratt_ok hd.good F) g hd.wf hd.le hd.weight
    (hd.good.ofRole role)
  rw [h.at hd] at ho
  cases ho
  obtain ⟨h1, h2, -⟩ := hk t r p rfl
  exact ⟨h1, h2⟩

/-! ## Strengths -/

theorem Power.lt_false {a b : Power} : a.lt b = false ↔
    ¬ a.1 < b.1 ∧ ¬ (a.1 = b.1 ∧ a.2 = .weak ∧ b.2 = .strong) := by
  unfold Power.lt
  simp only [Bool.or_eq_false_iff, decide_eq_false_iff_not, Bool.and_eq_false_iff, not_and]
  cases a.2 <;> cases b.2 <;> simp

/-- The comparison in the pratt parser. -/
theorem takes_iff {o o' : Rule} (h : o.role = some .prefix ∨ o.role = some .infix)
    (h' : o'.role = some .infix ∨ o'.role = some .postfix) :
    Takes o o' ↔ o'.kind.strengthLeft.lt o.kind.strengthRight = false := by
  unfold Takes Rule.power
  cases hk : o.kind <;> simp [Rule.role, hk] at h <;>
  cases hk' : o'.kind <;> simp [Rule.role, hk'] at h' <;>
  simp [RuleKind.strengthLeft, RuleKind.strengthRight, Strength.invert, Power.lt_false] <;> omega

/-! ## Building nodes -/

theorem new_eq {name lo hi : Nat} {cs : List SNode} {t : SNode}
    (h : SNode.new name lo hi (.children cs) = .ok t) : t = .children name lo hi cs := by
  unfold SNode.new at h
  obtain ⟨o, -, h⟩ := M.bind_eq_ok.1 h
  cases o with
  | none =>
    simp only [M.ok_bind] at h
    cases h
    rfl
  | some x =>
    obtain ⟨a, b⟩ := x
    simp only at h
    obtain ⟨-, -, h⟩ := M.bind_eq_ok.1 h
    cases h
    rfl

theorem buildPrefix_eq {Q : Row → SNode → Prop} {row : Row} {a b c : Nat} {o r : SNode}
    (name : Nat) (ho : FillsAt Q row a b o) (hr : FillsAt Q row b c r) :
    buildPrefix name o r = .ok (.children name o.lo r.hi [o, r]) ∧
      FillsAt Q row a c (.children name o.lo r.hi [o, r]) := by
  obtain ⟨t, ht, hf⟩ := buildPrefix_ok name ho hr
  have h := ht
  unfold buildPrefix at h
  simp only [combineRanges_two ho hr] at h
  have := new_eq h
  rw [← ho.lo_eq, ← hr.hi_eq] at this
  rw [← this]
  exact ⟨ht, hf⟩

theorem buildPostfix_eq {Q : Row → SNode → Prop} {row : Row} {a b c : Nat} {l o : SNode}
    (name : Nat) (hl : FillsAt Q row a b l) (ho : FillsAt Q row b c o) :
    buildPostfix name o l = .ok (.children name l.lo o.hi [l, o]) ∧
      FillsAt Q row a c (.children name l.lo o.hi [l, o]) := by
  obtain ⟨t, ht, hf⟩ := buildPostfix_ok name hl ho
  have h := ht
  unfold buildPostfix at h
  simp only [combineRanges_two hl ho] at h
  have := new_eq h
  rw [← hl.lo_eq, ← ho.hi_eq] at this
  rw [← this]
  exact ⟨ht, hf⟩

theorem buildInfix_eq {Q : Row → SNode → Prop} {row : Row} {a b c d : Nat} {l o r : SNode}
    (name : Nat) (hl : FillsAt Q row a b l) (ho : FillsAt Q row b c o) (hr : FillsAt Q row c d r) :
    buildInfix name o l r = .ok (.children name l.lo r.hi [l, o, r]) ∧
      FillsAt Q row a d (.children name l.lo r.hi [l, o, r]) := by
  obtain ⟨t, ht, hf⟩ := buildInfix_ok name hl ho hr
  have h := ht
  unfold buildInfix at h
  have h1 := hl.le
  have h2 := ho.le
  have h3 := hr.le
  simp only [combineRanges_two ho hr] at h
  have e : combineRanges l.range (b, d) = (a, d) := by
    simp only [combineRanges, SNode.range, hl.lo_eq, hl.hi_eq, Prod.mk.injEq]
    omega
  simp only [e] at h
  have := new_eq h
  rw [← hl.lo_eq, ← hr.hi_eq] at this
  rw [← this]
  exact ⟨ht, hf⟩

/-! ## The parser follows the tokens -/

/-- The roles of the operators of a token list fit their constructors. -/
def Tok.opRole : Tok → Option Rule
  | .inf r _ => some r
  | .post r _ => some r
  | _ => none

/-- What the parser has done with the tokens `toks` starting from the left operand (if any) that is
part of `T` already. -/
structure Outcome (g : Grammar) (row : Row) (e : Ending) (min : Power) (p0 : Nat)
    (toks : List Tok) (q : Nat) (res : PResult) (p : Nat) (T : PTree) (rest : List Tok) : Prop where
  node : res.node = T.node
  tokens : T.tokens ++ rest = toks
  nested : T.Nested
  left : ∀ o ∈ T.leftOps, o.kind.strengthLeft.lt min = false
  fills : FillsAt (ParsesTo g) row p0 p T.node
  stop : rest = [] → res = .stop T.node ∧ p = q
  more : ∀ tk ts, rest = tk :: ts → res = .expression T.node ∧ Reads g row e .operator p rest q ∧
    ∃ o, tk.opRole = some o ∧ o.kind.strengthLeft.lt min = true ∧ ∀ o' ∈ T.rightOps, ¬ Takes o' o

/-- The operators on the right edge do not take in the next token. -/
def Refuses (T : PTree) (toks : List Tok) : Prop :=
  ∀ tk ts, toks = tk :: ts → ∃ o, tk.opRole = some o ∧ ∀ o' ∈ T.rightOps, ¬ Takes o' o

theorem reads_closing_stop {row : Row} {e : Ending} {pos : Nat} {s : Str}
    (he : e = .sym s) (hs : row[pos]? = some (.symbol s)) : isAtEnd row pos e = true := by
  subst he
  simp [isAtEnd, selectSym, hs]

theorem Chosen.role {g : Grammar} {role : Role} {row : Row} {pos : Nat} {t : SNode} {r : Rule}
    {p : Nat} (h : Chosen g role row pos t r p) : r.role = some role := by
  obtain ⟨_, _, _, h, _⟩ := h
  exact h

/-- Every token has a rule of the right role. -/
def RolesOk (toks : List Tok) : Prop := ∀ tk ∈ toks, tk.rule.role = some (match tk with
  | .operand _ _ => .atom
  | .pre _ _ => .prefix
  | .inf _ _ => .infix
  | .post _ _ => .postfix)

theorem reads_roles {g : Grammar} {row : Row} {e : Ending} {x : Expects} {pos q : Nat}
    {toks : List Tok} (h : Reads g row e x pos toks q) : RolesOk toks := by
  induction h with
  | endOfRow => nofun
  | closing _ _ _ => nofun
  | pre hc _ ih => exact List.forall_mem_cons.2 ⟨hc.role, ih⟩
  | inf hc _ ih => exact List.forall_mem_cons.2 ⟨hc.role, ih⟩
  | operand _ hc _ ih => exact List.forall_mem_cons.2 ⟨hc.role, ih⟩
  | post _ hc _ ih => exact List.forall_mem_cons.2 ⟨hc.role, ih⟩

theorem leftOps_role {T : PTree} {o : Rule} (h : o ∈ T.leftOps) {rest : List Tok}
    (hr : RolesOk (T.tokens ++ rest)) : o.role = some .infix ∨ o.role = some .postfix := by
  induction T generalizing rest with
  | operand => cases h
  | pre => cases h
  | inf r op x y ihx _ =>
    rw [PTree.tokens, List.append_assoc] at hr
    rcases List.mem_cons.1 h with rfl | h
    · exact .inl (hr (.inf o op) (by simp))
    · exact ihx h hr
  | post r op x ih =>
    rw [PTree.tokens, List.append_assoc] at hr
    rcases List.mem_cons.1 h with rfl | h
    · exact .inr (hr (.post o op) (by simp))
    · exact ih h hr

theorem opRole_role {tk : Tok} {ts : List Tok} {o : Rule} (h : tk.opRole = some o)
    (hr : RolesOk (tk :: ts)) : o.role = some .infix ∨ o.role = some .postfix := by
  have := hr tk (List.mem_cons_self ..)
  cases tk with
  | operand => cases h
  | pre => cases h
  | inf => cases h; exact .inl this
  | post => cases h; exact .inr this

theorem reads_operator {g : Grammar} {row : Row} {e : Ending} {pos q : Nat}
    {tk : Tok} {ts : List Tok} (h : Reads g row e .operator pos (tk :: ts) q) :
    ∃ o, tk.opRole = some o := by
  cases h
  · exact ⟨_, rfl⟩
  · exact ⟨_, rfl⟩

mutual
theorem loop_reads {g : Grammar} {row : Row} {e : Ending} {F : Nat} (min : Power) {p0 q : Nat} :
    ∀ (toks : List Tok) (n : Nat) {pos : Nat} {T : PTree}, Deep g row pos F →
    Reads g row e .operator pos toks q → FillsAt (ParsesTo g) row p0 pos T.node → T.Nested →
    (∀ o ∈ T.leftOps, o.kind.strengthLeft.lt min = false) → Refuses T toks →
    row.length < n + pos →
    ∃ res p T' rest, prattLoop (pratt g F) g row min e n T.node pos = .ok (res, p) ∧ pos ≤ p ∧
      rest.length ≤ toks.length ∧ Outcome g row e min p0 (T.tokens ++ toks) q res p T' rest
  | toks, 0, pos, T, hd, _, hf, _, _, _, hn => by have := hd.le; omega
  | [], n + 1, pos, T, hd, hr, hf, hnest, hleft, _, hn => by
    refine ⟨.stop T.node, pos, T, [], ?_, Nat.le_refl _, Nat.le_refl _,
      ⟨rfl, rfl, hnest, hleft, hf, fun _ => ⟨rfl, ?_⟩, nofun⟩⟩
    · unfold prattLoop
      cases hr with
      | endOfRow => simp [atInputEnd]
      | closing he hs hno =>
        have hlt := (List.getElem?_eq_some_iff.1 hs).1
        have hend : atInputEnd row q = false := by simp [atInputEnd]; omega
        have h1 := (hno .infix).at hd
        have h2 := (hno .postfix).at hd
        have h3 := (hno .prefix).at hd
        have h4 := (hno .atom).at hd
        simp only [Grammar.ofRole] at h1 h2 h3 h4
        simp only [hend, Bool.false_eq_true, if_false, h1, h2, M.ok_bind, canParseEither,
          canParse_of h3, canParse_of h4, Option.isSome_none, reads_closing_stop he hs, if_true]
    · cases hr <;> rfl
  | tk :: ts, n + 1, pos, T, hd, hr, hf, hnest, hleft, href, hn => by
    obtain ⟨o, hop, hre⟩ := href tk ts rfl
    cases hr with
    | @inf _ p1 _ op r _ hc hr' =>
      obtain ⟨hof, hlt⟩ := hc.fills hd
      have hend : atInputEnd row pos = false := by
        have := hof.le.2; simp [atInputEnd]; omega
      have h1 := hc.at hd
      simp only [Grammar.ofRole] at h1
      have ho : o = r := by simpa [Tok.opRole] using hop.symm
      subst ho
      unfold prattLoop
      simp only [hend, Bool.false_eq_true, if_false, h1, M.ok_bind]
      cases hls : o.kind.strengthLeft.lt min with
      | true =>
        refine ⟨.expression T.node, pos, T, .inf o op :: ts, rfl, Nat.le_refl _, Nat.le_refl _,
          ⟨rfl, rfl, hnest, hleft, hf, nofun, ?_⟩⟩
        rintro _ _ ⟨⟩
        exact ⟨rfl, .inf hc hr', o, rfl, hls, hre⟩
      | false =>
        simp only [Bool.false_eq_true, if_false]
        have hd1 := hd.later (Nat.le_of_lt hlt) hof.le.2
        have hw := restWeight_lt row hlt hof.le.2
        obtain ⟨F', rfl⟩ : ∃ F', F = F' + 1 := ⟨F - 1, by have := hd.weight; omega⟩
        have hd1' : Deep g row p1 F' := ⟨hd.good, hd.wf, hof.le.2, by have := hd.weight; omega⟩
        obtain ⟨res, p2, T1, rest, hcall, hle, hlen, hout⟩ :=
          operand_reads o.kind.strengthRight ts hd1' hr'
        have hb := buildInfix_eq o.name hf hof hout.fills
        have hnode : (PTree.inf o op T T1).node =
          .children o.name T.node.lo T1.node.hi [T.node, op, T1.node] := rfl
        rw [← hnode] at hb
        simp only [hcall, M.ok_bind, hout.node, hb.1]
        have hnest' : (PTree.inf o op T T1).Nested := by
          refine ⟨hnest, hout.nested, fun o' ho' => ?_, hre⟩
          exact (takes_iff (.inr hc.role) (leftOps_role ho' (rest := rest)
            (by rw [hout.tokens]; exact reads_roles hr'))).2
            (hout.left o' ho')
        have hleft' : ∀ o' ∈ (PTree.inf o op T T1).leftOps, o'.kind.strengthLeft.lt min = false := by
          intro o' ho'
          rcases List.mem_cons.1 ho' with rfl | ho'
          · exact hls
          · exact hleft o' ho'
        have htok : (PTree.inf o op T T1).tokens ++ rest = T.tokens ++ .inf o op :: ts := by
          rw [PTree.tokens, ← hout.tokens]; simp
        cases rest with
        | nil =>
          obtain ⟨rfl, rfl⟩ := hout.stop rfl
          exact ⟨_, _, _, [], rfl, by omega, Nat.zero_le _,
            ⟨rfl, htok, hnest', hleft', hb.2, fun _ => ⟨rfl, rfl⟩, nofun⟩⟩
        | cons tk' ts' =>
          obtain ⟨rfl, hr2, o2, hop2, hlt2, hre2⟩ := hout.more tk' ts' rfl
          simp only
          have hd2 := hd.later (by omega : pos ≤ p2) hout.fills.le.2
          have hlen' : (tk' :: ts').length < ts.length := hlen
          obtain ⟨res', p3, T', rest', hloop, hle3, hlen3, hout3⟩ :=
            loop_reads min (tk' :: ts') n hd2 hr2 hb.2 hnest' hleft' (by
              rintro _ _ ⟨⟩
              refine ⟨o2, hop2, fun o' ho' => ?_⟩
              rcases List.mem_cons.1 ho' with rfl | ho'
              · intro hta
                have := (takes_iff (.inr hc.role) (opRole_role hop2 (reads_roles hr2))).1 hta
                rw [hlt2] at this
                cases this
              · exact hre2 o' ho') (by omega)
          rw [htok] at hout3
          exact ⟨res', p3, T', rest', hloop, by omega,
            by simp only [List.length_cons] at *; omega, hout3⟩
    | @post _ p1 _ op r _ hno hc hr' =>
      obtain ⟨hof, hlt⟩ := hc.fills hd
      have hend : atInputEnd row pos = false := by
        have := hof.le.2; simp [atInputEnd]; omega
      have h1 := hno.at hd
      have h2 := hc.at hd
      simp only [Grammar.ofRole] at h1 h2
      have ho : o = r := by simpa [Tok.opRole] using hop.symm
      subst ho
      unfold prattLoop
      simp only [hend, Bool.false_eq_true, if_false, h1, h2, M.ok_bind]
      cases hls : o.kind.strengthLeft.lt min with
      | true =>
        refine ⟨.expression T.node, pos, T, .post o op :: ts, rfl, Nat.le_refl _, Nat.le_refl _,
          ⟨rfl, rfl, hnest, hleft, hf, nofun, ?_⟩⟩
        rintro _ _ ⟨⟩
        exact ⟨rfl, .post hno hc hr', o, rfl, hls, hre⟩
      | false =>
        simp only [Bool.false_eq_true, if_false]
        have hd1 := hd.later (Nat.le_of_lt hlt) hof.le.2
        have hb := buildPostfix_eq o.name hf hof
        have hnode : (PTree.post o op T).node =
          .children o.name T.node.lo op.hi [T.node, op] := rfl
        rw [← hnode] at hb
        simp only [M.ok_bind, hb.1]
        have hnest' : (PTree.post o op T).Nested := ⟨hnest, hre⟩
        have hleft' : ∀ o' ∈ (PTree.post o op T).leftOps, o'.kind.strengthLeft.lt min = false := by
          intro o' ho'
          rcases List.mem_cons.1 ho' with rfl | ho'
          · exact hls
          · exact hleft o' ho'
        obtain ⟨res', p3, T', rest', hloop, hle3, hlen3, hout3⟩ :=
          loop_reads min ts n hd1 hr' hb.2 hnest' hleft' (by
            intro tk' ts' hts
            subst hts
            obtain ⟨o2, ho2⟩ := reads_operator hr'
            exact ⟨o2, ho2, nofun⟩) (by omega)
        have htok : (PTree.post o op T).tokens ++ ts = T.tokens ++ .post o op :: ts := by
          simp [PTree.tokens]
        rw [htok] at hout3
        exact ⟨res', p3, T', rest', hloop, by omega,
          by simp only [List.length_cons] at *; omega, hout3⟩
termination_by toks n => (toks.length, 0, n)
decreasing_by
  all_goals
    simp_wf
    first
    | exact Prod.Lex.left _ _ (by simp only [List.length_cons] at *; omega)
theorem operand_reads {g : Grammar} {row : Row} {e : Ending} {F q : Nat} (min : Power) :
    ∀ (toks : List Tok) {pos : Nat}, Deep g row pos F → Reads g row e .operand pos toks q →
    ∃ res p T rest, pratt g (F + 1) row pos min e = .ok (res, p) ∧ pos < p ∧
      rest.length < toks.length ∧ Outcome g row e min pos toks q res p T rest
  | [], pos, hd, hr => by cases hr
  | tk :: ts, pos, hd, hr => by
    rw [pratt]
    unfold prattBody prattStart
    cases hr with
    | @pre _ p1 _ op r _ hc hr' =>
      obtain ⟨hof, hlt⟩ := hc.fills hd
      have hend : atInputEnd row pos = false := by
        have := hof.le.2; simp [atInputEnd]; omega
      have h1 := hc.at hd
      simp only [Grammar.ofRole] at h1
      simp only [hend, Bool.false_eq_true, if_false, h1, M.ok_bind]
      have hw := restWeight_lt row hlt hof.le.2
      obtain ⟨F', rfl⟩ : ∃ F', F = F' + 1 := ⟨F - 1, by have := hd.weight; omega⟩
      have hd1' : Deep g row p1 F' := ⟨hd.good, hd.wf, hof.le.2, by have := hd.weight; omega⟩
      obtain ⟨res, p2, T1, rest, hcall, hle, hlen, hout⟩ :=
        operand_reads r.kind.strengthRight ts hd1' hr'
      have hb := buildPrefix_eq r.name hof hout.fills
      have hnode : (PTree.pre r op T1).node =
        .children r.name op.lo T1.node.hi [op, T1.node] := rfl
      rw [← hnode] at hb
      simp only [hcall, M.ok_bind, hout.node, hb.1]
      have hnest' : (PTree.pre r op T1).Nested := by
        refine ⟨hout.nested, fun o' ho' => ?_⟩
        exact (takes_iff (.inl hc.role) (leftOps_role ho' (rest := rest)
            (by rw [hout.tokens]; exact reads_roles hr'))).2
          (hout.left o' ho')
      have htok : (PTree.pre r op T1).tokens ++ rest = .pre r op :: ts := by
        rw [PTree.tokens, ← hout.tokens]; simp
      cases rest with
      | nil =>
        obtain ⟨rfl, rfl⟩ := hout.stop rfl
        exact ⟨_, _, _, [], rfl, by omega, Nat.succ_pos _,
          ⟨rfl, htok, hnest', nofun, hb.2, fun _ => ⟨rfl, rfl⟩, nofun⟩⟩
      | cons tk' ts' =>
        obtain ⟨rfl, hr2, o2, hop2, hlt2, hre2⟩ := hout.more tk' ts' rfl
        have hd2 := hd.later (by omega : pos ≤ p2) hout.fills.le.2
        have hlen' : (tk' :: ts').length < ts.length := hlen
        obtain ⟨res', p3, T', rest', hloop, hle3, hlen3, hout3⟩ :=
          loop_reads min (tk' :: ts') (row.length + 1) hd2 hr2 hb.2 hnest' nofun (by
            rintro _ _ ⟨⟩
            refine ⟨o2, hop2, fun o' ho' => ?_⟩
            rcases List.mem_cons.1 ho' with rfl | ho'
            · intro hta
              have := (takes_iff (.inl hc.role) (opRole_role hop2 (reads_roles hr2))).1 hta
              rw [hlt2] at this
              cases this
            · exact hre2 o' ho') (by omega)
        rw [htok] at hout3
        exact ⟨res', p3, T', rest', hloop, by omega,
          by simp only [List.length_cons] at *; omega, hout3⟩
    | @operand _ p1 _ t r _ hno hc hr' =>
      obtain ⟨hof, hlt⟩ := hc.fills hd
      have hend : atInputEnd row pos = false := by
        have := hof.le.2; simp [atInputEnd]; omega
      have h1 := hno.at hd
      have h2 := hc.at hd
      simp only [Grammar.ofRole] at h1 h2
      simp only [hend, Bool.false_eq_true, if_false, h1, h2, M.ok_bind]
      have hd1 := hd.later (Nat.le_of_lt hlt) hof.le.2
      obtain ⟨res', p3, T', rest', hloop, hle3, hlen3, hout3⟩ :=
        loop_reads min ts (row.length + 1) (T := .operand r t) hd1 hr' hof trivial nofun (by
          intro tk' ts' hts
          subst hts
          obtain ⟨o2, ho2⟩ := reads_operator hr'
          exact ⟨o2, ho2, nofun⟩) (by omega)
      exact ⟨res', p3, T', rest', hloop, by omega,
        by simp only [List.length_cons] at *; omega, hout3⟩
termination_by toks => (toks.length, 1, 0)
decreasing_by
  all_goals
    simp_wf
    first
    | exact Prod.Lex.left _ _ (by simp only [List.length_cons] at *; omega)
end

end Aftermath
