import Verif.Proof.AnyRow

/-! # The parser follows the tokens of any row -/

namespace Aftermath

/-! ## Strengths -/

/-- The loop of the pratt parser stops in front of this. -/
def EOp.stops (min : Power) : EOp → Bool
  | .rule r => r.kind.strengthLeft.lt min
  | .gap => missingOperatorKind.strengthLeft.lt min
  | .junk => false

/-- The strength with which the right operand is parsed. -/
def EOp.right : EOp → Power
  | .rule r => r.kind.strengthRight
  | .gap => missingOperatorKind.strengthRight
  | .junk => (0, .weak)

/-- It has a right operand. -/
def EOp.OpensRight : EOp → Prop
  | .rule r => r.role = some .prefix ∨ r.role = some .infix
  | .gap => True
  | .junk => False

/-- It has a left operand. -/
def EOp.OpensLeft : EOp → Prop
  | .rule r => r.role = some .infix ∨ r.role = some .postfix
  | .gap => True
  | .junk => True

theorem etakes_iff {o o' : EOp} (h : o.OpensRight) (h' : o'.OpensLeft) :
    o.Takes o' ↔ o'.stops o.right = false := by
  cases o' with
  | junk => cases o <;> simp [EOp.Takes, EOp.stops]
  | rule r' =>
    cases o with
    | junk => exact absurd h id
    | rule r => exact takes_iff h h'
    | gap =>
      simp only [EOp.OpensLeft] at h'
      simp only [EOp.Takes, EOp.stops, EOp.right, Rule.power]
      cases hk' : r'.kind <;> simp [Rule.role, hk'] at h' <;>
      simp [missingOperatorKind, RuleKind.strengthLeft, RuleKind.strengthRight, Strength.invert,
        Power.lt_false] <;> omega
  | gap =>
    cases o with
    | junk => exact absurd h id
    | gap => simp [EOp.Takes, EOp.stops, EOp.right, missingOperatorKind, RuleKind.strengthLeft,
        RuleKind.strengthRight, Strength.invert, Power.lt]
    | rule r =>
      simp only [EOp.OpensRight] at h
      simp only [EOp.Takes, EOp.stops, EOp.right, Rule.power]
      cases hk : r.kind <;> simp [Rule.role, hk] at h <;>
      simp [missingOperatorKind, RuleKind.strengthLeft, RuleKind.strengthRight, Strength.invert,
        Power.lt_false] <;> omega

/-! ## Uniqueness of trees -/

/-- The operator of a token that comes after an operand. -/
def ETok.op : ETok → Option EOp
  | .inf r _ => some (.rule r)
  | .post r _ => some (.rule r)
  | .gap => some .gap
  | .junk _ => some .junk
  | _ => none

/-- May the operator be part of the right operand (if there is one)? -/
def eallowed : Option EOp → EOp → Prop
  | none, _ => True
  | some o, o' => o.Takes o'

/-- Building a tree from tokens; the first argument is the left operand so far. -/
inductive EBuilds : Option ETree → Option EOp → List ETok → ETree → List ETok → Prop
  | operand {min t ts T rest} : EBuilds (some (.operand t)) min ts T rest →
      EBuilds none min (.operand t :: ts) T rest
  | pre {min r op ts x ts' T rest} : EBuilds none (some (.rule r)) ts x ts' →
      EBuilds (some (.pre r op x)) min ts' T rest → EBuilds none min (.pre r op :: ts) T rest
  | inf {l min r op ts y ts' T rest} : eallowed min (.rule r) →
      EBuilds none (some (.rule r)) ts y ts' →
      EBuilds (some (.inf r op l y)) min ts' T rest → EBuilds (some l) min (.inf r op :: ts) T rest
  | post {l min r op ts T rest} : eallowed min (.rule r) →
      EBuilds (some (.post r op l)) min ts T rest →
      EBuilds (some l) min (.post r op :: ts) T rest
  | gap {l min ts y ts' T rest} : eallowed min .gap → EBuilds none (some .gap) ts y ts' →
      EBuilds (some (.gap l y)) min ts' T rest → EBuilds (some l) min (.gap :: ts) T rest
  | junk {l min t ts T rest} : eallowed min .junk → EBuilds (some (.junk l t)) min ts T rest →
      EBuilds (some l) min (.junk t :: ts) T rest
  | nil {l min} : EBuilds (some l) min [] l []
  | stop {l min tk o ts} : tk.op = some o → ¬ eallowed min o →
      EBuilds (some l) min (tk :: ts) l (tk :: ts)

theorem EBuilds.unique {l : Option ETree} {min : Option EOp} {ts : List ETok} {T T' : ETree}
    {rest rest' : List ETok} (h : EBuilds l min ts T rest) (h' : EBuilds l min ts T' rest') :
    T = T' ∧ rest = rest' := by
  induction h generalizing T' rest' with
  | operand _ ih => cases h' with | operand h => exact ih h
  | pre _ _ ih1 ih2 =>
    cases h' with
    | pre h1 h2 =>
      obtain ⟨rfl, rfl⟩ := ih1 h1
      exact ih2 h2
  | inf ha _ _ ih1 ih2 =>
    cases h' with
    | inf _ h1 h2 =>
      obtain ⟨rfl, rfl⟩ := ih1 h1
      exact ih2 h2
    | stop ho hn => cases ho; exact absurd ha hn
  | post ha _ ih =>
    cases h' with
    | post _ h => exact ih h
    | stop ho hn => cases ho; exact absurd ha hn
  | gap ha _ _ ih1 ih2 =>
    cases h' with
    | gap _ h1 h2 =>
      obtain ⟨rfl, rfl⟩ := ih1 h1
      exact ih2 h2
    | stop ho hn => cases ho; exact absurd ha hn
  | junk ha _ ih =>
    cases h' with
    | junk _ h => exact ih h
    | stop ho hn => cases ho; exact absurd ha hn
  | nil => cases h' with | nil => exact ⟨rfl, rfl⟩
  | stop ho hn =>
    cases h' with
    | stop _ _ => exact ⟨rfl, rfl⟩
    | inf ha => cases ho; exact absurd ha hn
    | post ha => cases ho; exact absurd ha hn
    | gap ha => cases ho; exact absurd ha hn
    | junk ha => cases ho; exact absurd ha hn

/-- The rest is empty or starts with something that none of these takes in. -/
def EStops (os : List EOp) (rest : List ETok) : Prop :=
  ∀ tk ts, rest = tk :: ts → ∃ o, tk.op = some o ∧ ∀ o' ∈ os, ¬ o'.Takes o

theorem EBuilds.stops {T : ETree} {o : EOp} {rest : List ETok} (h : EStops [o] rest) :
    EBuilds (some T) (some o) rest T rest := by
  cases rest with
  | nil => exact .nil
  | cons tk ts =>
    obtain ⟨o', h1, h2⟩ := h tk ts rfl
    exact .stop h1 (h2 o (List.mem_singleton.2 rfl))

theorem EStops.mono {os os' : List EOp} (hs : ∀ o ∈ os', o ∈ os) {rest : List ETok}
    (h : EStops os rest) : EStops os' rest := by
  intro tk ts he
  obtain ⟨o, h1, h2⟩ := h tk ts he
  exact ⟨o, h1, fun o' ho' => h2 o' (hs o' ho')⟩

theorem EStops.head {o : EOp} {os : List EOp} {rest : List ETok} (h : EStops (o :: os) rest) :
    EStops [o] rest :=
  h.mono fun o' ho' => by rw [List.mem_singleton.1 ho']; exact List.mem_cons_self ..

theorem EStops.tail {o : EOp} {os : List EOp} {rest : List ETok} (h : EStops (o :: os) rest) :
    EStops os rest :=
  h.mono fun _ ho' => List.mem_cons_of_mem _ ho'

theorem EStops.cons {os : List EOp} {tk : ETok} {o : EOp} {ts : List ETok} (ho : tk.op = some o)
    (h : ∀ o' ∈ os, ¬ o'.Takes o) : EStops os (tk :: ts) := by
  rintro _ _ ⟨⟩
  exact ⟨o, ho, h⟩

/-- A correctly nested tree is built from its tokens. -/
theorem ebuilds_tokens : ∀ (T : ETree) {min : Option EOp} {rest rest' : List ETok} {U : ETree},
    T.Nested → (∀ o ∈ T.leftOps, eallowed min o) → EStops T.rightOps rest →
    EBuilds (some T) min rest U rest' → EBuilds none min (T.tokens ++ rest) U rest'
  | .operand t, min, rest, rest', U, _, _, _, h => .operand h
  | .pre r op x, min, rest, rest', U, hn, hl, hs, h =>
    .pre (ebuilds_tokens x hn.1 hn.2 hs.tail (.stops hs.head)) h
  | .inf r op x y, min, rest, rest', U, hn, hl, hs, h => by
    rw [ETree.tokens, List.append_assoc]
    refine ebuilds_tokens x hn.1 (fun o ho => hl o (List.mem_cons_of_mem _ ho))
      (.cons rfl hn.2.2.2) ?_
    exact .inf (hl _ (List.mem_cons_self ..))
      (ebuilds_tokens y hn.2.1 hn.2.2.1 hs.tail (.stops hs.head)) h
  | .post r op x, min, rest, rest', U, hn, hl, hs, h => by
    rw [ETree.tokens, List.append_assoc]
    exact ebuilds_tokens x hn.1 (fun o ho => hl o (List.mem_cons_of_mem _ ho)) (.cons rfl hn.2)
      (.post (hl _ (List.mem_cons_self ..)) h)
  | .gap x y, min, rest, rest', U, hn, hl, hs, h => by
    rw [ETree.tokens, List.append_assoc]
    refine ebuilds_tokens x hn.1 (fun o ho => hl o (List.mem_cons_of_mem _ ho))
      (.cons rfl hn.2.2.2) ?_
    exact .gap (hl _ (List.mem_cons_self ..))
      (ebuilds_tokens y hn.2.1 hn.2.2.1 hs.tail (.stops hs.head)) h
  | .junk x t, min, rest, rest', U, hn, hl, hs, h => by
    rw [ETree.tokens, List.append_assoc]
    exact ebuilds_tokens x hn.1 (fun o ho => hl o (List.mem_cons_of_mem _ ho)) (.cons rfl hn.2)
      (.junk (hl _ (List.mem_cons_self ..)) h)

/-- There is at most one correctly nested tree over a list of tokens. -/
theorem enested_unique {T T' : ETree} (h : T.Nested) (h' : T'.Nested)
    (ht : T.tokens = T'.tokens) : T = T' := by
  have h1 := ebuilds_tokens T (min := none) (rest := []) h (fun _ _ => trivial) nofun .nil
  have h2 := ebuilds_tokens T' (min := none) (rest := []) h' (fun _ _ => trivial) nofun .nil
  rw [ht] at h1
  exact (h1.unique h2).1

/-! ## The parser -/

variable {g : Grammar} {row : Row} {e : Ending}

/-- Rules have the roles in which they are used. -/
def ETok.RoleOk : ETok → Prop
  | .pre r _ => r.role = some .prefix
  | .inf r _ => r.role = some .infix
  | .post r _ => r.role = some .postfix
  | _ => True

theorem ReadsAny.roles {x : Expects} {pos q : Nat} {toks : List ETok}
    (h : ReadsAny g row e x pos toks q) : ∀ tk ∈ toks, tk.RoleOk := by
  induction h with
  | pre hc _ ih => exact List.forall_mem_cons.2 ⟨hc.role, ih⟩
  | inf hc _ ih => exact List.forall_mem_cons.2 ⟨hc.role, ih⟩
  | post _ hc _ ih => exact List.forall_mem_cons.2 ⟨hc.role, ih⟩
  | operand _ _ _ ih => exact List.forall_mem_cons.2 ⟨trivial, ih⟩
  | missing _ _ _ _ ih => exact List.forall_mem_cons.2 ⟨trivial, ih⟩
  | missingEnd _ => exact List.forall_mem_cons.2 ⟨trivial, nofun⟩
  | unknown _ _ ih => exact List.forall_mem_cons.2 ⟨trivial, ih⟩
  | gap _ _ _ _ ih => exact List.forall_mem_cons.2 ⟨trivial, ih⟩
  | junk _ _ ih => exact List.forall_mem_cons.2 ⟨trivial, ih⟩
  | ends _ => nofun

theorem ETok.opensLeft {tk : ETok} {o : EOp} (h : tk.op = some o) (hr : tk.RoleOk) :
    o.OpensLeft := by
  cases tk with
  | operand => cases h
  | pre => cases h
  | inf => cases h; exact .inl hr
  | post => cases h; exact .inr hr
  | gap => cases h; trivial
  | junk => cases h; trivial

theorem eleftOps_opens {T : ETree} {o : EOp} (h : o ∈ T.leftOps) {rest : List ETok}
    (hr : ∀ tk ∈ T.tokens ++ rest, tk.RoleOk) : o.OpensLeft := by
  induction T generalizing rest with
  | operand => cases h
  | pre => cases h
  | inf r op x y ihx _ =>
    rw [ETree.tokens, List.append_assoc] at hr
    rcases List.mem_cons.1 h with rfl | h
    · exact .inl (hr (.inf r op) (by simp))
    · exact ihx h hr
  | post r op x ih =>
    rw [ETree.tokens, List.append_assoc] at hr
    rcases List.mem_cons.1 h with rfl | h
    · exact .inr (hr (.post r op) (by simp))
    · exact ih h hr
  | gap x y ihx _ =>
    rw [ETree.tokens, List.append_assoc] at hr
    rcases List.mem_cons.1 h with rfl | h
    · trivial
    · exact ihx h hr
  | junk x t ih =>
    rw [ETree.tokens, List.append_assoc] at hr
    rcases List.mem_cons.1 h with rfl | h
    · trivial
    · exact ih h hr

theorem ReadsAny.op {pos q : Nat} {tk : ETok} {ts : List ETok}
    (h : ReadsAny g row e .operator pos (tk :: ts) q) : ∃ o, tk.op = some o := by
  cases h <;> exact ⟨_, rfl⟩

/-- What the parser has done with the tokens `toks` starting from the left operand (if any) that is
part of `T` already. -/
structure EOutcome (g : Grammar) (row : Row) (e : Ending) (min : Power) (p0 : Nat)
    (toks : List ETok) (q : Nat) (res : PResult) (p : Nat) (T : ETree) (rest : List ETok) :
    Prop where
  node : res.node = T.node g
  tokens : T.tokens ++ rest = toks
  nested : T.Nested
  left : ∀ o ∈ T.leftOps, o.stops min = false
  fills : FillsAt (ParsesTo g) row p0 p (T.node g)
  stop : rest = [] → res = .stop (T.node g) ∧ p = q
  more : ∀ tk ts, rest = tk :: ts → res = .expression (T.node g) ∧
    ReadsAny g row e .operator p rest q ∧
    ∃ o, tk.op = some o ∧ o.stops min = true ∧ ∀ o' ∈ T.rightOps, ¬ o'.Takes o

/-- Nothing is missing in front of these tokens. -/
def Proceeds : List ETok → Prop
  | .inf _ _ :: _ => True
  | .post _ _ :: _ => True
  | _ => False

mutual
theorem loop_any {F : Nat} (min : Power) {p0 q : Nat} :
    ∀ (toks : List ETok) (n : Nat) {pos : Nat} {T : ETree}, Deep g row pos F →
    (restWeight row pos < F ∨ Proceeds toks ∨ toks = []) →
    ReadsAny g row e .operator pos toks q → FillsAt (ParsesTo g) row p0 pos (T.node g) →
    T.Nested → (∀ o ∈ T.leftOps, o.stops min = false) → EStops T.rightOps toks →
    row.length < n + pos →
    ∃ res p T' rest, prattLoop (pratt g F) g row min e n (T.node g) pos = .ok (res, p) ∧ pos ≤ p ∧
      rest.length ≤ toks.length ∧ EOutcome g row e min p0 (T.tokens ++ toks) q res p T' rest
  | toks, 0, pos, T, hd, _, _, hf, _, _, _, hn => by have := hd.le; omega
  | [], n + 1, pos, T, hd, _, hr, hf, hnest, hleft, _, hn => by
    refine ⟨.stop (T.node g), pos, T, [], ?_, Nat.le_refl _, Nat.le_refl _,
      ⟨rfl, rfl, hnest, hleft, hf, fun _ => ⟨rfl, ?_⟩, nofun⟩⟩
    · unfold prattLoop
      cases hr with
      | ends he =>
        cases hend : atInputEnd row q with
        | true => simp
        | false =>
          have hno := he.noneOf hd.good hd.wf
          have h1 := (hno .infix).at hd
          have h2 := (hno .postfix).at hd
          have h3 := (hno .prefix).at hd
          have h4 := (hno .atom).at hd
          simp only [Grammar.ofRole] at h1 h2 h3 h4
          simp only [Bool.false_eq_true, if_false, h1, h2, M.ok_bind, canParseEither,
            canParse_of h3, canParse_of h4, Option.isSome_none, he.isAtEnd, if_true]
    · cases hr; rfl
  | tk :: ts, n + 1, pos, T, hd, hpro, hr, hf, hnest, hleft, href, hn => by
    obtain ⟨o, hop, hre⟩ := href tk ts rfl
    cases hr with
    | @inf _ p1 _ op r _ hc hr' =>
      obtain ⟨hof, hlt⟩ := hc.fills hd
      have hend : atInputEnd row pos = false := by
        have := hof.le.2; simp [atInputEnd]; omega
      have h1 := hc.at hd
      simp only [Grammar.ofRole] at h1
      have ho : o = .rule r := by simpa [ETok.op] using hop.symm
      subst ho
      unfold prattLoop
      simp only [hend, Bool.false_eq_true, if_false, h1, M.ok_bind]
      cases hls : r.kind.strengthLeft.lt min with
      | true =>
        refine ⟨.expression (T.node g), pos, T, .inf r op :: ts, rfl, Nat.le_refl _, Nat.le_refl _,
          ⟨rfl, rfl, hnest, hleft, hf, nofun, ?_⟩⟩
        rintro _ _ ⟨⟩
        exact ⟨rfl, .inf hc hr', .rule r, rfl, hls, hre⟩
      | false =>
        simp only [Bool.false_eq_true, if_false]
        have hd1 := hd.later (Nat.le_of_lt hlt) hof.le.2
        have hw := restWeight_lt row hlt hof.le.2
        obtain ⟨F', rfl⟩ : ∃ F', F = F' + 1 := ⟨F - 1, by have := hd.weight; omega⟩
        have hd1' : Deep g row p1 F' := ⟨hd.good, hd.wf, hof.le.2, by have := hd.weight; omega⟩
        obtain ⟨res, p2, T1, rest, hcall, hle, -, hlen, hout⟩ :=
          operand_any r.kind.strengthRight ts hd1' hr'
        have hb := buildInfix_eq r.name hf hof hout.fills
        have hnode : (ETree.inf r op T T1).node g =
          .children r.name (T.node g).lo (T1.node g).hi [T.node g, op, T1.node g] := rfl
        rw [← hnode] at hb
        simp only [hcall, M.ok_bind, hout.node, hb.1]
        have hnest' : (ETree.inf r op T T1).Nested := by
          refine ⟨hnest, hout.nested, fun o' ho' => ?_, hre⟩
          exact (etakes_iff (o := .rule r) (.inr hc.role) (eleftOps_opens ho' (rest := rest)
            (by rw [hout.tokens]; exact hr'.roles))).2 (hout.left o' ho')
        have hleft' : ∀ o' ∈ (ETree.inf r op T T1).leftOps, o'.stops min = false := by
          intro o' ho'
          rcases List.mem_cons.1 ho' with rfl | ho'
          · exact hls
          · exact hleft o' ho'
        have htok : (ETree.inf r op T T1).tokens ++ rest = T.tokens ++ .inf r op :: ts := by
          rw [ETree.tokens, ← hout.tokens]; simp
        cases rest with
        | nil =>
          obtain ⟨rfl, rfl⟩ := hout.stop rfl
          exact ⟨_, _, _, [], rfl, by omega, Nat.zero_le _,
            ⟨rfl, htok, hnest', hleft', hb.2, fun _ => ⟨rfl, rfl⟩, nofun⟩⟩
        | cons tk' ts' =>
          obtain ⟨rfl, hr2, o2, hop2, hlt2, hre2⟩ := hout.more tk' ts' rfl
          simp only
          have hd2 := hd.later (by omega : pos ≤ p2) hout.fills.le.2
          have hw2 := restWeight_lt row (by omega : pos < p2) hout.fills.le.2
          have hlen' : (tk' :: ts').length < ts.length := hlen
          obtain ⟨res', p3, T', rest', hloop, hle3, hlen3, hout3⟩ :=
            loop_any min (tk' :: ts') n hd2 (.inl (by have := hd.weight; omega)) hr2 hb.2 hnest'
              hleft' (by
                rintro _ _ ⟨⟩
                refine ⟨o2, hop2, fun o' ho' => ?_⟩
                rcases List.mem_cons.1 ho' with rfl | ho'
                · intro hta
                  have := (etakes_iff (o := .rule r) (.inr hc.role) (ETok.opensLeft hop2
                    (hr2.roles _ (List.mem_cons_self ..)))).1 hta
                  rw [EOp.right, hlt2] at this
                  cases this
                · exact hre2 o' ho') (by omega)
          rw [htok] at hout3
          exact ⟨res', p3, T', rest', hloop, by omega,
            by simp only [List.length_cons] at *; omega, hout3⟩
    | @post _ p1 _ op r _ hno hc hr' =>
      obtain ⟨hof, hlt⟩ := hc.fills hd
      have hend : atInputEnd row pos = false := by
        have := hof.le.2; simp [atInputEnd]; omega
      have h1 := hno.at hd
      have h2 := hc.at hd
      simp only [Grammar.ofRole] at h1 h2
      have ho : o = .rule r := by simpa [ETok.op] using hop.symm
      subst ho
      unfold prattLoop
      simp only [hend, Bool.false_eq_true, if_false, h1, h2, M.ok_bind]
      cases hls : r.kind.strengthLeft.lt min with
      | true =>
        refine ⟨.expression (T.node g), pos, T, .post r op :: ts, rfl, Nat.le_refl _, Nat.le_refl _,
          ⟨rfl, rfl, hnest, hleft, hf, nofun, ?_⟩⟩
        rintro _ _ ⟨⟩
        exact ⟨rfl, .post hno hc hr', .rule r, rfl, hls, hre⟩
      | false =>
        simp only [Bool.false_eq_true, if_false]
        have hd1 := hd.later (Nat.le_of_lt hlt) hof.le.2
        have hw := restWeight_lt row hlt hof.le.2
        have hb := buildPostfix_eq r.name hf hof
        have hnode : (ETree.post r op T).node g =
          .children r.name (T.node g).lo op.hi [T.node g, op] := rfl
        rw [← hnode] at hb
        simp only [M.ok_bind, hb.1]
        have hnest' : (ETree.post r op T).Nested := ⟨hnest, hre⟩
        have hleft' : ∀ o' ∈ (ETree.post r op T).leftOps, o'.stops min = false := by
          intro o' ho'
          rcases List.mem_cons.1 ho' with rfl | ho'
          · exact hls
          · exact hleft o' ho'
        obtain ⟨res', p3, T', rest', hloop, hle3, hlen3, hout3⟩ :=
          loop_any min ts n hd1 (.inl (by have := hd.weight; omega)) hr' hb.2 hnest' hleft' (by
            intro tk' ts' hts
            subst hts
            obtain ⟨o2, ho2⟩ := hr'.op
            exact ⟨o2, ho2, nofun⟩) (by omega)
        have htok : (ETree.post r op T).tokens ++ ts = T.tokens ++ .post r op :: ts := by
          simp [ETree.tokens]
        rw [htok] at hout3
        exact ⟨res', p3, T', rest', hloop, by omega,
          by simp only [List.length_cons] at *; omega, hout3⟩
    | gap hn1 hn2 hsome hr' =>
      have hlt : pos < row.length := hsome.elim (fun h => h.lt hd) (fun h => h.lt hd)
      have hend : atInputEnd row pos = false := by simp [atInputEnd]; omega
      have h1 := hn1.at hd
      have h2 := hn2.at hd
      simp only [Grammar.ofRole] at h1 h2
      have ho : o = .gap := by simpa [ETok.op] using hop.symm
      subst ho
      have heither : canParseEither (pratt g F) g row pos g.prefixes g.atoms = .ok true := by
        rcases found_at hd .prefix with ⟨t, r, p, h3, -⟩ | ⟨h3, hno⟩
        · simp only [Grammar.ofRole] at h3
          simp only [canParseEither, canParse_of h3, M.ok_bind, Option.isSome_some, if_true]
        · obtain ⟨x, h4⟩ := (hsome.resolve_left fun h => h.not_noneOf hno).at hd
          simp only [Grammar.ofRole] at h3 h4
          simp only [canParseEither, canParse_of h3, canParse_of h4, M.ok_bind, Option.isSome_some,
            Option.isSome_none, Bool.false_eq_true, if_false]
      unfold prattLoop
      simp only [hend, Bool.false_eq_true, if_false, h1, h2, M.ok_bind, heither, if_true]
      cases hls : missingOperatorKind.strengthLeft.lt min with
      | true =>
        refine ⟨.expression (T.node g), pos, T, .gap :: ts, rfl, Nat.le_refl _, Nat.le_refl _,
          ⟨rfl, rfl, hnest, hleft, hf, nofun, ?_⟩⟩
        rintro _ _ ⟨⟩
        exact ⟨rfl, .gap hn1 hn2 hsome hr', .gap, rfl, hls, hre⟩
      | false =>
        simp only [Bool.false_eq_true, if_false]
        have hwF : restWeight row pos < F := by
          rcases hpro with h | h | h
          · exact h
          · exact absurd h id
          · cases h
        obtain ⟨F', rfl⟩ : ∃ F', F = F' + 1 := ⟨F - 1, by omega⟩
        have hd1' : Deep g row pos F' := ⟨hd.good, hd.wf, hd.le, by omega⟩
        obtain ⟨res, p2, T1, rest, hcall, hle, hprog, hlen, hout⟩ :=
          operand_any missingOperatorKind.strengthRight ts hd1' hr'
        have hlt2 := hprog hsome
        have hb := juxtaposed_fills (g := g) hf hout.fills
        have hnode : (ETree.gap T T1).node g = juxtaposed g (T.node g) (T1.node g) := rfl
        rw [← hnode] at hb
        simp only [hcall, M.ok_bind, hout.node, hb.1]
        have hnest' : (ETree.gap T T1).Nested := by
          refine ⟨hnest, hout.nested, fun o' ho' => ?_, hre⟩
          exact (etakes_iff (o := .gap) trivial (eleftOps_opens ho' (rest := rest)
            (by rw [hout.tokens]; exact hr'.roles))).2 (hout.left o' ho')
        have hleft' : ∀ o' ∈ (ETree.gap T T1).leftOps, o'.stops min = false := by
          intro o' ho'
          rcases List.mem_cons.1 ho' with rfl | ho'
          · exact hls
          · exact hleft o' ho'
        have htok : (ETree.gap T T1).tokens ++ rest = T.tokens ++ .gap :: ts := by
          rw [ETree.tokens, ← hout.tokens]; simp
        cases rest with
        | nil =>
          obtain ⟨rfl, rfl⟩ := hout.stop rfl
          exact ⟨_, _, _, [], rfl, by omega, Nat.zero_le _,
            ⟨rfl, htok, hnest', hleft', hb.2, fun _ => ⟨rfl, rfl⟩, nofun⟩⟩
        | cons tk' ts' =>
          obtain ⟨rfl, hr2, o2, hop2, hst2, hre2⟩ := hout.more tk' ts' rfl
          simp only
          have hd2 := hd.later (by omega : pos ≤ p2) hout.fills.le.2
          have hw2 := restWeight_lt row hlt2 hout.fills.le.2
          have hlen' : (tk' :: ts').length < ts.length := hlen
          obtain ⟨res', p3, T', rest', hloop, hle3, hlen3, hout3⟩ :=
            loop_any min (tk' :: ts') n hd2 (.inl (by have := hd.weight; omega)) hr2 hb.2 hnest'
              hleft' (by
                rintro _ _ ⟨⟩
                refine ⟨o2, hop2, fun o' ho' => ?_⟩
                rcases List.mem_cons.1 ho' with rfl | ho'
                · intro hta
                  have := (etakes_iff (o := .gap) trivial (ETok.opensLeft hop2
                    (hr2.roles _ (List.mem_cons_self ..)))).1 hta
                  rw [EOp.right, hst2] at this
                  cases this
                · exact hre2 o' ho') (by omega)
          rw [htok] at hout3
          exact ⟨res', p3, T', rest', hloop, by omega,
            by simp only [List.length_cons] at *; omega, hout3⟩
    | @junk _ t p1 _ _ hall hr' =>
      obtain ⟨s, hu⟩ := hall.1.first
      obtain ⟨hof, hlt⟩ := hall.1.fills (Q := ParsesTo g)
      have hend : atInputEnd row pos = false := by
        have := hu.lt; simp [atInputEnd]; omega
      have hno := hu.2.1
      have h1 := (hno .infix).at hd
      have h2 := (hno .postfix).at hd
      have h3 := (hno .prefix).at hd
      have h4 := (hno .atom).at hd
      simp only [Grammar.ofRole] at h1 h2 h3 h4
      have ho : o = .junk := by simpa [ETok.op] using hop.symm
      subst ho
      unfold prattLoop
      have hb := juxtaposed_fills (g := g) hf hof
      have hnode : (ETree.junk T t).node g = juxtaposed g (T.node g) t := rfl
      rw [← hnode] at hb
      simp only [hend, Bool.false_eq_true, if_false, h1, h2, M.ok_bind, canParseEither,
        canParse_of h3, canParse_of h4, Option.isSome_none, hu.not_end, hall.parse hd, hb.1]
      have hd1 := hd.later (Nat.le_of_lt hlt) hof.le.2
      have hw := restWeight_lt row hlt hof.le.2
      have hnest' : (ETree.junk T t).Nested := ⟨hnest, hre⟩
      have hleft' : ∀ o' ∈ (ETree.junk T t).leftOps, o'.stops min = false := by
        intro o' ho'
        rcases List.mem_cons.1 ho' with rfl | ho'
        · rfl
        · exact hleft o' ho'
      obtain ⟨res', p3, T', rest', hloop, hle3, hlen3, hout3⟩ :=
        loop_any min ts n hd1 (.inl (by have := hd.weight; omega)) hr' hb.2 hnest' hleft' (by
          intro tk' ts' hts
          subst hts
          obtain ⟨o2, ho2⟩ := hr'.op
          exact ⟨o2, ho2, nofun⟩) (by omega)
      have htok : (ETree.junk T t).tokens ++ ts = T.tokens ++ .junk t :: ts := by
        simp [ETree.tokens]
      rw [htok] at hout3
      exact ⟨res', p3, T', rest', hloop, by omega,
        by simp only [List.length_cons] at *; omega, hout3⟩
termination_by toks n => (toks.length, 0, n)
decreasing_by
  all_goals
    simp_wf
    first
    | exact Prod.Lex.left _ _ (by simp only [List.length_cons] at *; omega)
theorem operand_any {F q : Nat} (min : Power) :
    ∀ (toks : List ETok) {pos : Nat}, Deep g row pos F → ReadsAny g row e .operand pos toks q →
    ∃ res p T rest, pratt g (F + 1) row pos min e = .ok (res, p) ∧ pos ≤ p ∧
      (SomeOf g .prefix row pos ∨ SomeOf g .atom row pos → pos < p) ∧
      rest.length < toks.length ∧ EOutcome g row e min pos toks q res p T rest
  | [], pos, hd, hr => by cases hr
  | tk :: ts, pos, hd, hr => by
    rw [pratt]
    unfold prattBody prattStart
    cases hr with
    | @pre _ p1 _ op r _ hc hr' =>
      obtain ⟨hof, hlt⟩ := hc.fills hd
      have hend : atInputEnd row pos = false := by
        have := hof.le.2; simp [atInputEnd]; omega
      have h1 := hc.at hd
      simp only [Grammar.ofRole] at h1
      simp only [hend, Bool.false_eq_true, if_false, h1, M.ok_bind]
      have hw := restWeight_lt row hlt hof.le.2
      obtain ⟨F', rfl⟩ : ∃ F', F = F' + 1 := ⟨F - 1, by have := hd.weight; omega⟩
      have hd1' : Deep g row p1 F' := ⟨hd.good, hd.wf, hof.le.2, by have := hd.weight; omega⟩
      obtain ⟨res, p2, T1, rest, hcall, hle, -, hlen, hout⟩ :=
        operand_any r.kind.strengthRight ts hd1' hr'
      have hb := buildPrefix_eq r.name hof hout.fills
      have hnode : (ETree.pre r op T1).node g =
        .children r.name op.lo (T1.node g).hi [op, T1.node g] := rfl
      rw [← hnode] at hb
      simp only [hcall, M.ok_bind, hout.node, hb.1]
      have hnest' : (ETree.pre r op T1).Nested := by
        refine ⟨hout.nested, fun o' ho' => ?_⟩
        exact (etakes_iff (o := .rule r) (.inl hc.role) (eleftOps_opens ho' (rest := rest)
            (by rw [hout.tokens]; exact hr'.roles))).2 (hout.left o' ho')
      have htok : (ETree.pre r op T1).tokens ++ rest = .pre r op :: ts := by
        rw [ETree.tokens, ← hout.tokens]; simp
      cases rest with
      | nil =>
        obtain ⟨rfl, rfl⟩ := hout.stop rfl
        exact ⟨_, _, _, [], rfl, by omega, fun _ => by omega, Nat.succ_pos _,
          ⟨rfl, htok, hnest', nofun, hb.2, fun _ => ⟨rfl, rfl⟩, nofun⟩⟩
      | cons tk' ts' =>
        obtain ⟨rfl, hr2, o2, hop2, hlt2, hre2⟩ := hout.more tk' ts' rfl
        have hd2 := hd.later (by omega : pos ≤ p2) hout.fills.le.2
        have hw2 := restWeight_lt row (by omega : pos < p2) hout.fills.le.2
        have hlen' : (tk' :: ts').length < ts.length := hlen
        obtain ⟨res', p3, T', rest', hloop, hle3, hlen3, hout3⟩ :=
          loop_any min (tk' :: ts') (row.length + 1) hd2 (.inl (by have := hd.weight; omega)) hr2
            hb.2 hnest' nofun (by
              rintro _ _ ⟨⟩
              refine ⟨o2, hop2, fun o' ho' => ?_⟩
              rcases List.mem_cons.1 ho' with rfl | ho'
              · intro hta
                have := (etakes_iff (o := .rule r) (.inl hc.role) (ETok.opensLeft hop2
                  (hr2.roles _ (List.mem_cons_self ..)))).1 hta
                rw [EOp.right, hlt2] at this
                cases this
              · exact hre2 o' ho') (by omega)
        rw [htok] at hout3
        exact ⟨res', p3, T', rest', hloop, by omega, fun _ => by omega,
          by simp only [List.length_cons] at *; omega, hout3⟩
    | @operand _ p1 _ t r _ hno hc hr' =>
      obtain ⟨hof, hlt⟩ := hc.fills hd
      have hend : atInputEnd row pos = false := by
        have := hof.le.2; simp [atInputEnd]; omega
      have h1 := hno.at hd
      have h2 := hc.at hd
      simp only [Grammar.ofRole] at h1 h2
      simp only [hend, Bool.false_eq_true, if_false, h1, h2, M.ok_bind]
      have hd1 := hd.later (Nat.le_of_lt hlt) hof.le.2
      have hw := restWeight_lt row hlt hof.le.2
      obtain ⟨res', p3, T', rest', hloop, hle3, hlen3, hout3⟩ :=
        loop_any min ts (row.length + 1) (T := .operand t) hd1
          (.inl (by have := hd.weight; omega)) hr' hof trivial nofun (by
          intro tk' ts' hts
          subst hts
          obtain ⟨o2, ho2⟩ := hr'.op
          exact ⟨o2, ho2, nofun⟩) (by omega)
      exact ⟨res', p3, T', rest', hloop, by omega, fun _ => by omega,
        by simp only [List.length_cons] at *; omega, hout3⟩
    | missing hn1 hn2 hsome hr' =>
      have hlt : pos < row.length := hsome.elim (fun h => h.lt hd) (fun h => h.lt hd)
      have hend : atInputEnd row pos = false := by simp [atInputEnd]; omega
      have h1 := hn1.at hd
      have h2 := hn2.at hd
      simp only [Grammar.ofRole] at h1 h2
      have heither : canParseEither (pratt g F) g row pos g.infixes g.postfixes = .ok true := by
        rcases found_at hd .infix with ⟨t, r, p, h3, -⟩ | ⟨h3, hno⟩
        · simp only [Grammar.ofRole] at h3
          simp only [canParseEither, canParse_of h3, M.ok_bind, Option.isSome_some, if_true]
        · obtain ⟨x, h4⟩ := (hsome.resolve_left fun h => h.not_noneOf hno).at hd
          simp only [Grammar.ofRole] at h3 h4
          simp only [canParseEither, canParse_of h3, canParse_of h4, M.ok_bind, Option.isSome_some,
            Option.isSome_none, Bool.false_eq_true, if_false]
      obtain ⟨hm, hmf⟩ := missingAt_fills (Q := ParsesTo g) (g := g) hd.le
      simp only [hend, Bool.false_eq_true, if_false, h1, h2, M.ok_bind, heither, if_true, hm]
      have hpro : Proceeds ts ∨ ts = [] := by
        cases hr' with
        | inf => exact .inl trivial
        | post => exact .inl trivial
        | gap n3 n4 => exact absurd hsome (not_or.2 ⟨fun h => h.not_noneOf n3,
            fun h => h.not_noneOf n4⟩)
        | junk hall =>
          obtain ⟨s, hu⟩ := hall.1.first
          exact absurd hsome (not_or.2 ⟨fun h => h.not_noneOf (hu.2.1 _),
            fun h => h.not_noneOf (hu.2.1 _)⟩)
        | ends => exact .inr rfl
      obtain ⟨res', p3, T', rest', hloop, hle3, hlen3, hout3⟩ :=
        loop_any min ts (row.length + 1) (T := .operand (missingAt g pos)) hd (.inr hpro) hr' hmf
          trivial nofun (by
          intro tk' ts' hts
          subst hts
          obtain ⟨o2, ho2⟩ := hr'.op
          exact ⟨o2, ho2, nofun⟩) (by omega)
      exact ⟨res', p3, T', rest', hloop, hle3, fun h => absurd h (not_or.2
        ⟨fun h => h.not_noneOf hn1, fun h => h.not_noneOf hn2⟩),
        by simp only [List.length_cons] at *; omega, hout3⟩
    | missingEnd he =>
      have hno := he.noneOf hd.good hd.wf
      obtain ⟨hm, hmf⟩ := missingAt_fills (Q := ParsesTo g) (g := g) hd.le
      refine ⟨.stop (missingAt g q), q, .operand (missingAt g q), [], ?_, Nat.le_refl _,
        fun h => absurd h (not_or.2 ⟨fun h => h.not_noneOf (hno _),
          fun h => h.not_noneOf (hno _)⟩), Nat.succ_pos _,
        ⟨rfl, rfl, trivial, nofun, hmf, fun _ => ⟨rfl, rfl⟩, nofun⟩⟩
      cases hend : atInputEnd row q with
      | true => simp only [if_true, hm, M.ok_bind]
      | false =>
        have h1 := (hno .infix).at hd
        have h2 := (hno .postfix).at hd
        have h3 := (hno .prefix).at hd
        have h4 := (hno .atom).at hd
        simp only [Grammar.ofRole] at h1 h2 h3 h4
        simp only [Bool.false_eq_true, if_false, h3, h4, M.ok_bind, canParseEither,
          canParse_of h1, canParse_of h2, Option.isSome_none, he.isAtEnd, if_true, hm]
    | @unknown _ t p1 _ _ hall hr' =>
      obtain ⟨s, hu⟩ := hall.1.first
      obtain ⟨hof, hlt⟩ := hall.1.fills (Q := ParsesTo g)
      have hend : atInputEnd row pos = false := by
        have := hu.lt; simp [atInputEnd]; omega
      have hno := hu.2.1
      have h1 := (hno .infix).at hd
      have h2 := (hno .postfix).at hd
      have h3 := (hno .prefix).at hd
      have h4 := (hno .atom).at hd
      simp only [Grammar.ofRole] at h1 h2 h3 h4
      simp only [hend, Bool.false_eq_true, if_false, h3, h4, M.ok_bind, canParseEither,
        canParse_of h1, canParse_of h2, Option.isSome_none, hu.not_end, hall.parse hd]
      have hd1 := hd.later (Nat.le_of_lt hlt) hof.le.2
      have hw := restWeight_lt row hlt hof.le.2
      obtain ⟨res', p3, T', rest', hloop, hle3, hlen3, hout3⟩ :=
        loop_any min ts (row.length + 1) (T := .operand t) hd1
          (.inl (by have := hd.weight; omega)) hr' hof trivial nofun (by
          intro tk' ts' hts
          subst hts
          obtain ⟨o2, ho2⟩ := hr'.op
          exact ⟨o2, ho2, nofun⟩) (by omega)
      exact ⟨res', p3, T', rest', hloop, by omega, fun _ => by omega,
        by simp only [List.length_cons] at *; omega, hout3⟩
termination_by toks => (toks.length, 1, 0)
decreasing_by
  all_goals
    simp_wf
    first
    | exact Prod.Lex.left _ _ (by simp only [List.length_cons] at *; omega)
end

end Aftermath
