import Verif.Spec.Expression

/-! # Precedence trees: uniqueness, and what nesting means for flat chains -/

namespace Aftermath

/-! ## Uniqueness -/

/-- May the operator be part of the right operand of the rule (if there is one)? -/
def allowed : Option Rule → Rule → Prop
  | none, _ => True
  | some o, o' => Takes o o'

/-- Building a tree from tokens; the first argument is the left operand so far. -/
inductive Builds : Option PTree → Option Rule → List Tok → PTree → List Tok → Prop
  | operand {min r t ts T rest} : Builds (some (.operand r t)) min ts T rest →
      Builds none min (.operand r t :: ts) T rest
  | pre {min r op ts x ts' T rest} : Builds none (some r) ts x ts' →
      Builds (some (.pre r op x)) min ts' T rest → Builds none min (.pre r op :: ts) T rest
  | inf {l min r op ts y ts' T rest} : allowed min r → Builds none (some r) ts y ts' →
      Builds (some (.inf r op l y)) min ts' T rest → Builds (some l) min (.inf r op :: ts) T rest
  | post {l min r op ts T rest} : allowed min r → Builds (some (.post r op l)) min ts T rest →
      Builds (some l) min (.post r op :: ts) T rest
  | nil {l min} : Builds (some l) min [] l []
  | stopInf {l min r op ts} : ¬ allowed min r →
      Builds (some l) min (.inf r op :: ts) l (.inf r op :: ts)
  | stopPost {l min r op ts} : ¬ allowed min r →
      Builds (some l) min (.post r op :: ts) l (.post r op :: ts)

theorem Builds.unique {l : Option PTree} {min : Option Rule} {ts : List Tok} {T T' : PTree}
    {rest rest' : List Tok} (h : Builds l min ts T rest) (h' : Builds l min ts T' rest') :
    T = T' ∧ rest = rest' := by
  induction h generalizing T' rest' with
  | operand _ ih => cases h' with | operand h => exact ih h
  | pre _ _ ih1 ih2 =>
    cases h' with
    | pre h1 h2 =>
      obtain ⟨rfl, rfl⟩ := ih1 h1
      exact ih2 h2
  | inf ha _ _ ih1 ih2 =>
    cases h' with
    | inf _ h1 h2 =>
      obtain ⟨rfl, rfl⟩ := ih1 h1
      exact ih2 h2
    | stopInf hn => exact absurd ha hn
  | post ha _ ih =>
    cases h' with
    | post _ h => exact ih h
    | stopPost hn => exact absurd ha hn
  | nil => cases h' with | nil => exact ⟨rfl, rfl⟩
  | stopInf hn =>
    cases h' with
    | stopInf _ => exact ⟨rfl, rfl⟩
    | inf ha => exact absurd ha hn
  | stopPost hn =>
    cases h' with
    | stopPost _ => exact ⟨rfl, rfl⟩
    | post ha => exact absurd ha hn

/-- The rest is empty or starts with an operator that none of these takes in. -/
def Stops (os : List Rule) : List Tok → Prop
  | [] => True
  | .inf r _ :: _ => ∀ o ∈ os, ¬ Takes o r
  | .post r _ :: _ => ∀ o ∈ os, ¬ Takes o r
  | _ :: _ => False

theorem Builds.stop {T : PTree} {o : Rule} {rest : List Tok} (h : Stops [o] rest) :
    Builds (some T) (some o) rest T rest := by
  match rest, h with
  | [], _ => exact .nil
  | .inf r op :: ts, h => exact .stopInf (h o (List.mem_singleton.2 rfl))
  | .post r op :: ts, h => exact .stopPost (h o (List.mem_singleton.2 rfl))

theorem Stops.mono {os os' : List Rule} (hs : ∀ o ∈ os', o ∈ os) {rest : List Tok}
    (h : Stops os rest) : Stops os' rest := by
  match rest, h with
  | [], _ => trivial
  | .inf r op :: ts, h => exact fun o ho => h o (hs o ho)
  | .post r op :: ts, h => exact fun o ho => h o (hs o ho)

/-- A correctly nested tree is built from its tokens. -/
theorem builds_tokens : ∀ (T : PTree) {min : Option Rule} {rest rest' : List Tok} {U : PTree},
    T.Nested → (∀ o ∈ T.leftOps, allowed min o) → Stops T.rightOps rest →
    Builds (some T) min rest U rest' → Builds none min (T.tokens ++ rest) U rest'
  | .operand r t, min, rest, rest', U, _, _, _, h => .operand h
  | .pre r op x, min, rest, rest', U, hn, hl, hs, h => by
    refine .pre ?_ h
    exact builds_tokens x hn.1 hn.2 (hs.mono fun o ho => List.mem_cons_of_mem _ ho)
      (.stop (hs.mono fun o ho => by rw [List.mem_singleton.1 ho]; exact List.mem_cons_self ..))
  | .inf r op x y, min, rest, rest', U, hn, hl, hs, h => by
    rw [PTree.tokens, List.append_assoc]
    refine builds_tokens x hn.1 (fun o ho => hl o (List.mem_cons_of_mem _ ho)) hn.2.2.2 ?_
    refine .inf (hl r (List.mem_cons_self ..)) ?_ h
    exact builds_tokens y hn.2.1 hn.2.2.1 (hs.mono fun o ho => List.mem_cons_of_mem _ ho)
      (.stop (hs.mono fun o ho => by rw [List.mem_singleton.1 ho]; exact List.mem_cons_self ..))
  | .post r op x, min, rest, rest', U, hn, hl, hs, h => by
    rw [PTree.tokens, List.append_assoc]
    refine builds_tokens x hn.1 (fun o ho => hl o (List.mem_cons_of_mem _ ho)) hn.2 ?_
    exact .post (hl r (List.mem_cons_self ..)) h

/-- There is at most one correctly nested tree over a list of tokens. -/
theorem nested_unique {T T' : PTree} (h : T.Nested) (h' : T'.Nested) (ht : T.tokens = T'.tokens) :
    T = T' := by
  have h1 := builds_tokens T (min := none) (rest := []) h (fun _ _ => trivial) trivial .nil
  have h2 := builds_tokens T' (min := none) (rest := []) h' (fun _ _ => trivial) trivial .nil
  rw [ht] at h1
  exact (h1.unique h2).1

/-! ## Flat chains -/

theorem flat_of_tokens : ∀ (T : PTree), FlatToks T.tokens → T.Flat
  | .operand _ _, _ => trivial
  | .pre r op x, h => h (.pre r op) (List.mem_cons_self ..)
  | .inf r op x y, h =>
    ⟨flat_of_tokens x fun tk htk => h tk (List.mem_append_left _ htk),
      flat_of_tokens y fun tk htk => h tk (List.mem_append_right _ (List.mem_cons_of_mem _ htk))⟩
  | .post r op x, h => h (.post r op) (List.mem_append_right _ (List.mem_singleton.2 rfl))

theorem Takes.le {o o' : Rule} (h : Takes o o') : o.power ≤ o'.power := by
  rcases h with h | h <;> omega

theorem Takes.not_le {o o' : Rule} (h : ¬ Takes o o') : o'.power ≤ o.power := by
  unfold Takes at h
  omega

theorem leftOps_bound : ∀ {T : PTree}, T.Flat → T.Nested → ∀ {o}, o ∈ T.ops →
    ∃ o' ∈ T.leftOps, o'.power ≤ o.power
  | .operand _ _, _, _, o, h => by cases h
  | .inf r op x y, hf, hn, o, h => by
    rcases List.mem_cons.1 h with rfl | h
    · exact ⟨o, List.mem_cons_self .., Nat.le_refl _⟩
    · rcases List.mem_append.1 h with h | h
      · obtain ⟨o', h1, h2⟩ := leftOps_bound hf.1 hn.1 h
        exact ⟨o', List.mem_cons_of_mem _ h1, h2⟩
      · obtain ⟨o', h1, h2⟩ := leftOps_bound hf.2 hn.2.1 h
        exact ⟨r, List.mem_cons_self .., Nat.le_trans (hn.2.2.1 o' h1).le h2⟩

theorem rightOps_bound : ∀ {T : PTree}, T.Flat → T.Nested → ∀ {o}, o ∈ T.ops →
    ∃ o' ∈ T.rightOps, o'.power ≤ o.power
  | .operand _ _, _, _, o, h => by cases h
  | .inf r op x y, hf, hn, o, h => by
    rcases List.mem_cons.1 h with rfl | h
    · exact ⟨o, List.mem_cons_self .., Nat.le_refl _⟩
    · rcases List.mem_append.1 h with h | h
      · obtain ⟨o', h1, h2⟩ := rightOps_bound hf.1 hn.1 h
        exact ⟨r, List.mem_cons_self .., Nat.le_trans (Takes.not_le (hn.2.2.2 o' h1)) h2⟩
      · obtain ⟨o', h1, h2⟩ := rightOps_bound hf.2 hn.2.1 h
        exact ⟨o', List.mem_cons_of_mem _ h1, h2⟩

/-- No operator below another one has a lower binding power. -/
theorem flat_le : ∀ {T : PTree}, T.Flat → T.Nested →
    T.ForInfix fun r x y => ∀ o ∈ x.ops ++ y.ops, r.power ≤ o.power
  | .operand _ _, _, _ => trivial
  | .inf r op x y, hf, hn => by
    refine ⟨fun o ho => ?_, flat_le hf.1 hn.1, flat_le hf.2 hn.2.1⟩
    rcases List.mem_append.1 ho with h | h
    · obtain ⟨o', h1, h2⟩ := rightOps_bound hf.1 hn.1 h
      exact Nat.le_trans (Takes.not_le (hn.2.2.2 o' h1)) h2
    · obtain ⟨o', h1, h2⟩ := leftOps_bound hf.2 hn.2.1 h
      exact Nat.le_trans (hn.2.2.1 o' h1).le h2

theorem leftOps_subset {T : PTree} {o : Rule} (h : o ∈ T.leftOps) : o ∈ T.ops := by
  induction T with
  | operand => cases h
  | pre => cases h
  | inf r op x y ihx _ =>
    rcases List.mem_cons.1 h with rfl | h
    · exact List.mem_cons_self ..
    · exact List.mem_cons_of_mem _ (List.mem_append_left _ (ihx h))
  | post r op x ih =>
    rcases List.mem_cons.1 h with rfl | h
    · exact List.mem_cons_self ..
    · exact List.mem_cons_of_mem _ (ih h)

/-- To the right of a left infix operator everything has a higher binding power. -/
theorem flat_left : ∀ {T : PTree}, T.Flat → T.Nested →
    T.ForInfix fun r _ y => (∃ v, r.kind = .leftInfix v) →
      (∀ o ∈ y.ops, o.power = r.power → ∃ v, o.kind = .leftInfix v) → ∀ o ∈ y.ops, r.power < o.power
  | .operand _ _, _, _ => trivial
  | .inf r op x y, hf, hn => by
    refine ⟨fun hr hall o ho => ?_, flat_left hf.1 hn.1, flat_left hf.2 hn.2.1⟩
    obtain ⟨o', h1, h2⟩ := leftOps_bound hf.2 hn.2.1 ho
    rcases hn.2.2.1 o' h1 with h | ⟨h, h3⟩
    · omega
    · exfalso
      obtain ⟨v, hv⟩ := hall o' (leftOps_subset h1) h.symm
      obtain ⟨v', hv'⟩ := hr
      rcases h3 with h3 | ⟨v2, h3⟩
      · exact h3 v hv
      · rw [hv'] at h3; cases h3

/-- To the left of a right infix operator everything has a higher binding power. -/
theorem flat_right : ∀ {T : PTree}, T.Flat → T.Nested →
    T.ForInfix fun r x _ => (∃ v, r.kind = .rightInfix v) → ∀ o ∈ x.ops, r.power < o.power
  | .operand _ _, _, _ => trivial
  | .inf r op x y, hf, hn => by
    refine ⟨fun hr o ho => ?_, flat_right hf.1 hn.1, flat_right hf.2 hn.2.1⟩
    obtain ⟨o', h1, h2⟩ := rightOps_bound hf.1 hn.1 ho
    have h3 := hn.2.2.2 o' h1
    obtain ⟨v, hv⟩ := hr
    unfold Takes at h3
    simp only [hv, ne_eq, reduceCtorEq, not_false_eq_true, implies_true, true_or, and_true] at h3
    omega

/-! ## Chains of equal power -/

theorem leftChain_tokens : ∀ (l : List ((Rule × SNode) × (Rule × SNode))) (x : PTree),
    (leftChain x l).tokens = x.tokens ++ chainToks l
  | [], x => by simp [leftChain, chainToks]
  | ((r, op), (a, t)) :: rest, x => by
    rw [leftChain, leftChain_tokens rest, chainToks, PTree.tokens, PTree.tokens]
    simp

theorem rightChain_tokens : ∀ (l : List ((Rule × SNode) × (Rule × SNode))) (a0 : Rule) (t0 : SNode),
    (rightChain a0 t0 l).tokens = .operand a0 t0 :: chainToks l
  | [], _, _ => rfl
  | ((r, op), (a, t)) :: rest, a0, t0 => by
    rw [rightChain, PTree.tokens, rightChain_tokens rest, chainToks]
    rfl

theorem leftChain_nested {v : Nat} : ∀ {l : List ((Rule × SNode) × (Rule × SNode))} {x : PTree},
    (∀ y ∈ l, y.1.1.kind = .leftInfix v) → x.Nested → (∀ o ∈ x.rightOps, o.kind = .leftInfix v) →
    (leftChain x l).Nested
  | [], x, _, hx, _ => hx
  | ((r, op), (a, t)) :: rest, x, h, hx, hr => by
    have hk : r.kind = .leftInfix v := h ((r, op), (a, t)) (List.mem_cons_self ..)
    rw [leftChain]
    refine leftChain_nested (fun y hy => h y (List.mem_cons_of_mem _ hy))
      ⟨hx, trivial, nofun, fun o ho => ?_⟩ fun o ho => ?_
    · have := hr o ho
      unfold Takes Rule.power
      rw [hk, this]
      simp
    · rcases List.mem_cons.1 ho with rfl | ho
      · exact hk
      · cases ho

theorem rightChain_leftOps {v : Nat} {l : List ((Rule × SNode) × (Rule × SNode))} {a0 : Rule}
    {t0 : SNode} (h : ∀ y ∈ l, y.1.1.kind = .rightInfix v) :
    ∀ o ∈ (rightChain a0 t0 l).leftOps, o.kind = .rightInfix v := by
  cases l with
  | nil => exact nofun
  | cons y rest =>
    obtain ⟨⟨r, op⟩, a, t⟩ := y
    intro o ho
    rcases List.mem_cons.1 ho with rfl | ho
    · exact h ((o, op), (a, t)) (List.mem_cons_self ..)
    · cases ho

theorem rightChain_nested {v : Nat} : ∀ {l : List ((Rule × SNode) × (Rule × SNode))} {a0 : Rule}
    {t0 : SNode}, (∀ y ∈ l, y.1.1.kind = .rightInfix v) → (rightChain a0 t0 l).Nested
  | [], _, _, _ => trivial
  | ((r, op), (a, t)) :: rest, a0, t0, h => by
    have hk : r.kind = .rightInfix v := h ((r, op), (a, t)) (List.mem_cons_self ..)
    have h' : ∀ y ∈ rest, y.1.1.kind = .rightInfix v := fun y hy => h y (List.mem_cons_of_mem _ hy)
    refine ⟨trivial, rightChain_nested h', fun o ho => ?_, nofun⟩
    have := rightChain_leftOps h' o ho
    unfold Takes Rule.power
    rw [hk, this]
    simp

end Aftermath
