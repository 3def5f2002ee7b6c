import Verif.Proof.ErrorFree

/-! # A tree without error nodes comes from a row without errors -/

namespace Aftermath

variable {g : Grammar}

theorem ErrorFree.parts {n lo hi : Nat} {cs : List SNode} (h : ErrorFree g (.children n lo hi cs)) :
    n ∉ g.errorNames ∧ ∀ c ∈ cs, ErrorFree g c := by
  refine ⟨h n (by simp [SNode.names]), fun c hc m hm => h m ?_⟩
  simp only [SNode.names, List.mem_cons, mem_treesNames]
  exact .inr ⟨c, hc, hm⟩

theorem ErrorFree.rows {n lo hi w : Nat} {cs : List SNode} (h : ErrorFree g (.newRows n lo hi cs w)) :
    n ∉ g.errorNames ∧ ∀ c ∈ cs, ErrorFree g c := by
  refine ⟨h n (by simp [SNode.names]), fun c hc m hm => h m ?_⟩
  simp only [SNode.names, List.mem_cons, mem_treesNames]
  exact .inr ⟨c, hc, hm⟩

theorem ErrorFree.infix {name : Nat} {op l r t : SNode} (hb : buildInfix name op l r = .ok t)
    (h : ErrorFree g t) : ErrorFree g op ∧ ErrorFree g l ∧ ErrorFree g r := by
  have := new_eq hb
  subst this
  have := h.parts.2
  exact ⟨this _ (by simp), this _ (by simp), this _ (by simp)⟩

theorem ErrorFree.prefix {name : Nat} {op r t : SNode} (hb : buildPrefix name op r = .ok t)
    (h : ErrorFree g t) : ErrorFree g op ∧ ErrorFree g r := by
  have := new_eq hb
  subst this
  have := h.parts.2
  exact ⟨this _ (by simp), this _ (by simp)⟩

theorem ErrorFree.postfix {name : Nat} {op l t : SNode} (hb : buildPostfix name op l = .ok t)
    (h : ErrorFree g t) : ErrorFree g op ∧ ErrorFree g l := by
  have := new_eq hb
  subst this
  have := h.parts.2
  exact ⟨this _ (by simp), this _ (by simp)⟩

theorem missingAtom_error {pos : Nat} {t : SNode} (h : makeMissingAtom g pos = .ok t) :
    ¬ ErrorFree g t := by
  cases h
  exact fun h => h.parts.1 (by simp [Grammar.errorNames])

theorem missingOperator_error {a b t : SNode} (h : makeMissingOperator g a b = .ok t) :
    ¬ ErrorFree g t := by
  unfold makeMissingOperator BuiltIn.errorMissingOperator at h
  obtain ⟨m, hm, h⟩ := M.bind_eq_ok.1 h
  have := new_eq h
  subst this
  exact fun h => h.parts.1 (by simp [Grammar.errorNames])

theorem unknownAtom_error {row : Row} {pos : Nat} {t : SNode} (h : makeUnknownAtom g row pos = .ok t) :
    ¬ ErrorFree g t := by
  unfold makeUnknownAtom at h
  obtain ⟨n, hn, h⟩ := M.bind_eq_ok.1 h
  cases n with
  | container v cells w => cases h
  | symbol s =>
    have : t = .leaf g.builtIn.unknownToken pos (pos + 1) .symbol [s] := by cases h; rfl
    subst this
    exact fun h => h g.builtIn.unknownToken (by simp [SNode.names]) (by simp [Grammar.errorNames])

theorem unknownLoop_error {call : Rec} {row : Row} {e : Ending} : ∀ (n : Nat) {a t : SNode} {pos p : Nat},
    ¬ ErrorFree g a → unknownLoop call g row e n a pos = .ok (t, p) → ¬ ErrorFree g t
  | 0, _, _, _, _, _, h => by cases h
  | n + 1, a, t, pos, p, ha, h => by
    rw [unknownLoop] at h
    obtain ⟨b, hb, h⟩ := M.bind_eq_ok.1 h
    cases b with
    | true => cases h; exact ha
    | false =>
      obtain ⟨x, hx, h⟩ := M.bind_eq_ok.1 h
      obtain ⟨y, hy, h⟩ := M.bind_eq_ok.1 h
      exact unknownLoop_error n (missingOperator_error hy) h

theorem parseUnknown_error {call : Rec} {row : Row} {e : Ending} {t : SNode} {pos p : Nat}
    (h : parseUnknown call g row e pos = .ok (t, p)) : ¬ ErrorFree g t := by
  unfold parseUnknown at h
  obtain ⟨x, hx, h⟩ := M.bind_eq_ok.1 h
  exact unknownLoop_error _ (unknownAtom_error hx) h

/-! ## The tokens behind a tree -/

/-- A part of an expression. -/
inductive Seg (g : Grammar) (row : Row) : Expects → Nat → List Tok → Expects → Nat → Prop
  | nil {x pos} : Seg g row x pos [] x pos
  | pre {pos p q op r ts y} : Chosen g .prefix row pos op r p → Seg g row .operand p ts y q →
      Seg g row .operand pos (.pre r op :: ts) y q
  | operand {pos p q t r ts y} : NoneOf g .prefix row pos → Chosen g .atom row pos t r p →
      Seg g row .operator p ts y q → Seg g row .operand pos (.operand r t :: ts) y q
  | inf {pos p q op r ts y} : Chosen g .infix row pos op r p → Seg g row .operand p ts y q →
      Seg g row .operator pos (.inf r op :: ts) y q
  | post {pos p q op r ts y} : NoneOf g .infix row pos → Chosen g .postfix row pos op r p →
      Seg g row .operator p ts y q → Seg g row .operator pos (.post r op :: ts) y q

theorem Seg.trans {row : Row} {x y z : Expects} {a b : List Tok} {pos p q : Nat}
    (h : Seg g row x pos a y p) (h' : Seg g row y p b z q) : Seg g row x pos (a ++ b) z q := by
  induction h with
  | nil => exact h'
  | pre hc _ ih => exact .pre hc (ih h')
  | operand hn hc _ ih => exact .operand hn hc (ih h')
  | inf hc _ ih => exact .inf hc (ih h')
  | post hn hc _ ih => exact .post hn hc (ih h')

theorem Seg.reads {row : Row} {e : Ending} {x y : Expects} {a : List Tok} {pos p : Nat}
    (h : Seg g row x pos a y p) (h' : Reads g row e y p [] p) : Reads g row e x pos a p := by
  induction h with
  | nil => exact h'
  | pre hc _ ih => exact .pre hc (ih h')
  | operand hn hc _ ih => exact .operand hn hc (ih h')
  | inf hc _ ih => exact .inf hc (ih h')
  | post hn hc _ ih => exact .post hn hc (ih h')

/-- What is known of the tokens from `x` at `pos` to an operator position `q`. -/
def Segs (g : Grammar) (row : Row) (x : Expects) (pos q : Nat) : Prop :=
  ∃ toks, Seg g row x pos toks .operator q ∧ ∀ tk ∈ toks, ErrorFree g tk.node

theorem Segs.trans {row : Row} {x : Expects} {pos p q : Nat} (h : Segs g row x pos p)
    (h' : Segs g row .operator p q) : Segs g row x pos q := by
  obtain ⟨a, h1, h2⟩ := h
  obtain ⟨b, h3, h4⟩ := h'
  refine ⟨a ++ b, h1.trans h3, fun tk htk => ?_⟩
  rcases List.mem_append.1 htk with h | h
  · exact h2 tk h
  · exact h4 tk h

/-- An expression may end here. -/
def Ended (g : Grammar) (row : Row) (e : Ending) (q : Nat) : Prop :=
  row.length ≤ q ∨ ∃ s, e = .sym s ∧ row[q]? = some (.symbol s) ∧ ∀ role, NoneOf g role row q

/-- The claim about a call of the parser. -/
def Tokens (g : Grammar) (call : Rec) : Prop := ∀ row pos min e res q,
  call row pos min e = .ok (res, q) → ErrorFree g res.node →
    Segs g row .operand pos q ∧ ∀ t, res = .stop t → Ended g row e q

theorem canParse_false {f : Nat} {row : Row} {pos : Nat} {role : Role}
    (h : canParse (pratt g f) g row pos (g.ofRole role) = .ok false) : NoneOf g role row pos := by
  unfold canParse at h
  obtain ⟨o, ho, h⟩ := M.bind_eq_ok.1 h
  cases o with
  | some x => cases h
  | none => exact noneOf_of_parseIter ho

theorem canParseEither_false {f : Nat} {row : Row} {pos : Nat} {role role' : Role}
    (h : canParseEither (pratt g f) g row pos (g.ofRole role) (g.ofRole role') = .ok false) :
    NoneOf g role row pos ∧ NoneOf g role' row pos := by
  unfold canParseEither at h
  obtain ⟨o, ho, h⟩ := M.bind_eq_ok.1 h
  cases o with
  | true => cases h
  | false => exact ⟨canParse_false ho, canParse_false h⟩

theorem ended_of_atEnd {row : Row} {e : Ending} {pos : Nat} (h : isAtEnd row pos e = true)
    (hn : ∀ role, NoneOf g role row pos) : Ended g row e pos := by
  cases e with
  | eof => exact .inl (by simpa [isAtEnd, atInputEnd] using h)
  | sym s =>
    simp only [isAtEnd, atInputEnd, Bool.or_eq_true, decide_eq_true_eq] at h
    rcases h with h | h
    · exact .inl h
    · obtain ⟨⟨s', p⟩, h⟩ := Option.isSome_iff_exists.1 h
      obtain ⟨-, h1, h2, -⟩ := selectSym_spec h
      have : s' = s := by simpa using h1
      subst this
      exact .inr ⟨s', rfl, h2, hn⟩

theorem Segs.cons_inf {row : Row} {pos p q : Nat} {op : SNode} {r : Rule}
    (h : Chosen g .infix row pos op r p) (ho : ErrorFree g op) (hs : Segs g row .operand p q) :
    Segs g row .operator pos q := by
  obtain ⟨a, h1, h2⟩ := hs
  exact ⟨_, .inf h h1, List.forall_mem_cons.2 ⟨ho, h2⟩⟩

theorem prattStart_tokens {f : Nat} (hc : Tokens g (pratt g f)) {row : Row} {e : Ending}
    {pos q : Nat} {s : Start} (h : prattStart (pratt g f) g row e pos = .ok (s, q)) :
    match s with
    | .left t => ErrorFree g t → Segs g row .operand pos q
    | .finished t => ErrorFree g t → Segs g row .operand pos q ∧ Ended g row e q := by
  unfold prattStart at h
  split at h
  · obtain ⟨t, ht, h⟩ := M.bind_eq_ok.1 h
    cases h
    exact fun hf => absurd hf (missingAtom_error ht)
  · obtain ⟨o, ho, h⟩ := M.bind_eq_ok.1 h
    cases o with
    | some x =>
      obtain ⟨op, r, p1⟩ := x
      have hch : Chosen g .prefix row pos op r p1 := chosen_of_parseIter (role := .prefix) ho
      obtain ⟨⟨right, p2⟩, hcall, h⟩ := M.bind_eq_ok.1 h
      obtain ⟨t, ht, h⟩ := M.bind_eq_ok.1 h
      have key : ErrorFree g t → Segs g row .operand pos p2 ∧ ∀ u, right = .stop u → Ended g row e p2 := by
        intro hf
        obtain ⟨h1, h2⟩ := hf.prefix ht
        obtain ⟨⟨a, h3, h4⟩, h5⟩ := hc _ _ _ _ _ _ hcall h2
        exact ⟨⟨_, .pre hch h3, List.forall_mem_cons.2 ⟨h1, h4⟩⟩, h5⟩
      cases right with
      | expression u => cases h; exact fun hf => (key hf).1
      | stop u => cases h; exact fun hf => ⟨(key hf).1, (key hf).2 u rfl⟩
    | none =>
      have hpre : NoneOf g .prefix row pos := noneOf_of_parseIter (role := .prefix) ho
      obtain ⟨o, ho, h⟩ := M.bind_eq_ok.1 h
      cases o with
      | some x =>
        obtain ⟨t, r, p1⟩ := x
        cases h
        exact fun hf => ⟨_, .operand hpre (chosen_of_parseIter (role := .atom) ho) .nil,
          List.forall_mem_cons.2 ⟨hf, nofun⟩⟩
      | none =>
        obtain ⟨b, hb, h⟩ := M.bind_eq_ok.1 h
        cases b with
        | true =>
          obtain ⟨t, ht, h⟩ := M.bind_eq_ok.1 h
          cases h
          exact fun hf => absurd hf (missingAtom_error ht)
        | false =>
          simp only [Bool.false_eq_true, if_false] at h
          split at h
          · obtain ⟨t, ht, h⟩ := M.bind_eq_ok.1 h
            cases h
            exact fun hf => absurd hf (missingAtom_error ht)
          · obtain ⟨⟨t, p1⟩, ht, h⟩ := M.bind_eq_ok.1 h
            cases h
            exact fun hf => absurd hf (parseUnknown_error ht)

theorem prattLoop_tokens {f : Nat} (hc : Tokens g (pratt g f)) {row : Row} {min : Power} {e : Ending} :
    ∀ (n : Nat) {left : SNode} {pos q : Nat} {res : PResult},
    prattLoop (pratt g f) g row min e n left pos = .ok (res, q) → ErrorFree g res.node →
    ErrorFree g left ∧ Segs g row .operator pos q ∧ ∀ t, res = .stop t → Ended g row e q
  | 0, _, _, _, _, h, _ => by cases h
  | n + 1, left, pos, q, res, h, hf => by
    have nil : Segs g row .operator pos pos := ⟨[], .nil, nofun⟩
    rw [prattLoop] at h
    split at h
    · rename_i hend
      cases h
      exact ⟨hf, nil, fun _ _ => .inl (by simpa [atInputEnd] using hend)⟩
    · obtain ⟨o, ho, h⟩ := M.bind_eq_ok.1 h
      cases o with
      | some x =>
        obtain ⟨op, r, p1⟩ := x
        have hch : Chosen g .infix row pos op r p1 := chosen_of_parseIter (role := .infix) ho
        simp only at h
        split at h
        · cases h
          exact ⟨hf, nil, nofun⟩
        · obtain ⟨⟨right, p2⟩, hcall, h⟩ := M.bind_eq_ok.1 h
          obtain ⟨t, ht, h⟩ := M.bind_eq_ok.1 h
          cases right with
          | expression u =>
            obtain ⟨h1, h2, h3⟩ := prattLoop_tokens hc n h hf
            obtain ⟨h4, h5, h6⟩ := h1.infix ht
            obtain ⟨h7, -⟩ := hc _ _ _ _ _ _ hcall h6
            exact ⟨h5, (Segs.cons_inf hch h4 h7).trans h2, h3⟩
          | stop u =>
            cases h
            obtain ⟨h4, h5, h6⟩ := ErrorFree.infix ht hf
            obtain ⟨h7, h8⟩ := hc _ _ _ _ _ _ hcall h6
            exact ⟨h5, Segs.cons_inf hch h4 h7, fun _ _ => h8 u rfl⟩
      | none =>
        have hinf : NoneOf g .infix row pos := noneOf_of_parseIter (role := .infix) ho
        obtain ⟨o, ho, h⟩ := M.bind_eq_ok.1 h
        cases o with
        | some x =>
          obtain ⟨op, r, p1⟩ := x
          have hch : Chosen g .postfix row pos op r p1 := chosen_of_parseIter (role := .postfix) ho
          simp only at h
          split at h
          · cases h
            exact ⟨hf, nil, nofun⟩
          · obtain ⟨t, ht, h⟩ := M.bind_eq_ok.1 h
            obtain ⟨h1, ⟨a, h2, h2'⟩, h3⟩ := prattLoop_tokens hc n h hf
            obtain ⟨h4, h5⟩ := h1.postfix ht
            exact ⟨h5, ⟨_, .post hinf hch h2, List.forall_mem_cons.2 ⟨h4, h2'⟩⟩, h3⟩
        | none =>
          have hpost : NoneOf g .postfix row pos := noneOf_of_parseIter (role := .postfix) ho
          obtain ⟨b, hb, h⟩ := M.bind_eq_ok.1 h
          cases b with
          | true =>
            simp only [if_true] at h
            split at h
            · cases h
              exact ⟨hf, nil, nofun⟩
            · obtain ⟨⟨right, p2⟩, hcall, h⟩ := M.bind_eq_ok.1 h
              obtain ⟨t, ht, h⟩ := M.bind_eq_ok.1 h
              cases right with
              | expression u =>
                exact absurd (prattLoop_tokens hc n h hf).1 (missingOperator_error ht)
              | stop u =>
                cases h
                exact absurd hf (missingOperator_error ht)
          | false =>
            obtain ⟨hpre, hatom⟩ := canParseEither_false (role := .prefix) (role' := .atom) hb
            simp only [Bool.false_eq_true, if_false] at h
            split at h
            · rename_i hend
              cases h
              refine ⟨hf, nil, fun _ _ => ended_of_atEnd hend fun role => ?_⟩
              cases role <;> assumption
            · obtain ⟨⟨right, p2⟩, hcall, h⟩ := M.bind_eq_ok.1 h
              obtain ⟨t, ht, h⟩ := M.bind_eq_ok.1 h
              exact absurd (prattLoop_tokens hc n h hf).1 (missingOperator_error ht)

theorem pratt_tokens (g : Grammar) : ∀ f, Tokens g (pratt g f)
  | 0 => fun _ _ _ _ _ _ h => by cases h
  | f + 1 => fun row pos min e res q h hf => by
    rw [pratt, prattBody] at h
    obtain ⟨⟨s, p⟩, hs, h⟩ := M.bind_eq_ok.1 h
    have hstart := prattStart_tokens (pratt_tokens g f) hs
    cases s with
    | finished t =>
      cases h
      exact ⟨(hstart hf).1, fun _ _ => (hstart hf).2⟩
    | left t =>
      obtain ⟨h1, h2, h3⟩ := prattLoop_tokens (pratt_tokens g f) _ h hf
      exact ⟨(hstart h1).trans h2, h3⟩

/-! ## With the lowest binding power nothing is left for a caller -/

theorem prattLoop_stop {call : Rec} {row : Row} {e : Ending} : ∀ (n : Nat) {left : SNode} {pos q : Nat}
    {res : PResult}, prattLoop call g row (0, .weak) e n left pos = .ok (res, q) → ∃ t, res = .stop t
  | 0, _, _, _, _, h => by cases h
  | n + 1, left, pos, q, res, h => by
    rw [prattLoop] at h
    simp only [power_not_lt_zero, Bool.false_eq_true, if_false] at h
    split at h
    · cases h; exact ⟨_, rfl⟩
    · obtain ⟨o, ho, h⟩ := M.bind_eq_ok.1 h
      cases o with
      | some x =>
        obtain ⟨⟨right, p2⟩, hcall, h⟩ := M.bind_eq_ok.1 h
        obtain ⟨t, ht, h⟩ := M.bind_eq_ok.1 h
        cases right with
        | expression u => exact prattLoop_stop n h
        | stop u => cases h; exact ⟨_, rfl⟩
      | none =>
        obtain ⟨o, ho, h⟩ := M.bind_eq_ok.1 h
        cases o with
        | some x =>
          obtain ⟨t, ht, h⟩ := M.bind_eq_ok.1 h
          exact prattLoop_stop n h
        | none =>
          obtain ⟨b, hb, h⟩ := M.bind_eq_ok.1 h
          cases b with
          | true =>
            obtain ⟨⟨right, p2⟩, hcall, h⟩ := M.bind_eq_ok.1 h
            obtain ⟨t, ht, h⟩ := M.bind_eq_ok.1 h
            cases right with
            | expression u => exact prattLoop_stop n h
            | stop u => cases h; exact ⟨_, rfl⟩
          | false =>
            simp only [Bool.false_eq_true, if_false] at h
            split at h
            · cases h; exact ⟨_, rfl⟩
            · obtain ⟨⟨right, p2⟩, hcall, h⟩ := M.bind_eq_ok.1 h
              obtain ⟨t, ht, h⟩ := M.bind_eq_ok.1 h
              exact prattLoop_stop n h

theorem pratt_stop {f : Nat} {row : Row} {pos q : Nat} {e : Ending} {res : PResult}
    (h : pratt g f row pos (0, .weak) e = .ok (res, q)) : ∃ t, res = .stop t := by
  cases f with
  | zero => cases h
  | succ f =>
    rw [pratt, prattBody] at h
    obtain ⟨⟨s, p⟩, hs, h⟩ := M.bind_eq_ok.1 h
    cases s with
    | finished t => cases h; exact ⟨_, rfl⟩
    | left t => exact prattLoop_stop _ h

/-! ## Brackets -/

theorem whitespaces_inner {b : BuiltIn} {sb sa : Option SNode} {t t' : SNode} {lo hi : Nat}
    (h : b.whitespacesNode sb t sa lo hi = .ok t') (hf : ErrorFree g t') : ErrorFree g t := by
  unfold BuiltIn.whitespacesNode at h
  cases sb <;> cases sa
  · cases h; exact hf
  all_goals
    have := new_eq h
    subst this
    exact hf.parts.2 _ (by simp)

theorem scripts_inner {call : Rec} {row : Row} : ∀ (n : Nat) {t t' : SNode} {pos p : Nat},
    parseScripts call g row n t pos = .ok (t', p) → ErrorFree g t' → ErrorFree g t
  | 0, _, _, _, _, h, _ => by cases h
  | n + 1, t, t', pos, p, h, hf => by
    unfold parseScripts at h
    obtain ⟨o, ho, h⟩ := M.bind_eq_ok.1 h
    cases o with
    | some x =>
      obtain ⟨s, p1⟩ := x
      obtain ⟨u, hu, h⟩ := M.bind_eq_ok.1 h
      exact ((scripts_inner n h hf).postfix hu).2
    | none =>
      obtain ⟨o, ho, h⟩ := M.bind_eq_ok.1 h
      cases o with
      | some x =>
        obtain ⟨s, p1⟩ := x
        obtain ⟨u, hu, h⟩ := M.bind_eq_ok.1 h
        exact ((scripts_inner n h hf).postfix hu).2
      | none => cases h; exact hf

/-- The expression between brackets has been parsed to a part of the tree. -/
theorem brackets_inner {row : Row} {r : Rule} {f pos p n : Nat} {o cl : Str} {t : SNode}
    (hr : r.parser = .brackets n o cl) (h : ruleParse (pratt g f) g r row pos = .ok (some (t, p)))
    (hf : ErrorFree g t) : pos + leadingSpaces (row.drop pos) + 1 ≤ row.length ∧
      ∃ f res q, pratt g f row (pos + leadingSpaces (row.drop pos) + 1) (0, .weak) (.sym cl) =
        .ok (res, q) ∧ ErrorFree g res.node := by
  unfold ruleParse at h
  obtain ⟨⟨sb, p1⟩, hsb, h⟩ := M.bind_eq_ok.1 h
  have hp1 := parseSpaces_pos hsb
  rw [← hp1]
  obtain ⟨oo, ho, h⟩ := M.bind_eq_ok.1 h
  cases oo with
  | none => cases h
  | some x =>
    obtain ⟨c, p2⟩ := x
    obtain ⟨node, hnode, h⟩ := M.bind_eq_ok.1 h
    obtain ⟨⟨sa, p3⟩, hsa, h⟩ := M.bind_eq_ok.1 h
    obtain ⟨t', ht', h⟩ := M.bind_eq_ok.1 h
    have hf' : ErrorFree g t' := by
      split at h
      · obtain ⟨⟨u, p4⟩, hu, h⟩ := M.bind_eq_ok.1 h
        cases h
        exact scripts_inner _ hu hf
      · cases h
        exact hf
    have hfn := whitespaces_inner ht' hf'
    rw [hr] at ho
    simp only [tokenParse] at ho
    unfold parseBrackets at ho
    cases h1 : selectSym (fun s => s == o) row p1 with
    | none => rw [h1] at ho; cases ho
    | some x =>
      obtain ⟨l, p1'⟩ := x
      obtain ⟨hs, -, -, rfl⟩ := selectSym_spec h1
      simp only [h1] at ho
      obtain ⟨⟨res, q⟩, hcall, ho⟩ := M.bind_eq_ok.1 ho
      refine ⟨hs.le, f, res, q, hcall, ?_⟩
      cases h2 : selectSym (fun s => s == cl) row q with
      | none => simp only [h2] at ho; cases ho
      | some y =>
        obtain ⟨r', p3'⟩ := y
        simp only [h2, new_leaf, M.ok_bind] at ho
        cases ho
        have := new_eq hnode
        subst this
        exact hfn.parts.2 _ (by simp)

/-! ## Rows -/

theorem Seg.end_le (hg : g.Good) {row : Row} (hw : rowWf row = true) {x y : Expects} {pos q : Nat}
    {toks : List Tok} (h : Seg g row x pos toks y q) (hp : pos ≤ row.length) : q ≤ row.length := by
  have deep : ∀ {pos}, pos ≤ row.length → Deep g row pos (restWeight row pos) :=
    fun hp => ⟨hg, hw, hp, Nat.le_refl _⟩
  induction h with
  | nil => exact hp
  | pre hc _ ih => exact ih (hc.fills (deep hp)).1.le.2
  | operand _ hc _ ih => exact ih (hc.fills (deep hp)).1.le.2
  | inf hc _ ih => exact ih (hc.fills (deep hp)).1.le.2
  | post _ hc _ ih => exact ih (hc.fills (deep hp)).1.le.2

theorem reads_from (hg : g.Good) {row : Row} (hw : rowWf row = true) {x : Expects} {e : Ending}
    {pos q : Nat} {toks : List Tok} (h : Reads g row e x pos toks q) (hp : pos ≤ row.length) :
    ∀ tk ∈ toks, pos ≤ tk.node.lo := by
  have deep : ∀ {pos}, pos ≤ row.length → Deep g row pos (restWeight row pos) :=
    fun hp => ⟨hg, hw, hp, Nat.le_refl _⟩
  induction h with
  | endOfRow => exact nofun
  | closing _ _ _ => exact nofun
  | pre hc _ ih =>
    have hf := hc.fills (deep hp)
    exact List.forall_mem_cons.2 ⟨by rw [Tok.node, hf.1.lo_eq]; exact Nat.le_refl _,
      fun tk htk => Nat.le_trans hf.1.le.1 (ih hf.1.le.2 tk htk)⟩
  | inf hc _ ih =>
    have hf := hc.fills (deep hp)
    exact List.forall_mem_cons.2 ⟨by rw [Tok.node, hf.1.lo_eq]; exact Nat.le_refl _,
      fun tk htk => Nat.le_trans hf.1.le.1 (ih hf.1.le.2 tk htk)⟩
  | operand _ hc _ ih =>
    have hf := hc.fills (deep hp)
    exact List.forall_mem_cons.2 ⟨by rw [Tok.node, hf.1.lo_eq]; exact Nat.le_refl _,
      fun tk htk => Nat.le_trans hf.1.le.1 (ih hf.1.le.2 tk htk)⟩
  | post _ hc _ ih =>
    have hf := hc.fills (deep hp)
    exact List.forall_mem_cons.2 ⟨by rw [Tok.node, hf.1.lo_eq]; exact Nat.le_refl _,
      fun tk htk => Nat.le_trans hf.1.le.1 (ih hf.1.le.2 tk htk)⟩

theorem clean_from (hg : g.Good) {row : Row} (hw : rowWf row = true) : ∀ (k : Nat) {pos : Nat}
    {e : Ending} {f q : Nat} {res : PResult}, row.length ≤ pos + k → pos ≤ row.length →
    pratt g f row pos (0, .weak) e = .ok (res, q) → ErrorFree g res.node → CleanFrom g row pos e
  | k, pos, e, f, q, res, hk, hp, h, hf => by
    obtain ⟨⟨toks, hseg, hfree⟩, hend⟩ := pratt_tokens g f _ _ _ _ _ _ h hf
    obtain ⟨t, rfl⟩ := pratt_stop h
    have hq := hseg.end_le hg hw hp
    have hstop : Reads g row e .operator q [] q := by
      rcases hend t rfl with h | ⟨s, h1, h2, h3⟩
      · have : q = row.length := by omega
        subst this
        exact .endOfRow
      · exact .closing h1 h2 h3
    have hreads := hseg.reads hstop
    refine .mk hreads fun tk htk n o c hpar => ?_
    obtain ⟨hlo, role, p, before, after, -, -, ⟨f', hf'⟩, -⟩ := reads_chosen hg hw hreads hp tk htk
    obtain ⟨hle, f'', res', q', hcall, hfr⟩ := brackets_inner hpar hf' (hfree tk htk)
    have hge := reads_from hg hw hreads hp tk htk
    match k with
    | 0 => omega
    | k + 1 => exact clean_from hg hw k (by omega) hle hcall hfr

mutual
theorem Fills.cell {Q : Row → SNode → Prop} {row : Row} {i : Nat} {v : Variant} {cells : List Row}
    {w : Nat} (hi : row[i]? = some (Node.container v cells w)) : ∀ {t : SNode}, Fills Q row t →
    t.lo ≤ i → i < t.hi → ErrorFree g t → ∀ c ∈ cells, ∃ t, Q c t ∧ ErrorFree g t
  | .leaf _ lo hi' _ ss', h, h1, h2, _ => by
    exfalso
    simp only [Fills] at h
    obtain ⟨-, ss, hs, hl, -⟩ := h
    simp only [SNode.lo, SNode.hi] at h1 h2
    have := congrArg (fun l => l[i - lo]?) hs
    simp only [List.getElem?_take, List.getElem?_drop, List.getElem?_map] at this
    rw [if_pos (by omega), show lo + (i - lo) = i by omega, hi] at this
    cases h : ss[i - lo]? <;> simp [h] at this
  | .newRows _ lo hi' ts w', h, h1, h2, hf => by
    simp only [Fills] at h
    simp only [SNode.lo, SNode.hi] at h1 h2
    obtain ⟨rfl, v', cells', hr, hc⟩ := h
    have : lo = i := by omega
    subst this
    rw [hi] at hr
    cases hr
    exact FillsCells.cell hc hf.rows.2
  | .children _ lo hi' cs, h, h1, h2, hf => by
    simp only [Fills] at h
    simp only [SNode.lo, SNode.hi] at h1 h2
    exact FillsList.cell hi h h1 h2 hf.parts.2
theorem FillsCells.cell {Q : Row → SNode → Prop} : ∀ {cells : List Row} {ts : List SNode},
    FillsCells Q cells ts → (∀ t ∈ ts, ErrorFree g t) → ∀ c ∈ cells, ∃ t, Q c t ∧ ErrorFree g t
  | [], _, _, _ => nofun
  | _ :: _, [], h, _ => by simp only [FillsCells] at h
  | r :: rs, t :: ts, h, hf => by
    simp only [FillsCells] at h
    intro c hc
    rcases List.mem_cons.1 hc with rfl | hc
    · exact ⟨t, h.2.2.1, hf t (List.mem_cons_self ..)⟩
    · exact FillsCells.cell h.2.2.2.2 (fun t ht => hf t (List.mem_cons_of_mem _ ht)) c hc
theorem FillsList.cell {Q : Row → SNode → Prop} {row : Row} {i : Nat} {v : Variant} {cells : List Row}
    {w : Nat} (hi : row[i]? = some (Node.container v cells w)) : ∀ {cs : List SNode} {lo hi' : Nat},
    FillsList Q row lo hi' cs → lo ≤ i → i < hi' → (∀ c ∈ cs, ErrorFree g c) →
    ∀ c ∈ cells, ∃ t, Q c t ∧ ErrorFree g t
  | [], lo, hi', h, h1, h2, _ => by simp only [FillsList] at h; omega
  | c :: cs, lo, hi', h, h1, h2, hf => by
    simp only [FillsList] at h
    by_cases hlt : i < c.hi
    · exact Fills.cell hi h.2.1 (by omega) hlt (hf c (List.mem_cons_self ..))
    · exact FillsList.cell hi h.2.2 (by omega) h2 fun d hd => hf d (List.mem_cons_of_mem _ hd)
end

theorem clean_row (hg : g.Good) : ∀ (k : Nat) {row : Row}, rowWeight row ≤ k → rowWf row = true →
    ∀ {f t}, g.parseFuel f row = .ok t → ErrorFree g t → CleanRow g row
  | k, row, hk, hw, f, t, h, hf => by
    have hfrom : CleanFrom g row 0 .eof := by
      unfold Grammar.parseFuel parseWhole at h
      obtain ⟨⟨res, p⟩, hcall, h⟩ := M.bind_eq_ok.1 h
      simp only at h
      split at h
      · cases h
        exact clean_from hg hw row.length (by omega) (Nat.zero_le _) hcall hf
      · cases h
    refine .mk hfrom fun i v cells w hi c hc => ?_
    obtain ⟨t', ht', hfill⟩ := parse_ok hg hw
    have : t = t' := by
      have h1 := parseWhole_mono (pratt_mono g (Nat.le_add_right f (rowWeight row + 1))) row t h
      have h2 := parseWhole_mono (pratt_mono g (Nat.le_add_left (rowWeight row + 1) f)) row t' ht'
      rw [h1] at h2
      cases h2; rfl
    subst this
    have hlen := (List.getElem?_eq_some_iff.1 hi).1
    obtain ⟨tc, ⟨f', hq⟩, hfc⟩ := hfill.fills.cell hi (by rw [hfill.lo_eq]; omega)
      (by rw [hfill.hi_eq]; omega) hf c hc
    have hn := rowWf_get hw hi
    simp only [Node.wf, Bool.and_eq_true] at hn
    have h1 := rowWeight_lt_cells hc
    have h2 := restWeight_of_get hi
    have h3 := restWeight_le row (Nat.zero_le i)
    simp only [restWeight, List.drop_zero, Node.weight] at h2 h3
    match k with
    | 0 => omega
    | k + 1 => exact clean_row hg k (by omega) (cellsWf_iff.1 hn.2 c hc) hq hfc

end Aftermath
