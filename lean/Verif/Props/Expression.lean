import Verif.Proof.Nesting
import Verif.Proof.ErrorTrees
import Verif.Props.Parse

/-! # C48 to C50: operators nest by binding power, later rules come first, no spurious errors

The vocabulary is in `Spec/Expression.lean`. -/

namespace Aftermath

/-! ## C49 -/

/-- **C49.** Whenever the parser looks for a rule of some role, it takes the one registered last
among those that can be parsed at this position, and it finds none only if there is none. -/
theorem C49 (g : Grammar) (role : Role) (row : Row) (pos f : Nat) :
    (∀ t r p, parseIter (pratt g f) g row pos (g.ofRole role) = .ok (some (t, r, p)) →
      Chosen g role row pos t r p) ∧
    (parseIter (pratt g f) g row pos (g.ofRole role) = .ok none → NoneOf g role row pos) :=
  ⟨fun _ _ _ => chosen_of_parseIter, noneOf_of_parseIter⟩

theorem Chosen.unique_last {g : Grammar} {role : Role} {row : Row} {pos : Nat} {t t' : SNode}
    {r r' : Rule} {p p' : Nat} (h : Chosen g role row pos t r p)
    (h' : Chosen g role row pos t' r' p') : t = t' ∧ r = r' ∧ p = p' := by
  obtain ⟨a, b, hs, hr, ⟨f, hf⟩, hall⟩ := h
  obtain ⟨a', b', hs', hr', ⟨f', hf'⟩, hall'⟩ := h'
  rw [hs] at hs'
  rcases List.append_eq_append_iff.1 hs' with ⟨c, h1, h2⟩ | ⟨c, h1, h2⟩
  · cases c with
    | nil =>
      simp only [List.nil_append, List.cons.injEq] at h2
      obtain ⟨rfl, rfl⟩ := h2
      cases ruleParse_unique hf hf'
      exact ⟨rfl, rfl, rfl⟩
    | cons x c =>
      simp only [List.cons_append, List.cons.injEq] at h2
      obtain ⟨rfl, rfl⟩ := h2
      obtain ⟨f2, hf2⟩ := hall r' (by simp) hr'
      cases ruleParse_unique hf' hf2
  · cases c with
    | nil =>
      simp only [List.nil_append, List.cons.injEq] at h2
      obtain ⟨rfl, rfl⟩ := h2
      cases ruleParse_unique hf hf'
      exact ⟨rfl, rfl, rfl⟩
    | cons x c =>
      simp only [List.cons_append, List.cons.injEq] at h2
      obtain ⟨rfl, rfl⟩ := h2
      obtain ⟨f2, hf2⟩ := hall' r (by simp) hr
      cases ruleParse_unique hf hf2

/-- **C49**, the other direction: with a usable rule set the parser finds the last rule wherever
there is one. -/
theorem C49_found (g : Grammar) (hg : g.Good) (role : Role) (row : Row) (hw : rowWf row = true)
    (pos : Nat) (hp : pos ≤ row.length) :
    ∃ bound, ∀ f, bound ≤ f →
      (∀ t r p, Chosen g role row pos t r p ↔
        parseIter (pratt g f) g row pos (g.ofRole role) = .ok (some (t, r, p))) ∧
      (NoneOf g role row pos ↔ parseIter (pratt g f) g row pos (g.ofRole role) = .ok none) := by
  refine ⟨restWeight row pos, fun f hf => ?_⟩
  have hd : Deep g row pos f := ⟨hg, hw, hp, hf⟩
  exact ⟨fun t r p => ⟨fun h => h.at hd, chosen_of_parseIter⟩,
    fun h => h.at hd, noneOf_of_parseIter⟩

/-! ## C48 -/

/-- **C48.** A row that reads as an operator expression is parsed to the syntax node of a tree that
has the same tokens in the same order and is nested by binding powers; and there is only one such
tree. -/
theorem C48 (g : Grammar) (hg : g.Good) (row : Row) (hw : rowWf row = true) (toks : List Tok) (q : Nat)
    (h : Reads g row .eof .operand 0 toks q) :
    ∃ T : PTree, g.parse row = .ok T.node ∧ T.tokens = toks ∧ T.Nested ∧
      ∀ T' : PTree, T'.tokens = toks → T'.Nested → T' = T := by
  obtain ⟨T, h1, h2, h3⟩ := pratt_reads hg hw (Nat.zero_le _) h
  refine ⟨T, ?_, h1, h2, fun T' h1' h2' => nested_unique h2' h2 (h1'.trans h1.symm)⟩
  have hcall := h3 (rowWeight row + 1) (by simp [restWeight])
  obtain ⟨t, ht, -⟩ := parse_ok hg hw
  rw [ht]
  unfold Grammar.parse Grammar.parseFuel parseWhole at ht
  rw [hcall] at ht
  simp only [M.ok_bind] at ht
  split at ht
  · rw [← ht]; rfl
  · cases ht

/-- **C48** in terms of the tree that was built. -/
theorem C48_tree (g : Grammar) (hg : g.Good) (row : Row) (hw : rowWf row = true) (toks : List Tok)
    (q : Nat) (h : Reads g row .eof .operand 0 toks q) (T : PTree) (ht : T.tokens = toks)
    (hn : T.Nested) : g.parse row = .ok T.node := by
  obtain ⟨T', h1, -, -, h2⟩ := C48 g hg row hw toks q h
  rw [h2 T ht hn]
  exact h1

/-- **C48** inside of brackets. -/
theorem C48_brackets (g : Grammar) (hg : g.Good) (row : Row) (hw : rowWf row = true) (s : Str)
    (pos : Nat) (hp : pos ≤ row.length) (toks : List Tok) (q : Nat)
    (h : Reads g row (.sym s) .operand pos toks q) :
    ∃ T : PTree, T.tokens = toks ∧ T.Nested ∧
      ∃ bound, ∀ f, bound ≤ f → pratt g f row pos (0, .weak) (.sym s) = .ok (.stop T.node, q) := by
  obtain ⟨T, h1, h2, h3⟩ := pratt_reads hg hw hp h
  exact ⟨T, h1, h2, _, fun f hf => h3 f (Nat.lt_of_succ_le hf)⟩

/-- **C48** for flat chains: an operator never sits below one with higher binding power; below and
to the right of a left infix operator there is nothing of the same power unless it is right
infix; below and to the left of a right infix operator there is nothing of the same power. -/
theorem C48_flat (g : Grammar) (hg : g.Good) (row : Row) (hw : rowWf row = true) (toks : List Tok)
    (q : Nat) (h : Reads g row .eof .operand 0 toks q) (hf : FlatToks toks) :
    ∃ T : PTree, g.parse row = .ok T.node ∧ T.tokens = toks ∧
      (T.ForInfix fun r x y => ∀ o ∈ x.ops ++ y.ops, r.power ≤ o.power) ∧
      (T.ForInfix fun r _ y => (∃ v, r.kind = .leftInfix v) →
        (∀ o ∈ y.ops, o.power = r.power → ∃ v, o.kind = .leftInfix v) →
        ∀ o ∈ y.ops, r.power < o.power) ∧
      (T.ForInfix fun r x _ => (∃ v, r.kind = .rightInfix v) → ∀ o ∈ x.ops, r.power < o.power) := by
  obtain ⟨T, h1, h2, h3, -⟩ := C48 g hg row hw toks q h
  have hflat := flat_of_tokens T (by rw [h2]; exact hf)
  exact ⟨T, h1, h2, flat_le hflat h3, flat_left hflat h3, flat_right hflat h3⟩

/-- **C48** for chains of left infix operators of the same power: they nest to the left. -/
theorem C48_left_chain (g : Grammar) (hg : g.Good) (row : Row) (hw : rowWf row = true)
    (a0 : Rule) (t0 : SNode) (l : List ((Rule × SNode) × (Rule × SNode))) (q v : Nat)
    (h : Reads g row .eof .operand 0 (.operand a0 t0 :: chainToks l) q)
    (hl : ∀ y ∈ l, y.1.1.kind = .leftInfix v) :
    g.parse row = .ok (leftChain (.operand a0 t0) l).node :=
  C48_tree g hg row hw _ q h _ (leftChain_tokens l _) (leftChain_nested hl trivial nofun)

/-- **C48** for chains of right infix operators of the same power: they nest to the right. -/
theorem C48_right_chain (g : Grammar) (hg : g.Good) (row : Row) (hw : rowWf row = true)
    (a0 : Rule) (t0 : SNode) (l : List ((Rule × SNode) × (Rule × SNode))) (q v : Nat)
    (h : Reads g row .eof .operand 0 (.operand a0 t0 :: chainToks l) q)
    (hl : ∀ y ∈ l, y.1.1.kind = .rightInfix v) :
    g.parse row = .ok (rightChain a0 t0 l).node :=
  C48_tree g hg row hw _ q h _ (rightChain_tokens l _ _) (rightChain_nested hl)

/-- **C48** for a prefix operator: it takes in a following infix operator exactly if that one binds
stronger (or the same and is not left infix). -/
theorem C48_prefix (g : Grammar) (hg : g.Good) (row : Row) (hw : rowWf row = true)
    (r s a b : Rule) (o p t u : SNode) (q : Nat)
    (h : Reads g row .eof .operand 0 [.pre r o, .operand a t, .inf s p, .operand b u] q)
    (hr : ∃ v, r.kind = .prefix v) :
    (r.power < s.power ∨ r.power = s.power ∧ (∀ v, s.kind ≠ .leftInfix v) →
      g.parse row = .ok (PTree.pre r o (.inf s p (.operand a t) (.operand b u))).node) ∧
    (s.power < r.power ∨ r.power = s.power ∧ (∃ v, s.kind = .leftInfix v) →
      g.parse row = .ok (PTree.inf s p (.pre r o (.operand a t)) (.operand b u)).node) := by
  obtain ⟨v, hv⟩ := hr
  refine ⟨fun hlt => C48_tree g hg row hw _ q h _ rfl ?_, fun hlt => C48_tree g hg row hw _ q h _ rfl ?_⟩
  · refine ⟨⟨trivial, trivial, nofun, nofun⟩, fun x hx => ?_⟩
    simp only [PTree.leftOps, List.mem_singleton] at hx
    subst hx
    rcases hlt with h1 | h1
    · exact .inl h1
    · exact .inr ⟨h1.1, .inl h1.2⟩
  · refine ⟨⟨trivial, nofun⟩, trivial, nofun, fun x hx => ?_⟩
    simp only [PTree.rightOps, List.mem_singleton] at hx
    subst hx
    rintro (h1 | ⟨h1, h2 | ⟨w, h2⟩⟩)
    · omega
    · rcases hlt with h3 | ⟨-, w, h3⟩
      · omega
      · exact h2 w h3
    · rw [hv] at h2
      cases h2

/-- **C49** and **C48** for a single token: the atom rule registered last determines the tree. -/
theorem C49_atom (g : Grammar) (hg : g.Good) (row : Row) (hw : rowWf row = true) (t : SNode) (r : Rule)
    (h0 : NoneOf g .prefix row 0) (h : Chosen g .atom row 0 t r row.length) :
    g.parse row = .ok t :=
  C48_tree g hg row hw _ _ (.operand h0 h .endOfRow) (.operand r t) rfl trivial

/-! ## C50 -/

/-- **C50.** The empty row parses to a missing token without children, for every rule set. -/
theorem C50_empty (g : Grammar) : g.parse [] = .ok (.children g.builtIn.missingToken 0 0 []) := rfl

/-- **C50.** A row parses to a tree without error nodes if and only if it is a well-formed operator
expression in which all brackets and all cells of containers are well-formed expressions again. -/
theorem C50 (g : Grammar) (hg : g.Good) (ha : g.ErrorsApart) (row : Row) (hw : rowWf row = true) :
    ∃ t, g.parse row = .ok t ∧ (ErrorFree g t ↔ CleanRow g row) := by
  obtain ⟨t, ht, -⟩ := parse_ok hg hw
  exact ⟨t, ht, clean_row hg _ (Nat.le_refl _) hw ht, fun h => errorFree_row hg ha h hw _ t ht⟩

/-- `Grammar.ErrorsApart` as a test. -/
def apartRules (b : BuiltIn) (rs : List Rule) : Bool :=
  let errs := [b.missingOperator, b.missingToken, b.unknownToken]
  [b.operator, b.whitespaces, b.whitespace, b.sub, b.sup].all (fun n => !errs.contains n) &&
  rs.all fun r => r.role == none || (!errs.contains r.name && (match r.parser with
    | .brackets n _ _ => !errs.contains n
    | .emptyBrackets n _ _ => !errs.contains n
    | _ => true))

theorem apart_of_apartRules {g : Grammar} (h : apartRules g.builtIn g.modules.flatten = true) :
    g.ErrorsApart := by
  unfold apartRules at h
  simp only [Bool.and_eq_true, List.all_eq_true, Bool.or_eq_true] at h
  refine ⟨fun n hn => ?_, fun r hr hrole => ?_, fun r hr hrole n o c hp => ?_⟩
  · have := h.1 n hn
    simpa [Grammar.errorNames] using this
  · rcases h.2 r hr with h1 | h1
    · exact absurd (by simpa using h1) hrole
    · simpa [Grammar.errorNames] using h1.1
  · rcases h.2 r hr with h1 | h1
    · exact absurd (by simpa using h1) hrole
    · have h2 := h1.2
      rcases hp with hp | hp <;> (rw [hp] at h2; simpa [Grammar.errorNames] using h2)

/-- The shipped rule collections satisfy the hypotheses of C48 to C50. -/
theorem createParser_apart {x : Xid} (hx : x.Letters) :
    ∃ g m, createParser x = .ok (g, m) ∧ g.Good ∧ g.ErrorsApart := by
  have h : (match createParser letterXid with
      | .ok r => goodRules r.1.rules && apartRules r.1.builtIn r.1.modules.flatten
      | .error _ => false) = true := by decide +kernel
  rw [createParser_eq hx]
  cases hc : createParser letterXid with
  | error e => rw [hc] at h; cases h
  | ok r =>
    rw [hc] at h
    simp only [Bool.and_eq_true] at h
    exact ⟨_, _, rfl,
      good_of_goodRules (g := ⟨r.1.builtIn, r.1.modules, x.start, x.continue_⟩) h.1,
      apart_of_apartRules (g := ⟨r.1.builtIn, r.1.modules, x.start, x.continue_⟩) h.2⟩

/-- **C50** for the rule collections that are shipped. -/
theorem C50_shipped (x : Xid) (hx : x.Letters) :
    ∃ g m, createParser x = .ok (g, m) ∧
      ∀ row, rowWf row = true → ∃ t, g.parse row = .ok t ∧ (ErrorFree g t ↔ CleanRow g row) := by
  obtain ⟨g, m, h, hg, ha⟩ := createParser_apart hx
  exact ⟨g, m, h, fun row hw => C50 g hg ha row hw⟩

/-! ## Examples

To find the tokens of a row by computation, here is a lexer; it is sound for `Reads`. -/

/-- Is this node the closing symbol? -/
def Ending.closes : Ending → Option Node → Bool
  | .sym s, some (.symbol s') => decide (s' = s)
  | _, _ => false

theorem Ending.closes_iff {e : Ending} {n : Option Node} (h : e.closes n = true) :
    ∃ s, e = .sym s ∧ n = some (.symbol s) := by
  unfold Ending.closes at h
  split at h
  · rename_i s s'
    have : s' = s := by simpa using h
    exact ⟨s, rfl, by rw [this]⟩
  · cases h

/-- Find the tokens. -/
def lexFrom (g : Grammar) (F : Nat) (row : Row) (e : Ending) :
    Nat → Expects → Nat → Option (List Tok × Nat)
  | 0, _, _ => none
  | n + 1, .operand, pos =>
    match parseIter (pratt g F) g row pos (g.ofRole .prefix) with
    | .error _ => none
    | .ok (some (op, r, p)) => (lexFrom g F row e n .operand p).map fun x => (.pre r op :: x.1, x.2)
    | .ok none =>
      match parseIter (pratt g F) g row pos (g.ofRole .atom) with
      | .ok (some (t, r, p)) =>
        (lexFrom g F row e n .operator p).map fun x => (.operand r t :: x.1, x.2)
      | _ => none
  | n + 1, .operator, pos =>
    if pos = row.length then some ([], pos) else
    match parseIter (pratt g F) g row pos (g.ofRole .infix) with
    | .error _ => none
    | .ok (some (op, r, p)) => (lexFrom g F row e n .operand p).map fun x => (.inf r op :: x.1, x.2)
    | .ok none =>
      match parseIter (pratt g F) g row pos (g.ofRole .postfix) with
      | .error _ => none
      | .ok (some (op, r, p)) =>
        (lexFrom g F row e n .operator p).map fun x => (.post r op :: x.1, x.2)
      | .ok none =>
        match parseIter (pratt g F) g row pos (g.ofRole .prefix) with
        | .ok none =>
          match parseIter (pratt g F) g row pos (g.ofRole .atom) with
          | .ok none =>
            if e.closes row[pos]? then some ([], pos) else none
          | _ => none
        | _ => none

theorem lexFrom_reads {g : Grammar} {F : Nat} {row : Row} {e : Ending} : ∀ (n : Nat) (x : Expects)
    (pos : Nat) {toks : List Tok} {q : Nat}, lexFrom g F row e n x pos = some (toks, q) →
    Reads g row e x pos toks q
  | 0, _, _, _, _, h => by cases h
  | n + 1, .operand, pos, toks, q, h => by
    rw [lexFrom] at h
    split at h
    · cases h
    · rename_i op r p hp
      obtain ⟨⟨ts, q'⟩, h1, h2⟩ := Option.map_eq_some_iff.1 h
      cases h2
      exact .pre (chosen_of_parseIter hp) (lexFrom_reads n _ _ h1)
    · rename_i hp
      split at h
      · rename_i t r p ha
        obtain ⟨⟨ts, q'⟩, h1, h2⟩ := Option.map_eq_some_iff.1 h
        cases h2
        exact .operand (noneOf_of_parseIter hp) (chosen_of_parseIter ha) (lexFrom_reads n _ _ h1)
      · cases h
  | n + 1, .operator, pos, toks, q, h => by
    rw [lexFrom] at h
    split at h
    · rename_i hp
      cases h
      rw [hp]
      exact .endOfRow
    · split at h
      · cases h
      · rename_i op r p hp
        obtain ⟨⟨ts, q'⟩, h1, h2⟩ := Option.map_eq_some_iff.1 h
        cases h2
        exact .inf (chosen_of_parseIter hp) (lexFrom_reads n _ _ h1)
      · rename_i hi
        split at h
        · cases h
        · rename_i op r p hp
          obtain ⟨⟨ts, q'⟩, h1, h2⟩ := Option.map_eq_some_iff.1 h
          cases h2
          exact .post (noneOf_of_parseIter hi) (chosen_of_parseIter hp) (lexFrom_reads n _ _ h1)
        · rename_i hpo
          split at h
          · rename_i hpr
            split at h
            · rename_i hat
              split at h
              · rename_i hs
                obtain ⟨s, he, hs⟩ := Ending.closes_iff hs
                cases h
                refine .closing he hs fun role => ?_
                cases role
                · exact noneOf_of_parseIter hat
                · exact noneOf_of_parseIter hpr
                · exact noneOf_of_parseIter hi
                · exact noneOf_of_parseIter hpo
              · cases h
            · cases h
          · cases h

/-- Test for `CleanFrom`. -/
def cleanFrom (g : Grammar) (F : Nat) (row : Row) : Nat → Nat → Ending → Bool
  | 0, _, _ => false
  | n + 1, pos, e =>
    match lexFrom g F row e F .operand pos with
    | none => false
    | some (toks, _) => toks.all fun tk => match tk.rule.parser with
      | .brackets _ _ c =>
        cleanFrom g F row n (tk.node.lo + leadingSpaces (row.drop tk.node.lo) + 1) (.sym c)
      | _ => true

theorem cleanFrom_sound {g : Grammar} {F : Nat} {row : Row} : ∀ (n pos : Nat) (e : Ending),
    cleanFrom g F row n pos e = true → CleanFrom g row pos e
  | 0, _, _, h => by cases h
  | n + 1, pos, e, h => by
    rw [cleanFrom] at h
    split at h
    · cases h
    · rename_i toks q hl
      refine .mk (lexFrom_reads _ _ _ hl) fun tk htk n' o c hp => ?_
      have := List.all_eq_true.1 h tk htk
      rw [hp] at this
      exact cleanFrom_sound n _ _ this

/-- Test for `CleanRow`. -/
def cleanRow (g : Grammar) (F : Nat) : Nat → Row → Bool
  | 0, _ => false
  | n + 1, row => cleanFrom g F row F 0 .eof && row.all fun x => match x with
    | .symbol _ => true
    | .container _ cells _ => cells.all fun c => cleanRow g F n c

theorem cleanRow_sound {g : Grammar} {F : Nat} : ∀ (n : Nat) (row : Row),
    cleanRow g F n row = true → CleanRow g row
  | 0, _, h => by cases h
  | n + 1, row, h => by
    rw [cleanRow] at h
    simp only [Bool.and_eq_true] at h
    refine .mk (cleanFrom_sound _ _ _ h.1) fun i v cells w hi c hc => ?_
    have := List.all_eq_true.1 h.2 _ (List.mem_of_getElem? hi)
    exact cleanRow_sound n c (List.all_eq_true.1 this c hc)

/-- The test on a row with the shipped rules. -/
def shippedClean (row : Row) : Bool :=
  match createParser asciiXid with
  | .error _ => false
  | .ok (g, _) => cleanRow g (rowWeight row + 1) (rowWeight row + 1) row

theorem shippedClean_sound {row : Row} (h : shippedClean row = true) :
    ∃ g m, createParser asciiXid = .ok (g, m) ∧ CleanRow g row := by
  unfold shippedClean at h
  split at h
  · cases h
  · rename_i g m hc
    exact ⟨g, m, hc, cleanRow_sound _ _ h⟩

/-- `a * ( - b + 1 ! ) ^ {x / y}`: a well-formed expression of the shipped rules, with brackets,
spaces, a superscript and a fraction. -/
def goodRow : Row :=
  [nsym "a", nsym "*", nsym "(", nsym "-", nsym " ", nsym "b", nsym "+", nsym "1", nsym "!",
    nsym ")", .container .sup [[.container .fraction [[nsym "x"], [nsym "y"]] 1]] 1]

example : rowWf goodRow = true ∧ shippedClean goodRow = true :=
  ⟨by decide +kernel, by decide +kernel⟩

/-- A row with an error is not a well-formed expression. -/
example : shippedClean [nsym "a", nsym "+"] = false := by decide +kernel

/-- The tokens of `a + b * c - d` with the shipped rules are an alternation of operands and infix
operators, as in C48_flat. -/
example : (match createParser asciiXid with
    | .error _ => false
    | .ok (g, _) =>
      match lexFrom g 8 [nsym "a", nsym "+", nsym "b", nsym "*", nsym "c", nsym "-", nsym "d"] .eof 8
        .operand 0 with
      | none => false
      | some (toks, q) => decide (q = 7) && toks.map (fun tk => match tk with
          | .operand _ _ => 0
          | .inf r _ => r.power
          | _ => 1) == [0, 100, 0, 200, 0, 100, 0]) = true := by decide +kernel

/-- A small rule set: the symbol `e` is registered twice, and `→` is right infix, of the same power
as the left infix operator `+` and the prefix operator `-`. -/
def toy : Grammar where
  builtIn := ⟨0, 1, 2, 3, 4, 5, 6, 7, 8⟩
  modules := [
    [⟨9, .atom, .container .fraction⟩, ⟨10, .atom, .container .root⟩,
      ⟨4, .postfix 1000, .container .sup⟩, ⟨3, .postfix 1000, .container .sub⟩,
      ⟨11, .atom, .container .table⟩],
    [⟨20, .atom, sym "e"⟩, ⟨21, .atom, sym "e"⟩, ⟨22, .atom, sym "f"⟩],
    [⟨30, .rightInfix 10, op "→"⟩, ⟨31, .leftInfix 10, op "+"⟩, ⟨32, .prefix 10, op "-"⟩]]
  xidStart := Char.isAlpha
  xidContinue := Char.isAlpha

/-- The toy rule set satisfies the hypotheses. -/
theorem toy_good : toy.Good ∧ toy.ErrorsApart :=
  ⟨good_of_goodRules (by decide +kernel), apart_of_apartRules (by decide +kernel)⟩

/-- The kinds and names of the rules of the tokens, for examples. -/
def lexNames (g : Grammar) (row : Row) : Option (List (Nat × Nat)) :=
  (lexFrom g (rowWeight row + 1) row .eof (rowWeight row + 1) .operand 0).map fun x =>
    x.1.map fun tk => (match tk with
      | .operand _ _ => 0
      | .pre _ _ => 1
      | .inf _ _ => 2
      | .post _ _ => 3, tk.rule.name)

/-- C49: of the two rules for `e` the later one counts. -/
example : lexNames toy [nsym "e", nsym "→", nsym "f", nsym "→", nsym "e"] =
    some [(0, 21), (2, 30), (0, 22), (2, 30), (0, 21)] := by decide +kernel

/-- C48_right_chain can be applied: the row is read as in its hypothesis, and it nests to the
right. -/
example : (match toy.parse [nsym "e", nsym "→", nsym "f", nsym "→", nsym "e"] with
    | .ok (.children 30 0 5 [.leaf 21 0 1 _ _, .leaf 0 1 2 _ _,
        .children 30 2 5 [.leaf 22 2 3 _ _, _, .leaf 21 4 5 _ _]]) => true
    | _ => false) = true := by decide +kernel

/-- C48_prefix: a prefix operator takes in `→` but not `+`. -/
example : (match toy.parse [nsym "-", nsym "f", nsym "→", nsym "e"],
      toy.parse [nsym "-", nsym "f", nsym "+", nsym "e"] with
    | .ok (.children 32 0 4 [_, .children 30 1 4 _]),
      .ok (.children 31 0 4 [.children 32 0 2 _, _, _]) => true
    | _, _ => false) = true := by decide +kernel

/-- Chains of equal power nest to the left for `+` and `-`. -/
example : parsesAs [nsym "a", nsym "-", nsym "b", nsym "-", nsym "c"]
    "(Arithmetic::Subtract (Arithmetic::Subtract (Core::Variable \"a\") (BuiltIn::Operator \"-\") (Core::Variable \"b\")) (BuiltIn::Operator \"-\") (Core::Variable \"c\"))" = true := by
  decide +kernel

end Aftermath
