import Verif.Proof.Size
import Verif.Proof.EffortGrowth

/-! # Lemmas on the largest syntax trees -/

namespace Aftermath

variable {x : Xid} {g : Grammar} {m : NameMap}

/-- `!∑!∑…` -/
def brokenRow : Nat → Row
  | 0 => []
  | n + 1 => sy '!' :: sy '∑' :: brokenRow n

theorem broken_next : ∀ n, isSym [' '] (brokenRow n).head? = false ∧ isScript (brokenRow n).head? = false
  | 0 => ⟨rfl, rfl⟩
  | _ + 1 => ⟨rfl, rfl⟩

theorem broken_wf : ∀ n, rowWf (brokenRow n) = true
  | 0 => rfl
  | n + 1 => by simp [brokenRow, rowWf, sy, Node.wf, broken_wf n]

theorem broken_weight : ∀ n, rowWeight (brokenRow n) = 2 * n
  | 0 => rfl
  | n + 1 => by
    rw [brokenRow, rowWeight, rowWeight, broken_weight n, sy, sy, Node.weight, Node.weight]
    omega

/-- A rule for one symbol, without spaces and scripts around it. -/
theorem sign_parse {call : Rec} {row rest : Row} {pos : Nat} {c : Char} {r : Rule}
    (hd : row.drop pos = sy c :: rest) (hc : c ≠ ' ') (hr : r.parser = .symbols [[c]] .operator)
    (h1 : isSym [' '] rest.head? = false) (h2 : isScript rest.head? = false) :
    ruleParse call g r row pos =
      .ok (some (.leaf (tokenName g r) pos (pos + 1) .operator [[c]], pos + 1)) := by
  have hget : row[pos]? = some (.symbol [c]) := by rw [drop_head hd]; rfl
  have hnext : row[pos + 1]? = rest.head? := drop_head (drop_tail hd)
  have hj : justSymbols [[c]] row pos = some ([c], pos + 1) := by
    simp [justSymbols, hd, sy, List.isPrefixOf]
  unfold ruleParse
  rw [parseSpaces_none (by rw [hget]; simpa [isSym] using hc)]
  simp only [M.ok_bind, hr, tokenParse, hj, Option.map_some, new_leaf,
    parseSpaces_none (g := g) (by rw [hnext]; exact h1), BuiltIn.whitespacesNode]
  split
  · rw [parseScripts_stop (by rw [hnext]; exact h2)]
    rfl
  · rfl

/-- What can be parsed where the row goes on with `!`. -/
theorem bang_at (S : Std x g m) (hx : x.Usual) {row rest : Row} {pos : Nat}
    (hd : row.drop pos = sy '!' :: rest) (h1 : isSym [' '] rest.head? = false)
    (h2 : isScript rest.head? = false) :
    NoneOf g .prefix row pos ∧ NoneOf g .atom row pos ∧ NoneOf g .infix row pos ∧
      ∃ t r, t.size = 1 ∧ Chosen g .postfix row pos t r (pos + 1) := by
  have hs : isSym [' '] (sy '!' :: rest).head? = false := rfl
  have hd' : row.drop pos = sp 0 ++ (sy '!' :: rest) := hd
  have hr := hx.reserved '!' (by decide)
  refine ⟨noneOf_of_parseIter (f := 0) ?_, noneOf_of_parseIter (f := 0) ?_,
    noneOf_of_parseIter (f := 0) ?_,
    .leaf g.builtIn.operator pos (pos + 1) .operator [['!']],
    ⟨20, .postfix 600, .symbols [['!']] .operator⟩, ?_, chosen_of_parseIter (f := 0) ?_⟩
  · rw [Grammar.ofRole, S.prefixes, parseIter_starts hd' hs]; rfl
  · rw [Grammar.ofRole, S.atoms, parseIter_starts hd' hs]
    have : (shippedAtoms.filter fun r => starts g (sy '!' :: rest) r.parser) = [] := by
      simp [shippedAtoms, starts, sy, beginsWith, isSym, isIdentifierStart, S.start, hr, isDigits]
    rw [this]; rfl
  · rw [Grammar.ofRole, S.infixes, parseIter_starts hd' hs]; rfl
  · rfl
  · rw [Grammar.ofRole, S.postfixes, parseIter_starts hd' hs,
      show (shippedPostfixes.filter fun r => starts g (sy '!' :: rest) r.parser) =
        [⟨20, .postfix 600, .symbols [['!']] .operator⟩] from rfl, parseIter,
      sign_parse hd (by decide) rfl h1 h2]
    rfl

/-- What can be parsed where the row goes on with `∑`. -/
theorem sum_at (S : Std x g m) {row rest : Row} {pos : Nat}
    (hd : row.drop pos = sy '∑' :: rest) (h1 : isSym [' '] rest.head? = false)
    (h2 : isScript rest.head? = false) :
    NoneOf g .infix row pos ∧ NoneOf g .postfix row pos ∧
      ∃ t r, t.size = 1 ∧ Chosen g .prefix row pos t r (pos + 1) := by
  have hs : isSym [' '] (sy '∑' :: rest).head? = false := rfl
  have hd' : row.drop pos = sp 0 ++ (sy '∑' :: rest) := hd
  refine ⟨noneOf_of_parseIter (f := 0) ?_, noneOf_of_parseIter (f := 0) ?_,
    .leaf g.builtIn.operator pos (pos + 1) .operator [['∑']],
    ⟨25, .prefix 100, .symbols [['∑']] .operator⟩, ?_, chosen_of_parseIter (f := 0) ?_⟩
  · rw [Grammar.ofRole, S.infixes, parseIter_starts hd' hs]; rfl
  · rw [Grammar.ofRole, S.postfixes, parseIter_starts hd' hs]; rfl
  · rfl
  · rw [Grammar.ofRole, S.prefixes, parseIter_starts hd' hs,
      show (shippedPrefixes.filter fun r => starts g (sy '∑' :: rest) r.parser) =
        [⟨25, .prefix 100, .symbols [['∑']] .operator⟩] from rfl, parseIter,
      sign_parse hd (by decide) rfl h1 h2]
    rfl

theorem broken_reads (S : Std x g m) (hx : x.Usual) {row : Row} : ∀ (n : Nat) {pos : Nat},
    pos ≤ row.length → row.drop pos = brokenRow n →
    ∃ toks, ReadsAny g row .eof .operand pos toks row.length ∧ toksCost toks = 7 * n + 1
  | 0, pos, hp, hd => by
    have : pos = row.length := by
      have := congrArg List.length hd
      simp [brokenRow] at this
      omega
    subst this
    exact ⟨_, .missingEnd (.inl rfl), rfl⟩
  | n + 1, pos, hp, hd => by
    have hd2 := drop_tail hd
    have hd3 := drop_tail hd2
    obtain ⟨n1, n2, n3, t, r, ht, hc⟩ := bang_at S hx hd rfl rfl
    obtain ⟨n4, n5, t', r', ht', hc'⟩ := sum_at S hd2 (broken_next n).1 (broken_next n).2
    have hlen : pos + 1 + 1 ≤ row.length := by
      have := congrArg List.length hd
      simp [brokenRow] at this
      omega
    obtain ⟨toks, h1, h2⟩ := broken_reads S hx n hlen hd3
    refine ⟨_, .missing n1 n2 (.inr ⟨_, _, _, hc⟩) (.post n3 hc (.gap n4 n5 (.inl ⟨_, _, _, hc'⟩)
      (.pre hc' h1))), ?_⟩
    have : ∀ (tk : ETok) (ts : List ETok), toksCost (tk :: ts) = tk.cost + toksCost ts :=
      fun _ _ => by simp [toksCost]
    rw [this, this, this, this, h2]
    simp only [ETok.cost, missingAt, SNode.size, treesSize, ht, ht']
    omega

end Aftermath
