import Verif.Proof.BracketsNames
import Verif.Proof.BracketsWithin
import Verif.Proof.NotationTokens
import Verif.Props.AnyRow
import Verif.Props.Notation

/-! # Property theorem C95: what stands in brackets is read like a row of its own -/

namespace Aftermath

variable {x : Xid} {g : Grammar} {m : NameMap}

/-- The rules that are shipped use brackets and quotes for nothing else. -/
theorem std_tame (S : Std x g m) (hx : x.Usual) : g.Tame where
  rules role r hr := by
    have hd : ∀ r ∈ shippedAtoms ++ shippedPrefixes ++ shippedInfixes ++ shippedPostfixes,
        r.parser.Tame := by
      simp only [shippedAtoms, shippedPrefixes, shippedInfixes, shippedPostfixes, List.cons_append,
        List.nil_append, List.forall_mem_cons, TokenParser.Tame, Ordinary]
      simp
    refine hd r ?_
    simp only [List.mem_append]
    cases role with
    | atom => exact .inl (.inl (.inl (S.atoms ▸ hr)))
    | «prefix» => exact .inl (.inl (.inr (S.prefixes ▸ hr)))
    | «infix» => exact .inl (.inr (S.infixes ▸ hr))
    | «postfix» => exact .inr (S.postfixes ▸ hr)
  round := ⟨⟨13, .atom, .brackets 0 ['('] [')']⟩, by rw [S.atoms]; simp [shippedAtoms], 0, rfl⟩
  string := ⟨⟨41, .atom, .string⟩, by rw [S.atoms]; simp [shippedAtoms], rfl⟩
  start c hc := by
    rw [S.start]
    refine (hx.reserved c ?_).1
    revert c
    decide +kernel
  continue_ c hc := by
    rw [S.continue_]
    refine (hx.reserved c ?_).2
    revert c
    decide +kernel

/-- What is read behind an opening bracket. -/
theorem inner_read (S : Std x g m) (hx : x.Usual) {pre r post row : Row}
    (h : Place pre r post row) (hw : rowWf r = true) {t : SNode} (ht : g.parse r = .ok t) (F : Nat)
    {res : PResult} {p : Nat}
    (hF : pratt g F row (pre.length + 1) (0, .weak) (.sym [')']) = .ok (res, p)) :
    res.node = t.shift (pre.length + 1) ∧ (t.shift (pre.length + 1)).lo = pre.length + 1 ∧
      (t.shift (pre.length + 1)).hi = p := by
  have hg := std_tame S hx
  obtain ⟨t', ht', hfill⟩ := parse_ok S.good hw
  rw [ht] at ht'
  cases ht'
  obtain ⟨⟨res', p'⟩, hr, hp⟩ := M.bind_eq_ok.1 ht
  dsimp only at hp
  split at hp
  · rename_i hlen
    cases hp
    subst hlen
    have hr' := pratt_mono g (Nat.le_max_right F _) _ _ _ _ _ hr
    obtain ⟨_, hb, rfl, -⟩ := pratt_step hg h.part _ 0 0 (0, .weak) .eof (.sym [')'])
      (Nat.zero_le _) h.inside (.closes rfl) _ hr'
    have hF' := pratt_mono g (Nat.le_max_left F (rowWeight r + 1)) _ _ _ _ _ hF
    rw [Nat.add_zero, hF'] at hb
    cases hb
    refine ⟨PResult.shift_node _, ?_, ?_⟩
    · rw [shift_lo, hfill.lo_eq]
    · rw [shift_hi, hfill.hi_eq]
  · cases hp

/-- **C95** What stands in brackets is read like a row of its own. Take a row `pre ( r ) post` in which
brackets and quotes are closed, also in `r`, and where the opening bracket is not in quotes. Its tree
has a node for the brackets, and the node between them is the tree of `r`, moved to its place. Nothing
of what stands outside of the brackets has an influence on it. The brackets are round brackets, or the
operator of a function application. -/
theorem C95 (hx : x.Usual) (h : createParser x = .ok (g, m)) {pre r post : Row} {n : Nat}
    (hw : rowWf (pre ++ sy '(' :: (r ++ sy ')' :: post)) = true)
    (hb : Balanced 0 (pre ++ sy '(' :: (r ++ sy ')' :: post)))
    (hpre : Balanced 0 (pre ++ List.replicate n (sy ')'))) (hr : Balanced 0 r) (hne : r ≠ []) :
    ∃ t T name, g.parse r = .ok t ∧ g.parse (pre ++ sy '(' :: (r ++ sy ')' :: post)) = .ok T ∧
      (hashGet m.values ["Core".toList, "RoundBrackets".toList] = some name ∨
        hashGet m.values ["BuiltIn".toList, "Operator".toList] = some name) ∧
      (bracketsAround name (t.shift (pre.length + 1))).PartOf T := by
  have S := createParser_std hx.toLetters h
  have hP : Place pre r post (pre ++ sy '(' :: (r ++ sy ')' :: post)) := ⟨rfl, hr, hne⟩
  have hwr : rowWf r = true := by
    simp only [rowWf_append, rowWf, Bool.and_eq_true] at hw
    exact hw.2.2.1
  obtain ⟨t, ht, -⟩ := parse_ok S.good hwr
  obtain ⟨T, hT, -⟩ := parse_ok S.good hw
  obtain ⟨⟨res, p⟩, hres, hp⟩ := M.bind_eq_ok.1 hT
  dsimp only at hp
  split at hp
  · rename_i hlen
    cases hp
    have hfind := pratt_find (std_tame S hx) hP (fun F res p hF => inner_read S hx hP hwr ht F hF)
      _ 0 0 (0, .weak) .eof ⟨Nat.zero_le _, 0, n, hpre⟩ hb (.eof rfl) _ hres
    rcases hfind with ⟨name, hf⟩ | hbef
    · refine ⟨t, _, name, ht, hT, ?_, hf⟩
      rcases parse_named S hT name _ hf with rfl | rfl
      · exact .inl (S.numbers (("Core", "RoundBrackets"), 13) (by decide +kernel))
      · exact .inr (S.numbers (("BuiltIn", "Operator"), 0) (by decide +kernel))
    · have := hbef.lt_length hP
      omega
  · cases hp

/-- **C95** All brackets in a tree are round brackets or operators. -/
theorem C95_names (hx : x.Letters) (h : createParser x = .ok (g, m)) {row : Row} {t u : SNode} {n : Nat}
    (ht : g.parse row = .ok t) (hu : (bracketsAround n u).PartOf t) :
    hashGet m.values ["Core".toList, "RoundBrackets".toList] = some n ∨
      hashGet m.values ["BuiltIn".toList, "Operator".toList] = some n := by
  have S := createParser_std hx h
  rcases parse_named S ht n u hu with rfl | rfl
  · exact .inl (S.numbers (("Core", "RoundBrackets"), 13) (by decide +kernel))
  · exact .inr (S.numbers (("BuiltIn", "Operator"), 0) (by decide +kernel))

/-- **C95** for brackets around a whole row: they are round brackets with the tree of the row in them. -/
theorem C95_alone (hx : x.Usual) (h : createParser x = .ok (g, m)) {r : Row} (hw : rowWf r = true)
    (hr : Balanced 0 r) (hne : r ≠ []) :
    ∃ t name, g.parse r = .ok t ∧
      hashGet m.values ["Core".toList, "RoundBrackets".toList] = some name ∧
      g.parse (sy '(' :: (r ++ [sy ')'])) = .ok (bracketsAround name (t.shift 1)) := by
  have S := createParser_std hx.toLetters h
  obtain ⟨t, ht, hfill⟩ := parse_ok S.good hw
  refine ⟨t, 13, ht, S.numbers (("Core", "RoundBrackets"), 13) (by decide +kernel), ?_⟩
  have hP : Place [] r [] (sy '(' :: (r ++ [sy ')'])) := ⟨rfl, hr, hne⟩
  have hwr : rowWf (sy '(' :: (r ++ [sy ')'])) = true := by
    simp [rowWf_append, rowWf, hw, sy_wf]
  obtain ⟨⟨res, p⟩, hres, hp⟩ := M.bind_eq_ok.1 ht
  dsimp only at hp
  split at hp
  · rename_i hlen
    cases hp
    subst hlen
    obtain ⟨_, hcall, rfl, -⟩ := pratt_step (std_tame S hx) hP.part _ 0 0 (0, .weak) .eof (.sym [')'])
      (Nat.zero_le _) hr (.closes rfl) _ hres
    have hget : (sy '(' :: (r ++ [sy ')']))[1 + r.length]? = some (sy ')') := by
      rw [Nat.add_comm, List.getElem?_cons_succ, List.getElem?_append_right (Nat.le_refl _)]
      simp
    have htok : tokenParse (pratt g (rowWeight r + 1)) g (.brackets 0 ['('] [')'])
        (sy '(' :: (r ++ [sy ')'])) 0 =
        .ok (some (.children [.leaf 0 0 1 .operator [['(']], res.node.shift 1,
          .leaf 0 (1 + r.length) (1 + r.length + 1) .operator [[')']]], 1 + r.length + 1)) := by
      have hs1 : selectSym (fun s => s == ['(']) (sy '(' :: (r ++ [sy ')'])) 0 = some (['('], 1) := rfl
      have hs2 : selectSym (fun s => s == [')']) (sy '(' :: (r ++ [sy ')'])) (1 + r.length) =
          some ([')'], 1 + r.length + 1) := by
        simp only [selectSym, hget]
        rfl
      simp only [tokenParse, parseBrackets, hs1, new_leaf]
      dsimp only [List.length_nil, Nat.zero_add, Nat.add_zero] at hcall
      simp only [hcall, hs2, M.ok_bind, PResult.shift_node]
    have hnode : SNode.new (tokenName g ⟨13, .atom, .brackets 0 ['('] [')']⟩) 0 (1 + r.length + 1)
        (.children [.leaf 0 0 1 .operator [['(']], res.node.shift 1,
          .leaf 0 (1 + r.length) (1 + r.length + 1) .operator [[')']]]) =
        .ok (bracketsAround 13 (res.node.shift 1)) := by
      have hlo : (res.node.shift 1).lo = 1 := by rw [shift_lo, hfill.lo_eq]
      have hhi : (res.node.shift 1).hi = 1 + r.length := by rw [shift_hi, hfill.hi_eq]
      rw [bracketsAround, hlo, hhi]
      exact new_three rfl hlo hhi.symm
    have hhead : isSym [')'] (r ++ [sy ')']).head? = false := by
      cases r with
      | nil => exact absurd rfl hne
      | cons n r =>
        cases hr with
        | other _ h2 _ _ => simpa [isSym_symbol] using h2
        | _ => rfl
    have hend : (sy '(' :: (r ++ [sy ')'])).length = 1 + r.length + 1 := by
      simp
      omega
    have hgetE : (sy '(' :: (r ++ [sy ')']))[1 + r.length + 1]? = none :=
      List.getElem?_eq_none (by omega)
    have hrule : ruleParse (pratt g (rowWeight r + 1)) g ⟨13, .atom, .brackets 0 ['('] [')']⟩
        (sy '(' :: (r ++ [sy ')'])) 0 =
        .ok (some (bracketsAround 13 (res.node.shift 1), 1 + r.length + 1)) := by
      unfold ruleParse
      rw [parseSpaces_none rfl]
      simp only [M.ok_bind, htok, hnode, parseSpaces_none (g := g) (pos := 1 + r.length + 1)
        (row := sy '(' :: (r ++ [sy ')'])) (by rw [hgetE]; rfl), BuiltIn.whitespacesNode]
      rw [parseScripts_stop (by rw [hgetE]; rfl)]
      rfl
    have hread : ReadsAny g (sy '(' :: (r ++ [sy ')'])) .eof .operand 0
        [.operand (bracketsAround 13 (res.node.shift 1))] (1 + r.length + 1) :=
      .operand (noneOf_here (role := .prefix) (i := 0) (rest := sy '(' :: (r ++ [sy ')'])) S.prefixes rfl rfl rfl)
        (chosen_first (role := .atom) (i := 0) (rest := sy '(' :: (r ++ [sy ')'])) S.atoms rfl rfl
          (open_atoms S hx hhead) hrule)
        (.ends (.inl hend.symm))
    exact C72_tree (T := .operand _) S.good hwr hread trivial
  · cases hp

/-! ## Examples -/

/-- The row `2*(a+"(")!`, with the contents `a+"("` of the brackets. -/
example : Balanced 0 (symbols "2*" ++ sy '(' :: (symbols "a+\"(\"" ++ sy ')' :: symbols "!")) ∧
    Balanced 0 (symbols "2*" ++ List.replicate 0 (sy ')')) ∧ Balanced 0 (symbols "a+\"(\"") := by
  have hr : ∀ {d : Nat} {r : Row}, Balanced d r → Balanced d (symbols "a+\"(\"" ++ r) := fun h =>
    .other (by decide) (by decide) (by decide) <| .other (by decide) (by decide) (by decide) <|
      .quotes (l := [['(']]) (.plain (by decide) (by decide) .nil) h
  have hp : ∀ {r : Row}, Balanced 0 r → Balanced 0 (symbols "2*" ++ r) := fun h =>
    .other (by decide) (by decide) (by decide) <| .other (by decide) (by decide) (by decide) h
  refine ⟨hp (.opening (hr (.closing (.other (by decide) (by decide) (by decide) .nil)))), hp .nil, ?_⟩
  have := hr (d := 0) (r := []) .nil
  rwa [List.append_nil] at this

example : parsesAs (symbols "a-b") "(Arithmetic::Subtract (Core::Variable \"a\") (BuiltIn::Operator \"-\") (Core::Variable \"b\"))" = true := by
  decide +kernel
example : parsesAs (symbols "2*(a-b)!") "(Arithmetic::Multiply (Arithmetic::Number \"2\") (BuiltIn::Operator \"*\") (Arithmetic::Factorial (Core::RoundBrackets (BuiltIn::Operator \"(\") (Arithmetic::Subtract (Core::Variable \"a\") (BuiltIn::Operator \"-\") (Core::Variable \"b\")) (BuiltIn::Operator \")\")) (BuiltIn::Operator \"!\")))" = true := by
  decide +kernel

/-- With errors in the brackets it is the same. -/
example : parsesAs (symbols "a*") "(Arithmetic::Multiply (Core::Variable \"a\") (BuiltIn::Operator \"*\") (Error::MissingToken))" = true := by
  decide +kernel
example : parsesAs (symbols "(a*)") "(Core::RoundBrackets (BuiltIn::Operator \"(\") (Arithmetic::Multiply (Core::Variable \"a\") (BuiltIn::Operator \"*\") (Error::MissingToken)) (BuiltIn::Operator \")\"))" = true := by
  decide +kernel

/-- `)(` is not balanced, and what is read between the brackets of `()()` is another thing. -/
example : parsesAs (symbols ")(") "(Error::MissingOperator (Error::UnknownToken \")\") (Error::MissingToken) (Error::UnknownToken \"(\"))" = true := by
  decide +kernel
example : parsesAs (symbols "()()") "(Function::FunctionApplication (Core::RoundBrackets (BuiltIn::Operator \"(\") (BuiltIn::Operator \")\")) (BuiltIn::Operator (BuiltIn::Operator \"(\") (BuiltIn::Operator \")\")))" = true := by
  decide +kernel

/-- The same with a quote that is not closed, which takes in the closing bracket. -/
example : parsesAs (symbols "\"") "(Error::UnknownToken \"\\\"\")" = true := by
  decide +kernel
example : parsesAs (symbols "(\")\"") "(Error::MissingOperator (Error::UnknownToken \"(\") (Error::MissingToken) (String::String \"\\\")\\\"\"))" = true := by
  decide +kernel

end Aftermath
