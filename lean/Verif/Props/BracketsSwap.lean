import Verif.Proof.BracketsSwap
import Verif.Props.Brackets

/-! # Property theorem C96: a change within brackets changes nothing outside of them -/

namespace Aftermath

variable {x : Xid} {g : Grammar} {m : NameMap}

/-- **C96** when the first row is not the longer one. -/
theorem swapped_of_le (S : Std x g m) (hx : x.Usual) {pre r₁ r₂ post : Row} {n : Nat}
    (hw₁ : rowWf (pre ++ sy '(' :: (r₁ ++ sy ')' :: post)) = true)
    (hw₂ : rowWf (pre ++ sy '(' :: (r₂ ++ sy ')' :: post)) = true)
    (hb : Balanced 0 (pre ++ sy '(' :: (r₁ ++ sy ')' :: post)))
    (hpre : Balanced 0 (pre ++ List.replicate n (sy ')')))
    (hr₁ : Balanced 0 r₁) (hne₁ : r₁ ≠ []) (hr₂ : Balanced 0 r₂) (hne₂ : r₂ ≠ [])
    (hlen : r₁.length ≤ r₂.length) :
    ∃ t₁ t₂ T₁ T₂, g.parse r₁ = .ok t₁ ∧ g.parse r₂ = .ok t₂ ∧
      g.parse (pre ++ sy '(' :: (r₁ ++ sy ')' :: post)) = .ok T₁ ∧
      g.parse (pre ++ sy '(' :: (r₂ ++ sy ')' :: post)) = .ok T₂ ∧
      SNode.Swapped (pre.length + r₁.length + 2) (pre.length + r₂.length + 2)
        (t₁.shift (pre.length + 1)) (t₂.shift (pre.length + 1)) T₁ T₂ := by
  have hg := std_tame S hx
  have hP₁ : Place pre r₁ post (pre ++ sy '(' :: (r₁ ++ sy ')' :: post)) := ⟨rfl, hr₁, hne₁⟩
  have hP₂ : Place pre r₂ post (pre ++ sy '(' :: (r₂ ++ sy ')' :: post)) := ⟨rfl, hr₂, hne₂⟩
  have hwr₁ : rowWf r₁ = true := by
    simp only [rowWf_append, rowWf, Bool.and_eq_true] at hw₁
    exact hw₁.2.2.1
  have hwr₂ : rowWf r₂ = true := by
    simp only [rowWf_append, rowWf, Bool.and_eq_true] at hw₂
    exact hw₂.2.2.1
  have hl₁ : (pre ++ sy '(' :: (r₁ ++ sy ')' :: post)).length = pre.length + r₁.length + 2 + post.length := by
    simp
    omega
  have hl₂ : (pre ++ sy '(' :: (r₂ ++ sy ')' :: post)).length = pre.length + r₂.length + 2 + post.length := by
    simp
    omega
  obtain ⟨t₁, ht₁, hf₁⟩ := parse_ok S.good hwr₁
  obtain ⟨t₂, ht₂, hf₂⟩ := parse_ok S.good hwr₂
  obtain ⟨T₁, hT₁, -⟩ := parse_ok S.good hw₁
  obtain ⟨T₂, hT₂, -⟩ := parse_ok S.good hw₂
  refine ⟨t₁, t₂, T₁, T₂, ht₁, ht₂, hT₁, hT₂, ?_⟩
  generalize hrow₁ : pre ++ sy '(' :: (r₁ ++ sy ')' :: post) = row₁ at *
  generalize hrow₂ : pre ++ sy '(' :: (r₂ ++ sy ')' :: post) = row₂ at *
  have here₁ : ∀ F res p, pratt g F row₁ (pre.length + 1) (0, .weak) (.sym [')']) = .ok (res, p) →
      res.node = t₁.shift (pre.length + 1) ∧ (t₁.shift (pre.length + 1)).lo = pre.length + 1 ∧
        (t₁.shift (pre.length + 1)).hi = p ∧ p = pre.length + 1 + r₁.length := by
    intro F res p hF
    obtain ⟨h1, h2, h3⟩ := inner_read S hx hP₁ hwr₁ ht₁ F hF
    refine ⟨h1, h2, h3, ?_⟩
    rw [← h3, shift_hi, hf₁.hi_eq]
  have here₂ : ∀ F, rowWeight r₂ + 1 ≤ F → ∃ res,
      pratt g F row₂ (pre.length + 1) (0, .weak) (.sym [')']) =
        .ok (res, pre.length + 1 + r₂.length) ∧ res.node = t₂.shift (pre.length + 1) ∧
        (t₂.shift (pre.length + 1)).lo = pre.length + 1 ∧
        (t₂.shift (pre.length + 1)).hi = pre.length + 1 + r₂.length := by
    intro F hF
    obtain ⟨⟨res, p⟩, hres, hp⟩ := M.bind_eq_ok.1 ht₂
    dsimp only at hp
    split at hp
    · rename_i he
      cases hp
      subst he
      obtain ⟨_, hcall, rfl, -⟩ := pratt_step hg hP₂.part F 0 0 (0, .weak) .eof (.sym [')'])
        (Nat.zero_le _) hr₂ (.closes rfl) _ (pratt_mono g hF _ _ _ _ _ hres)
      refine ⟨_, hcall, PResult.shift_node _, ?_, ?_⟩
      · rw [shift_lo, hf₂.lo_eq]
      · rw [shift_hi, hf₂.hi_eq]
    · cases hp
  have hbef : Before pre 0 := ⟨Nat.zero_le _, 0, n, hpre⟩
  have hall := pratt_twins (k₁ := pre.length + r₁.length + 2) (k₂ := pre.length + r₂.length + 2)
    ⟨hP₁, hP₂, rfl, rfl⟩ hg (by omega) (rowWeight r₂ + 1) here₁ here₂
  obtain ⟨⟨res₁, p₁⟩, hres₁, hp₁⟩ := M.bind_eq_ok.1 hT₁
  obtain ⟨⟨res₂, p₂⟩, hres₂, hp₂⟩ := M.bind_eq_ok.1 hT₂
  dsimp only at hp₁ hp₂
  split at hp₁
  case isFalse => cases hp₁
  rename_i he₁
  cases hp₁
  split at hp₂
  case isFalse => cases hp₂
  cases hp₂
  obtain ⟨⟨res₂', p₂'⟩, hb2, hakin, -⟩ := hall (rowWeight row₁ + 1) 0 0 0 (0, .weak) .eof
    (.before rfl hbef) (Nat.zero_le _) hb (.eof rfl) _ hres₁
  have e1 := pratt_mono g (Nat.le_max_left (rowWeight row₂ + 1) (rowWeight row₁ + 1 + (rowWeight r₂ + 1)))
    _ _ _ _ _ hres₂
  have e2 := pratt_mono g (Nat.le_max_right (rowWeight row₂ + 1) (rowWeight row₁ + 1 + (rowWeight r₂ + 1)))
    _ _ _ _ _ hb2
  rw [e1] at e2
  cases e2
  dsimp only at hakin
  cases hakin.kin with
  | before es ep hs hp e =>
    have := hp.1
    omega
  | after i j t es₁ es₂ ep₁ ep₂ e₁ e₂ => omega
  | cross j es hs ep₁ ep₂ h => exact h

/-- **C96** A change within brackets changes nothing outside of them. Take a row `pre ( r₁ ) post` in
which brackets and quotes are closed, also in `r₁`, and where the opening bracket is not in quotes. When
`r₁` is replaced by another row `r₂` that is not empty and where brackets and quotes are closed, then the
tree stays the same, except that the brackets are around the tree of `r₂`, and that what comes behind
them is moved. -/
theorem C96 (hx : x.Usual) (h : createParser x = .ok (g, m)) {pre r₁ r₂ post : Row} {n : Nat}
    (hw₁ : rowWf (pre ++ sy '(' :: (r₁ ++ sy ')' :: post)) = true)
    (hw₂ : rowWf (pre ++ sy '(' :: (r₂ ++ sy ')' :: post)) = true)
    (hb : Balanced 0 (pre ++ sy '(' :: (r₁ ++ sy ')' :: post)))
    (hpre : Balanced 0 (pre ++ List.replicate n (sy ')')))
    (hr₁ : Balanced 0 r₁) (hne₁ : r₁ ≠ []) (hr₂ : Balanced 0 r₂) (hne₂ : r₂ ≠ []) :
    ∃ t₁ t₂ T₁ T₂, g.parse r₁ = .ok t₁ ∧ g.parse r₂ = .ok t₂ ∧
      g.parse (pre ++ sy '(' :: (r₁ ++ sy ')' :: post)) = .ok T₁ ∧
      g.parse (pre ++ sy '(' :: (r₂ ++ sy ')' :: post)) = .ok T₂ ∧
      SNode.Swapped (pre.length + r₁.length + 2) (pre.length + r₂.length + 2)
        (t₁.shift (pre.length + 1)) (t₂.shift (pre.length + 1)) T₁ T₂ := by
  have S := createParser_std hx.toLetters h
  rcases Nat.le_total r₁.length r₂.length with hlen | hlen
  · exact swapped_of_le S hx hw₁ hw₂ hb hpre hr₁ hne₁ hr₂ hne₂ hlen
  · obtain ⟨t₂, t₁, T₂, T₁, h1, h2, h3, h4, h5⟩ := swapped_of_le S hx hw₂ hw₁
      (balanced_swap hpre hr₁ hr₂ hb) hpre hr₂ hne₂ hr₁ hne₁ hlen
    exact ⟨t₁, t₂, T₁, T₂, h2, h1, h4, h3, h5.symm⟩

/-! ## Examples -/

/-- The trees of `(a)+b` and of `(a-c)+b`. -/
example (v sub add op br : Nat) : SNode.Swapped 3 5
    (.leaf v 1 2 .symbol [['a']])
    (.children sub 1 4 [.leaf v 1 2 .symbol [['a']], .leaf op 2 3 .operator [['-']],
      .leaf v 3 4 .symbol [['c']]])
    (.children add 0 5 [.children br 0 3 [.leaf 0 0 1 .operator [['(']], .leaf v 1 2 .symbol [['a']],
      .leaf 0 2 3 .operator [[')']]], .leaf op 3 4 .operator [['+']], .leaf v 4 5 .symbol [['b']]])
    (.children add 0 7 [.children br 0 5 [.leaf 0 0 1 .operator [['(']],
      .children sub 1 4 [.leaf v 1 2 .symbol [['a']], .leaf op 2 3 .operator [['-']],
        .leaf v 3 4 .symbol [['c']]],
      .leaf 0 4 5 .operator [[')']]], .leaf op 5 6 .operator [['+']], .leaf v 6 7 .symbol [['b']]]) :=
  .inside (lo := 0) (hi := 2) (before := [])
    (behind := [.leaf op 0 1 .operator [['+']], .leaf v 1 2 .symbol [['b']]]) (.here br)

example : parsesAs (symbols "2*(x)!") "(Arithmetic::Multiply (Arithmetic::Number \"2\") (BuiltIn::Operator \"*\") (Arithmetic::Factorial (Core::RoundBrackets (BuiltIn::Operator \"(\") (Core::Variable \"x\") (BuiltIn::Operator \")\")) (BuiltIn::Operator \"!\")))" = true := by
  decide +kernel

/-- With a quote that is not closed in the brackets, the string behind them is not read any more. -/
example : parsesAs (symbols "(a)\"b\"") "(Error::MissingOperator (Core::RoundBrackets (BuiltIn::Operator \"(\") (Core::Variable \"a\") (BuiltIn::Operator \")\")) (Error::MissingToken) (String::String \"\\\"b\\\"\"))" = true := by
  decide +kernel
example : parsesAs (symbols "(\")\"b\"") "(Error::MissingOperator (Error::MissingOperator (Error::UnknownToken \"(\") (Error::MissingToken) (String::String \"\\\")\\\"\")) (Error::MissingToken) (Error::MissingOperator (Core::Variable \"b\") (Error::MissingToken) (Error::UnknownToken \"\\\"\")))" = true := by
  decide +kernel

end Aftermath
