import Verif.Spec.AnyRow
import Verif.Proof.Expression

/-! # The parser on arbitrary rows: single steps -/

namespace Aftermath

variable {g : Grammar} {row : Row} {e : Ending}

/-! ## What can be parsed at a position -/

theorem found_at {pos F : Nat} (hd : Deep g row pos F) (role : Role) :
    (∃ t r p, parseIter (pratt g F) g row pos (g.ofRole role) = .ok (some (t, r, p)) ∧
      Chosen g role row pos t r p) ∨
    (parseIter (pratt g F) g row pos (g.ofRole role) = .ok none ∧ NoneOf g role row pos) := by
  obtain ⟨o, ho, -, -⟩ := parseIter_ok (pratt_ok hd.good F) g hd.wf hd.le hd.weight
    (hd.good.ofRole role)
  cases o with
  | none => exact .inr ⟨ho, noneOf_of_parseIter ho⟩
  | some x =>
    obtain ⟨t, r, p⟩ := x
    exact .inl ⟨t, r, p, ho, chosen_of_parseIter ho⟩

theorem SomeOf.at {pos F : Nat} {role : Role} (h : SomeOf g role row pos) (hd : Deep g row pos F) :
    ∃ x, parseIter (pratt g F) g row pos (g.ofRole role) = .ok (some x) := by
  obtain ⟨t, r, p, hc⟩ := h
  exact ⟨_, hc.at hd⟩

theorem SomeOf.not_noneOf {pos : Nat} {role : Role} (h : SomeOf g role row pos) :
    ¬ NoneOf g role row pos := by
  obtain ⟨t, r, p, before, after, hs, hr, ⟨f, hf⟩, -⟩ := h
  intro hn
  obtain ⟨f', hf'⟩ := hn r (by rw [hs]; simp) hr
  cases ruleParse_unique hf hf'

theorem Chosen.someOf {pos : Nat} {role : Role} {t : SNode} {r : Rule} {p : Nat}
    (h : Chosen g role row pos t r p) : SomeOf g role row pos := ⟨t, r, p, h⟩

theorem SomeOf.lt {pos F : Nat} {role : Role} (h : SomeOf g role row pos) (hd : Deep g row pos F) :
    pos < row.length := by
  obtain ⟨t, r, p, hc⟩ := h
  obtain ⟨hf, hlt⟩ := hc.fills hd
  exact Nat.lt_of_lt_of_le hlt hf.le.2

theorem noneOf_length (hg : g.Good) (hw : rowWf row = true) (role : Role) :
    NoneOf g role row row.length := by
  have hd : Deep g row row.length (restWeight row row.length) :=
    ⟨hg, hw, Nat.le_refl _, Nat.le_refl _⟩
  rcases found_at hd role with ⟨t, r, p, -, hc⟩ | ⟨-, h⟩
  · exact absurd (hc.someOf.lt hd) (Nat.lt_irrefl _)
  · exact h

/-! ## Ends -/

theorem EndsAt.isAtEnd {pos : Nat} (h : EndsAt g row e pos) : Aftermath.isAtEnd row pos e = true := by
  rcases h with rfl | ⟨s, he, hs, -⟩
  · cases e <;> simp [Aftermath.isAtEnd, atInputEnd]
  · exact reads_closing_stop he hs

theorem EndsAt.le {pos : Nat} (h : EndsAt g row e pos) : pos ≤ row.length := by
  rcases h with rfl | ⟨s, -, hs, -⟩
  · exact Nat.le_refl _
  · exact Nat.le_of_lt (List.getElem?_eq_some_iff.1 hs).1

theorem EndsAt.noneOf {pos : Nat} (h : EndsAt g row e pos) (hg : g.Good) (hw : rowWf row = true)
    (role : Role) : NoneOf g role row pos := by
  rcases h with rfl | ⟨s, -, -, hn⟩
  · exact noneOf_length hg hw role
  · exact hn role

theorem Unknown.lt {pos : Nat} {s : Str} (h : Unknown g row e pos s) : pos < row.length :=
  (List.getElem?_eq_some_iff.1 h.1).1

theorem Unknown.not_end {pos : Nat} {s : Str} (h : Unknown g row e pos s) :
    Aftermath.isAtEnd row pos e = false := by
  have hlt := h.lt
  obtain ⟨h1, -, h3⟩ := h
  cases e with
  | eof => simp [isAtEnd, atInputEnd]; omega
  | sym s' =>
    simp only [isAtEnd, Bool.or_eq_false_iff]
    refine ⟨by simp [atInputEnd]; omega, ?_⟩
    have hne : (s == s') = false := by
      rw [beq_eq_false_iff_ne]
      rintro rfl
      exact h3 rfl
    simp [selectSym, h1, hne]

theorem Unknown.not_endsAt {pos : Nat} {s : Str} (h : Unknown g row e pos s) :
    ¬ EndsAt g row e pos := by
  intro he
  have := h.not_end
  rw [he.isAtEnd] at this
  cases this

/-- One of the three holds where nothing can be parsed. -/
theorem ends_or_unknown {pos F : Nat} (hd : Deep g row pos F)
    (hn : ∀ role, NoneOf g role row pos) :
    EndsAt g row e pos ∨ ∃ s, Unknown g row e pos s := by
  by_cases hlt : pos < row.length
  · obtain ⟨s, hs⟩ := symbol_of_none (pratt_ok hd.good F) hd.good hd.wf hlt hd.weight
      ((hn .prefix).at hd) ((hn .atom).at hd) ((hn .infix).at hd) ((hn .postfix).at hd)
    by_cases he : e = .sym s
    · exact .inl (.inr ⟨s, he, hs, hn⟩)
    · exact .inr ⟨s, hs, hn, he⟩
  · exact .inl (.inl (by have := hd.le; omega))

/-! ## Unknown symbols -/

theorem unknownStops_unknown {pos F : Nat} (hd : Deep g row pos F) {s : Str}
    (h : Unknown g row e pos s) : unknownStops (pratt g F) g row pos e = .ok false := by
  have hn := h.2.1
  have h1 := (hn .prefix).at hd
  have h2 := (hn .atom).at hd
  have h3 := (hn .infix).at hd
  have h4 := (hn .postfix).at hd
  simp only [Grammar.ofRole] at h1 h2 h3 h4
  simp only [unknownStops, h.not_end, Bool.false_eq_true, if_false, canParse_of h1, canParse_of h2,
    canParse_of h3, canParse_of h4, M.ok_bind, Option.isSome_none]

theorem unknownStops_known {pos F : Nat} (hd : Deep g row pos F)
    (h : ∀ s, ¬ Unknown g row e pos s) : unknownStops (pratt g F) g row pos e = .ok true := by
  have key : ∀ role, (∃ x, parseIter (pratt g F) g row pos (g.ofRole role) = .ok (some x)) ∨
      (parseIter (pratt g F) g row pos (g.ofRole role) = .ok none ∧ NoneOf g role row pos) := by
    intro role
    rcases found_at hd role with ⟨t, r, p, hx, -⟩ | hx
    · exact .inl ⟨_, hx⟩
    · exact .inr hx
  unfold unknownStops
  cases he : isAtEnd row pos e with
  | true => simp
  | false =>
    simp only [Bool.false_eq_true, if_false]
    rcases key .prefix with ⟨x, h1⟩ | ⟨h1, n1⟩
    · simp only [Grammar.ofRole] at h1
      simp only [canParse_of h1, M.ok_bind, Option.isSome_some, if_true]
    rcases key .atom with ⟨x, h2⟩ | ⟨h2, n2⟩
    · simp only [Grammar.ofRole] at h1 h2
      simp only [canParse_of h1, canParse_of h2, M.ok_bind, Option.isSome_some, Option.isSome_none,
        Bool.false_eq_true, if_false, if_true]
    rcases key .infix with ⟨x, h3⟩ | ⟨h3, n3⟩
    · simp only [Grammar.ofRole] at h1 h2 h3
      simp only [canParse_of h1, canParse_of h2, canParse_of h3, M.ok_bind, Option.isSome_some,
        Option.isSome_none, Bool.false_eq_true, if_false, if_true]
    rcases key .postfix with ⟨x, h4⟩ | ⟨h4, n4⟩
    · simp only [Grammar.ofRole] at h1 h2 h3 h4
      simp only [canParse_of h1, canParse_of h2, canParse_of h3, canParse_of h4, M.ok_bind,
        Option.isSome_some, Option.isSome_none, Bool.false_eq_true, if_false]
    rcases ends_or_unknown (e := e) hd (fun role => by cases role <;> assumption) with h5 | ⟨s, h5⟩
    · rw [h5.isAtEnd] at he; cases he
    · exact absurd h5 (h s)

theorem missingAt_fills {Q : Row → SNode → Prop} {pos : Nat} (h : pos ≤ row.length) :
    makeMissingAtom g pos = .ok (missingAt g pos) ∧ FillsAt Q row pos pos (missingAt g pos) := by
  obtain ⟨t, ht, hf⟩ := makeMissingAtom_ok (Q := Q) g h
  have : t = missingAt g pos := new_eq ht
  subst this
  exact ⟨ht, hf⟩

theorem juxtaposed_fills {Q : Row → SNode → Prop} {a b c : Nat} {l r : SNode}
    (hl : FillsAt Q row a b l) (hr : FillsAt Q row b c r) :
    makeMissingOperator g l r = .ok (juxtaposed g l r) ∧ FillsAt Q row a c (juxtaposed g l r) := by
  obtain ⟨t, ht, hf⟩ := makeMissingOperator_ok g hl hr
  have : t = juxtaposed g l r := by
    have h := ht
    unfold makeMissingOperator BuiltIn.errorMissingOperator BuiltIn.errorMissingToken at h
    obtain ⟨m, hm, h⟩ := M.bind_eq_ok.1 h
    rw [new_eq hm] at h
    rw [new_eq h, combineRanges_two hl hr, juxtaposed, hl.lo_eq, hr.hi_eq]
    rfl
  subst this
  exact ⟨ht, hf⟩

theorem unknownAt_fills {Q : Row → SNode → Prop} {pos : Nat} {s : Str}
    (h : row[pos]? = some (.symbol s)) :
    makeUnknownAtom g row pos = .ok (unknownAt g pos s) ∧
      FillsAt Q row pos (pos + 1) (unknownAt g pos s) := by
  obtain ⟨t, ht, hf⟩ := makeUnknownAtom_ok (Q := Q) g h
  have : t = unknownAt g pos s := by
    have h' := ht
    simp only [makeUnknownAtom, h, munwrap_some, M.ok_bind, BuiltIn.errorUnknownToken,
      new_leaf] at h'
    cases h'
    rfl
  subst this
  exact ⟨ht, hf⟩

theorem UnknownRun.fills {Q : Row → SNode → Prop} {pos p : Nat} {t : SNode}
    (h : UnknownRun g row e pos t p) : FillsAt Q row pos p t ∧ pos < p := by
  induction h with
  | one hu => exact ⟨(unknownAt_fills hu.1).2, Nat.lt_succ_self _⟩
  | more _ hu ih =>
    exact ⟨(juxtaposed_fills ih.1 (unknownAt_fills hu.1).2).2, Nat.lt_succ_of_lt ih.2⟩

theorem UnknownRun.first {pos p : Nat} {t : SNode} (h : UnknownRun g row e pos t p) :
    ∃ s, Unknown g row e pos s := by
  induction h with
  | one hu => exact ⟨_, hu⟩
  | more _ _ ih => exact ih

theorem UnknownRun.loop {pos p F : Nat} {t : SNode} (hd : Deep g row pos F) {s0 : Str}
    (h0 : row[pos]? = some (.symbol s0)) (h : UnknownRun g row e pos t p) (n : Nat) :
    unknownLoop (pratt g F) g row e (n + (p - (pos + 1))) (unknownAt g pos s0) (pos + 1) =
      unknownLoop (pratt g F) g row e n t p := by
  induction h generalizing n with
  | one hu =>
    have := hu.1.symm.trans h0
    cases this
    simp
  | @more t p s hr hu ih =>
    obtain ⟨hf, hlt⟩ := hr.fills (Q := ParsesTo g)
    have := ih (n + 1)
    have he : n + (p + 1 - (pos + 1)) = n + 1 + (p - (pos + 1)) := by omega
    rw [he, this, unknownLoop,
      unknownStops_unknown (hd.later (Nat.le_of_lt hlt) (Nat.le_of_lt hu.lt)) hu]
    obtain ⟨h1, h2⟩ := unknownAt_fills (Q := ParsesTo g) (g := g) hu.1
    simp only [M.ok_bind, Bool.false_eq_true, if_false, h1, (juxtaposed_fills (g := g) hf h2).1]

theorem AllUnknown.parse {pos p F : Nat} {t : SNode} (hd : Deep g row pos F)
    (h : AllUnknown g row e pos t p) : parseUnknown (pratt g F) g row e pos = .ok (t, p) := by
  obtain ⟨hr, hmax⟩ := h
  obtain ⟨s0, hu0⟩ := hr.first
  obtain ⟨hf, hlt⟩ := hr.fills (Q := ParsesTo g)
  have hle := hf.le.2
  have hloop := hr.loop hd hu0.1 (row.length + 1 - (p - (pos + 1)))
  rw [show row.length + 1 - (p - (pos + 1)) + (p - (pos + 1)) = row.length + 1 by omega] at hloop
  obtain ⟨m, hm⟩ : ∃ m, row.length + 1 - (p - (pos + 1)) = m + 1 :=
    ⟨row.length + 1 - (p - (pos + 1)) - 1, by omega⟩
  have hone : unknownLoop (pratt g F) g row e (m + 1) t p = .ok (t, p) := by
    rw [unknownLoop, unknownStops_known (hd.later (Nat.le_of_lt hlt) hle) hmax]
    rfl
  rw [hm, hone] at hloop
  simp only [parseUnknown, (unknownAt_fills (Q := ParsesTo g) (g := g) hu0.1).1, M.ok_bind, hloop]

theorem UnknownRun.extend {pos : Nat} : ∀ (n : Nat) {p : Nat} {t : SNode},
    row.length - p ≤ n → UnknownRun g row e pos t p → ∃ t' p', AllUnknown g row e pos t' p'
  | 0, p, t, hn, h => by
    refine ⟨t, p, h, fun s hu => ?_⟩
    have := hu.lt
    omega
  | n + 1, p, t, hn, h => by
    by_cases hu : ∃ s, Unknown g row e p s
    · obtain ⟨s, hu⟩ := hu
      have := hu.lt
      exact UnknownRun.extend n (by omega) (.more h hu)
    · exact ⟨t, p, h, fun s hs => hu ⟨s, hs⟩⟩

theorem Unknown.all {pos : Nat} {s : Str} (h : Unknown g row e pos s) :
    ∃ t p, AllUnknown g row e pos t p :=
  UnknownRun.extend _ (Nat.le_refl _) (.one h)

theorem Unknown.unique {pos : Nat} {s s' : Str} (h : Unknown g row e pos s)
    (h' : Unknown g row e pos s') : s = s' := by
  have := h.1.symm.trans h'.1
  cases this
  rfl

/-- Runs of the same length are the same. -/
theorem UnknownRun.same {pos p : Nat} {t t' : SNode} (h : UnknownRun g row e pos t p)
    (h' : UnknownRun g row e pos t' p) : t = t' := by
  induction h generalizing t' with
  | one hu =>
    cases h' with
    | one hu' => rw [hu.unique hu']
    | more hr _ => have := (hr.fills (Q := ParsesTo g)).2; omega
  | more hr hu ih =>
    cases h' with
    | one _ => have := (hr.fills (Q := ParsesTo g)).2; omega
    | more hr' hu' => rw [ih hr', hu.unique hu']

/-- In a run, every position is unknown. -/
theorem UnknownRun.inside {pos p : Nat} {t : SNode} (h : UnknownRun g row e pos t p) :
    ∀ i, pos ≤ i → i < p → ∃ s, Unknown g row e i s := by
  induction h with
  | one hu =>
    intro i h1 h2
    obtain rfl : i = pos := by omega
    exact ⟨_, hu⟩
  | @more t p s hr hu ih =>
    intro i h1 h2
    by_cases hi : i < p
    · exact ih i h1 hi
    · obtain rfl : i = p := by omega
      exact ⟨_, hu⟩

theorem AllUnknown.unique {pos p p' : Nat} {t t' : SNode} (h : AllUnknown g row e pos t p)
    (h' : AllUnknown g row e pos t' p') : t = t' ∧ p = p' := by
  have hp : p = p' := by
    have l1 := (h.1.fills (Q := ParsesTo g)).2
    have l2 := (h'.1.fills (Q := ParsesTo g)).2
    rcases Nat.lt_trichotomy p p' with hlt | heq | hlt
    · obtain ⟨s, hs⟩ := h'.1.inside p (by omega) hlt
      exact absurd hs (h.2 s)
    · exact heq
    · obtain ⟨s, hs⟩ := h.1.inside p' (by omega) hlt
      exact absurd hs (h'.2 s)
  subst hp
  exact ⟨h.1.same h'.1, rfl⟩

/-! ## Every row reads as something -/

/-- With the two expectations at one position, in this order, something is always consumed. -/
theorem reads_exists (hg : g.Good) (hw : rowWf row = true) (e : Ending) : ∀ (n pos : Nat),
    pos ≤ row.length → row.length - pos ≤ n → ∀ x, ∃ toks q, ReadsAny g row e x pos toks q := by
  intro n
  induction n with
  | zero =>
    intro pos hp hn x
    have hend : EndsAt g row e pos := .inl (by omega)
    cases x with
    | operand => exact ⟨_, _, .missingEnd hend⟩
    | operator => exact ⟨_, _, .ends hend⟩
  | succ n ih =>
    intro pos hp hn
    have hd : Deep g row pos (restWeight row pos) := ⟨hg, hw, hp, Nat.le_refl _⟩
    have dec : ∀ role, SomeOf g role row pos ∨ NoneOf g role row pos := by
      intro role
      rcases found_at hd role with ⟨t, r, p, -, h⟩ | ⟨-, h⟩
      · exact .inl h.someOf
      · exact .inr h
    have next : ∀ {p}, pos < p → p ≤ row.length → ∀ x, ∃ toks q, ReadsAny g row e x p toks q :=
      fun h1 h2 x => ih _ h2 (by omega) x
    have start : SomeOf g .prefix row pos ∨ SomeOf g .atom row pos →
        ∃ toks q, ReadsAny g row e .operand pos toks q := by
      intro h
      rcases dec .prefix with ⟨t, r, p, hc⟩ | hno
      · obtain ⟨hf, hlt⟩ := hc.fills hd
        obtain ⟨ts, q, h1⟩ := next hlt hf.le.2 .operand
        exact ⟨_, _, .pre hc h1⟩
      · obtain ⟨t, r, p, hc⟩ := h.resolve_left fun h => h.not_noneOf hno
        obtain ⟨hf, hlt⟩ := hc.fills hd
        obtain ⟨ts, q, h1⟩ := next hlt hf.le.2 .operator
        exact ⟨_, _, .operand hno hc h1⟩
    have goes : SomeOf g .infix row pos ∨ SomeOf g .postfix row pos →
        ∃ toks q, ReadsAny g row e .operator pos toks q := by
      intro h
      rcases dec .infix with ⟨t, r, p, hc⟩ | hno
      · obtain ⟨hf, hlt⟩ := hc.fills hd
        obtain ⟨ts, q, h1⟩ := next hlt hf.le.2 .operand
        exact ⟨_, _, .inf hc h1⟩
      · obtain ⟨t, r, p, hc⟩ := h.resolve_left fun h => h.not_noneOf hno
        obtain ⟨hf, hlt⟩ := hc.fills hd
        obtain ⟨ts, q, h1⟩ := next hlt hf.le.2 .operator
        exact ⟨_, _, .post hno hc h1⟩
    by_cases h1 : SomeOf g .prefix row pos ∨ SomeOf g .atom row pos
    · obtain ⟨ts, q, h3⟩ := start h1
      intro x
      cases x with
      | operand => exact ⟨ts, q, h3⟩
      | operator =>
        by_cases h2 : SomeOf g .infix row pos ∨ SomeOf g .postfix row pos
        · exact goes h2
        · exact ⟨_, _, .gap ((dec .infix).resolve_left fun h => h2 (.inl h))
            ((dec .postfix).resolve_left fun h => h2 (.inr h)) h1 h3⟩
    · have n1 := (dec .prefix).resolve_left fun h => h1 (.inl h)
      have n2 := (dec .atom).resolve_left fun h => h1 (.inr h)
      by_cases h2 : SomeOf g .infix row pos ∨ SomeOf g .postfix row pos
      · obtain ⟨ts, q, h3⟩ := goes h2
        intro x
        cases x with
        | operand => exact ⟨_, _, .missing n1 n2 h2 h3⟩
        | operator => exact ⟨ts, q, h3⟩
      · have n3 := (dec .infix).resolve_left fun h => h2 (.inl h)
        have n4 := (dec .postfix).resolve_left fun h => h2 (.inr h)
        rcases ends_or_unknown (e := e) hd (fun role => by cases role <;> assumption) with
          hend | ⟨s, hu⟩
        · intro x
          cases x with
          | operand => exact ⟨_, _, .missingEnd hend⟩
          | operator => exact ⟨_, _, .ends hend⟩
        · obtain ⟨t, p, hall⟩ := hu.all
          obtain ⟨hf, hlt⟩ := hall.1.fills (Q := ParsesTo g)
          obtain ⟨ts, q, h3⟩ := next hlt hf.le.2 .operator
          intro x
          cases x with
          | operand => exact ⟨_, _, .unknown hall h3⟩
          | operator => exact ⟨_, _, .junk hall h3⟩

end Aftermath
