import Verif.Proof.AnyTree
import Verif.Props.Expression

/-! # Property theorem C72: what the parser makes of any row -/

namespace Aftermath

variable {g : Grammar} {row : Row} {e : Ending}

/-- There is only one way to read a row. -/
theorem ReadsAny.unique (hg : g.Good) (hw : rowWf row = true) {x : Expects} {pos q q' : Nat}
    {toks toks' : List ETok} (h : ReadsAny g row e x pos toks q)
    (h' : ReadsAny g row e x pos toks' q') : toks = toks' ∧ q = q' := by
  induction h generalizing toks' q' with
  | pre hc hr ih =>
    have hs := hc.someOf
    cases h' with
    | pre hc' hr' =>
      obtain ⟨rfl, rfl, rfl⟩ := hc.unique_last hc'
      obtain ⟨rfl, rfl⟩ := ih hr'
      exact ⟨rfl, rfl⟩
    | operand hn => exact absurd hn hs.not_noneOf
    | missing hn => exact absurd hn hs.not_noneOf
    | missingEnd he => exact absurd (he.noneOf hg hw _) hs.not_noneOf
    | unknown hall =>
      obtain ⟨s, hu⟩ := hall.1.first
      exact absurd (hu.2.1 _) hs.not_noneOf
  | operand hn hc hr ih =>
    have hs := hc.someOf
    cases h' with
    | pre hc' => exact absurd hn hc'.someOf.not_noneOf
    | operand _ hc' hr' =>
      obtain ⟨rfl, rfl, rfl⟩ := hc.unique_last hc'
      obtain ⟨rfl, rfl⟩ := ih hr'
      exact ⟨rfl, rfl⟩
    | missing _ hn => exact absurd hn hs.not_noneOf
    | missingEnd he => exact absurd (he.noneOf hg hw _) hs.not_noneOf
    | unknown hall =>
      obtain ⟨s, hu⟩ := hall.1.first
      exact absurd (hu.2.1 _) hs.not_noneOf
  | missing hn1 hn2 hs hr ih =>
    cases h' with
    | pre hc' => exact absurd hn1 hc'.someOf.not_noneOf
    | operand _ hc' => exact absurd hn2 hc'.someOf.not_noneOf
    | missing _ _ _ hr' =>
      obtain ⟨rfl, rfl⟩ := ih hr'
      exact ⟨rfl, rfl⟩
    | missingEnd he =>
      exact absurd hs (not_or.2 ⟨fun h => h.not_noneOf (he.noneOf hg hw _),
        fun h => h.not_noneOf (he.noneOf hg hw _)⟩)
    | unknown hall =>
      obtain ⟨s, hu⟩ := hall.1.first
      exact absurd hs (not_or.2 ⟨fun h => h.not_noneOf (hu.2.1 _),
        fun h => h.not_noneOf (hu.2.1 _)⟩)
  | missingEnd he =>
    have hno := he.noneOf hg hw
    cases h' with
    | pre hc' => exact absurd (hno _) hc'.someOf.not_noneOf
    | operand _ hc' => exact absurd (hno _) hc'.someOf.not_noneOf
    | missing _ _ hs => exact absurd hs (not_or.2 ⟨fun h => h.not_noneOf (hno _),
        fun h => h.not_noneOf (hno _)⟩)
    | missingEnd => exact ⟨rfl, rfl⟩
    | unknown hall =>
      obtain ⟨s, hu⟩ := hall.1.first
      exact absurd he hu.not_endsAt
  | unknown hall hr ih =>
    obtain ⟨s, hu⟩ := hall.1.first
    cases h' with
    | pre hc' => exact absurd (hu.2.1 _) hc'.someOf.not_noneOf
    | operand _ hc' => exact absurd (hu.2.1 _) hc'.someOf.not_noneOf
    | missing _ _ hs => exact absurd hs (not_or.2 ⟨fun h => h.not_noneOf (hu.2.1 _),
        fun h => h.not_noneOf (hu.2.1 _)⟩)
    | missingEnd he => exact absurd he hu.not_endsAt
    | unknown hall' hr' =>
      obtain ⟨rfl, rfl⟩ := hall.unique hall'
      obtain ⟨rfl, rfl⟩ := ih hr'
      exact ⟨rfl, rfl⟩
  | inf hc hr ih =>
    have hs := hc.someOf
    cases h' with
    | inf hc' hr' =>
      obtain ⟨rfl, rfl, rfl⟩ := hc.unique_last hc'
      obtain ⟨rfl, rfl⟩ := ih hr'
      exact ⟨rfl, rfl⟩
    | post hn => exact absurd hn hs.not_noneOf
    | gap hn => exact absurd hn hs.not_noneOf
    | junk hall =>
      obtain ⟨s, hu⟩ := hall.1.first
      exact absurd (hu.2.1 _) hs.not_noneOf
    | ends he => exact absurd (he.noneOf hg hw _) hs.not_noneOf
  | post hn hc hr ih =>
    have hs := hc.someOf
    cases h' with
    | inf hc' => exact absurd hn hc'.someOf.not_noneOf
    | post _ hc' hr' =>
      obtain ⟨rfl, rfl, rfl⟩ := hc.unique_last hc'
      obtain ⟨rfl, rfl⟩ := ih hr'
      exact ⟨rfl, rfl⟩
    | gap _ hn => exact absurd hn hs.not_noneOf
    | junk hall =>
      obtain ⟨s, hu⟩ := hall.1.first
      exact absurd (hu.2.1 _) hs.not_noneOf
    | ends he => exact absurd (he.noneOf hg hw _) hs.not_noneOf
  | gap hn1 hn2 hs hr ih =>
    cases h' with
    | inf hc' => exact absurd hn1 hc'.someOf.not_noneOf
    | post _ hc' => exact absurd hn2 hc'.someOf.not_noneOf
    | gap _ _ _ hr' =>
      obtain ⟨rfl, rfl⟩ := ih hr'
      exact ⟨rfl, rfl⟩
    | junk hall =>
      obtain ⟨s, hu⟩ := hall.1.first
      exact absurd hs (not_or.2 ⟨fun h => h.not_noneOf (hu.2.1 _),
        fun h => h.not_noneOf (hu.2.1 _)⟩)
    | ends he =>
      exact absurd hs (not_or.2 ⟨fun h => h.not_noneOf (he.noneOf hg hw _),
        fun h => h.not_noneOf (he.noneOf hg hw _)⟩)
  | junk hall hr ih =>
    obtain ⟨s, hu⟩ := hall.1.first
    cases h' with
    | inf hc' => exact absurd (hu.2.1 _) hc'.someOf.not_noneOf
    | post _ hc' => exact absurd (hu.2.1 _) hc'.someOf.not_noneOf
    | gap _ _ hs => exact absurd hs (not_or.2 ⟨fun h => h.not_noneOf (hu.2.1 _),
        fun h => h.not_noneOf (hu.2.1 _)⟩)
    | junk hall' hr' =>
      obtain ⟨rfl, rfl⟩ := hall.unique hall'
      obtain ⟨rfl, rfl⟩ := ih hr'
      exact ⟨rfl, rfl⟩
    | ends he => exact absurd he hu.not_endsAt
  | ends he =>
    have hno := he.noneOf hg hw
    cases h' with
    | inf hc' => exact absurd (hno _) hc'.someOf.not_noneOf
    | post _ hc' => exact absurd (hno _) hc'.someOf.not_noneOf
    | gap _ _ hs => exact absurd hs (not_or.2 ⟨fun h => h.not_noneOf (hno _),
        fun h => h.not_noneOf (hno _)⟩)
    | junk hall =>
      obtain ⟨s, hu⟩ := hall.1.first
      exact absurd he hu.not_endsAt
    | ends => exact ⟨rfl, rfl⟩

/-- The parser reads everything as one correctly nested tree. -/
theorem pratt_any (hg : g.Good) (hw : rowWf row = true) {pos q : Nat} {toks : List ETok}
    (hp : pos ≤ row.length) (h : ReadsAny g row e .operand pos toks q) :
    ∃ T : ETree, T.tokens = toks ∧ T.Nested ∧ FillsAt (ParsesTo g) row pos q (T.node g) ∧
      ∀ f, restWeight row pos < f →
        pratt g f row pos (0, .weak) e = .ok (.stop (T.node g), q) := by
  obtain ⟨res, p, T, rest, hc, -, -, -, ho⟩ :=
    operand_any (0, .weak) toks (F := restWeight row pos) ⟨hg, hw, hp, Nat.le_refl _⟩ h
  cases rest with
  | cons tk ts =>
    obtain ⟨-, -, o, -, hlt, -⟩ := ho.more tk ts rfl
    cases o <;> simp only [EOp.stops, power_not_lt_zero] at hlt <;> cases hlt
  | nil =>
    obtain ⟨rfl, rfl⟩ := ho.stop rfl
    exact ⟨T, by simpa using ho.tokens, ho.nested, ho.fills, fun f hf =>
      pratt_mono g (Nat.succ_le_of_lt hf) _ _ _ _ _ hc⟩

/-- **C72.** Every row reads as tokens in exactly one way, there is exactly one way to nest them by
binding powers, and that is the syntax tree. -/
theorem C72 (hg : g.Good) (hw : rowWf row = true) :
    ∃ (toks : List ETok) (T : ETree), ReadsAny g row .eof .operand 0 toks row.length ∧
      T.tokens = toks ∧ T.Nested ∧ g.parse row = .ok (T.node g) ∧
      (∀ toks' q', ReadsAny g row .eof .operand 0 toks' q' → toks' = toks) ∧
      ∀ T' : ETree, T'.tokens = toks → T'.Nested → T' = T := by
  obtain ⟨toks, q, h⟩ := reads_exists hg hw .eof row.length 0 (Nat.zero_le _) (by omega) .operand
  obtain ⟨T, h1, h2, h4, h3⟩ := pratt_any hg hw (Nat.zero_le _) h
  have hq : q = row.length ∧ g.parse row = .ok (T.node g) := by
    have hcall := h3 (rowWeight row + 1) (by simp [restWeight])
    obtain ⟨t, ht, hf⟩ := parse_ok hg hw
    rw [ht]
    unfold Grammar.parse Grammar.parseFuel parseWhole at ht
    rw [hcall] at ht
    simp only [M.ok_bind] at ht
    split at ht
    · cases ht
      exact ⟨h4.hi_eq.symm.trans hf.hi_eq, rfl⟩
    · cases ht
  obtain ⟨rfl, hparse⟩ := hq
  exact ⟨toks, T, h, h1, h2, hparse, fun toks' q' h' => ((h.unique hg hw h').1).symm,
    fun T' h1' h2' => enested_unique h2' h2 (h1'.trans h1.symm)⟩

/-- **C72** for a given tree. -/
theorem C72_tree (hg : g.Good) (hw : rowWf row = true) {T : ETree} {q : Nat}
    (h : ReadsAny g row .eof .operand 0 T.tokens q) (hn : T.Nested) :
    g.parse row = .ok (T.node g) := by
  obtain ⟨toks, T', -, -, -, h3, h4, h5⟩ := C72 hg hw
  rw [h5 T (h4 _ _ h) hn]
  exact h3

/-- **C72** inside of brackets. -/
theorem C72_brackets (hg : g.Good) (hw : rowWf row = true) (s : Str) {pos : Nat}
    (hp : pos ≤ row.length) :
    ∃ (toks : List ETok) (q : Nat) (T : ETree), ReadsAny g row (.sym s) .operand pos toks q ∧
      T.tokens = toks ∧ T.Nested ∧
      ∃ bound, ∀ f, bound ≤ f →
        pratt g f row pos (0, .weak) (.sym s) = .ok (.stop (T.node g), q) := by
  obtain ⟨toks, q, h⟩ := reads_exists hg hw (.sym s) row.length pos hp (by omega) .operand
  obtain ⟨T, h1, h2, -, h3⟩ := pratt_any hg hw hp h
  exact ⟨toks, q, T, h, h1, h2, _, fun f hf => h3 f (Nat.lt_of_succ_le hf)⟩

/-- **C72** for the rule collections that are shipped. -/
theorem C72_shipped (x : Xid) (hx : x.Letters) :
    ∃ g m, createParser x = .ok (g, m) ∧ ∀ row, rowWf row = true →
      ∃ (toks : List ETok) (T : ETree), ReadsAny g row .eof .operand 0 toks row.length ∧
        T.tokens = toks ∧ T.Nested ∧ g.parse row = .ok (T.node g) := by
  obtain ⟨g, m, h, hg, -⟩ := createParser_apart hx
  refine ⟨g, m, h, fun row hw => ?_⟩
  obtain ⟨toks, T, h1, h2, h3, h4, -⟩ := C72 hg hw
  exact ⟨toks, T, h1, h2, h3, h4⟩

/-! ## What follows -/

/-- Where nothing is wrong, this is the reading of `Spec/Expression`. -/
def Tok.any : Tok → ETok
  | .operand _ t => .operand t
  | .pre r op => .pre r op
  | .inf r op => .inf r op
  | .post r op => .post r op

theorem Reads.any {x : Expects} {pos q : Nat} {toks : List Tok} (h : Reads g row e x pos toks q) :
    ReadsAny g row e x pos (toks.map Tok.any) q := by
  induction h with
  | pre hc _ ih => exact .pre hc ih
  | operand hn hc _ ih => exact .operand hn hc ih
  | inf hc _ ih => exact .inf hc ih
  | post hn hc _ ih => exact .post hn hc ih
  | endOfRow => exact .ends (.inl rfl)
  | closing he hs hn => exact .ends (.inr ⟨_, he, hs, hn⟩)

/-- Operands one after the other. -/
def sideBySide (x : ETree) : List SNode → ETree
  | [] => x
  | t :: ts => sideBySide (.gap x (.operand t)) ts

theorem sideBySide_tokens : ∀ (ts : List SNode) (x : ETree),
    (sideBySide x ts).tokens = x.tokens ++ ts.flatMap fun t => [.gap, .operand t]
  | [], x => by simp [sideBySide]
  | t :: ts, x => by
    rw [sideBySide, sideBySide_tokens ts]
    simp [ETree.tokens]

theorem sideBySide_nested : ∀ (ts : List SNode) (x : ETree), x.Nested →
    (∀ o ∈ x.rightOps, ¬ o.Takes .gap) → (sideBySide x ts).Nested
  | [], x, h, _ => h
  | t :: ts, x, h, h' => sideBySide_nested ts _ ⟨h, trivial, nofun, h'⟩ fun o ho => by
      obtain rfl : o = .gap := by simpa [ETree.rightOps] using ho
      exact id

theorem sideBySide_node : ∀ (ts : List SNode) (x : ETree),
    (sideBySide x ts).node g = ts.foldl (juxtaposed g) (x.node g)
  | [], x => rfl
  | t :: ts, x => by rw [sideBySide, sideBySide_node ts]; rfl

/-- **C72** for operands without operators between them: from left to right, each is joined with
all before it. -/
theorem C72_side_by_side (hg : g.Good) (hw : rowWf row = true) {t : SNode} {ts : List SNode}
    {q : Nat} (h : ReadsAny g row .eof .operand 0
      (.operand t :: ts.flatMap fun t => [.gap, .operand t]) q) :
    g.parse row = .ok (ts.foldl (juxtaposed g) t) := by
  rw [C72_tree hg hw (T := sideBySide (.operand t) ts) (by rw [sideBySide_tokens]; exact h)
    (sideBySide_nested ts _ trivial nofun), sideBySide_node]
  rfl

/-- **C72** for a forgotten operator next to an infix operator: the missing operator binds like a
left infix operator of power 100, so it is taken in by weaker operators and takes in stronger
ones. -/
theorem C72_forgotten (hg : g.Good) (hw : rowWf row = true) {a b c o : SNode} {r : Rule} {q : Nat}
    (h : ReadsAny g row .eof .operand 0 [.operand a, .gap, .operand b, .inf r o, .operand c] q) :
    (100 < r.power → g.parse row =
      .ok (juxtaposed g a (.children r.name b.lo c.hi [b, o, c]))) ∧
    (r.power < 100 ∨ r.kind = .leftInfix 100 → g.parse row =
      .ok (.children r.name a.lo c.hi [juxtaposed g a b, o, c])) := by
  refine ⟨fun hp => C72_tree hg hw (T := .gap (.operand a) (.inf r o (.operand b) (.operand c)))
    h ⟨trivial, ⟨trivial, trivial, nofun, nofun⟩, ?_, nofun⟩,
    fun hp => C72_tree hg hw (T := .inf r o (.gap (.operand a) (.operand b)) (.operand c))
    h ⟨⟨trivial, trivial, nofun, nofun⟩, trivial, nofun, ?_⟩⟩
  · intro x hx
    obtain rfl : x = .rule r := by simpa [ETree.leftOps] using hx
    exact .inl hp
  · intro x hx
    obtain rfl : x = .gap := by simpa [ETree.rightOps] using hx
    rintro (h1 | ⟨h1, h2⟩)
    · rcases hp with hp | hp
      · omega
      · simp [Rule.power, hp] at h1
    · rcases hp with hp | hp
      · omega
      · exact h2 100 hp

/-! ## Examples -/

/-- A symbol for each character. -/
def symbols (s : String) : Row := s.toList.map fun c => .symbol [c]

/-- A forgotten operator takes in `*` but not `+`. -/
example : parsesAs (symbols "2x*y") "(Error::MissingOperator (Arithmetic::Number \"2\") (Error::MissingToken) (Arithmetic::Multiply (Core::Variable \"x\") (BuiltIn::Operator \"*\") (Core::Variable \"y\")))" = true := by
  decide +kernel
example : parsesAs (symbols "2x+y") "(Arithmetic::Add (Error::MissingOperator (Arithmetic::Number \"2\") (Error::MissingToken) (Core::Variable \"x\")) (BuiltIn::Operator \"+\") (Core::Variable \"y\"))" = true := by
  decide +kernel

/-- A missing operand. -/
example : parsesAs (symbols "a*=b") "(Comparison::Equals (Arithmetic::Multiply (Core::Variable \"a\") (BuiltIn::Operator \"*\") (Error::MissingToken)) (BuiltIn::Operator \"=\") (Core::Variable \"b\"))" = true := by
  decide +kernel

/-- Unknown symbols in the place of an operand. -/
example : parsesAs (symbols "a*)]!+b") "(Arithmetic::Add (Arithmetic::Multiply (Core::Variable \"a\") (BuiltIn::Operator \"*\") (Arithmetic::Factorial (Error::MissingOperator (Error::UnknownToken \")\") (Error::MissingToken) (Error::UnknownToken \"]\")) (BuiltIn::Operator \"!\"))) (BuiltIn::Operator \"+\") (Core::Variable \"b\"))" = true := by
  decide +kernel

/-- Operands side by side. -/
example : parsesAs (symbols "2 3 4") "(Error::MissingOperator (Error::MissingOperator (BuiltIn::Whitespaces (Arithmetic::Number \"2\") (BuiltIn::Whitespace \" \")) (Error::MissingToken) (BuiltIn::Whitespaces (Arithmetic::Number \"3\") (BuiltIn::Whitespace \" \"))) (Error::MissingToken) (Arithmetic::Number \"4\"))" = true := by
  decide +kernel

/-- A reading with errors, of `e f` in the toy rule set. -/
example : ∃ t u, ReadsAny toy [nsym "e", nsym "f"] .eof .operand 0 [.operand t, .gap, .operand u]
    2 := by
  have n1 : NoneOf toy .prefix [nsym "e", nsym "f"] 0 :=
    noneOf_of_parseIter (f := 3) rfl
  have c1 : Chosen toy .atom [nsym "e", nsym "f"] 0 (.leaf 21 0 1 .symbol [['e']])
      ⟨21, .atom, sym "e"⟩ 1 := chosen_of_parseIter (f := 3) rfl
  have n2 : NoneOf toy .infix [nsym "e", nsym "f"] 1 :=
    noneOf_of_parseIter (f := 3) rfl
  have n3 : NoneOf toy .postfix [nsym "e", nsym "f"] 1 :=
    noneOf_of_parseIter (f := 3) rfl
  have n4 : NoneOf toy .prefix [nsym "e", nsym "f"] 1 :=
    noneOf_of_parseIter (f := 3) rfl
  have c2 : Chosen toy .atom [nsym "e", nsym "f"] 1 (.leaf 22 1 2 .symbol [['f']])
      ⟨22, .atom, sym "f"⟩ 2 := chosen_of_parseIter (f := 3) rfl
  exact ⟨_, _, .operand n1 c1 (.gap n2 n3 (.inr c2.someOf) (.operand n4 c2 (.ends (.inl rfl))))⟩

end Aftermath
