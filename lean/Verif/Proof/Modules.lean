import Verif.Model.Modules
import Verif.Proof.NotationConverse
import Verif.Proof.NotationRules
import Verif.Proof.ErrorTrees

/-! # Parsers with some of the modules -/

namespace Aftermath

/-! ## What the parser depends on -/

section congr

variable {b : BuiltIn} {xs xc : Char → Bool} {M M' : List (List Rule)} {call : Rec}

theorem isIdentifierStart_modules (s : Str) :
    isIdentifierStart ⟨b, M, xs, xc⟩ s = isIdentifierStart ⟨b, M', xs, xc⟩ s := by
  cases s <;> rfl

theorem parseVariable_modules (row : Row) (pos : Nat) :
    parseVariable ⟨b, M, xs, xc⟩ row pos = parseVariable ⟨b, M', xs, xc⟩ row pos := by
  have : isIdentifierStart ⟨b, M, xs, xc⟩ = isIdentifierStart ⟨b, M', xs, xc⟩ :=
    funext isIdentifierStart_modules
  unfold parseVariable
  rw [this]
  rfl

theorem tokenParse_modules (tp : TokenParser) (row : Row) (pos : Nat) :
    tokenParse call ⟨b, M, xs, xc⟩ tp row pos = tokenParse call ⟨b, M', xs, xc⟩ tp row pos := by
  cases tp
  case «variable» => simp only [tokenParse, parseVariable_modules (M := M) (M' := M')]
  all_goals rfl

theorem parseScripts_modules (row : Row) : ∀ (n : Nat) (t : SNode) (pos : Nat),
    parseScripts call ⟨b, M, xs, xc⟩ row n t pos = parseScripts call ⟨b, M', xs, xc⟩ row n t pos
  | 0, _, _ => rfl
  | n + 1, t, pos => by
    unfold parseScripts
    simp only [parseScripts_modules row n]
    rfl

theorem ruleParse_modules (r : Rule) (row : Row) (pos : Nat) :
    ruleParse call ⟨b, M, xs, xc⟩ r row pos = ruleParse call ⟨b, M', xs, xc⟩ r row pos := by
  unfold ruleParse
  simp only [tokenParse_modules (M := M) (M' := M'), parseScripts_modules (M := M) (M' := M')]
  rfl

theorem parseIter_modules (row : Row) (pos : Nat) : ∀ (rs : List Rule),
    parseIter call ⟨b, M, xs, xc⟩ row pos rs = parseIter call ⟨b, M', xs, xc⟩ row pos rs
  | [] => rfl
  | r :: rs => by
    rw [parseIter, parseIter, ruleParse_modules (M' := M')]
    simp only [parseIter_modules row pos rs]

theorem starts_modules (rest : Row) (tp : TokenParser) :
    starts ⟨b, M, xs, xc⟩ rest tp = starts ⟨b, M', xs, xc⟩ rest tp := by
  cases tp
  case «variable» =>
    simp only [starts]
    split
    · exact isIdentifierStart_modules _
    · rfl
  all_goals rfl

/-- The same rules are found for every role. -/
def SameIter (b : BuiltIn) (xs xc : Char → Bool) (M M' : List (List Rule)) : Prop :=
  ∀ (call : Rec) (row : Row) (pos : Nat) (role : Role),
    parseIter call ⟨b, M, xs, xc⟩ row pos (Grammar.ofRole ⟨b, M, xs, xc⟩ role) =
      parseIter call ⟨b, M', xs, xc⟩ row pos (Grammar.ofRole ⟨b, M', xs, xc⟩ role)

theorem unknownStops_same (h : SameIter b xs xc M M') (row : Row) (pos : Nat) (e : Ending) :
    unknownStops call ⟨b, M, xs, xc⟩ row pos e = unknownStops call ⟨b, M', xs, xc⟩ row pos e := by
  unfold unknownStops canParse
  have h1 := h call row pos .prefix
  have h2 := h call row pos .atom
  have h3 := h call row pos .infix
  have h4 := h call row pos .postfix
  simp only [Grammar.ofRole] at h1 h2 h3 h4
  rw [h1, h2, h3, h4]

theorem unknownLoop_same (h : SameIter b xs xc M M') (row : Row) (e : Ending) :
    ∀ (n : Nat) (t : SNode) (pos : Nat),
    unknownLoop call ⟨b, M, xs, xc⟩ row e n t pos = unknownLoop call ⟨b, M', xs, xc⟩ row e n t pos
  | 0, _, _ => rfl
  | n + 1, t, pos => by
    unfold unknownLoop
    simp only [unknownStops_same h, unknownLoop_same h row e n]
    rfl

theorem parseUnknown_same (h : SameIter b xs xc M M') (row : Row) (e : Ending) (pos : Nat) :
    parseUnknown call ⟨b, M, xs, xc⟩ row e pos = parseUnknown call ⟨b, M', xs, xc⟩ row e pos := by
  unfold parseUnknown
  simp only [unknownLoop_same h]
  rfl

theorem canParseEither_same (h : SameIter b xs xc M M') (row : Row) (pos : Nat) (r r' : Role) :
    canParseEither call ⟨b, M, xs, xc⟩ row pos (Grammar.ofRole ⟨b, M, xs, xc⟩ r)
        (Grammar.ofRole ⟨b, M, xs, xc⟩ r') =
      canParseEither call ⟨b, M', xs, xc⟩ row pos (Grammar.ofRole ⟨b, M', xs, xc⟩ r)
        (Grammar.ofRole ⟨b, M', xs, xc⟩ r') := by
  unfold canParseEither canParse
  rw [h call row pos r, h call row pos r']

theorem prattStart_same (h : SameIter b xs xc M M') (row : Row) (e : Ending) (pos : Nat) :
    prattStart call ⟨b, M, xs, xc⟩ row e pos = prattStart call ⟨b, M', xs, xc⟩ row e pos := by
  unfold prattStart
  have h1 := h call row pos .prefix
  have h2 := h call row pos .atom
  have h3 := canParseEither_same (call := call) h row pos .infix .postfix
  simp only [Grammar.ofRole] at h1 h2 h3
  rw [h1, h2, h3, parseUnknown_same h]
  rfl

theorem prattLoop_same (h : SameIter b xs xc M M') (row : Row) (min : Power) (e : Ending) :
    ∀ (n : Nat) (t : SNode) (pos : Nat),
    prattLoop call ⟨b, M, xs, xc⟩ row min e n t pos = prattLoop call ⟨b, M', xs, xc⟩ row min e n t pos
  | 0, _, _ => rfl
  | n + 1, t, pos => by
    unfold prattLoop
    have h1 := h call row pos .infix
    have h2 := h call row pos .postfix
    have h3 := canParseEither_same (call := call) h row pos .prefix .atom
    simp only [Grammar.ofRole] at h1 h2 h3
    rw [h1, h2, h3, parseUnknown_same h]
    simp only [prattLoop_same h row min e n]
    rfl

theorem pratt_same (h : SameIter b xs xc M M') : ∀ f,
    pratt ⟨b, M, xs, xc⟩ f = pratt ⟨b, M', xs, xc⟩ f
  | 0 => rfl
  | f + 1 => by
    rw [pratt, pratt, pratt_same h f]
    funext row pos min e
    unfold prattBody
    rw [prattStart_same h]
    simp only [prattLoop_same h]

theorem parse_same (h : SameIter b xs xc M M') (row : Row) :
    Grammar.parse ⟨b, M, xs, xc⟩ row = Grammar.parse ⟨b, M', xs, xc⟩ row := by
  unfold Grammar.parse Grammar.parseFuel
  rw [pratt_same h]

end congr

/-! ## What a rule starts with -/

/-- What the first node of a token looks like. -/
inductive Head
  | sym (s : Str)
  | ident
  | digits
  | cont (v : Variant)
  | any
  deriving DecidableEq

/-- see `Head` -/
def headOf : TokenParser → Head
  | .symbols (s :: _) _ => .sym s
  | .symbols [] _ => .any
  | .brackets _ o _ => .sym o
  | .emptyBrackets _ o _ => .sym o
  | .container v => .cont v
  | .variable => .ident
  | .number => .digits
  | .string => .sym ['"']

/-- Whether a node can be both. -/
def headsClash : Head → Head → Bool
  | .any, _ => true
  | _, .any => true
  | .sym s, .sym s' => decide (s = s')
  | .sym s, .ident => !decide (∃ c ∈ reservedChars, s = [c])
  | .ident, .sym s => !decide (∃ c ∈ reservedChars, s = [c])
  | .sym s, .digits => isDigits s
  | .digits, .sym s => isDigits s
  | .ident, .ident => true
  | .digits, .digits => true
  | .cont v, .cont v' => decide (v = v')
  | _, _ => false

/-- The node fits to the head. -/
def Head.Fits (x : Xid) (n : Option Node) : Head → Prop
  | .sym s => n = some (.symbol s)
  | .ident => ∃ c cs, n = some (.symbol (c :: cs)) ∧ x.start c = true
  | .digits => ∃ s, n = some (.symbol s) ∧ isDigits s = true
  | .cont v => ∃ cells w, n = some (.container v cells w)
  | .any => True

theorem isSym_true {s : Str} {n : Option Node} (h : isSym s n = true) : n = some (.symbol s) := by
  unfold isSym at h
  split at h
  · rename_i t
    rw [show t = s by simpa using h]
  · cases h

theorem starts_fits {x : Xid} {g : Grammar} (hs : g.xidStart = x.start) {rest : Row}
    {tp : TokenParser} (h : starts g rest tp = true) : (headOf tp).Fits x rest.head? := by
  cases tp with
  | symbols ss ty =>
    cases ss with
    | nil => trivial
    | cons s ss =>
      simp only [starts, beginsWith, Bool.and_eq_true] at h
      exact isSym_true h.1
  | brackets n o c => exact isSym_true h
  | emptyBrackets n o c =>
    simp only [starts, Bool.and_eq_true] at h
    exact isSym_true h.1
  | container v =>
    simp only [starts] at h
    split at h
    · rename_i v' cells w hv
      obtain rfl : v' = v := by simpa using h
      exact ⟨cells, w, hv⟩
    · cases h
  | «variable» =>
    simp only [starts] at h
    split at h
    · rename_i s hv
      cases s with
      | nil => cases h
      | cons c cs =>
        simp only [isIdentifierStart, hs, Bool.and_eq_true] at h
        exact ⟨c, cs, hv, h.1⟩
    · cases h
  | number =>
    simp only [starts] at h
    split at h
    · rename_i s hv
      exact ⟨s, hv, h⟩
    · cases h
  | string => exact isSym_true h

theorem fits_headsClash {x : Xid} (hx : x.Usual) {n : Option Node} {h h' : Head} (h1 : h.Fits x n)
    (h2 : h'.Fits x n) : headsClash h h' = true := by
  have hid : ∀ {s : Str}, n = some (.symbol s) → Head.Fits x n .ident →
      (!decide (∃ c ∈ reservedChars, s = [c])) = true := by
    rintro s rfl ⟨c, cs, hc, hst⟩
    cases hc
    simp only [Bool.not_eq_eq_eq_not, Bool.not_true, decide_eq_false_iff_not]
    rintro ⟨d, hd, he⟩
    cases he
    rw [(hx.reserved c hd).1] at hst
    cases hst
  have hdig : ∀ {c : Char} {cs : Str}, isDigits (c :: cs) = true → x.start c = true → False := by
    intro c cs hd hst
    have : c.isDigit = true := isDigits_one (c := c) (by
      simp only [isDigits, List.all_cons, Bool.and_eq_true] at hd
      simpa [isDigits] using hd.1)
    rw [hx.digits c this] at hst
    cases hst
  cases h <;> cases h' <;>
    simp only [headsClash, Head.Fits, decide_eq_true_eq, Bool.false_eq_true] at h1 h2 ⊢
  case sym.sym s s' => rw [h1] at h2; cases h2; rfl
  case sym.ident s => exact hid h1 h2
  case ident.sym s => exact hid h2 h1
  case sym.digits s => obtain ⟨s', h2, h3⟩ := h2; rw [h1] at h2; cases h2; exact h3
  case digits.sym s => obtain ⟨s', h1, h3⟩ := h1; rw [h1] at h2; cases h2; exact h3
  case cont.cont => obtain ⟨_, _, h1⟩ := h1; obtain ⟨_, _, h2⟩ := h2; rw [h1] at h2; cases h2; rfl
  case sym.cont => obtain ⟨_, _, h2⟩ := h2; rw [h1] at h2; cases h2
  case cont.sym => obtain ⟨_, _, h1⟩ := h1; rw [h1] at h2; cases h2
  case ident.cont => obtain ⟨_, _, h1, -⟩ := h1; obtain ⟨_, _, h2⟩ := h2; rw [h1] at h2; cases h2
  case cont.ident => obtain ⟨_, _, h1⟩ := h1; obtain ⟨_, _, h2, -⟩ := h2; rw [h1] at h2; cases h2
  case digits.cont => obtain ⟨_, h1, -⟩ := h1; obtain ⟨_, _, h2⟩ := h2; rw [h1] at h2; cases h2
  case cont.digits => obtain ⟨_, _, h1⟩ := h1; obtain ⟨_, h2, -⟩ := h2; rw [h1] at h2; cases h2
  case ident.digits =>
    obtain ⟨c, cs, h1, h3⟩ := h1
    obtain ⟨s, h2, h4⟩ := h2
    rw [h1] at h2
    cases h2
    exact hdig h4 h3
  case digits.ident =>
    obtain ⟨c, cs, h2, h3⟩ := h2
    obtain ⟨s, h1, h4⟩ := h1
    rw [h1] at h2
    cases h2
    exact hdig h4 h3

/-! ## How the rules of the modules are spread -/

/-- The token begins with `lim`. -/
def limLike : TokenParser → Bool
  | .symbols (a :: b :: c :: _) _ => decide (a = ['l']) && decide (b = ['i']) && decide (c = ['m'])
  | _ => false

/-- A rule for brackets with something between them. -/
def isBrackets : TokenParser → Bool
  | .brackets _ _ _ => true
  | _ => false

/-- What is used of the modules. -/
structure Spread (all : List (List Rule)) (v : Nat) : Prop where
  own : ∀ k ∈ all, ∀ k' ∈ all, k = k' ∨ ∀ r ∈ k, ∀ r' ∈ k', r.role = none ∨ r.role ≠ r'.role ∨
    headsClash (headOf r.parser) (headOf r'.parser) = false
  atomPrefix : ∀ r ∈ all.flatten, ∀ r' ∈ all.flatten, r.role ≠ some .atom ∨
    r'.role ≠ some .prefix ∨ headsClash (headOf r.parser) (headOf r'.parser) = false ∨
    (r.parser = .variable ∧ limLike r'.parser = true)
  postfixInfix : ∀ r ∈ all.flatten, ∀ r' ∈ all.flatten, r.role ≠ some .postfix ∨
    r'.role ≠ some .infix ∨ headsClash (headOf r.parser) (headOf r'.parser) = false
  closing : ∀ r ∈ all.flatten, r.role = none ∨ headsClash (headOf r.parser) (.sym [')']) = false
  brackets : ∀ k ∈ all, k.reverse.Pairwise fun r' r => r'.role = none ∨ r'.role ≠ r.role ∨
    isBrackets r'.parser = false ∨ headsClash (headOf r'.parser) (headOf r.parser) = false
  prefixes : ∀ r ∈ all.flatten, r.role ≠ some .prefix ∨ isBrackets r.parser = false
  lim : ∀ k ∈ all, ∀ r ∈ k, limLike r.parser = false ∨ all[3]? = some k
  closer : ∀ r ∈ all.flatten, ∀ n o c, r.parser = .brackets n o c → c = [')']
  variable_ : ∀ r ∈ all.flatten, r.role ≠ some .atom ∨ r.parser ≠ .variable ∨ r.name = v

/-- `Spread.closer` as a test. -/
def closerOk : TokenParser → Bool
  | .brackets _ _ c => decide (c = [')'])
  | _ => true

theorem createModules_parser {x : Xid} {mm : MathModules} (h : createModules x = .ok mm) :
    createParser x = .ok (makeMathParserWith x mm mm.others, mm.names) := by
  unfold createModules at h
  unfold createParser
  obtain ⟨⟨⟨b, rs⟩, m⟩, h1, h⟩ := M.bind_eq_ok.1 h
  obtain ⟨⟨rest, m'⟩, h2, h⟩ := M.bind_eq_ok.1 h
  cases h
  rw [h1]
  simp only [M.ok_bind]
  rw [h2]
  rfl

theorem createModules_of_parser {x : Xid} {g : Grammar} {m : NameMap}
    (h : createParser x = .ok (g, m)) : ∃ mm, createModules x = .ok mm := by
  unfold createParser at h
  unfold createModules
  obtain ⟨⟨⟨b, rs⟩, m'⟩, h1, h⟩ := M.bind_eq_ok.1 h
  obtain ⟨⟨rest, m''⟩, h2, h⟩ := M.bind_eq_ok.1 h
  rw [h1]
  simp only [M.ok_bind]
  rw [h2]
  exact ⟨_, rfl⟩

theorem createModules_spread {x : Xid} (hx : x.Letters) {mm : MathModules}
    (h : createModules x = .ok mm) : ∃ v,
      hashGet mm.names.values ["Core".toList, "Variable".toList] = some v ∧ Spread mm.all v := by
  have hd : (match createParser letterXid with
      | .ok r =>
        decide (hashGet r.2.values ["Core".toList, "Variable".toList] = some 12) &&
        decide (∀ k ∈ r.1.modules, ∀ k' ∈ r.1.modules, k = k' ∨ ∀ r ∈ k, ∀ r' ∈ k', r.role = none ∨
          r.role ≠ r'.role ∨ headsClash (headOf r.parser) (headOf r'.parser) = false) &&
        decide (∀ r' ∈ r.1.modules.flatten, ∀ r'' ∈ r.1.modules.flatten, r'.role ≠ some .atom ∨
          r''.role ≠ some .prefix ∨ headsClash (headOf r'.parser) (headOf r''.parser) = false ∨
          (r'.parser = .variable ∧ limLike r''.parser = true)) &&
        decide (∀ r' ∈ r.1.modules.flatten, ∀ r'' ∈ r.1.modules.flatten, r'.role ≠ some .postfix ∨
          r''.role ≠ some .infix ∨ headsClash (headOf r'.parser) (headOf r''.parser) = false) &&
        decide (∀ r' ∈ r.1.modules.flatten, r'.role = none ∨
          headsClash (headOf r'.parser) (.sym [')']) = false) &&
        decide (∀ k ∈ r.1.modules, k.reverse.Pairwise fun r' r => r'.role = none ∨ r'.role ≠ r.role ∨
          isBrackets r'.parser = false ∨ headsClash (headOf r'.parser) (headOf r.parser) = false) &&
        decide (∀ r' ∈ r.1.modules.flatten, r'.role ≠ some .prefix ∨ isBrackets r'.parser = false) &&
        decide (∀ k ∈ r.1.modules, ∀ r' ∈ k, limLike r'.parser = false ∨
          r.1.modules[3]? = some k) &&
        decide (∀ r' ∈ r.1.modules.flatten, closerOk r'.parser = true) &&
        decide (∀ r' ∈ r.1.modules.flatten, r'.role ≠ some .atom ∨ r'.parser ≠ .variable ∨
          r'.name = 12)
      | .error _ => false) = true := by decide +kernel
  have h := createModules_parser h
  rw [createParser_eq hx] at h
  cases hc : createParser letterXid with
  | error e => rw [hc] at hd; cases hd
  | ok r =>
    rw [hc] at hd h
    simp only [Bool.and_eq_true, decide_eq_true_eq] at hd
    simp only [M.ok_bind] at h
    obtain ⟨h1, h2⟩ := Prod.mk.inj (Except.ok.inj h)
    have h1 : r.1.modules = mm.all := congrArg Grammar.modules h1
    rw [h1, h2] at hd
    obtain ⟨⟨⟨⟨⟨⟨⟨⟨⟨a0, a1⟩, a2⟩, a3⟩, a4⟩, a5⟩, a6⟩, a7⟩, a8⟩, a9⟩ := hd
    refine ⟨12, a0, a1, a2, a3, a4, a5, a6, a7, fun r hr n o c hp => ?_, a9⟩
    have := a8 r hr
    rw [hp] at this
    simpa [closerOk] using this

end Aftermath
