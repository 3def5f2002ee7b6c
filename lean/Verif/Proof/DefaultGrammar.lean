import Verif.Model.DefaultGrammar
import Verif.Proof.ParseTotal

/-! # The shipped rule collections form a usable grammar -/

namespace Aftermath

/-- Latin letters are identifier characters. -/
def Xid.Letters (x : Xid) : Prop := ∀ c : Char, c.isAlpha = true → x.start c = true ∧ x.continue_ c = true

/-- The letters and nothing else. -/
def letterXid : Xid := ⟨Char.isAlpha, Char.isAlpha⟩

theorem letterXid_letters : letterXid.Letters := fun _ h => ⟨h, h⟩

/-- a non-empty string of letters -/
def isWord (s : String) : Bool := !s.toList.isEmpty && s.toList.all Char.isAlpha

theorem isIdentifier_word {x : Xid} (hx : x.Letters) {s : String} (h : isWord s = true) :
    isIdentifier x.start x.continue_ s.toList = true := by
  unfold isWord at h
  cases hs : s.toList with
  | nil => rw [hs] at h; simp at h
  | cons c cs =>
    rw [hs] at h
    simp only [List.isEmpty_cons, Bool.not_false, List.all_cons, Bool.true_and, Bool.and_eq_true,
      List.all_eq_true] at h
    simp only [isIdentifier, Bool.and_eq_true, List.all_eq_true]
    exact ⟨(hx c h.1).1, fun d hd => (hx d (h.2 d hd)).2⟩

theorem withRuleName_word {x : Xid} (hx : x.Letters) {ns name : String} (h1 : isWord ns = true)
    (h2 : isWord name = true) (m : NameMap) :
    withRuleName x ns name m = .ok (m.add [ns.toList, name.toList]) := by
  unfold withRuleName PathId.new
  simp [massert, isIdentifier_word hx h1, isIdentifier_word hx h2]

theorem builtInRules_eq {x : Xid} (hx : x.Letters) :
    builtInRules x = builtInRules letterXid := by
  funext m
  have e : ∀ ns name, isWord ns = true → isWord name = true →
      withRuleName x ns name = withRuleName letterXid ns name := by
    intro ns name h1 h2
    funext m
    rw [withRuleName_word hx h1 h2, withRuleName_word letterXid_letters h1 h2]
  unfold builtInRules
  simp only [e "BuiltIn" "Operator" (by decide +kernel) (by decide +kernel),
    e "BuiltIn" "Whitespaces" (by decide +kernel) (by decide +kernel),
    e "BuiltIn" "Whitespace" (by decide +kernel) (by decide +kernel),
    e "BuiltIn" "Sub" (by decide +kernel) (by decide +kernel),
    e "BuiltIn" "Sup" (by decide +kernel) (by decide +kernel),
    e "BuiltIn" "Nothing" (by decide +kernel) (by decide +kernel),
    e "BuiltIn" "Fraction" (by decide +kernel) (by decide +kernel),
    e "BuiltIn" "Root" (by decide +kernel) (by decide +kernel),
    e "BuiltIn" "Table" (by decide +kernel) (by decide +kernel),
    e "Error" "MissingOperator" (by decide +kernel) (by decide +kernel),
    e "Error" "MissingToken" (by decide +kernel) (by decide +kernel),
    e "Error" "UnknownToken" (by decide +kernel) (by decide +kernel)]

theorem declareRules_eq {x : Xid} (hx : x.Letters) {ns : String} (hn : isWord ns = true) :
    ∀ {ds : List RuleDecl}, (∀ d ∈ ds, isWord d.2.1 = true) →
    declareRules x ns ds = declareRules letterXid ns ds
  | [], _ => rfl
  | (k, name, p) :: ds, h => by
    have h1 : isWord name = true := h _ (List.mem_cons_self ..)
    funext m
    simp only [declareRules, withRuleName_word hx hn h1, withRuleName_word letterXid_letters hn h1,
      declareRules_eq hx hn fun d hd => h d (List.mem_cons_of_mem _ hd)]

theorem declareModules_eq {x : Xid} (hx : x.Letters) :
    ∀ {ms : List (String × List RuleDecl)},
    (∀ m ∈ ms, isWord m.1 = true ∧ ∀ d ∈ m.2, isWord d.2.1 = true) →
    declareModules x ms = declareModules letterXid ms
  | [], _ => rfl
  | (ns, ds) :: ms, h => by
    have h1 := h _ (List.mem_cons_self ..)
    funext m
    simp only [declareModules, declareRules_eq hx h1.1 h1.2,
      declareModules_eq hx fun d hd => h d (List.mem_cons_of_mem _ hd)]

theorem otherModules_words (b : BuiltIn) :
    ∀ m ∈ otherModules b, isWord m.1 = true ∧ ∀ d ∈ m.2, isWord d.2.1 = true := by
  have h : ∀ m ∈ (otherModules b).map (fun m => (m.1, m.2.map fun d => d.2.1)),
      isWord m.1 = true ∧ ∀ d ∈ m.2, isWord d = true := by
    have : (otherModules b).map (fun m => (m.1, m.2.map fun d => d.2.1)) =
        (otherModules ⟨0, 0, 0, 0, 0, 0, 0, 0, 0⟩).map (fun m => (m.1, m.2.map fun d => d.2.1)) := rfl
    rw [this]
    decide +kernel
  intro m hm
  obtain ⟨h1, h2⟩ := h _ (List.mem_map_of_mem hm)
  exact ⟨h1, fun d hd => h2 _ (List.mem_map_of_mem hd)⟩

/-- The rules and names of the shipped parser do not depend on the character tables. -/
theorem createParser_eq {x : Xid} (hx : x.Letters) :
    createParser x = (do
      let r ← createParser letterXid
      .ok (⟨r.1.builtIn, r.1.modules, x.start, x.continue_⟩, r.2)) := by
  unfold createParser
  rw [builtInRules_eq hx]
  cases builtInRules letterXid NameMap.empty with
  | error e => rfl
  | ok r =>
    obtain ⟨⟨b, rs⟩, m⟩ := r
    simp only [M.ok_bind]
    rw [declareModules_eq hx (otherModules_words b)]
    cases declareModules letterXid (otherModules b) m with
    | error e => rfl
    | ok r => rfl

/-- `Grammar.Good` as a test. -/
def goodRules (rs : List Rule) : Bool :=
  rs.all (fun r => r.kind == .nameOnly || (match r.parser with
    | .symbols ss _ => !ss.isEmpty
    | _ => true)) &&
  [Variant.fraction, .root, .sup, .sub, .table].all fun v =>
    rs.any fun r => r.kind != .nameOnly && r.parser == .container v

theorem good_of_goodRules {g : Grammar} (h : goodRules g.rules = true) : g.Good := by
  unfold goodRules at h
  simp only [Bool.and_eq_true, List.all_eq_true, List.any_eq_true, Bool.or_eq_true] at h
  refine ⟨fun r hr hp => ?_, fun v => ?_⟩
  · rcases h.1 r hr with h1 | h1
    · exact absurd (by simpa using h1) hp
    · cases hpar : r.parser with
      | symbols ss ty =>
        rw [hpar] at h1
        simpa [TokenParser.NonEmpty] using h1
      | _ => simp [TokenParser.NonEmpty]
  · obtain ⟨r, hr, h1, h2⟩ := h.2 v (by cases v <;> simp)
    exact ⟨r, hr, by simpa [Rule.Parsed] using h1, by simpa using h2⟩

theorem createParser_good {x : Xid} (hx : x.Letters) :
    ∃ g m, createParser x = .ok (g, m) ∧ g.Good ∧ g.xidStart = x.start ∧
      g.xidContinue = x.continue_ := by
  have h : (match createParser letterXid with
      | .ok r => goodRules r.1.rules
      | .error _ => false) = true := by decide +kernel
  rw [createParser_eq hx]
  cases hc : createParser letterXid with
  | error e => rw [hc] at h; cases h
  | ok r =>
    rw [hc] at h
    exact ⟨_, _, rfl, good_of_goodRules (g := ⟨r.1.builtIn, r.1.modules, x.start, x.continue_⟩) h,
      rfl, rfl⟩

end Aftermath
