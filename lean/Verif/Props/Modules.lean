import Verif.Proof.ModulesMore
import Verif.Props.Display
import Verif.Props.Expression

/-! # C88: a parser can be made from any choice of the modules -/

namespace Aftermath

theorem mem_all_flatten {all M : List (List Rule)} (h : ∀ k ∈ M, k ∈ all) {r : Rule}
    (hr : r ∈ M.flatten) : r ∈ all.flatten := by
  obtain ⟨k, hk, hrk⟩ := List.mem_flatten.1 hr
  exact List.mem_flatten.2 ⟨k, h k hk, hrk⟩

theorem createModules_good {x : Xid} (hx : x.Letters) {mm : MathModules}
    (h : createModules x = .ok mm) : goodRules mm.builtIn.reverse = true ∧
      (makeMathParserWith x mm mm.others).Good ∧
      ∀ n ∈ (makeMathParserWith x mm mm.others).nodeNames, mm.names.getReverse n ≠ none := by
  have hp := createModules_parser h
  obtain ⟨g, m, h1, h2, -, h3⟩ := createParser_names hx
  rw [hp] at h1
  cases h1
  refine ⟨?_, h2, h3⟩
  have hd : (match createParser letterXid with
      | .ok r => decide (goodRules (r.1.modules.headD []).reverse = true)
      | .error _ => false) = true := by decide +kernel
  rw [createParser_eq hx] at hp
  cases hc : createParser letterXid with
  | error e => rw [hc] at hd; cases hd
  | ok r =>
    rw [hc] at hd hp
    simp only [M.ok_bind] at hp
    obtain ⟨h1, -⟩ := Prod.mk.inj (Except.ok.inj hp)
    have h1 : r.1.modules = mm.all := congrArg Grammar.modules h1
    dsimp only at hd
    rw [h1] at hd
    simpa [MathModules.all] using hd

theorem makeMathParserWith_good {x : Xid} (hx : x.Letters) {mm : MathModules}
    (h : createModules x = .ok mm) {modules : List (List Rule)} (hm : ∀ k ∈ modules, k ∈ mm.all) :
    (makeMathParserWith x mm modules).Good ∧
      ∀ n ∈ (makeMathParserWith x mm modules).nodeNames, mm.names.getReverse n ≠ none := by
  obtain ⟨h1, h2, h3⟩ := createModules_good hx h
  have hsub : ∀ r ∈ (makeMathParserWith x mm modules).modules.flatten,
      r ∈ (makeMathParserWith x mm mm.others).modules.flatten := fun r hr =>
    mem_all_flatten (all := mm.all)
      (List.forall_mem_cons.2 ⟨List.mem_cons_self .., hm⟩) hr
  have hb : Grammar.Good ⟨mm.builtInNames, [mm.builtIn], x.start, x.continue_⟩ :=
    good_of_goodRules (by
      simp only [Grammar.rules, List.flatten_cons, List.flatten_nil, List.append_nil]
      exact h1)
  refine ⟨⟨fun r hr hpar => ?_, fun v => ?_⟩, fun n hn => h3 n ?_⟩
  · exact h2.nonEmpty r (List.mem_reverse.2 (hsub r (List.mem_reverse.1 hr))) hpar
  · obtain ⟨r, hr, h4⟩ := hb.containers v
    refine ⟨r, ?_, h4⟩
    simp only [Grammar.rules, List.mem_reverse, List.flatten_cons, List.flatten_nil,
      List.append_nil, makeMathParserWith, List.mem_append] at hr ⊢
    exact .inl hr
  · simp only [Grammar.nodeNames, List.mem_append, List.mem_flatMap] at hn ⊢
    rcases hn with hn | ⟨r, hr, hn⟩
    · exact .inl hn
    · exact .inr ⟨r, hsub r hr, hn⟩

/-- **C88.** All modules can be created, the parser with all of them is the usual one; and a parser
made from any list of these modules, in any order and with repetitions, reads every formula, to a
tree over the whole formula in which every node has a name with a known path. -/
theorem C88 (x : Xid) (hx : x.Letters) :
    ∃ mm, createModules x = .ok mm ∧
      createParser x = .ok (makeMathParserWith x mm mm.others, mm.names) ∧
      ∀ modules, (∀ k ∈ modules, k ∈ mm.all) → ∀ row, rowWf row = true →
        ∃ t, (makeMathParserWith x mm modules).parse row = .ok t ∧ Shaped row t ∧
          t.lo = 0 ∧ t.hi = row.length ∧ t.text = rowText row ∧
          ∀ n ∈ t.names, mm.names.getReverse n ≠ none := by
  obtain ⟨g, m, h, -⟩ := createParser_good hx
  obtain ⟨mm, hmm⟩ := createModules_of_parser h
  refine ⟨mm, hmm, createModules_parser hmm, fun modules hm row hw => ?_⟩
  obtain ⟨hg, hn⟩ := makeMathParserWith_good hx hmm hm
  obtain ⟨t, ht, -⟩ := parse_ok hg hw
  obtain ⟨h1, h2⟩ := C44 _ hg row hw t ht
  exact ⟨t, ht, C45 _ hg row hw t ht, h1, h2, C46 _ hg row hw t ht,
    fun n hnt => hn n (C53 _ row t ht n hnt)⟩

/-- **C88**, order: only which modules are chosen matters, not their order and how often they are
given. -/
theorem C88_order (x : Xid) (hx : x.Usual) (mm : MathModules) (h : createModules x = .ok mm)
    (modules modules' : List (List Rule)) (hm : ∀ k ∈ modules, k ∈ mm.all)
    (hs : ∀ k, k ∈ modules ↔ k ∈ modules') (row : Row) :
    (makeMathParserWith x mm modules).parse row = (makeMathParserWith x mm modules').parse row := by
  obtain ⟨v, -, hall⟩ := createModules_spread hx.letters h
  refine parse_same (sameIter_of_same hx hall (List.cons_ne_nil _ _) ?_ fun k => ?_) row
  · exact List.forall_mem_cons.2 ⟨List.mem_cons_self .., hm⟩
  · simp only [List.mem_cons, hs k]

/-- **C88**, more modules: a formula that is read without errors is read to the same tree after
adding modules, except that a name beginning with `lim` is no longer one after adding the module
`Calculus` (the third of the other modules). -/
theorem C88_more (x : Xid) (hx : x.Usual) (mm : MathModules) (h : createModules x = .ok mm)
    (modules modules' : List (List Rule)) (hm : ∀ k ∈ modules', k ∈ mm.all)
    (hs : ∀ k ∈ modules, k ∈ modules') (row : Row) (hw : rowWf row = true) (t : SNode)
    (ht : (makeMathParserWith x mm modules).parse row = .ok t)
    (he : ErrorFree (makeMathParserWith x mm modules) t)
    (hl : (∀ k, mm.others[2]? = some k → k ∈ modules' → k ∈ modules) ∨
      ∀ v, hashGet mm.names.values ["Core".toList, "Variable".toList] = some v → NoLim v t) :
    (makeMathParserWith x mm modules').parse row = .ok t := by
  obtain ⟨v, hv, hall⟩ := createModules_spread hx.letters h
  have hg := (makeMathParserWith_good hx.letters h fun k hk => hm k (hs k hk)).1
  have hg' := (makeMathParserWith_good hx.letters h hm).1
  refine row_more (b := mm.builtInNames) (M := mm.builtIn :: modules) (M' := mm.builtIn :: modules')
    hx hall (List.forall_mem_cons.2 ⟨List.mem_cons_self .., hm⟩) (fun k hk => ?_) hg hg' _
    (Nat.le_refl _) hw ht ⟨he, hl.imp (fun hl k h3 hk => ?_) fun hl => hl v hv⟩
  · exact (List.mem_cons.1 hk).elim (fun h => h ▸ List.mem_cons_self ..)
      fun h => List.mem_cons_of_mem _ (hs k h)
  · rcases List.mem_cons.1 hk with rfl | hk
    · exact List.mem_cons_self ..
    · exact List.mem_cons_of_mem _ (hl k h3 hk)

/-- The tree of a row with those of the other modules that have these numbers. -/
def readWith (mm : MathModules) (numbers : List Nat) (row : Row) : M SNode :=
  (makeMathParserWith letterXid mm (numbers.filterMap fun i => mm.others[i]?)).parse row

/-- The path of the name of the tree. -/
def MathModules.path (mm : MathModules) : M SNode → Option (List Str)
  | .ok t => mm.names.getReverse t.name
  | .error _ => none

/-- Rows for the examples. -/
def sumRow : Row := [.symbol ['a'], .symbol ['+'], .symbol ['b']]
def limRow : Row := [.symbol ['l'], .symbol ['i'], .symbol ['m']]

/-- Examples, as one computation: a sum without the module `Arithmetic` and with the modules in
another order, and `lim` with and without the module `Calculus`. -/
theorem modules_examples : (match createModules letterXid with
    | .ok mm =>
      decide (mm.path (readWith mm [0] sumRow) = some ["Error".toList, "MissingOperator".toList]) &&
      decide (mm.path (readWith mm [1, 0] sumRow) = some ["Arithmetic".toList, "Add".toList]) &&
      decide (mm.path (readWith mm [0, 1, 2] limRow) = some ["Calculus".toList, "Lim".toList]) &&
      (match readWith mm [0, 1] limRow with
      | .ok t => decide (mm.path (.ok t) = some ["Core".toList, "Variable".toList]) &&
          t.names.all fun n => decide (n ∉ (makeMathParserWith letterXid mm []).errorNames)
      | .error _ => false)
    | .error _ => false) = true := by decide +kernel

/-- The exception of `C88_more` is needed: `lim` is a name without the module `Calculus`, read
without errors, and something else with it. -/
theorem C88_lim : ∃ mm, createModules letterXid = .ok mm ∧ ∃ modules modules' : List (List Rule),
    (∀ k ∈ modules', k ∈ mm.all) ∧ (∀ k ∈ modules, k ∈ modules') ∧ ∃ t,
      (makeMathParserWith letterXid mm modules).parse limRow = .ok t ∧
      ErrorFree (makeMathParserWith letterXid mm modules) t ∧
      (makeMathParserWith letterXid mm modules').parse limRow ≠ .ok t := by
  have h := modules_examples
  cases hm : createModules letterXid with
  | error e => rw [hm] at h; cases h
  | ok mm =>
    rw [hm] at h
    dsimp only at h
    cases ht : readWith mm [0, 1] limRow with
    | error e => rw [ht] at h; simp at h
    | ok t =>
      rw [ht] at h
      simp only [Bool.and_eq_true, decide_eq_true_eq, List.all_eq_true] at h
      obtain ⟨⟨-, h4⟩, h5, h6⟩ := h
      refine ⟨mm, rfl, _, [0, 1, 2].filterMap fun i => mm.others[i]?, fun k hk => ?_, fun k hk => ?_, t, ht, h6, fun hc => ?_⟩
      · obtain ⟨i, -, hi⟩ := List.mem_filterMap.1 hk
        exact List.mem_cons_of_mem _ (List.mem_of_getElem? hi)
      · obtain ⟨i, hi, h⟩ := List.mem_filterMap.1 hk
        refine List.mem_filterMap.2 ⟨i, ?_, h⟩
        simp only [List.mem_cons, List.not_mem_nil, or_false] at hi ⊢
        omega
      · rw [readWith, hc, h5] at h4
        cases h4

end Aftermath
