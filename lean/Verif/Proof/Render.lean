import Verif.Model.Render
import Verif.Spec.Render
import Verif.Proof.Made
import Verif.Proof.DefaultGrammar
import Mathlib.Data.List.Forall2

/-! # Rendering the trees of the parser -/

namespace Aftermath

/-! ## When the functions for lists succeed -/

/-- Rendering succeeds. -/
def Renders (R : Renderers) (ri : Option RowIndex) (o : ROpts) (t : SNode) : Prop :=
  ∃ e, render R ri o t = .ok e

theorem renderAllSame_ok {R : Renderers} {o : ROpts} : ∀ {cs : List SNode} {es : List RElem},
    renderAllSame R o cs = .ok es ↔
      List.Forall₂ (fun c e => render R none o c = .ok e) cs es
  | [], es => by
    rw [renderAllSame, List.forall₂_nil_left_iff]
    exact ⟨fun h => by cases h; rfl, fun h => by rw [h]⟩
  | c :: cs, es => by
    rw [renderAllSame]
    constructor
    · intro h
      obtain ⟨e, he, h⟩ := M.bind_eq_ok.1 h
      obtain ⟨es', hes, h⟩ := M.bind_eq_ok.1 h
      cases h
      exact .cons he (renderAllSame_ok.1 hes)
    · intro h
      cases h with
      | cons he hes => rw [he, M.ok_bind, renderAllSame_ok.2 hes]; rfl

theorem renderContainer_ok {R : Renderers} {o : ROpts} {tag : Tag} {cs : List SNode}
    {es : List RElem} : renderContainer R o tag cs = .ok es ↔
      cs ≠ [] ∧ childrenCountOk tag cs.length = true ∧
        List.Forall₂ (fun c e => render R none o c = .ok e) cs es := by
  cases cs with
  | nil =>
    rw [renderContainer]
    exact ⟨nofun, fun h => absurd rfl h.1⟩
  | cons c cs =>
    rw [renderContainer]
    constructor
    · intro h
      obtain ⟨e, he, h⟩ := M.bind_eq_ok.1 h
      obtain ⟨es', hes, h⟩ := M.bind_eq_ok.1 h
      obtain ⟨u, hu, h⟩ := M.bind_eq_ok.1 h
      cases h
      have hf := renderAllSame_ok.1 hes
      refine ⟨nofun, ?_, .cons he hf⟩
      rw [List.length_cons, hf.length_eq]
      unfold massert at hu
      split at hu
      · assumption
      · cases hu
    · rintro ⟨-, hc, h⟩
      cases h with
      | cons he hes =>
        rw [he, M.ok_bind, renderAllSame_ok.2 hes, M.ok_bind, ← hes.length_eq]
        rw [List.length_cons] at hc
        rw [massert, if_pos hc]
        rfl

theorem forall₂_exists {α β : Type} {P : α → β → Prop} : ∀ {l : List α},
    (∃ l', List.Forall₂ P l l') ↔ ∀ a ∈ l, ∃ b, P a b
  | [] => ⟨fun _ => nofun, fun _ => ⟨[], .nil⟩⟩
  | a :: l => by
    simp only [List.mem_cons, forall_eq_or_imp]
    constructor
    · rintro ⟨l', h⟩
      cases h with
      | cons h1 h2 => exact ⟨⟨_, h1⟩, forall₂_exists.1 ⟨_, h2⟩⟩
    · rintro ⟨⟨b, hb⟩, h⟩
      obtain ⟨l', hl⟩ := forall₂_exists.2 h
      exact ⟨b :: l', .cons hb hl⟩

theorem renderContainer_exists {R : Renderers} {o : ROpts} {tag : Tag} {cs : List SNode} :
    (∃ es, renderContainer R o tag cs = .ok es) ↔
      cs ≠ [] ∧ childrenCountOk tag cs.length = true ∧ ∀ c ∈ cs, Renders R none o c := by
  simp only [renderContainer_ok, exists_and_left, forall₂_exists]
  rfl

theorem renderRows_ok {R : Renderers} {k : Nat} : ∀ {i : Nat} {cs : List SNode} {es : List RElem},
    renderRows R k i cs = .ok es ↔ es.length = cs.length ∧ ∀ j c e, cs[j]? = some c →
      es[j]? = some e → render R (some (k, i + j)) .none c = .ok e
  | i, [], es => by
    rw [renderRows]
    constructor
    · intro h; cases h; simp
    · rintro ⟨h, -⟩
      rw [List.length_eq_zero_iff.1 h]
  | i, c :: cs, es => by
    rw [renderRows]
    constructor
    · intro h
      obtain ⟨e, he, h⟩ := M.bind_eq_ok.1 h
      obtain ⟨es', hes, h⟩ := M.bind_eq_ok.1 h
      cases h
      obtain ⟨h1, h2⟩ := renderRows_ok.1 hes
      refine ⟨by simp [h1], fun j c' e' hc he' => ?_⟩
      cases j with
      | zero =>
        simp only [List.getElem?_cons_zero, Option.some.injEq] at hc he'
        subst hc he'
        exact he
      | succ j =>
        simp only [List.getElem?_cons_succ] at hc he'
        have := h2 j c' e' hc he'
        rwa [Nat.add_right_comm, Nat.add_assoc] at this
    · rintro ⟨h1, h2⟩
      cases es with
      | nil => cases h1
      | cons e es =>
        have := h2 0 c e rfl rfl
        rw [Nat.add_zero] at this
        rw [this, M.ok_bind]
        have hr : renderRows R k (i + 1) cs = .ok es := by
          refine renderRows_ok.2 ⟨by simpa using h1, fun j c' e' hc he' => ?_⟩
          have := h2 (j + 1) c' e' (by simpa using hc) (by simpa using he')
          rwa [Nat.add_right_comm, Nat.add_assoc]
        rw [hr]
        rfl

theorem renderRows_exists {R : Renderers} {k : Nat} : ∀ {i : Nat} {cs : List SNode},
    (∃ es, renderRows R k i cs = .ok es) ↔ ∀ (j : Nat) c, cs[j]? = some c →
      Renders R (some (k, i + j)) .none c
  | i, [] => by simp [renderRows]
  | i, c :: cs => by
    constructor
    · rintro ⟨es, h⟩ j c' hc
      obtain ⟨h1, h2⟩ := renderRows_ok.1 h
      have hj := (List.getElem?_eq_some_iff.1 hc).1
      exact ⟨_, h2 j c' es[j] hc (List.getElem?_eq_getElem (by omega))⟩
    · intro h
      obtain ⟨e, he⟩ := h 0 c rfl
      obtain ⟨es, hes⟩ := (renderRows_exists (i := i + 1)).2 fun j c' hc => by
        have := h (j + 1) c' (by simpa using hc)
        rwa [Nat.add_right_comm, Nat.add_assoc]
      refine ⟨e :: es, ?_⟩
      rw [renderRows]
      rw [Nat.add_zero] at he
      rw [he, M.ok_bind, hes]
      rfl

theorem massert_bind {α : Type} {b : Bool} {f : Unit → M α} {a : α} :
    (massert b >>= f) = .ok a ↔ b = true ∧ f () = .ok a := by
  unfold massert
  cases b
  · simp only [Bool.false_eq_true, if_false, false_and, iff_false]
    exact nofun
  · simp only [if_true, true_and]
    rfl

/-! ## The tables of the renderer fit the grammar -/

/-- The parser of a rule makes a leaf. -/
def TokenParser.isLeaf : TokenParser → Bool
  | .symbols _ _ => true
  | .variable => true
  | .number => true
  | .string => true
  | _ => false

/-- The render function of a name fits the parser of a rule. -/
def fitsParser (R : Renderers) (b : BuiltIn) (n : Nat) : TokenParser → Bool
  | .brackets m _ _ => m == b.operator && (hashGet R n == some .brackets ||
      hashGet R n == some .container || hashGet R n == some .operator)
  | .emptyBrackets m _ _ => m == b.operator && (hashGet R n == some .brackets ||
      hashGet R n == some .container || hashGet R n == some .operator)
  | .container .fraction => hashGet R n == some .fraction
  | .container .root => hashGet R n == some .root
  | .container .table => hashGet R n == some .table
  | .container .sup => n == b.operator
  | .container .sub => n == b.operator
  | _ => match hashGet R n with
    | some (.text _) => true
    | some .operator => true
    | _ => false

/-- The parser reads a script. -/
def TokenParser.isScript : TokenParser → Bool
  | .container .sup => true
  | .container .sub => true
  | _ => false

/-- The render function of a rule fits the rule. -/
def fitsRule (R : Renderers) (b : BuiltIn) (r : Rule) : Bool :=
  match r.role with
  | none => true
  | some .atom => fitsParser R b r.name r.parser && !r.parser.isScript
  | some .postfix => match r.parser with
    | .container .sup => r.name == b.sup
    | .container .sub => r.name == b.sub
    | .container _ => false
    | p => hashGet R r.name == some .container && fitsParser R b b.operator p
  | some _ => hashGet R r.name == some .container && match r.parser with
    | .symbols _ _ => true
    | _ => false

/-- The tags of text that the shipped renderers use. -/
def Tag.isToken : Tag → Bool
  | .mi | .mn | .mtext => true
  | _ => false

/-- The render functions of the built-in names. -/
def fitsBuiltIn (R : Renderers) (b : BuiltIn) : Bool :=
  hashGet R b.operator == some .operator && hashGet R b.whitespaces == some .whitespaces &&
  hashGet R b.whitespace == some .whitespace && hashGet R b.sub == some .sub &&
  hashGet R b.sup == some .sup && hashGet R b.missingOperator == some .container &&
  hashGet R b.missingToken == some .missingToken && hashGet R b.unknownToken == some .unknownToken &&
  R.all fun p => match p.2 with
    | .sub => p.1 == b.sub
    | .sup => p.1 == b.sup
    | .missingToken => p.1 == b.missingToken
    | .unknownToken => p.1 == b.unknownToken
    | .text tag => tag.isToken
    | _ => true

/-- The render functions fit the grammar. -/
structure Fits (R : Renderers) (g : Grammar) : Prop where
  rule : ∀ r ∈ g.modules.flatten, fitsRule R g.builtIn r = true
  operator : hashGet R g.builtIn.operator = some .operator
  whitespaces : hashGet R g.builtIn.whitespaces = some .whitespaces
  whitespace : hashGet R g.builtIn.whitespace = some .whitespace
  sub : hashGet R g.builtIn.sub = some .sub
  sup : hashGet R g.builtIn.sup = some .sup
  missingOperator : hashGet R g.builtIn.missingOperator = some .container
  missingToken : hashGet R g.builtIn.missingToken = some .missingToken
  unknownToken : hashGet R g.builtIn.unknownToken = some .unknownToken
  scripts : ∀ {n k}, hashGet R n = some k → k = .sub ∨ k = .sup →
    n = g.builtIn.sub ∨ n = g.builtIn.sup
  missings : ∀ {n}, hashGet R n = some .missingToken → n = g.builtIn.missingToken
  unknowns : ∀ {n}, hashGet R n = some .unknownToken → n = g.builtIn.unknownToken
  texts : ∀ {n tag}, hashGet R n = some (.text tag) → tag.isToken = true

theorem hashGet_pair {α β : Type} [DecidableEq α] {k : α} {v : β} : ∀ {m : List (α × β)},
    hashGet m k = some v → (k, v) ∈ m
  | [], h => by cases h
  | (k', v') :: m, h => by
    rw [hashGet] at h
    split at h
    · rename_i hk
      cases h
      subst hk
      exact List.mem_cons_self
    · exact List.mem_cons_of_mem _ (hashGet_pair h)

/-- The shipped names have fitting render functions. -/
theorem createParser_fits {x : Xid} (hx : x.Letters) :
    ∃ g m R, createParser x = .ok (g, m) ∧ newRenderer (joinNames m) = .ok R ∧ g.Good ∧
      Fits R g := by
  have h : (match createParser letterXid with
      | .ok r => goodRules r.1.rules && (match newRenderer (joinNames r.2) with
        | .ok R => fitsBuiltIn R r.1.builtIn &&
          r.1.modules.flatten.all (fitsRule R r.1.builtIn)
        | .error _ => false)
      | .error _ => false) = true := by decide +kernel
  rw [createParser_eq hx]
  cases hc : createParser letterXid with
  | error e => rw [hc] at h; cases h
  | ok r =>
    rw [hc] at h
    simp only [Bool.and_eq_true] at h
    obtain ⟨hg, h⟩ := h
    cases hr : newRenderer (joinNames r.2) with
    | error e => rw [hr] at h; cases h
    | ok R =>
      rw [hr] at h
      simp only [fitsBuiltIn, Bool.and_eq_true, List.all_eq_true, beq_iff_eq] at h
      obtain ⟨⟨⟨⟨⟨⟨⟨⟨⟨h1, h2⟩, h3⟩, h4⟩, h5⟩, h6⟩, h7⟩, h8⟩, h10⟩, h9⟩ := h
      exact ⟨_, _, R, rfl, hr,
        good_of_goodRules (g := ⟨r.1.builtIn, r.1.modules, x.start, x.continue_⟩) hg,
        h9, h1, h2, h3, h4, h5, h6, h7, h8, fun hn hk => by
          have := h10 _ (hashGet_pair hn)
          rcases hk with rfl | rfl
          · exact .inl (by simpa using this)
          · exact .inr (by simpa using this),
        fun hn => by simpa using h10 _ (hashGet_pair hn),
        fun hn => by simpa using h10 _ (hashGet_pair hn),
        fun hn => by simpa using h10 _ (hashGet_pair hn)⟩

/-! ## Success for one node -/

/-- The tag and the options for the children of a node, for the render functions that make a
container. -/
def contOf (ri : Option RowIndex) (o : ROpts) : RKind → Option (Tag × ROpts)
  | .whitespaces => some (.mrow, o)
  | .operator => some (.mrow, .none)
  | .container => some (.mrow, .none)
  | .brackets => some (.mrow, ⟨true, none⟩)
  | .sup => some (.msup, ⟨false, some ri⟩)
  | .sub => some (.msub, ⟨false, some ri⟩)
  | _ => none

/-- The extra assertion of scripts. -/
def contExtra (cs : List SNode) : RKind → Prop
  | .sup => BareScript cs
  | .sub => BareScript cs
  | _ => True

theorem isNewRows_iff {t : SNode} : t.isNewRows = true ↔ t.OpensRows := by
  cases t <;> simp [SNode.isNewRows, SNode.OpensRows]

theorem bareScript_iff {cs : List SNode} :
    BareScript cs ↔ ∃ c, cs[1]? = some c ∧ c.OpensRows := by
  match cs with
  | [] => simp [BareScript]
  | [_] => simp [BareScript]
  | _ :: c :: _ => simp [BareScript]

theorem script_bind {α : Type} {cs : List SNode} {f : M α} {a : α} :
    ((munwrap cs[1]?) >>= fun c => massert c.isNewRows >>= fun _ => f) = .ok a ↔
      BareScript cs ∧ f = .ok a := by
  rw [bareScript_iff]
  cases h : cs[1]? with
  | none => simp [munwrap]
  | some c =>
    simp only [munwrap, M.ok_bind, massert_bind, isNewRows_iff, Option.some.injEq, exists_eq_left']

/-- The result of rendering a node with children that makes a container. -/
theorem render_children_ok {R : Renderers} {ri : Option RowIndex} {o o' : ROpts} {k : RKind}
    {tag : Tag} {n lo hi : Nat} {cs : List SNode} {e : RElem} (hk : hashGet R n = some k)
    (hc : contOf ri o k = some (tag, o')) :
    render R ri o (.children n lo hi cs) = .ok e ↔ contExtra cs k ∧ cs ≠ [] ∧
      childrenCountOk tag cs.length = true ∧
      ∃ es, List.Forall₂ (fun c e => render R none o' c = .ok e) cs es ∧
        e = .mk (.container tag) (.children n lo hi cs) ri es := by
  have key : ∀ {o'' : ROpts} {tag' : Tag},
      (renderContainer R o'' tag' cs >>= fun es =>
        (.ok (.mk (.container tag') (.children n lo hi cs) ri es) : M RElem)) = .ok e ↔
      cs ≠ [] ∧ childrenCountOk tag' cs.length = true ∧
      ∃ es, List.Forall₂ (fun c e => render R none o'' c = .ok e) cs es ∧
        e = .mk (.container tag') (.children n lo hi cs) ri es := by
    intro o'' tag'
    rw [M.bind_eq_ok]
    constructor
    · rintro ⟨es, h, h'⟩
      obtain ⟨h1, h2, h3⟩ := renderContainer_ok.1 h
      exact ⟨h1, h2, es, h3, by cases h'; rfl⟩
    · rintro ⟨h1, h2, es, h3, rfl⟩
      exact ⟨es, renderContainer_ok.2 ⟨h1, h2, h3⟩, rfl⟩
  rw [render, hk]
  cases k <;> simp only [contOf, Option.some.injEq, Prod.mk.injEq, reduceCtorEq] at hc <;>
    obtain ⟨rfl, rfl⟩ := hc <;> simp only [contExtra, true_and, key, script_bind]

theorem renders_children {R : Renderers} {ri : Option RowIndex} {o o' : ROpts} {k : RKind}
    {tag : Tag} {n lo hi : Nat} {cs : List SNode} (hk : hashGet R n = some k)
    (hc : contOf ri o k = some (tag, o')) :
    Renders R ri o (.children n lo hi cs) ↔ contExtra cs k ∧ cs ≠ [] ∧
      childrenCountOk tag cs.length = true ∧ ∀ c ∈ cs, Renders R none o' c := by
  unfold Renders
  simp only [render_children_ok hk hc]
  constructor
  · rintro ⟨e, h1, h2, h3, es, h4, -⟩
    exact ⟨h1, h2, h3, forall₂_exists.1 ⟨es, h4⟩⟩
  · rintro ⟨h1, h2, h3, h4⟩
    obtain ⟨es, h5⟩ := forall₂_exists.2 h4
    exact ⟨_, h1, h2, h3, es, h5, rfl⟩

/-- The class of the element of a node that opens new rows. -/
def rowsOf (o : ROpts) (ri : Option RowIndex) : RKind → Option (EKind × Tag × Option RowIndex)
  | .operator => o.override.map fun captured => (.rows .mrow, .mrow, captured)
  | .fraction => some (.rows .mfrac, .mfrac, ri)
  | .root => some (.root .mroot, .mroot, ri)
  | .table => some (.table, .mtable, ri)
  | _ => none

theorem rowsAsserts_bind {α : Type} {lo hi : Nat} {ts : List SNode} {f : M α} {a : α} :
    (rowsAsserts lo hi ts >>= fun _ => f) = .ok a ↔ ts ≠ [] ∧ hi = lo + 1 ∧ f = .ok a := by
  unfold rowsAsserts
  by_cases h1 : 0 < ts.length
  · by_cases h2 : lo + 1 = hi
    · have h3 : ts ≠ [] := List.length_pos_iff.1 h1
      simp only [h1, h2, massert, decide_true, if_true, M.ok_bind, beq_self_eq_true, ne_eq, h3,
        not_false_eq_true, true_and]
    · have : hi ≠ lo + 1 := fun h => h2 h.symm
      simp only [h1, this, massert, decide_true, if_true, M.ok_bind, beq_iff_eq, h2, if_false,
        M.error_bind, reduceCtorEq, false_and, and_false]
  · have h3 : ts = [] := by
      rw [← List.length_eq_zero_iff]; omega
    simp [massert, h3, M.error_bind]

theorem tableRowCount_eq {n w : Nat} (hn : 0 < n) :
    (∃ rows, tableRowCount n w = .ok rows ∧ rows = n / w) ↔ 0 < w ∧ n % w = 0 := by
  unfold tableRowCount
  rw [if_neg (by omega)]
  by_cases hw : w = 0
  · subst hw; simp
  · simp only [hw, if_false, Except.ok.injEq, exists_eq_left']
    have hw' : 0 < w := Nat.pos_of_ne_zero hw
    have hd := Nat.div_add_mod n w
    have hm := Nat.mod_lt n hw'
    constructor
    · intro h
      refine ⟨hw', ?_⟩
      by_contra hne
      have : n / w + 1 ≤ (n + w - 1) / w := by
        rw [Nat.le_div_iff_mul_le hw', Nat.add_mul, Nat.one_mul, Nat.mul_comm]
        omega
      omega
    · rintro ⟨-, h⟩
      apply Nat.le_antisymm
      · have : (n + w - 1) / w < n / w + 1 := by
          rw [Nat.div_lt_iff_lt_mul hw', Nat.add_mul, Nat.one_mul, Nat.mul_comm]
          omega
        omega
      · exact Nat.div_le_div_right (by omega)

/-- The result of rendering a node that opens new rows. -/
theorem render_newRows_ok {R : Renderers} {ri ri' : Option RowIndex} {o : ROpts} {k : RKind}
    {tag : Tag} {ek : EKind} {n lo hi w : Nat} {ts : List SNode} {e : RElem}
    (hk : hashGet R n = some k) (hc : rowsOf o ri k = some (ek, tag, ri')) :
    render R ri o (.newRows n lo hi ts w) = .ok e ↔ ts ≠ [] ∧ hi = lo + 1 ∧
      childrenCountOk tag ts.length = true ∧ (k = .table → 0 < w ∧ ts.length % w = 0) ∧
      ∃ es, renderRows R lo 0 ts = .ok es ∧ e = .mk ek (.newRows n lo hi ts w) ri' es := by
  rw [render, hk]
  cases k <;> simp only [rowsOf, Option.some.injEq, Prod.mk.injEq, reduceCtorEq,
    Option.map_eq_some_iff] at hc
  case table =>
    obtain ⟨rfl, rfl, rfl⟩ := hc
    rw [rowsAsserts_bind]
    simp only [M.bind_eq_ok]
    constructor
    · rintro ⟨h1, h2, es, hes, rows, hrows, u, hu, v, hv, h⟩
      have hl := (renderRows_ok.1 hes).1
      have hpos : 0 < es.length := by rw [hl]; exact List.length_pos_iff.2 h1
      refine ⟨h1, h2, rfl, fun _ => ?_, es, hes, by cases h; rfl⟩
      have := (tableRowCount_eq (w := w) hpos).1 ⟨rows, hrows, ?_⟩
      · rwa [hl] at this
      · unfold massert at hv
        split at hv
        · rename_i hb
          rw [hl]
          simpa using hb
        · cases hv
    · rintro ⟨h1, h2, h3, h4, es, hes, rfl⟩
      have hl := (renderRows_ok.1 hes).1
      have hpos : 0 < es.length := by rw [hl]; exact List.length_pos_iff.2 h1
      obtain ⟨rows, hr, hr'⟩ := (tableRowCount_eq (w := w) hpos).2 (by rw [hl]; exact h4 trivial)
      refine ⟨h1, h2, es, hes, rows, hr, (), rfl, (), ?_, rfl⟩
      rw [massert, if_pos]
      rw [hr', hl]
      simp
  case operator =>
    obtain ⟨c, hc, rfl, rfl, rfl⟩ := hc
    simp only [hc]
    rw [rowsAsserts_bind]
    simp only [M.bind_eq_ok]
    constructor
    · rintro ⟨h1, h2, es, hes, u, hu, h⟩
      exact ⟨h1, h2, rfl, nofun, es, hes, by cases h; rfl⟩
    · rintro ⟨h1, h2, h3, h4, es, hes, rfl⟩
      exact ⟨h1, h2, es, hes, (), rfl, rfl⟩
  all_goals
    obtain ⟨rfl, rfl, rfl⟩ := hc
    rw [rowsAsserts_bind]
    simp only [M.bind_eq_ok]
    constructor
    · rintro ⟨h1, h2, es, hes, u, hu, h⟩
      refine ⟨h1, h2, ?_, nofun, es, hes, by cases h; rfl⟩
      rw [← (renderRows_ok.1 hes).1]
      unfold massert at hu
      split at hu
      · assumption
      · cases hu
    · rintro ⟨h1, h2, h3, h4, es, hes, rfl⟩
      refine ⟨h1, h2, es, hes, (), ?_, rfl⟩
      rw [massert, if_pos]
      rw [(renderRows_ok.1 hes).1]
      exact h3

theorem renders_newRows {R : Renderers} {ri ri' : Option RowIndex} {o : ROpts} {k : RKind}
    {tag : Tag} {ek : EKind} {n lo hi w : Nat} {ts : List SNode}
    (hk : hashGet R n = some k) (hc : rowsOf o ri k = some (ek, tag, ri')) :
    Renders R ri o (.newRows n lo hi ts w) ↔ ts ≠ [] ∧ hi = lo + 1 ∧
      childrenCountOk tag ts.length = true ∧ (k = .table → 0 < w ∧ ts.length % w = 0) ∧
      ∀ (j : Nat) t, ts[j]? = some t → Renders R (some (lo, j)) .none t := by
  unfold Renders
  simp only [render_newRows_ok hk hc]
  have := renderRows_exists (R := R) (k := lo) (i := 0) (cs := ts)
  simp only [Nat.zero_add, Renders] at this
  constructor
  · rintro ⟨e, h1, h2, h3, h4, es, hes, -⟩
    exact ⟨h1, h2, h3, h4, this.1 ⟨es, hes⟩⟩
  · rintro ⟨h1, h2, h3, h4, h5⟩
    obtain ⟨es, hes⟩ := this.2 h5
    exact ⟨_, h1, h2, h3, h4, es, hes, rfl⟩

end Aftermath
