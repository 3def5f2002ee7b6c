import Verif.Proof.Render

/-! # Which trees of the parser can be rendered -/

namespace Aftermath

theorem spacedScriptIn_iff {b : BuiltIn} : ∀ {cs : List SNode},
    SpacedScriptIn b cs ↔ ∃ c ∈ cs, SpacedScript b c
  | [] => by simp [SpacedScriptIn]
  | c :: cs => by
    rw [SpacedScriptIn, spacedScriptIn_iff]
    simp

variable {R : Renderers} {g : Grammar}

/-- A name that is rendered differently from scripts is not the name of a script. -/
theorem Fits.not_script (hf : Fits R g) {n : Nat} {k : RKind} (hk : hashGet R n = some k)
    (h1 : k ≠ .sub) (h2 : k ≠ .sup) : ¬ (n = g.builtIn.sub ∨ n = g.builtIn.sup) := by
  rintro (rfl | rfl)
  · rw [hf.sub] at hk; cases hk; exact h1 rfl
  · rw [hf.sup] at hk; cases hk; exact h2 rfl

theorem Fits.spaced_children (hf : Fits R g) {n lo hi : Nat} {cs : List SNode} {k : RKind}
    (hk : hashGet R n = some k) (h1 : k ≠ .sub) (h2 : k ≠ .sup) :
    SpacedScript g.builtIn (.children n lo hi cs) ↔ ∃ c ∈ cs, SpacedScript g.builtIn c := by
  rw [SpacedScript, spacedScriptIn_iff]
  simp [hf.not_script hk h1 h2]

/-- The statement about the parts of a tree: rendering succeeds unless there is a script with
spaces. -/
def MadeRenders (R : Renderers) (b : BuiltIn) : Cat → SNode → Prop
  | .expr, t => ∀ ri o, Renders R ri o t ↔ ¬ SpacedScript b t
  | .core n tp, t => fitsParser R b n tp = true → ∀ ri o, (tp.isScript = true → o.override ≠ none) →
      (Renders R ri o t ↔ ¬ SpacedScript b t)
  | .tok n tp, t => fitsParser R b n tp = true → ∀ ri o, (tp.isScript = true → o.override ≠ none) →
      (Renders R ri o t ↔ ¬ SpacedScript b t)
  | .opr tp, t => tp.isLeaf = true → ∀ ri o, Renders R ri o t ↔ ¬ SpacedScript b t

theorem Spc.renders {row : Row} {a b : Nat} {s : Option SNode} (hf : Fits R g)
    (h : Spc g row a b s) : ∀ t ∈ s, (∀ ri o, Renders R ri o t) ∧ ¬ SpacedScript g.builtIn t := by
  rcases h with ⟨rfl, -⟩ | ⟨-, rfl, -⟩
  · nofun
  · intro t ht
    cases ht
    refine ⟨fun ri o => ⟨_, by rw [render, hf.whitespace]⟩, by simp [SpacedScript]⟩

theorem wrap_renders (hf : Fits R g) {row : Row} {a b p q p' q' : Nat} {sb sa : Option SNode}
    {t : SNode} (hb : Spc g row p q sb) (ha : Spc g row p' q' sa) {o : ROpts}
    (h : ∀ ri, Renders R ri o t ↔ ¬ SpacedScript g.builtIn t) (ri : Option RowIndex) :
    Renders R ri o (wrapSpc g sb t sa a b) ↔ ¬ SpacedScript g.builtIn (wrapSpc g sb t sa a b) := by
  have hb' := hb.renders hf
  have ha' := ha.renders hf
  have key : Renders R ri o (.children g.builtIn.whitespaces a b (sb.toList ++ t :: sa.toList)) ↔
      ¬ SpacedScript g.builtIn
        (.children g.builtIn.whitespaces a b (sb.toList ++ t :: sa.toList)) := by
    rw [renders_children hf.whitespaces rfl, hf.spaced_children hf.whitespaces nofun nofun]
    have hne : sb.toList ++ t :: sa.toList ≠ [] := by simp
    simp only [contExtra, hne, ne_eq, not_false_eq_true, childrenCountOk, true_and]
    simp only [List.mem_append, Option.mem_toList, List.mem_cons]
    constructor
    · rintro hall ⟨c, hc | rfl | hc, hs⟩
      · exact (hb' c hc).2 hs
      · exact (h none).1 (hall _ (.inr (.inl rfl))) hs
      · exact (ha' c hc).2 hs
    · rintro hn c (hc | rfl | hc)
      · exact (hb' c hc).1 _ _
      · exact (h none).2 fun hs => hn ⟨_, .inr (.inl rfl), hs⟩
      · exact (ha' c hc).1 _ _
  cases sb with
  | none =>
    cases sa with
    | none => exact h ri
    | some _ => exact key
  | some _ => exact key

theorem wrap_opens (hb : sb = none) (ha : sa = none) {t : SNode} {a b : Nat} :
    wrapSpc g sb t sa a b = t := by
  subst hb ha; rfl

theorem wrap_not_opens {sb sa : Option SNode} {t : SNode} {a b : Nat}
    (h : (wrapSpc g sb t sa a b).OpensRows) : sb = none ∧ sa = none := by
  cases sb <;> cases sa
  · exact ⟨rfl, rfl⟩
  all_goals exact h.elim

/-- Rendering a node of a script. -/
theorem script_renders (hf : Fits R g) {n a b : Nat} {l s : SNode}
    (hn : n = g.builtIn.sub ∨ n = g.builtIn.sup) {ri : Option RowIndex} {o : ROpts}
    (hl : ∀ ri o, Renders R ri o l ↔ ¬ SpacedScript g.builtIn l)
    (hs : ∀ ri o, o.override ≠ none → (Renders R ri o s ↔ ¬ SpacedScript g.builtIn s)) :
    Renders R ri o (.children n a b [l, s]) ↔
      ¬ SpacedScript g.builtIn (.children n a b [l, s]) := by
  have h1 := hl none ⟨false, some ri⟩
  have h2 := hs none ⟨false, some ri⟩ nofun
  have h3 : SpacedScript g.builtIn (.children n a b [l, s]) ↔
      ¬ s.OpensRows ∨ SpacedScript g.builtIn l ∨ SpacedScript g.builtIn s := by
    rw [SpacedScript]
    simp [hn, SpacedScriptIn, BareScript]
  rw [h3]
  rcases hn with rfl | rfl
  · rw [renders_children hf.sub rfl]
    simp only [contExtra, BareScript, ne_eq, reduceCtorEq, not_false_eq_true, List.length_cons,
      List.length_nil, childrenCountOk, List.mem_cons, List.not_mem_nil, or_false, forall_eq_or_imp,
      forall_eq, h1, h2]
    tauto
  · rw [renders_children hf.sup rfl]
    simp only [contExtra, BareScript, ne_eq, reduceCtorEq, not_false_eq_true, List.length_cons,
      List.length_nil, childrenCountOk, List.mem_cons, List.not_mem_nil, or_false, forall_eq_or_imp,
      forall_eq, h1, h2]
    tauto

/-- Rendering a node that only holds its children together. -/
theorem plain_renders (hf : Fits R g) {n a b : Nat} {cs : List SNode} (hne : cs ≠ [])
    {k : RKind} (hn : hashGet R n = some k)
    (hk : k = .container ∨ k = .brackets ∨ k = .operator) {ri : Option RowIndex} {o : ROpts}
    (h : ∀ c ∈ cs, ∀ ri o, Renders R ri o c ↔ ¬ SpacedScript g.builtIn c) :
    Renders R ri o (.children n a b cs) ↔ ¬ SpacedScript g.builtIn (.children n a b cs) := by
  have key : ∀ o', (∀ c ∈ cs, Renders R none o' c) ↔ ¬ ∃ c ∈ cs, SpacedScript g.builtIn c := by
    intro o'
    constructor
    · rintro h' ⟨c, hc, hs⟩
      exact (h c hc _ _).1 (h' c hc) hs
    · intro hn c hc
      exact (h c hc _ _).2 fun hs => hn ⟨c, hc, hs⟩
  rcases hk with rfl | rfl | rfl
  all_goals
    rw [renders_children hn rfl, hf.spaced_children hn nofun nofun]
    simp only [contExtra, hne, ne_eq, not_false_eq_true, childrenCountOk, true_and, key]

theorem Fits.atom (hf : Fits R g) {r : Rule} (hr : r ∈ g.ofRole .atom) :
    fitsParser R g.builtIn r.name r.parser = true ∧ r.parser.isScript = false := by
  obtain ⟨h1, h2⟩ := mem_ofRole.1 hr
  have := hf.rule r h1
  unfold fitsRule at this
  rw [h2] at this
  simpa using this

theorem Fits.pre (hf : Fits R g) {r : Rule} (hr : r ∈ g.ofRole .prefix) :
    hashGet R r.name = some .container ∧ r.parser.isLeaf = true := by
  obtain ⟨h1, h2⟩ := mem_ofRole.1 hr
  have := hf.rule r h1
  unfold fitsRule at this
  rw [h2] at this
  simp only [Bool.and_eq_true, beq_iff_eq] at this
  refine ⟨this.1, ?_⟩
  cases hp : r.parser <;> rw [hp] at this <;> simp_all [TokenParser.isLeaf]

theorem Fits.inf (hf : Fits R g) {r : Rule} (hr : r ∈ g.ofRole .infix) :
    hashGet R r.name = some .container ∧ r.parser.isLeaf = true := by
  obtain ⟨h1, h2⟩ := mem_ofRole.1 hr
  have := hf.rule r h1
  unfold fitsRule at this
  rw [h2] at this
  simp only [Bool.and_eq_true, beq_iff_eq] at this
  refine ⟨this.1, ?_⟩
  cases hp : r.parser <;> rw [hp] at this <;> simp_all [TokenParser.isLeaf]

theorem Fits.post (hf : Fits R g) {r : Rule} (hr : r ∈ g.ofRole .postfix) :
    (r.parser.isScript = true ∧ (r.name = g.builtIn.sub ∨ r.name = g.builtIn.sup)) ∨
    (r.parser.isScript = false ∧ hashGet R r.name = some .container ∧
      fitsParser R g.builtIn g.builtIn.operator r.parser = true) := by
  obtain ⟨h1, h2⟩ := mem_ofRole.1 hr
  have := hf.rule r h1
  unfold fitsRule at this
  rw [h2] at this
  cases hp : r.parser with
  | container v =>
    rw [hp] at this
    cases v <;> simp_all [TokenParser.isScript]
  | _ =>
    rw [hp] at this
    simp only [Bool.and_eq_true, beq_iff_eq] at this
    exact .inr ⟨rfl, this⟩

theorem Fits.leafOperator (hf : Fits R g) {tp : TokenParser} (h : tp.isLeaf = true) :
    fitsParser R g.builtIn g.builtIn.operator tp = true ∧ tp.isScript = false := by
  cases tp <;> simp_all [TokenParser.isLeaf, fitsParser, hf.operator, TokenParser.isScript]

theorem scriptParser {tp : TokenParser} (h : tp.isScript = true) :
    ∃ v, tp = .container v ∧ (v = .sub ∨ v = .sup) := by
  cases tp with
  | container v => cases v <;> simp_all [TokenParser.isScript]
  | _ => cases h

theorem fits_script (b : BuiltIn) {tp : TokenParser} (h : tp.isScript = true) :
    fitsParser R b b.operator tp = true := by
  obtain ⟨v, rfl, rfl | rfl⟩ := scriptParser h <;> simp [fitsParser]

/-- A parser with a leaf as its result. -/
theorem leaf_isLeaf {call : Rec} {tp : TokenParser} {row : Row} {a b : Nat} {ty : LeafType}
    {ss : List Str} (h : tokenParse call g tp row a = .ok (some (.leaf ty ss, b))) :
    tp.isLeaf = true := by
  cases tp with
  | brackets m o c =>
    simp only [tokenParse, parseBrackets] at h
    split at h
    · cases h
    · obtain ⟨x, -, h⟩ := M.bind_eq_ok.1 h
      obtain ⟨y, z⟩ := x
      simp only at h
      split at h
      · cases h
      · obtain ⟨x, -, h⟩ := M.bind_eq_ok.1 h
        obtain ⟨x', -, h⟩ := M.bind_eq_ok.1 h
        cases h
  | emptyBrackets m o c =>
    simp only [tokenParse, parseEmptyBrackets] at h
    split at h
    · cases h
    · split at h
      · cases h
      · obtain ⟨x, -, h⟩ := M.bind_eq_ok.1 h
        obtain ⟨x', -, h⟩ := M.bind_eq_ok.1 h
        cases h
  | container v =>
    simp only [tokenParse, parseContainer] at h
    split at h
    · split at h
      · obtain ⟨x, -, h⟩ := M.bind_eq_ok.1 h
        obtain ⟨x', -, h⟩ := M.bind_eq_ok.1 h
        cases h
      · cases h
    · cases h
  | _ => rfl

theorem leaf_renders {n a b : Nat} {ty : LeafType} {ss : List Str} {tp : TokenParser}
    (bi : BuiltIn) (h : fitsParser R bi n tp = true) (hl : tp.isLeaf = true)
    (ri : Option RowIndex) (o : ROpts) :
    Renders R ri o (.leaf n a b ty ss) ↔ ¬ SpacedScript bi (.leaf n a b ty ss) := by
  simp only [SpacedScript, not_false_eq_true, iff_true]
  unfold Renders
  rw [render]
  have : (match hashGet R n with
    | some (.text _) => true
    | some .operator => true
    | _ => false) = true := by
    cases tp <;> first | exact h | cases hl
  split at this
  · rename_i h'; rw [h']; exact ⟨_, rfl⟩
  · rename_i h'; rw [h']; exact ⟨_, rfl⟩
  · cases this

theorem operatorLeaf_renders (hf : Fits R g) {a b : Nat} {ty : LeafType} {ss : List Str}
    (ri : Option RowIndex) (o : ROpts) :
    Renders R ri o (.leaf g.builtIn.operator a b ty ss) ↔
      ¬ SpacedScript g.builtIn (.leaf g.builtIn.operator a b ty ss) :=
  leaf_renders (tp := .variable) g.builtIn (by simp [fitsParser, hf.operator]) rfl ri o

theorem fits_brackets {n : Nat} (h : (hashGet R n = some .brackets ∨
    hashGet R n = some .container) ∨ hashGet R n = some .operator) :
    ∃ k, hashGet R n = some k ∧ (k = .container ∨ k = .brackets ∨ k = .operator) := by
  rcases h with (h | h) | h
  · exact ⟨_, h, .inr (.inl rfl)⟩
  · exact ⟨_, h, .inl rfl⟩
  · exact ⟨_, h, .inr (.inr rfl)⟩

theorem made_renders (hf : Fits R g) {k : Cat} {row : Row} {a b : Nat} {t : SNode}
    (h : Made g k row a b t) : rowWf row = true → MadeRenders R g.builtIn k t := by
  have hmiss : ∀ a, ∀ ri o, Renders R ri o (.children g.builtIn.missingToken a a []) ↔
      ¬ SpacedScript g.builtIn (.children g.builtIn.missingToken a a []) := by
    intro a ri o
    rw [hf.spaced_children hf.missingToken nofun nofun]
    simp only [List.not_mem_nil, false_and, exists_false, not_false_eq_true, iff_true]
    refine ⟨.mk .missing (.children g.builtIn.missingToken a a []) ri [], ?_⟩
    rw [render, hf.missingToken]
    simp only [massert, List.isEmpty_nil, if_true, M.ok_bind, beq_self_eq_true]
  induction h with
  | missing h => exact fun _ => hmiss _
  | unknown h =>
    intro _ ri o
    simp only [SpacedScript, not_false_eq_true, iff_true]
    exact ⟨_, by rw [render, hf.unknownToken]⟩
  | missingOperator _ _ ih1 ih2 =>
    intro hw ri o
    refine plain_renders hf (List.cons_ne_nil _ _) hf.missingOperator (.inl rfl) ?_
    simp only [List.mem_cons, List.not_mem_nil, or_false, forall_eq_or_imp, forall_eq]
    exact ⟨ih1 hw, hmiss _, ih2 hw⟩
  | atom hr _ ih =>
    intro hw ri o
    obtain ⟨h1, h2⟩ := hf.atom hr
    exact ih hw h1 ri o fun h => by rw [h2] at h; cases h
  | «prefix» hr _ _ ih1 ih2 =>
    intro hw ri o
    obtain ⟨h1, h2⟩ := hf.pre hr
    refine plain_renders hf (List.cons_ne_nil _ _) h1 (.inl rfl) ?_
    simp only [List.mem_cons, List.not_mem_nil, or_false, forall_eq_or_imp, forall_eq]
    exact ⟨ih1 hw h2, ih2 hw⟩
  | «infix» hr _ _ _ ih1 ih2 ih3 =>
    intro hw ri o
    obtain ⟨h1, h2⟩ := hf.inf hr
    refine plain_renders hf (List.cons_ne_nil _ _) h1 (.inl rfl) ?_
    simp only [List.mem_cons, List.not_mem_nil, or_false, forall_eq_or_imp, forall_eq]
    exact ⟨ih1 hw, ih2 hw h2, ih3 hw⟩
  | «postfix» hr _ _ ih1 ih2 =>
    intro hw ri o
    rcases hf.post hr with ⟨h1, h2⟩ | ⟨h1, h2, h3⟩
    · refine script_renders hf h2 (ih1 hw) ?_
      intro ri o ho
      exact ih2 hw (fits_script _ h1) ri o fun _ => ho
    · refine plain_renders hf (List.cons_ne_nil _ _) h2 (.inl rfl) ?_
      simp only [List.mem_cons, List.not_mem_nil, or_false, forall_eq_or_imp, forall_eq]
      exact ⟨ih1 hw, fun ri o => ih2 hw h3 ri o fun h => by rw [h1] at h; cases h⟩
  | opr _ ih =>
    intro hw hl ri o
    obtain ⟨h1, h2⟩ := hf.leafOperator hl
    exact ih hw h1 ri o fun h => by rw [h2] at h; cases h
  | @script row a b p c n t s sa tp v hn _ _ hs _ ih1 ih2 =>
    intro hw hl ri o
    have hn' : n = g.builtIn.sub ∨ n = g.builtIn.sup := by
      rcases hn with ⟨-, h⟩ | ⟨-, h⟩
      · exact .inl h
      · exact .inr h
    refine script_renders hf hn' (ih1 hw hl) fun ri o ho => ?_
    refine wrap_renders hf (.inl ⟨rfl, rfl⟩ : Spc g _ 0 0 none) hs (fun ri => ?_) ri
    refine ih2 hw ?_ ri o fun _ => ho
    rcases hn with ⟨h, -⟩ | ⟨h, -⟩ <;> subst h <;> simp [fitsParser]
  | tok hb _ _ ha _ ih =>
    intro hw hfit ri o ho
    exact wrap_renders hf hb ha (fun ri => ih hw hfit ri o ho) ri
  | leaf htp _ _ _ _ =>
    intro hw hfit ri o ho
    exact leaf_renders _ hfit (leaf_isLeaf htp) ri o
  | emptyBrackets _ _ =>
    intro hw hfit ri o ho
    simp only [fitsParser, Bool.and_eq_true, beq_iff_eq, Bool.or_eq_true] at hfit
    obtain ⟨rfl, hk⟩ := hfit
    obtain ⟨k, hk, hk'⟩ := fits_brackets hk
    refine plain_renders hf (List.cons_ne_nil _ _) hk hk' ?_
    simp only [List.mem_cons, List.not_mem_nil, or_false, forall_eq_or_imp, forall_eq]
    exact ⟨operatorLeaf_renders hf, operatorLeaf_renders hf⟩
  | brackets _ _ _ ih =>
    intro hw hfit ri o ho
    simp only [fitsParser, Bool.and_eq_true, beq_iff_eq, Bool.or_eq_true] at hfit
    obtain ⟨rfl, hk⟩ := hfit
    obtain ⟨k, hk, hk'⟩ := fits_brackets hk
    refine plain_renders hf (List.cons_ne_nil _ _) hk hk' ?_
    simp only [List.mem_cons, List.not_mem_nil, or_false, forall_eq_or_imp, forall_eq]
    exact ⟨operatorLeaf_renders hf, ih hw, operatorLeaf_renders hf⟩
  | @container row a n w v cells ts hc hlen hw0 hmod _ ih =>
    intro hw hfit ri o ho
    have hnode := rowWf_iff.1 hw _ (List.mem_of_getElem? hc)
    rw [Node.wf, Bool.and_eq_true] at hnode
    obtain ⟨hshape, hcells⟩ := hnode
    have hsp : SpacedScript g.builtIn (.newRows n a (a + 1) ts w) ↔
        ∃ t ∈ ts, SpacedScript g.builtIn t := by
      rw [SpacedScript, spacedScriptIn_iff]
    have hall : (∀ (j : Nat) t, ts[j]? = some t → Renders R (some (a, j)) .none t) ↔
        ¬ ∃ t ∈ ts, SpacedScript g.builtIn t := by
      have hi : ∀ (j : Nat) t, ts[j]? = some t → MadeRenders R g.builtIn .expr t := by
        intro j t ht
        have hj := (List.getElem?_eq_some_iff.1 ht).1
        have hcj : cells[j]? = some cells[j] := List.getElem?_eq_getElem (by omega)
        exact ih j _ t hcj ht (cellsWf_iff.1 hcells _ (List.mem_of_getElem? hcj))
      constructor
      · rintro h ⟨t, ht, hs⟩
        obtain ⟨j, hj⟩ := List.getElem?_of_mem ht
        exact (hi j t hj _ _).1 (h j t hj) hs
      · intro h j t ht
        exact (hi j t ht _ _).2 fun hs => h ⟨t, List.mem_of_getElem? ht, hs⟩
    have hgen : ∀ {k : RKind} {ek : EKind} {tag : Tag} {ri' : Option RowIndex},
        hashGet R n = some k → rowsOf o ri k = some (ek, tag, ri') → 0 < ts.length →
        childrenCountOk tag ts.length = true →
        (Renders R ri o (.newRows n a (a + 1) ts w) ↔
          ¬ SpacedScript g.builtIn (.newRows n a (a + 1) ts w)) := by
      intro k ek tag ri' hk hr hpos hcount
      rw [renders_newRows hk hr, hsp, hall]
      have h1 : ts ≠ [] := List.length_pos_iff.1 hpos
      have h2 : ts.length % w = 0 := by rw [hlen]; exact hmod
      simp only [ne_eq, h1, not_false_eq_true, hcount, hw0, h2, true_and, implies_true]
    cases v with
    | fraction =>
      simp only [shapeOk, Bool.and_eq_true, beq_iff_eq] at hshape
      simp only [fitsParser, beq_iff_eq] at hfit
      exact hgen hfit rfl (by omega) (by simp [childrenCountOk, hlen, hshape.1])
    | root =>
      simp only [shapeOk, Bool.and_eq_true, beq_iff_eq] at hshape
      simp only [fitsParser, beq_iff_eq] at hfit
      exact hgen hfit rfl (by omega) (by simp [childrenCountOk, hlen, hshape.1])
    | table =>
      simp only [shapeOk, Bool.and_eq_true, beq_iff_eq, decide_eq_true_eq] at hshape
      simp only [fitsParser, beq_iff_eq] at hfit
      exact hgen hfit rfl (by omega) rfl
    | sup =>
      simp only [shapeOk, Bool.and_eq_true, beq_iff_eq] at hshape
      simp only [fitsParser, beq_iff_eq] at hfit
      subst hfit
      obtain ⟨c, hc⟩ := Option.ne_none_iff_exists'.1 (ho rfl)
      exact hgen hf.operator (by rw [rowsOf, hc]; rfl) (by omega) rfl
    | sub =>
      simp only [shapeOk, Bool.and_eq_true, beq_iff_eq] at hshape
      simp only [fitsParser, beq_iff_eq] at hfit
      subst hfit
      obtain ⟨c, hc⟩ := Option.ne_none_iff_exists'.1 (ho rfl)
      exact hgen hf.operator (by rw [rowsOf, hc]; rfl) (by omega) rfl

/-! ## Scripts next to spaces in the row -/

/-- A script next to a space. -/
def ScriptBySpace (row : Row) : Prop := ScriptThenSpace row ∨ SpaceThenScript row

theorem rowAt_nested {row c r : Row} {i j w : Nat} {v : Variant} {cells : List Row}
    {p : RowIndices} (h1 : row[i]? = some (.container v cells w)) (h2 : cells[j]? = some c)
    (h3 : rowAt c p = some r) : rowAt row ((i, j) :: p) = some r := by
  rw [rowAt, h1]
  simp only [h2, h3]

theorem ScriptBySpace.nested {row c : Row} {i w : Nat} {v : Variant} {cells : List Row}
    (h1 : row[i]? = some (.container v cells w)) (h2 : c ∈ cells) (h : ScriptBySpace c) :
    ScriptBySpace row := by
  obtain ⟨j, hj⟩ := List.getElem?_of_mem h2
  rcases h with ⟨p, r, k, n, hr, h⟩ | ⟨p, r, k, n, hr, h⟩
  · exact .inl ⟨_, r, k, n, rowAt_nested h1 hj hr, h⟩
  · exact .inr ⟨_, r, k, n, rowAt_nested h1 hj hr, h⟩

/-- What a script with spaces in the tree says about the row. -/
def SpacedRow (R : Renderers) (b : BuiltIn) : Cat → Row → Nat → Nat → SNode → Prop
  | .expr, row, _, _, t => SpacedScript b t → ScriptBySpace row
  | .core n tp, row, p, q, t => fitsParser R b n tp = true →
      (SpacedScript b t → ScriptBySpace row) ∧ (tp.isScript = true →
      q = p + 1 ∧ ∃ m, row[p]? = some m ∧ m.IsScript)
  | .tok n tp, row, _, _, t => fitsParser R b n tp = true →
      (SpacedScript b t → ScriptBySpace row) ∧ (tp.isScript = true →
      ¬ t.OpensRows → ScriptBySpace row)
  | .opr tp, row, _, _, t => tp.isLeaf = true → SpacedScript b t → ScriptBySpace row

theorem SymsAt.get {row : Row} {a b : Nat} {ss : List Str} (h : SymsAt row a b ss) {i : Nat}
    (h1 : a ≤ i) (h2 : i < b) : ∃ s, ss[i - a]? = some s ∧ row[i]? = some (.symbol s) := by
  have hl := congrArg (·[i - a]?) h.take
  have hb := h.hi_eq
  have hlt : i - a < ss.length := by omega
  simp only [List.getElem?_take, List.getElem?_drop, List.getElem?_map, hlt, if_true] at hl
  rw [List.getElem?_eq_getElem hlt, show a + (i - a) = i by omega] at hl
  exact ⟨_, List.getElem?_eq_getElem hlt, by simpa using hl⟩

theorem Spc.get {row : Row} {a b : Nat} {o : Option SNode} (h : Spc g row a b o) {i : Nat}
    (h1 : a ≤ i) (h2 : i < b) : row[i]? = some spaceNode := by
  rcases h with ⟨-, rfl⟩ | ⟨h3, -, h⟩
  · omega
  · obtain ⟨s, hs, hr⟩ := h.get h1 h2
    rw [List.getElem?_replicate] at hs
    split at hs
    · cases hs; exact hr
    · cases hs

theorem spaced_wrap (hf : Fits R g) {row : Row} {a b p q p' q' : Nat} {sb sa : Option SNode}
    {t : SNode} (hb : Spc g row p q sb) (ha : Spc g row p' q' sa)
    (h : SpacedScript g.builtIn (wrapSpc g sb t sa a b)) : SpacedScript g.builtIn t := by
  have hb' := hb.renders hf
  have ha' := ha.renders hf
  have key : SpacedScript g.builtIn (.children g.builtIn.whitespaces a b (sb.toList ++ t :: sa.toList))
      → SpacedScript g.builtIn t := by
    rw [hf.spaced_children hf.whitespaces nofun nofun]
    simp only [List.mem_append, Option.mem_toList, List.mem_cons]
    rintro ⟨c, hc | rfl | hc, hs⟩
    · exact absurd hs (hb' c hc).2
    · exact hs
    · exact absurd hs (ha' c hc).2
  cases sb with
  | none =>
    cases sa with
    | none => exact h
    | some _ => exact key h
  | some _ => exact key h

/-- Spaces around a script in the tree are spaces next to the script in the row. -/
theorem wrap_scriptBySpace {row : Row} {a b p : Nat} {sb sa : Option SNode} {m : Node}
    (hb : Spc g row a p sb) (ha : Spc g row (p + 1) b sa) (hm : row[p]? = some m)
    (hs : m.IsScript) (h : sb ≠ none ∨ sa ≠ none) : ScriptBySpace row := by
  rcases h with h | h
  · rcases hb with ⟨h', -⟩ | hb
    · exact absurd h' h
    · have := Spc.get (.inr hb) (i := p - 1) (by omega) (by omega)
      exact .inr ⟨[], row, p - 1, m, rfl, this, by rwa [Nat.sub_add_cancel (by omega)], hs⟩
  · rcases ha with ⟨h', -⟩ | ha
    · exact absurd h' h
    · have := Spc.get (.inr ha) (i := p + 1) (by omega) (by omega)
      exact .inl ⟨[], row, p, m, rfl, hm, hs, this⟩

theorem not_opens_wrap {sb sa : Option SNode} {t : SNode} {a b : Nat}
    (h : ¬ (wrapSpc g sb t sa a b).OpensRows) (ht : t.OpensRows) : sb ≠ none ∨ sa ≠ none := by
  cases sb with
  | none =>
    cases sa with
    | none => exact absurd ht h
    | some _ => exact .inr nofun
  | some _ => exact .inl nofun

theorem spaced_script {b : BuiltIn} {n a c : Nat} {l s : SNode}
    (h : SpacedScript b (.children n a c [l, s])) :
    ¬ s.OpensRows ∨ SpacedScript b l ∨ SpacedScript b s := by
  rw [SpacedScript] at h
  rcases h with ⟨-, h⟩ | h
  · exact .inl h
  · simp only [SpacedScriptIn, or_false] at h
    exact .inr h

theorem made_spaced (hf : Fits R g) {k : Cat} {row : Row} {a b : Nat} {t : SNode}
    (h : Made g k row a b t) : SpacedRow R g.builtIn k row a b t := by
  have hmiss : ∀ a, ¬ SpacedScript g.builtIn (.children g.builtIn.missingToken a a []) := by
    intro a
    rw [hf.spaced_children hf.missingToken nofun nofun]
    simp
  induction h with
  | missing h => exact fun h => absurd h (hmiss _)
  | unknown h => exact fun h => absurd h (by simp [SpacedScript])
  | missingOperator _ _ ih1 ih2 =>
    intro h
    rw [hf.spaced_children hf.missingOperator nofun nofun] at h
    simp only [List.mem_cons, List.not_mem_nil, or_false, exists_eq_or_imp, exists_eq_left] at h
    rcases h with h | h | h
    · exact ih1 h
    · exact absurd h (hmiss _)
    · exact ih2 h
  | atom hr _ ih => exact (ih (hf.atom hr).1).1
  | «prefix» hr _ _ ih1 ih2 =>
    intro h
    obtain ⟨h1, h2⟩ := hf.pre hr
    rw [hf.spaced_children h1 nofun nofun] at h
    simp only [List.mem_cons, List.not_mem_nil, or_false, exists_eq_or_imp, exists_eq_left] at h
    rcases h with h | h
    · exact ih1 h2 h
    · exact ih2 h
  | «infix» hr _ _ _ ih1 ih2 ih3 =>
    intro h
    obtain ⟨h1, h2⟩ := hf.inf hr
    rw [hf.spaced_children h1 nofun nofun] at h
    simp only [List.mem_cons, List.not_mem_nil, or_false, exists_eq_or_imp, exists_eq_left] at h
    rcases h with h | h | h
    · exact ih1 h
    · exact ih2 h2 h
    · exact ih3 h
  | «postfix» hr _ _ ih1 ih2 =>
    intro h
    rcases hf.post hr with ⟨h1, h2⟩ | ⟨h1, h2, h3⟩
    · rcases spaced_script h with h | h | h
      · exact (ih2 (fits_script _ h1)).2 h1 h
      · exact ih1 h
      · exact (ih2 (fits_script _ h1)).1 h
    · rw [hf.spaced_children h2 nofun nofun] at h
      simp only [List.mem_cons, List.not_mem_nil, or_false, exists_eq_or_imp, exists_eq_left] at h
      rcases h with h | h
      · exact ih1 h
      · exact (ih2 h3).1 h
  | opr _ ih => exact fun hl => (ih (hf.leafOperator hl).1).1
  | @script row a b p c n t s sa tp v hn _ hc hs _ ih1 ih2 =>
    intro hl h
    have hsc : (TokenParser.container v).isScript = true := by
      rcases hn with ⟨rfl, -⟩ | ⟨rfl, -⟩ <;> rfl
    have ih2 := ih2 (fits_script _ hsc)
    obtain ⟨hq, m, hm, hm'⟩ := ih2.2 hsc
    subst hq
    rcases spaced_script h with h | h | h
    · have ht : s.OpensRows := by
        cases hc with
        | container _ _ _ _ _ => exact trivial
        | leaf htp _ _ _ _ => cases leaf_isLeaf htp
      exact wrap_scriptBySpace (.inl ⟨rfl, rfl⟩) hs hm hm' (not_opens_wrap h ht)
    · exact ih1 hl h
    · exact ih2.1 (spaced_wrap hf (.inl ⟨rfl, rfl⟩ : Spc g row 0 0 none) hs h)
  | @tok row a p q b n t sb sa tp hb _ hc ha _ ih =>
    intro hfit
    have ih := ih hfit
    refine ⟨fun h => ih.1 (spaced_wrap hf hb ha h), fun hsc h => ?_⟩
    obtain ⟨hq, m, hm, hm'⟩ := ih.2 hsc
    subst hq
    have ht : t.OpensRows := by
      obtain ⟨v, rfl, -⟩ := scriptParser hsc
      cases hc with
      | container _ _ _ _ _ => exact trivial
      | leaf htp _ _ _ _ => cases leaf_isLeaf htp
    exact wrap_scriptBySpace hb ha hm hm' (not_opens_wrap h ht)
  | leaf htp _ _ _ _ =>
    intro _
    refine ⟨fun h => absurd h (by simp [SpacedScript]), fun hsc => ?_⟩
    obtain ⟨v, rfl, -⟩ := scriptParser hsc
    cases leaf_isLeaf htp
  | emptyBrackets _ _ =>
    intro hfit
    simp only [fitsParser, Bool.and_eq_true, beq_iff_eq, Bool.or_eq_true] at hfit
    obtain ⟨k, hk, hk'⟩ := fits_brackets hfit.2
    refine ⟨fun h => ?_, nofun⟩
    rw [hf.spaced_children hk (by rcases hk' with rfl | rfl | rfl <;> nofun)
      (by rcases hk' with rfl | rfl | rfl <;> nofun)] at h
    simp [SpacedScript] at h
  | brackets _ _ _ ih =>
    intro hfit
    simp only [fitsParser, Bool.and_eq_true, beq_iff_eq, Bool.or_eq_true] at hfit
    obtain ⟨k, hk, hk'⟩ := fits_brackets hfit.2
    refine ⟨fun h => ?_, nofun⟩
    rw [hf.spaced_children hk (by rcases hk' with rfl | rfl | rfl <;> nofun)
      (by rcases hk' with rfl | rfl | rfl <;> nofun)] at h
    simp only [List.mem_cons, List.not_mem_nil, or_false, exists_eq_or_imp, exists_eq_left,
      SpacedScript, false_or] at h
    exact ih h
  | @container row a n w v cells ts hc hlen hw0 hmod _ ih =>
    intro _
    refine ⟨fun h => ?_, fun hsc => ⟨rfl, _, hc, ?_⟩⟩
    · rw [SpacedScript, spacedScriptIn_iff] at h
      obtain ⟨t, ht, h⟩ := h
      obtain ⟨j, hj⟩ := List.getElem?_of_mem ht
      have hj' := (List.getElem?_eq_some_iff.1 hj).1
      have hcj : cells[j]? = some cells[j] := List.getElem?_eq_getElem (by omega)
      exact .nested hc (List.mem_of_getElem? hcj) (ih j _ t hcj hj h)
    · cases v <;> first | exact trivial | cases hsc

end Aftermath
