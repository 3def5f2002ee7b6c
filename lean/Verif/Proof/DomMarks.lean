import Verif.Proof.Dom

/-! # Errors are marked in the shown elements -/

namespace Aftermath

variable {p : Tag → Bool → Bool}

theorem eltsCount_eq : ∀ (es : List Elt), eltsCount p es = (es.map (Elt.count p)).sum
  | [] => by simp [eltsCount]
  | e :: es => by rw [eltsCount, eltsCount_eq es, List.map_cons, List.sum_cons]

theorem treesNamed_eq {n : Nat} : ∀ (ts : List SNode), treesNamed n ts = (ts.map (SNode.named n)).sum
  | [] => by simp [treesNamed]
  | e :: es => by rw [treesNamed, treesNamed_eq es, List.map_cons, List.sum_cons]

/-- The predicate holds for no unmarked elements other than `merror`. -/
def Unmarked (p : Tag → Bool → Bool) : Prop := ∀ tag, tag ≠ .other "merror".toList → p tag false = false

theorem wrapInMRow_count (hp : Unmarked p) (es : List Elt) :
    (wrapInMRow es).count p = eltsCount p es := by
  unfold wrapInMRow
  split
  · simp [eltsCount]
  · rw [Elt.count, hp .mrow (by simp)]
    simp

theorem texts_count (ss : List Str) : eltsCount p (ss.map Elt.text) = 0 := by
  induction ss with
  | nil => simp [eltsCount]
  | cons s ss ih => rw [List.map_cons, eltsCount, ih, Elt.count]

theorem wraps_count (hp : Unmarked p) (ls : List (List Elt)) :
    eltsCount p (ls.map wrapInMRow) = (ls.map (eltsCount p)).sum := by
  rw [eltsCount_eq, List.map_map]
  congr 1
  exact List.map_congr_left fun c _ => wrapInMRow_count hp c

theorem phantom_count (hp : Unmarked p) : phantom.count p = 0 := by
  rw [phantom, Elt.count, hp _ (by simp)]
  simp [eltsCount]

theorem tableElts_count (hp : Unmarked p) {w : Nat} (hw : 0 < w) : ∀ {n : Nat} {cells : List (List Elt)},
    cells.length ≤ n → eltsCount p (tableElts w n cells) = (cells.map (eltsCount p)).sum
  | 0, cells, h => by
    have : cells = [] := List.length_eq_zero_iff.1 (Nat.le_zero.1 h)
    subst this
    simp [tableElts, eltsCount]
  | n + 1, [], _ => by simp [tableElts, eltsCount]
  | n + 1, c :: cs, h => by
    have ih := tableElts_count hp hw (n := n) (cells := (c :: cs).drop w)
      (by rw [List.length_drop]; omega)
    have h1 : eltsCount p (((c :: cs).take w).map fun c => .elem .mtd false [wrapInMRow c]) =
        (((c :: cs).take w).map (eltsCount p)).sum := by
      rw [eltsCount_eq, List.map_map]
      congr 1
      refine List.map_congr_left fun c _ => ?_
      rw [Function.comp_apply, Elt.count, hp .mtd (by simp), eltsCount, eltsCount, wrapInMRow_count hp]
      simp
    have h2 : tableElts w (n + 1) (c :: cs) =
        .elem .mtr false (((c :: cs).take w).map fun c => .elem .mtd false [wrapInMRow c]) ::
          tableElts w n ((c :: cs).drop w) := rfl
    rw [h2, eltsCount, Elt.count, hp .mtr (by simp), h1, ih]
    conv_rhs => rw [← List.take_append_drop w (c :: cs), List.map_append, List.sum_append]
    simp

variable {R : Renderers} {g : Grammar}

/-- The tag of an unknown token. -/
def errorTag : Tag := .other "merror".toList

/-- What an element counts for. -/
def one (p : Tag → Bool → Bool) (tag : Tag) (marked : Bool) : Nat := if p tag marked then 1 else 0

/-- What a node counts for. -/
def SNode.weight (b : BuiltIn) (x y : Nat) (t : SNode) : Nat :=
  x * t.named b.missingToken + y * t.named b.unknownToken

theorem weights {b : BuiltIn} {x y : Nat} (ts : List SNode) :
    (ts.map (SNode.weight b x y)).sum =
      x * treesNamed b.missingToken ts + y * treesNamed b.unknownToken ts := by
  induction ts with
  | nil => simp [treesNamed]
  | cons t ts ih =>
    rw [List.map_cons, List.sum_cons, ih, treesNamed, treesNamed, SNode.weight]
    rw [Nat.mul_add, Nat.mul_add]
    omega

theorem Fits.plain (hf : Fits R g) {n : Nat} {k : RKind} (hk : hashGet R n = some k)
    (h1 : k ≠ .missingToken) (h2 : k ≠ .unknownToken) :
    n ≠ g.builtIn.missingToken ∧ n ≠ g.builtIn.unknownToken := by
  constructor
  · rintro rfl
    rw [hf.missingToken] at hk
    cases hk; exact h1 rfl
  · rintro rfl
    rw [hf.unknownToken] at hk
    cases hk; exact h2 rfl

theorem nothing_count (hp : Unmarked p) {t : SNode} {ri : Option RowIndex} :
    eltsCount p (RElem.mk .nothing t ri []).elements = 0 := by
  rw [RElem.elements, eltsCount, Elt.count, hp .mi (by simp), eltsCount, eltsCount, eltsCount,
    Elt.count]
  simp

theorem missing_count {t : SNode} {ri : Option RowIndex} :
    eltsCount p (RElem.mk .missing t ri []).elements = one p .mi true := by
  rw [RElem.elements, eltsCount, Elt.count, eltsCount, eltsCount, eltsCount, Elt.count, one]
  rfl

theorem missing_weight (hf : Fits R g) {a b : Nat} :
    (SNode.children g.builtIn.missingToken a b []).weight g.builtIn (one p .mi true) (one p errorTag false) =
      one p .mi true := by
  have hne : g.builtIn.missingToken ≠ g.builtIn.unknownToken := by
    intro h
    have := hf.unknownToken
    rw [← h, hf.missingToken] at this
    cases this
  rw [SNode.weight, SNode.named, SNode.named, if_pos rfl, if_neg hne, treesNamed, treesNamed]
  omega

theorem render_count (hf : Fits R g) (hp : Unmarked p) : ∀ {t : SNode} {ri : Option RowIndex}
    {o : ROpts} {e : RElem}, render R ri o t = .ok e →
    eltsCount p e.elements = t.weight g.builtIn (one p .mi true) (one p errorTag false)
  | .leaf n lo hi ty ss, ri, o, e, h => by
    rw [render] at h
    have key : ∀ {k : RKind} {tag : Tag} {e : RElem}, hashGet R n = some k → k ≠ .missingToken →
        k ≠ .unknownToken → e.elements = [.elem tag false (ss.map .text)] →
        tag ≠ errorTag →
        eltsCount p e.elements = (SNode.leaf n lo hi ty ss).weight g.builtIn (one p .mi true) (one p errorTag false) := by
      intro k tag e hk h1 h2 he ht
      obtain ⟨h3, h4⟩ := hf.plain hk h1 h2
      rw [he, eltsCount, Elt.count, hp _ ht, texts_count]
      generalize one p .mi true = x
      generalize one p errorTag false = y
      simp [eltsCount, SNode.weight, SNode.named, h3, h4]
    split at h
    · rename_i hk
      cases h
      exact key hk nofun nofun (by rw [RElem.elements, SNode.texts]) (by simp [errorTag])
    · rename_i hk
      cases h
      exact key (tag := .mo) hk nofun nofun (by rw [RElem.elements, SNode.texts]) (by simp [errorTag])
    · rename_i hk
      cases h
      have := hf.unknowns hk
      subst this
      have hne : g.builtIn.unknownToken ≠ g.builtIn.missingToken := by
        intro h
        have := hf.missingToken
        rw [← h, hf.unknownToken] at this
        cases this
      rw [RElem.elements, eltsCount, Elt.count, SNode.texts, texts_count, SNode.weight, SNode.named,
        SNode.named, if_neg hne, if_pos rfl, eltsCount]
      show one p errorTag false + 0 + 0 = _
      omega
    · rename_i tag hk
      cases h
      refine key hk nofun nofun (by rw [RElem.elements, SNode.texts]) ?_
      rintro rfl
      cases hf.texts hk
    · cases h
  | .children n lo hi cs, ri, o, e, h => by
    cases hk : hashGet R n with
    | none => rw [render, hk] at h; cases h
    | some k =>
      cases hc : contOf ri o k with
      | some x =>
        obtain ⟨tag, o'⟩ := x
        obtain ⟨-, hne, -, es, hes, rfl⟩ := (render_children_ok hk hc).1 h
        obtain ⟨h3, h4⟩ := hf.plain hk (by rintro rfl; cases hc) (by rintro rfl; cases hc)
        have htag : tag ≠ errorTag := by
          rintro rfl
          cases k <;> cases hc
        have hsum : (es.map fun e => eltsCount p e.elements) = cs.map (SNode.weight g.builtIn (one p .mi true) (one p errorTag false)) := by
          refine List.ext_getElem (by simp [hes.length_eq]) fun i h1 h2 => ?_
          simp only [List.length_map] at h1 h2
          simp only [List.getElem_map]
          have hm : cs[i] ∈ cs := List.getElem_mem _
          exact render_count hf hp ((List.forall₂_iff_get.1 hes).2 i h2 h1)
        rw [RElem.elements, eltsCount, Elt.count, hp _ htag, wraps_count hp, elementsAll_eq,
          List.map_map]
        have : (es.map (eltsCount p ∘ RElem.elements)) = cs.map (SNode.weight g.builtIn (one p .mi true) (one p errorTag false)) := hsum
        rw [this, weights]
        generalize one p .mi true = x
        generalize one p errorTag false = y
        simp [eltsCount, SNode.weight, SNode.named, h3, h4]
      | none =>
        rw [render, hk] at h
        cases k <;> first
          | (cases hc; done)
          | cases h
          | skip
        · simp only [massert_bind, List.isEmpty_iff, beq_iff_eq] at h
          obtain ⟨rfl, rfl, h⟩ := h
          cases h
          obtain ⟨h3, h4⟩ := hf.plain hk nofun nofun
          rw [nothing_count hp, SNode.weight, SNode.named, SNode.named, if_neg h3, if_neg h4,
            treesNamed, treesNamed]
          omega
        · simp only [massert_bind, List.isEmpty_iff, beq_iff_eq] at h
          obtain ⟨rfl, rfl, h⟩ := h
          cases h
          have := hf.missings hk
          subst this
          rw [missing_count, missing_weight hf]
  | .newRows n lo hi ts w, ri, o, e, h => by
    cases hk : hashGet R n with
    | none => rw [render, hk] at h; cases h
    | some k =>
      cases hc : rowsOf o ri k with
      | none =>
        rw [render, hk] at h
        cases k <;> first
          | (cases hc; done)
          | cases h
          | (simp only [rowsOf, Option.map_eq_none_iff] at hc
             simp only [hc] at h
             cases h)
      | some x =>
        obtain ⟨ek, tag, ri'⟩ := x
        obtain ⟨-, -, -, hw, es, hes, rfl⟩ := (render_newRows_ok hk hc).1 h
        obtain ⟨hel, hes⟩ := renderRows_ok.1 hes
        obtain ⟨h3, h4⟩ := hf.plain hk (by rintro rfl; cases hc) (by rintro rfl; cases hc)
        have hsum : (es.map fun e => eltsCount p e.elements) = ts.map (SNode.weight g.builtIn (one p .mi true) (one p errorTag false)) := by
          refine List.ext_getElem (by simp [hel]) fun i h1 h2 => ?_
          simp only [List.length_map] at h1 h2
          simp only [List.getElem_map]
          have hm : ts[i] ∈ ts := List.getElem_mem _
          exact render_count hf hp (hes i _ _ (List.getElem?_eq_getElem h2)
            (List.getElem?_eq_getElem h1))
        have hsum' : ((elementsAll es).map (eltsCount p)).sum =
            (ts.map (SNode.weight g.builtIn (one p .mi true) (one p errorTag false))).sum := by
          rw [elementsAll_eq, List.map_map]
          exact congrArg List.sum hsum
        have hlen : (elementsAll es).length ≤ es.length := by simp [elementsAll_eq]
        have hgoal : ∀ {tag : Tag} {cs : List Elt}, tag ≠ errorTag →
            eltsCount p cs = ((elementsAll es).map (eltsCount p)).sum →
            eltsCount p [phantom, .elem tag false cs, phantom] =
              (SNode.newRows n lo hi ts w).weight g.builtIn (one p .mi true) (one p errorTag false) := by
          intro tag cs ht hcs
          rw [eltsCount, eltsCount, eltsCount, phantom_count hp, Elt.count, hp _ ht, hcs, hsum',
            weights]
          generalize one p .mi true = x
          generalize one p errorTag false = y
          simp [eltsCount, SNode.weight, SNode.named, h3, h4]
        cases k <;> simp only [rowsOf, Option.some.injEq, Prod.mk.injEq, reduceCtorEq,
            Option.map_eq_some_iff] at hc
        · obtain ⟨_, -, rfl, -⟩ := hc
          rw [RElem.elements]
          exact hgoal (by simp [errorTag]) (wraps_count hp _)
        · obtain ⟨rfl, -⟩ := hc
          rw [RElem.elements]
          exact hgoal (by simp [errorTag]) (wraps_count hp _)
        · obtain ⟨rfl, -⟩ := hc
          rw [RElem.elements]
          refine hgoal (by simp [errorTag]) ?_
          rw [wraps_count hp, List.map_reverse, List.sum_reverse]
        · obtain ⟨rfl, -⟩ := hc
          rw [RElem.elements, SNode.width]
          exact hgoal (by simp [errorTag]) (tableElts_count hp (hw rfl).1 hlen)
  termination_by t => sizeOf t
  decreasing_by
    · have := List.sizeOf_lt_of_mem hm
      simp only [SNode.children.sizeOf_spec]
      omega
    · have := List.sizeOf_lt_of_mem hm
      simp only [SNode.newRows.sizeOf_spec]
      omega

/-! ## Where there is an error there is a mark -/

theorem named_pos {n : Nat} : ∀ {t : SNode}, 0 < t.named n ↔ n ∈ t.names
  | .leaf m _ _ _ _ => by
    rw [SNode.named, SNode.names, List.mem_singleton]
    by_cases h : m = n <;> simp [h, eq_comm (a := n)]
  | .newRows m _ _ ts _ => by
    rw [SNode.named, SNode.names, List.mem_cons, ← treesNamed_pos]
    by_cases h : m = n
    · simp only [h, if_true, true_or, iff_true]
      omega
    · simp [h, eq_comm (a := n)]
  | .children m _ _ cs => by
    rw [SNode.named, SNode.names, List.mem_cons, ← treesNamed_pos]
    by_cases h : m = n
    · simp only [h, if_true, true_or, iff_true]
      omega
    · simp [h, eq_comm (a := n)]
where
  treesNamed_pos {n : Nat} : ∀ {ts : List SNode}, 0 < treesNamed n ts ↔ n ∈ treesNames ts
    | [] => by simp [treesNamed, treesNames]
    | t :: ts => by
      rw [treesNamed, treesNames, List.mem_append, ← named_pos, ← treesNamed_pos]
      omega

/-- The only error of a part is never a missing operator. -/
def Accompanied (R : Renderers) (b : BuiltIn) : Cat → SNode → Prop
  | .expr, t => b.missingOperator ∈ t.names → b.missingToken ∈ t.names
  | .opr tp, t => tp.isLeaf = true → b.missingOperator ∈ t.names → b.missingToken ∈ t.names
  | .core n tp, t | .tok n tp, t => fitsParser R b n tp = true → n ≠ b.missingOperator →
      b.missingOperator ∈ t.names → b.missingToken ∈ t.names

theorem children_accompanied {b : BuiltIn} {n lo hi : Nat} {cs : List SNode}
    (hn : n ≠ b.missingOperator)
    (h : ∀ c ∈ cs, b.missingOperator ∈ c.names → b.missingToken ∈ c.names)
    (hm : b.missingOperator ∈ (SNode.children n lo hi cs).names) :
    b.missingToken ∈ (SNode.children n lo hi cs).names := by
  rw [SNode.names, List.mem_cons, mem_treesNames] at hm ⊢
  rcases hm with hm | ⟨c, hc, hm⟩
  · exact absurd hm.symm hn
  · exact .inr ⟨c, hc, h c hc hm⟩

theorem wrap_accompanied (hf : Fits R g) (ha : g.ErrorsApart) {row : Row} {a b p q p' q' : Nat}
    {sb sa : Option SNode} {t : SNode} (hb : Spc g row p q sb) (hs : Spc g row p' q' sa)
    (h : g.builtIn.missingOperator ∈ t.names → g.builtIn.missingToken ∈ t.names)
    (hm : g.builtIn.missingOperator ∈ (wrapSpc g sb t sa a b).names) :
    g.builtIn.missingToken ∈ (wrapSpc g sb t sa a b).names := by
  have hne : ∀ n ∈ [g.builtIn.operator, g.builtIn.whitespaces, g.builtIn.whitespace, g.builtIn.sub,
      g.builtIn.sup], n ≠ g.builtIn.missingOperator := by
    rintro n hn rfl
    exact ha.builtIn _ hn List.mem_cons_self
  have hsp : ∀ {p q : Nat} {s : Option SNode}, Spc g row p q s → ∀ c ∈ s.toList,
      g.builtIn.missingOperator ∈ c.names → g.builtIn.missingToken ∈ c.names := by
    rintro p q s (⟨rfl, -⟩ | ⟨-, rfl, -⟩) c hc hcm
    · cases hc
    · simp only [Option.toList_some, List.mem_singleton] at hc
      subst hc
      rw [SNode.names, List.mem_singleton] at hcm
      exact absurd hcm.symm (hne _ (by simp))
  have key : g.builtIn.missingOperator ∈
      (SNode.children g.builtIn.whitespaces a b (sb.toList ++ t :: sa.toList)).names →
      g.builtIn.missingToken ∈
        (SNode.children g.builtIn.whitespaces a b (sb.toList ++ t :: sa.toList)).names := by
    refine children_accompanied (hne _ (by simp)) fun c hc => ?_
    rcases List.mem_append.1 hc with hc | hc
    · exact hsp hb c hc
    · rcases List.mem_cons.1 hc with rfl | hc
      · exact h
      · exact hsp hs c hc
  cases sb with
  | none =>
    cases sa with
    | none => exact h hm
    | some _ => exact key hm
  | some _ => exact key hm

theorem made_accompanied (hf : Fits R g) (ha : g.ErrorsApart) {k : Cat} {row : Row} {a b : Nat}
    {t : SNode} (h : Made g k row a b t) : Accompanied R g.builtIn k t := by
  have hne : ∀ n ∈ [g.builtIn.operator, g.builtIn.whitespaces, g.builtIn.whitespace, g.builtIn.sub,
      g.builtIn.sup], n ≠ g.builtIn.missingOperator := by
    rintro n hn rfl
    exact ha.builtIn _ hn List.mem_cons_self
  have hrule : ∀ {role : Role} {r : Rule}, r ∈ g.ofRole role → r.name ≠ g.builtIn.missingOperator := by
    intro role r hr h
    obtain ⟨h1, h2⟩ := mem_ofRole.1 hr
    exact ha.rules r h1 (by rw [h2]; nofun) (by rw [h]; exact List.mem_cons_self)
  have hleaf : ∀ {n a b : Nat} {ty : LeafType} {ss : List Str}, n ≠ g.builtIn.missingOperator →
      g.builtIn.missingOperator ∈ (SNode.leaf n a b ty ss).names →
      g.builtIn.missingToken ∈ (SNode.leaf n a b ty ss).names := by
    intro n a b ty ss hn hm
    rw [SNode.names, List.mem_singleton] at hm
    exact absurd hm.symm hn
  induction h with
  | missing h =>
    intro _
    rw [SNode.names]
    exact List.mem_cons_self
  | unknown h =>
    refine hleaf ?_
    intro h
    have h1 := hf.missingOperator
    rw [← h, hf.unknownToken] at h1
    cases h1
  | missingOperator _ _ ih1 ih2 =>
    intro _
    rw [SNode.names, List.mem_cons, mem_treesNames]
    exact .inr ⟨_, List.mem_cons_of_mem _ List.mem_cons_self, by rw [SNode.names]; exact List.mem_cons_self⟩
  | atom hr _ ih => exact ih (hf.atom hr).1 (hrule hr)
  | «prefix» hr _ _ ih1 ih2 =>
    refine children_accompanied (hrule hr) ?_
    simp only [List.mem_cons, List.not_mem_nil, or_false, forall_eq_or_imp, forall_eq]
    exact ⟨ih1 (hf.pre hr).2, ih2⟩
  | «infix» hr _ _ _ ih1 ih2 ih3 =>
    refine children_accompanied (hrule hr) ?_
    simp only [List.mem_cons, List.not_mem_nil, or_false, forall_eq_or_imp, forall_eq]
    exact ⟨ih1, ih2 (hf.inf hr).2, ih3⟩
  | «postfix» hr _ _ ih1 ih2 =>
    refine children_accompanied (hrule hr) ?_
    simp only [List.mem_cons, List.not_mem_nil, or_false, forall_eq_or_imp, forall_eq]
    refine ⟨ih1, ih2 ?_ (hne _ (by simp))⟩
    rcases hf.post hr with ⟨h1, -⟩ | ⟨-, -, h3⟩
    · exact fits_script _ h1
    · exact h3
  | opr _ ih => exact fun hl => ih (hf.leafOperator hl).1 (hne _ (by simp))
  | @script row a b p c n t s sa tp v hn _ _ hs _ ih1 ih2 =>
    intro hl
    refine children_accompanied ?_ ?_
    · rcases hn with ⟨-, rfl⟩ | ⟨-, rfl⟩ <;> exact hne _ (by simp)
    · simp only [List.mem_cons, List.not_mem_nil, or_false, forall_eq_or_imp, forall_eq]
      refine ⟨ih1 hl, wrap_accompanied hf ha (.inl ⟨rfl, rfl⟩ : Spc g row 0 0 none) hs
        (ih2 ?_ (hne _ (by simp)))⟩
      rcases hn with ⟨h, -⟩ | ⟨h, -⟩ <;> subst h <;> simp [fitsParser]
  | tok hb _ _ hs _ ih => exact fun hfit hn => wrap_accompanied hf ha hb hs (ih hfit hn)
  | leaf _ _ _ _ _ => exact fun _ hn => hleaf hn
  | emptyBrackets _ _ =>
    intro hfit hn
    simp only [fitsParser, Bool.and_eq_true, beq_iff_eq] at hfit
    obtain ⟨rfl, -⟩ := hfit
    refine children_accompanied hn ?_
    simp only [List.mem_cons, List.not_mem_nil, or_false, forall_eq_or_imp, forall_eq]
    exact ⟨hleaf (hne _ (by simp)), hleaf (hne _ (by simp))⟩
  | brackets _ _ _ ih =>
    intro hfit hn
    simp only [fitsParser, Bool.and_eq_true, beq_iff_eq] at hfit
    obtain ⟨rfl, -⟩ := hfit
    refine children_accompanied hn ?_
    simp only [List.mem_cons, List.not_mem_nil, or_false, forall_eq_or_imp, forall_eq]
    exact ⟨hleaf (hne _ (by simp)), ih, hleaf (hne _ (by simp))⟩
  | @container row a n w v cells ts hc hlen hw0 hmod _ ih =>
    intro hfit hn hm
    rw [SNode.names, List.mem_cons, mem_treesNames] at hm ⊢
    rcases hm with hm | ⟨t, ht, hm⟩
    · exact absurd hm.symm hn
    · refine .inr ⟨t, ht, ?_⟩
      obtain ⟨j, hj⟩ := List.getElem?_of_mem ht
      have hj' := (List.getElem?_eq_some_iff.1 hj).1
      exact ih j cells[j] t (List.getElem?_eq_getElem (by omega)) hj hm

end Aftermath
