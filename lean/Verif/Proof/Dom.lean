import Verif.Spec.Dom
import Verif.Proof.RenderMade

/-! # The shown elements say what the formula says -/

namespace Aftermath

theorem eltParts_eq : ∀ (es : List Elt), eltParts es = es.map Elt.signs
  | [] => rfl
  | e :: es => by rw [eltParts, eltParts_eq es, List.map_cons]

theorem eltsFit_iff : ∀ {es : List Elt}, EltsFit es ↔ ∀ e ∈ es, e.Fit
  | [] => by simp [EltsFit]
  | e :: es => by rw [EltsFit, eltsFit_iff]; simp

theorem eltsSigns_eq (es : List Elt) : eltsSigns es = es.flatMap Elt.signs := by
  rw [eltsSigns, eltParts_eq, List.flatMap]

theorem elementsAll_eq : ∀ (es : List RElem), elementsAll es = es.map RElem.elements
  | [] => by simp [elementsAll]
  | e :: es => by rw [elementsAll, elementsAll_eq es, List.map_cons]

theorem wrapInMRow_signs (es : List Elt) : (wrapInMRow es).signs = eltsSigns es := by
  unfold wrapInMRow
  split
  · simp [eltsSigns_eq]
  · rw [Elt.signs, eltsSigns]
    all_goals simp

theorem wrapInMRow_fit (es : List Elt) : (wrapInMRow es).Fit ↔ EltsFit es := by
  unfold wrapInMRow
  split
  · simp [EltsFit]
  · rw [Elt.Fit]
    simp [ChildrenFit]

theorem eltsFit_wrap {es : List RElem} (h : ∀ e ∈ es, EltsFit e.elements) :
    EltsFit ((elementsAll es).map wrapInMRow) := by
  rw [eltsFit_iff, elementsAll_eq]
  simp only [List.map_map, List.mem_map, Function.comp_apply, forall_exists_index, and_imp,
    forall_apply_eq_imp_iff₂, wrapInMRow_fit]
  exact h

theorem eltParts_wrap (es : List RElem) :
    eltParts ((elementsAll es).map wrapInMRow) = es.map fun e => eltsSigns e.elements := by
  rw [eltParts_eq, elementsAll_eq]
  simp only [List.map_map]
  exact List.map_congr_left fun e _ => wrapInMRow_signs _

theorem phantom_signs : phantom.signs = [] := by
  rw [phantom, Elt.signs, if_pos rfl]

theorem phantom_fit : phantom.Fit := by simp [phantom, Elt.Fit, ChildrenFit, EltsFit]

/-- The elements have fitting children and say the given signs. -/
structure Shows (e : RElem) (l : List Sign) : Prop where
  fit : EltsFit e.elements
  signs : eltsSigns e.elements = l

theorem between_signs (e : Elt) : eltsSigns [phantom, e, phantom] = e.signs := by
  simp [eltsSigns_eq, phantom_signs]

theorem between_fit {e : Elt} (h : e.Fit) : EltsFit [phantom, e, phantom] := by
  simp [EltsFit, phantom_fit, h]

/-! ## Parts of rows -/

/-- The nodes from `a` to `b`. -/
def segment (row : Row) (a b : Nat) : Row := (row.drop a).take (b - a)

theorem segment_append {row : Row} {a b c : Nat} (h1 : a ≤ b) (h2 : b ≤ c) :
    segment row a b ++ segment row b c = segment row a c := by
  unfold segment
  rw [show c - a = (b - a) + (c - b) by omega, List.take_add, List.drop_drop,
    show a + (b - a) = b by omega]

theorem segment_self (row : Row) (a : Nat) : segment row a a = [] := by simp [segment]

theorem segment_all (row : Row) : segment row 0 row.length = row := by simp [segment]

theorem segment_one {row : Row} {a : Nat} {n : Node} (h : row[a]? = some n) :
    segment row a (a + 1) = [n] := by
  unfold segment
  obtain ⟨h1, h2⟩ := List.getElem?_eq_some_iff.1 h
  rw [List.drop_eq_getElem_cons h1, Nat.add_sub_cancel_left, h2]
  simp

theorem rowSigns_append : ∀ (a b : Row), rowSigns (a ++ b) = rowSigns a ++ rowSigns b
  | [], b => by simp [rowSigns]
  | n :: a, b => by
    rw [List.cons_append, rowSigns, rowSigns_append a b, rowSigns, List.append_assoc]

theorem rowSigns_one (n : Node) : rowSigns [n] = n.signs := by simp [rowSigns]

theorem rowSigns_symbols : ∀ (ss : List Str),
    rowSigns (ss.map Node.symbol) = ss.flatten.map Sign.char
  | [] => by simp [rowSigns]
  | s :: ss => by
    rw [List.map_cons, rowSigns, rowSigns_symbols ss, Node.signs]
    simp

theorem SymsAt.segment {row : Row} {a b : Nat} {ss : List Str} (h : SymsAt row a b ss) :
    segment row a b = ss.map Node.symbol := by
  have := h.hi_eq
  rw [Aftermath.segment, show b - a = ss.length by omega, h.take]

theorem cellsSigns_eq : ∀ (cells : List Row),
    cellsSigns cells = cellParts (cells.map rowSigns) ++ [.leave]
  | [] => by simp [cellsSigns, cellParts]
  | r :: rs => by
    rw [cellsSigns, cellsSigns_eq rs]
    simp [cellParts]

/-! ## One node -/

variable {R : Renderers} {g : Grammar}

theorem texts_signs (ss : List Str) : eltsSigns (ss.map Elt.text) = ss.flatten.map Sign.char := by
  induction ss with
  | nil => rfl
  | cons s ss ih =>
    rw [eltsSigns_eq] at ih ⊢
    rw [List.map_cons, List.flatMap_cons, ih, Elt.signs]
    simp

theorem texts_fit (ss : List Str) : EltsFit (ss.map Elt.text) := by
  rw [eltsFit_iff]
  simp [Elt.Fit]

/-- The tags of text. -/
def Tag.isText : Tag → Prop
  | .mi | .mn | .mtext | .mo => True
  | .other s => s ≠ "mphantom".toList
  | _ => False

theorem Tag.isToken.isText {tag : Tag} (h : tag.isToken = true) : tag.isText := by
  cases tag <;> first | trivial | cases h

theorem text_shows {tag : Tag} (ht : tag.isText) {n a b : Nat} {ty : LeafType} {ss : List Str}
    {ri : Option RowIndex} {k : EKind} (hk : k = .text tag ∨ ∃ s, k = .symbol tag s) :
    Shows (.mk k (.leaf n a b ty ss) ri []) (ss.flatten.map .char) := by
  have h1 : RElem.elements (.mk k (.leaf n a b ty ss) ri []) = [.elem tag false (ss.map .text)] := by
    rcases hk with rfl | ⟨s, rfl⟩ <;> rw [RElem.elements, SNode.texts]
  constructor
  · rw [h1, EltsFit, Elt.Fit]
    refine ⟨⟨?_, texts_fit ss⟩, trivial⟩
    cases tag <;> first | exact trivial | exact ht.elim
  · rw [h1, eltsSigns_eq, List.flatMap_singleton, ← texts_signs]
    cases tag <;> first | rfl | exact ht.elim | skip
    rw [Elt.signs, if_neg ht]
    rfl

/-- Rendering a leaf. -/
theorem leaf_shows (hf : Fits R g) {n a b : Nat} {ty : LeafType} {ss : List Str}
    {ri : Option RowIndex} {o : ROpts} {e : RElem} (h : render R ri o (.leaf n a b ty ss) = .ok e) :
    Shows e (ss.flatten.map .char) := by
  rw [render] at h
  split at h
  · cases h
    exact text_shows (tag := .other "mspace".toList) (by simp [Tag.isText]) (.inl rfl)
  · cases h
    exact text_shows (tag := .mo) trivial (.inr ⟨_, rfl⟩)
  · cases h
    exact text_shows (tag := .other "merror".toList) (by simp [Tag.isText]) (.inl rfl)
  · rename_i tag hk
    cases h
    exact text_shows (Tag.isToken.isText (hf.texts hk)) (.inl rfl)
  · cases h

theorem mrow_shows {t : SNode} {ri : Option RowIndex} {es : List RElem} {ls : List (List Sign)}
    (h : List.Forall₂ Shows es ls) : Shows (.mk (.container .mrow) t ri es) ls.flatten := by
  have h1 : es.map (fun e => eltsSigns e.elements) = ls := by
    induction h with
    | nil => rfl
    | cons h _ ih => rw [List.map_cons, h.signs, ih]
  have h2 : ∀ e ∈ es, EltsFit e.elements := by
    intro e he
    induction h with
    | nil => cases he
    | cons h _ ih =>
      rcases List.mem_cons.1 he with rfl | he
      · exact h.fit
      · exact ih (by simp_all) he
  constructor
  · rw [RElem.elements, EltsFit, Elt.Fit]
    exact ⟨⟨trivial, eltsFit_wrap h2⟩, trivial⟩
  · rw [RElem.elements, eltsSigns_eq, List.flatMap_singleton, Elt.signs, eltParts_wrap, h1]
    all_goals simp

/-- Rendering a node that only holds its children together. -/
theorem plain_shows {n a b : Nat} {cs : List SNode} {k : RKind} (hn : hashGet R n = some k)
    (hk : k = .container ∨ k = .brackets ∨ k = .operator ∨ k = .whitespaces)
    {ri : Option RowIndex} {o : ROpts}
    {ls : List (List Sign)} (hc : List.Forall₂
      (fun c l => ∀ ri o e, render R ri o c = .ok e → Shows e l) cs ls) {e : RElem}
    (h : render R ri o (.children n a b cs) = .ok e) : Shows e ls.flatten := by
  have key : ∀ {o' : ROpts}, contOf ri o k = some (.mrow, o') → Shows e ls.flatten := by
    intro o' ho
    obtain ⟨-, -, -, es, hes, rfl⟩ := (render_children_ok hn ho).1 h
    apply mrow_shows
    clear h hn
    induction hc generalizing es with
    | nil => cases hes; exact .nil
    | cons h1 _ ih =>
      cases hes with
      | cons h2 h3 => exact .cons (h1 _ _ _ h2) (ih _ h3)
  rcases hk with rfl | rfl | rfl | rfl <;> exact key rfl

/-- The element of the cell of a script. -/
def ScriptShows (v : Variant) (row : Row) (a b : Nat) (e : RElem) : Prop :=
  ∃ cell w, b = a + 1 ∧ row[a]? = some (.container v [cell] w) ∧ Shows e (rowSigns cell)

theorem script_shows {v : Variant} {tag : Tag} {row : Row} {a b p : Nat} {t : SNode}
    {ri : Option RowIndex} {el es : RElem} {l : List Sign} (hl : Shows el l)
    (hs : ScriptShows v row p b es)
    (hv : (v = .sub ∧ tag = .msub) ∨ (v = .sup ∧ tag = .msup)) :
    Shows (.mk (.container tag) t ri [el, es]) (l ++ rowSigns (segment row p b)) := by
  obtain ⟨cell, w, rfl, hc, hs⟩ := hs
  rw [segment_one hc, rowSigns_one, Node.signs]
  have hfit : EltsFit ((elementsAll [el, es]).map wrapInMRow) :=
    eltsFit_wrap (by simp [hl.fit, hs.fit])
  have hlen : ((elementsAll [el, es]).map wrapInMRow).length = 2 := by simp [elementsAll]
  rcases hv with ⟨rfl, rfl⟩ | ⟨rfl, rfl⟩
  all_goals
    constructor
    · rw [RElem.elements, EltsFit, Elt.Fit]
      exact ⟨⟨hlen, hfit⟩, trivial⟩
    · rw [RElem.elements, eltsSigns_eq, List.flatMap_singleton, Elt.signs, eltParts_wrap]
      simp [scriptParts, cellParts, hl.signs, hs.signs, cellsSigns]

/-! ## Tables -/

theorem tableElts_spec {w : Nat} (hw : 0 < w) : ∀ {n : Nat} {cells : List (List Elt)},
    cells.length ≤ n → cells.length % w = 0 →
    (eltParts (tableElts w n cells)).flatten = cellParts (cells.map eltsSigns) ∧
    (∀ r ∈ tableElts w n cells, r.IsTableRow w) ∧
    ((∀ c ∈ cells, EltsFit c) → EltsFit (tableElts w n cells)) ∧
    (cells ≠ [] → columnsOf (tableElts w n cells) = w)
  | 0, cells, h, _ => by
    have : cells = [] := List.length_eq_zero_iff.1 (Nat.le_zero.1 h)
    subst this
    simp [tableElts, eltParts, cellParts, EltsFit]
  | n + 1, [], _, _ => by simp [tableElts, eltParts, cellParts, EltsFit]
  | n + 1, c :: cs, h, hm => by
    have hpos : 0 < (c :: cs).length := Nat.succ_pos _
    have hle : w ≤ (c :: cs).length := by
      by_contra hlt
      rw [Nat.mod_eq_of_lt (by omega)] at hm
      omega
    obtain ⟨ih1, ih2, ih3, -⟩ := tableElts_spec (n := n) (cells := (c :: cs).drop w) hw
      (by rw [List.length_drop]; omega)
      (by rw [List.length_drop, ← Nat.mod_eq_sub_mod hle]; exact hm)
    generalize c :: cs = cells at *
    have heq : tableElts w (n + 1) cells =
        .elem .mtr false ((cells.take w).map fun c => .elem .mtd false [wrapInMRow c]) ::
          tableElts w n (cells.drop w) := by
      cases cells with
      | nil => exact absurd hpos (Nat.lt_irrefl 0)
      | cons _ _ => rfl
    have hlen : (cells.take w).length = w := by rw [List.length_take]; omega
    rw [heq]
    refine ⟨?_, ?_, ?_, ?_⟩
    · rw [eltParts, List.flatten_cons, ih1, Elt.signs, eltParts_eq, List.map_map]
      have : (List.map (Elt.signs ∘ fun c => .elem .mtd false [wrapInMRow c]) (cells.take w)) =
          (cells.take w).map eltsSigns := by
        refine List.map_congr_left fun c _ => ?_
        rw [Function.comp_apply, Elt.signs, eltParts, eltParts, wrapInMRow_signs]
        all_goals simp
      rw [this]
      unfold cellParts
      rw [← List.flatMap_append, ← List.map_append, List.take_append_drop]
    · intro r hr
      rcases List.mem_cons.1 hr with rfl | hr
      · refine ⟨by rw [List.length_map, hlen], fun td htd => ?_⟩
        obtain ⟨c, -, rfl⟩ := List.mem_map.1 htd
        exact ⟨_, rfl⟩
      · exact ih2 r hr
    · intro hc
      rw [EltsFit, Elt.Fit]
      refine ⟨⟨trivial, ?_⟩, ih3 fun c hc' => hc c (List.mem_of_mem_drop hc')⟩
      rw [eltsFit_iff]
      intro td htd
      obtain ⟨c, hc', rfl⟩ := List.mem_map.1 htd
      rw [Elt.Fit]
      exact ⟨trivial, (wrapInMRow_fit c).2 (hc c (List.mem_of_mem_take hc')), trivial⟩
    · intro _
      rw [columnsOf, List.length_map, hlen]

/-! ## Every part of a tree -/

/-- What the element of a part of a tree says. -/
def Says (R : Renderers) (b : BuiltIn) : Cat → Row → Nat → Nat → SNode → Prop
  | .expr, row, a, c, t => ∀ ri o e, render R ri o t = .ok e → Shows e (rowSigns (segment row a c))
  | .opr tp, row, a, c, t => tp.isLeaf = true → ∀ ri o e, render R ri o t = .ok e →
      Shows e (rowSigns (segment row a c))
  | .core n tp, row, a, c, t => fitsParser R b n tp = true → ∀ ri o e, render R ri o t = .ok e →
      (tp.isScript = false → Shows e (rowSigns (segment row a c))) ∧
      ∀ v, tp = .container v → v = .sub ∨ v = .sup → t.OpensRows → ScriptShows v row a c e
  | .tok n tp, row, a, c, t => fitsParser R b n tp = true → ∀ ri o e, render R ri o t = .ok e →
      (tp.isScript = false → Shows e (rowSigns (segment row a c))) ∧
      ∀ v, tp = .container v → v = .sub ∨ v = .sup → t.OpensRows → ScriptShows v row a c e

theorem Spc.shows (hf : Fits R g) {row : Row} {a b : Nat} {s : Option SNode}
    (h : Spc g row a b s) : (s = none ∧ rowSigns (segment row a b) = []) ∨
    ∃ t, s = some t ∧ ∀ ri o e, render R ri o t = .ok e → Shows e (rowSigns (segment row a b)) := by
  rcases h with ⟨rfl, rfl⟩ | ⟨-, rfl, h⟩
  · exact .inl ⟨rfl, by simp [segment_self, rowSigns]⟩
  · refine .inr ⟨_, rfl, fun ri o e he => ?_⟩
    rw [h.segment, rowSigns_symbols]
    exact leaf_shows hf he

theorem wrap_shows (hf : Fits R g) {row : Row} {a b p q : Nat} {sb sa : Option SNode}
    {t : SNode} (hpq : p ≤ q) (hb : Spc g row a p sb) (ha : Spc g row q b sa)
    (h : ∀ ri o e, render R ri o t = .ok e → Shows e (rowSigns (segment row p q)))
    {ri : Option RowIndex} {o : ROpts} {e : RElem}
    (he : render R ri o (wrapSpc g sb t sa a b) = .ok e) : Shows e (rowSigns (segment row a b)) := by
  have hb' := hb.shows hf
  have ha' := ha.shows hf
  rw [← segment_append (Nat.le_trans hb.le hpq) ha.le, ← segment_append hb.le hpq, rowSigns_append,
    rowSigns_append]
  rcases hb' with ⟨rfl, hb'⟩ | ⟨tb, rfl, hb'⟩
  · rcases ha' with ⟨rfl, ha'⟩ | ⟨ta, rfl, ha'⟩
    · rw [hb', ha', List.nil_append, List.append_nil]
      exact h _ _ _ he
    · have := plain_shows hf.whitespaces (.inr (.inr (.inr rfl)))
        (.cons h (.cons ha' .nil)) he
      simpa [hb'] using this
  · rcases ha' with ⟨rfl, ha'⟩ | ⟨ta, rfl, ha'⟩
    · have := plain_shows hf.whitespaces (.inr (.inr (.inr rfl)))
        (.cons hb' (.cons h .nil)) he
      simpa [ha'] using this
    · have := plain_shows hf.whitespaces (.inr (.inr (.inr rfl)))
        (.cons hb' (.cons h (.cons ha' .nil))) he
      simpa using this

/-- The name of a postfix rule that reads a script. -/
theorem Fits.postScript (hf : Fits R g) {r : Rule} (hr : r ∈ g.ofRole .postfix)
    (hs : r.parser.isScript = true) :
    ∃ v, r.parser = .container v ∧ ScriptName g v r.name := by
  obtain ⟨h1, h2⟩ := mem_ofRole.1 hr
  have := hf.rule r h1
  unfold fitsRule at this
  rw [h2] at this
  obtain ⟨v, hv, rfl | rfl⟩ := scriptParser hs
  · rw [hv] at this
    exact ⟨_, hv, .inl ⟨rfl, by simpa using this⟩⟩
  · rw [hv] at this
    exact ⟨_, hv, .inr ⟨rfl, by simpa using this⟩⟩

/-- Rendering a base with a script. -/
theorem scriptNode_shows (hf : Fits R g) {row : Row} {v : Variant} {n a b c : Nat} {l s : SNode}
    (hn : ScriptName g v n) {ri : Option RowIndex} {o : ROpts} {e : RElem} (hab : a ≤ b)
    (hbc : b ≤ c)
    (hl : ∀ ri o e, render R ri o l = .ok e → Shows e (rowSigns (segment row a b)))
    (hs : ∀ ri o e, render R ri o s = .ok e → s.OpensRows → ScriptShows v row b c e)
    (h : render R ri o (.children n a c [l, s]) = .ok e) :
    Shows e (rowSigns (segment row a c)) := by
  rw [← segment_append hab hbc, rowSigns_append]
  rcases hn with ⟨rfl, rfl⟩ | ⟨rfl, rfl⟩
  · obtain ⟨hx, -, -, es, hes, rfl⟩ := (render_children_ok hf.sub rfl).1 h
    cases hes with
    | cons h1 h2 => cases h2 with
      | cons h2 h3 =>
        cases h3
        exact script_shows (a := a) (hl _ _ _ h1) (hs _ _ _ h2 hx) (.inl ⟨rfl, rfl⟩)
  · obtain ⟨hx, -, -, es, hes, rfl⟩ := (render_children_ok hf.sup rfl).1 h
    cases hes with
    | cons h1 h2 => cases h2 with
      | cons h2 h3 =>
        cases h3
        exact script_shows (a := a) (hl _ _ _ h1) (hs _ _ _ h2 hx) (.inr ⟨rfl, rfl⟩)

theorem missing_shows (hf : Fits R g) {a : Nat} {ri : Option RowIndex} {o : ROpts} {e : RElem}
    (h : render R ri o (.children g.builtIn.missingToken a a []) = .ok e) : Shows e [] := by
  rw [render, hf.missingToken] at h
  simp only [massert, List.isEmpty_nil, if_true, M.ok_bind, beq_self_eq_true] at h
  cases h
  exact ⟨by simp [RElem.elements, EltsFit, Elt.Fit, ChildrenFit],
    by simp [RElem.elements, eltsSigns_eq, Elt.signs]⟩

theorem made_shows (hf : Fits R g) {k : Cat} {row : Row} {a b : Nat} {t : SNode}
    (h : Made g k row a b t) : rowWf row = true → Says R g.builtIn k row a b t := by
  induction h with
  | missing h =>
    intro _ ri o e he
    rw [segment_self, rowSigns]
    exact missing_shows hf he
  | unknown h =>
    intro _ ri o e he
    rw [segment_one h, rowSigns_one, Node.signs]
    simpa using leaf_shows hf he
  | missingOperator h1 h2 ih1 ih2 =>
    intro hw ri o e he
    have r1 := h1.range
    have r2 := h2.range
    rw [← segment_append r1.2.1 r2.2.1, rowSigns_append]
    simpa using plain_shows hf.missingOperator (.inl rfl) (.cons (ih1 hw)
      (.cons (fun _ _ _ h => missing_shows hf h) (.cons (ih2 hw) .nil))) he
  | atom hr _ ih =>
    intro hw ri o e he
    obtain ⟨h1, h2⟩ := hf.atom hr
    exact (ih hw h1 ri o e he).1 h2
  | «prefix» hr h1 h2 ih1 ih2 =>
    intro hw ri o e he
    obtain ⟨g1, g2⟩ := hf.pre hr
    have r1 := h1.range
    have r2 := h2.range
    rw [← segment_append r1.2.1 r2.2.1, rowSigns_append]
    simpa using plain_shows g1 (.inl rfl) (.cons (ih1 hw g2) (.cons (ih2 hw) .nil)) he
  | «infix» hr h1 h2 h3 ih1 ih2 ih3 =>
    intro hw ri o e he
    obtain ⟨g1, g2⟩ := hf.inf hr
    have r1 := h1.range
    have r2 := h2.range
    have r3 := h3.range
    rw [← segment_append (Nat.le_trans r1.2.1 r2.2.1) r3.2.1, ← segment_append r1.2.1 r2.2.1,
      rowSigns_append, rowSigns_append]
    simpa using plain_shows g1 (.inl rfl)
      (.cons (ih1 hw) (.cons (ih2 hw g2) (.cons (ih3 hw) .nil))) he
  | «postfix» hr h1 h2 ih1 ih2 =>
    intro hw ri o e he
    have r1 := h1.range
    have r2 := h2.range
    rcases hf.post hr with ⟨g1, -⟩ | ⟨g1, g2, g3⟩
    · obtain ⟨v, hv, hn⟩ := hf.postScript hr g1
      refine scriptNode_shows hf hn r1.2.1 r2.2.1 (ih1 hw) ?_ he
      intro ri o e he ho
      refine (ih2 hw (fits_script _ g1) ri o e he).2 v hv ?_ ho
      rcases hn with ⟨h, -⟩ | ⟨h, -⟩
      · exact .inl h
      · exact .inr h
    · rw [← segment_append r1.2.1 r2.2.1, rowSigns_append]
      simpa using plain_shows g2 (.inl rfl) (.cons (ih1 hw)
        (.cons (fun ri o e he => (ih2 hw g3 ri o e he).1 g1) .nil)) he
  | opr _ ih =>
    intro hw hl ri o e he
    obtain ⟨h1, h2⟩ := hf.leafOperator hl
    exact (ih hw h1 ri o e he).1 h2
  | @script row a b p c n t s sa tp v hn h1 h2 hs _ ih1 ih2 =>
    intro hw hl ri o e he
    have r1 := h1.range
    have r2 := h2.range
    refine scriptNode_shows hf hn r1.2.1 (Nat.le_trans r2.2.1 hs.le) (ih1 hw hl) ?_ he
    intro ri o e he ho
    obtain ⟨-, rfl⟩ := wrap_not_opens ho
    have hpc : p = c := by
      rcases hs with ⟨-, h⟩ | ⟨-, h, -⟩
      · exact h
      · cases h
    subst hpc
    have hv : v = .sub ∨ v = .sup := by
      rcases hn with ⟨h, -⟩ | ⟨h, -⟩
      · exact .inl h
      · exact .inr h
    refine (ih2 hw ?_ ri o e he).2 v rfl hv ho
    rcases hv with h | h <;> subst h <;> simp [fitsParser]
  | @tok row a p q b n t sb sa tp hb _ h ha _ ih =>
    intro hw hfit ri o e he
    have r := h.range
    refine ⟨fun hs => wrap_shows hf r.2.1 hb ha (fun ri o e he => (ih hw hfit ri o e he).1 hs) he,
      fun v hv hv' ho => ?_⟩
    obtain ⟨rfl, rfl⟩ := wrap_not_opens ho
    have h1 : a = p := by
      rcases hb with ⟨-, h⟩ | ⟨-, h, -⟩
      · exact h
      · cases h
    have h2 : q = b := by
      rcases ha with ⟨-, h⟩ | ⟨-, h, -⟩
      · exact h
      · cases h
    subst h1 h2
    exact (ih hw hfit ri o e he).2 v hv hv' ho
  | leaf htp _ hs hss _ =>
    intro hw hfit ri o e he
    refine ⟨fun _ => ?_, fun v hv _ ho => ho.elim⟩
    rw [hs.segment, rowSigns_symbols, hss]
    exact leaf_shows hf he
  | @emptyBrackets row a n m o c h1 h2 =>
    intro hw hfit ri o e he
    simp only [fitsParser, Bool.and_eq_true, beq_iff_eq, Bool.or_eq_true] at hfit
    obtain ⟨rfl, hk⟩ := hfit
    obtain ⟨k, hk, hk'⟩ := fits_brackets hk
    refine ⟨fun _ => ?_, nofun⟩
    rw [← segment_append (Nat.le_succ a) (Nat.le_succ (a + 1)), segment_one h1, segment_one h2,
      rowSigns_append, rowSigns_one, rowSigns_one, Node.signs, Node.signs]
    have := plain_shows hk (by tauto) (.cons (fun _ _ _ h => leaf_shows hf h)
      (.cons (fun _ _ _ h => leaf_shows hf h) .nil)) he
    simpa using this
  | @brackets row a b n m o c t h1 h2 h3 ih =>
    intro hw hfit ri o e he
    have r := h2.range
    simp only [fitsParser, Bool.and_eq_true, beq_iff_eq, Bool.or_eq_true] at hfit
    obtain ⟨rfl, hk⟩ := hfit
    obtain ⟨k, hk, hk'⟩ := fits_brackets hk
    refine ⟨fun _ => ?_, nofun⟩
    rw [← segment_append (Nat.le_trans (Nat.le_succ a) r.2.1) (Nat.le_succ b),
      ← segment_append (Nat.le_succ a) r.2.1, segment_one h1, segment_one h3,
      rowSigns_append, rowSigns_append, rowSigns_one, rowSigns_one, Node.signs, Node.signs]
    have := plain_shows hk (by tauto) (.cons (fun _ _ _ h => leaf_shows hf h)
      (.cons (ih hw) (.cons (fun _ _ _ h => leaf_shows hf h) .nil))) he
    simpa using this
  | @container row a n w v cells ts hc hlen hw0 hmod _ ih =>
    intro hw hfit ri o e he
    have hnode := rowWf_iff.1 hw _ (List.mem_of_getElem? hc)
    rw [Node.wf, Bool.and_eq_true] at hnode
    obtain ⟨hshape, hcells⟩ := hnode
    -- the elements of the cells
    have hrows : ∀ {es : List RElem}, renderRows R a 0 ts = .ok es →
        es.length = cells.length ∧ (∀ e ∈ es, EltsFit e.elements) ∧
        es.map (fun e => eltsSigns e.elements) = cells.map rowSigns := by
      intro es hes
      obtain ⟨h1, h2⟩ := renderRows_ok.1 hes
      have key : ∀ (j : Nat) e c, es[j]? = some e → cells[j]? = some c → Shows e (rowSigns c) := by
        intro j e c hj hcj
        have hj' := (List.getElem?_eq_some_iff.1 hj).1
        have htj : ts[j]? = some ts[j] := List.getElem?_eq_getElem (by omega)
        have := ih j c _ hcj htj (cellsWf_iff.1 hcells _ (List.mem_of_getElem? hcj)) _ _ _
          (h2 j _ e htj hj)
        rwa [segment_all] at this
      refine ⟨by omega, fun e he => ?_, ?_⟩
      · obtain ⟨j, hj⟩ := List.getElem?_of_mem he
        have hj' := (List.getElem?_eq_some_iff.1 hj).1
        exact (key j e cells[j] hj (List.getElem?_eq_getElem (by omega))).fit
      · refine List.ext_getElem (by simp; omega) fun j hj1 hj2 => ?_
        simp only [List.length_map] at hj1 hj2
        simp only [List.getElem_map]
        exact (key j _ _ (List.getElem?_eq_getElem hj1) (List.getElem?_eq_getElem hj2)).signs
    have hseg : rowSigns (segment row a (a + 1)) = .enter v (if v = .table then w else 0) ::
        (cellParts (cells.map rowSigns) ++ [.leave]) := by
      rw [segment_one hc, rowSigns_one, Node.signs, cellsSigns_eq]
    rw [hseg]
    have hscript : v = .sub ∨ v = .sup → n = g.builtIn.operator →
        cells.length = 1 → ScriptShows v row a (a + 1) e := by
      rintro - rfl h1
      rw [render, hf.operator] at he
      cases ho : o.override with
      | none => simp only [ho] at he; cases he
      | some c =>
        obtain ⟨-, -, -, -, es, hes, rfl⟩ := (render_newRows_ok hf.operator (by rw [rowsOf, ho]; rfl)).1
          (show render R ri o (.newRows g.builtIn.operator a (a + 1) ts w) = .ok e by
            rw [render, hf.operator]; exact he)
        obtain ⟨g1, g2, g3⟩ := hrows hes
        obtain ⟨cell, rfl⟩ := List.length_eq_one_iff.1 h1
        refine ⟨cell, w, rfl, hc, ?_⟩
        constructor
        · rw [RElem.elements]
          refine between_fit ?_
          rw [Elt.Fit]
          exact ⟨trivial, eltsFit_wrap g2⟩
        · rw [RElem.elements, between_signs, Elt.signs, eltParts_wrap, g3]
          all_goals simp
    refine ⟨fun hns => ?_, fun v' hv' hv hopen => ?_⟩
    · cases v with
      | sub => cases hns
      | sup => cases hns
      | fraction =>
        simp only [shapeOk, Bool.and_eq_true, beq_iff_eq] at hshape
        simp only [fitsParser, beq_iff_eq] at hfit
        obtain ⟨-, -, -, -, es, hes, rfl⟩ := (render_newRows_ok hfit rfl).1 he
        obtain ⟨g1, g2, g3⟩ := hrows hes
        constructor
        · rw [RElem.elements]
          refine between_fit ?_
          rw [Elt.Fit]
          refine ⟨?_, eltsFit_wrap g2⟩
          simp only [ChildrenFit, List.length_map, elementsAll_eq]
          omega
        · rw [RElem.elements, between_signs, Elt.signs, eltParts_wrap, g3]
          simp
      | root =>
        simp only [shapeOk, Bool.and_eq_true, beq_iff_eq] at hshape
        simp only [fitsParser, beq_iff_eq] at hfit
        obtain ⟨-, -, -, -, es, hes, rfl⟩ := (render_newRows_ok hfit rfl).1 he
        obtain ⟨g1, g2, g3⟩ := hrows hes
        constructor
        · rw [RElem.elements]
          refine between_fit ?_
          rw [Elt.Fit]
          refine ⟨?_, ?_⟩
          · simp only [ChildrenFit, List.length_map, List.length_reverse, elementsAll_eq]
            omega
          · have := eltsFit_wrap g2
            rw [eltsFit_iff] at this ⊢
            simpa using this
        · rw [RElem.elements, between_signs, Elt.signs, List.map_reverse, eltParts_eq,
            List.map_reverse, List.reverse_reverse, ← eltParts_eq, eltParts_wrap, g3]
          simp
      | table =>
        simp only [shapeOk, Bool.and_eq_true, beq_iff_eq, decide_eq_true_eq] at hshape
        simp only [fitsParser, beq_iff_eq] at hfit
        obtain ⟨h0, -, -, -, es, hes, rfl⟩ := (render_newRows_ok hfit rfl).1 he
        obtain ⟨g1, g2, g3⟩ := hrows hes
        have hne : elementsAll es ≠ [] := by
          intro h
          have := congrArg List.length h
          rw [elementsAll_eq, List.length_map, g1, ← hlen, List.length_nil,
            List.length_eq_zero_iff] at this
          exact h0 this
        obtain ⟨t1, t2, t3, t4⟩ := tableElts_spec (n := es.length) (cells := elementsAll es) hw0
          (by simp [elementsAll_eq])
          (by rw [elementsAll_eq, List.length_map, g1]; exact hmod)
        constructor
        · rw [RElem.elements]
          refine between_fit ?_
          rw [Elt.Fit, SNode.width]
          refine ⟨?_, t3 (by rw [elementsAll_eq]; simpa using g2)⟩
          rw [ChildrenFit, t4 hne]
          exact ⟨hw0, t2⟩
        · rw [RElem.elements, between_signs, Elt.signs, SNode.width, t1, t4 hne, elementsAll_eq,
            List.map_map]
          have : es.map (eltsSigns ∘ RElem.elements) = cells.map rowSigns := g3
          rw [this]
          simp
    · cases hv'
      rcases hv with rfl | rfl
      all_goals
        simp only [shapeOk, Bool.and_eq_true, beq_iff_eq] at hshape
        simp only [fitsParser, beq_iff_eq] at hfit
      · exact hscript (.inl rfl) hfit (by omega)
      · exact hscript (.inr rfl) hfit (by omega)

end Aftermath
