import Verif.Spec.Reload
import Verif.Proof.DomMarks
import Verif.Proof.MathML

/-! # Loading what is shown: helper lemmas -/

namespace Aftermath

/-- Reading the element gets to an element that cannot be read. -/
inductive Elt.Broken : Elt → Prop
  | other {s : Str} {m : Bool} {cs : List Elt} : Broken (.elem (.other s) m cs)
  | row {c : Elt} {cs : List Elt} : c ∈ cs → Broken c → Broken (.elem .mrow false cs)
  | script {tag : Tag} {x y : Elt} : tag = .msup ∨ tag = .msub → Broken y →
      Broken (.elem tag false [x, y])

/-- Tags of tokens that are read with all their characters. -/
def Tag.IsToken (tag : Tag) : Prop := tag = .mi ∨ tag = .mn ∨ tag = .mo ∨ tag = .mtext

/-- The element is a token, or a row of such elements. -/
inductive Elt.Plain : Elt → Prop
  | token {tag : Tag} {ss : List Str} : tag.IsToken → Plain (.elem tag false (ss.map .text))
  | missing : Plain (.elem .mi true [.text ['\u00A0', '\u00A0']])
  | row {cs : List Elt} : (∀ c ∈ cs, Plain c) → Plain (.elem .mrow false cs)

theorem wrap_plain {es : List Elt} (h : ∀ e ∈ es, e.Plain) : (wrapInMRow es).Plain := by
  unfold wrapInMRow
  split
  · exact h _ (.head _)
  · exact .row h

theorem wrap_broken {es : List Elt} {c : Elt} (hc : c ∈ es) (h : c.Broken) :
    (wrapInMRow es).Broken := by
  unfold wrapInMRow
  split
  · simp only [List.mem_singleton] at hc
    exact hc ▸ h
  · exact .row hc h

theorem count_mem {p : Tag → Bool → Bool} {es : List Elt} {c : Elt} (hc : c ∈ es)
    (h : 0 < c.count p) : 0 < eltsCount p es := by
  induction es with
  | nil => cases hc
  | cons a as ih =>
    rw [eltsCount]
    cases hc with
    | head => omega
    | tail _ hc => have := ih hc; omega

theorem count_wrap {p : Tag → Bool → Bool} {es : List Elt} (h : 0 < eltsCount p es) :
    0 < (wrapInMRow es).count p := by
  unfold wrapInMRow
  split
  · simpa [eltsCount] using h
  · rw [Elt.count]; omega

theorem count_elem {p : Tag → Bool → Bool} {tag : Tag} {m : Bool} {cs : List Elt}
    (h : 0 < eltsCount p cs) : 0 < (Elt.elem tag m cs).count p := by
  rw [Elt.count]; omega

/-- What makes an element broken. -/
structure Damage (o : ROpts) (es : List Elt) : Prop where
  broken : ∃ c ∈ es, c.Broken
  reason : o.override ≠ none ∨ (∃ v w, Sign.enter v w ∈ eltsSigns es) ∨
    0 < eltsCount (fun t _ => t == .other "mspace".toList) es ∨
    0 < eltsCount (fun t _ => t == .other "merror".toList) es

variable {R : Renderers} {g : Grammar}

theorem Damage.mrow {o : ROpts} {es : List RElem} {e : RElem} (he : e ∈ es)
    (h : Damage o e.elements) :
    Damage o [.elem .mrow false ((elementsAll es).map wrapInMRow)] := by
  have hm : wrapInMRow e.elements ∈ (elementsAll es).map wrapInMRow := by
    rw [elementsAll_eq, List.map_map]
    exact List.mem_map_of_mem he
  obtain ⟨⟨c, hc, hb⟩, hr⟩ := h
  have hcnt : ∀ p : Tag → Bool → Bool, 0 < eltsCount p e.elements →
      0 < eltsCount p [.elem .mrow false ((elementsAll es).map wrapInMRow)] := fun p h =>
    count_mem (.head _) (count_elem (count_mem hm (count_wrap h)))
  refine ⟨⟨_, .head _, .row hm (wrap_broken hc hb)⟩, ?_⟩
  rcases hr with h | ⟨v, w, h⟩ | h | h
  · exact .inl h
  · refine .inr (.inl ⟨v, w, ?_⟩)
    rw [eltsSigns_eq, List.flatMap_cons, List.flatMap_nil, List.append_nil, Elt.signs, eltParts_eq,
      ← List.flatMap_def, List.mem_flatMap]
    · exact ⟨_, hm, by rw [wrapInMRow_signs]; exact h⟩
    all_goals nofun
  · exact .inr (.inr (.inl (hcnt _ h)))
  · exact .inr (.inr (.inr (hcnt _ h)))

theorem rendered_phantom {n lo hi w : Nat} {ts : List SNode} {ri : Option RowIndex} {o : ROpts}
    {e : RElem} (h : render R ri o (.newRows n lo hi ts w) = .ok e) : phantom ∈ e.elements := by
  cases hk : hashGet R n with
  | none => rw [render, hk] at h; cases h
  | some k =>
    cases hc : rowsOf o ri k with
    | none =>
      rw [render, hk] at h
      cases k <;> first
        | (cases hc; done)
        | cases h
        | (simp only [rowsOf, Option.map_eq_none_iff] at hc
           simp only [hc] at h
           cases h)
    | some x =>
      obtain ⟨ek, tag, ri'⟩ := x
      obtain ⟨-, -, -, -, es, -, rfl⟩ := (render_newRows_ok hk hc).1 h
      cases k <;> simp only [rowsOf, Option.some.injEq, Prod.mk.injEq, reduceCtorEq,
          Option.map_eq_some_iff] at hc
      · obtain ⟨_, -, rfl, -⟩ := hc
        rw [RElem.elements]; exact .head _
      · obtain ⟨rfl, -⟩ := hc
        rw [RElem.elements]; exact .head _
      · obtain ⟨rfl, -⟩ := hc
        rw [RElem.elements]; exact .head _
      · obtain ⟨rfl, -⟩ := hc
        rw [RElem.elements]; exact .head _

theorem rendered_enter {n lo hi w : Nat} {ts : List SNode} {ri : Option RowIndex} {o : ROpts}
    {e : RElem} (h : render R ri o (.newRows n lo hi ts w) = .ok e) :
    o.override ≠ none ∨ ∃ v w, Sign.enter v w ∈ eltsSigns e.elements := by
  cases hk : hashGet R n with
  | none => rw [render, hk] at h; cases h
  | some k =>
    cases hc : rowsOf o ri k with
    | none =>
      rw [render, hk] at h
      cases k <;> first
        | (cases hc; done)
        | cases h
        | (simp only [rowsOf, Option.map_eq_none_iff] at hc
           simp only [hc] at h
           cases h)
    | some x =>
      obtain ⟨ek, tag, ri'⟩ := x
      obtain ⟨-, -, -, -, es, -, rfl⟩ := (render_newRows_ok hk hc).1 h
      cases k <;> simp only [rowsOf, Option.some.injEq, Prod.mk.injEq, reduceCtorEq,
          Option.map_eq_some_iff] at hc
      · obtain ⟨_, h, -⟩ := hc
        exact .inl (by rw [h]; nofun)
      · obtain ⟨rfl, -⟩ := hc
        rw [RElem.elements, between_signs, Elt.signs]; exact .inr ⟨_, _, .head _⟩
      · obtain ⟨rfl, -⟩ := hc
        rw [RElem.elements, between_signs, Elt.signs]; exact .inr ⟨_, _, .head _⟩
      · obtain ⟨rfl, -⟩ := hc
        rw [RElem.elements, between_signs, Elt.signs]; exact .inr ⟨_, _, .head _⟩

theorem phantom_broken : phantom.Broken := .other

/-- What is shown for a node is either made of tokens only, or there is an element that cannot be
read. -/
theorem render_damage (hf : Fits R g) : ∀ {t : SNode} {ri : Option RowIndex} {o : ROpts} {e : RElem},
    render R ri o t = .ok e → (∀ c ∈ e.elements, c.Plain) ∨ Damage o e.elements
  | .leaf n lo hi ty ss, ri, o, e, h => by
    rw [render] at h
    split at h
    · cases h
      rw [RElem.elements, SNode.texts]
      exact .inr ⟨⟨_, .head _, .other⟩, .inr (.inr (.inl (count_mem (.head _) (by
        rw [Elt.count]; simp; omega))))⟩
    · cases h
      rw [RElem.elements, SNode.texts]
      refine .inl fun c hc => ?_
      simp only [List.mem_singleton] at hc
      exact hc ▸ .token (.inr (.inr (.inl rfl)))
    · cases h
      rw [RElem.elements, SNode.texts]
      exact .inr ⟨⟨_, .head _, .other⟩, .inr (.inr (.inr (count_mem (.head _) (by
        rw [Elt.count]; simp; omega))))⟩
    · rename_i tag hk
      cases h
      rw [RElem.elements, SNode.texts]
      refine .inl fun c hc => ?_
      simp only [List.mem_singleton] at hc
      have := hf.texts hk
      refine hc ▸ .token ?_
      cases tag <;> first | (cases this; done) | (simp [Tag.IsToken]; done)
    · cases h
  | .children n lo hi cs, ri, o, e, h => by
    cases hk : hashGet R n with
    | none => rw [render, hk] at h; cases h
    | some k =>
      cases hc : contOf ri o k with
      | some x =>
        obtain ⟨tag, o'⟩ := x
        obtain ⟨hx, hne, hcnt, es, hes, rfl⟩ := (render_children_ok hk hc).1 h
        have ih : ∀ e ∈ es, (∀ c ∈ e.elements, c.Plain) ∨ Damage o' e.elements := by
          intro e he
          obtain ⟨i, hi⟩ := List.getElem?_of_mem he
          obtain ⟨h1, rfl⟩ := List.getElem?_eq_some_iff.1 hi
          have h2 : i < cs.length := by rw [hes.length_eq]; exact h1
          have hm : cs[i] ∈ cs := List.getElem_mem _
          have hr : render R none o' cs[i] = .ok es[i] := (List.forall₂_iff_get.1 hes).2 i h2 h1
          exact render_damage hf hr
        have hmrow : tag = .mrow → (o'.override ≠ none → o.override ≠ none) →
            (∀ c ∈ (RElem.mk (.container tag) (.children n lo hi cs) ri es).elements, c.Plain) ∨
            Damage o (RElem.mk (.container tag) (.children n lo hi cs) ri es).elements := by
          rintro rfl ho
          rw [RElem.elements]
          by_cases hb : ∃ e ∈ es, Damage o' e.elements
          · obtain ⟨e, he, hb⟩ := hb
            have := hb.mrow he
            exact .inr ⟨this.broken, this.reason.imp ho id⟩
          · refine .inl fun c hc => ?_
            simp only [List.mem_singleton] at hc
            subst hc
            refine .row fun c hc => ?_
            rw [elementsAll_eq, List.map_map] at hc
            obtain ⟨e, he, rfl⟩ := List.mem_map.1 hc
            rcases ih e he with h | h
            · exact wrap_plain h
            · exact absurd ⟨e, he, h⟩ hb
        have hscript : BareScript cs → tag = .msup ∨ tag = .msub →
            (∀ c ∈ (RElem.mk (.container tag) (.children n lo hi cs) ri es).elements, c.Plain) ∨
            Damage o (RElem.mk (.container tag) (.children n lo hi cs) ri es).elements := by
          intro hs ht
          have hlen : cs.length = 2 := by
            rcases ht with rfl | rfl <;> simpa [childrenCountOk] using hcnt
          obtain ⟨c0, c1, rfl⟩ : ∃ a b, cs = [a, b] := by
            match cs, hlen with
            | [a, b], _ => exact ⟨a, b, rfl⟩
          cases hes with
          | cons h0 hes =>
            cases hes with
            | cons h1 hes =>
              cases hes
              rename_i e0 e1
              simp only [BareScript] at hs
              cases c1 with
              | leaf => exact hs.elim
              | children => exact hs.elim
              | newRows n' lo' hi' ts' w' =>
                have hph := rendered_phantom h1
                rw [RElem.elements, elementsAll, elementsAll, elementsAll]
                refine .inr ⟨⟨_, .head _, .script ht (wrap_broken hph phantom_broken)⟩, ?_⟩
                refine .inr (.inl ?_)
                rw [eltsSigns_eq, List.flatMap_cons, List.flatMap_nil, List.append_nil]
                rcases ht with rfl | rfl
                · exact ⟨.sup, 0, by simp [Elt.signs, scriptParts]⟩
                · exact ⟨.sub, 0, by simp [Elt.signs, scriptParts]⟩
        cases k <;> simp only [contOf, Option.some.injEq, Prod.mk.injEq, reduceCtorEq] at hc
        · obtain ⟨rfl, rfl⟩ := hc
          exact hmrow rfl id
        · obtain ⟨rfl, rfl⟩ := hc
          exact hmrow rfl fun h => absurd rfl h
        · obtain ⟨rfl, rfl⟩ := hc
          exact hscript hx (.inl rfl)
        · obtain ⟨rfl, rfl⟩ := hc
          exact hscript hx (.inr rfl)
        · obtain ⟨rfl, rfl⟩ := hc
          exact hmrow rfl fun h => absurd rfl h
        · obtain ⟨rfl, rfl⟩ := hc
          exact hmrow rfl fun h => absurd rfl h
      | none =>
        rw [render, hk] at h
        cases k <;> first
          | (cases hc; done)
          | cases h
          | skip
        · simp only [massert_bind, List.isEmpty_iff, beq_iff_eq] at h
          obtain ⟨rfl, rfl, h⟩ := h
          cases h
          rw [RElem.elements]
          refine .inl fun c hc => ?_
          simp only [List.mem_singleton] at hc
          exact hc ▸ .token (ss := [['⬚']]) (.inl rfl)
        · simp only [massert_bind, List.isEmpty_iff, beq_iff_eq] at h
          obtain ⟨rfl, rfl, h⟩ := h
          cases h
          rw [RElem.elements]
          refine .inl fun c hc => ?_
          simp only [List.mem_singleton] at hc
          exact hc ▸ .missing
  | .newRows n lo hi ts w, ri, o, e, h => by
    refine .inr ⟨⟨_, rendered_phantom h, phantom_broken⟩, ?_⟩
    rcases rendered_enter h with h | h
    · exact .inl h
    · exact .inr (.inl h)
  termination_by t => sizeOf t
  decreasing_by
    have := List.sizeOf_lt_of_mem hm
    simp only [SNode.children.sizeOf_spec]
    omega

/-! ## Reading the elements -/

theorem Inside.mono {n : Node} {r s : Row} (h : Inside n r) (hs : ∀ m ∈ r, m ∈ s) : Inside n s := by
  cases h with
  | here h => exact .here (hs _ h)
  | cell h1 h2 h3 => exact .cell (hs _ h1) h2 h3

theorem rowOneChar_mem {r : Row} (h : RowOneChar r) {n : Node} (hn : n ∈ r) : n.OneChar := by
  induction r with
  | nil => cases hn
  | cons a as ih =>
    cases hn with
    | head => exact h.1
    | tail _ hn => exact ih h.2 hn

theorem cellsOneChar_mem {rs : List Row} (h : CellsOneChar rs) {r : Row} (hr : r ∈ rs) :
    RowOneChar r := by
  induction rs with
  | nil => cases hr
  | cons a as ih =>
    cases hr with
    | head => exact h.1
    | tail _ hr => exact ih h.2 hr

theorem inside_oneChar {s : Str} {r : Row} (h : Inside (.symbol s) r) (ho : RowOneChar r) :
    s.length = 1 := by
  induction h with
  | here h => exact rowOneChar_mem ho h
  | cell h1 h2 _ ih => exact ih (cellsOneChar_mem (rowOneChar_mem ho h1) h2)

theorem eltsDoms_eq : ∀ (es : List Elt), eltsDoms es = es.flatMap Elt.doms
  | [] => by simp [eltsDoms]
  | e :: es => by rw [eltsDoms, eltsDoms_eq es, List.flatMap_cons]

theorem toLayouts_mem {b : Browser} : ∀ {ds : List Dom} {ls : List Layout} {es : List ImportError},
    toLayouts b ds = .ok (ls, es) → ∀ d ∈ ds, ∃ l ∈ ls, ∃ e, toLayout b d = .ok (l, e)
  | [], _, _, _, _, h => by cases h
  | d :: ds, ls, es, h, d', hd => by
    rw [toLayouts, M.bind_eq_ok] at h
    obtain ⟨⟨l, e⟩, h1, h⟩ := h
    dsimp only at h
    rw [M.bind_eq_ok] at h
    obtain ⟨⟨ls', es'⟩, h2, h⟩ := h
    cases h
    cases hd with
    | head => exact ⟨l, .head _, e, h1⟩
    | tail _ hd =>
      obtain ⟨l', hl', he⟩ := toLayouts_mem h2 _ hd
      exact ⟨l', .tail _ hl', he⟩

theorem mem_wrap_many {ls : List Layout} {l : Layout} (h : l ∈ ls) :
    ∀ m ∈ wrapInRow l, m ∈ wrapInRow (.many (ls.flatMap Layout.items)) := by
  intro m hm
  rw [wrap_many]
  exact List.mem_flatten.2 ⟨_, List.mem_map_of_mem h, hm⟩

theorem error_inside {b : Browser} (he : b.nfd "Error".toList = "Error".toList) :
    Inside (.symbol "Error".toList) (wrapInRow b.errorSymbol) := by
  refine .here ?_
  rw [Browser.errorSymbol, Browser.symbol, wrapInRow_eq]
  simp only [Layout.items, List.flatMap_cons, List.flatMap_nil, LayoutItem.nodes, List.append_nil,
    List.mem_singleton]
  exact congrArg Node.symbol he.symm

theorem Elt.doms_cases (x : Elt) : x.doms = [] ∨ ∃ d, x.doms = [d] := by
  cases x with
  | text => exact .inl (by rw [Elt.doms])
  | elem => exact .inr ⟨_, by rw [Elt.doms]⟩

/-- Reading an element that cannot be read leaves its mark. -/
theorem broken_inside {b : Browser} (he : b.nfd "Error".toList = "Error".toList) {c : Elt}
    (h : c.Broken) : ∃ d, c.doms = [d] ∧ ∀ l e, toLayout b d = .ok (l, e) →
      Inside (.symbol "Error".toList) (wrapInRow l) := by
  induction h with
  | other =>
    refine ⟨_, by rw [Elt.doms], fun l e hl => ?_⟩
    rw [toLayout] at hl
    · cases hl
      exact error_inside he
    all_goals nofun
  | @row c cs hc _ ih =>
    refine ⟨_, by rw [Elt.doms], fun l e hl => ?_⟩
    rw [toLayout, M.bind_eq_ok] at hl
    obtain ⟨⟨ls, es⟩, h1, hl⟩ := hl
    cases hl
    obtain ⟨d, hd, ih⟩ := ih
    obtain ⟨l, hl, e, h2⟩ := toLayouts_mem h1 d (by
      rw [eltsDoms_eq, List.mem_flatMap]
      exact ⟨c, hc, by rw [hd]; exact .head _⟩)
    exact (ih l e h2).mono (mem_wrap_many hl)
  | @script tag x y ht _ ih =>
    refine ⟨_, by rw [Elt.doms], fun l e hl => ?_⟩
    obtain ⟨d, hd, ih⟩ := ih
    rw [eltsDoms, eltsDoms, eltsDoms, hd, List.append_nil] at hl
    rcases x.doms_cases with hx | ⟨d', hx⟩ <;> rw [hx] at hl
    · rcases ht with rfl | rfl
      all_goals
        rw [List.nil_append, toLayout, M.bind_eq_ok] at hl
        · obtain ⟨⟨l1, e1⟩, h1, hl⟩ := hl
          cases hl
          exact error_inside he
        all_goals nofun
    · rcases ht with rfl | rfl
      all_goals
        rw [List.singleton_append, toLayout, M.bind_eq_ok] at hl
        obtain ⟨⟨l1, e1⟩, h1, hl⟩ := hl
        dsimp only at hl
        rw [M.bind_eq_ok] at hl
        obtain ⟨⟨l2, e2⟩, h2, hl⟩ := hl
        cases hl
        rw [wrap_append]
        simp only [List.flatMap_cons, List.flatMap_nil, LayoutItem.nodes, List.append_nil]
        exact .cell (List.mem_append_right _ (.head _)) (.head _) (ih _ _ h2)

/-! ## Tokens -/

/-- The sign as a symbol. -/
def Sign.nodes : Sign → List Node
  | .char c => [.symbol [c]]
  | _ => []

theorem eltsText_texts (ss : List Str) : eltsText (ss.map .text) = ss.flatten := by
  induction ss with
  | nil => simp [eltsText]
  | cons s ss ih => rw [List.map_cons, eltsText, ih, Elt.textContent, List.flatten_cons]

theorem eltsDoms_texts (ss : List Str) : eltsDoms (ss.map .text) = [] := by
  induction ss with
  | nil => simp [eltsDoms]
  | cons s ss ih => rw [List.map_cons, eltsDoms, ih, Elt.doms, List.append_nil]

theorem token_signs {tag : Tag} (ht : tag.IsToken) (ss : List Str) :
    (Elt.elem tag false (ss.map .text)).signs = ss.flatten.map .char := by
  have : (eltParts (ss.map .text)).flatten = ss.flatten.map Sign.char := by
    induction ss with
    | nil => simp [eltParts]
    | cons s ss ih =>
      rw [List.map_cons, eltParts, List.flatten_cons, ih, Elt.signs, List.flatten_cons,
        List.map_append]
  rcases ht with rfl | rfl | rfl | rfl <;> simp [Elt.signs, this]

theorem Elt.Plain.chars {c : Elt} (h : c.Plain) : ∀ s ∈ c.signs, ∃ ch, s = .char ch := by
  induction h with
  | token ht =>
    rw [token_signs ht]
    intro s hs
    obtain ⟨ch, -, rfl⟩ := List.mem_map.1 hs
    exact ⟨ch, rfl⟩
  | missing => simp [Elt.signs]
  | row _ ih =>
    intro s hs
    simp only [Elt.signs, eltParts_eq, List.mem_flatten, List.mem_map] at hs
    obtain ⟨_, ⟨c, hc, rfl⟩, hs⟩ := hs
    exact ih c hc s hs

theorem count_texts (p : Tag → Bool → Bool) (ss : List Str) : eltsCount p (ss.map .text) = 0 := by
  induction ss with
  | nil => simp [eltsCount]
  | cons s ss ih => rw [List.map_cons, eltsCount, ih, Elt.count]

theorem Elt.Plain.count {c : Elt} (h : c.Plain) (s : Str) :
    c.count (fun t _ => t == .other s) = 0 := by
  induction h with
  | token ht =>
    rw [Elt.count, count_texts]
    rcases ht with rfl | rfl | rfl | rfl <;> rfl
  | missing => simp [Elt.count, eltsCount]
  | @row cs _ ih =>
    have : eltsCount (fun t _ => t == .other s) cs = 0 := by
      refine Nat.eq_zero_of_not_pos fun h => ?_
      clear * - h ih
      induction cs with
      | nil => simp [eltsCount] at h
      | cons c cs ih' =>
        rw [eltsCount, ih c (.head _), Nat.zero_add] at h
        exact ih' (fun c hc => ih c (.tail _ hc)) h
    rw [Elt.count, this]
    rfl

variable {b : Browser} {P : Char → Prop}

theorem symbols_plain (hb : b.Plain P) {s : Str} (hs : ∀ c ∈ s, P c) :
    (b.symbols s).flatMap LayoutItem.nodes = s.map fun c => .symbol [c] := by
  rw [wrap_symbols, hb.trim s hs, hb.split s hs, List.map_map]
  exact List.map_congr_left fun c hc => by simp [hb.nfd c (hs c hc)]

/-- How many `mtext` there are. -/
def isMtext (t : Tag) (_ : Bool) : Bool := t == .mtext

/-- What is read from tokens. -/
theorem Elt.Plain.read (hb : b.Plain P) {c : Elt} (h : c.Plain)
    (hs : ∀ ch, Sign.char ch ∈ c.signs → P ch) :
    ∃ d l, c.doms = [d] ∧ toLayout b d = .ok (l, []) ∧
      (wrapInRow l).length = c.signs.length + 2 * c.count isMtext ∧
      (c.count isMtext = 0 → wrapInRow l = c.signs.flatMap Sign.nodes) := by
  induction h with
  | @token tag ss ht =>
    rw [token_signs ht] at hs ⊢
    rw [Elt.count, count_texts]
    have hs' : ∀ ch ∈ ss.flatten, P ch := fun ch h => hs ch (List.mem_map_of_mem h)
    have hsy := symbols_plain hb hs'
    have hn : (ss.flatten.map Sign.char).flatMap Sign.nodes =
        ss.flatten.map fun c => .symbol [c] := by
      generalize ss.flatten = s
      induction s with
      | nil => rfl
      | cons c s ih => rw [List.map_cons, List.flatMap_cons, ih]; rfl
    rw [hn]
    generalize hq : ss.flatten = q at hs' hsy
    rcases ht with rfl | rfl | rfl | rfl
    · refine ⟨_, .many (b.symbols q), by rw [Elt.doms, eltsText_texts, hq], ?_, ?_, ?_⟩
      · rw [toLayout]
      · simp [wrapInRow, hsy, isMtext]
      · simp [wrapInRow, hsy]
    · refine ⟨_, .many (b.symbols q), by rw [Elt.doms, eltsText_texts, hq], ?_, ?_, ?_⟩
      · rw [toLayout]
      · simp [wrapInRow, hsy, isMtext]
      · simp [wrapInRow, hsy]
    · refine ⟨_, .many (b.symbols q), by rw [Elt.doms, eltsText_texts, hq], ?_, ?_, ?_⟩
      · rw [toLayout]
      · simp [wrapInRow, hsy, isMtext]
      · simp [wrapInRow, hsy]
    · refine ⟨_, _, by rw [Elt.doms, eltsText_texts, hq], by rw [toLayout], ?_, ?_⟩
      · simp only [wrapInRow, List.cons_append, List.flatMap_cons, List.flatMap_append,
          List.flatMap_nil, hsy]
        simp [isMtext, LayoutItem.nodes]
      · simp [isMtext]
  | missing =>
    have hsy : (b.symbols ['\u00A0', '\u00A0']) = [] := by
      rw [Browser.symbols, hb.blank, hb.empty, List.map_nil]
    refine ⟨_, .many (b.symbols ['\u00A0', '\u00A0']), by rw [Elt.doms], ?_, ?_, ?_⟩
    · rw [toLayout]
      simp only [eltsText, Elt.textContent, List.append_nil]
    · simp [wrapInRow, hsy, isMtext, Elt.signs, Elt.count, eltsCount]
    · simp [wrapInRow, hsy, Elt.signs]
  | @row cs hcs ih =>
    have key : ∀ cs : List Elt, (∀ c ∈ cs, ∃ d l, c.doms = [d] ∧ toLayout b d = .ok (l, []) ∧
        (wrapInRow l).length = c.signs.length + 2 * c.count isMtext ∧
        (c.count isMtext = 0 → wrapInRow l = c.signs.flatMap Sign.nodes)) →
        ∃ ls, toLayouts b (eltsDoms cs) = .ok (ls, []) ∧
          (ls.map wrapInRow).flatten.length = (eltsSigns cs).length + 2 * eltsCount isMtext cs ∧
          (eltsCount isMtext cs = 0 →
            (ls.map wrapInRow).flatten = (eltsSigns cs).flatMap Sign.nodes) := by
      intro cs h
      induction cs with
      | nil => exact ⟨[], by simp [eltsDoms, toLayouts], by simp [eltsSigns, eltParts, eltsCount],
          by simp [eltsSigns, eltParts]⟩
      | cons c cs ih =>
        obtain ⟨d, l, h1, h2, h3, h4⟩ := h c (.head _)
        obtain ⟨ls, h5, h6, h7⟩ := ih fun c hc => h c (.tail _ hc)
        refine ⟨l :: ls, ?_, ?_, ?_⟩
        · rw [eltsDoms, h1, List.singleton_append, toLayouts, h2, M.ok_bind, h5]; rfl
        · rw [eltsSigns_eq] at h6 ⊢
          simp only [List.map_cons, List.flatten_cons, List.length_append, h3, h6, eltsCount,
            List.flatMap_cons]
          omega
        · intro h0
          rw [eltsCount] at h0
          rw [eltsSigns_eq] at h7 ⊢
          rw [List.map_cons, List.flatten_cons, h4 (by omega), h7 (by omega), List.flatMap_cons,
            List.flatMap_append]
    have hsg : (Elt.elem .mrow false cs).signs = eltsSigns cs := by
      rw [Elt.signs, eltsSigns]
      all_goals nofun
    obtain ⟨ls, h1, h2, h3⟩ := key cs fun c hc => ih c hc fun ch h => hs ch (by
      rw [hsg, eltsSigns_eq, List.mem_flatMap]; exact ⟨c, hc, h⟩)
    refine ⟨_, .one (.row (wrapInRow (.many (ls.flatMap Layout.items)))), by rw [Elt.doms], ?_, ?_,
      ?_⟩
    · rw [toLayout, h1]; rfl
    · rw [hsg, wrapInRow, wrap_many, h2, Elt.count]
      simp [isMtext]
    · intro h0
      rw [hsg, wrapInRow, wrap_many, h3]
      rw [Elt.count] at h0
      omega

/-- What is read from a list of tokens. -/
theorem plains_read (hb : b.Plain P) {cs : List Elt} (h : ∀ c ∈ cs, c.Plain)
    (hs : ∀ ch, Sign.char ch ∈ eltsSigns cs → P ch) :
    ∃ ls, toLayouts b (eltsDoms cs) = .ok (ls, []) ∧
      (ls.map wrapInRow).flatten.length = (eltsSigns cs).length + 2 * eltsCount isMtext cs ∧
      (eltsCount isMtext cs = 0 →
        (ls.map wrapInRow).flatten = (eltsSigns cs).flatMap Sign.nodes) := by
  have hsg : (Elt.elem .mrow false cs).signs = eltsSigns cs := by
    rw [Elt.signs, eltsSigns]
    all_goals nofun
  obtain ⟨d, l, h1, h2, h3, h4⟩ := (Elt.Plain.row h).read hb (fun ch h => hs ch (hsg ▸ h))
  rw [Elt.doms] at h1
  cases h1
  rw [toLayout, M.bind_eq_ok] at h2
  obtain ⟨⟨ls, es⟩, h2, h⟩ := h2
  cases h
  rw [wrapInRow, wrap_many, hsg, Elt.count] at h3
  rw [wrapInRow, wrap_many, hsg, Elt.count] at h4
  simp only [isMtext, reduceCtorEq, ↓reduceIte, Nat.zero_add, beq_iff_eq] at h3 h4
  exact ⟨ls, h2, h3, h4⟩

/-! ## Nothing is thrown -/

/-- The tags for which reading an element without children throws. -/
def Tag.IsScript (t : Tag) : Prop := t = .msub ∨ t = .msup ∨ t = .msubsup

/-- Scripts have children that are elements, here and below. -/
inductive Elt.Sound : Elt → Prop
  | leaf {tag : Tag} {m : Bool} {ss : List Str} : ¬tag.IsScript →
      Sound (.elem tag m (ss.map .text))
  | node {tag : Tag} {m : Bool} {cs : List Elt} : (tag.IsScript → cs ≠ []) → (∀ c ∈ cs, Sound c) →
      Sound (.elem tag m cs)

theorem wrap_sound {es : List Elt} (h : ∀ e ∈ es, e.Sound) : (wrapInMRow es).Sound := by
  unfold wrapInMRow
  split
  · exact h _ (.head _)
  · exact .node (by simp [Tag.IsScript]) h

theorem tableElts_sound {w : Nat} : ∀ {n : Nat} {cells : List (List Elt)},
    (∀ es ∈ cells, ∀ e ∈ es, e.Sound) → ∀ r ∈ tableElts w n cells, r.Sound
  | 0, _, _, r, hr => by simp [tableElts] at hr
  | _ + 1, [], _, r, hr => by simp [tableElts] at hr
  | n + 1, c :: cs, h, r, hr => by
    rw [tableElts] at hr
    · cases hr with
      | head =>
        refine .node (by simp [Tag.IsScript]) fun e he => ?_
        obtain ⟨es, hes, rfl⟩ := List.mem_map.1 he
        refine .node (by simp [Tag.IsScript]) fun e he => ?_
        simp only [List.mem_singleton] at he
        exact he ▸ wrap_sound (h es (List.mem_of_mem_take hes))
      | tail _ hr => exact tableElts_sound (fun es hes => h es (List.mem_of_mem_drop hes)) r hr
    · nofun

theorem phantom_sound : phantom.Sound := .leaf (ss := []) (by simp [Tag.IsScript])

theorem between_sound {tag : Tag} {cs : List Elt} (ht : ¬tag.IsScript) (h : ∀ c ∈ cs, c.Sound) :
    ∀ c ∈ [phantom, .elem tag false cs, phantom], c.Sound := by
  simp only [List.mem_cons, List.not_mem_nil, or_false, forall_eq_or_imp, forall_eq]
  exact ⟨phantom_sound, .node (fun h => absurd h ht) h, phantom_sound⟩

theorem wraps_sound {es : List RElem} (h : ∀ e ∈ es, ∀ c ∈ e.elements, c.Sound) :
    ∀ c ∈ (elementsAll es).map wrapInMRow, c.Sound := by
  intro c hc
  rw [elementsAll_eq, List.map_map] at hc
  obtain ⟨e, he, rfl⟩ := List.mem_map.1 hc
  exact wrap_sound (h e he)

theorem render_sound (hf : Fits R g) : ∀ {t : SNode} {ri : Option RowIndex} {o : ROpts} {e : RElem},
    render R ri o t = .ok e → ∀ c ∈ e.elements, c.Sound
  | .leaf n lo hi ty ss, ri, o, e, h => by
    rw [render] at h
    split at h
    · cases h
      rw [RElem.elements, SNode.texts]
      simp only [List.mem_singleton, forall_eq]
      exact .leaf (by simp [Tag.IsScript])
    · cases h
      rw [RElem.elements, SNode.texts]
      simp only [List.mem_singleton, forall_eq]
      exact .leaf (by simp [Tag.IsScript])
    · cases h
      rw [RElem.elements, SNode.texts]
      simp only [List.mem_singleton, forall_eq]
      exact .leaf (by simp [Tag.IsScript])
    · rename_i tag hk
      cases h
      rw [RElem.elements, SNode.texts]
      simp only [List.mem_singleton, forall_eq]
      have := hf.texts hk
      exact .leaf (by rintro (rfl | rfl | rfl) <;> cases this)
    · cases h
  | .children n lo hi cs, ri, o, e, h => by
    cases hk : hashGet R n with
    | none => rw [render, hk] at h; cases h
    | some k =>
      cases hc : contOf ri o k with
      | some x =>
        obtain ⟨tag, o'⟩ := x
        obtain ⟨hx, hne, hcnt, es, hes, rfl⟩ := (render_children_ok hk hc).1 h
        have ih : ∀ e ∈ es, ∀ c ∈ e.elements, c.Sound := by
          intro e he
          obtain ⟨i, hi⟩ := List.getElem?_of_mem he
          obtain ⟨h1, rfl⟩ := List.getElem?_eq_some_iff.1 hi
          have h2 : i < cs.length := by rw [hes.length_eq]; exact h1
          have hm : cs[i] ∈ cs := List.getElem_mem _
          have hr : render R none o' cs[i] = .ok es[i] := (List.forall₂_iff_get.1 hes).2 i h2 h1
          exact render_sound hf hr
        rw [RElem.elements]
        simp only [List.mem_singleton, forall_eq]
        refine .node (fun _ h0 => hne ?_) (wraps_sound ih)
        rw [List.map_eq_nil_iff, elementsAll_eq, List.map_eq_nil_iff] at h0
        exact List.eq_nil_of_length_eq_zero (by rw [hes.length_eq, h0]; rfl)
      | none =>
        rw [render, hk] at h
        cases k <;> first
          | (cases hc; done)
          | cases h
          | skip
        all_goals
          simp only [massert_bind, List.isEmpty_iff, beq_iff_eq] at h
          obtain ⟨rfl, rfl, h⟩ := h
          cases h
          rw [RElem.elements]
          simp only [List.mem_singleton, forall_eq]
          exact .leaf (ss := [_]) (by simp [Tag.IsScript])
  | .newRows n lo hi ts w, ri, o, e, h => by
    cases hk : hashGet R n with
    | none => rw [render, hk] at h; cases h
    | some k =>
      cases hc : rowsOf o ri k with
      | none =>
        rw [render, hk] at h
        cases k <;> first
          | (cases hc; done)
          | cases h
          | (simp only [rowsOf, Option.map_eq_none_iff] at hc
             simp only [hc] at h
             cases h)
      | some x =>
        obtain ⟨ek, tag, ri'⟩ := x
        obtain ⟨-, -, -, -, es, hes, rfl⟩ := (render_newRows_ok hk hc).1 h
        obtain ⟨hel, hes⟩ := renderRows_ok.1 hes
        have ih : ∀ e ∈ es, ∀ c ∈ e.elements, c.Sound := by
          intro e he
          obtain ⟨i, hi⟩ := List.getElem?_of_mem he
          obtain ⟨h1, rfl⟩ := List.getElem?_eq_some_iff.1 hi
          have h2 : i < ts.length := by omega
          have hm : ts[i] ∈ ts := List.getElem_mem _
          exact render_sound hf (hes i _ _ (List.getElem?_eq_getElem h2)
            (List.getElem?_eq_getElem h1))
        cases k <;> simp only [rowsOf, Option.some.injEq, Prod.mk.injEq, reduceCtorEq,
            Option.map_eq_some_iff] at hc
        · obtain ⟨_, -, rfl, -⟩ := hc
          rw [RElem.elements]
          exact between_sound (by simp [Tag.IsScript]) (wraps_sound ih)
        · obtain ⟨rfl, -⟩ := hc
          rw [RElem.elements]
          exact between_sound (by simp [Tag.IsScript]) (wraps_sound ih)
        · obtain ⟨rfl, -⟩ := hc
          rw [RElem.elements]
          refine between_sound (by simp [Tag.IsScript]) fun c hc => wraps_sound ih c ?_
          rw [List.map_reverse, List.mem_reverse] at hc
          exact hc
        · obtain ⟨rfl, -⟩ := hc
          rw [RElem.elements]
          refine between_sound (by simp [Tag.IsScript]) (tableElts_sound fun c hc => ?_)
          rw [elementsAll_eq] at hc
          obtain ⟨e, he, rfl⟩ := List.mem_map.1 hc
          exact ih e he
  termination_by t => sizeOf t
  decreasing_by
    · have := List.sizeOf_lt_of_mem hm
      simp only [SNode.children.sizeOf_spec]
      omega
    · have := List.sizeOf_lt_of_mem hm
      simp only [SNode.newRows.sizeOf_spec]
      omega

/-- No script without children, here and below. -/
inductive Dom.Safe : Dom → Prop
  | mk {d : Dom} : ¬d.BareScript → (∀ c ∈ d.children, Safe c) → Safe d

theorem Elt.Sound.doms {c : Elt} (h : c.Sound) : ∃ d, c.doms = [d] ∧ d.Safe := by
  induction h with
  | @leaf tag m ss ht =>
    refine ⟨.elem tag _ _, by rw [Elt.doms], .mk (fun h => ht h.1) ?_⟩
    rw [eltsDoms_texts]
    nofun
  | @node tag m cs ht _ ih =>
    refine ⟨.elem tag _ _, by rw [Elt.doms], .mk (fun h => ?_) fun d hd => ?_⟩
    · obtain ⟨h1, h2⟩ := h
      have hne := ht h1
      match cs, hne with
      | c :: cs, _ =>
        obtain ⟨d, hd, -⟩ := ih c (.head _)
        rw [Dom.children, eltsDoms, hd] at h2
        cases h2
    · rw [Dom.children, eltsDoms_eq, List.mem_flatMap] at hd
      obtain ⟨c, hc, hd⟩ := hd
      obtain ⟨d', hd', hs⟩ := ih c hc
      rw [hd', List.mem_singleton] at hd
      exact hd ▸ hs

theorem Dom.Safe.child {d c : Dom} (h : d.Safe) (hc : c ∈ d.children) : c.Safe := by
  cases h with
  | mk _ h => exact h c hc

theorem Dom.Safe.reads {d d' : Dom} (h : d.Safe) (hr : d.Reads d') : d'.Safe := by
  induction hr with
  | refl => exact h
  | step hl _ ih =>
    refine ih ?_
    cases hl with
    | group _ hc => exact h.child hc
    | semantics _ hc => exact h.child (List.mem_of_getElem? hc)
    | fixed _ _ hc => exact h.child hc
    | base _ hc => exact h.child (List.mem_of_getElem? hc)
    | cell _ _ hr hc => exact (h.child hr).child hc

theorem Dom.Safe.bare {d : Dom} (h : d.Safe) : ¬d.BareScript := by
  cases h with
  | mk h _ => exact h

end Aftermath
