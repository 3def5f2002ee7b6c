import Verif.Proof.Render
import Verif.Proof.Dom
import Verif.Proof.Locality
import Verif.Spec.Locality

/-! # Rendering trees that differ below one row -/

namespace Aftermath

variable {R : Renderers}

/-! ## The row index does not matter for what is shown -/

/-- Options that differ at most in the row index that is passed on to a script. -/
def ROpts.Near (o o' : ROpts) : Prop :=
  o.stretchy = o'.stretchy ∧ o.override.isSome = o'.override.isSome

theorem ROpts.Near.refl (o : ROpts) : o.Near o := ⟨rfl, rfl⟩

theorem contOf_near {ri ri' : Option RowIndex} {o o' o1 : ROpts} {k : RKind} {tag : Tag}
    (h : o.Near o') (hc : contOf ri o k = some (tag, o1)) :
    ∃ o1', contOf ri' o' k = some (tag, o1') ∧ o1.Near o1' := by
  cases k <;> simp only [contOf, Option.some.injEq, Prod.mk.injEq, reduceCtorEq] at hc ⊢
  case whitespaces => obtain ⟨rfl, rfl⟩ := hc; exact ⟨o', ⟨rfl, rfl⟩, h⟩
  all_goals obtain ⟨rfl, rfl⟩ := hc; exact ⟨_, ⟨rfl, rfl⟩, rfl, rfl⟩

theorem rowsOf_near {ri ri' : Option RowIndex} {o o' : ROpts} {k : RKind} {ek : EKind} {tag : Tag}
    {c : Option RowIndex} (h : o.Near o') (hc : rowsOf o ri k = some (ek, tag, c)) :
    ∃ c', rowsOf o' ri' k = some (ek, tag, c') := by
  cases k <;> simp only [rowsOf, Option.some.injEq, Prod.mk.injEq, reduceCtorEq,
    Option.map_eq_some_iff] at hc ⊢
  case operator =>
    obtain ⟨c1, hc1, rfl, rfl, rfl⟩ := hc
    have := h.2
    rw [hc1] at this
    obtain ⟨c2, hc2⟩ := Option.isSome_iff_exists.1 this.symm
    exact ⟨c2, c2, hc2, rfl, rfl, rfl⟩
  all_goals obtain ⟨rfl, rfl, rfl⟩ := hc; exact ⟨_, rfl, rfl, rfl⟩

/-- A node with children that is rendered is a container of the renderer or has no children. -/
theorem children_kind {ri : Option RowIndex} {o : ROpts} {n lo hi : Nat} {cs : List SNode}
    {e : RElem} (h : render R ri o (.children n lo hi cs) = .ok e) :
    (∃ k tag o', hashGet R n = some k ∧ contOf ri o k = some (tag, o')) ∨
    (cs = [] ∧ lo = hi ∧ ∃ k, (k = .nothing ∨ k = .missing) ∧
      ∀ ri' o', render R ri' o' (.children n lo hi cs) =
        .ok (.mk k (.children n lo hi cs) ri' [])) := by
  cases hk : hashGet R n with
  | none => rw [render, hk] at h; cases h
  | some k =>
    cases k with
    | whitespaces => exact .inl ⟨_, _, _, rfl, rfl⟩
    | operator => exact .inl ⟨_, _, _, rfl, rfl⟩
    | container => exact .inl ⟨_, _, _, rfl, rfl⟩
    | brackets => exact .inl ⟨_, _, _, rfl, rfl⟩
    | sup => exact .inl ⟨_, _, _, rfl, rfl⟩
    | sub => exact .inl ⟨_, _, _, rfl, rfl⟩
    | nothing =>
      rw [render, hk] at h
      simp only [massert_bind] at h
      obtain ⟨h1, h2, -⟩ := h
      obtain rfl := List.isEmpty_iff.1 h1
      obtain rfl := beq_iff_eq.1 h2
      refine .inr ⟨rfl, rfl, .nothing, .inl rfl, fun ri' o' => ?_⟩
      rw [render, hk]
      simp [massert]
    | missingToken =>
      rw [render, hk] at h
      simp only [massert_bind] at h
      obtain ⟨h1, h2, -⟩ := h
      obtain rfl := List.isEmpty_iff.1 h1
      obtain rfl := beq_iff_eq.1 h2
      refine .inr ⟨rfl, rfl, .missing, .inr rfl, fun ri' o' => ?_⟩
      rw [render, hk]
      simp [massert]
    | _ => rw [render, hk] at h; cases h

theorem newRows_kind {ri : Option RowIndex} {o : ROpts} {n lo hi w : Nat} {ts : List SNode}
    {e : RElem} (h : render R ri o (.newRows n lo hi ts w) = .ok e) :
    ∃ k ek tag c, hashGet R n = some k ∧ rowsOf o ri k = some (ek, tag, c) := by
  cases hk : hashGet R n with
  | none => rw [render, hk] at h; cases h
  | some k =>
    cases k with
    | operator =>
      cases ho : o.override with
      | none => rw [render, hk] at h; simp only [ho] at h; cases h
      | some c => exact ⟨_, _, _, _, rfl, by rw [rowsOf, ho]; rfl⟩
    | fraction => exact ⟨_, _, _, _, rfl, rfl⟩
    | root => exact ⟨_, _, _, _, rfl, rfl⟩
    | table => exact ⟨_, _, _, _, rfl, rfl⟩
    | _ => rw [render, hk] at h; cases h

/-- The element with another row index. -/
theorem render_near : ∀ {t : SNode} {ri ri' : Option RowIndex} {o o' : ROpts} {e : RElem},
    o.Near o' → render R ri o t = .ok e →
    ∃ e', render R ri' o' t = .ok e' ∧ e'.elements = e.elements
  | .leaf n lo hi ty ss, ri, ri', o, o', e, ho, h => by
    rw [render] at h ⊢
    cases hk : hashGet R n with
    | none => rw [hk] at h; cases h
    | some k =>
      rw [hk] at h
      cases k <;> first
        | (cases h; exact ⟨_, rfl, by simp only [RElem.elements]⟩)
        | (simp only at h; cases h)
  | .newRows n lo hi ts w, ri, ri', o, o', e, ho, h => by
    obtain ⟨k, ek, tag, c, hk, hr⟩ := newRows_kind h
    obtain ⟨c', hr'⟩ := rowsOf_near (ri' := ri') ho hr
    obtain ⟨h1, h2, h3, h4, es, hes, rfl⟩ := (render_newRows_ok hk hr).1 h
    refine ⟨_, (render_newRows_ok hk hr').2 ⟨h1, h2, h3, h4, es, hes, rfl⟩, ?_⟩
    cases ek <;> simp only [RElem.elements]
  | .children n lo hi cs, ri, ri', o, o', e, ho, h => by
    obtain ⟨k, tag, o1, hk, hr⟩ | ⟨rfl, rfl, k, hk, hall⟩ := children_kind h
    · obtain ⟨o1', hr', hn⟩ := contOf_near (ri' := ri') ho hr
      obtain ⟨h1, h2, h3, es, hes, rfl⟩ := (render_children_ok hk hr).1 h
      have key : ∀ {cs' : List SNode} {es : List RElem}, (∀ c ∈ cs', c ∈ cs) →
          List.Forall₂ (fun c e => render R none o1 c = .ok e) cs' es →
          ∃ es', List.Forall₂ (fun c e => render R none o1' c = .ok e) cs' es' ∧
            elementsAll es' = elementsAll es := by
        intro cs' es hsub hes
        induction hes with
        | nil => exact ⟨[], .nil, rfl⟩
        | @cons c e cs'' es hce hes ih =>
          obtain ⟨es', h5, h6⟩ := ih fun c hc => hsub c (List.mem_cons_of_mem _ hc)
          have hmem : c ∈ cs := hsub c List.mem_cons_self
          obtain ⟨e', h7, h8⟩ := render_near (t := c) (ri' := none) hn hce
          exact ⟨e' :: es', .cons h7 h5, by simp only [elementsAll, h8, h6]⟩
      obtain ⟨es', h5, h6⟩ := key (fun c hc => hc) hes
      exact ⟨_, (render_children_ok hk hr').2 ⟨h1, h2, h3, es', h5, rfl⟩,
        by simp only [RElem.elements, h6]⟩
    · rw [hall ri o] at h
      cases h
      refine ⟨_, hall ri' o', ?_⟩
      rcases hk with rfl | rfl <;> simp only [RElem.elements]

/-! ## Replacing a row -/

theorem forall₂_middle {α β : Type} {P : α → β → Prop} {a b : List α} {x : α} {l : List β}
    (h : List.Forall₂ P (a ++ x :: b) l) :
    ∃ a' b' y, l = a' ++ y :: b' ∧ List.Forall₂ P a a' ∧ P x y ∧ List.Forall₂ P b b' := by
  induction a generalizing l with
  | nil =>
    cases h with
    | cons h1 h2 => exact ⟨[], _, _, rfl, .nil, h1, h2⟩
  | cons z a ih =>
    cases h with
    | cons h1 h2 =>
      obtain ⟨a', b', y, rfl, h3, h4, h5⟩ := ih h2
      exact ⟨_ :: a', b', y, rfl, .cons h1 h3, h4, h5⟩

theorem forall₂_put {α β : Type} {P : α → β → Prop} {a b : List α} {x : α} {a' b' : List β} {y : β}
    (h1 : List.Forall₂ P a a') (h2 : P x y) (h3 : List.Forall₂ P b b') :
    List.Forall₂ P (a ++ x :: b) (a' ++ y :: b') := by
  induction h1 with
  | nil => exact .cons h2 h3
  | cons h _ ih => exact .cons h ih

theorem TreeReplaced.opens {i j : Nat} {path : RowIndices} {s s' t t' : SNode}
    (h : TreeReplaced ((i, j) :: path) s s' t t') : t.OpensRows ↔ t'.OpensRows := by
  cases h <;> simp only [SNode.OpensRows]

theorem contExtra_put {a b : List SNode} {c c' : SNode} {k : RKind}
    (h : c.OpensRows ↔ c'.OpensRows) (hc : contExtra (a ++ c :: b) k) :
    contExtra (a ++ c' :: b) k := by
  have key : BareScript (a ++ c :: b) → BareScript (a ++ c' :: b) := by
    match a, b with
    | [], [] => exact fun h => h
    | [], _ :: _ => exact fun h => h
    | [_], _ => simp only [List.cons_append, List.nil_append, BareScript]; exact h.1
    | _ :: _ :: _, _ => exact fun h => h
  cases k <;> first | exact key hc | exact trivial

/-- A list of nodes with one of them replaced. -/
def EltsReplaced (y y' : Elt) (l l' : List Elt) : Prop :=
  ∃ a b d d', l = a ++ d :: b ∧ l' = a ++ d' :: b ∧ EltReplaced y y' d d'

theorem EltsReplaced.elem {y y' : Elt} {l l' : List Elt} (h : EltsReplaced y y' l l') (tag : Tag)
    (m : Bool) : EltReplaced y y' (.elem tag m l) (.elem tag m l') := by
  obtain ⟨a, b, d, d', rfl, rfl, h⟩ := h
  exact .child tag m a b h

theorem EltsReplaced.append {y y' : Elt} {l l' : List Elt} (h : EltsReplaced y y' l l')
    (p q : List Elt) : EltsReplaced y y' (p ++ l ++ q) (p ++ l' ++ q) := by
  obtain ⟨a, b, d, d', rfl, rfl, h⟩ := h
  exact ⟨p ++ a, b ++ q, d, d', by simp, by simp, h⟩

theorem eltsReplaced_wrap {y y' : Elt} {A B : List (List Elt)} {c c' : List Elt}
    (h : EltReplaced y y' (wrapInMRow c) (wrapInMRow c')) :
    EltsReplaced y y' ((A ++ c :: B).map wrapInMRow) ((A ++ c' :: B).map wrapInMRow) :=
  ⟨A.map wrapInMRow, B.map wrapInMRow, _, _, by simp, by simp, h⟩

theorem tableElts_cons {w n : Nat} {cells : List (List Elt)} (h : cells ≠ []) :
    tableElts w (n + 1) cells =
      .elem .mtr false ((cells.take w).map fun c => .elem .mtd false [wrapInMRow c]) ::
        tableElts w n (cells.drop w) := by
  cases cells with
  | nil => exact absurd rfl h
  | cons _ _ => rfl

theorem eltsReplaced_table {y y' : Elt} {w : Nat} (hw : 0 < w) {c c' : List Elt}
    (h : EltReplaced y y' (wrapInMRow c) (wrapInMRow c')) : ∀ {n : Nat} {A B : List (List Elt)},
    (A ++ c :: B).length ≤ n →
    EltsReplaced y y' (tableElts w n (A ++ c :: B)) (tableElts w n (A ++ c' :: B))
  | 0, A, B, hn => by simp at hn
  | n + 1, A, B, hn => by
    rw [tableElts_cons (by simp), tableElts_cons (by simp)]
    by_cases hA : A.length < w
    · have h1 : ∀ z : List Elt, (A ++ z :: B).take w = A ++ z :: B.take (w - A.length - 1) := by
        intro z
        rw [List.take_append, List.take_of_length_le (by omega)]
        obtain ⟨k, hk⟩ : ∃ k, w - A.length = k + 1 := ⟨w - A.length - 1, by omega⟩
        rw [hk, List.take_succ_cons, Nat.add_sub_cancel]
      have h2 : ∀ z : List Elt, (A ++ z :: B).drop w = B.drop (w - A.length - 1) := by
        intro z
        rw [List.drop_append, List.drop_of_length_le (by omega)]
        obtain ⟨k, hk⟩ : ∃ k, w - A.length = k + 1 := ⟨w - A.length - 1, by omega⟩
        rw [hk, List.drop_succ_cons, Nat.add_sub_cancel, List.nil_append]
      rw [h1, h1, h2, h2]
      refine ⟨[], _, _, _, rfl, rfl, ?_⟩
      simp only [List.map_append, List.map_cons]
      exact .child _ _ _ _ (.child _ _ [] [] h)
    · have h1 : ∀ z : List Elt, (A ++ z :: B).take w = A.take w := by
        intro z
        rw [List.take_append_of_le_length (by omega)]
      have h2 : ∀ z : List Elt, (A ++ z :: B).drop w = A.drop w ++ z :: B := by
        intro z
        rw [List.drop_append_of_le_length (by omega)]
      rw [h1, h1, h2, h2]
      have := eltsReplaced_table hw h (n := n) (A := A.drop w) (B := B) (by
        simp only [List.length_append, List.length_cons, List.length_drop] at hn ⊢
        omega)
      have := this.append [.elem .mtr false ((A.take w).map fun c => .elem .mtd false [wrapInMRow c])] []
      simpa using this

/-- What happens to the elements when the tree of a row is replaced. -/
structure Swapped (R : Renderers) (ri : Option RowIndex) (o : ROpts) (p : RowIndices) (s' t' : SNode)
    (ri1 : Option RowIndex) (o1 : ROpts) (x e : RElem) : Prop where
  at_row : p ≠ [] → ri1 = p.getLast? ∧ o1 = .none
  at_root : p = [] → ri1 = ri ∧ o1 = o
  shown : ∀ x', render R ri1 o1 s' = .ok x' → ∃ e', render R ri o t' = .ok e' ∧
    ElemReplaced p x x' e e' ∧
    EltReplaced (wrapInMRow x.elements) (wrapInMRow x'.elements) (wrapInMRow e.elements)
      (wrapInMRow e'.elements)
  only : ∀ e', render R ri o t' = .ok e' → ∃ x', render R ri1 o1 s' = .ok x'

theorem render_swapped {p : RowIndices} {s s' t t' : SNode} (h : TreeReplaced p s s' t t') :
    ∀ {ri : Option RowIndex} {o : ROpts} {e : RElem}, render R ri o t = .ok e →
      ∃ ri1 o1 x, render R ri1 o1 s = .ok x ∧ Swapped R ri o p s' t' ri1 o1 x e := by
  induction h with
  | here s s' =>
    intro ri o e he
    exact ⟨ri, o, e, he, fun h => absurd rfl h, fun _ => ⟨rfl, rfl⟩,
      fun x' hx' => ⟨x', hx', .here _ _, .here⟩, fun e' he' => ⟨e', he'⟩⟩
  | @cell i j path s s' c c' name w a b hj h ih =>
    intro ri o e he
    obtain ⟨k, ek, tag, cap, hk, hr⟩ := newRows_kind he
    obtain ⟨h1, h2, h3, h4, es, hes, rfl⟩ := (render_newRows_ok hk hr).1 he
    obtain ⟨hlen, hget⟩ := renderRows_ok.1 hes
    subst hj
    have hlt : a.length < es.length := by rw [hlen]; simp
    obtain ⟨ec, hec⟩ : ∃ ec, es[a.length]? = some ec := ⟨_, List.getElem?_eq_getElem hlt⟩
    have hsplit : es = es.take a.length ++ ec :: es.drop (a.length + 1) := by
      have := (List.getElem?_eq_some_iff.1 hec).2
      rw [← this, List.getElem_cons_drop, List.take_append_drop]
    have hA : (es.take a.length).length = a.length := by rw [List.length_take]; omega
    have hrc := hget a.length c ec (by simp) hec
    rw [Nat.zero_add] at hrc
    obtain ⟨ri1, o1, x, hx, hsw⟩ := ih hrc
    have hlen' : (a ++ c' :: b).length = (a ++ c :: b).length := by simp
    have hrows : ∀ z : RElem, render R (some (i, a.length)) .none c' = .ok z →
        renderRows R i 0 (a ++ c' :: b) =
          .ok (es.take a.length ++ z :: es.drop (a.length + 1)) := by
      intro z hz
      refine renderRows_ok.2 ⟨?_, fun m cm em hcm hem => ?_⟩
      · rw [hlen', ← hlen]
        conv => rhs; rw [hsplit]
        simp
      · rcases Nat.lt_trichotomy m a.length with hm | hm | hm
        · rw [List.getElem?_append_left (by omega)] at hcm hem
          rw [List.getElem?_take_of_lt hm] at hem
          exact hget m cm em (by rw [List.getElem?_append_left (by omega)]; exact hcm) hem
        · subst hm
          rw [List.getElem?_append_right (by omega)] at hcm hem
          rw [Nat.sub_self] at hcm
          rw [hA, Nat.sub_self] at hem
          cases hcm
          cases hem
          rw [Nat.zero_add]
          exact hz
        · obtain ⟨q, hq⟩ : ∃ q, m - a.length = q + 1 := ⟨m - a.length - 1, by omega⟩
          rw [List.getElem?_append_right (by omega)] at hcm hem
          rw [hq, List.getElem?_cons_succ] at hcm
          rw [hA, hq, List.getElem?_cons_succ, List.getElem?_drop] at hem
          refine hget m cm em ?_ ?_
          · rw [List.getElem?_append_right (by omega), hq, List.getElem?_cons_succ]
            exact hcm
          · rw [← hem]
            congr 1
            omega
    have hwidth : ek = .table → 0 < w := by
      rintro rfl
      have : k = .table := by
        cases k <;> simp [rowsOf] at hr
        rfl
      exact (h4 this).1
    refine ⟨ri1, o1, x, hx, fun _ => ?_, nofun, fun x' hx' => ?_, fun e' he' => ?_⟩
    · cases path with
      | nil =>
        obtain ⟨rfl, rfl⟩ := hsw.at_root rfl
        exact ⟨rfl, rfl⟩
      | cons q path =>
        obtain ⟨rfl, rfl⟩ := hsw.at_row nofun
        exact ⟨by rw [List.getLast?_cons_cons], rfl⟩
    · obtain ⟨ec', hec', hel, hdom⟩ := hsw.shown x' hx'
      refine ⟨_, (render_newRows_ok hk hr).2 ⟨by simp, rfl, by rw [hlen']; exact h3,
        fun hkt => by rw [hlen']; exact h4 hkt, _, hrows ec' hec', rfl⟩, ?_, ?_⟩
      · have := ElemReplaced.cell (i := i) ek name w (a ++ c :: b) (a ++ c' :: b) cap
          (es.take a.length) (es.drop (a.length + 1)) hA hel
        rwa [← hsplit] at this
      · have hall : elementsAll es = elementsAll (es.take a.length) ++ ec.elements ::
            elementsAll (es.drop (a.length + 1)) := by
          conv => lhs; rw [hsplit]
          simp only [elementsAll_eq, List.map_append, List.map_cons]
        have hall' : elementsAll (es.take a.length ++ ec' :: es.drop (a.length + 1)) =
            elementsAll (es.take a.length) ++ ec'.elements ::
            elementsAll (es.drop (a.length + 1)) := by
          simp only [elementsAll_eq, List.map_append, List.map_cons]
        have hl' : (es.take a.length ++ ec' :: es.drop (a.length + 1)).length = es.length := by
          conv => rhs; rw [hsplit]
          simp
        have three : ∀ {d d' : Elt}, EltReplaced (wrapInMRow x.elements) (wrapInMRow x'.elements) d d' →
            EltReplaced (wrapInMRow x.elements) (wrapInMRow x'.elements)
              (wrapInMRow [phantom, d, phantom]) (wrapInMRow [phantom, d', phantom]) :=
          fun h => .child .mrow false [phantom] [phantom] h
        have hcase : (∃ tg, ek = .rows tg) ∨ (∃ tg, ek = .root tg) ∨ ek = .table := by
          cases k <;> simp only [rowsOf, Option.some.injEq, Prod.mk.injEq, reduceCtorEq,
            Option.map_eq_some_iff] at hr
          case table => exact .inr (.inr hr.1.symm)
          case root => exact .inr (.inl ⟨_, hr.1.symm⟩)
          case fraction => exact .inl ⟨_, hr.1.symm⟩
          case operator => obtain ⟨_, _, h, _⟩ := hr; exact .inl ⟨_, h.symm⟩
        rcases hcase with ⟨tg, rfl⟩ | ⟨tg, rfl⟩ | rfl
        · simp only [RElem.elements, hall, hall']
          exact three ((eltsReplaced_wrap hdom).elem _ _)
        · simp only [RElem.elements, hall, hall', List.reverse_append, List.reverse_cons,
            List.append_assoc, List.singleton_append]
          exact three ((eltsReplaced_wrap hdom).elem _ _)
        · simp only [RElem.elements, hall, hall', SNode.width, hl']
          refine three (EltsReplaced.elem (eltsReplaced_table (hwidth rfl) hdom ?_) _ _)
          rw [← hall, elementsAll_eq, List.length_map]
          exact Nat.le_refl _
    · obtain ⟨-, -, -, -, es', hes', -⟩ := (render_newRows_ok hk hr).1 he'
      obtain ⟨hlen2, hget2⟩ := renderRows_ok.1 hes'
      have : a.length < es'.length := by rw [hlen2]; simp
      have hz := hget2 a.length c' es'[a.length] (by simp) (List.getElem?_eq_getElem this)
      rw [Nat.zero_add] at hz
      exact hsw.only _ hz
  | @child i j path s s' c c' name lo hi a b h ih =>
    intro ri o e he
    obtain ⟨k, tag, o', hk, hr⟩ | ⟨h0, -⟩ := children_kind he
    · obtain ⟨h1, h2, h3, es, hes, rfl⟩ := (render_children_ok hk hr).1 he
      obtain ⟨ea, eb, ec, rfl, h5, h6, h7⟩ := forall₂_middle hes
      obtain ⟨ri1, o1, x, hx, hsw⟩ := ih h6
      refine ⟨ri1, o1, x, hx, hsw.at_row, nofun, fun x' hx' => ?_, fun e' he' => ?_⟩
      · obtain ⟨ec', hec', hel, hdom⟩ := hsw.shown x' hx'
        refine ⟨_, (render_children_ok hk hr).2 ⟨contExtra_put h.opens h1, by simp,
          by simpa using h3, _, forall₂_put h5 hec' h7, rfl⟩, ?_, ?_⟩
        · exact .child _ _ _ _ _ _ _ _ _ hel
        · simp only [RElem.elements, elementsAll_eq, List.map_append, List.map_cons, wrapInMRow]
          exact .child _ _ _ _ hdom
      · obtain ⟨-, -, -, es', hes', -⟩ := (render_children_ok hk hr).1 he'
        obtain ⟨ea', eb', ec', -, -, h6', -⟩ := forall₂_middle hes'
        exact hsw.only _ h6'
    · exact absurd h0 (by simp)

/-! ## Rows with other cells -/

theorem SameRow.symm {row row' : Row} (h : SameRow row row') : SameRow row' row := Eq.symm h

theorem sameRow_bare (row : Row) : SameRow (row.map Node.bare) row := by
  unfold SameRow
  rw [List.map_map]
  refine List.map_congr_left fun n _ => ?_
  cases n <;> simp [Node.bare]

theorem bareAll_length : ∀ {cs cs' : List SNode}, bareAll cs = bareAll cs' → cs.length = cs'.length
  | [], [], _ => rfl
  | [], _ :: _, h => by simp only [bareAll] at h; cases h
  | _ :: _, [], h => by simp only [bareAll] at h; cases h
  | _ :: _, _ :: _, h => by
    simp only [bareAll, List.cons.injEq] at h
    simp only [List.length_cons, bareAll_length h.2]

theorem Like.opens {t t' : SNode} (h : Like t t') : t.OpensRows → t'.OpensRows := by
  unfold Like at h
  cases t <;> cases t' <;> simp only [SNode.bare, reduceCtorEq] at h <;>
    simp only [SNode.OpensRows, imp_self]

theorem contExtra_like {cs cs' : List SNode} {k : RKind} (h : bareAll cs = bareAll cs')
    (hc : contExtra cs k) : contExtra cs' k := by
  have key : BareScript cs → BareScript cs' := by
    match cs, cs', h with
    | [], [], _ => exact fun h => h
    | [_], [_], _ => exact fun h => h
    | [], _ :: _, h => simp only [bareAll] at h; cases h
    | _ :: _, [], h => simp only [bareAll] at h; cases h
    | [_], _ :: _ :: _, h => simp [bareAll] at h
    | _ :: _ :: _, [_], h => simp [bareAll] at h
    | _ :: c :: _, _ :: c' :: _, h =>
      simp only [bareAll, List.cons.injEq] at h
      simp only [BareScript]
      exact Like.opens h.2.1
  cases k <;> first | exact key hc | exact trivial

theorem FillsCells.length {Q : Row → SNode → Prop} : ∀ {cells : List Row} {ts : List SNode},
    FillsCells Q cells ts → ts.length = cells.length
  | [], [], _ => rfl
  | [], _ :: _, h => by simp only [FillsCells] at h
  | _ :: _, [], h => by simp only [FillsCells] at h
  | _ :: _, _ :: _, h => by
    simp only [FillsCells] at h
    simp only [List.length_cons, FillsCells.length h.2.2.2.2]

theorem FillsCells.mem {Q : Row → SNode → Prop} {t : SNode} : ∀ {cells : List Row}
    {ts : List SNode}, FillsCells Q cells ts → t ∈ ts → ∃ c ∈ cells, Q c t
  | [], [], _, h => by cases h
  | [], _ :: _, h, _ => by simp only [FillsCells] at h
  | _ :: _, [], h, _ => by simp only [FillsCells] at h
  | r :: rs, t1 :: ts, h, hm => by
    simp only [FillsCells] at h
    rcases List.mem_cons.1 hm with rfl | hm
    · exact ⟨r, List.mem_cons_self, h.2.2.1⟩
    · obtain ⟨c, hc, hq⟩ := FillsCells.mem h.2.2.2.2 hm
      exact ⟨c, List.mem_cons_of_mem _ hc, hq⟩

/-- Every cell of the row can be rendered by itself. -/
def CellsRender (R : Renderers) (g : Grammar) (row : Row) : Prop :=
  ∀ (i : Nat) v cells w, row[i]? = some (.container v cells w) → ∀ c ∈ cells, ∀ u,
    ParsesTo g c u → ∀ ri, Renders R ri .none u

mutual
theorem like_renders {g : Grammar} {row row' : Row} (hs : SameRow row row')
    (hc : CellsRender R g row') : ∀ {t t' : SNode}, Like t t' → Fills (ParsesTo g) row t →
      Fills (ParsesTo g) row' t' → ∀ {ri : Option RowIndex} {o : ROpts}, Renders R ri o t →
      Renders R ri o t'
  | .leaf n lo hi ty ss, .leaf n' lo' hi' ty' ss', h, _, _, ri, o, hr => by
    simp only [Like, SNode.bare] at h
    rw [← h]
    exact hr
  | .leaf _ _ _ _ _, .newRows _ _ _ _ _, h, _, _, _, _, _ => by
    simp only [Like, SNode.bare] at h; cases h
  | .leaf _ _ _ _ _, .children _ _ _ _, h, _, _, _, _, _ => by
    simp only [Like, SNode.bare] at h; cases h
  | .newRows _ _ _ _ _, .leaf _ _ _ _ _, h, _, _, _, _, _ => by
    simp only [Like, SNode.bare] at h; cases h
  | .newRows _ _ _ _ _, .children _ _ _ _, h, _, _, _, _, _ => by
    simp only [Like, SNode.bare] at h; cases h
  | .children _ _ _ _, .newRows _ _ _ _ _, h, _, _, _, _, _ => by
    simp only [Like, SNode.bare] at h; cases h
  | .children _ _ _ _, .leaf _ _ _ _ _, h, _, _, _, _, _ => by
    simp only [Like, SNode.bare] at h; cases h
  | .newRows n lo hi ts w, .newRows n' lo' hi' ts' w', h, hf, hf', ri, o, hr => by
    simp only [Like, SNode.bare, SNode.newRows.injEq] at h
    obtain ⟨rfl, rfl, rfl, -, rfl⟩ := h
    simp only [Fills] at hf hf'
    obtain ⟨rfl, v, cells, h1, h2⟩ := hf
    obtain ⟨-, v', cells', h1', h2'⟩ := hf'
    have hlen : ts'.length = ts.length := by
      have := hs.get lo
      rw [h1, h1'] at this
      simp only [Option.map_some, Node.bare, Option.some.injEq, Node.container.injEq] at this
      have := congrArg List.length this.2.1
      simp only [List.length_map] at this
      rw [h2.length, h2'.length, this]
    obtain ⟨e, he⟩ := hr
    obtain ⟨k, ek, tag, cap, hk, hro⟩ := newRows_kind he
    obtain ⟨h3, -, h4, h5, -⟩ := (renders_newRows hk hro).1 ⟨e, he⟩
    refine (renders_newRows hk hro).2 ⟨fun h0 => h3 ?_, rfl, by rw [hlen]; exact h4,
      fun hkt => by rw [hlen]; exact h5 hkt, fun j u hu => ?_⟩
    · rw [h0] at hlen
      exact List.length_eq_zero_iff.1 hlen.symm
    · obtain ⟨c, hcm, hq⟩ := h2'.mem (List.mem_of_getElem? hu)
      exact hc lo v' cells' _ h1' c hcm u hq _
  | .children n lo hi cs, .children n' lo' hi' cs', h, hf, hf', ri, o, hr => by
    simp only [Like, SNode.bare, SNode.children.injEq] at h
    obtain ⟨rfl, rfl, rfl, h⟩ := h
    simp only [Fills] at hf hf'
    have hlen := bareAll_length h
    obtain ⟨e, he⟩ := hr
    obtain ⟨k, tag, o', hk, hro⟩ | ⟨rfl, -⟩ := children_kind he
    · obtain ⟨h1, h2, h3, h4⟩ := (renders_children hk hro).1 ⟨e, he⟩
      refine (renders_children hk hro).2 ⟨contExtra_like h h1, fun h0 => h2 ?_,
        by rw [← hlen]; exact h3, likes_render hs hc h hf hf' h4⟩
      rw [h0] at hlen
      exact List.length_eq_zero_iff.1 hlen
    · obtain rfl := List.length_eq_zero_iff.1 hlen.symm
      exact ⟨e, he⟩
theorem likes_render {g : Grammar} {row row' : Row} (hs : SameRow row row')
    (hc : CellsRender R g row') : ∀ {cs cs' : List SNode} {lo hi : Nat}, bareAll cs = bareAll cs' →
      FillsList (ParsesTo g) row lo hi cs → FillsList (ParsesTo g) row' lo hi cs' →
      ∀ {o : ROpts}, (∀ c ∈ cs, Renders R none o c) → ∀ c ∈ cs', Renders R none o c
  | [], [], _, _, _, _, _, _, _ => nofun
  | [], _ :: _, _, _, h, _, _, _, _ => by simp only [bareAll] at h; cases h
  | _ :: _, [], _, _, h, _, _, _, _ => by simp only [bareAll] at h; cases h
  | t :: ts, t' :: ts', lo, hi, h, hf, hf', o, hr => by
    simp only [bareAll, List.cons.injEq] at h
    simp only [FillsList] at hf hf'
    have hl : Like t t' := h.1
    have hf2' := hf'.2.2
    rw [← hl.hi] at hf2'
    simp only [List.mem_cons, forall_eq_or_imp] at hr ⊢
    exact ⟨like_renders hs hc hl hf.2.1 hf'.2.1 hr.1, likes_render hs hc h.2 hf.2.2 hf2' hr.2⟩
end

end Aftermath
