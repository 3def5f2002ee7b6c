import Verif.Proof.BracketsNames
import Verif.Proof.BracketsSwap
import Verif.Proof.LocalityRender
import Verif.Proof.RenderMade

/-! # What is shown for trees that differ in one pair of brackets -/

namespace Aftermath

variable {R : Renderers}

/-! ## Spaces next to scripts -/

theorem opens_shift (k : Nat) (t : SNode) : (t.shift k).OpensRows ↔ t.OpensRows := by
  cases t <;> simp only [SNode.shift, SNode.OpensRows]

theorem bareScript_shift (k : Nat) : ∀ cs : List SNode,
    BareScript (SNode.shiftAll k cs) ↔ BareScript cs
  | [] => by simp only [SNode.shiftAll]
  | [_] => by simp only [SNode.shiftAll, BareScript]
  | _ :: c :: _ => by simp only [SNode.shiftAll, BareScript, opens_shift]

mutual
theorem spaced_shift (b : BuiltIn) (k : Nat) : ∀ t : SNode,
    SpacedScript b (t.shift k) ↔ SpacedScript b t
  | .leaf _ _ _ _ _ => by simp only [SNode.shift, SpacedScript]
  | .newRows _ _ _ _ _ => by simp only [SNode.shift, SpacedScript]
  | .children _ _ _ cs => by
    simp only [SNode.shift, SpacedScript, bareScript_shift, spacedIn_shift b k cs]
theorem spacedIn_shift (b : BuiltIn) (k : Nat) : ∀ ts : List SNode,
    SpacedScriptIn b (SNode.shiftAll k ts) ↔ SpacedScriptIn b ts
  | [] => by simp only [SNode.shiftAll, SpacedScriptIn]
  | t :: ts => by
    simp only [SNode.shiftAll, SpacedScriptIn, spaced_shift b k t, spacedIn_shift b k ts]
end

theorem spacedIn_append (b : BuiltIn) : ∀ l l' : List SNode,
    SpacedScriptIn b (l ++ l') ↔ SpacedScriptIn b l ∨ SpacedScriptIn b l'
  | [], l' => by simp only [List.nil_append, SpacedScriptIn, false_or]
  | t :: l, l' => by simp only [List.cons_append, SpacedScriptIn, spacedIn_append b l l', or_assoc]

theorem bareScript_put {a : List SNode} {c c' : SNode} (k k' : Nat) (b : List SNode)
    (h : c.OpensRows ↔ c'.OpensRows) :
    BareScript (a ++ c :: SNode.shiftAll k b) ↔ BareScript (a ++ c' :: SNode.shiftAll k' b) := by
  match a, b with
  | [], [] => simp only [List.nil_append, SNode.shiftAll, BareScript]
  | [], _ :: _ => simp only [List.nil_append, SNode.shiftAll, BareScript, opens_shift]
  | [_], _ => simpa only [List.cons_append, List.nil_append, BareScript]
  | _ :: _ :: _, _ => simp only [List.cons_append, BareScript]

variable {k₁ k₂ : Nat} {u₁ u₂ t₁ t₂ : SNode}

theorem SNode.Swapped.opens (h : SNode.Swapped k₁ k₂ u₁ u₂ t₁ t₂) :
    t₁.OpensRows ↔ t₂.OpensRows := by
  cases h <;> simp only [SNode.OpensRows, bracketsAround]

/-- Spaces next to a script are either in the brackets or somewhere else. -/
theorem SNode.Swapped.spaced {g : Grammar} (hf : Fits R g) (h : SNode.Swapped k₁ k₂ u₁ u₂ t₁ t₂)
    {ri : Option RowIndex} {o : ROpts} {e : RElem} (he : render R ri o t₁ = .ok e)
    (h₁ : ¬ SpacedScript g.builtIn t₁) :
    SpacedScript g.builtIn t₂ ↔ SpacedScript g.builtIn u₂ := by
  induction h generalizing ri o e with
  | here n =>
    have hn : ¬ (n = g.builtIn.sub ∨ n = g.builtIn.sup) := by
      rintro (rfl | rfl)
      · obtain ⟨-, -, h2, -⟩ := (render_children_ok hf.sub rfl).1 he
        cases h2
      · obtain ⟨-, -, h2, -⟩ := (render_children_ok hf.sup rfl).1 he
        cases h2
    simp only [bracketsAround, SpacedScript, SpacedScriptIn, hn, false_and, false_or, or_false]
  | @inside n lo hi before behind c₁ c₂ h ih =>
    obtain ⟨k, tag, o1, hk, hr⟩ | ⟨h1, -⟩ := children_kind he
    · obtain ⟨-, -, -, es, hes, rfl⟩ := (render_children_ok hk hr).1 he
      obtain ⟨a', b', y, rfl, -, hy, -⟩ := forall₂_middle hes
      simp only [SpacedScript, spacedIn_append, SpacedScriptIn, spacedIn_shift, not_or] at h₁ ⊢
      obtain ⟨h2, h3, h4, h5⟩ := h₁
      rw [bareScript_put k₁ k₂ behind h.opens] at h2
      simp only [h2, h3, h5, ih hy h4, false_or, or_false]
    · simp at h1

theorem SNode.Swapped.spaced_of {b : BuiltIn} (h : SNode.Swapped k₁ k₂ u₁ u₂ t₁ t₂)
    (hu : SpacedScript b u₁) : SpacedScript b t₁ := by
  induction h with
  | here n =>
    simp only [bracketsAround, SpacedScript, SpacedScriptIn]
    exact .inr (.inr (.inl hu))
  | inside _ ih =>
    simp only [SpacedScript, spacedIn_append, SpacedScriptIn]
    exact .inr (.inr (.inl ih))

/-! ## Elements -/

theorem contOf_tag {ri ri' : Option RowIndex} {o o' o1 o1' : ROpts} {k : RKind} {tag tag' : Tag}
    (hr : contOf ri o k = some (tag, o1)) (hr' : contOf ri' o' k = some (tag', o1')) : tag' = tag := by
  cases k <;> simp only [contOf, Option.some.injEq, Prod.mk.injEq, reduceCtorEq] at hr hr' <;>
    (obtain ⟨rfl, -⟩ := hr; obtain ⟨rfl, -⟩ := hr'; rfl)

mutual
/-- The place of a tree, the row index and the options have no influence on the page, as far as
anything is shown at all. -/
theorem render_same : ∀ {t : SNode} {a b : Nat} {ri ri' : Option RowIndex} {o o' : ROpts} {e e' : RElem},
    render R ri o (t.shift a) = .ok e → render R ri' o' (t.shift b) = .ok e' →
    e'.elements = e.elements
  | .leaf n lo hi ty ss, a, b, ri, ri', o, o', e, e', h, h' => by
    rw [SNode.shift, render] at h h'
    cases hk : hashGet R n with
    | none => rw [hk] at h; cases h
    | some k =>
      rw [hk] at h h'
      cases k <;> first
        | (cases h; cases h'; simp only [RElem.elements, SNode.texts])
        | (simp only at h; cases h)
  | .newRows n lo hi ts w, a, b, ri, ri', o, o', e, e', h, h' => by
    rw [SNode.shift] at h h'
    obtain ⟨k, ek, tag, c, hk, hr⟩ := newRows_kind h
    obtain ⟨k', ek', tag', c', hk', hr'⟩ := newRows_kind h'
    rw [hk] at hk'
    cases hk'
    obtain ⟨h1, h2, h3, h4, es, hes, rfl⟩ := (render_newRows_ok hk hr).1 h
    obtain ⟨-, -, -, -, es', hes', rfl⟩ := (render_newRows_ok hk hr').1 h'
    have hek : ek' = ek := by
      cases k <;> simp only [rowsOf, Option.some.injEq, Prod.mk.injEq, reduceCtorEq,
        Option.map_eq_some_iff] at hr hr'
      case operator =>
        obtain ⟨-, -, rfl, -, -⟩ := hr
        obtain ⟨-, -, rfl, -, -⟩ := hr'
        rfl
      all_goals
        obtain ⟨rfl, -, -⟩ := hr
        obtain ⟨rfl, -, -⟩ := hr'
        rfl
    obtain ⟨hl, hget⟩ := renderRows_ok.1 hes
    obtain ⟨hl', hget'⟩ := renderRows_ok.1 hes'
    have hall : elementsAll es' = elementsAll es := by
      rw [elementsAll_eq, elementsAll_eq]
      apply List.ext_getElem?
      intro i
      rw [List.getElem?_map, List.getElem?_map]
      by_cases hi : i < ts.length
      · have e1 := List.getElem?_eq_getElem hi
        have e2 := List.getElem?_eq_getElem (hl.symm ▸ hi : i < es.length)
        have e3 := List.getElem?_eq_getElem (hl'.symm ▸ hi : i < es'.length)
        have r1 := hget i _ _ e1 e2
        have r2 := hget' i _ _ e1 e3
        obtain ⟨z, hz, hz'⟩ := render_near (ri' := some (b + lo, 0 + i)) (ROpts.Near.refl .none) r1
        rw [r2] at hz
        cases hz
        rw [e2, e3, Option.map_some, Option.map_some, hz']
      · rw [List.getElem?_eq_none (by omega), List.getElem?_eq_none (by omega)]
    subst hek
    cases ek' <;> simp only [RElem.elements, hall, SNode.width, SNode.texts, hl, hl']
  | .children n lo hi cs, a, b, ri, ri', o, o', e, e', h, h' => by
    rw [SNode.shift] at h h'
    obtain ⟨k, tag, o1, hk, hr⟩ | ⟨h1, h2, k, hk, hall⟩ := children_kind h
    · obtain ⟨k', tag', o1', hk', hr'⟩ | ⟨h1, -⟩ := children_kind h'
      · rw [hk] at hk'
        cases hk'
        obtain ⟨-, -, -, es, hes, rfl⟩ := (render_children_ok hk hr).1 h
        obtain ⟨-, -, -, es', hes', rfl⟩ := (render_children_ok hk hr').1 h'
        have htag := contOf_tag hr hr'
        have hall : elementsAll es' = elementsAll es := render_sames hes hes'
        simp only [RElem.elements, hall, htag]
      · obtain ⟨-, h2, -⟩ := (render_children_ok hk hr).1 h
        cases cs with
        | nil => exact absurd rfl h2
        | cons c cs => simp only [SNode.shiftAll, reduceCtorEq] at h1
    · cases cs with
      | cons c cs => simp only [SNode.shiftAll, reduceCtorEq] at h1
      | nil =>
        simp only [SNode.shiftAll] at h h'
        rw [render] at h h'
        cases hk : hashGet R n with
        | none => rw [hk] at h; cases h
        | some k =>
          rw [hk] at h h'
          cases k <;> simp only [massert_bind, List.isEmpty_nil, true_and, reduceCtorEq] at h h'
          case nothing =>
            obtain ⟨-, h⟩ := h
            obtain ⟨-, h'⟩ := h'
            cases h; cases h'; simp only [RElem.elements]
          case missingToken =>
            obtain ⟨-, h⟩ := h
            obtain ⟨-, h'⟩ := h'
            cases h; cases h'; simp only [RElem.elements]
          all_goals (simp [renderContainer, munwrap] at h)
theorem render_sames : ∀ {cs : List SNode} {a b : Nat} {o o' : ROpts} {es es' : List RElem},
    List.Forall₂ (fun c e => render R none o c = .ok e) (SNode.shiftAll a cs) es →
    List.Forall₂ (fun c e => render R none o' c = .ok e) (SNode.shiftAll b cs) es' →
    elementsAll es' = elementsAll es
  | [], a, b, o, o', es, es', h, h' => by
    rw [SNode.shiftAll] at h h'
    cases h
    cases h'
    rfl
  | c :: cs, a, b, o, o', es, es', h, h' => by
    rw [SNode.shiftAll] at h h'
    cases h with
    | cons h1 h2 =>
      cases h' with
      | cons h3 h4 => rw [elementsAll, elementsAll, render_same h1 h3, render_sames h2 h4]
end

mutual
theorem shift_zero_id : ∀ t : SNode, t.shift 0 = t
  | .leaf _ _ _ _ _ => by simp only [SNode.shift, Nat.zero_add]
  | .newRows _ _ _ _ _ => by simp only [SNode.shift, Nat.zero_add]
  | .children _ _ _ cs => by simp only [SNode.shift, Nat.zero_add, shiftAll_zero_id cs]
theorem shiftAll_zero_id : ∀ ts : List SNode, SNode.shiftAll 0 ts = ts
  | [] => rfl
  | t :: ts => by rw [SNode.shiftAll, shift_zero_id t, shiftAll_zero_id ts]
end

theorem leaf_same {n lo hi lo' hi' : Nat} {ty : LeafType} {ss : List Str} {o o' : ROpts}
    {es es' : List RElem}
    (h : List.Forall₂ (fun c e => render R none o c = .ok e) [.leaf n lo hi ty ss] es)
    (h' : List.Forall₂ (fun c e => render R none o' c = .ok e) [.leaf n lo' hi' ty ss] es') :
    elementsAll es' = elementsAll es := by
  cases h with
  | cons h1 h2 =>
    cases h2
    cases h' with
    | cons h3 h4 =>
      cases h4
      rw [render] at h1 h3
      cases hk : hashGet R n with
      | none => rw [hk] at h1; cases h1
      | some k =>
        rw [hk] at h1 h3
        cases k <;> first
          | (cases h1; cases h3; simp only [elementsAll, RElem.elements, SNode.texts])
          | (simp only at h1; cases h1)

theorem bracket_leaf (hop : hashGet R 0 = some .operator) {lo hi : Nat} {s : Str} {o : ROpts}
    {es : List RElem}
    (h : List.Forall₂ (fun c e => render R none o c = .ok e) [.leaf 0 lo hi .operator [s]] es) :
    elementsAll es = [[.elem .mo false [.text s]]] := by
  cases h with
  | cons h1 h2 =>
    cases h2
    rw [render, hop] at h1
    cases h1
    rfl

/-- On the page, only what is between the brackets is replaced. -/
theorem SNode.Swapped.page (hop : hashGet R 0 = some .operator) (h : SNode.Swapped k₁ k₂ u₁ u₂ t₁ t₂) :
    (∀ n, (bracketsAround n u₁).PartOf t₁ → ∃ k, hashGet R n = some k ∧
      (k = .container ∨ k = .brackets ∨ k = .operator)) →
    ∀ {ri ri' : Option RowIndex} {o o' : ROpts} {e₁ e₂ : RElem}, render R ri o t₁ = .ok e₁ →
      render R ri' o' t₂ = .ok e₂ →
      ∃ o₁ o₂ y₁ y₂, render R none o₁ u₁ = .ok y₁ ∧ render R none o₂ u₂ = .ok y₂ ∧
        EltReplaced (inRoundBrackets (wrapInMRow y₁.elements)) (inRoundBrackets (wrapInMRow y₂.elements))
          (wrapInMRow e₁.elements) (wrapInMRow e₂.elements) := by
  induction h with
  | here n =>
    intro hn ri ri' o o' e₁ e₂ h₁ h₂
    obtain ⟨k, hk, hk'⟩ := hn n .here
    have hr : ∀ ri o, ∃ o1, contOf ri o k = some (.mrow, o1) := by
      rcases hk' with rfl | rfl | rfl <;> exact fun _ _ => ⟨_, rfl⟩
    obtain ⟨o1, hr1⟩ := hr ri o
    obtain ⟨o2, hr2⟩ := hr ri' o'
    obtain ⟨-, -, -, es, hes, rfl⟩ := (render_children_ok hk hr1).1 h₁
    obtain ⟨-, -, -, es', hes', rfl⟩ := (render_children_ok hk hr2).1 h₂
    obtain ⟨a, b, y, rfl, ha, hy, hb⟩ := forall₂_middle (a := [_]) hes
    obtain ⟨a', b', y', rfl, ha', hy', hb'⟩ := forall₂_middle (a := [_]) hes'
    refine ⟨_, _, y, y', hy, hy', ?_⟩
    have e1 := bracket_leaf hop ha
    have e2 := bracket_leaf hop hb
    have e3 := bracket_leaf hop ha'
    have e4 := bracket_leaf hop hb'
    simp only [elementsAll_eq] at e1 e2 e3 e4
    simp only [RElem.elements, wrapInMRow, elementsAll_eq, List.map_append, List.map_cons, e1, e2, e3, e4]
    exact .here
  | @inside n lo hi before behind c₁ c₂ h ih =>
    intro hn ri ri' o o' e₁ e₂ h₁ h₂
    obtain ⟨k, tag, o1, hk, hr⟩ | ⟨h1, -⟩ := children_kind h₁
    · obtain ⟨k', tag', o1', hk', hr'⟩ | ⟨h1, -⟩ := children_kind h₂
      · rw [hk] at hk'
        cases hk'
        have htag := contOf_tag hr hr'
        subst htag
        obtain ⟨-, -, -, es, hes, rfl⟩ := (render_children_ok hk hr).1 h₁
        obtain ⟨-, -, -, es', hes', rfl⟩ := (render_children_ok hk hr').1 h₂
        obtain ⟨a, b, y, rfl, ha, hy, hb⟩ := forall₂_middle hes
        obtain ⟨a', b', y', rfl, ha', hy', hb'⟩ := forall₂_middle hes'
        obtain ⟨o₁, o₂, y₁, y₂, h3, h4, h5⟩ := ih (fun n hp => hn n (.child (by simp) hp)) hy hy'
        refine ⟨o₁, o₂, y₁, y₂, h3, h4, ?_⟩
        have e1 : elementsAll a' = elementsAll a :=
          render_sames (cs := before) (a := 0) (b := 0) (by rwa [shiftAll_zero_id]) (by rwa [shiftAll_zero_id])
        have e2 : elementsAll b' = elementsAll b := render_sames hb hb'
        simp only [RElem.elements, wrapInMRow, elementsAll_eq, List.map_append, List.map_cons] at e1 e2 ⊢
        rw [e1, e2]
        exact .child _ _ _ _ h5
      · simp at h1
    · simp at h1

theorem EltReplaced.within {y y' d d' e e' : Elt} (h : EltReplaced d d' e e')
    (h' : EltReplaced y y' d d') : EltReplaced y y' e e' := by
  induction h with
  | here => exact h'
  | child tag marked a b _ ih => exact .child tag marked a b ih

end Aftermath
