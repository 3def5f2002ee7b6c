import Verif.Proof.Layout
import Mathlib.Tactic.Linarith

/-! # Finding positions from places on the screen -/

namespace Aftermath

/-- Only the elements of cells carry a row index. -/
inductive Clean : RElem → Prop
  | mk {k : EKind} {t : SNode} {ri : Option RowIndex} {cs : List RElem} :
      (k.isRows = false → ∀ c ∈ cs, c.rowIndex = none) → (∀ c ∈ cs, Clean c) →
      Clean (.mk k t ri cs)

theorem scriptCellIn_iff {b : BuiltIn} : ∀ {cs : List SNode},
    ScriptCellIn b cs ↔ ∃ c ∈ cs, ScriptCell b c
  | [] => by simp [ScriptCellIn]
  | c :: cs => by rw [ScriptCellIn, scriptCellIn_iff]; simp

variable {g : Grammar} {R : Renderers}

theorem contOf_override {ri : Option RowIndex} {o o' : ROpts} {k : RKind} {tag : Tag}
    (h : contOf ri o k = some (tag, o')) (ho : o.override = none ∨ o.override = some none)
    (hr : ri = none ∨ ¬ (k = .sub ∨ k = .sup)) : o'.override = none ∨ o'.override = some none := by
  cases k <;> simp only [contOf, Option.some.injEq, Prod.mk.injEq, reduceCtorEq] at h
  all_goals
    obtain ⟨-, rfl⟩ := h
    first
    | exact ho
    | exact .inl rfl
    | (rcases hr with rfl | hr
       · exact .inr rfl
       · exact absurd (by simp) hr)

/-- Without cells that are just a script, row indices are where they belong. -/
theorem render_clean (hf : Fits R g) : ∀ {t : SNode} {ri : Option RowIndex} {o : ROpts} {e : RElem},
    render R ri o t = .ok e → (o.override = none ∨ o.override = some none) →
    (ri = none ∨ ¬ t.IsScript g.builtIn) → ¬ ScriptCell g.builtIn t →
    Clean e ∧ (ri = none → e.rowIndex = none)
  | .leaf n lo hi ty ss, ri, o, e, h, _, _, _ => by
    rw [render] at h
    split at h <;> cases h <;> exact ⟨.mk (fun _ => nofun) nofun, id⟩
  | .children n lo hi cs, ri, o, e, h, ho, hr, hs => by
    cases hk : hashGet R n with
    | none => rw [render, hk] at h; cases h
    | some k =>
      cases hc : contOf ri o k with
      | some x =>
        obtain ⟨tag, o'⟩ := x
        obtain ⟨-, hne, -, es, hes, rfl⟩ := (render_children_ok hk hc).1 h
        have ho' := contOf_override hc ho (hr.imp_right fun h1 h2 => h1 (hf.scripts hk h2))
        have hs' : ∀ c ∈ cs, ¬ ScriptCell g.builtIn c := by
          intro c hc hsc
          rw [ScriptCell, scriptCellIn_iff] at hs
          exact hs ⟨c, hc, hsc⟩
        have key : ∀ e ∈ es, Clean e ∧ e.rowIndex = none := by
          intro e he
          obtain ⟨i, hi⟩ := List.getElem?_of_mem he
          obtain ⟨h1, h2⟩ := List.getElem?_eq_some_iff.1 hi
          have h3 := (List.forall₂_iff_get.1 hes).2 i (by rw [hes.length_eq]; exact h1) h1
          simp only [List.get_eq_getElem, h2] at h3
          have hm : cs[i]'(by rw [hes.length_eq]; exact h1) ∈ cs := List.getElem_mem _
          have := render_clean hf h3 ho' (.inl rfl) (hs' _ hm)
          exact ⟨this.1, this.2 rfl⟩
        exact ⟨.mk (fun _ c hc => (key c hc).2) (fun c hc => (key c hc).1), id⟩
      | none =>
        rw [render, hk] at h
        cases k <;> first
          | (cases hc; done)
          | cases h
          | (simp only [massert_bind, List.isEmpty_iff, beq_iff_eq] at h
             obtain ⟨rfl, rfl, h⟩ := h
             cases h
             exact ⟨.mk (fun _ => nofun) nofun, id⟩)
  | .newRows n lo hi ts w, ri, o, e, h, ho, hr, hs => by
    rw [ScriptCell, scriptCellIn_iff] at hs
    cases hk : hashGet R n with
    | none => rw [render, hk] at h; cases h
    | some k =>
      cases hc : rowsOf o ri k with
      | none =>
        rw [render, hk] at h
        cases k <;> first
          | (cases hc; done)
          | cases h
          | (simp only [rowsOf, Option.map_eq_none_iff] at hc
             simp only [hc] at h
             cases h)
      | some x =>
        obtain ⟨ek, tag, ri'⟩ := x
        obtain ⟨-, -, -, -, es, hes, rfl⟩ := (render_newRows_ok hk hc).1 h
        obtain ⟨hel, hes⟩ := renderRows_ok.1 hes
        have key : ∀ e ∈ es, Clean e := by
          intro e he
          obtain ⟨j, hej⟩ := List.getElem?_of_mem he
          have hj := (List.getElem?_eq_some_iff.1 hej).1
          have htj : ts[j]? = some ts[j] := List.getElem?_eq_getElem (by omega)
          have hm : ts[j] ∈ ts := List.getElem_mem _
          exact (render_clean hf (hes j _ e htj hej) (.inl rfl)
            (.inr fun h => hs (.inl ⟨_, hm, h⟩)) fun h => hs (.inr ⟨_, hm, h⟩)).1
        have hek : ek.isRows = true ∧ (ri = none → ri' = none) := by
          cases k <;> simp only [rowsOf, Option.some.injEq, Prod.mk.injEq, reduceCtorEq,
            Option.map_eq_some_iff] at hc
          · obtain ⟨x, hx, rfl, -, rfl⟩ := hc
            rw [hx] at ho
            refine ⟨rfl, fun _ => ?_⟩
            rcases ho with ho | ho <;> cases ho
            rfl
          all_goals (obtain ⟨rfl, -, rfl⟩ := hc; exact ⟨rfl, id⟩)
        exact ⟨.mk (fun h => by rw [hek.1] at h; cases h) key, hek.2⟩
  termination_by t => sizeOf t
  decreasing_by
    · have := List.sizeOf_lt_of_mem hm
      simp only [SNode.children.sizeOf_spec]
      omega
    · have := List.sizeOf_lt_of_mem hm
      simp only [SNode.newRows.sizeOf_spec]
      omega

/-! ## The search -/

/-- An element that belongs to the row with the given path. -/
structure OnRow (Q : Row → SNode → Prop) (root : Row) (e : RElem) (indices : RowIndices) : Prop where
  clean : Clean e
  laid : ∃ r, rowAt root indices = some r ∧ Laid Q r e

theorem addRowIndex_none (p : RowIndices) : addRowIndex p none = p := rfl

theorem OnRow.child {Q : Row → SNode → Prop} {root : Row} {e c : RElem} {p : RowIndices}
    (h : OnRow Q root e p) (hc : c ∈ e.children) : OnRow Q root c (addRowIndex p c.rowIndex) := by
  obtain ⟨h1, r, hr, h2⟩ := h
  cases h1 with
  | mk hn hcl =>
    refine ⟨hcl c hc, ?_⟩
    cases h2 with
    | leaf => cases hc
    | empty => cases hc
    | container _ _ _ hl =>
      rw [hn rfl c hc]
      exact ⟨r, hr, hl c hc⟩
    | rows hk hg hlen hl hi =>
      obtain ⟨j, hj⟩ := List.getElem?_of_mem hc
      have hj' := (List.getElem?_eq_some_iff.1 hj).1
      simp only [RElem.children] at hj hj'
      have hcj := List.getElem?_eq_getElem (l := _) (hlen ▸ hj')
      have := hi j _ c hcj hj
      refine ⟨_, ?_, hl j _ c hcj hj⟩
      rw [this.2.2.1]
      simp only [addRowIndex, rowAt_append, hr, Option.bind_some, rowAt, hg, hcj]

theorem OnRow.rowIndex {Q : Row → SNode → Prop} {root : Row} {e : RElem} {p : RowIndices}
    (h : OnRow Q root e p) {off : Nat} (h1 : off ≤ e.tree.hi) : ValidPos root ⟨p, off⟩ := by
  obtain ⟨-, r, hr, hl⟩ := h
  exact ⟨r, hr, Nat.le_trans h1 hl.range.2⟩

mutual
theorem layoutContaining_onRow {Q : Row → SNode → Prop} {root : Row} {G : Geom} {pos : Coord} :
    ∀ {e : RElem} {path : List Nat} {p : RowIndices} {r : Located × RowIndices},
    OnRow Q root e p → layoutContaining G pos path p e = some r → OnRow Q root r.1.2 r.2
  | .mk k t ri cs, path, p, r, h, hr => by
    rw [layoutContaining] at hr
    split at hr
    · cases hr
    · cases hr
      cases hc : layoutContainingIn G pos path p 0 cs with
      | none => exact h
      | some r => exact layoutContainingIn_onRow (cs := cs) (fun c hc => h.child hc) hc
theorem layoutContainingIn_onRow {Q : Row → SNode → Prop} {root : Row} {G : Geom} {pos : Coord} :
    ∀ {cs : List RElem} {path : List Nat} {p : RowIndices} {i : Nat} {r : Located × RowIndices},
    (∀ c ∈ cs, OnRow Q root c (addRowIndex p c.rowIndex)) →
    layoutContainingIn G pos path p i cs = some r → OnRow Q root r.1.2 r.2
  | [], _, _, _, _, _, hr => by simp only [layoutContainingIn, reduceCtorEq] at hr
  | c :: cs, path, p, i, r, h, hr => by
    rw [layoutContainingIn] at hr
    split at hr
    · rename_i v hv
      cases hr
      exact layoutContaining_onRow (h c List.mem_cons_self) hv
    · exact layoutContainingIn_onRow (fun c hc => h c (List.mem_cons_of_mem _ hc)) hr
end

mutual
theorem newRowsChildren_onRow {Q : Row → SNode → Prop} {root : Row} : ∀ {e : RElem}
    {path : List Nat} {p : RowIndices} {v : Located}, OnRow Q root e p →
    v ∈ newRowsChildren path e → OnRow Q root v.2 (addRowIndex p v.2.rowIndex)
  | .mk k t ri cs, path, p, v, h, hv => by
    rw [newRowsChildren] at hv
    exact newRowsChildrenIn_onRow (cs := cs) (fun c hc => h.child hc) hv
theorem newRowsChildrenIn_onRow {Q : Row → SNode → Prop} {root : Row} : ∀ {cs : List RElem}
    {path : List Nat} {p : RowIndices} {i : Nat} {v : Located},
    (∀ c ∈ cs, OnRow Q root c (addRowIndex p c.rowIndex)) →
    v ∈ newRowsChildrenIn path i cs → OnRow Q root v.2 (addRowIndex p v.2.rowIndex)
  | [], _, _, _, _, _, hr => by simp only [newRowsChildrenIn, List.not_mem_nil] at hr
  | c :: cs, path, p, i, v, h, hr => by
    rw [newRowsChildrenIn, List.mem_append] at hr
    have hc := h c List.mem_cons_self
    rcases hr with hr | hr
    · split at hr
      · rw [List.mem_singleton] at hr
        subst hr
        exact hc
      · rename_i hn
        rw [hn] at hc
        exact newRowsChildren_onRow hc hr
    · exact newRowsChildrenIn_onRow (fun c hc => h c (List.mem_cons_of_mem _ hc)) hr
end

/-- The elements of the stack. -/
def countRoots : List (Located × RowIndices) → Nat
  | [] => 0
  | x :: xs => x.1.2.count + countRoots xs

theorem countRoots_append : ∀ xs ys, countRoots (xs ++ ys) = countRoots xs + countRoots ys
  | [], ys => by simp [countRoots]
  | x :: xs, ys => by
    rw [List.cons_append, countRoots, countRoots, countRoots_append xs ys]
    omega

theorem countRoots_reverse : ∀ xs, countRoots xs.reverse = countRoots xs
  | [] => rfl
  | x :: xs => by
    rw [List.reverse_cons, countRoots_append, countRoots_reverse xs]
    simp only [countRoots]
    omega

mutual
theorem count_newRowsChildren {f : Located → RowIndices} : ∀ {e : RElem} {path : List Nat},
    countRoots ((newRowsChildren path e).map fun v => (v, f v)) + 1 ≤ e.count
  | .mk k t ri cs, path => by
    rw [newRowsChildren, RElem.count]
    have := count_newRowsChildrenIn (f := f) (cs := cs) (path := path) (i := 0)
    omega
theorem count_newRowsChildrenIn {f : Located → RowIndices} : ∀ {cs : List RElem} {path : List Nat}
    {i : Nat}, countRoots ((newRowsChildrenIn path i cs).map fun v => (v, f v)) ≤ countAll cs
  | [], _, _ => by simp [newRowsChildrenIn, countRoots]
  | c :: cs, path, i => by
    rw [newRowsChildrenIn, List.map_append, countRoots_append, countAll]
    have h1 := count_newRowsChildrenIn (f := f) (cs := cs) (path := path) (i := i + 1)
    have h2 := count_newRowsChildren (f := f) (e := c) (path := path ++ [i])
    split
    · simp only [List.map_cons, List.map_nil, countRoots]
      omega
    · omega
end

theorem keepCloser_some {α : Type} {best : Option (α × ℚ)} {new : α × ℚ} :
    ∃ b, keepCloser best new = some b ∧ (b = new ∨ best = some b) ∧ b.2 ≤ new.2 ∧
      ∀ b', best = some b' → b.2 ≤ b'.2 := by
  cases best with
  | none => exact ⟨new, rfl, .inl rfl, le_refl _, nofun⟩
  | some b =>
    rw [keepCloser]
    split
    · rename_i h
      exact ⟨new, rfl, .inl rfl, le_refl _, fun b' h' => by cases h'; exact le_of_lt h⟩
    · rename_i h
      exact ⟨b, rfl, .inr rfl, not_lt.1 h, fun b' h' => by cases h'; exact le_refl _⟩

theorem closestInRowLoop_ok {G : Geom} {pos : Coord} {e : Located} : ∀ {n i : Nat}
    {best : Option (Nat × ℚ)}, e.2.tree.lo ≤ i → i + n ≤ e.2.tree.hi + 1 →
    (∀ off, e.2.tree.lo ≤ off → off ≤ e.2.tree.hi → ∃ c, caretPosition G e.1 off e.2 = .ok c) →
    (∀ o d, best = some (o, d) → e.2.tree.lo ≤ o ∧ o ≤ e.2.tree.hi ∧
      ∃ c, caretPosition G e.1 o e.2 = .ok c ∧ d = distPoint pos c) →
    ∃ res, closestInRowLoop G pos e n i best = .ok res ∧
      (best.isSome = true ∨ 0 < n → res.isSome = true) ∧
      (∀ o d, res = some (o, d) → e.2.tree.lo ≤ o ∧ o ≤ e.2.tree.hi ∧
        ∃ c, caretPosition G e.1 o e.2 = .ok c ∧ d = distPoint pos c) ∧
      (∀ o d, res = some (o, d) → (∀ o' d', best = some (o', d') → d ≤ d') ∧
        ∀ off c, i ≤ off → off < i + n → caretPosition G e.1 off e.2 = .ok c → d ≤ distPoint pos c)
  | 0, i, best, _, _, _, hb => by
    refine ⟨best, rfl, fun h => h.elim id (by omega), hb, fun o d h => ⟨fun o' d' h' => ?_, ?_⟩⟩
    · rw [h] at h'
      cases h'
      exact le_refl _
    · intro off c h1 h2
      omega
  | n + 1, i, best, h1, h2, hp, hb => by
    obtain ⟨c, hc⟩ := hp i h1 (by omega)
    rw [closestInRowLoop]
    simp only [hc, M.ok_bind]
    obtain ⟨b, hk, hbm, hle1, hle2⟩ := keepCloser_some (best := best) (new := (i, distPoint pos c))
    rw [hk]
    obtain ⟨res, h3, h4, h5, h6⟩ := closestInRowLoop_ok (n := n) (i := i + 1) (best := some b)
      (by omega) (by omega) hp fun o d h => by
        cases h
        rcases hbm with hbm | hbm
        · cases hbm
          exact ⟨h1, by omega, c, hc, rfl⟩
        · exact hb _ _ hbm
    refine ⟨res, h3, fun _ => h4 (.inl rfl), h5, fun o d h => ?_⟩
    obtain ⟨h7, h8⟩ := h6 o d h
    have h11 := h7 b.1 b.2 rfl
    refine ⟨fun o'' d'' h'' => le_trans h11 (hle2 _ h''), fun off c' ho1 ho2 hc' => ?_⟩
    by_cases ho : off = i
    · subst ho
      rw [hc] at hc'
      cases hc'
      exact le_trans h11 hle1
    · exact h8 off c' (by omega) (by omega) hc'

/-- The closest caret position of an element: one of its positions, and none is closer. -/
theorem closestInRow_ok {Q : Row → SNode → Prop} {G : Geom} {pos : Coord} {row : Row} {e : Located}
    (hl : Laid Q row e.2) : ∃ off c, e.2.tree.lo ≤ off ∧ off ≤ e.2.tree.hi ∧
      caretPosition G e.1 off e.2 = .ok c ∧ closestInRow G pos e = .ok (some (off, distPoint pos c)) ∧
      ∀ off' c', e.2.tree.lo ≤ off' → off' ≤ e.2.tree.hi → caretPosition G e.1 off' e.2 = .ok c' →
        distPoint pos c ≤ distPoint pos c' := by
  have hr := hl.range
  obtain ⟨res, h1, h2, h3, h4⟩ := closestInRowLoop_ok (G := G) (pos := pos) (e := e)
    (n := e.2.tree.hi + 1 - e.2.tree.lo) (i := e.2.tree.lo) (best := none) (Nat.le_refl _) (by omega)
    (fun off h1 h2 => hl.caretPosition_ok h1 h2) nofun
  obtain ⟨⟨off, d⟩, rfl⟩ := Option.isSome_iff_exists.1 (h2 (.inr (by omega)))
  obtain ⟨h5, h6, c, h7, rfl⟩ := h3 _ _ rfl
  exact ⟨off, c, h5, h6, h7, h1, fun off' c' h8 h9 h10 => (h4 _ _ rfl).2 off' c' h8 (by omega) h10⟩

/-- The elements visited from an element: those that start new rows, and so on. -/
inductive Below : Located → Located → Prop
  | refl {a : Located} : Below a a
  | step {a v b : Located} : v ∈ newRowsChildren a.1 a.2 → Below v b → Below a b

/-- The position is one of the element with the given row path. -/
structure Hit (P : Located → Prop) (G : Geom) (pos : Coord) (Q : Row → SNode → Prop) (root : Row)
    (m : MinPos) (d : ℚ) : Prop where
  place : ∃ (e : Located) (c : Coord), P e ∧ OnRow Q root e.2 m.rowIndices ∧ e.2.tree.lo ≤ m.offset ∧
    m.offset ≤ e.2.tree.hi ∧ caretPosition G e.1 m.offset e.2 = .ok c ∧ d = distPoint pos c

theorem layoutLoop_ok {Q : Row → SNode → Prop} {root : Row} {G : Geom} {pos : Coord}
    {P : Located → Prop} (hP : ∀ {a v}, P a → v ∈ newRowsChildren a.1 a.2 → P v) : ∀ {n : Nat}
    {roots : List (Located × RowIndices)} {best : Closest},
    (∀ x ∈ roots, P x.1 ∧ OnRow Q root x.1.2 x.2) → countRoots roots ≤ n →
    (∀ b, best = some b → Hit P G pos Q root b.1 b.2) →
    ∃ res, layoutLoop G pos n roots best = .ok res ∧
      (best.isSome = true ∨ roots ≠ [] → res.isSome = true) ∧
      (∀ b, res = some b → Hit P G pos Q root b.1 b.2) ∧
      ∀ b, res = some b → (∀ b', best = some b' → b.2 ≤ b'.2) ∧
        ∀ x ∈ roots, ∀ y, Below x.1 y → ∀ off c, y.2.tree.lo ≤ off → off ≤ y.2.tree.hi →
          caretPosition G y.1 off y.2 = .ok c →
          (∀ z, Below x.1 z → Below z y → distRect pos (G.own z.1) ≤ distPoint pos c) →
          b.2 ≤ distPoint pos c
  | n, [], best, _, _, hb => by
    refine ⟨best, by cases n <;> rfl, fun h => h.elim id (absurd rfl), hb, fun b h =>
      ⟨fun b' h' => ?_, nofun⟩⟩
    rw [h] at h'
    cases h'
    exact le_refl _
  | 0, x :: xs, best, _, hn, _ => by
    exfalso
    rw [countRoots] at hn
    have : 0 < x.1.2.count := by
      cases x.1.2
      rw [RElem.count]
      omega
    omega
  | n + 1, (e, p) :: roots, best, hroots, hn, hb => by
    have hcount : 0 < e.2.count := by
      cases e.2
      rw [RElem.count]
      omega
    rw [countRoots] at hn
    simp only at hn
    rw [layoutLoop]
    obtain ⟨hPe, hon⟩ : P e ∧ OnRow Q root e.2 p := hroots _ List.mem_cons_self
    have hrest : ∀ x ∈ roots, P x.1 ∧ OnRow Q root x.1.2 x.2 := fun x hx => hroots x (List.mem_cons_of_mem _ hx)
    by_cases hskip : tooFar G pos e best = true
    · rw [if_pos hskip]
      obtain ⟨res, h1, h2, h3, h4⟩ := layoutLoop_ok hP (n := n) hrest (by omega) hb
      cases best with
      | none => cases hskip
      | some b0 =>
        refine ⟨res, h1, fun _ => h2 (.inl rfl), h3, fun b h => ⟨(h4 b h).1, ?_⟩⟩
        intro x hx y hy off c ho1 ho2 hc hz
        rcases List.mem_cons.1 hx with rfl | hx
        · have h5 := hz _ .refl hy
          simp only [tooFar, decide_eq_true_eq] at hskip
          exact le_trans ((h4 b h).1 _ rfl) (le_trans (le_of_lt hskip) h5)
        · exact (h4 b h).2 x hx y hy off c ho1 ho2 hc hz
    · rw [if_neg hskip]
      obtain ⟨r, hr, hl⟩ := hon.laid
      obtain ⟨off, c, ho1, ho2, hc, h5, h6⟩ := closestInRow_ok (G := G) (pos := pos) (e := e) hl
      simp only [h5, M.ok_bind]
      obtain ⟨b1, hk, hbm, h10, h11⟩ := keepCloser_some (best := best)
        (new := ((⟨p, off⟩ : MinPos), distPoint pos c))
      rw [hk]
      set new := ((newRowsChildren e.1 e.2).map fun v => (v, addRowIndex p v.2.rowIndex)).reverse
        with hnew
      have hmem : ∀ x ∈ new, P x.1 ∧ OnRow Q root x.1.2 x.2 := by
        intro x hx
        rw [hnew, List.mem_reverse, List.mem_map] at hx
        obtain ⟨v, hv, rfl⟩ := hx
        exact ⟨hP hPe hv, newRowsChildren_onRow hon hv⟩
      have hcn : countRoots new + 1 ≤ e.2.count := by
        rw [hnew, countRoots_reverse]
        exact count_newRowsChildren (f := fun v => addRowIndex p v.2.rowIndex)
      obtain ⟨res, h1, h2, h3, h4⟩ := layoutLoop_ok hP (n := n) (roots := new ++ roots) (best := some b1)
        (fun x hx => (List.mem_append.1 hx).elim (hmem x) (hrest x))
        (by rw [countRoots_append]; omega) (fun b h => by
          cases h
          rcases hbm with rfl | hbm
          · exact ⟨e, c, hPe, hon, ho1, ho2, hc, rfl⟩
          · exact hb _ hbm)
      refine ⟨res, h1, fun _ => h2 (.inl rfl), h3, fun b h => ?_⟩
      obtain ⟨h7, h8⟩ := h4 b h
      have h9 := h7 b1 rfl
      refine ⟨fun b' h' => le_trans h9 (h11 b' h'), ?_⟩
      intro x hx y hy off' c' ho1' ho2' hc' hz
      rcases List.mem_cons.1 hx with rfl | hx
      · cases hy with
        | refl => exact le_trans (le_trans h9 h10) (h6 off' c' ho1' ho2' hc')
        | @step _ v _ hv hvy =>
          refine h8 (v, addRowIndex p v.2.rowIndex) (List.mem_append_left _ ?_) y hvy off' c' ho1' ho2'
            hc' fun z hz1 hz2 => hz z (.step hv hz1) hz2
          rw [hnew, List.mem_reverse, List.mem_map]
          exact ⟨v, hv, rfl⟩
      · exact h8 x (List.mem_append_right _ hx) y hy off' c' ho1' ho2' hc' hz

theorem layoutElement_onRow {Q : Row → SNode → Prop} {root : Row} {e : RElem} {G : Geom} {pos : Coord}
    (h : OnRow Q root e []) :
    OnRow Q root (layoutElement G pos e).1.2 (layoutElement G pos e).2 := by
  unfold layoutElement
  cases hc : layoutContaining G pos [] [] e with
  | none => exact h
  | some r => exact layoutContaining_onRow h hc

theorem Below.trans {a b c : Located} (h1 : Below a b) (h2 : Below b c) : Below a c := by
  induction h1 with
  | refl => exact h2
  | step h _ ih => exact .step h (ih h2)

/-- The whole search. -/
theorem layoutPosition_ok {Q : Row → SNode → Prop} {root : Row} {e : RElem} {G : Geom} {pos : Coord}
    (h : OnRow Q root e []) :
    ∃ m d, layoutPosition G pos e = .ok m ∧
      Hit (Below (layoutElement G pos e).1) G pos Q root m d ∧
      ∀ y, Below (layoutElement G pos e).1 y → ∀ off' c, y.2.tree.lo ≤ off' → off' ≤ y.2.tree.hi →
        caretPosition G y.1 off' y.2 = .ok c →
        (∀ z, Below (layoutElement G pos e).1 z → Below z y →
          distRect pos (G.own z.1) ≤ distPoint pos c) → d ≤ distPoint pos c := by
  have hs := layoutElement_onRow (G := G) (pos := pos) h
  obtain ⟨res, h1, h2, h3, h4⟩ := layoutLoop_ok (G := G) (pos := pos)
    (P := Below (layoutElement G pos e).1) (fun h1 h2 => h1.trans (.step h2 .refl))
    (n := (layoutElement G pos e).1.2.count) (roots := [layoutElement G pos e]) (best := none)
    (fun x hx => by rw [List.mem_singleton] at hx; subst hx; exact ⟨.refl, hs⟩)
    (by simp [countRoots]) nofun
  obtain ⟨⟨m, d⟩, rfl⟩ := Option.isSome_iff_exists.1 (h2 (.inr (List.cons_ne_nil _ _)))
  refine ⟨m, d, ?_, h3 _ rfl, (h4 _ rfl).2 _ (List.mem_singleton_self _)⟩
  unfold layoutPosition
  simp only [h1, M.ok_bind]

/-! ## Paths of elements -/

mutual
theorem newRowsChildren_at {root : RElem} : ∀ {e : RElem} {path : List Nat} {v : Located},
    root.at path = some e → v ∈ newRowsChildren path e →
    root.at v.1 = some v.2 ∧ ∃ i q, v.1 = path ++ i :: q
  | .mk k t ri cs, path, v, h, hv => by
    rw [newRowsChildren] at hv
    exact newRowsChildrenIn_at (cs := cs) (i := 0) h (fun j c hc => by rw [Nat.zero_add]; exact hc) hv
theorem newRowsChildrenIn_at {root e : RElem} : ∀ {cs : List RElem} {path : List Nat} {i : Nat}
    {v : Located}, root.at path = some e → (∀ j c, cs[j]? = some c → e.children[i + j]? = some c) →
    v ∈ newRowsChildrenIn path i cs → root.at v.1 = some v.2 ∧ ∃ i q, v.1 = path ++ i :: q
  | [], _, _, _, _, _, hr => by simp only [newRowsChildrenIn, List.not_mem_nil] at hr
  | c :: cs, path, i, v, h, hcs, hr => by
    rw [newRowsChildrenIn, List.mem_append] at hr
    have hc := RElem.at_child h (hcs 0 c rfl)
    rw [Nat.add_zero] at hc
    rcases hr with hr | hr
    · split at hr
      · rw [List.mem_singleton] at hr
        subst hr
        exact ⟨hc, i, [], rfl⟩
      · obtain ⟨h1, j, q, h2⟩ := newRowsChildren_at hc hr
        exact ⟨h1, i, j :: q, by rw [h2, List.append_assoc]; rfl⟩
    · refine newRowsChildrenIn_at (i := i + 1) h (fun j d hd => ?_) hr
      have := hcs (j + 1) d (by simpa using hd)
      rwa [show i + 1 + j = i + (j + 1) by omega]
end

theorem Below.at {root : RElem} {a b : Located} (h : Below a b) (ha : root.at a.1 = some a.2) :
    root.at b.1 = some b.2 ∧ ∃ q, b.1 = a.1 ++ q := by
  induction h with
  | refl => exact ⟨ha, [], by simp⟩
  | step hv _ ih =>
    obtain ⟨h1, i, q, h2⟩ := newRowsChildren_at ha hv
    obtain ⟨h3, q', h4⟩ := ih h1
    exact ⟨h3, i :: q ++ q', by rw [h4, h2, List.append_assoc]⟩

theorem newRowsChildrenIn_mem {path : List Nat} {c : RElem} : ∀ {cs : List RElem} {i j : Nat},
    cs[j]? = some c → (match c.rowIndex with
      | some _ => [(path ++ [i + j], c)]
      | none => newRowsChildren (path ++ [i + j]) c) ⊆ newRowsChildrenIn path i cs
  | [], _, _, h => by simp at h
  | d :: cs, i, 0, h => by
    cases h
    rw [newRowsChildrenIn]
    exact List.subset_append_left _ _
  | d :: cs, i, j + 1, h => by
    rw [newRowsChildrenIn]
    have := newRowsChildrenIn_mem (path := path) (c := c) (cs := cs) (i := i + 1) (j := j)
      (by simpa using h)
    rw [show i + 1 + j = i + (j + 1) by omega] at this
    exact List.subset_append_of_subset_right _ this

/-- Every element below that starts a row is visited. -/
theorem below_of_at : ∀ {q : List Nat} {e e' : RElem} {path : List Nat}, e.at q = some e' →
    (q = [] ∨ e'.rowIndex ≠ none) → Below (path, e) (path ++ q, e')
  | [], e, e', path, h, _ => by
    cases h
    rw [List.append_nil]
    exact .refl
  | i :: q, .mk k t ri cs, e', path, h, hr => by
    have hr : e'.rowIndex ≠ none := hr.resolve_left (List.cons_ne_nil _ _)
    simp only [RElem.at] at h
    split at h
    · rename_i c hc
      have ih := below_of_at (path := path ++ [i]) h (.inr hr)
      rw [List.append_assoc] at ih
      have hsub := newRowsChildrenIn_mem (path := path) (i := 0) hc
      rw [Nat.zero_add] at hsub
      cases hri : c.rowIndex with
      | some x =>
        rw [hri] at hsub
        refine .step (v := (path ++ [i], c)) ?_ ih
        simp only [newRowsChildren]
        exact hsub (List.mem_singleton_self _)
      | none =>
        rw [hri] at hsub
        generalize hz : (path ++ ([i] ++ q), e') = z at ih
        have hz' : z.2.rowIndex ≠ none := by rw [← hz]; exact hr
        have : Below (path, .mk k t ri cs) z := by
          cases ih with
          | refl => exact absurd hri hz'
          | step hv hb =>
            refine .step ?_ hb
            simp only [newRowsChildren]
            exact hsub hv
        rw [← hz] at this
        exact this
    · cases h

mutual
theorem layoutContaining_spec {root : RElem} {G : Geom} {pos : Coord} :
    ∀ {e : RElem} {path : List Nat} {p : RowIndices} {r : Located × RowIndices},
    root.at path = some e → layoutContaining G pos path p e = some r →
    root.at r.1.1 = some r.1.2 ∧ distRect pos (G.own r.1.1) ≤ 0 ∧
      ∀ i c, r.1.2.children[i]? = some c → 0 < distRect pos (G.own (r.1.1 ++ [i]))
  | .mk k t ri cs, path, p, r, h, hr => by
    rw [layoutContaining] at hr
    split at hr
    · cases hr
    · rename_i hd
      cases hr
      have := layoutContainingIn_spec (G := G) (pos := pos) (cs := cs) (i := 0) (p := p) h
        (fun j c hc => by rw [Nat.zero_add]; exact hc)
      cases hc : layoutContainingIn G pos path p 0 cs with
      | none =>
        refine ⟨h, not_lt.1 hd, fun i c hc' => ?_⟩
        have := this.2 hc i c hc'
        rwa [Nat.zero_add] at this
      | some r => exact this.1 r hc
theorem layoutContainingIn_spec {root e : RElem} {G : Geom} {pos : Coord} :
    ∀ {cs : List RElem} {path : List Nat} {p : RowIndices} {i : Nat},
    root.at path = some e → (∀ j c, cs[j]? = some c → e.children[i + j]? = some c) →
    (∀ r, layoutContainingIn G pos path p i cs = some r → root.at r.1.1 = some r.1.2 ∧
      distRect pos (G.own r.1.1) ≤ 0 ∧
      ∀ i c, r.1.2.children[i]? = some c → 0 < distRect pos (G.own (r.1.1 ++ [i]))) ∧
    (layoutContainingIn G pos path p i cs = none → ∀ j c, cs[j]? = some c →
      0 < distRect pos (G.own (path ++ [i + j])))
  | [], _, _, _, _, _ => by
    simp only [layoutContainingIn]
    exact ⟨nofun, fun _ j c hc => by simp at hc⟩
  | c :: cs, path, p, i, h, hcs => by
    rw [layoutContainingIn]
    have hc := RElem.at_child h (hcs 0 c rfl)
    rw [Nat.add_zero] at hc
    have ih := layoutContainingIn_spec (G := G) (pos := pos) (cs := cs) (p := p) (i := i + 1) h
      (fun j d hd => by
        have := hcs (j + 1) d (by simpa using hd)
        rwa [show i + 1 + j = i + (j + 1) by omega])
    split
    · rename_i v hv
      refine ⟨fun r hr => ?_, nofun⟩
      cases hr
      exact layoutContaining_spec hc hv
    · rename_i hv
      refine ⟨ih.1, fun hn j d hd => ?_⟩
      cases j with
      | zero =>
        cases c
        rw [layoutContaining] at hv
        split at hv
        · rename_i hlt
          exact hlt
        · cases hv
      | succ j =>
        have := ih.2 hn j d (by simpa using hd)
        rwa [show i + 1 + j = i + (j + 1) by omega] at this
end

theorem layoutElement_at {root : RElem} {G : Geom} {pos : Coord} :
    root.at (layoutElement G pos root).1.1 = some (layoutElement G pos root).1.2 := by
  unfold layoutElement
  cases hc : layoutContaining G pos [] [] root with
  | none => cases root; rfl
  | some r => exact (layoutContaining_spec (root := root) (by cases root; rfl) hc).1

/-! ## Distances -/

theorem distRect_le {pos c : Coord} {r : Rect} (h1 : r.x ≤ c.x) (h2 : c.x ≤ r.x + r.width)
    (h3 : r.y ≤ c.y) (h4 : c.y ≤ r.y + r.height) : distRect pos r ≤ distPoint pos c := by
  unfold distRect distPoint
  have key : ∀ a lo hi c : ℚ, lo ≤ c → c ≤ hi → (max 0 (max (lo - a) (a - hi))) ^ 2 ≤ (c - a) ^ 2 := by
    intro a lo hi c hlo hhi
    rw [sq_le_sq]
    rw [abs_of_nonneg (le_max_left _ _)]
    refine max_le (abs_nonneg _) (max_le ?_ ?_)
    · exact le_trans (by linarith) (le_abs_self _)
    · exact le_trans (by linarith) (neg_le_abs _)
  exact add_le_add (key _ _ _ _ h1 h2) (key _ _ _ _ h3 h4)

end Aftermath
