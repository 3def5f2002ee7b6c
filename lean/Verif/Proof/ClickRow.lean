import Verif.Proof.Click

/-! # Lemmas about the row that a click gives -/

namespace Aftermath

theorem RElem.rowPath_append : ∀ {e c : RElem} {p : List Nat} (q : List Nat), e.at p = some c →
    e.rowPath (p ++ q) = e.rowPath p ++ c.rowPath q
  | e, c, [], q, h => by cases e; cases h; rfl
  | .mk k t ri cs, c, i :: p, q, h => by
    simp only [RElem.at] at h
    simp only [RElem.rowPath, List.cons_append]
    split at h
    · rename_i d hd
      simp only [hd, RElem.rowPath_append q h, List.append_assoc]
    · cases h

theorem RElem.rowPath_child {e c d : RElem} {p : List Nat} {i : Nat} (h : e.at p = some c)
    (hd : c.children[i]? = some d) : e.rowPath (p ++ [i]) = addRowIndex (e.rowPath p) d.rowIndex := by
  rw [RElem.rowPath_append [i] h]
  cases c
  simp only [RElem.children] at hd
  simp only [RElem.rowPath, hd]
  cases d.rowIndex <;> simp [addRowIndex]

mutual
theorem layoutContaining_rowPath {root : RElem} {G : Geom} {pos : Coord} :
    ∀ {e : RElem} {path : List Nat} {r : Located × RowIndices}, root.at path = some e →
    layoutContaining G pos path (root.rowPath path) e = some r → r.2 = root.rowPath r.1.1
  | .mk k t ri cs, path, r, h, hr => by
    rw [layoutContaining] at hr
    split at hr
    · cases hr
    · cases hr
      cases hc : layoutContainingIn G pos path (root.rowPath path) 0 cs with
      | none => rfl
      | some r => exact layoutContainingIn_rowPath (cs := cs) h (fun j c hc => by
          rw [Nat.zero_add]; exact hc) hc
theorem layoutContainingIn_rowPath {root e : RElem} {G : Geom} {pos : Coord} :
    ∀ {cs : List RElem} {path : List Nat} {i : Nat} {r : Located × RowIndices},
    root.at path = some e → (∀ j c, cs[j]? = some c → e.children[i + j]? = some c) →
    layoutContainingIn G pos path (root.rowPath path) i cs = some r → r.2 = root.rowPath r.1.1
  | [], _, _, _, _, _, hr => by simp only [layoutContainingIn, reduceCtorEq] at hr
  | c :: cs, path, i, r, h, hcs, hr => by
    rw [layoutContainingIn] at hr
    have hc := hcs 0 c rfl
    rw [Nat.add_zero] at hc
    rw [← RElem.rowPath_child h hc] at hr
    split at hr
    · rename_i v hv
      cases hr
      exact layoutContaining_rowPath (RElem.at_child h hc) hv
    · exact layoutContainingIn_rowPath (cs := cs) h (fun j d hd => by
        have := hcs (j + 1) d (by simpa using hd)
        rwa [show i + 1 + j = i + (j + 1) by omega]) hr
end

mutual
theorem newRowsChildren_rowPath {root : RElem} : ∀ {e : RElem} {path : List Nat} {v : Located},
    root.at path = some e → v ∈ newRowsChildren path e →
    root.rowPath v.1 = addRowIndex (root.rowPath path) v.2.rowIndex
  | .mk k t ri cs, path, v, h, hv => by
    rw [newRowsChildren] at hv
    exact newRowsChildrenIn_rowPath (cs := cs) (i := 0) h (fun j c hc => by
      rw [Nat.zero_add]; exact hc) hv
theorem newRowsChildrenIn_rowPath {root e : RElem} : ∀ {cs : List RElem} {path : List Nat} {i : Nat}
    {v : Located}, root.at path = some e → (∀ j c, cs[j]? = some c → e.children[i + j]? = some c) →
    v ∈ newRowsChildrenIn path i cs → root.rowPath v.1 = addRowIndex (root.rowPath path) v.2.rowIndex
  | [], _, _, _, _, _, hr => by simp only [newRowsChildrenIn, List.not_mem_nil] at hr
  | c :: cs, path, i, v, h, hcs, hr => by
    rw [newRowsChildrenIn, List.mem_append] at hr
    have hc := hcs 0 c rfl
    rw [Nat.add_zero] at hc
    have hp := RElem.rowPath_child h hc
    rcases hr with hr | hr
    · split at hr
      · rw [List.mem_singleton] at hr
        subst hr
        exact hp
      · rename_i hn
        rw [hn] at hp
        rw [newRowsChildren_rowPath (RElem.at_child h hc) hr, hp]
        rfl
    · exact newRowsChildrenIn_rowPath (cs := cs) h (fun j d hd => by
        have := hcs (j + 1) d (by simpa using hd)
        rwa [show i + 1 + j = i + (j + 1) by omega]) hr
end

/-- A place of a caret in an element of the root, with the rows around it. -/
def Placed (root : RElem) (P : Located → Prop) (G : Geom) (pos : Coord) (b : MinPos × ℚ) : Prop :=
  ∃ (e : Located) (c : Coord), P e ∧ root.at e.1 = some e.2 ∧ b.1.rowIndices = root.rowPath e.1 ∧
    e.2.tree.lo ≤ b.1.offset ∧ b.1.offset ≤ e.2.tree.hi ∧
    caretPosition G e.1 b.1.offset e.2 = .ok c ∧ b.2 = distPoint pos c

theorem closestInRowLoop_placed {G : Geom} {pos : Coord} {e : Located} : ∀ {n i : Nat}
    {best res : Option (Nat × ℚ)},
    (∀ b, best = some b → e.2.tree.lo ≤ b.1 ∧ b.1 ≤ e.2.tree.hi ∧
      ∃ c, caretPosition G e.1 b.1 e.2 = .ok c ∧ b.2 = distPoint pos c) →
    e.2.tree.lo ≤ i → i + n = e.2.tree.hi + 1 ∨ n = 0 →
    closestInRowLoop G pos e n i best = .ok res →
    ∀ b, res = some b → e.2.tree.lo ≤ b.1 ∧ b.1 ≤ e.2.tree.hi ∧
      ∃ c, caretPosition G e.1 b.1 e.2 = .ok c ∧ b.2 = distPoint pos c
  | 0, i, best, res, hb, _, _, h => by
    cases h
    exact hb
  | n + 1, i, best, res, hb, h1, h2, h => by
    rw [closestInRowLoop] at h
    obtain ⟨c, hc, h⟩ := M.bind_eq_ok.1 h
    refine closestInRowLoop_placed ?_ (by omega) (by omega) h
    intro b hk
    have key : b = (i, distPoint pos c) ∨ best = some b := by
      unfold keepCloser at hk
      split at hk
      · split at hk <;> cases hk
        · exact .inl rfl
        · exact .inr rfl
      · cases hk; exact .inl rfl
    rcases key with rfl | hk
    · exact ⟨h1, by simp only; omega, c, hc, rfl⟩
    · exact hb b hk

theorem layoutLoop_placed {root : RElem} {P : Located → Prop}
    (hP : ∀ {a v}, P a → v ∈ newRowsChildren a.1 a.2 → P v) {G : Geom} {pos : Coord} : ∀ {n : Nat}
    {roots : List (Located × RowIndices)} {best res : Closest},
    (∀ r ∈ roots, P r.1 ∧ root.at r.1.1 = some r.1.2 ∧ r.2 = root.rowPath r.1.1) →
    (∀ b, best = some b → Placed root P G pos b) →
    layoutLoop G pos n roots best = .ok res → ∀ b, res = some b → Placed root P G pos b
  | n, [], best, res, _, hb, h => by
    cases n <;> (cases h; exact hb)
  | 0, _ :: _, _, _, _, _, h => by cases h
  | n + 1, (e, p) :: roots, best, res, hr, hb, h => by
    rw [layoutLoop] at h
    have hrest : ∀ r ∈ roots, P r.1 ∧ root.at r.1.1 = some r.1.2 ∧ r.2 = root.rowPath r.1.1 :=
      fun r hm => hr r (List.mem_cons_of_mem _ hm)
    obtain ⟨g1, g2, g3⟩ := hr _ List.mem_cons_self
    simp only at g1 g2 g3
    split at h
    · exact layoutLoop_placed hP hrest hb h
    · obtain ⟨o, ho, h⟩ := M.bind_eq_ok.1 h
      cases o with
      | none => exact layoutLoop_placed hP hrest hb h
      | some o =>
        obtain ⟨off, d⟩ := o
        have hpl := closestInRowLoop_placed (best := none) (by simp) (Nat.le_refl _) (by omega) ho
          _ rfl
        obtain ⟨k1, k2, c, k3, k4⟩ := hpl
        simp only at k1 k2 k3 k4
        refine layoutLoop_placed hP (best := keepCloser best (⟨p, off⟩, d)) ?_ ?_ h
        · intro r hm
          rcases List.mem_append.1 hm with hm | hm
          · rw [List.mem_reverse, List.mem_map] at hm
            obtain ⟨v, hv, rfl⟩ := hm
            refine ⟨hP g1 hv, (newRowsChildren_at g2 hv).1, ?_⟩
            simp only
            rw [newRowsChildren_rowPath g2 hv, g3]
          · exact hrest r hm
        · intro b hk
          unfold keepCloser at hk
          split at hk
          · split at hk <;> cases hk
            · exact ⟨e, c, g1, g2, g3, k1, k2, k3, k4⟩
            · exact hb _ rfl
          · cases hk; exact ⟨e, c, g1, g2, g3, k1, k2, k3, k4⟩

theorem layoutElement_rowPath {e : RElem} {G : Geom} {pos : Coord} :
    (layoutElement G pos e).2 = e.rowPath (layoutElement G pos e).1.1 := by
  unfold layoutElement
  cases hc : layoutContaining G pos [] [] e with
  | none => cases e; rfl
  | some r =>
    exact layoutContaining_rowPath (root := e) (e := e) (path := []) (by cases e; rfl) (by
      rw [show e.rowPath [] = [] by cases e; rfl]
      exact hc)

/-- The whole search, with the rows. -/
theorem layoutPosition_placed {Q : Row → SNode → Prop} {row : Row} {e : RElem} {G : Geom} {pos : Coord}
    (h : OnRow Q row e []) :
    ∃ m d, layoutPosition G pos e = .ok m ∧
      Placed e (Below (layoutElement G pos e).1) G pos (m, d) ∧
      ∀ y, Below (layoutElement G pos e).1 y → ∀ off' c, y.2.tree.lo ≤ off' → off' ≤ y.2.tree.hi →
        caretPosition G y.1 off' y.2 = .ok c →
        (∀ z, Below (layoutElement G pos e).1 z → Below z y →
          distRect pos (G.own z.1) ≤ distPoint pos c) → d ≤ distPoint pos c := by
  have hs := layoutElement_onRow (G := G) (pos := pos) h
  obtain ⟨res, h1, h2, h3, h4⟩ := layoutLoop_ok (G := G) (pos := pos)
    (P := Below (layoutElement G pos e).1) (fun h1 h2 => h1.trans (.step h2 .refl))
    (n := (layoutElement G pos e).1.2.count) (roots := [layoutElement G pos e]) (best := none)
    (fun x hx => by rw [List.mem_singleton] at hx; subst hx; exact ⟨.refl, hs⟩)
    (by simp [countRoots]) nofun
  obtain ⟨⟨m, d⟩, rfl⟩ := Option.isSome_iff_exists.1 (h2 (.inr (List.cons_ne_nil _ _)))
  refine ⟨m, d, ?_, ?_, (h4 _ rfl).2 _ (List.mem_singleton_self _)⟩
  · unfold layoutPosition
    simp only [h1, M.ok_bind]
  · refine layoutLoop_placed (root := e) (fun h1 h2 => h1.trans (.step h2 .refl)) ?_ (fun _ h => by cases h) h1 _ rfl
    intro r hr
    rw [List.mem_singleton] at hr
    subst hr
    exact ⟨.refl, layoutElement_at, layoutElement_rowPath⟩

/-! ## Where the search starts -/

theorem boxContains_iff {pos : Coord} {r : Rect} : r.Contains pos ↔ distRect pos r ≤ 0 := by
  constructor
  · intro h
    have := distRect_le (pos := pos) h.left h.right h.top h.bottom
    simpa [distPoint] using this
  · intro h
    unfold distRect at h
    have key : ∀ m : ℚ, (max 0 m) ^ 2 = 0 → m ≤ 0 := by
      intro m hm
      have := pow_eq_zero_iff (two_ne_zero) |>.1 hm
      rw [← this]
      exact le_max_right _ _
    have h1 := sq_nonneg (max (0 : ℚ) (max (r.x - pos.x) (pos.x - (r.x + r.width))))
    have h2 := sq_nonneg (max (0 : ℚ) (max (r.y - pos.y) (pos.y - (r.y + r.height))))
    have h3 := key _ (le_antisymm (by linarith) h1)
    have h4 := key _ (le_antisymm (by linarith) h2)
    obtain ⟨h5, h6⟩ := max_le_iff.1 h3
    obtain ⟨h7, h8⟩ := max_le_iff.1 h4
    exact ⟨by linarith, by linarith, by linarith, by linarith⟩

mutual
theorem layoutContaining_prefix {G : Geom} {pos : Coord} : ∀ {e : RElem} {path : List Nat}
    {p : RowIndices} {r : Located × RowIndices}, layoutContaining G pos path p e = some r →
    path <+: r.1.1
  | .mk k t ri cs, path, p, r, hr => by
    rw [layoutContaining] at hr
    split at hr
    · cases hr
    · cases hr
      cases hc : layoutContainingIn G pos path p 0 cs with
      | none => exact List.prefix_rfl
      | some r => exact layoutContainingIn_prefix hc
theorem layoutContainingIn_prefix {G : Geom} {pos : Coord} : ∀ {cs : List RElem} {path : List Nat}
    {p : RowIndices} {i : Nat} {r : Located × RowIndices},
    layoutContainingIn G pos path p i cs = some r → path <+: r.1.1
  | [], _, _, _, _, hr => by simp only [layoutContainingIn, reduceCtorEq] at hr
  | c :: cs, path, p, i, r, hr => by
    rw [layoutContainingIn] at hr
    split at hr
    · rename_i v hv
      cases hr
      exact (List.prefix_append _ _).trans (layoutContaining_prefix hv)
    · exact layoutContainingIn_prefix hr
end

theorem layoutContaining_none {G : Geom} {pos : Coord} {e : RElem} {path : List Nat} {p : RowIndices}
    (h : ¬ (G.own path).Contains pos) : layoutContaining G pos path p e = none := by
  cases e
  rw [layoutContaining, if_pos (not_le.1 (boxContains_iff.not.1 h))]

theorem layoutContainingIn_skip {G : Geom} {pos : Coord} {c : RElem} {path : List Nat}
    {p : RowIndices} : ∀ {cs : List RElem} {i k : Nat}, cs[i]? = some c →
    (∀ j < i, ¬ (G.own (path ++ [k + j])).Contains pos) →
    ∃ p', ∀ r, layoutContaining G pos (path ++ [k + i]) p' c = some r →
      layoutContainingIn G pos path p k cs = some r
  | [], _, _, h, _ => by simp at h
  | d :: cs, 0, k, h, _ => by
    cases h
    refine ⟨addRowIndex p c.rowIndex, fun r hr => ?_⟩
    rw [layoutContainingIn]
    simp only [Nat.add_zero] at hr
    simp only [hr]
  | d :: cs, i + 1, k, h, hj => by
    obtain ⟨p', hp⟩ := layoutContainingIn_skip (G := G) (pos := pos) (path := path) (p := p) (cs := cs)
      (i := i) (k := k + 1) (by simpa using h) (fun j hji => by
        have := hj (j + 1) (by omega)
        rwa [show k + 1 + j = k + (j + 1) by omega])
    refine ⟨p', fun r hr => ?_⟩
    rw [layoutContainingIn]
    have h0 := hj 0 (by omega)
    rw [Nat.add_zero] at h0
    simp only [layoutContaining_none h0]
    exact hp r (by rwa [show k + 1 + i = k + (i + 1) by omega])

theorem layoutContaining_extends {G : Geom} {pos : Coord} : ∀ {q path : List Nat} {e e1 : RElem}
    {p : RowIndices}, e.at q = some e1 → (∀ q', q' <+: q → (G.own (path ++ q')).Contains pos) →
    (∀ q' i, q' ++ [i] <+: q → ∀ j < i, ¬ (G.own (path ++ (q' ++ [j]))).Contains pos) →
    ∃ r, layoutContaining G pos path p e = some r ∧ path ++ q <+: r.1.1
  | [], path, .mk k t ri cs, e1, p, _, h1, _ => by
    have h0 := h1 [] List.prefix_rfl
    rw [List.append_nil] at h0
    have : ∃ r, layoutContaining G pos path p (.mk k t ri cs) = some r := by
      rw [layoutContaining, if_neg (not_lt.2 (boxContains_iff.1 h0))]
      exact ⟨_, rfl⟩
    obtain ⟨r, hr⟩ := this
    exact ⟨r, hr, by rw [List.append_nil]; exact layoutContaining_prefix hr⟩
  | i :: q, path, .mk k t ri cs, e1, p, h, h1, h2 => by
    have h0 := h1 [] (List.nil_prefix)
    rw [List.append_nil] at h0
    simp only [RElem.at] at h
    cases hc : cs[i]? with
    | none => rw [hc] at h; cases h
    | some c =>
      rw [hc] at h
      simp only at h
      obtain ⟨p', hp⟩ := layoutContainingIn_skip (G := G) (pos := pos) (path := path) (p := p) (k := 0)
        hc (fun j hj => by
          have := h2 [] i (by simp) j hj
          rwa [Nat.zero_add])
      rw [Nat.zero_add] at hp
      obtain ⟨r, hr, hpre⟩ := layoutContaining_extends (path := path ++ [i]) (p := p') h
        (fun q' hq => by
          have := h1 (i :: q') (by simpa using hq)
          simpa using this)
        (fun q' i' hq j hj => by
          have := h2 (i :: q') i' (by simpa using hq) j hj
          simpa using this)
      refine ⟨r, ?_, by simpa using hpre⟩
      rw [layoutContaining, if_neg (not_lt.2 (boxContains_iff.1 h0)), hp r hr]
      rfl

theorem layoutElement_extends {G : Geom} {pos : Coord} {q : List Nat} {e e1 : RElem}
    (h : e.at q = some e1) (h1 : ∀ q', q' <+: q → (G.own q').Contains pos)
    (h2 : ∀ q' i, q' ++ [i] <+: q → ∀ j < i, ¬ (G.own (q' ++ [j])).Contains pos) :
    q <+: (layoutElement G pos e).1.1 := by
  obtain ⟨r, hr, hp⟩ := layoutContaining_extends (path := []) (p := []) h h1 h2
  unfold layoutElement
  rw [hr]
  exact hp

/-! ## From rows back to elements -/

theorem Chain.within {c : RElem} : ∀ {es : List RElem} {lo hi : Nat}, Chain lo hi es → c ∈ es →
    lo ≤ c.tree.lo ∧ c.tree.hi ≤ hi
  | d :: es, lo, hi, h, hc => by
    rcases List.mem_cons.1 hc with rfl | hc
    · exact ⟨Nat.le_of_eq h.1.symm, h.2.2.le⟩
    · have := h.2.2.within hc
      exact ⟨Nat.le_trans h.2.1 this.1, this.2⟩

theorem childWithIn_index {path : List Nat} {a : Nat} {c : RElem} : ∀ {es : List RElem}
    {i k lo hi : Nat}, Chain lo hi es → es[i]? = some c → c.tree.lo ≤ a → a < c.tree.hi →
    childWithIn path k a es = some (childWith (path ++ [k + i]) a c)
  | [], _, _, _, _, _, hc, _, _ => by simp at hc
  | d :: es, 0, k, lo, hi, _, hc, h1, h2 => by
    cases hc
    rw [childWithIn, if_pos ⟨h1, h2⟩]
    rfl
  | d :: es, i + 1, k, lo, hi, hch, hc, h1, h2 => by
    have hc' : es[i]? = some c := by simpa using hc
    have hge : d.tree.hi ≤ c.tree.lo := by
      exact (hch.2.2.within (List.mem_of_getElem? hc')).1
    rw [childWithIn, if_neg (by omega), childWithIn_index hch.2.2 hc' h1 h2]
    rw [show k + 1 + i = k + (i + 1) by omega]

theorem findRow_index {path : List Nat} {a b : Nat} : ∀ {es : List RElem} {i j : Nat} {c : RElem},
    (∀ k e, es[k]? = some e → e.rowIndex = some (a, j + k)) → es[b]? = some c →
    findRow path i (j + b) es = some (path ++ [i + b], c)
  | [], _, _, _, _, h => by simp at h
  | d :: es, i, j, c, h, hc => by
    have hd := h 0 d rfl
    rw [findRow, hd]
    simp only [Nat.add_zero]
    cases b with
    | zero => cases hc; simp
    | succ b =>
      rw [if_neg (by omega)]
      have := findRow_index (path := path) (a := a) (b := b) (es := es) (i := i + 1) (j := j + 1)
        (c := c) (fun k e hk => by
          have := h (k + 1) e (by simpa using hk)
          rwa [show j + 1 + k = j + (k + 1) by omega]) (by simpa using hc)
      rw [show j + (b + 1) = j + 1 + b by omega, this, show i + 1 + b = i + (b + 1) by omega]

/-- The first row that a path enters. -/
theorem Laid.firstRow {Q : Row → SNode → Prop} : ∀ {path : List Nat} {row : Row} {e e' : RElem}
    (pre : List Nat), Laid Q row e → Clean e → e.at path = some e' →
    e.rowPath path = [] ∨ ∃ (p1 : List Nat) (j : Nat) (p2 : List Nat) (a : Nat) (R cell : RElem) (cr : Row), path = p1 ++ j :: p2 ∧ e.tree.lo ≤ a ∧
      a < e.tree.hi ∧ childWith pre a e = (pre ++ p1, R) ∧ R.children[j]? = some cell ∧
      (∀ (k : Nat) (c : RElem), R.children[k]? = some c → c.rowIndex = some (a, k)) ∧ LaidRow Q cr cell ∧
      Clean cell ∧ e.at (p1 ++ [j]) = some cell ∧ e.rowPath path = (a, j) :: cell.rowPath p2
  | [], _, e, _, _, _, _, _ => by
    cases e
    exact .inl rfl
  | i :: path, row, e, e', pre, hl, hcl, h => by
    cases hcl with
    | @mk k t ri es hn hch =>
    simp only [RElem.at] at h
    cases hc : es[i]? with
    | none => rw [hc] at h; cases h
    | some c =>
    rw [hc] at h
    simp only at h
    have hcm := List.mem_of_getElem? hc
    have e1 : (RElem.mk k t ri es).rowPath (i :: path) = c.rowIndex.toList ++ c.rowPath path := by
      simp [RElem.rowPath, hc]
    cases hl with
    | leaf => simp at hc
    | empty => simp at hc
    | container hne hchain hle hlaid =>
      rw [hn rfl c hcm, Option.toList_none, List.nil_append] at e1
      obtain ⟨w1, w2⟩ := hchain.within hcm
      rcases Laid.firstRow (pre ++ [i]) (hlaid c hcm) (hch c hcm) h with h0 | ⟨p1, j, p2, a, R, cell,
        cr, rfl, h1, h2, h3, h4, h5, h6, h7, h8, h9⟩
      · exact .inl (e1.trans h0)
      · refine .inr ⟨i :: p1, j, p2, a, R, cell, cr, rfl, Nat.le_trans w1 h1, Nat.lt_of_lt_of_le h2 w2,
          ?_, h4, h5, h6, h7, ?_, e1.trans h9⟩
        · have := childWithIn_index (path := pre) (k := 0) hchain hc h1 h2
          rw [Nat.zero_add] at this
          rw [childWith]
          simp only [this, Option.getD_some, h3]
          simp
        · simp only [List.cons_append, RElem.at, hc, h8]
    | @rows _ _ n lo w ts _ _ v cells hk hg hlen hlaid hcell =>
      have hlt : i < cells.length := hlen ▸ (List.getElem?_eq_some_iff.1 hc).1
      have hcr : cells[i]? = some cells[i] := List.getElem?_eq_getElem hlt
      obtain ⟨k1, k2, k3, k4⟩ := hcell i _ c hcr hc
      refine .inr ⟨[], i, path, lo, .mk k (.newRows n lo (lo + 1) ts w) ri es, c, cells[i], rfl, Nat.le_refl _, Nat.lt_succ_self _, ?_, hc, ?_,
        ⟨hlaid i _ c hcr hc, k4, k1, k2⟩, hch c hcm, ?_, ?_⟩
      · rw [childWith, List.append_nil]
        nofun
      · intro k c' hk'
        have hlt : k < cells.length := hlen ▸ (List.getElem?_eq_some_iff.1 hk').1
        exact (hcell k _ c' (List.getElem?_eq_getElem hlt) hk').2.2.1
      · cases c; simp only [List.nil_append, RElem.at, hc]
      · rw [e1, k3]; rfl

/-- Looking for the rows on the path of an element ends at the last of them. -/
theorem getElement_rowPath {Q : Row → SNode → Prop} {row : Row} {e e' : RElem} {path : List Nat}
    (pre : List Nat) (hl : LaidRow Q row e) (hcl : Clean e) (h : e.at path = some e') :
    ∃ rp re p', getElement (pre, e) (e.rowPath path) = .ok (pre ++ rp, re) ∧ path = rp ++ p' ∧
      e.at rp = some re ∧ re.at p' = some e' ∧ re.rowPath p' = [] := by
  induction hn : path.length using Nat.strong_induction_on generalizing path e row pre with
  | _ n ih =>
    subst hn
    rcases Laid.firstRow pre hl.laid hcl h with h0 | ⟨p1, j, p2, a, R, cell, cr, rfl, h1, h2, h3, h4, h5,
      h6, h7, h8, h9⟩
    · refine ⟨[], e, path, ?_, rfl, by cases e; rfl, h, h0⟩
      rw [h0, getElement, List.append_nil]
    · have hat : cell.at p2 = some e' := by
        have : p1 ++ j :: p2 = (p1 ++ [j]) ++ p2 := by simp
        rw [this, RElem.at_append p2 h8] at h
        exact h
      obtain ⟨rp, re, p', g1, rfl, g3, g4, g5⟩ := ih p2.length (by simp; omega)
        (pre ++ p1 ++ [j]) h6 h7 hat rfl
      refine ⟨p1 ++ [j] ++ rp, re, p', ?_, by simp, ?_, g4, g5⟩
      · have hm : (decide (e.tree.lo ≤ a) && decide (a < e.tree.hi)) = true := by
          simp [h1, h2]
        have hfr := findRow_index (path := pre ++ p1) (a := a) (b := j) (es := R.children) (i := 0)
          (j := 0) (c := cell) (fun k c hk => by rw [Nat.zero_add]; exact h5 k c hk) h4
        rw [Nat.zero_add] at hfr
        rw [h9, getElement]
        simp only [hm, massert, if_true, M.ok_bind, h3, hfr, g1]
        simp
      · rw [RElem.at_append rp h8]
        exact g3

end Aftermath

namespace Aftermath

/-! ## From a row to a place in it -/

theorem RElem.at_none : ∀ {p : List Nat} {e : RElem} {q : List Nat}, e.at p = none →
    e.at (p ++ q) = none
  | [], e, _, h => by cases e; cases h
  | i :: p, .mk k t ri cs, q, h => by
    simp only [RElem.at] at h
    simp only [List.cons_append, RElem.at]
    split
    · rename_i d hd
      rw [hd] at h
      exact RElem.at_none h
    · rfl

theorem Clean.at : ∀ {path : List Nat} {e c : RElem}, Clean e → e.at path = some c → Clean c
  | [], e, c, h, hc => by cases e; cases hc; exact h
  | i :: path, .mk k t ri es, c, h, hc => by
    simp only [RElem.at] at hc
    split at hc
    · rename_i d hd
      cases h with
      | mk _ h2 => exact Clean.at (h2 d (List.mem_of_getElem? hd)) hc
    · cases hc

theorem caretPositionIn_index {G : Geom} {path : List Nat} {off : Nat} {c : RElem} :
    ∀ {es : List RElem} {i k lo hi : Nat}, Chain lo hi es → es[i]? = some c → c.tree.lo ≤ off →
    off ≤ c.tree.hi → c.tree.lo < off ∨ i = 0 →
    caretPositionIn G path k off es = caretPosition G (path ++ [k + i]) off c
  | [], _, _, _, _, _, hc, _, _, _ => by simp at hc
  | d :: es, 0, k, lo, hi, _, hc, h1, h2, _ => by
    cases hc
    rw [caretPositionIn, if_pos (hasOffset_iff.2 ⟨h1, h2⟩)]
    rfl
  | d :: es, i + 1, k, lo, hi, hch, hc, h1, h2, h3 => by
    have hc' : es[i]? = some c := by simpa using hc
    have hge := (hch.2.2.within (List.mem_of_getElem? hc')).1
    have hlt : c.tree.lo < off := by omega
    rw [caretPositionIn, if_neg (by rw [hasOffset_iff]; omega),
      caretPositionIn_index hch.2.2 hc' h1 h2 (.inl hlt)]
    rw [show k + 1 + i = k + (i + 1) by omega]

/-- Inside a row, the place of an offset is that in the element found there, unless the offset is at
the start of this element. -/
theorem Laid.caretPosition_at {Q : Row → SNode → Prop} {G : Geom} {off : Nat} : ∀ {path : List Nat}
    {row : Row} {e e' : RElem} {pre : List Nat}, Laid Q row e → Clean e → e.at path = some e' →
    e.rowPath path = [] → e'.tree.lo ≤ off → off ≤ e'.tree.hi → e'.tree.lo < off ∨ path = [] →
    e.tree.lo ≤ e'.tree.lo ∧ e'.tree.hi ≤ e.tree.hi ∧
      caretPosition G pre off e = caretPosition G (pre ++ path) off e'
  | [], _, e, _, pre, _, _, h, _, _, _, _ => by
    cases e
    cases h
    exact ⟨Nat.le_refl _, Nat.le_refl _, by rw [List.append_nil]⟩
  | i :: path, row, e, e', pre, hl, hcl, h, hp, h1, h2, h3 => by
    have h3 : e'.tree.lo < off := by simpa using h3
    cases hcl with
    | @mk k t ri es hn hch =>
    simp only [RElem.at] at h
    cases hc : es[i]? with
    | none => rw [hc] at h; cases h
    | some c =>
    rw [hc] at h
    simp only at h
    have hcm := List.mem_of_getElem? hc
    have e1 : (RElem.mk k t ri es).rowPath (i :: path) = c.rowIndex.toList ++ c.rowPath path := by
      simp [RElem.rowPath, hc]
    rw [e1, List.append_eq_nil_iff] at hp
    cases hl with
    | leaf => simp at hc
    | empty => simp at hc
    | container hne hchain hle hlaid =>
      obtain ⟨w1, w2⟩ := hchain.within hcm
      obtain ⟨k1, k2, k3⟩ := Laid.caretPosition_at (G := G) (pre := pre ++ [i]) (hlaid c hcm)
        (hch c hcm) h hp.2 h1 h2 (.inl h3)
      have := caretPositionIn_index (G := G) (path := pre) (k := 0) hchain hc
        (Nat.le_trans k1 h1) (Nat.le_trans h2 k2) (.inl (Nat.lt_of_le_of_lt k1 h3))
      rw [Nat.zero_add] at this
      refine ⟨Nat.le_trans w1 k1, Nat.le_trans k2 w2, ?_⟩
      rw [caretPosition, this, k3, (hasOffset_iff (t := .children _ _ _ _)).2
        ⟨Nat.le_trans w1 (Nat.le_trans k1 h1), Nat.le_trans h2 (Nat.le_trans k2 w2)⟩]
      simp only [massert, if_true, M.ok_bind, List.append_assoc, List.cons_append, List.nil_append]
    | @rows _ _ n lo w ts _ _ v cells hk hg hlen hlaid hcell =>
      have hlt : i < cells.length := hlen ▸ (List.getElem?_eq_some_iff.1 hc).1
      rw [(hcell i _ c (List.getElem?_eq_getElem hlt) hc).2.2.1] at hp
      cases hp.1

end Aftermath
