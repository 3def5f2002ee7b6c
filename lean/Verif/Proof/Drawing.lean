import Verif.Spec.Drawing
import Verif.Proof.Layout
import Mathlib.Tactic.Linarith

/-! # Where carets and selections are drawn -/

namespace Aftermath

/-! ## From left to right -/

/-- Everything below the element is set from left to right. -/
def SetBelow (G : Geom) (path : List Nat) (e : RElem) : Prop :=
  ∀ q c, e.at q = some c → SetLeftToRight G (path ++ q) c

theorem SetBelow.here {G : Geom} {path : List Nat} {e : RElem} (h : SetBelow G path e) :
    SetLeftToRight G path e := by
  have := h [] e (by cases e; rfl)
  rwa [List.append_nil] at this

theorem SetBelow.child {G : Geom} {path : List Nat} {e c : RElem} {i : Nat}
    (h : SetBelow G path e) (hc : e.children[i]? = some c) : SetBelow G (path ++ [i]) c := by
  intro q d hd
  rw [List.append_assoc]
  refine h (i :: q) d ?_
  cases e with
  | mk k t ri cs =>
    simp only [RElem.children] at hc
    simp only [RElem.at, hc, hd]

theorem leafX_between {G : Geom} {path : List Nat} {n lo hi : Nat} {ty : LeafType} {ss : List Str}
    {off : Nat} {x : ℚ} (hr : 0 ≤ (G.own path).width)
    (hs : ∀ i, i < ss.length →
      (G.own path).x ≤ (G.glyph path i).x ∧ (G.glyph path i).x ≤ (G.glyph path i).right ∧
      (G.glyph path i).right ≤ (G.own path).right ∧
      ∀ j, i < j → j < ss.length → (G.glyph path i).right ≤ (G.glyph path j).x)
    (h : leafX G path (.leaf n lo hi ty ss) off = .ok x) :
    (G.own path).x ≤ x ∧ x ≤ (G.own path).right ∧
    ∀ {off' x'}, off ≤ off' → leafX G path (.leaf n lo hi ty ss) off' = .ok x' → x ≤ x' := by
  -- the position of an offset inside the leaf
  have key : ∀ {off : Nat} {x : ℚ}, lo < off → off < hi →
      leafX G path (.leaf n lo hi ty ss) off = .ok x →
      ∃ i, i < ss.length ∧ ((off - lo < ss.length ∧ i = off - lo ∧ x = (G.glyph path i).x) ∨
        (ss.length ≤ off - lo ∧ i = ss.length - 1 ∧ x = (G.glyph path i).right)) := by
    intro off x h1 h2 h
    unfold leafX at h
    rw [if_neg (show ¬ off ≤ (SNode.leaf n lo hi ty ss).lo from Nat.not_le.2 h1),
      if_neg (show ¬ (SNode.leaf n lo hi ty ss).hi ≤ off from Nat.not_le.2 h2)] at h
    obtain ⟨r, hr, h⟩ := M.bind_eq_ok.1 h
    unfold textNodeAt at hr
    by_cases hne : ss.length = 0
    · rw [if_pos (show (SNode.leaf n lo hi ty ss).symbolCount = 0 from hne)] at hr
      cases hr
    · rw [if_neg (show ¬ (SNode.leaf n lo hi ty ss).symbolCount = 0 from hne)] at hr
      cases hr
      simp only [SNode.lo, SNode.symbolCount] at h
      by_cases hle : ss.length ≤ off - lo
      · simp only [hle, decide_true, if_true, Except.ok.injEq] at h
        exact ⟨_, by omega, .inr ⟨hle, rfl, h.symm⟩⟩
      · simp only [hle, decide_false, Bool.false_eq_true, if_false, Except.ok.injEq, add_zero] at h
        exact ⟨_, by omega, .inl ⟨by omega, rfl, h.symm⟩⟩
  have hlow : ∀ {off : Nat} {x : ℚ}, off ≤ lo → leafX G path (.leaf n lo hi ty ss) off = .ok x →
      x = (G.own path).x := by
    intro off x h1 h
    unfold leafX at h
    rw [if_pos (show off ≤ (SNode.leaf n lo hi ty ss).lo from h1)] at h
    cases h
    rfl
  have hhigh : ∀ {off : Nat} {x : ℚ}, lo < off → hi ≤ off →
      leafX G path (.leaf n lo hi ty ss) off = .ok x → x = (G.own path).right := by
    intro off x h1 h2 h
    unfold leafX at h
    rw [if_neg (show ¬ off ≤ (SNode.leaf n lo hi ty ss).lo from Nat.not_le.2 h1),
      if_pos (show (SNode.leaf n lo hi ty ss).hi ≤ off from h2)] at h
    cases h
    rfl
  have hbox : ∀ {off : Nat} {x : ℚ}, leafX G path (.leaf n lo hi ty ss) off = .ok x →
      (G.own path).x ≤ x ∧ x ≤ (G.own path).right := by
    intro off x h
    have hw : (G.own path).x ≤ (G.own path).right := by unfold Rect.right; linarith
    by_cases h1 : off ≤ lo
    · rw [hlow h1 h]; exact ⟨le_refl _, hw⟩
    · by_cases h2 : hi ≤ off
      · rw [hhigh (by omega) h2 h]; exact ⟨hw, le_refl _⟩
      · obtain ⟨i, hi', ⟨-, -, rfl⟩ | ⟨-, -, rfl⟩⟩ := key (by omega) (by omega) h
        · obtain ⟨g1, g2, g3, -⟩ := hs i hi'
          exact ⟨g1, g2.trans g3⟩
        · obtain ⟨g1, g2, g3, -⟩ := hs i hi'
          exact ⟨g1.trans g2, g3⟩
  refine ⟨(hbox h).1, (hbox h).2, ?_⟩
  intro off' x' hle h'
  by_cases h1 : off ≤ lo
  · rw [hlow h1 h]; exact (hbox h').1
  by_cases h2 : hi ≤ off'
  · rw [hhigh (by omega) h2 h']; exact (hbox h).2
  obtain ⟨i, hi1, hc1⟩ := key (by omega) (by omega) h
  obtain ⟨j, hj1, hc2⟩ := key (by omega) (by omega) h'
  rcases hc1 with ⟨a1, a2, rfl⟩ | ⟨a1, a2, rfl⟩
  · rcases hc2 with ⟨b1, b2, rfl⟩ | ⟨b1, b2, rfl⟩
    · rcases Nat.lt_or_ge i j with hij | hij
      · exact (hs i hi1).2.1.trans ((hs i hi1).2.2.2 j hij hj1)
      · have : i = j := by omega
        rw [this]
    · rcases Nat.lt_or_ge i j with hij | hij
      · exact (hs i hi1).2.1.trans (((hs i hi1).2.2.2 j hij hj1).trans (hs j hj1).2.1)
      · have : i = j := by omega
        rw [this]
        exact (hs j hj1).2.1
  · rcases hc2 with ⟨b1, b2, rfl⟩ | ⟨b1, b2, rfl⟩
    · omega
    · rw [a2, b2]

/-- The child that has an offset. -/
theorem caretPositionIn_some {G : Geom} {path : List Nat} {off : Nat} {c : Coord} :
    ∀ {es : List RElem} {i : Nat}, caretPositionIn G path i off es = .ok c →
    ∃ j d, es[j]? = some d ∧ d.tree.hasOffset off = true ∧
      (∀ k d', k < j → es[k]? = some d' → d'.tree.hasOffset off = false) ∧
      caretPosition G (path ++ [i + j]) off d = .ok c
  | [], _, h => by rw [caretPositionIn] at h; cases h
  | e :: es, i, h => by
    rw [caretPositionIn] at h
    split at h
    · rename_i ho
      exact ⟨0, e, rfl, ho, fun k _ hk => absurd hk (Nat.not_lt_zero k), h⟩
    · rename_i ho
      obtain ⟨j, d, h1, h2, h3, h4⟩ := caretPositionIn_some h
      refine ⟨j + 1, d, by simpa using h1, h2, fun k d' hk hd => ?_, ?_⟩
      · cases k with
        | zero =>
          simp only [List.getElem?_cons_zero, Option.some.injEq] at hd
          subst hd
          simpa using ho
        | succ k => exact h3 k d' (by omega) (by simpa using hd)
      · rwa [show i + (j + 1) = i + 1 + j by omega]

theorem Chain.get : ∀ {es : List RElem} {lo hi j : Nat} {d : RElem}, Chain lo hi es →
    es[j]? = some d → lo ≤ d.tree.lo ∧ d.tree.lo ≤ d.tree.hi ∧ d.tree.hi ≤ hi
  | [], _, _, _, _, _, h => by simp at h
  | e :: es, lo, hi, 0, d, hc, h => by
    simp only [List.getElem?_cons_zero, Option.some.injEq] at h
    subst h
    obtain ⟨h1, h2, h3⟩ := hc
    exact ⟨by omega, by omega, h3.le⟩
  | e :: es, lo, hi, j + 1, d, hc, h => by
    obtain ⟨h1, h2, h3⟩ := hc
    have := h3.get (by simpa using h)
    omega

theorem Chain.order : ∀ {es : List RElem} {lo hi i j : Nat} {c d : RElem}, Chain lo hi es →
    es[i]? = some c → es[j]? = some d → i < j → c.tree.hi ≤ d.tree.lo
  | [], _, _, _, _, _, _, _, h, _, _ => by simp at h
  | e :: es, _, _, _, 0, _, _, _, _, _, h => by omega
  | e :: es, _, _, 0, j + 1, c, d, hc, h1, h2, _ => by
    simp only [List.getElem?_cons_zero, Option.some.injEq] at h1
    subst h1
    exact (hc.2.2.get (by simpa using h2)).1
  | e :: es, _, _, i + 1, j + 1, c, d, hc, h1, h2, h => by
    exact hc.2.2.order (by simpa using h1) (by simpa using h2) (by omega)

/-- The carets of an element go from left to right. -/
theorem Laid.ordered {Q : Row → SNode → Prop} {G : Geom} {row : Row} {e : RElem}
    (h : Laid Q row e) : ∀ {path : List Nat}, SetBelow G path e →
    ∀ {off c}, caretPosition G path off e = .ok c →
    e.left G path ≤ c.x ∧ c.x ≤ e.right G path ∧
    ∀ {off' c'}, off ≤ off' → caretPosition G path off' e = .ok c' → c.x ≤ c'.x := by
  induction h with
  | @leaf row k n lo hi ty ss ri hk hss hlt _ _ =>
    intro path hb off c hc
    have hset := hb.here
    have hno : ¬ (RElem.mk k (.leaf n lo hi ty ss) ri []).OpensRows := by
      cases k <;> first | (cases hk; done) | exact fun h => h
    have hedge := hset.edges
    rw [RElem.left, RElem.right, if_neg hno, if_neg hno] at hedge ⊢
    have hw : 0 ≤ (G.own path).width := by linarith
    have hsym := hset.symbols n lo hi ty ss rfl
    have key : ∀ {off c}, caretPosition G path off (.mk k (.leaf n lo hi ty ss) ri []) = .ok c →
        leafX G path (.leaf n lo hi ty ss) off = .ok c.x := by
      intro off c hc
      cases k <;> first | (cases hk; done) | skip
      · rw [caretPosition, massert_bind] at hc
        obtain ⟨x, hx, hc⟩ := M.bind_eq_ok.1 hc.2
        obtain ⟨y, -, hc⟩ := M.bind_eq_ok.1 hc
        cases hc
        exact hx
      · rw [caretPosition, massert_bind] at hc
        obtain ⟨x, hx, hc⟩ := M.bind_eq_ok.1 hc.2
        cases hc
        exact hx
    obtain ⟨h1, h2, h3⟩ := leafX_between hw hsym (key hc)
    exact ⟨h1, h2, fun hle hc' => h3 hle (key hc')⟩
  | @empty row k n lo ri hk _ =>
    intro path hb off c hc
    have hset := hb.here
    have hno : ¬ (RElem.mk k (.children n lo lo []) ri []).OpensRows := by
      rcases hk with rfl | rfl <;> exact fun h => h
    have hedge := hset.edges
    rw [RElem.left, RElem.right, if_neg hno, if_neg hno] at hedge ⊢
    have key : ∀ {off c}, caretPosition G path off (.mk k (.children n lo lo []) ri []) = .ok c →
        c = (G.own path).bottomMiddle := by
      intro off c hc
      rcases hk with rfl | rfl
      all_goals
        rw [caretPosition, massert_bind] at hc
        cases hc.2
        rfl
    rw [key hc]
    refine ⟨?_, ?_, fun _ hc' => by rw [key hc']⟩ <;> simp only [Rect.bottomMiddle] <;> linarith
  | @container row tag n lo hi cs ri es hne hch _ _ ih =>
    intro path hb off c hc
    have hset := hb.here
    have hno : ¬ (RElem.mk (.container tag) (.children n lo hi cs) ri es).OpensRows := fun h => h
    have hedge := hset.edges
    rw [RElem.left, RElem.right, if_neg hno, if_neg hno] at hedge ⊢
    have hkids := hset.children hno
    simp only [RElem.children] at hkids
    have key : ∀ {off c}, caretPosition G path off
        (.mk (.container tag) (.children n lo hi cs) ri es) = .ok c →
        ∃ j d, es[j]? = some d ∧ d.tree.hasOffset off = true ∧
        (∀ k d', k < j → es[k]? = some d' → d'.tree.hasOffset off = false) ∧
        caretPosition G (path ++ [j]) off d = .ok c := by
      intro off c hc
      rw [caretPosition, massert_bind] at hc
      obtain ⟨j, d, h1, h2, h3, h4⟩ := caretPositionIn_some hc.2
      rw [Nat.zero_add] at h4
      exact ⟨j, d, h1, h2, h3, h4⟩
    obtain ⟨j, d, h1, h2, h3, h4⟩ := key hc
    have hb' : ∀ {j d}, es[j]? = some d → SetBelow G (path ++ [j]) d := fun h => hb.child h
    obtain ⟨i1, i2, i3⟩ := ih d (List.mem_of_getElem? h1) (hb' h1) h4
    obtain ⟨k1, k2, k3⟩ := hkids j d h1
    refine ⟨k1.trans i1, i2.trans k2, fun {off' c'} hle hc' => ?_⟩
    obtain ⟨j', d', g1, g2, g3, g4⟩ := key hc'
    obtain ⟨i1', i2', -⟩ := ih d' (List.mem_of_getElem? g1) (hb' g1) g4
    rcases Nat.lt_trichotomy j j' with hj | rfl | hj
    · exact i2.trans ((k3 j' d' hj g1).trans i1')
    · rw [h1] at g1
      cases g1
      exact i3 hle g4
    · exfalso
      have ho := hch.order g1 h1 hj
      have e1 := hasOffset_iff.1 h2
      have e2 := hasOffset_iff.1 g2
      have e3 := h3 j' d' hj g1
      have hge := (hch.get g1).2.1
      rw [← Bool.not_eq_true, hasOffset_iff] at e3
      omega
  | @rows row k n lo w ts ri es v cells hk hr _ _ _ _ =>
    intro path hb off c hc
    have hset := hb.here
    have hyes : (RElem.mk k (.newRows n lo (lo + 1) ts w) ri es).OpensRows := by
      cases k <;> first | (cases hk; done) | exact trivial
    have hedge := hset.edges
    rw [RElem.left, RElem.right, if_pos hyes, if_pos hyes] at hedge ⊢
    have key : ∀ {off c}, caretPosition G path off
        (.mk k (.newRows n lo (lo + 1) ts w) ri es) = .ok c →
        (off = lo ∧ c.x = (G.startReader path).x) ∨
        (off = lo + 1 ∧ c.x = (G.endReader path).x) := by
      intro off c hc
      have : rowsCaretPosition G path (.newRows n lo (lo + 1) ts w) off = .ok c := by
        cases k <;> first | (cases hk; done) | (simpa only [caretPosition] using hc)
      unfold rowsCaretPosition at this
      rw [massert_bind] at this
      obtain ⟨-, this⟩ := this
      split at this
      · rename_i ho
        cases this
        exact .inl ⟨ho, rfl⟩
      · split at this
        · rename_i ho
          cases this
          exact .inr ⟨ho, rfl⟩
        · cases this
    rcases key hc with ⟨h1, h2⟩ | ⟨h1, h2⟩
    · rw [h2]
      refine ⟨le_refl _, hedge, fun hle hc' => ?_⟩
      rcases key hc' with ⟨-, h4⟩ | ⟨-, h4⟩
      · rw [h4]
      · rw [h4]; exact hedge
    · rw [h2]
      refine ⟨hedge, le_refl _, fun hle hc' => ?_⟩
      rcases key hc' with ⟨h3, h4⟩ | ⟨-, h4⟩
      · omega
      · rw [h4]

/-! ## The vertical extent -/

/-- The extent is that of the boxes with the given property. -/
def CoversBoxes (G : Geom) (P : List Nat → Prop) : Option (ℚ × ℚ) → Prop
  | none => ∀ q, ¬ P q
  | some (t, b) => IsExtent G P t b

theorem CoversBoxes.congr {G : Geom} {P P' : List Nat → Prop} {o : Option (ℚ × ℚ)} (h : CoversBoxes G P o)
    (hp : ∀ q, P q ↔ P' q) : CoversBoxes G P' o := by
  have : P = P' := funext fun q => propext (hp q)
  rwa [← this]

theorem CoversBoxes.join {G : Geom} {P P' : List Nat → Prop} {o o' : Option (ℚ × ℚ)}
    (h : CoversBoxes G P o) (h' : CoversBoxes G P' o') :
    CoversBoxes G (fun q => P q ∨ P' q) (joinHeight o o') := by
  cases o with
  | none =>
    have : joinHeight none o' = o' := by cases o' <;> rfl
    rw [this]
    exact h'.congr fun q => ⟨.inr, fun hq => hq.resolve_left (h q)⟩
  | some a =>
    cases o' with
    | none =>
      exact h.congr fun q => ⟨.inl, fun hq => hq.resolve_right (h' q)⟩
    | some a' =>
      obtain ⟨t, b⟩ := a
      obtain ⟨t', b'⟩ := a'
      obtain ⟨c1, ⟨q1, p1, e1⟩, ⟨q2, p2, e2⟩⟩ := h
      obtain ⟨c1', ⟨q1', p1', e1'⟩, ⟨q2', p2', e2'⟩⟩ := h'
      refine ⟨?_, ?_, ?_⟩
      · rintro q (hq | hq)
        · exact ⟨(min_le_left _ _).trans (c1 q hq).1, (c1 q hq).2.trans (le_max_left _ _)⟩
        · exact ⟨(min_le_right _ _).trans (c1' q hq).1, (c1' q hq).2.trans (le_max_right _ _)⟩
      · rcases min_choice t t' with h | h
        · exact ⟨q1, .inl p1, by rw [h, e1]⟩
        · exact ⟨q1', .inr p1', by rw [h, e1']⟩
      · rcases max_choice b b' with h | h
        · exact ⟨q2, .inl p2, by rw [h, e2]⟩
        · exact ⟨q2', .inr p2', by rw [h, e2']⟩

mutual
theorem selectionHeight_covers (G : Geom) (left right : Nat) :
    ∀ (path : List Nat) (e : RElem),
    CoversBoxes G (MakesUp left right path e) (selectionHeight G left right path e)
  | path, .mk k t ri cs => by
    rw [selectionHeight]
    by_cases h1 : right ≤ t.lo ∨ t.hi ≤ left
    · rw [if_pos h1]
      intro q hq
      cases hq with
      | here ht _ => simp only [RElem.Touched, RElem.tree] at ht; omega
      | within ht _ _ _ => simp only [RElem.Touched, RElem.tree] at ht; omega
    · rw [if_neg h1]
      have ht : (RElem.mk k t ri cs).Touched left right := by
        simp only [RElem.Touched, RElem.tree]; omega
      by_cases h2 : ¬ (left ≤ t.lo ∧ t.hi ≤ right) ∧ 0 < cs.length
      · rw [if_pos h2]
        refine (selectionHeightIn_covers G left right path cs 0 none (fun _ => False)
          (fun _ h => h)).congr fun q => ⟨?_, ?_⟩
        · rintro (h | ⟨i, c, hc, hq⟩)
          · exact h.elim
          · rw [Nat.zero_add] at hq
            exact .within ht h2.1 hc hq
        · intro hq
          cases hq with
          | here _ ho =>
            rcases ho with ho | ho
            · exact absurd ho h2.1
            · have hz : cs.length = 0 := by rw [show cs = [] from ho]; rfl
              omega
          | within _ _ hc hq => exact .inr ⟨_, _, hc, by rwa [Nat.zero_add]⟩
      · rw [if_neg h2]
        have hh : (RElem.mk k t ri cs).Inside left right ∨ (RElem.mk k t ri cs).children = [] := by
          by_cases h3 : left ≤ t.lo ∧ t.hi ≤ right
          · exact .inl h3
          · refine .inr (List.length_eq_zero_iff.1 (Nat.eq_zero_of_not_pos fun h => h2 ⟨h3, h⟩))
        have hiff : ∀ q, MakesUp left right path (.mk k t ri cs) q → q = path := by
          intro q hq
          cases hq with
          | here _ _ => rfl
          | within _ hn hc _ =>
            rcases hh with hh | hh
            · exact absurd hh hn
            · rw [hh] at hc; simp at hc
        exact ⟨fun q hq => by rw [hiff q hq]; exact ⟨le_refl _, le_refl _⟩,
          ⟨path, .here ht hh, rfl⟩, ⟨path, .here ht hh, rfl⟩⟩
theorem selectionHeightIn_covers (G : Geom) (left right : Nat) (path : List Nat) :
    ∀ (cs : List RElem) (i : Nat) (acc : Option (ℚ × ℚ)) (P : List Nat → Prop), CoversBoxes G P acc →
    CoversBoxes G (fun q => P q ∨ ∃ j c, cs[j]? = some c ∧ MakesUp left right (path ++ [i + j]) c q)
      (selectionHeightIn G left right path i acc cs)
  | [], i, acc, P, h => by
    rw [selectionHeightIn]
    refine h.congr fun q => ⟨.inl, ?_⟩
    rintro (h | ⟨j, c, hc, _⟩)
    · exact h
    · simp at hc
  | c :: cs, i, acc, P, h => by
    rw [selectionHeightIn]
    refine (selectionHeightIn_covers G left right path cs (i + 1) _ _
      (h.join (selectionHeight_covers G left right (path ++ [i]) c))).congr fun q => ⟨?_, ?_⟩
    · rintro ((h | h) | ⟨j, d, hd, hq⟩)
      · exact .inl h
      · exact .inr ⟨0, c, rfl, h⟩
      · exact .inr ⟨j + 1, d, by simpa using hd, by rwa [show i + (j + 1) = i + 1 + j by omega]⟩
    · rintro (h | ⟨j, d, hd, hq⟩)
      · exact .inl (.inl h)
      · cases j with
        | zero =>
          simp only [List.getElem?_cons_zero, Option.some.injEq] at hd
          subst hd
          exact .inl (.inr hq)
        | succ j =>
          exact .inr ⟨j, d, by simpa using hd, by rwa [show i + 1 + j = i + (j + 1) by omega]⟩
end

theorem Chain.cover : ∀ {es : List RElem} {lo hi k : Nat}, Chain lo hi es → lo ≤ k → k < hi →
    ∃ (j : Nat) (d : RElem), es[j]? = some d ∧ d.tree.lo ≤ k ∧ k < d.tree.hi
  | [], lo, hi, k, h, h1, h2 => by
    have : lo = hi := h
    omega
  | e :: es, lo, hi, k, h, h1, h2 => by
    obtain ⟨g1, g2, g3⟩ := h
    by_cases hk : k < e.tree.hi
    · exact ⟨0, e, rfl, by omega, hk⟩
    · obtain ⟨j, d, h3, h4⟩ := g3.cover (by omega) h2
      exact ⟨j + 1, d, by simpa using h3, h4⟩

/-- Something makes up a selection that is not empty. -/
theorem Laid.makesUp {Q : Row → SNode → Prop} {row : Row} {e : RElem} (h : Laid Q row e)
    {left right : Nat} (hlr : left < right) : ∀ {path : List Nat}, e.Touched left right →
    ∃ q, MakesUp left right path e q := by
  induction h with
  | leaf => exact fun ht => ⟨_, .here ht (.inr rfl)⟩
  | empty => exact fun ht => ⟨_, .here ht (.inr rfl)⟩
  | @container row tag n lo hi cs ri es hne hch _ _ ih =>
    intro path ht
    by_cases hin : (RElem.mk (.container tag) (.children n lo hi cs) ri es).Inside left right
    · exact ⟨_, .here ht (.inl hin)⟩
    · have ht' := ht
      have hin' := hin
      simp only [RElem.Touched, RElem.Inside, RElem.tree, SNode.lo, SNode.hi] at ht' hin'
      obtain ⟨j, d, hd, h1, h2⟩ := hch.cover (k := max left lo) (by omega) (by omega)
      obtain ⟨q, hq⟩ := ih d (List.mem_of_getElem? hd) (path := path ++ [j])
        ⟨by omega, by omega⟩
      exact ⟨q, .within ht hin hd hq⟩
  | @rows row k n lo w ts ri es v cells hk hr _ _ _ _ =>
    intro path ht
    refine ⟨_, .here ht (.inl ?_)⟩
    simp only [RElem.Touched, RElem.Inside, RElem.tree, SNode.lo, SNode.hi] at ht ⊢
    omega

/-! ## Where single carets are -/

theorem caretPositionIn_at {G : Geom} {path : List Nat} {off : Nat} :
    ∀ {es : List RElem} {i j : Nat} {d : RElem}, es[j]? = some d → d.tree.hasOffset off = true →
    (∀ k d', k < j → es[k]? = some d' → d'.tree.hasOffset off = false) →
    caretPositionIn G path i off es = caretPosition G (path ++ [i + j]) off d
  | [], _, _, _, h, _, _ => by simp at h
  | e :: es, i, 0, d, h, ho, _ => by
    simp only [List.getElem?_cons_zero, Option.some.injEq] at h
    subst h
    rw [caretPositionIn, if_pos ho, Nat.add_zero]
  | e :: es, i, j + 1, d, h, ho, hn => by
    rw [caretPositionIn, if_neg (by rw [hn 0 e (Nat.succ_pos j) rfl]; exact Bool.false_ne_true),
      caretPositionIn_at (by simpa using h) ho fun k d' hk hd =>
        hn (k + 1) d' (by omega) (by simpa using hd), show i + 1 + j = i + (j + 1) by omega]

/-- The element with the symbol before an offset has the caret of this offset. -/
theorem Laid.caret_inRow {Q : Row → SNode → Prop} {G : Geom} {row : Row} {e : RElem}
    (h : Laid Q row e) : ∀ {path q : List Nat} {d : RElem} {off : Nat}, InRow path e q d →
    d.tree.lo < off → off ≤ d.tree.hi →
    caretPosition G path off e = caretPosition G q off d ∧ Laid Q row d ∧
      e.tree.lo ≤ d.tree.lo ∧ d.tree.hi ≤ e.tree.hi := by
  induction h with
  | @leaf row k n lo hi ty ss ri h1 h2 h3 h4 h5 =>
    intro path q d off hx _ _
    cases hx with
    | here => exact ⟨rfl, .leaf h1 h2 h3 h4 h5, le_refl _, le_refl _⟩
    | child _ hc _ => simp [RElem.children] at hc
  | @empty row k n lo ri h1 h2 =>
    intro path q d off hx _ _
    cases hx with
    | here => exact ⟨rfl, .empty h1 h2, le_refl _, le_refl _⟩
    | child _ hc _ => simp [RElem.children] at hc
  | @container row tag n lo hi cs ri es hne hch hlen hall ih =>
    intro path q d off hx ho1 ho2
    cases hx with
    | here => exact ⟨rfl, .container hne hch hlen hall, le_refl _, le_refl _⟩
    | @child _ _ _ c _ i _ hc hd =>
      simp only [RElem.children] at hc
      obtain ⟨h1, h2, h3, h4⟩ := ih c (List.mem_of_getElem? hc) hd ho1 ho2
      have hg := hch.get hc
      refine ⟨?_, h2, ?_, ?_⟩
      · rw [caretPosition, caretPositionIn_at hc (hasOffset_iff.2 ⟨by omega, by omega⟩)
          fun k d' hk hd' => ?_, Nat.zero_add, h1]
        · have : massert ((SNode.children n lo hi cs).hasOffset off) = .ok () := by
            rw [show (SNode.children n lo hi cs).hasOffset off = true from
              hasOffset_iff.2 ⟨by simp only [SNode.lo]; omega, by simp only [SNode.hi]; omega⟩]
            rfl
          rw [this, M.ok_bind]
        · rw [← Bool.not_eq_true, hasOffset_iff]
          have := hch.order hd' hc hk
          omega
      · exact hg.1.trans h3
      · exact h4.trans hg.2.2
  | @rows row k n lo w ts ri es v cells hk hr h1 h2 h3 _ =>
    intro path q d off hx _ _
    cases hx with
    | here => exact ⟨rfl, .rows hk hr h1 h2 h3, le_refl _, le_refl _⟩
    | child hno _ _ =>
      exfalso
      apply hno
      cases k <;> first | (cases hk; done) | exact trivial

theorem FirstInRow.final {path q : List Nat} {e d : RElem} (h : FirstInRow path e q d) :
    d.OpensRows ∨ d.children = [] := by
  induction h with
  | here h => exact h
  | child _ _ _ ih => exact ih

/-- The leftmost element has the first caret. -/
theorem Laid.caret_first {Q : Row → SNode → Prop} {G : Geom} {row : Row} {e : RElem}
    (h : Laid Q row e) : ∀ {path q : List Nat} {d : RElem}, FirstInRow path e q d →
    caretPosition G path e.tree.lo e = caretPosition G q e.tree.lo d ∧ Laid Q row d ∧
      d.tree.lo = e.tree.lo := by
  induction h with
  | @leaf row k n lo hi ty ss ri h1 h2 h3 h4 h5 =>
    intro path q d hx
    cases hx with
    | here => exact ⟨rfl, .leaf h1 h2 h3 h4 h5, rfl⟩
    | child _ hc _ => simp [RElem.children] at hc
  | @empty row k n lo ri h1 h2 =>
    intro path q d hx
    cases hx with
    | here => exact ⟨rfl, .empty h1 h2, rfl⟩
    | child _ hc _ => simp [RElem.children] at hc
  | @container row tag n lo hi cs ri es hne hch hlen hall ih =>
    intro path q d hx
    cases hx with
    | here => exact ⟨rfl, .container hne hch hlen hall, rfl⟩
    | @child _ _ _ c _ _ hc hd =>
      simp only [RElem.children] at hc
      cases es with
      | nil => simp at hc
      | cons c' es =>
        simp only [List.getElem?_cons_zero, Option.some.injEq] at hc
        subst hc
        obtain ⟨h1, h2, h3⟩ := ih c' List.mem_cons_self hd
        obtain ⟨g1, g2, g3⟩ := hch
        have hh : lo ≤ hi := g2.trans g3.le
        simp only [RElem.tree, SNode.lo]
        refine ⟨?_, h2, h3.trans g1⟩
        rw [g1] at h1
        rw [caretPosition, caretPositionIn, if_pos (hasOffset_iff.2 ⟨g1.le, g2⟩)]
        have : massert ((SNode.children n lo hi cs).hasOffset lo) = .ok () := by
          rw [show (SNode.children n lo hi cs).hasOffset lo = true from
            hasOffset_iff.2 ⟨le_refl _, hh⟩]
          rfl
        rw [this, M.ok_bind, h1]
  | @rows row k n lo w ts ri es v cells hk hr h1 h2 h3 _ =>
    intro path q d hx
    cases hx with
    | here => exact ⟨rfl, .rows hk hr h1 h2 h3, rfl⟩
    | child hno _ _ =>
      exfalso
      apply hno
      cases k <;> first | (cases hk; done) | exact trivial

/-- The caret of an element that opens new rows. -/
theorem Laid.rows_caret {Q : Row → SNode → Prop} {G : Geom} {row : Row} {e : RElem}
    (h : Laid Q row e) (ho : e.OpensRows) {path : List Nat} {off : Nat} {c : Coord}
    (hc : caretPosition G path off e = .ok c) :
    (off = e.tree.lo ∧ c.x = (G.startReader path).x) ∨
    (off = e.tree.lo + 1 ∧ c.x = (G.endReader path).x) := by
  cases h with
  | leaf hk => rename_i k _ _ _ _ _ _ _ _ _ _; cases k <;> first | (cases hk; done) | cases ho
  | empty hk => rcases hk with rfl | rfl <;> cases ho
  | container => cases ho
  | @rows _ k n lo w ts ri es v cells hk _ _ _ _ =>
    have : rowsCaretPosition G path (.newRows n lo (lo + 1) ts w) off = .ok c := by
      cases k <;> first | (cases hk; done) | (simpa only [caretPosition] using hc)
    unfold rowsCaretPosition at this
    rw [massert_bind] at this
    obtain ⟨-, this⟩ := this
    split at this
    · rename_i ho
      cases this
      exact .inl ⟨ho, rfl⟩
    · split at this
      · rename_i ho
        cases this
        exact .inr ⟨ho, rfl⟩
      · cases this

/-- The caret of a leaf. -/
theorem Laid.leaf_caret {Q : Row → SNode → Prop} {G : Geom} {row : Row} {k : EKind}
    {n lo hi : Nat} {ty : LeafType} {ss : List Str} {ri : Option RowIndex} {cs : List RElem}
    (h : Laid Q row (.mk k (.leaf n lo hi ty ss) ri cs)) {path : List Nat} {off : Nat} {c : Coord}
    (hc : caretPosition G path off (.mk k (.leaf n lo hi ty ss) ri cs) = .ok c) :
    leafX G path (.leaf n lo hi ty ss) off = .ok c.x := by
  cases h with
  | leaf hk =>
    cases k <;> first | (cases hk; done) | skip
    · rw [caretPosition, massert_bind] at hc
      obtain ⟨x, hx, hc⟩ := M.bind_eq_ok.1 hc.2
      obtain ⟨y, -, hc⟩ := M.bind_eq_ok.1 hc
      cases hc
      exact hx
    · rw [caretPosition, massert_bind] at hc
      obtain ⟨x, hx, hc⟩ := M.bind_eq_ok.1 hc.2
      cases hc
      exact hx

end Aftermath
