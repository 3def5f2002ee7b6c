import Verif.Proof.Click
import Verif.Props.Layout

/-! # Drawing and clicking, also with a selection of another formula -/

namespace Aftermath

variable {Q : Row → SNode → Prop} {row : Row} {e : RElem} {G : Geom}

theorem Laid.child (h : Laid Q row e) {i : Nat} {c : RElem} (hc : e.children[i]? = some c) :
    ∃ row', Laid Q row' c := by
  cases h with
  | leaf => cases hc
  | empty => cases hc
  | container _ _ _ h => exact ⟨_, h c (List.mem_of_getElem? hc)⟩
  | rows _ _ hlen h _ =>
    have hi := (List.getElem?_eq_some_iff.1 hc).1
    simp only [RElem.children] at hi
    exact ⟨_, h i _ c (List.getElem?_eq_getElem (by omega)) hc⟩

theorem Laid.at {q : List Nat} : ∀ {row : Row} {e e' : RElem}, Laid Q row e → e.at q = some e' →
    ∃ row', Laid Q row' e' := by
  induction q with
  | nil =>
    intro row e e' h he
    cases e
    cases he
    exact ⟨_, h⟩
  | cons i q ih =>
    intro row e e' h he
    obtain ⟨k, t, ri, cs⟩ := e
    simp only [RElem.at] at he
    split at he
    · rename_i c hc
      obtain ⟨row', h'⟩ := h.child (i := i) hc
      exact ih h' he
    · cases he

theorem layoutLoop_total {root : RElem} {pos : Coord} (hl : Laid Q row root) : ∀ {n : Nat}
    {roots : List (Located × RowIndices)} {best : Closest},
    (∀ x ∈ roots, root.at x.1.1 = some x.1.2) → countRoots roots ≤ n →
    ∃ res, layoutLoop G pos n roots best = .ok res ∧
      (best.isSome = true ∨ roots ≠ [] → res.isSome = true)
  | n, [], best, _, _ => ⟨best, by cases n <;> rfl, fun h => h.elim id (absurd rfl)⟩
  | 0, x :: xs, best, _, hn => by
    exfalso
    rw [countRoots] at hn
    have : 0 < x.1.2.count := by
      cases x.1.2
      rw [RElem.count]
      omega
    omega
  | n + 1, (e, p) :: roots, best, hroots, hn => by
    have hcount : 0 < e.2.count := by
      cases e.2
      rw [RElem.count]
      omega
    rw [countRoots] at hn
    simp only at hn
    rw [layoutLoop]
    have hat : root.at e.1 = some e.2 := hroots _ List.mem_cons_self
    have hrest : ∀ x ∈ roots, root.at x.1.1 = some x.1.2 :=
      fun x hx => hroots x (List.mem_cons_of_mem _ hx)
    by_cases hskip : tooFar G pos e best = true
    · rw [if_pos hskip]
      obtain ⟨res, h1, h2⟩ := layoutLoop_total hl (n := n) (best := best) hrest (by omega)
      cases best with
      | none => cases hskip
      | some b0 => exact ⟨res, h1, fun _ => h2 (.inl rfl)⟩
    · rw [if_neg hskip]
      obtain ⟨r, hr⟩ := hl.at hat
      obtain ⟨off, c, -, -, -, h5, -⟩ := closestInRow_ok (G := G) (pos := pos) (e := e) hr
      simp only [h5, M.ok_bind]
      obtain ⟨b1, hk, -⟩ := keepCloser_some (best := best)
        (new := ((⟨p, off⟩ : MinPos), distPoint pos c))
      rw [hk]
      set new := ((newRowsChildren e.1 e.2).map fun v => (v, addRowIndex p v.2.rowIndex)).reverse
        with hnew
      have hcn : countRoots new + 1 ≤ e.2.count := by
        rw [hnew, countRoots_reverse]
        exact count_newRowsChildren (f := fun v => addRowIndex p v.2.rowIndex)
      obtain ⟨res, h1, h2⟩ := layoutLoop_total hl (n := n) (roots := new ++ roots) (best := some b1)
        (fun x hx => (List.mem_append.1 hx).elim (fun hx => by
          rw [hnew, List.mem_reverse, List.mem_map] at hx
          obtain ⟨v, hv, rfl⟩ := hx
          exact (newRowsChildren_at hat hv).1) (hrest x))
        (by rw [countRoots_append]; omega)
      exact ⟨res, h1, fun _ => h2 (.inl rfl)⟩

/-- A position is found wherever the user clicks. -/
theorem layoutPosition_total (hl : Laid Q row e) (pos : Coord) :
    ∃ m, layoutPosition G pos e = .ok m := by
  have hs := layoutElement_at (root := e) (G := G) (pos := pos)
  obtain ⟨res, h1, h2⟩ := layoutLoop_total (G := G) (pos := pos) hl
    (n := (layoutElement G pos e).1.2.count) (roots := [layoutElement G pos e]) (best := none)
    (fun x hx => by rw [List.mem_singleton] at hx; subst hx; exact hs)
    (by simp [countRoots])
  obtain ⟨⟨m, d⟩, rfl⟩ := Option.isSome_iff_exists.1 (h2 (.inr (List.cons_ne_nil _ _)))
  exact ⟨m, by unfold layoutPosition; simp only [h1, M.ok_bind]⟩

theorem Laid.childWith_kind (h : Laid Q row e) : ∀ {path : List Nat} {i : Nat}, e.tree.lo ≤ i →
    i < e.tree.hi → (childWith path i e).2.children = [] ∨
      ∃ v cells w, row[i]? = some (.container v cells w) ∧
        RowsOver Q row i cells (childWith path i e).2 := by
  induction h with
  | leaf _ _ _ _ hs =>
    intro path i h1 h2
    left
    simp only [childWith, RElem.children]
  | empty _ _ =>
    intro path i h1 h2
    exact absurd h2 (Nat.not_lt.2 h1)
  | container hne hc _ _ ih =>
    intro path i h1 h2
    obtain ⟨e, he, path', h3, h4, h5⟩ := childWithIn_ok (path := path) (i := 0) hc h1 h2
    rw [childWith]
    simp only [h3, Option.getD_some]
    exact ih e he h4 h5
  | @rows row k n lo w' ts ri es v' cells' hk hr hlen hl hc _ =>
    intro path i h1 h2
    simp only [RElem.tree, SNode.lo, SNode.hi] at h1 h2
    have : i = lo := by omega
    subst this
    refine .inr ⟨_, _, _, hr, ?_⟩
    rw [childWith]
    case x_2 => nofun
    exact ⟨hlen, fun j c e h1 h2 => ⟨hl j c e h1 h2, hc j c e h1 h2⟩⟩

theorem findRow_none {path : List Nat} {a b : Nat} : ∀ {es : List RElem} {i j : Nat},
    (∀ k e, es[k]? = some e → e.rowIndex = some (a, j + k)) → j + es.length ≤ b →
    findRow path i b es = none
  | [], _, _, _, _ => rfl
  | e :: es, i, j, h, h1 => by
    have he := h 0 e rfl
    simp only [List.length_cons] at h1
    rw [findRow, he]
    simp only [Nat.add_zero]
    rw [if_neg (by omega)]
    exact findRow_none (j := j + 1) (fun k e' hk => by
      have := h (k + 1) e' (by simpa using hk)
      rwa [show j + 1 + k = j + (k + 1) by omega]) (by omega)

/-- Only elements of rows are found. -/
theorem getElement_sound : ∀ {p : RowIndices} {row : Row} {e : RElem} {path : List Nat} {r : Located},
    LaidRow Q row e → getElement (path, e) p = .ok r →
    ∃ row', rowAt row p = some row' ∧ LaidRow Q row' r.2
  | [], row, e, path, r, h, hr => by
    cases hr
    exact ⟨row, rfl, h⟩
  | (a, b) :: p, row, e, path, r, h, hr => by
    simp only [getElement] at hr
    obtain ⟨_, hm, hr⟩ := M.bind_eq_ok.1 hr
    have hm : e.tree.lo ≤ a ∧ a < e.tree.hi := by
      unfold massert at hm
      split at hm
      · rename_i h; simpa using h
      · cases hm
    split at hr
    · cases hr
    · rename_i r' hf
      rcases h.laid.childWith_kind (path := path) hm.1 hm.2 with h1 | ⟨v, cells, w, h1, hov⟩
      · rw [h1] at hf
        cases hf
      · have hidx : ∀ k e', (childWith path a e).2.children[k]? = some e' →
            e'.rowIndex = some (a, 0 + k) := fun k e' hk => by
          have hk' := (List.getElem?_eq_some_iff.1 hk).1
          rw [Nat.zero_add]
          exact (hov.cell k _ e' (List.getElem?_eq_getElem (by rw [← hov.length]; exact hk'))
            hk).2.2.2.1
        by_cases hb : b < cells.length
        · obtain ⟨p', e', h2, h3⟩ := findRow_ok (path := (childWith path a e).1) (a := a) (b := b)
            (es := (childWith path a e).2.children) (i := 0) (j := 0) hidx (Nat.zero_le _)
            (by rw [hov.length]; omega)
          rw [hf] at h2
          cases h2
          have hcb : cells[b]? = some cells[b] := List.getElem?_eq_getElem hb
          obtain ⟨h4, h5, h6, -, h7⟩ := hov.cell b _ e' hcb h3
          obtain ⟨row', h8, h9⟩ := getElement_sound ⟨h4, h7, h5, h6⟩ hr
          refine ⟨row', ?_, h9⟩
          rw [rowAt]
          simp only [h1, hcb, h8]
        · rw [findRow_none (a := a) (j := 0) hidx (by rw [hov.length]; omega)] at hf
          cases hf

theorem caretPosition_range {path : List Nat} {off : Nat} {c : Coord} (h : Laid Q row e)
    (hc : caretPosition G path off e = .ok c) : e.tree.lo ≤ off ∧ off ≤ e.tree.hi := by
  have key : ∀ {α : Type} {b : Bool} {f : M α} {a : α}, (do massert b; f) = .ok a → b = true := by
    intro α b f a h
    obtain ⟨_, h, -⟩ := M.bind_eq_ok.1 h
    cases b with
    | true => rfl
    | false => cases h
  cases h with
  | leaf hk =>
    rename_i k _ _ _ _ _ _ _ _ _ _
    cases k <;> first
      | (cases hk; done)
      | (simp only [caretPosition] at hc; exact hasOffset_iff.1 (key hc))
  | empty hk =>
    rcases hk with rfl | rfl <;>
    · simp only [caretPosition] at hc
      have := key hc
      simp only [SNode.lo, beq_iff_eq] at this
      subst this
      exact ⟨Nat.le_refl _, Nat.le_refl _⟩
  | container =>
    simp only [caretPosition] at hc
    exact hasOffset_iff.1 (key hc)
  | rows hk =>
    rename_i k _ _ _ _ _ _ _ _ _ _ _ _
    cases k <;> first
      | (cases hk; done)
      | (simp only [caretPosition, rowsCaretPosition] at hc; exact hasOffset_iff.1 (key hc))

theorem renderCaret_iff (h : LaidRow Q row e) (hG : ∀ p, 0 < G.fontSize p) (sel : MinSelection) :
    renderCaret G e sel = .ok () ↔ sel.Within row := by
  cases sel with
  | row rng =>
    constructor
    · intro hr
      simp only [renderCaret] at hr
      obtain ⟨s, h1, -⟩ := M.bind_eq_ok.1 hr
      unfold viewportSelection at h1
      obtain ⟨⟨path, e'⟩, h2, h1⟩ := M.bind_eq_ok.1 h1
      obtain ⟨base, -, h1⟩ := M.bind_eq_ok.1 h1
      obtain ⟨a, h3, h1⟩ := M.bind_eq_ok.1 h1
      obtain ⟨b, h4, -⟩ := M.bind_eq_ok.1 h1
      obtain ⟨row', h5, h6⟩ := getElement_sound h h2
      have ha := caretPosition_range h6.laid h3
      have hb := caretPosition_range h6.laid h4
      rw [h6.hi_eq] at ha hb
      exact ⟨row', h5, ha.2, hb.2⟩
    · rintro ⟨r, hr, h1, h2⟩
      obtain ⟨s, h3⟩ := viewportSelection_ok (G := G) (rng := rng) h hr h1 h2
      obtain ⟨z, h4⟩ := viewportCaretSize_ok hG h hr
      simp only [renderCaret, h3, h4, M.ok_bind]
  | grid g =>
    have key : ∀ p, (∃ s, viewportRowBounds G e p = .ok s) ↔ ∃ r, rowAt row p = some r := by
      intro p
      constructor
      · rintro ⟨s, hs⟩
        unfold viewportRowBounds at hs
        obtain ⟨⟨path, e'⟩, h2, -⟩ := M.bind_eq_ok.1 hs
        obtain ⟨row', h5, -⟩ := getElement_sound h h2
        exact ⟨row', h5⟩
      · rintro ⟨r, hr⟩
        exact viewportRowBounds_ok h hr
    constructor
    · intro hr
      simp only [renderCaret] at hr
      obtain ⟨s, h1, hr⟩ := M.bind_eq_ok.1 hr
      obtain ⟨s', h2, -⟩ := M.bind_eq_ok.1 hr
      exact ⟨(key _).1 ⟨s, h1⟩, (key _).1 ⟨s', h2⟩⟩
    · rintro ⟨h1, h2⟩
      obtain ⟨s, h1⟩ := (key _).2 h1
      obtain ⟨s', h2⟩ := (key _).2 h2
      simp only [renderCaret, h1, h2, M.ok_bind]

end Aftermath
