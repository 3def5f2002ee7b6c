import Verif.Proof.Spaces
import Verif.Props.NotationConverse

/-! # C107: spaces between tokens have no meaning -/

namespace Aftermath

theorem plainRow_iff {row : Row} : PlainRow row ↔ (∀ s, Node.symbol s ∈ row → ∃ c, s = [c]) ∧
    ∀ v cells w, Node.container v cells w ∈ row → ∀ c ∈ cells, PlainRow c := by
  constructor
  · intro h
    refine ⟨h.here, fun v cells w hm c hc => ?_⟩
    obtain ⟨i, hi⟩ := List.mem_iff_getElem?.1 hm
    exact h.cell hi hc
  · rintro ⟨h1, h2⟩ p r s hp hs
    cases p with
    | nil => cases hp; exact h1 s hs
    | cons ij p =>
      obtain ⟨i, j⟩ := ij
      rw [rowAt] at hp
      split at hp
      · rename_i v cells w hi
        split at hp
        · rename_i c hc
          exact h2 _ _ _ (List.mem_of_getElem? hi) _ (List.mem_of_getElem? hc) p r s hp hs
        · cases hp
      · cases hp

theorem addSpace_wf {x : Xid} {row row' : Row} (h : AddSpace x row row') : rowWf row = rowWf row' := by
  induction h with
  | here => simp only [rowWf_append, rowWf, sy, Node.wf, Bool.true_and]
  | @cell p q v cells w c c' i hi _ ih =>
    have : (Node.container v cells w).wf = (Node.container v (cells.set i c') w).wf := by
      rw [Bool.eq_iff_iff, wf_container, wf_container, List.length_set]
      refine and_congr_right fun _ => ⟨fun h d hd => ?_, fun h d hd => ?_⟩
      · rcases List.mem_or_eq_of_mem_set hd with hd | rfl
        · exact h d hd
        · rw [← ih]; exact h c (List.mem_of_getElem? hi)
      · obtain ⟨j, hj⟩ := List.mem_iff_getElem?.1 hd
        by_cases he : i = j
        · subst he
          rw [hi] at hj
          cases hj
          rw [ih]
          exact h c' (List.mem_of_getElem? (List.getElem?_set_self (List.getElem?_eq_some_iff.1 hi).1))
        · exact h d (List.mem_of_getElem? ((List.getElem?_set_ne he).trans hj))
    simp only [rowWf_append, rowWf, this]

theorem addSpace_plain {x : Xid} {row row' : Row} (h : AddSpace x row row') : PlainRow row ↔ PlainRow row' := by
  induction h with
  | here =>
    rw [plainRow_iff, plainRow_iff]
    simp only [List.mem_append, List.mem_cons, sy, Node.symbol.injEq, reduceCtorEq, false_or]
    refine and_congr_left fun _ => ⟨fun h s hs => ?_, fun h s hs => h s ?_⟩
    · rcases hs with hs | rfl | hs
      · exact h s (.inl hs)
      · exact ⟨' ', rfl⟩
      · exact h s (.inr hs)
    · rcases hs with hs | hs
      · exact .inl hs
      · exact .inr (.inr hs)
  | @cell p q v cells w c c' i hi _ ih =>
    have key : (∀ d ∈ cells, PlainRow d) ↔ ∀ d ∈ cells.set i c', PlainRow d := by
      refine ⟨fun h d hd => ?_, fun h d hd => ?_⟩
      · rcases List.mem_or_eq_of_mem_set hd with hd | rfl
        · exact h d hd
        · rw [← ih]; exact h c (List.mem_of_getElem? hi)
      · obtain ⟨j, hj⟩ := List.mem_iff_getElem?.1 hd
        by_cases he : i = j
        · subst he
          rw [hi] at hj
          cases hj
          rw [ih]
          exact h c' (List.mem_of_getElem? (List.getElem?_set_self (List.getElem?_eq_some_iff.1 hi).1))
        · exact h d (List.mem_of_getElem? ((List.getElem?_set_ne he).trans hj))
    rw [plainRow_iff, plainRow_iff]
    simp only [List.mem_append, List.mem_cons, Node.container.injEq, reduceCtorEq, false_or]
    refine and_congr_right fun _ => ⟨fun h v' cells' w' hm => ?_, fun h v' cells' w' hm => ?_⟩
    · rcases hm with hm | ⟨rfl, rfl, rfl⟩ | hm
      · exact h v' cells' w' (.inl hm)
      · exact key.1 (h v' cells w' (.inr (.inl ⟨rfl, rfl, rfl⟩)))
      · exact h v' cells' w' (.inr (.inr hm))
    · rcases hm with hm | ⟨rfl, rfl, rfl⟩ | hm
      · exact h v' cells' w' (.inl hm)
      · exact key.2 (h v' _ w' (.inr (.inl ⟨rfl, rfl, rfl⟩)))
      · exact h v' cells' w' (.inr (.inr hm))

/-- **C107** Two rows differ by spaces, in the row itself or in any cells, none of them in a string, between two
characters of names or numbers, or in empty brackets. Then both are ways to write the same formulas. -/
theorem C107_written {x : Xid} (hx : x.Usual) {row row' : Row} (h : SpacesApart x row row') (e : Formula)
    (l r : Nat) : e.Writes x l r row ↔ e.Writes x l r row' := by
  induction h with
  | refl => exact Iff.rfl
  | add _ h ih => exact ih.trans (addSpace_writes hx h e l r)
  | remove _ h ih => exact ih.trans (addSpace_writes hx h e l r).symm

/-- **C107** Then the syntax tree of one has errors if and only if that of the other has, and both mean the
same formula. -/
theorem C107 (x : Xid) (hx : x.Usual) :
    ∃ g m, createParser x = .ok (g, m) ∧ ∀ row row', rowWf row = true → PlainRow row → SpacesApart x row row' →
      ∃ t t', g.parse row = .ok t ∧ g.parse row' = .ok t' ∧ (ErrorFree g t ↔ ErrorFree g t') ∧
        ∀ e, Conveys m t e ↔ Conveys m t' e := by
  obtain ⟨g, m, h, hp⟩ := C78 x hx
  refine ⟨g, m, h, fun row row' hw hpl hs => ?_⟩
  have hw' : rowWf row' = true ∧ PlainRow row' := by
    clear hp h
    induction hs with
    | refl => exact ⟨hw, hpl⟩
    | add _ h ih => exact ⟨addSpace_wf h ▸ ih.1, (addSpace_plain h).1 ih.2⟩
    | remove _ h ih => exact ⟨(addSpace_wf h).trans ih.1, (addSpace_plain h).2 ih.2⟩
  obtain ⟨t, h1, h2, h3⟩ := hp row hw hpl
  obtain ⟨t', h4, h5, h6⟩ := hp row' hw'.1 hw'.2
  refine ⟨t, t', h1, h4, ?_, fun e => ?_⟩
  · rw [h2, h5]
    exact exists_congr fun e => C107_written hx hs e 0 0
  · rw [h3, h6]
    exact C107_written hx hs e 0 0

/-! ## Cases -/

/-- The place beside an operator. -/
private theorem beside (p q : Row) (hp : quoteAfter p = .out) (hq : q.head? = some (sy '+')) :
    Neutral letterXid p q := by
  refine ⟨hp, fun a b _ hb ⟨_, c, h1, h2⟩ => ?_, fun ⟨_, h⟩ => ?_⟩
  · rw [hq] at hb
    cases hb
    cases h1
    exact absurd h2 (by decide)
  · rw [hq] at h
    cases h

/-- `2` over `x+1`, and the same with a space before the plus sign. -/
example : ∃ g m t t', createParser letterXid = .ok (g, m) ∧
    g.parse [.container .fraction [[sy '2'], [sy 'x', sy '+', sy '1']] 1] = .ok t ∧
    g.parse [.container .fraction [[sy '2'], [sy 'x', sy ' ', sy '+', sy '1']] 1] = .ok t' ∧
    ∀ e, Conveys m t e ↔ Conveys m t' e := by
  obtain ⟨g, m, h, hp⟩ := C107 letterXid letterXid_usual
  have h1 : AddSpace letterXid [.container .fraction [[sy '2'], [sy 'x', sy '+', sy '1']] 1]
      [.container .fraction [[sy '2'], [sy 'x', sy ' ', sy '+', sy '1']] 1] :=
    .cell (p := []) (q := []) (i := 1) rfl (.here (p := [sy 'x']) (q := [sy '+', sy '1']) (beside _ _ rfl rfl))
  obtain ⟨t, t', h2, h3, -, h4⟩ := hp _ _ rfl (by
    rw [plainRow_iff]
    refine ⟨by simp, fun v cells w hm c hc => ?_⟩
    simp only [List.mem_singleton, Node.container.injEq] at hm
    obtain ⟨-, rfl, -⟩ := hm
    rcases List.mem_cons.1 hc with rfl | hc
    · exact plain_symbols ['2']
    · rw [List.mem_singleton.1 hc]
      exact plain_symbols ['x', '+', '1']) (.add (.refl _) h1)
  exact ⟨g, m, t, t', h, h2, h3, h4⟩

-- The excluded places are needed: a space in a number or in empty brackets gives an error, and a space
-- in the sign of an operator another operator.
example : (∃ e : Formula, e.Writes letterXid 0 0 (rowOf "12")) ∧
    ¬ (∃ e : Formula, e.Writes letterXid 0 0 (rowOf "1 2")) ∧
    (∃ e : Formula, e.Writes letterXid 0 0 (rowOf "f()")) ∧
    ¬ (∃ e : Formula, e.Writes letterXid 0 0 (rowOf "f( )")) := by
  simp only [← readsText_iff]
  decide +kernel

/-- `limsupx` and `lim supx` -/
example : (Formula.pre .limSup 0 Fin.elim0 Fin.elim0 (.variable ['x'])).Writes letterXid 0 0
      ("limsup".toList.map sy ++ sp 0 ++ ['x'].map sy) ∧
    (Formula.pre .lim 0 Fin.elim0 Fin.elim0 (.variable "supx".toList)).Writes letterXid 0 0
      ("lim".toList.map sy ++ sp 1 ++ "supx".toList.map sy) :=
  ⟨.pre (rows := Fin.elim0) (by decide) (.sign 0) nofun
      (.variable ⟨'x', [], rfl, by decide, nofun, by decide⟩) rfl,
    .pre (rows := Fin.elim0) (by decide) (.sign 1) nofun
      (.variable ⟨'s', "upx".toList, rfl, by decide, by decide, by decide⟩) (by decide)⟩

end Aftermath
