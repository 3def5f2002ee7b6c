import Verif.Proof.Grids
import Verif.Proof.MathMLMeaning

/-! # Imported formulas with full grids are well formed -/

namespace Aftermath

variable {b : Browser}

theorem rowGrids_append {r r' : Row} : rowGrids (r ++ r') ↔ rowGrids r ∧ rowGrids r' := by
  simp only [rowGrids_iff, List.forall_mem_append]

theorem cellsGrids_iff : ∀ {cells : List Row}, cellsGrids cells ↔ ∀ r ∈ cells, rowGrids r
  | [] => by simp [cellsGrids]
  | r :: rs => by rw [cellsGrids, cellsGrids_iff (cells := rs)]; simp

theorem rowGrids_flatten {rs : List Row} : rowGrids rs.flatten ↔ ∀ r ∈ rs, rowGrids r := by
  induction rs with
  | nil => simp [rowGrids]
  | cons r rs ih => simp [rowGrids_append, ih]

theorem chunk_grids {w : Nat} {rows : List Dom} (hw : ∀ r ∈ rows, r.children.length ≤ w)
    {ls : List Layout} (hl : ls.length = (rows.flatMap Dom.children).length)
    (h : cellsGrids (chunk w rows ls)) : ∀ l ∈ ls, rowGrids (wrapInRow l) := by
  induction rows generalizing ls with
  | nil =>
    have : ls = [] := List.eq_nil_of_length_eq_zero hl
    subst this
    simp
  | cons r rows ih =>
    rw [List.flatMap_cons, List.length_append] at hl
    have h1 := hw r List.mem_cons_self
    have h3 : ((ls.take r.children.length).map wrapInRow).length ≤ w := by
      rw [List.length_map, List.length_take]; omega
    rw [cellsGrids_iff] at h
    simp only [chunk, padCells_eq h3, List.forall_mem_append, List.forall_mem_map] at h
    have h2 := ih (fun r hr => hw r (List.mem_cons_of_mem _ hr))
      (ls := ls.drop r.children.length) (by rw [List.length_drop]; omega) (cellsGrids_iff.2 h.2)
    rw [← List.take_append_drop r.children.length ls, List.forall_mem_append]
    exact ⟨h.1.1, h2⟩

theorem build_grids {d : Dom} {ls : List Layout} (ho : own d = [])
    (hl : ls.length = (kids d).length) (h : rowGrids (wrapInRow (build b d ls))) :
    ¬d.EmptyTable ∧ ∀ l ∈ ls, rowGrids (wrapInRow l) := by
  obtain ⟨t, text, cs⟩ := d
  have hne : t ≠ .mtable → ¬(Dom.elem t text cs).EmptyTable := fun h1 h2 => h1 h2.1
  cases t
  case mtable =>
    have h2 : isTable cs = true := by
      cases h2 : isTable cs with
      | true => rfl
      | false => simp [own, h2] at ho
    simp only [kids, build, h2, if_true] at hl h
    rw [emptyTable_iff h2]
    have hw : ∀ r ∈ cs, r.children.length ≤ tableWidth cs := fun r hr => le_tableWidth hr
    replace h : rowGrids [mlTable _ _] := h
    simp only [rowGrids, mlTable, Node.Grids, and_true] at h
    exact ⟨h.1, chunk_grids hw hl h.2.2⟩
  case math | mrow | mtd =>
    refine ⟨hne (by simp), ?_⟩
    have e : wrapInRow (build b (.elem .math text cs) ls) = (ls.map wrapInRow).flatten := by
      rw [← wrap_many]; rfl
    replace h : rowGrids (wrapInRow (build b (.elem .math text cs) ls)) := h
    rw [e, rowGrids_flatten] at h
    simpa using h
  case msqrt =>
    refine ⟨hne (by simp), ?_⟩
    simp only [build] at h
    rw [wrap_many] at h
    replace h : rowGrids [.container .root [[.symbol _], (ls.map wrapInRow).flatten] 2] := h
    simp only [rowGrids, Node.Grids, cellsGrids, rowGrids_flatten] at h
    simpa using h.1.2.2.2.1
  case mtext | ms | mi | mn | mo | mstyle =>
    have h0 : ls = [] := List.eq_nil_of_length_eq_zero hl
    subst h0
    exact ⟨hne (by simp), by simp⟩
  case mtr | other => simp [own] at ho
  case semantics =>
    refine ⟨hne (by simp), ?_⟩
    rcases cs with _ | ⟨x, cs⟩
    · simp [own] at ho
    · simp only [kids, List.take, List.length_cons, List.length_nil] at hl
      rcases ls with _ | ⟨l, _ | ⟨l', ls⟩⟩ <;> try (simp at hl; done)
      simpa [build] using h
  case mfrac | mroot | munder | mover | msub | msup =>
    refine ⟨hne (by simp), ?_⟩
    have h2 : cs.length = 2 := by
      by_cases h2 : cs.length = 2
      · exact h2
      · simp [own, h2] at ho
    simp only [kids, h2, if_true, List.length_reverse] at hl
    rcases ls with _ | ⟨l, _ | ⟨l', _ | ⟨l'', ls⟩⟩⟩ <;> try (simp at hl; done)
    simp only [build, wrap_append, wrap_append'] at h
    simp [wrapInRow, LayoutItem.nodes, rowGrids, Node.Grids, Node.fraction, Node.root, Node.sub,
      Node.sup, cellsGrids, rowGrids_append] at h ⊢
    first | exact h | exact h.symm
  case munderover | msubsup =>
    refine ⟨hne (by simp), ?_⟩
    have h2 : cs.length = 3 := by
      by_cases h2 : cs.length = 3
      · exact h2
      · simp [own, h2] at ho
    simp only [kids, h2, if_true] at hl
    rcases ls with _ | ⟨l, _ | ⟨l', _ | ⟨l'', _ | ⟨l''', ls⟩⟩⟩⟩ <;> try (simp at hl; done)
    simp only [build, wrap_append, wrap_append'] at h
    simp [LayoutItem.nodes, rowGrids, Node.Grids, Node.sub, Node.sup, cellsGrids, rowGrids_append]
      at h ⊢
    exact h

theorem toLayout_grids (d : Dom) {l es} (h : toLayout b d = .ok (l, es))
    (hgr : rowGrids (wrapInRow l)) : rowWf (wrapInRow l) = true := by
  rw [toLayout_step] at h
  by_cases hb : d.BareScript
  · simp [hb] at h
  simp only [hb, if_false] at h
  cases h1 : toLayouts b (kids d) with
  | error e => rw [h1] at h; cases h
  | ok r =>
    obtain ⟨ls, es'⟩ := r
    rw [h1] at h
    simp only [M.ok_bind, Except.ok.injEq, Prod.mk.injEq] at h
    obtain ⟨rfl, rfl⟩ := h
    have hl := toLayouts_length h1
    have key : ∀ l ∈ ls, ∃ c ∈ kids d, ∃ es₁, toLayout b c = .ok (l, es₁) := by
      obtain ⟨rs, rfl, rfl, e3⟩ := toLayouts_ok h1
      clear h1 hl hgr
      generalize kids d = ks at e3
      induction e3 with
      | nil => simp
      | cons h1 h2 ih =>
        rename_i c r cs rs
        obtain ⟨l, es⟩ := r
        simp only [List.map_cons, List.mem_cons, forall_eq_or_imp, exists_eq_or_imp]
        exact ⟨.inl ⟨es, h1⟩, fun l hl => .inr (ih l hl)⟩
    by_cases ho : own d = []
    · obtain ⟨h2, h3⟩ := build_grids ho hl hgr
      refine (build_wf ho hb hl).2 ⟨h2, fun l hlm => ?_⟩
      obtain ⟨c, hc, es₁, h4⟩ := key l hlm
      have := sizeOf_kids hc
      exact toLayout_grids c h4 (h3 l hlm)
    · rw [build_error ho hb hl]
      rfl
termination_by sizeOf d

end Aftermath
