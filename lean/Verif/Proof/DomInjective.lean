import Verif.Proof.Dom

/-! # Formulas that read the same are the same -/

namespace Aftermath

/-- What can follow a row. -/
def Stop : List Sign → Prop
  | [] | .cellEnd :: _ | .leave :: _ => True
  | _ => False

theorem shape_width {v : Variant} {n w w' : Nat} (h : shapeOk v n w = true)
    (h' : shapeOk v n w' = true) (ht : (if v = .table then w else 0) = if v = .table then w' else 0) :
    w = w' := by
  cases v <;> simp_all [shapeOk]

theorem row_leave {r : Row} (h : RowOneChar r) {k k' : List Sign}
    (he : rowSigns r ++ .cellEnd :: k = .leave :: k') : False := by
  cases r with
  | nil => simp [rowSigns] at he
  | cons n r =>
    rw [rowSigns] at he
    cases n with
    | symbol s =>
      rw [RowOneChar, Node.OneChar] at h
      match s, h.1 with
      | [c], _ => simp [Node.signs] at he
    | container v cells w => simp [Node.signs] at he

mutual
theorem row_inj : ∀ {r r' : Row} {k k' : List Sign}, RowOneChar r → RowOneChar r' →
    rowWf r = true → rowWf r' = true → Stop k → Stop k' → rowSigns r ++ k = rowSigns r' ++ k' →
    r = r' ∧ k = k'
  | [], [], k, k', _, _, _, _, _, _, h => by
    simp only [rowSigns, List.nil_append] at h
    exact ⟨rfl, h⟩
  | [], n :: r', k, k', _, h1, _, _, hk, _, h => by
    exfalso
    rw [RowOneChar] at h1
    cases n with
    | symbol s =>
      rw [Node.OneChar] at h1
      match s, h1.1 with
      | [c], _ =>
        simp only [rowSigns, Node.signs, List.map_cons, List.map_nil, List.cons_append,
          List.nil_append] at h
        rw [h] at hk
        exact hk
    | container v cells w =>
      simp only [rowSigns, Node.signs, List.cons_append, List.nil_append] at h
      rw [h] at hk
      exact hk
  | n :: r, [], k, k', h1, _, _, _, _, hk, h => by
    exfalso
    rw [RowOneChar] at h1
    cases n with
    | symbol s =>
      rw [Node.OneChar] at h1
      match s, h1.1 with
      | [c], _ =>
        simp only [rowSigns, Node.signs, List.map_cons, List.map_nil, List.cons_append,
          List.nil_append] at h
        rw [← h] at hk
        exact hk
    | container v cells w =>
      simp only [rowSigns, Node.signs, List.cons_append, List.nil_append] at h
      rw [← h] at hk
      exact hk
  | .symbol s :: r, .symbol s' :: r', k, k', h1, h2, w1, w2, hk, hk', h => by
    rw [RowOneChar, Node.OneChar] at h1 h2
    rw [rowWf, Bool.and_eq_true] at w1 w2
    match s, s', h1.1, h2.1 with
    | [c], [c'], _, _ =>
      simp only [rowSigns, Node.signs, List.map_cons, List.map_nil, List.cons_append,
        List.nil_append, List.cons.injEq, Sign.char.injEq] at h
      obtain ⟨rfl, h⟩ := h
      obtain ⟨rfl, h3⟩ := row_inj h1.2 h2.2 w1.2 w2.2 hk hk' h
      exact ⟨rfl, h3⟩
  | .symbol s :: r, .container v cells w :: r', k, k', h1, h2, w1, w2, hk, hk', h => by
    exfalso
    rw [RowOneChar, Node.OneChar] at h1
    match s, h1.1 with
    | [c], _ => simp [rowSigns, Node.signs] at h
  | .container v cells w :: r, .symbol s :: r', k, k', h1, h2, w1, w2, hk, hk', h => by
    exfalso
    rw [RowOneChar, Node.OneChar] at h2
    match s, h2.1 with
    | [c], _ => simp [rowSigns, Node.signs] at h
  | .container v cells w :: r, .container v' cells' w' :: r', k, k', h1, h2, w1, w2, hk, hk', h => by
    rw [RowOneChar, Node.OneChar] at h1 h2
    rw [rowWf, Bool.and_eq_true, Node.wf, Bool.and_eq_true] at w1 w2
    simp only [rowSigns, Node.signs, List.cons_append, List.append_assoc, List.cons.injEq,
      Sign.enter.injEq] at h
    obtain ⟨⟨rfl, hw⟩, h⟩ := h
    obtain ⟨rfl, h3⟩ := cells_inj h1.1 h2.1 w1.1.2 w2.1.2 h
    obtain ⟨rfl, h4⟩ := row_inj h1.2 h2.2 w1.2 w2.2 hk hk' h3
    have := shape_width w1.1.1 w2.1.1 hw
    subst this
    exact ⟨rfl, h4⟩
theorem cells_inj : ∀ {cs cs' : List Row} {k k' : List Sign}, CellsOneChar cs → CellsOneChar cs' →
    cellsWf cs = true → cellsWf cs' = true → cellsSigns cs ++ k = cellsSigns cs' ++ k' →
    cs = cs' ∧ k = k'
  | [], [], k, k', _, _, _, _, h => by
    simp only [cellsSigns, List.cons_append, List.nil_append, List.cons.injEq, true_and] at h
    exact ⟨rfl, h⟩
  | [], c :: cs, k, k', _, h2, _, _, h => by
    rw [CellsOneChar] at h2
    simp only [cellsSigns, List.append_assoc, List.cons_append, List.nil_append] at h
    exact (row_leave h2.1 h.symm).elim
  | c :: cs, [], k, k', h1, _, _, _, h => by
    rw [CellsOneChar] at h1
    simp only [cellsSigns, List.append_assoc, List.cons_append, List.nil_append] at h
    exact (row_leave h1.1 h).elim
  | c :: cs, c' :: cs', k, k', h1, h2, w1, w2, h => by
    rw [CellsOneChar] at h1 h2
    rw [cellsWf, Bool.and_eq_true] at w1 w2
    simp only [cellsSigns, List.append_assoc, List.cons_append] at h
    obtain ⟨rfl, h3⟩ := row_inj h1.1 h2.1 w1.1 w2.1 (show Stop (.cellEnd :: _) from trivial)
      (show Stop (.cellEnd :: _) from trivial) h
    simp only [List.cons.injEq, true_and] at h3
    obtain ⟨rfl, h4⟩ := cells_inj h1.2 h2.2 w1.2 w2.2 h3
    exact ⟨rfl, h4⟩
end

end Aftermath
