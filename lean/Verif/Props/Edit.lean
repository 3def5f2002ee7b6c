import Verif.Proof.Grid

/-! # Property theorems C01–C04: edits of the input tree -/

namespace Aftermath

/-! ## C01 -/

/-- C01, insertion: the edit applies, and the result is the tree with only the addressed row
replaced by left part ++ values ++ right part. -/
theorem C01_insert (cfg : Cfg) {root r : Row} (hwf : rowWf root = true) {p : MinPos}
    (hp : rowAt root p.rowIndices = some r) (ho : p.offset ≤ r.length) (vs : List Node) :
    ∃ root', applyEdit cfg root (.row ⟨.insert, p, vs⟩) = .ok root' ∧
      ReplacedAt root p.rowIndices r (r.take p.offset ++ vs ++ r.drop p.offset) root' := by
  have hf : RowEdit.applyToRow ⟨.insert, p, vs⟩ r =
      .ok (r.take p.offset ++ vs ++ r.drop p.offset) := by
    simp [RowEdit.applyToRow, ho]
  obtain ⟨root', h⟩ := editRowAt_ok hwf hp hf
  obtain ⟨old, new, h1, h2, h3⟩ := editRowAt_replaced h
  rw [hp] at h1; cases h1
  rw [hf] at h2; cases h2
  exact ⟨root', h, h3⟩

/-- C01, deletion: the edit applies, and the result is the tree with only the addressed row
replaced by left part ++ the part right of the deleted range. -/
theorem C01_delete (cfg : Cfg) {root r : Row} (hwf : rowWf root = true) {p : MinPos}
    (hp : rowAt root p.rowIndices = some r) (vs : List Node)
    (ho : p.offset + vs.length ≤ r.length) :
    ∃ root', applyEdit cfg root (.row ⟨.delete, p, vs⟩) = .ok root' ∧
      ReplacedAt root p.rowIndices r
        (r.take p.offset ++ r.drop (p.offset + vs.length)) root' := by
  have hf : RowEdit.applyToRow ⟨.delete, p, vs⟩ r =
      .ok (r.take p.offset ++ r.drop (p.offset + vs.length)) := by
    simp [RowEdit.applyToRow, ho]
  obtain ⟨root', h⟩ := editRowAt_ok hwf hp hf
  obtain ⟨old, new, h1, h2, h3⟩ := editRowAt_replaced h
  rw [hp] at h1; cases h1
  rw [hf] at h2; cases h2
  exact ⟨root', h, h3⟩

/-- C01, converse: a row edit whose position does not exist, or whose deleted range does not fit,
panics; it never edits some other place. -/
theorem C01_invalid_panics (cfg : Cfg) {root : Row} {e : RowEdit}
    (h : ∀ r, rowAt root e.position.rowIndices = some r →
      r.length < e.position.offset + (if e.editType = .delete then e.values.length else 0)) :
    ∃ x, applyEdit cfg root (.row e) = .error x := by
  cases hr : applyEdit cfg root (.row e) with
  | error x => exact ⟨x, rfl⟩
  | ok root' =>
    exfalso
    obtain ⟨old, new, h1, h2, -⟩ := editRowAt_replaced (show editRowAt _ _ _ = _ from hr)
    have := h old h1
    obtain ⟨t, p, vs⟩ := e
    cases t with
    | insert =>
      simp only [RowEdit.applyToRow] at h2
      split at h2
      · simp at this; omega
      · cases h2
    | delete =>
      simp only [RowEdit.applyToRow] at h2
      split at h2
      · simp at this; omega
      · cases h2

/-- C01, frame: what `ReplacedAt` says about the rows of the tree. The addressed row has the new
content; a row that neither encloses nor lies below it is unchanged; in an enclosing row the
length, all other nodes, and the variant, width, number of cells and other cells of the
container on the way are unchanged. -/
theorem C01_frame {root root' old new : Row} {p : RowIndices}
    (h : ReplacedAt root p old new root') :
    rowAt root p = some old ∧ rowAt root' p = some new ∧
    (∀ q, ¬ p <+: q → ¬ q <+: p → rowAt root' q = rowAt root q) ∧
    (∀ q i j p', p = q ++ (i, j) :: p' →
      ∃ r r' v cells cells' w, rowAt root q = some r ∧ rowAt root' q = some r' ∧
        r'.length = r.length ∧ (∀ k, k ≠ i → r'[k]? = r[k]?) ∧
        r[i]? = some (.container v cells w) ∧ r'[i]? = some (.container v cells' w) ∧
        cells'.length = cells.length ∧ (∀ k, k ≠ j → cells'[k]? = cells[k]?)) ∧
    (∀ root'', ReplacedAt root p old new root'' → root'' = root') :=
  ⟨h.rowAt_old, h.rowAt_new, fun _ h1 h2 => h.rowAt_other h1 h2,
    fun _ _ _ _ hp => (hp ▸ h).rowAt_enclosing, fun _ h' => h'.unique h⟩

/-- C01, the whole claim in one statement, for both kinds of edits. -/
theorem C01_row_edit (cfg : Cfg) {root r : Row} (hwf : rowWf root = true) {e : RowEdit}
    (hp : rowAt root e.position.rowIndices = some r)
    (ho : e.position.offset + (if e.editType = .delete then e.values.length else 0) ≤ r.length) :
    ∃ root', applyEdit cfg root (.row e) = .ok root' ∧
      rowAt root' e.position.rowIndices = some (r.take e.position.offset ++
        (if e.editType = .insert then e.values else []) ++
        r.drop (e.position.offset + (if e.editType = .delete then e.values.length else 0))) ∧
      (∀ q, ¬ e.position.rowIndices <+: q → ¬ q <+: e.position.rowIndices →
        rowAt root' q = rowAt root q) := by
  obtain ⟨t, p, vs⟩ := e
  cases t with
  | insert =>
    obtain ⟨root', h1, h2⟩ := C01_insert cfg hwf hp (by simpa using ho) vs
    exact ⟨root', h1, by simpa using h2.rowAt_new, fun q => h2.rowAt_other⟩
  | delete =>
    obtain ⟨root', h1, h2⟩ := C01_delete cfg hwf hp vs (by simpa using ho)
    exact ⟨root', h1, by simpa using h2.rowAt_new, fun q => h2.rowAt_other⟩

section Examples

private def x : Node := .symbol ['x']
private def y : Node := .symbol ['y']
/-- `x frac(x, y) y` -/
private def exRoot : Row := [x, .fraction [x] [y, y], y]

/-- Insert `x` between the two `y` of the denominator. -/
example : rowWf exRoot = true ∧ rowAt exRoot [(1, 1)] = some [y, y] ∧ 1 ≤ [y, y].length ∧
    applyEdit .dev exRoot (.row ⟨.insert, ⟨[(1, 1)], 1⟩, [x]⟩) =
      .ok [x, .fraction [x] [y, x, y], y] := by decide +kernel

/-- Delete the fraction. -/
example : applyEdit .dev exRoot (.row ⟨.delete, ⟨[], 1⟩, [.fraction [x] [y, y]]⟩) = .ok [x, y] ∧
    1 + 1 ≤ exRoot.length := by decide +kernel

/-- A row that does not exist. -/
example : rowAt exRoot [(0, 1)] = none := by decide +kernel

end Examples

/-! ## C02 -/

/-- C02: recorded row edits are invertible. -/
theorem C02_edits_inverse (cfg : Cfg) {root root' : Row} {es : List BasicEdit}
    (ht : Truthful cfg root es) (h : applyEdits cfg root es = .ok root') :
    applyEdits cfg root' (es.reverse.map BasicEdit.inverse) = .ok root :=
  applyEdits_inverse ht h

/-- C02, redo: inverting twice gives the edits back, so redo after undo reapplies them. -/
theorem C02_inverse_inverse (es : List BasicEdit) :
    ((es.reverse.map BasicEdit.inverse).reverse.map BasicEdit.inverse) = es := by
  have h1 : ∀ t : EditType, t.inverse.inverse = t := by intro t; cases t <;> rfl
  have h2 : ∀ e : BasicEdit, e.inverse.inverse = e := by
    intro e; cases e with
    | row e => obtain ⟨t, p, v⟩ := e; simp [BasicEdit.inverse, RowEdit.inverse, h1]
    | grid e => obtain ⟨t, ei, d, k, v⟩ := e; simp [BasicEdit.inverse, GridEdit.inverse, h1]
  rw [← List.map_reverse, List.reverse_reverse, List.map_map]
  conv_rhs => rw [← List.map_id es]
  exact List.map_congr_left fun e _ => h2 e

/-- The truthfulness hypothesis of C02 is needed: a deletion that records other nodes does not
invert. -/
theorem C02_truth_needed :
    ∃ root root' e, applyEdit Cfg.dev root e = .ok root' ∧
      applyEdit Cfg.dev root' e.inverse ≠ .ok root :=
  ⟨[x], [], .row ⟨.delete, ⟨[], 0⟩, [y]⟩, by decide +kernel, by decide +kernel⟩

/-- Two edits in different rows of a tree, recorded truthfully. -/
example : Truthful .dev exRoot [.row ⟨.delete, ⟨[(1, 1)], 0⟩, [y]⟩, .row ⟨.insert, ⟨[], 3⟩, [x]⟩] ∧
    applyEdits .dev exRoot [.row ⟨.delete, ⟨[(1, 1)], 0⟩, [y]⟩, .row ⟨.insert, ⟨[], 3⟩, [x]⟩] =
      .ok [x, .fraction [x] [y], y, x] := by
  refine ⟨⟨fun _ => ⟨[y, y], by decide +kernel, by decide +kernel⟩, fun _ _ =>
    ⟨fun h => (by cases h), fun _ _ => trivial⟩⟩, by decide +kernel⟩

/-! ## C03 -/

/-- C03, row insertion on the table's grid. -/
theorem C03_rows (cfg : Cfg) {old ins : GridVec Row} {w h hv k : Nat}
    (ho : GridSize old w h) (hi : GridSize ins w hv) (hk : k ≤ h) (ei : ElementIndices) :
    ∃ g, GridEdit.applyToGrid cfg ⟨.insert, ei, .row, k, ins⟩ old = .ok g ∧
      GridSize g w (h + hv) ∧
      ∀ x y, x < w → gridCell g x y =
        if y < k then gridCell old x y
        else if y < k + hv then gridCell ins x (y - k)
        else gridCell old x (y - hv) := by
  have hos := ho.size
  have his := hi.size
  obtain ⟨how, hw, hol⟩ := ho
  obtain ⟨hiw, -, hil⟩ := hi
  have hkw : k * w ≤ h * w := Nat.mul_le_mul_right _ hk
  have e : w * k = k * w := Nat.mul_comm _ _
  have hlen : (old.values.take (w * k) ++ ins.values ++ old.values.drop (w * k)).length =
      (h + hv) * w := by
    rw [List.length_append, List.length_append, List.length_take, List.length_drop, hol, hil, e,
      Nat.add_mul]
    omega
  have hg : GridSize (⟨old.values.take (w * k) ++ ins.values ++ old.values.drop (w * k), w⟩ :
    GridVec Row) w (h + hv) := ⟨rfl, hw, hlen⟩
  refine ⟨_, ?_, hg, ?_⟩
  · simp only [GridEdit.applyToGrid, GridEdit.newGridSize, hos, his, M.ok_bind, massert,
      beq_self_eq_true, if_true]
    rw [fromOneDimensional_ok hw hlen]
    simp only [hg.size, M.ok_bind, beq_self_eq_true, if_true]
  · intro x y hx
    simp only [gridCell, how, hiw, hx, if_true]
    exact insertRows_cell hol hil hk hx

/-- C03, column insertion on the table's grid. -/
theorem C03_columns (cfg : Cfg) {old ins : GridVec Row} {w h wi k : Nat}
    (ho : GridSize old w h) (hi : GridSize ins wi h) (hk : k ≤ w) (ei : ElementIndices) :
    ∃ g, GridEdit.applyToGrid cfg ⟨.insert, ei, .column, k, ins⟩ old = .ok g ∧
      GridSize g (w + wi) h ∧
      ∀ x y, x < w + wi → y < h → gridCell g x y =
        if x < k then gridCell old x y
        else if x < k + wi then gridCell ins (x - k) y
        else gridCell old (x - wi) y := by
  have hos := ho.size
  have his := hi.size
  obtain ⟨how, hw, hol⟩ := ho
  obtain ⟨hiw, hwi, hil⟩ := hi
  obtain ⟨res, hres, hlen, hcell⟩ := insertColumnsLoop_spec (cfg := cfg) hk h _ _ hol hil
  have hg : GridSize (⟨res, w + wi⟩ : GridVec Row) (w + wi) h := ⟨rfl, by omega, hlen⟩
  refine ⟨⟨res, w + wi⟩, ?_, hg, ?_⟩
  · simp only [GridEdit.applyToGrid, GridEdit.newGridSize, hos, his, M.ok_bind, massert,
      beq_self_eq_true, if_true, hres]
    rw [fromOneDimensional_ok (by omega) hlen]
    simp [hg.size]
  · intro x y hx hy
    simp only [gridCell, hx, if_true]
    rw [hcell x y hx hy, how, hiw]
    by_cases h1 : x < k
    · simp [h1, show x < w by omega]
    · by_cases h2 : x < k + wi
      · simp [h1, h2, show x - k < wi by omega]
      · simp [h1, h2, show x - wi < w by omega]

/-- C03, in the tree: a grid insertion at a table changes only that table, whose cells are
replaced by the grid of `C03_rows`/`C03_columns`. -/
theorem C03_tree (cfg : Cfg) {root r : Row} (hwf : rowWf root = true) {e : GridEdit}
    {cells : List Row} {w : Nat} {g : GridVec Row}
    (hp : rowAt root e.elementIndices.rowIndices = some r)
    (ht : r[e.elementIndices.index]? = some (.container .table cells w))
    (hg : e.applyToGrid cfg ⟨cells, w⟩ = .ok g) :
    ∃ root', applyEdit cfg root (.grid e) = .ok root' ∧
      ReplacedAt root e.elementIndices.rowIndices r
        (r.set e.elementIndices.index (.container .table g.values g.width)) root' := by
  have hf : e.applyToRow cfg r =
      .ok (r.set e.elementIndices.index (.container .table g.values g.width)) := by
    rw [applyToRow_table ht, hg]; rfl
  obtain ⟨root', h⟩ := editRowAt_ok hwf hp hf
  obtain ⟨old, new, h1, h2, h3⟩ := editRowAt_replaced h
  rw [hp] at h1; cases h1
  rw [hf] at h2; cases h2
  exact ⟨root', h, h3⟩

/-- C03, only tables can be resized: when a grid edit can be applied to a tree, then its path leads to a
table, and only this table is another one. -/
theorem C03_only_tables (cfg : Cfg) {root root' : Row} {e : GridEdit}
    (h : applyEdit cfg root (.grid e) = .ok root') :
    ∃ r cells w cells' w', rowAt root e.elementIndices.rowIndices = some r ∧
      r[e.elementIndices.index]? = some (.container .table cells w) ∧
      ReplacedAt root e.elementIndices.rowIndices r
        (r.set e.elementIndices.index (.container .table cells' w')) root' := by
  obtain ⟨old, new, h1, h2, h3⟩ := editRowAt_replaced h
  unfold GridEdit.applyToRow at h2
  cases hn : old[e.elementIndices.index]? with
  | none => rw [hn] at h2; cases h2
  | some n =>
    rw [hn] at h2
    cases n with
    | symbol s => cases h2
    | container v cells w =>
      cases v with
      | table =>
        obtain ⟨g, -, hg⟩ := M.bind_eq_ok.1 h2
        cases hg
        exact ⟨old, cells, w, _, _, h1, hn, h3⟩
      | _ => cases h2

/-- A row cannot be added to a fraction. -/
example : applyEdit .dev [.fraction [x] [y]]
    (.grid ⟨.insert, ⟨[], 0⟩, .row, 1, ⟨[[x]], 1⟩⟩) = .error .assertion := by decide +kernel

/-- C03, what an insertion reports to the carets (`get_row_indices_edit`): the interval of offsets
it reports starts at the insertion index and is as long as the table grows in the chosen
direction; for the inverse edit the two ends are swapped. -/
theorem C03_offsets (cfg : Cfg) {old ins g : GridVec Row} {w h iw ih w' h' k : Nat}
    {d : GridDirection} (ho : GridSize old w h) (hi : GridSize ins iw ih) (ei : ElementIndices)
    (hg : GridEdit.applyToGrid cfg ⟨.insert, ei, d, k, ins⟩ old = .ok g)
    (hs : GridSize g w' h')
    (hdir : match d with
      | .row => iw = w ∧ k ≤ h
      | .column => ih = h ∧ k ≤ w) :
    ∃ n, (match d with
        | .row => w' = w ∧ h' = h + n
        | .column => w' = w + n ∧ h' = h) ∧
      BasicEdit.getRowIndicesEdit (.grid ⟨.insert, ei, d, k, ins⟩) =
        .ok (.gridIndexEdit ei d k (k + n)) ∧
      BasicEdit.getRowIndicesEdit (BasicEdit.inverse (.grid ⟨.insert, ei, d, k, ins⟩)) =
        .ok (.gridIndexEdit ei d (k + n) k) := by
  have his := hi.size
  have hsz := hs.size
  cases d with
  | row =>
    obtain ⟨rfl, hk⟩ := hdir
    obtain ⟨g', hg', hs', -⟩ := C03_rows cfg ho hi hk ei
    rw [hg] at hg'; cases hg'
    rw [hs'.size] at hsz; cases hsz
    refine ⟨ih, ⟨rfl, rfl⟩, ?_, ?_⟩ <;>
      simp [BasicEdit.getRowIndicesEdit, BasicEdit.inverse, GridEdit.inverse, EditType.inverse,
        GridEdit.getRowIndicesEdit, his]
  | column =>
    obtain ⟨rfl, hk⟩ := hdir
    obtain ⟨g', hg', hs', -⟩ := C03_columns cfg ho hi hk ei
    rw [hg] at hg'; cases hg'
    rw [hs'.size] at hsz; cases hsz
    refine ⟨iw, ⟨rfl, rfl⟩, ?_, ?_⟩ <;>
      simp [BasicEdit.getRowIndicesEdit, BasicEdit.inverse, GridEdit.inverse, EditType.inverse,
        GridEdit.getRowIndicesEdit, his]

/-- Inserting one column of two cells at index 1 of a table of two columns reports `1..2`. -/
example : BasicEdit.getRowIndicesEdit
    (.grid ⟨.insert, ⟨[(0, 0)], 0⟩, .column, 1, ⟨[[x], [x, x]], 1⟩⟩) =
    .ok (.gridIndexEdit ⟨[(0, 0)], 0⟩ .column 1 2) := rfl

/-- Well-formed tables have a proper grid size, so C03 applies to each of them. -/
theorem C03_table_size {cells : List Row} {w : Nat}
    (h : (Node.container .table cells w).wf = true) :
    ∃ hh, GridSize (⟨cells, w⟩ : GridVec Row) w hh ∧ 0 < hh := by
  have h := (wf_container.1 h).1
  simp only [shapeOk, Bool.and_eq_true, decide_eq_true_eq, beq_iff_eq] at h
  obtain ⟨⟨h1, h2⟩, h3⟩ := h
  refine ⟨cells.length / w, ⟨rfl, by omega, ?_⟩, ?_⟩
  · exact (Nat.div_mul_cancel (Nat.dvd_of_mod_eq_zero (by omega))).symm
  · exact Nat.div_pos (Nat.le_of_dvd (by omega) (Nat.dvd_of_mod_eq_zero (by omega))) (by omega)

/-- Insert the column `(x, xx)` between the two columns of a table inside a fraction. -/
example : applyEdit .dev [.fraction [.container .table [[x], [y], [], [y, y]] 2] []]
    (.grid ⟨.insert, ⟨[(0, 0)], 0⟩, .column, 1, ⟨[[x], [x, x]], 1⟩⟩) =
    .ok [.fraction [.container .table [[x], [x], [y], [], [x, x], [y, y]] 3] []] := by decide +kernel

/-- Insert a row below the first row of a table. -/
example : applyEdit .dev [.container .table [[x], [y], [], [y, y]] 2]
    (.grid ⟨.insert, ⟨[], 0⟩, .row, 1, ⟨[[x, x], []], 2⟩⟩) =
    .ok [.container .table [[x], [y], [x, x], [], [], [y, y]] 2] := by decide +kernel

/-! ## C04: false of this commit -/

/-- C04 is false for every input: deleting at least one whole row that the table has, or at
least one whole column, always panics (in both build profiles). -/
theorem C04_grid_delete_panics (cfg : Cfg) {old del : GridVec Row} {w h dw dh k : Nat}
    {d : GridDirection} (ho : GridSize old w h) (hd : GridSize del dw dh)
    (hdir : match d with
      | .row => dw = w ∧ 0 < dh ∧ k + dh ≤ h
      | .column => dh = h ∧ 0 < h ∧ k + dw ≤ w)
    (ei : ElementIndices) :
    ∃ x, GridEdit.applyToGrid cfg ⟨.delete, ei, d, k, del⟩ old = .error x := by
  have hos := ho.size
  have hds := hd.size
  obtain ⟨how, hw, hol⟩ := ho
  obtain ⟨hdw, hdw0, hdl⟩ := hd
  cases d with
  | row =>
    obtain ⟨rfl, h0, hk⟩ := hdir
    have hx : GridVec.size (⟨old.values, dw⟩ : GridVec Row) = .ok (dw, h) := by
      rw [← how] at hos ⊢; exact hos
    refine ⟨.assertion, ?_⟩
    simp only [GridEdit.applyToGrid, GridEdit.newGridSize, hos, hds, M.ok_bind, massert,
      beq_self_eq_true, if_true, usub_of_le (show dh ≤ h by omega), List.take_append_drop]
    rw [fromOneDimensional_ok hw hol]
    have : ¬ (h = h - dh) := by omega
    simp [hx, this]
  | column =>
    obtain ⟨rfl, h0, hk⟩ := hdir
    simp only [GridEdit.applyToGrid, GridEdit.newGridSize, hos, hds, M.ok_bind, massert,
      beq_self_eq_true, if_true, usub_of_le (show dw ≤ w by omega)]
    rw [deleteColumnsLoop_id (show k ≤ w by omega) dh _ hol]
    simp only [M.ok_bind]
    unfold GridVec.fromOneDimensional
    by_cases hz : w - dw = 0
    · exact ⟨.assertion, by simp [hz]⟩
    · by_cases hm : old.values.length % (w - dw) = 0
      · refine ⟨.assertion, ?_⟩
        have hlt : dh < old.values.length / (w - dw) := by
          rw [Nat.lt_div_iff_mul_lt (by omega), hol]
          have hsz : dh * (w - dw) + dh * dw = dh * w := by
            rw [← Nat.mul_add]; congr 1; omega
          have : 0 < dh * dw := Nat.mul_pos h0 hdw0
          have hm' : dh * w % (w - dw) = 0 := by rw [← hol]; exact hm
          have hge : w - dw ≤ dh * dw := by
            have hdvd : (w - dw) ∣ dh * w := Nat.dvd_of_mod_eq_zero hm'
            have h2 : (w - dw) ∣ dh * (w - dw) := Dvd.intro_left _ rfl
            have h3 : (w - dw) ∣ dh * dw := (Nat.dvd_add_right h2).1 (hsz ▸ hdvd)
            exact Nat.le_of_dvd this h3
          omega
        have : ¬ (old.values.length / (w - dw) = dh) := by omega
        simp [hz, hm, GridVec.size, this]
      · exact ⟨.assertion, by simp [hz, hm]⟩

/-- C04 is false: every grid insertion of matching non-empty size into a table succeeds, and
undoing it by its inverse edit panics. -/
theorem C04_undo_of_grid_insert_panics (cfg : Cfg) {old ins : GridVec Row} {w h iw ih k : Nat}
    {d : GridDirection} (ho : GridSize old w h) (hi : GridSize ins iw ih)
    (hdir : match d with
      | .row => iw = w ∧ 0 < ih ∧ k ≤ h
      | .column => ih = h ∧ 0 < h ∧ k ≤ w)
    (ei : ElementIndices) :
    ∃ g, GridEdit.applyToGrid cfg ⟨.insert, ei, d, k, ins⟩ old = .ok g ∧
      ∃ x, GridEdit.applyToGrid cfg (GridEdit.inverse ⟨.insert, ei, d, k, ins⟩) g = .error x := by
  cases d with
  | row =>
    obtain ⟨rfl, h0, hk⟩ := hdir
    obtain ⟨g, hg, hs, -⟩ := C03_rows cfg ho hi hk ei
    exact ⟨g, hg, C04_grid_delete_panics cfg (k := k) hs hi (d := .row) ⟨rfl, h0, by omega⟩ ei⟩
  | column =>
    obtain ⟨rfl, h0, hk⟩ := hdir
    obtain ⟨g, hg, hs, -⟩ := C03_columns cfg ho hi hk ei
    exact ⟨g, hg,
      C04_grid_delete_panics cfg (k := k) hs hi (d := .column) ⟨rfl, h0, by omega⟩ ei⟩

/-- The tree-level statement: on a tree with a table the inverse edit panics. -/
theorem C04_false : ¬ ∀ (cfg : Cfg) (root root' : Row) (e : GridEdit),
    applyEdit cfg root (.grid e) = .ok root' →
    applyEdit cfg root' (.grid e.inverse) = .ok root := by
  intro h
  have := h .dev [.container .table [[x], [y]] 1] [.container .table [[x], [], [y]] 1]
    ⟨.insert, ⟨[], 0⟩, .row, 1, ⟨[[]], 1⟩⟩ (by decide +kernel)
  revert this
  decide +kernel

/-- C04 is false of every tree: after a grid insertion of matching non-empty size into a table
anywhere in a well-formed tree, applying the inverse edit panics. -/
theorem C04_tree_panics (cfg : Cfg) {root r : Row} (hwf : rowWf root = true)
    {p : RowIndices} {i w h iw ih k : Nat} {cells : List Row} {ins : GridVec Row}
    {d : GridDirection} (hp : rowAt root p = some r)
    (ht : r[i]? = some (.container .table cells w))
    (ho : GridSize (⟨cells, w⟩ : GridVec Row) w h) (hi : GridSize ins iw ih)
    (hdir : match d with
      | .row => iw = w ∧ 0 < ih ∧ k ≤ h
      | .column => ih = h ∧ 0 < h ∧ k ≤ w) :
    ∃ root', applyEdit cfg root (.grid ⟨.insert, ⟨p, i⟩, d, k, ins⟩) = .ok root' ∧
      ∃ x, applyEdit cfg root' (BasicEdit.inverse (.grid ⟨.insert, ⟨p, i⟩, d, k, ins⟩)) =
        .error x := by
  obtain ⟨g, hg, x, hx⟩ := C04_undo_of_grid_insert_panics cfg ho hi hdir ⟨p, i⟩
  obtain ⟨root', h1, h2⟩ := C03_tree cfg hwf (e := ⟨.insert, ⟨p, i⟩, d, k, ins⟩) hp ht hg
  refine ⟨root', h1, ?_⟩
  cases he : applyEdit cfg root' (BasicEdit.inverse (.grid ⟨.insert, ⟨p, i⟩, d, k, ins⟩)) with
  | error x => exact ⟨x, rfl⟩
  | ok root'' =>
    obtain ⟨old, new, h3, h4, -⟩ := editRowAt_replaced he
    have h5 := h2.rowAt_new
    replace h3 : rowAt root' p = some old := h3
    replace h5 : rowAt root' p = some _ := h5
    rw [h5] at h3; cases h3
    have hlt : i < r.length := (List.getElem?_eq_some_iff.1 ht).1
    rw [applyToRow_table (cells := g.values) (w := g.width)
      (by simp [GridEdit.inverse, hlt])] at h4
    obtain ⟨g', hg', -⟩ := M.bind_eq_ok.1 h4
    replace hx : GridEdit.applyToGrid cfg (GridEdit.inverse ⟨.insert, ⟨p, i⟩, d, k, ins⟩)
      ⟨g.values, g.width⟩ = .error x := hx
    rw [hx] at hg'; cases hg'

/-- What is left of C04: when the inverse of a grid insertion into a non-empty table does apply,
it gives back the original grid. (By the theorems above it only applies when nothing was
inserted.) Missing for the full C04: that the inverse applies. -/
theorem C04_partial (cfg : Cfg) {old ins g g' : GridVec Row} {w h iw ih k : Nat}
    {d : GridDirection} (ho : GridSize old w h) (h0 : 0 < h) (hi : GridSize ins iw ih)
    (hdir : match d with
      | .row => iw = w ∧ k ≤ h
      | .column => ih = h ∧ k ≤ w)
    (ei : ElementIndices)
    (hg : GridEdit.applyToGrid cfg ⟨.insert, ei, d, k, ins⟩ old = .ok g)
    (hg' : GridEdit.applyToGrid cfg (GridEdit.inverse ⟨.insert, ei, d, k, ins⟩) g = .ok g') :
    g' = old := by
  cases d with
  | column =>
    obtain ⟨rfl, hk⟩ := hdir
    obtain ⟨g2, hg2, x, hx⟩ := C04_undo_of_grid_insert_panics cfg (d := .column) ho hi
      ⟨rfl, h0, hk⟩ ei
    rw [hg] at hg2; cases hg2
    rw [hg'] at hx; cases hx
  | row =>
    obtain ⟨rfl, hk⟩ := hdir
    by_cases hz : ih = 0
    · subst hz
      have hv : ins.values = [] := by have := hi.2.2; simpa using this
      have hos := ho.size
      have his := hi.size
      have hx : GridVec.size (⟨old.values, iw⟩ : GridVec Row) = .ok (iw, h) := by
        rw [← ho.1] at hos ⊢; exact hos
      have e : GridEdit.applyToGrid cfg ⟨.insert, ei, .row, k, ins⟩ old = .ok old := by
        simp only [GridEdit.applyToGrid, GridEdit.newGridSize, hos, his, M.ok_bind, massert,
          beq_self_eq_true, if_true, hv, List.append_nil, List.take_append_drop]
        rw [fromOneDimensional_ok ho.2.1 ho.2.2]
        simp only [hx, M.ok_bind, beq_self_eq_true, if_true, Nat.add_zero]
        rw [← ho.1]
      rw [hg] at e; cases e
      have e2 : GridEdit.applyToGrid cfg ⟨.delete, ei, .row, k, ins⟩ old = .ok old := by
        simp only [GridEdit.applyToGrid, GridEdit.newGridSize, hos, his, M.ok_bind, massert,
          beq_self_eq_true, if_true, List.take_append_drop, usub_of_le (Nat.zero_le h)]
        rw [fromOneDimensional_ok ho.2.1 ho.2.2]
        simp only [hx, M.ok_bind, beq_self_eq_true, if_true, Nat.sub_zero]
        rw [← ho.1]
      rw [show GridEdit.inverse ⟨.insert, ei, .row, k, ins⟩ = ⟨.delete, ei, .row, k, ins⟩ from rfl,
        e2] at hg'
      cases hg'; rfl
    · obtain ⟨g2, hg2, x, hx⟩ := C04_undo_of_grid_insert_panics cfg (d := .row) ho hi
        ⟨rfl, by omega, hk⟩ ei
      rw [hg] at hg2; cases hg2
      rw [hg'] at hx; cases hx

/-- The empty band: the hypotheses of `C04_partial` hold. -/
example : GridEdit.applyToGrid .dev ⟨.insert, ⟨[], 0⟩, .row, 1, ⟨[], 2⟩⟩ ⟨[[x], [y]], 2⟩ =
      .ok ⟨[[x], [y]], 2⟩ ∧
    GridEdit.applyToGrid .dev (GridEdit.inverse ⟨.insert, ⟨[], 0⟩, .row, 1, ⟨[], 2⟩⟩)
      ⟨[[x], [y]], 2⟩ = .ok ⟨[[x], [y]], 2⟩ := by
  constructor <;> rfl

end Aftermath
