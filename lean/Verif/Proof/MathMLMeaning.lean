import Verif.Proof.MathML

/-! # What is read is what the document means -/

namespace Aftermath

variable {b : Browser}

theorem padCells_eq {w : Nat} {cells : List Row} (h : cells.length ≤ w) :
    padCells w cells = cells ++ List.replicate (w - cells.length) [] := by
  apply List.ext_getElem?
  intro i
  simp only [padCells, List.getElem?_map, List.getElem?_append]
  by_cases h1 : i < cells.length
  · rw [if_pos h1, List.getElem?_range (by omega)]
    simp [h1]
  · rw [if_neg h1, List.getElem?_replicate]
    by_cases h2 : i < w
    · rw [List.getElem?_range h2, if_pos (by omega)]
      simp [List.getElem?_eq_none (Nat.le_of_not_lt h1)]
    · rw [if_neg (by omega), List.getElem?_eq_none (by simp; omega)]
      rfl

theorem foldl_max (xs : List Nat) (m : Nat) : m ≤ xs.foldl max m ∧ (∀ x ∈ xs, x ≤ xs.foldl max m) ∧
    (xs.foldl max m = m ∨ xs.foldl max m ∈ xs) := by
  induction xs generalizing m with
  | nil => simp
  | cons x xs ih =>
    obtain ⟨h1, h2, h3⟩ := ih (max m x)
    simp only [List.foldl_cons, List.mem_cons, forall_eq_or_imp]
    refine ⟨by omega, ⟨by omega, h2⟩, ?_⟩
    rcases h3 with h3 | h3
    · rw [h3]; omega
    · exact .inr (.inr h3)

theorem le_tableWidth {rows : List Dom} {r : Dom} (h : r ∈ rows) :
    r.children.length ≤ tableWidth rows :=
  (foldl_max _ 0).2.1 _ (List.mem_map_of_mem h)

theorem tableWidth_mem {rows : List Dom} (h : rows ≠ []) :
    ∃ r ∈ rows, r.children.length = tableWidth rows := by
  rcases (foldl_max (rows.map fun r => r.children.length) 0).2.2 with h1 | h1
  · obtain ⟨r, rs, rfl⟩ := List.exists_cons_of_ne_nil h
    have := le_tableWidth (List.mem_cons_self (a := r) (l := rs))
    unfold tableWidth at this
    exact ⟨r, List.mem_cons_self, by unfold tableWidth; omega⟩
  · obtain ⟨r, h2, h3⟩ := List.mem_map.1 h1
    exact ⟨r, h2, h3⟩

theorem tableWidth_unique {rows : List Dom} {w : Nat} (h1 : ∀ r ∈ rows, r.children.length ≤ w)
    (h2 : rows = [] → w = 0) (h3 : rows ≠ [] → ∃ r ∈ rows, r.children.length = w) :
    w = tableWidth rows := by
  by_cases h : rows = []
  · rw [h2 h, h]; rfl
  · obtain ⟨r, h4, h5⟩ := h3 h
    obtain ⟨r', h6, h7⟩ := tableWidth_mem h
    have := le_tableWidth h4
    have := h1 _ h6
    omega

theorem meansAll_append {xs ys : List Dom} {rs : List Row} (h : MeansAll b (xs ++ ys) rs) :
    MeansAll b xs (rs.take xs.length) ∧ MeansAll b ys (rs.drop xs.length) := by
  induction xs generalizing rs with
  | nil => exact ⟨by simpa using MeansAll.nil, by simpa using h⟩
  | cons x xs ih =>
    cases h with
    | cons h1 h2 =>
      obtain ⟨h3, h4⟩ := ih h2
      exact ⟨.cons h1 h3, by simpa using h4⟩

theorem meansAll_length {xs : List Dom} {rs : List Row} (h : MeansAll b xs rs) :
    rs.length = xs.length := by
  induction xs generalizing rs with
  | nil => cases h; rfl
  | cons x xs ih => cases h with | cons _ h2 => simp [ih h2]

theorem chunk_means {w : Nat} {rows : List Dom} (ht : isTable rows = true)
    (hw : ∀ r ∈ rows, r.children.length ≤ w) {ls : List Layout}
    (h : MeansAll b (rows.flatMap Dom.children) (ls.map wrapInRow)) :
    ∃ cells, MeansRows b rows cells ∧
      chunk w rows ls = cells.flatMap fun l => l ++ List.replicate (w - l.length) [] := by
  induction rows generalizing ls with
  | nil => exact ⟨[], .nil, rfl⟩
  | cons r rows ih =>
    obtain ⟨t, text, cs⟩ := r
    have ht' : isTable rows = true ∧ t = .mtr ∧ ∀ c ∈ cs, c.tag = .mtd := by
      simpa [isTable, Dom.tag, Dom.children, and_comm, and_assoc] using ht
    obtain ⟨ht2, rfl, ht1⟩ := ht'
    rw [List.flatMap_cons] at h
    obtain ⟨h1, h2⟩ := meansAll_append h
    simp only [Dom.children] at h1 h2
    rw [← List.map_take] at h1
    rw [← List.map_drop] at h2
    obtain ⟨cells, h3, h4⟩ := ih ht2
      (fun r hr => hw r (List.mem_cons_of_mem _ hr)) h2
    refine ⟨_, .cons ht1 h1 h3, ?_⟩
    have hl : ((ls.take cs.length).map wrapInRow).length ≤ w := by
      rw [meansAll_length h1]
      exact hw _ List.mem_cons_self
    simp only [chunk, List.flatMap_cons, Dom.children, padCells_eq hl, h4]

theorem build_means {d : Dom} {ls : List Layout} (hb : ¬d.BareScript) (ho : own d = [])
    (h : MeansAll b (kids d) (ls.map wrapInRow)) : Means b d (wrapInRow (build b d ls)) := by
  have hlen := meansAll_length h
  obtain ⟨t, text, cs⟩ := d
  cases t
  case math | mrow | mtd =>
    simp only [build, wrapInRow]
    rw [show (ls.flatMap Layout.items).flatMap LayoutItem.nodes = _ from wrap_many ls]
    exact .group (by simp) h
  case semantics =>
    rcases cs with _ | ⟨x, cs⟩
    · simp [own] at ho
    · simp only [kids, List.take] at h
      rcases ls with _ | ⟨l, _ | ⟨l', ls⟩⟩
      · cases h
      · cases h with | cons h1 h2 => exact .semantics h1
      · cases h with | cons h1 h2 => cases h2
  case mtext | ms =>
    have : wrapInRow (build b (.elem .mtext text cs) ls) = [.symbol (b.nfd ['"'])] ++
        (b.split (b.trim text)).map (fun s => .symbol (b.nfd s)) ++ [.symbol (b.nfd ['"'])] := by
      simp only [build, wrapInRow]
      rw [List.cons_append, List.flatMap_cons, List.flatMap_append, wrap_symbols]
      rfl
    exact this ▸ .text (by simp)
  case mi | mn | mo =>
    simp only [build, wrapInRow, wrap_symbols]
    exact .token (by simp)
  case mstyle => exact .style
  case mtr | other => simp [own] at ho
  case msqrt =>
    simp only [build]
    rw [wrap_many]
    exact .sqrt h
  case mfrac | mroot | munder | mover | msub | msup =>
    have h2 : cs.length = 2 := by
      by_contra h2
      simp [own, h2] at ho
    rcases cs with _ | ⟨x, _ | ⟨y, _ | ⟨z, cs⟩⟩⟩ <;> try (simp at h2; done)
    simp only [kids, List.length_cons, List.length_nil, Nat.zero_add, Nat.reduceAdd, if_true,
      List.reverse_cons, List.reverse_nil, List.nil_append, List.singleton_append,
      List.length_map] at h hlen
    rcases ls with _ | ⟨l, _ | ⟨l', _ | ⟨l'', ls⟩⟩⟩ <;> try (simp at hlen; done)
    cases h with
    | cons ha h =>
      cases h with
      | cons hb' h =>
        simp only [build, wrap_append, wrap_append']
        first
        | exact .frac ha hb'
        | exact .root hb' ha
        | exact .sub (by simp) ha hb'
        | exact .sup (by simp) ha hb'
  case munderover | msubsup =>
    have h2 : cs.length = 3 := by
      by_contra h2
      simp [own, h2] at ho
    rcases cs with _ | ⟨x, _ | ⟨y, _ | ⟨z, _ | ⟨z', cs⟩⟩⟩⟩ <;> try (simp at h2; done)
    simp only [kids, List.length_cons, List.length_nil, Nat.zero_add, Nat.reduceAdd, if_true,
      List.length_map] at h hlen
    rcases ls with _ | ⟨l, _ | ⟨l', _ | ⟨l'', _ | ⟨l''', ls⟩⟩⟩⟩ <;> try (simp at hlen; done)
    cases h with
    | cons ha h =>
      cases h with
      | cons hb' h =>
        cases h with
        | cons hc h =>
          simp only [build, wrap_append, wrap_append']
          exact .subsup (by simp) ha hb' hc
  case mtable =>
    have h2 : isTable cs = true := by
      by_contra h2
      simp [own, h2] at ho
    simp only [kids, build, h2, if_true] at h ⊢
    obtain ⟨cells, h3, h4⟩ := chunk_means h2 (fun r hr => le_tableWidth hr) h
    rw [h4]
    refine .table h3 (fun r hr => le_tableWidth hr) ?_ (fun h => tableWidth_mem h)
    rintro rfl
    rfl

theorem toLayout_means (d : Dom) {l} (h : toLayout b d = .ok (l, [])) :
    Means b d (wrapInRow l) := by
  rw [toLayout_step] at h
  by_cases hb : d.BareScript
  · simp [hb] at h
  simp only [hb, if_false] at h
  cases h1 : toLayouts b (kids d) with
  | error e => rw [h1] at h; cases h
  | ok r =>
    obtain ⟨ls, es⟩ := r
    rw [h1] at h
    simp only [M.ok_bind, Except.ok.injEq, Prod.mk.injEq, List.append_eq_nil_iff] at h
    obtain ⟨rfl, rfl, ho⟩ := h
    refine build_means hb ho ?_
    obtain ⟨rs, e1, e2, e3⟩ := toLayouts_ok h1
    subst e1
    clear h1
    have hs : ∀ c ∈ kids d, sizeOf c < sizeOf d := fun c hc => sizeOf_kids hc
    revert hs e3
    generalize kids d = ks
    intro e3 hs
    induction e3 with
    | nil => exact .nil
    | cons h1 h2 ih =>
      rename_i c r cs rs
      have := hs c (List.mem_cons_self ..)
      obtain ⟨l, es⟩ := r
      simp only [List.map_cons, List.flatten_cons, List.nil_eq, List.append_eq_nil_iff] at e2
      obtain ⟨rfl, e2⟩ := e2
      exact .cons (toLayout_means c h1) (ih e2.symm fun x hx => hs x (List.mem_cons_of_mem _ hx))
termination_by sizeOf d

mutual
theorem means_toLayout : ∀ {d : Dom} {r : Row}, Means b d r →
    ∃ l, toLayout b d = .ok (l, []) ∧ wrapInRow l = r
  | _, _, .group ht h => by
    obtain ⟨ls, h1, h2⟩ := means_toLayouts h
    rcases ht with rfl | rfl | rfl <;>
    · simp only [toLayout, h1, M.ok_bind]
      exact ⟨_, rfl, by rw [wrapInRow, wrap_many, h2]⟩
  | _, _, .semantics h => by
    simp only [toLayout]
    exact means_toLayout h
  | _, _, .text ht => by
    rcases ht with rfl | rfl <;> simp only [toLayout] <;> refine ⟨_, rfl, ?_⟩ <;>
    · simp only [wrapInRow]
      rw [List.cons_append, List.flatMap_cons, List.flatMap_append, wrap_symbols]
      rfl
  | _, _, .token ht => by
    rcases ht with rfl | rfl | rfl <;> simp only [toLayout] <;> refine ⟨_, rfl, ?_⟩ <;>
    · simp only [wrapInRow]
      rw [wrap_symbols]
  | _, _, .frac hx hy => by
    obtain ⟨lx, h1, rfl⟩ := means_toLayout hx
    obtain ⟨ly, h2, rfl⟩ := means_toLayout hy
    simp only [toLayout, h1, h2, M.ok_bind]
    exact ⟨_, rfl, rfl⟩
  | _, _, .sqrt h => by
    obtain ⟨ls, h1, h2⟩ := means_toLayouts h
    simp only [toLayout, h1, M.ok_bind]
    exact ⟨_, rfl, by rw [wrap_many, h2]; rfl⟩
  | _, _, .root hx hy => by
    obtain ⟨lx, h1, rfl⟩ := means_toLayout hx
    obtain ⟨ly, h2, rfl⟩ := means_toLayout hy
    simp only [toLayout, h1, h2, M.ok_bind]
    exact ⟨_, rfl, rfl⟩
  | _, _, .sub ht hx hy => by
    obtain ⟨lx, h1, rfl⟩ := means_toLayout hx
    obtain ⟨ly, h2, rfl⟩ := means_toLayout hy
    rcases ht with rfl | rfl <;> simp only [toLayout, h1, h2, M.ok_bind] <;>
    exact ⟨_, rfl, by simp only [wrap_append, wrap_append']; rfl⟩
  | _, _, .sup ht hx hy => by
    obtain ⟨lx, h1, rfl⟩ := means_toLayout hx
    obtain ⟨ly, h2, rfl⟩ := means_toLayout hy
    rcases ht with rfl | rfl <;> simp only [toLayout, h1, h2, M.ok_bind] <;>
    exact ⟨_, rfl, by simp only [wrap_append, wrap_append']; rfl⟩
  | _, _, .subsup ht hx hy hz => by
    obtain ⟨lx, h1, rfl⟩ := means_toLayout hx
    obtain ⟨ly, h2, rfl⟩ := means_toLayout hy
    obtain ⟨lz, h3, rfl⟩ := means_toLayout hz
    rcases ht with rfl | rfl <;> simp only [toLayout, h1, h2, h3, M.ok_bind] <;>
    exact ⟨_, rfl, by simp only [wrap_append, wrap_append']; rfl⟩
  | _, _, .table (rows := rows) (cells := cells) h h1 h2 h3 => by
    have hw := tableWidth_unique h1 h2 h3
    subst hw
    obtain ⟨ht, h4⟩ := means_toTableCells h
    simp only [toLayout, ht, if_true, h4 h1, M.ok_bind]
    exact ⟨_, rfl, rfl⟩
  | _, _, .style => by
    simp only [toLayout]
    exact ⟨_, rfl, rfl⟩
theorem means_toLayouts : ∀ {ds : List Dom} {rs : List Row}, MeansAll b ds rs →
    ∃ ls, toLayouts b ds = .ok (ls, []) ∧ ls.map wrapInRow = rs
  | _, _, .nil => ⟨[], by simp [toLayouts], rfl⟩
  | _, _, .cons h hs => by
    obtain ⟨l, h1, h2⟩ := means_toLayout h
    obtain ⟨ls, h3, h4⟩ := means_toLayouts hs
    exact ⟨l :: ls, by simp [toLayouts, h1, h3, M.ok_bind], by simp [h2, h4]⟩
theorem means_toTableCells : ∀ {ds : List Dom} {rss : List (List Row)}, MeansRows b ds rss →
    isTable ds = true ∧ ∀ {w : Nat}, (∀ r ∈ ds, r.children.length ≤ w) →
      toTableCells b w ds =
        .ok (rss.flatMap (fun l => l ++ List.replicate (w - l.length) []), [])
  | _, _, .nil => ⟨rfl, by simp [toTableCells]⟩
  | _, _, .cons ht h hs => by
    obtain ⟨ls, h1, h2⟩ := means_toLayouts h
    obtain ⟨h3, h4⟩ := means_toTableCells hs
    refine ⟨?_, fun {w} hw => ?_⟩
    · simp only [isTable, List.all_cons, Bool.and_eq_true]
      exact ⟨⟨by simp [Dom.tag], by simpa [Dom.children] using ht⟩, h3⟩
    · have hl : (ls.map wrapInRow).length ≤ w := by
        have := hw _ List.mem_cons_self
        rw [h2, meansAll_length h]
        exact this
      simp only [toTableCells, h1, h4 (fun r hr => hw r (List.mem_cons_of_mem _ hr)), M.ok_bind,
        padCells_eq hl, List.flatMap_cons, List.append_nil]
      rw [h2]
end

/-! ## Well-formedness -/

theorem emptyTable_iff {text rows} (ht : isTable rows = true) :
    (Dom.elem .mtable text rows).EmptyTable ↔ tableWidth rows = 0 := by
  constructor
  · rintro ⟨-, -, h⟩
    by_cases hr : rows = []
    · rw [hr]; rfl
    · obtain ⟨r, h1, h2⟩ := tableWidth_mem hr
      rw [← h2, h r h1]
      rfl
  · intro h
    refine ⟨rfl, isTable_iff.1 ht, fun r hr => ?_⟩
    have := le_tableWidth (rows := rows) hr
    exact List.eq_nil_of_length_eq_zero (by omega)

theorem length_chunk (w : Nat) (rows : List Dom) (ls : List Layout) :
    (chunk w rows ls).length = rows.length * w := by
  induction rows generalizing ls with
  | nil => simp [chunk]
  | cons r rows ih => simp [chunk, ih, padCells, Nat.succ_mul, Nat.add_comm]

theorem chunk_wf {w : Nat} {rows : List Dom} (hw : ∀ r ∈ rows, r.children.length ≤ w)
    {ls : List Layout} (hl : ls.length = (rows.flatMap Dom.children).length) :
    cellsWf (chunk w rows ls) = true ↔ ∀ l ∈ ls, rowWf (wrapInRow l) = true := by
  induction rows generalizing ls with
  | nil =>
    have : ls = [] := List.eq_nil_of_length_eq_zero hl
    subst this
    simp [chunk, cellsWf]
  | cons r rows ih =>
    rw [List.flatMap_cons, List.length_append] at hl
    have h1 := hw r List.mem_cons_self
    have h2 := ih (fun r hr => hw r (List.mem_cons_of_mem _ hr))
      (ls := ls.drop r.children.length) (by rw [List.length_drop]; omega)
    have h3 : ((ls.take r.children.length).map wrapInRow).length ≤ w := by
      rw [List.length_map, List.length_take]; omega
    rw [cellsWf_iff] at h2 ⊢
    simp only [chunk, padCells_eq h3, List.forall_mem_append, h2, List.forall_mem_map]
    conv => rhs; rw [← List.take_append_drop r.children.length ls, List.forall_mem_append]
    simp only [and_congr_left_iff, and_iff_left_iff_imp]
    intro _ _ x hx
    rw [(List.mem_replicate.1 hx).2]
    rfl

theorem rowWf_flatten {rs : List Row} : rowWf rs.flatten = true ↔ ∀ r ∈ rs, rowWf r = true := by
  induction rs with
  | nil => simp [rowWf]
  | cons r rs ih => simp [rowWf_append, ih]

theorem rowWf_symbols {ss : List Str} : rowWf (ss.map fun s => .symbol (b.nfd s)) = true := by
  rw [rowWf_iff]
  intro n hn
  obtain ⟨s, -, rfl⟩ := List.mem_map.1 hn
  rfl

/-- Without complaint about the element itself, its row is well formed if those of the elements read
are, unless it is an empty table. -/
theorem build_wf {d : Dom} {ls : List Layout} (ho : own d = []) (hb : ¬d.BareScript)
    (hl : ls.length = (kids d).length) : rowWf (wrapInRow (build b d ls)) = true ↔
      ¬d.EmptyTable ∧ ∀ l ∈ ls, rowWf (wrapInRow l) = true := by
  obtain ⟨t, text, cs⟩ := d
  have hne : t ≠ .mtable → ¬(Dom.elem t text cs).EmptyTable := fun h1 h2 => h1 h2.1
  cases t
  case mtable =>
    have h2 : isTable cs = true := by
      by_contra h2
      simp [own, h2] at ho
    simp only [kids, build, h2, if_true] at hl ⊢
    rw [emptyTable_iff h2]
    have hw : ∀ r ∈ cs, r.children.length ≤ tableWidth cs := fun r hr => le_tableWidth hr
    have h3 := chunk_wf hw hl
    show rowWf [mlTable _ _] = true ↔ _
    simp only [rowWf, mlTable, Node.wf, Bool.and_true, Bool.and_eq_true, h3, and_congr_left_iff]
    intro _
    simp only [shapeOk, length_chunk, Bool.and_eq_true, decide_eq_true_eq, beq_iff_eq,
      Nat.mul_mod_left, and_true]
    constructor
    · rintro ⟨-, h⟩; omega
    · intro h
      have : cs ≠ [] := by rintro rfl; exact h rfl
      have := List.length_pos_iff.2 this
      exact ⟨Nat.mul_pos this (by omega), by omega⟩
  case math | mrow | mtd =>
    have : wrapInRow (build b (.elem .math text cs) ls) = (ls.map wrapInRow).flatten := by
      rw [← wrap_many]; rfl
    refine Iff.trans (b := rowWf (ls.map wrapInRow).flatten = true) 
      (Iff.of_eq (congrArg (fun r => rowWf r = true) this)) ?_
    rw [rowWf_flatten]
    simp [hne]
  case msqrt =>
    simp only [build]
    rw [wrap_many]
    show rowWf [.container .root [[.symbol _], (ls.map wrapInRow).flatten] 2] = true ↔ _
    simp only [rowWf, Node.wf, cellsWf, shapeOk, List.length_cons, List.length_nil]
    simp [rowWf_flatten, hne]
  case mtext | ms =>
    have h0 : ls = [] := List.eq_nil_of_length_eq_zero hl
    subst h0
    simp only [build, wrapInRow]
    rw [List.cons_append, List.flatMap_cons, List.flatMap_append, wrap_symbols]
    simp [LayoutItem.nodes, rowWf, Node.wf, Browser.symbol, rowWf_append, rowWf_symbols, hne]
  case mi | mn | mo =>
    have h0 : ls = [] := List.eq_nil_of_length_eq_zero hl
    subst h0
    simp only [build, wrapInRow, wrap_symbols, rowWf_symbols]
    simp [hne]
  case mstyle =>
    have h0 : ls = [] := List.eq_nil_of_length_eq_zero hl
    subst h0
    simp [build, wrapInRow, rowWf, hne]
  case mtr | other => simp [own] at ho
  case semantics =>
    rcases cs with _ | ⟨x, cs⟩
    · simp [own] at ho
    · simp only [kids, List.take, List.length_cons, List.length_nil] at hl
      rcases ls with _ | ⟨l, _ | ⟨l', ls⟩⟩ <;> try (simp at hl; done)
      simp [build, hne]
  case mfrac | mroot | munder | mover | msub | msup =>
    have h2 : cs.length = 2 := by
      by_contra h2
      simp [own, h2] at ho
    simp only [kids, h2, if_true, List.length_reverse] at hl
    rcases ls with _ | ⟨l, _ | ⟨l', _ | ⟨l'', ls⟩⟩⟩ <;> try (simp at hl; done)
    simp only [build, wrap_append, wrap_append']
    simp [wrapInRow, LayoutItem.nodes, rowWf, Node.wf, Node.fraction, Node.root, Node.sub, Node.sup,
      cellsWf, shapeOk, rowWf_append, hne]
  case munderover | msubsup =>
    have h2 : cs.length = 3 := by
      by_contra h2
      simp [own, h2] at ho
    simp only [kids, h2, if_true] at hl
    rcases ls with _ | ⟨l, _ | ⟨l', _ | ⟨l'', _ | ⟨l''', ls⟩⟩⟩⟩ <;> try (simp at hl; done)
    simp only [build, wrap_append, wrap_append']
    simp [LayoutItem.nodes, rowWf, Node.wf, Node.sub, Node.sup, cellsWf, shapeOk, rowWf_append, hne]

/-- An element that is complained about becomes a symbol. -/
theorem build_error {d : Dom} {ls : List Layout} (ho : own d ≠ []) (hb : ¬d.BareScript)
    (hl : ls.length = (kids d).length) : build b d ls = b.errorSymbol := by
  obtain ⟨t, text, cs⟩ := d
  cases t
  case mfrac | mroot | munder | mover =>
    have h2 : cs.length ≠ 2 := fun h2 => ho (by simp [own, h2])
    have h0 : ls = [] := List.eq_nil_of_length_eq_zero (by simpa [kids, h2] using hl)
    subst h0
    rfl
  case munderover =>
    have h2 : cs.length ≠ 3 := fun h2 => ho (by simp [own, h2])
    have h0 : ls = [] := List.eq_nil_of_length_eq_zero (by simpa [kids, h2] using hl)
    subst h0
    rfl
  case msub | msup | msubsup =>
    have h1 : cs ≠ [] := by
      rintro rfl
      exact hb ⟨by simp [Dom.tag], rfl⟩
    obtain ⟨x, xs, rfl⟩ := List.exists_cons_of_ne_nil h1
    simp only [own] at ho
    split at ho
    · exact absurd rfl ho
    rename_i h2
    simp only [kids] at hl
    rw [if_neg h2] at hl
    rcases ls with _ | ⟨l, _ | ⟨l', ls⟩⟩ <;> first | rfl | simp at hl
  case semantics =>
    simp only [own] at ho
    split at ho
    · rename_i h
      subst h
      have h0 : ls = [] := List.eq_nil_of_length_eq_zero (by simpa [kids] using hl)
      subst h0
      rfl
    · exact absurd rfl ho
  case mtable =>
    have h2 : isTable cs ≠ true := fun h2 => ho (by simp [own, h2])
    simp [build, h2]
  case mtr | other => rfl
  all_goals simp [own] at ho

theorem toLayout_wf (d : Dom) {l es} (h : toLayout b d = .ok (l, es)) :
    ((∀ d', d.Reads d' → ¬d'.EmptyTable) → rowWf (wrapInRow l) = true) ∧
    (es = [] → rowWf (wrapInRow l) = true → ∀ d', d.Reads d' → ¬d'.EmptyTable) := by
  rw [toLayout_step] at h
  by_cases hb : d.BareScript
  · simp [hb] at h
  simp only [hb, if_false] at h
  cases h1 : toLayouts b (kids d) with
  | error e => rw [h1] at h; cases h
  | ok r =>
    obtain ⟨ls, es'⟩ := r
    rw [h1] at h
    simp only [M.ok_bind, Except.ok.injEq, Prod.mk.injEq] at h
    obtain ⟨rfl, rfl⟩ := h
    have hl := toLayouts_length h1
    have key : (∀ c ∈ kids d, ∃ l ∈ ls, ∃ es₁, toLayout b c = .ok (l, es₁) ∧ (es' = [] → es₁ = [])) ∧
        ∀ l ∈ ls, ∃ c ∈ kids d, ∃ es₁, toLayout b c = .ok (l, es₁) := by
      obtain ⟨rs, rfl, rfl, e3⟩ := toLayouts_ok h1
      clear h1 hl
      generalize kids d = ks at e3
      induction e3 with
      | nil => simp
      | cons h1 h2 ih =>
        rename_i c r cs rs
        obtain ⟨l, es⟩ := r
        simp only [List.map_cons, List.flatten_cons, List.append_eq_nil_iff, List.mem_cons,
          forall_eq_or_imp, exists_eq_or_imp]
        refine ⟨⟨.inl ⟨es, h1, fun h => h.1⟩, fun c hc => .inr ?_⟩, ⟨.inl ⟨es, h1⟩, fun l hl => .inr ?_⟩⟩
        · obtain ⟨l, a1, es₁, a2, a3⟩ := ih.1 c hc
          exact ⟨l, a1, es₁, a2, fun h => a3 h.2⟩
        · exact ih.2 l hl
    constructor
    · intro he
      by_cases ho : own d = []
      · refine (build_wf ho hb hl).2 ⟨he d (.refl d), fun l hlm => ?_⟩
        obtain ⟨c, hc, es₁, h2⟩ := key.2 l hlm
        have := sizeOf_kids hc
        exact (toLayout_wf c h2).1 fun d' hd => he d' (.step ((looksAt_iff d c).2 hc) hd)
      · rw [build_error ho hb hl]
        rfl
    · intro he hw d' hd
      rw [List.append_eq_nil_iff] at he
      have h2 := (build_wf he.2 hb hl).1 hw
      cases hd with
      | refl => exact h2.1
      | step h3 h4 =>
        rename_i c
        have hc := (looksAt_iff d c).1 h3
        obtain ⟨l, h5, es₁, h6, h7⟩ := key.1 c hc
        have := sizeOf_kids hc
        exact (toLayout_wf c h6).2 (h7 he.1) (h2.2 l h5) d' h4
termination_by sizeOf d

end Aftermath
