import Verif.Proof.Locality
import Verif.Proof.LocalityRender
import Verif.Props.Layout
import Verif.Props.EndToEnd

/-! # C81: a change inside of an element stays inside of it -/

namespace Aftermath

/-- **C81.** Replacing the content of a row of a formula replaces the tree of this row in the syntax
tree of the formula, and nothing else. The trees put out and in are those of the old and new content
read by themselves. -/
theorem C81_tree (g : Grammar) (hg : g.Good) {root root' old new : Row} {p : RowIndices}
    (h : ReplacedAt root p old new root') (hw : rowWf root = true) (hn : rowWf new = true) :
    ∃ t t' s s', g.parse root = .ok t ∧ g.parse root' = .ok t' ∧ g.parse old = .ok s ∧
      g.parse new = .ok s' ∧ TreeReplaced p s s' t t' :=
  replaced_tree hg h hw (h.wf hw hn)

variable {x : Xid} {root root' old new : Row} {p : RowIndices}

/-- The element of a row that is shown by itself, with the row index that it has in the formula. -/
structure ShownIn (x : Xid) (row : Row) (ri : Option RowIndex) (e : RElem) : Prop where
  wf : rowWf row = true
  shown : ∃ g m R t, Shipped x g m R ∧ g.parse row = .ok t ∧ render R ri .none t = .ok e

theorem Shown.toIn {row : Row} {e : RElem} (h : Shown x row e) : ShownIn x row none e :=
  ⟨h.wf, h.shown⟩

theorem ShownIn.alone (hx : x.Letters) {row : Row} {ri : Option RowIndex} {e : RElem}
    (h : ShownIn x row ri e) : ∃ e', Shown x row e' ∧ e'.elements = e.elements := by
  obtain ⟨hw, g, m, R, t, h1, h2, h3⟩ := h
  obtain ⟨e', h4, h5⟩ := render_near (ri' := none) (ROpts.Near.refl .none) h3
  exact ⟨e', ⟨hx, hw, g, m, R, t, h1, h2, h4⟩, h5⟩

theorem Shown.inRow {row : Row} {e : RElem} (h : Shown x row e) (ri : Option RowIndex) :
    ∃ e', ShownIn x row ri e' ∧ e'.elements = e.elements := by
  obtain ⟨hx, hw, g, m, R, t, h1, h2, h3⟩ := h
  obtain ⟨e', h4, h5⟩ := render_near (ri' := ri) (ROpts.Near.refl .none) h3
  exact ⟨e', ⟨hw, g, m, R, t, h1, h2, h4⟩, h5⟩

theorem ShownIn.render {row : Row} {ri : Option RowIndex} {e : RElem} {g : Grammar} {m : NameMap}
    {R : Renderers} {t : SNode} (h : ShownIn x row ri e) (hs : Shipped x g m R)
    (ht : g.parse row = .ok t) : Aftermath.render R ri .none t = .ok e := by
  obtain ⟨hw, g', m', R', t', h1, h2, h3⟩ := h
  have := hs.parser
  rw [h1.parser] at this
  cases this
  have := hs.renderer
  rw [h1.renderer] at this
  cases this
  rw [ht] at h2
  cases h2
  exact h3

/-- **C81.** A formula is shown. After the content of one of its rows is replaced, it is shown exactly
when the new content can be shown by itself; then only the element of this row is replaced, in the
tree of rendered elements and on the page. -/
theorem C81_shown {e : RElem} (hs : Shown x root e) (h : ReplacedAt root p old new root')
    (hn : rowWf new = true) :
    ((∃ e', Shown x root' e') ↔ ∃ y, Shown x new y) ∧
    ∀ e', Shown x root' e' → ∃ y y', ShownIn x old p.getLast? y ∧ ShownIn x new p.getLast? y' ∧
      ElemReplaced p y y' e e' ∧
      EltReplaced (wrapInMRow y.elements) (wrapInMRow y'.elements) (wrapInMRow e.elements)
        (wrapInMRow e'.elements) := by
  have hw' := h.wf hs.wf hn
  have hx := hs.letters
  have hw := hs.wf
  have hold := rowAt_wf hw h.rowAt_old
  obtain ⟨-, -, g, m, R, t0, hsh, ht0, he⟩ := id hs
  obtain ⟨hg, -⟩ := hsh.fits hx
  obtain ⟨t, t', s, s', ht, ht', hs1, hs2, hrep⟩ := C81_tree g hg h hw hn
  rw [ht0] at ht
  cases ht
  obtain ⟨ri1, o1, y, hy, hsw⟩ := render_swapped hrep he
  obtain ⟨hri, ho⟩ : ri1 = p.getLast? ∧ o1 = .none := by
    by_cases hp : p = []
    · subst hp
      exact hsw.at_root rfl
    · exact hsw.at_row hp
  subst hri ho
  have key : ∀ y', Shown x new y' → ∃ z', ShownIn x new p.getLast? z' ∧
      ∃ e', Shown x root' e' ∧ ElemReplaced p y z' e e' ∧
      EltReplaced (wrapInMRow y.elements) (wrapInMRow z'.elements) (wrapInMRow e.elements)
        (wrapInMRow e'.elements) := by
    intro y' hy'
    obtain ⟨z', hz', -⟩ := hy'.inRow p.getLast?
    obtain ⟨e', he', h1, h2⟩ := hsw.shown z' (hz'.render hsh hs2)
    exact ⟨z', hz', e', ⟨hx, hw', g, m, R, t', hsh, ht', he'⟩, h1, h2⟩
  have back : ∀ e', Shown x root' e' → ∃ y', Shown x new y' := by
    intro e' he'
    obtain ⟨x', hx'⟩ := hsw.only e' (he'.toIn.render hsh ht')
    obtain ⟨y', hy', -⟩ := ShownIn.alone hx ⟨hn, g, m, R, s', hsh, hs2, hx'⟩
    exact ⟨y', hy'⟩
  refine ⟨⟨fun ⟨e', he'⟩ => back e' he', fun ⟨y', hy'⟩ => ?_⟩, fun e' he' => ?_⟩
  · obtain ⟨-, -, e', he', -⟩ := key y' hy'
    exact ⟨e', he'⟩
  · obtain ⟨y', hy'⟩ := back e' he'
    obtain ⟨z', hz', e2, he2, h1, h2⟩ := key y' hy'
    have e1 := he'.toIn.render hsh ht'
    have e2' := he2.toIn.render hsh ht'
    rw [e1] at e2'
    cases e2'
    exact ⟨y, z', ⟨hold, g, m, R, s, hsh, hs1, hy⟩, hz', h1, h2⟩

/-- **C81** on the page: the DOM nodes of the formula are the same except that those of the old
content, shown by itself, are replaced by those of the new content, shown by itself. -/
theorem C81_page {e e' : RElem} (hs : Shown x root e) (h : ReplacedAt root p old new root')
    (hn : rowWf new = true) (hs' : Shown x root' e') :
    ∃ y y', Shown x old y ∧ Shown x new y' ∧
      EltReplaced (wrapInMRow y.elements) (wrapInMRow y'.elements) (wrapInMRow e.elements)
        (wrapInMRow e'.elements) := by
  obtain ⟨y, y', h1, h2, -, h4⟩ := (C81_shown hs h hn).2 e' hs'
  obtain ⟨z, h5, h6⟩ := h1.alone hs.letters
  obtain ⟨z', h7, h8⟩ := h2.alone hs.letters
  exact ⟨z, z', h5, h7, by rw [h6, h8]; exact h4⟩

/-! ## Row by row -/

theorem shownable_iff (hx : x.Letters) {g : Grammar} {m : NameMap} {R : Renderers}
    (h : Shipped x g m R) {row : Row} (hw : rowWf row = true) {t : SNode}
    (ht : ParsesTo g row t) (ri : Option RowIndex) :
    (∃ e, Shown x row e) ↔ Renders R ri .none t := by
  rw [parsesTo_parse (h.fits hx).1 hw] at ht
  constructor
  · rintro ⟨e, he⟩
    obtain ⟨e', h1, -⟩ := render_near (ri' := ri) (ROpts.Near.refl .none) (he.toIn.render h ht)
    exact ⟨e', h1⟩
  · rintro ⟨e, he⟩
    obtain ⟨e', h1, -⟩ := ShownIn.alone hx ⟨hw, g, m, R, t, h, ht, he⟩
    exact ⟨e', h1⟩

/-- Rows that are equal up to their cells, with cells that can be shown. -/
theorem shownable_same (hx : x.Letters) {row row' : Row} (hw : rowWf row = true)
    (hw' : rowWf row' = true) (hs : SameRow row row')
    (hc : ∀ (i : Nat) v cells w, row'[i]? = some (.container v cells w) → ∀ c ∈ cells,
      ∃ e, Shown x c e) (h : ∃ e, Shown x row e) : ∃ e, Shown x row' e := by
  obtain ⟨g, m, R, hsh⟩ := C57_setup hx
  obtain ⟨hg, -⟩ := hsh.fits hx
  obtain ⟨t, ht, hf⟩ := parse_ok hg hw
  obtain ⟨t', ht', hf'⟩ := parse_ok hg hw'
  have hl : Like t t' := by
    have e1 := parseFuel_eq hg hw (f := rowWeight row + rowWeight row' + 1) (by omega)
    have e2 := parseFuel_eq hg hw' (f := rowWeight row + rowWeight row' + 1) (by omega)
    exact parse_like hs g _ t t' (by rw [e1, ht]) (by rw [e2, ht'])
  rw [shownable_iff hx hsh hw ⟨_, ht⟩ none] at h
  rw [shownable_iff hx hsh hw' ⟨_, ht'⟩ none]
  refine like_renders hs (fun i v cells w hi c hcm u hu ri => ?_) hl hf.fills hf'.fills h
  have hcw := (wf_container.1 (rowWf_get hw' hi)).2 c hcm
  exact (shownable_iff hx hsh hcw hu ri).1 (hc i v cells w hi c hcm)

theorem bare_wf {row : Row} (hw : rowWf row = true) : rowWf (row.map Node.bare) = true := by
  rw [rowWf_iff] at hw ⊢
  intro n hn
  obtain ⟨n', hn', rfl⟩ := List.mem_map.1 hn
  have := hw n' hn'
  cases n' with
  | symbol s => exact this
  | container v cells w =>
    rw [wf_container] at this
    rw [Node.bare, wf_container]
    refine ⟨?_, fun c hc => ?_⟩
    · rw [List.length_map]; exact this.1
    · obtain ⟨c', -, rfl⟩ := List.mem_map.1 hc
      rfl

theorem shown_empty (hx : x.Letters) : ∃ e, Shown x [] e := by
  obtain ⟨g, m, R, hsh⟩ := C57_setup hx
  have hno : ∀ {p : RowIndices} {row : Row} {i : Nat} {n : Node},
      rowAt [] p = some row → row[i]? ≠ some n := by
    intro p row i n hr
    cases p with
    | nil => cases hr; simp
    | cons ix p =>
      obtain ⟨i, j⟩ := ix
      obtain ⟨v, cells, w, c, hi, -⟩ := rowAt_cons.1 hr
      simp at hi
  obtain ⟨t, e, h1, h2⟩ := C57_row_partial hx hsh (row := []) rfl
    (by rintro ⟨p, row, i, n, hr, h1, -⟩; exact hno hr h1)
    (by rintro ⟨p, row, i, n, hr, h1, -⟩; exact hno hr h1)
  exact ⟨e, hx, rfl, g, m, R, t, hsh, h1, h2⟩

/-- Every row of a formula that is shown can be shown by itself. -/
theorem C81_part {e : RElem} (hs : Shown x root e) {r : Row} (hr : rowAt root p = some r) :
    ∃ y, Shown x r y :=
  ((C81_shown hs (.refl hr) (rowAt_wf hs.wf hr)).1).1 ⟨e, hs⟩

/-- **C81.** Whether a formula can be shown is decided row by row: exactly when every row, with the
contents of all cells in it taken out, can be shown. -/
theorem C81_rows (hx : x.Letters) (hw : rowWf root = true) :
    (∃ e, Shown x root e) ↔ ∀ p r, rowAt root p = some r → ∃ e, Shown x (r.map Node.bare) e := by
  constructor
  · rintro ⟨e, he⟩ p r hr
    have hrw := rowAt_wf hw hr
    refine shownable_same hx hrw (bare_wf hrw) (sameRow_bare r).symm ?_ (C81_part he hr)
    intro i v cells w hi c hc
    rw [List.getElem?_map] at hi
    obtain ⟨n, -, hn⟩ := Option.map_eq_some_iff.1 hi
    cases n with
    | symbol s => cases hn
    | container v' cells' w' =>
      simp only [Node.bare, Node.container.injEq] at hn
      obtain ⟨-, rfl, -⟩ := hn
      obtain ⟨c', -, rfl⟩ := List.mem_map.1 hc
      exact shown_empty hx
  · generalize hk : rowWeight root = k
    induction k using Nat.strong_induction_on generalizing root with
    | _ k ih =>
      intro h
      refine shownable_same hx (bare_wf hw) hw (sameRow_bare root) ?_ (h [] root rfl)
      intro i v cells w hi c hc
      obtain ⟨j, hj⟩ := List.getElem?_of_mem hc
      have hcw := (wf_container.1 (rowWf_get hw hi)).2 c hc
      refine ih (rowWeight c) ?_ hcw rfl fun q r hr =>
        h ((i, j) :: q) r (rowAt_cons.2 ⟨v, cells, w, c, hi, hj, hr⟩)
      subst hk
      have h1 := rowWeight_lt_cells hc
      have h2 := restWeight_of_get hi
      have h3 := restWeight_le root (Nat.zero_le i)
      simp only [Node.weight] at h2
      simp only [restWeight, List.drop_zero] at h3
      simp only [restWeight] at h2
      omega

namespace Component

variable {S : Setting} {c c' : Component}

/-- **C81** for typing: characters are typed one by one behind a text in some row of the formula,
with timers firing at any moments. Afterwards only the tree of this row is another one, and on the
page only the element of this row. -/
theorem _root_.Aftermath.C81_typed (hS : S.Ships x) (hsplit : ∀ ch, S.browser.split [ch] = [[ch]])
    {q : RowIndices} {o : Nat} {row : Row} {w u : Str} (hwf : rowWf c.editor.input = true)
    (hf : Fresh S.env c.editor) (hu : c.UpToDate S) (hc : c.editor.caret = .at ⟨q, o⟩)
    (hrow : rowAt c.editor.input q = some row) (htext : TextLeft row o w) (htasks : c.tasks = [])
    {evs : List (View × Event)} (ht : ∀ e ∈ evs, e.2.Typing)
    (hG : ∀ e ∈ evs, ∀ p, 0 < e.1.after.fontSize p) (hin : inputsOf evs = u.map typed)
    (hm : timersLeft 0 evs = some 0) :
    ∃ c' s s', c.handleAll S evs = some c' ∧ S.grammar.parse row = .ok s ∧
      S.grammar.parse (row.take o ++ u.map sy ++ row.drop o) = .ok s' ∧
      TreeReplaced q s s' c.tree c'.tree ∧
      ((∃ e, Shown x c.editor.input e) → (∃ e, Shown x (row.take o ++ u.map sy ++ row.drop o) e) →
        ∃ y y', ShownIn x row q.getLast? y ∧
          ShownIn x (row.take o ++ u.map sy ++ row.drop o) q.getLast? y' ∧
          ElemReplaced q y y' c.result c'.result ∧
          EltReplaced (wrapInMRow y.elements) (wrapInMRow y'.elements)
            (wrapInMRow c.result.elements) (wrapInMRow c'.result.elements)) := by
  obtain ⟨c', h1, -, h2, h3, -⟩ := C77_typed hS hsplit hwf hf hu hc hrow htext htasks ht hG hin hm
  obtain ⟨hx, m, hsh⟩ := hS
  obtain ⟨hg, -⟩ := hsh.fits hx
  have hrw := rowAt_wf hwf hrow
  have hn : rowWf (row.take o ++ u.map sy ++ row.drop o) = true := by
    rw [rowWf_iff] at hrw ⊢
    intro n hn
    simp only [List.mem_append, List.mem_map] at hn
    rcases hn with (hn | ⟨ch, -, rfl⟩) | hn
    · exact hrw n (List.mem_of_mem_take hn)
    · rfl
    · exact hrw n (List.mem_of_mem_drop hn)
  obtain ⟨t, t', s, s', ht1, ht2, hs1, hs2, hrep⟩ := C81_tree _ hg h3 hwf hn
  have e1 := hu.tree
  rw [ht1] at e1
  have e2 := h2.tree
  rw [ht2] at e2
  cases e1
  cases e2
  refine ⟨c', s, s', h1, hs1, hs2, hrep, fun ⟨e, he⟩ hnew => ?_⟩
  obtain ⟨e', he'⟩ := (C81_shown he h3 hn).1.2 hnew
  obtain ⟨y, y', h5⟩ := (C81_shown he h3 hn).2 e' he'
  have r1 := he.toIn.render hsh ht1
  have r2 := he'.toIn.render hsh ht2
  have r1' := hu.result ⟨e, r1⟩
  have r2' := h2.result ⟨e', r2⟩
  unfold renderAll at r1' r2'
  rw [r1] at r1'
  rw [r2] at r2'
  cases r1'
  cases r2'
  exact ⟨y, y', h5⟩

end Component

/-- A concrete case: `1` over `x` plus `2`, and the same with `y z` in the denominator. Only the tree
of the denominator is another one. -/
def halfBefore : Row := [.fraction [.symbol ['1']] [.symbol ['x']], .symbol ['+'], .symbol ['2']]
/-- see `halfBefore` -/
def halfAfter : Row :=
  [.fraction [.symbol ['1']] [.symbol ['y'], .sup [.symbol ['3']]], .symbol ['+'], .symbol ['2']]

theorem half_replaced : ReplacedAt halfBefore [(0, 1)] [.symbol ['x']]
    [.symbol ['y'], .sup [.symbol ['3']]] halfAfter := by
  refine .under (c := [.symbol ['x']]) rfl rfl rfl (fun k hk => ?_) rfl rfl rfl (fun k hk => ?_)
    (.here _ _)
  · cases k with
    | zero => exact absurd rfl hk
    | succ k => rfl
  · match k with
    | 0 => rfl
    | 1 => exact absurd rfl hk
    | k + 2 => rfl

example : ∃ e e' y y', Shown letterXid halfBefore e ∧ Shown letterXid halfAfter e' ∧
    Shown letterXid [.symbol ['x']] y ∧ Shown letterXid [.symbol ['y'], .sup [.symbol ['3']]] y' ∧
    EltReplaced (wrapInMRow y.elements) (wrapInMRow y'.elements) (wrapInMRow e.elements)
        (wrapInMRow e'.elements) ∧ e.elements.length = 1 := by
  have h : ((shownFor letterXid halfBefore).map fun e => e.elements.length) = some 1 := by
    decide +kernel
  obtain ⟨e, he, hl⟩ := Option.map_eq_some_iff.1 h
  have hs := shownFor_shown letterXid_letters (by decide) he
  have h' : (shownFor letterXid [.symbol ['y'], .sup [.symbol ['3']]]).isSome = true := by
    decide +kernel
  obtain ⟨y1, hy1⟩ := Option.isSome_iff_exists.1 h'
  obtain ⟨e', he'⟩ := (C81_shown hs half_replaced (by decide)).1.2
    ⟨y1, shownFor_shown letterXid_letters (by decide) hy1⟩
  obtain ⟨y, y', h1, h2, h3⟩ := C81_page hs half_replaced (by decide) he'
  exact ⟨e, e', y, y', hs, he', h1, h2, h3, hl⟩

/-- Typing a space behind the exponent in the denominator: the new content cannot be shown by itself,
so the formula cannot be shown. -/
example : (shownFor letterXid [.symbol ['y'], .sup [.symbol ['3']], .symbol [' ']]).isSome = false ∧
    (shownFor letterXid [.fraction [.symbol ['1']]
      [.symbol ['y'], .sup [.symbol ['3']], .symbol [' ']], .symbol ['+'], .symbol ['2']]).isSome =
      false := by decide +kernel

end Aftermath
