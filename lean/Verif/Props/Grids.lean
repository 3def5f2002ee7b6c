import Verif.Proof.GridsTotal
import Verif.Proof.GridsMathML
import Verif.Proof.AnyTotal
import Verif.Proof.AnyNodes
import Verif.Props.AllEnds

/-! # C109: the parser takes a formula exactly if all grids of it are full -/

namespace Aftermath

variable {S : Setting} {x : Xid} {c c' : Component} {G : Geom} {v : View}

/-- **C109.** Parsing succeeds exactly if all grids of the row, at any depth, have a width and full
rows. Else it panics. How many cells an element has, compared with what it is, does not matter. -/
theorem C109 {g : Grammar} (hg : g.Good) (row : Row) :
    (∃ t, g.parse row = .ok t) ↔ rowGrids row :=
  ⟨fun ⟨_, h⟩ => parse_grids hg h, fun h =>
    let ⟨t, ht, _⟩ := Full.parse_ok hg h
    ⟨t, ht⟩⟩

/-- **C109.** On all other rows an assertion fails. The parser does not loop on any row: whatever the
row, the fuel of the model is enough. -/
theorem C109_panics {g : Grammar} (hg : g.Good) {row : Row} (hr : ¬ rowGrids row) {f : Nat}
    (hf : rowWeight row < f) :
    g.parseFuel f row = .error .assertion ∧ g.parse row = .error .assertion := by
  have key : ∀ f, rowWeight row < f → g.parseFuel f row = .error .assertion := by
    intro f hf
    rcases Any.parseFuel_ends hg row hf with h | ⟨t, h, -⟩
    · exact h
    · exact absurd (full_whole (full_pratt hg _) h) hr
  exact ⟨key f hf, key _ (Nat.lt_succ_self _)⟩

/-- **C109.** If a formula read from a document parses, then it is well formed. -/
theorem C109_mathml {b : Browser} {g : Grammar} (hg : g.Good) {d : Dom} {r : Row}
    {es : List ImportError} (h : fromElement b d = .ok (r, es)) :
    (∃ t, g.parse r = .ok t) ↔ rowWf r = true := by
  refine ⟨fun h1 => ?_, fun h1 => let ⟨t, ht, _⟩ := parse_ok hg h1; ⟨t, ht⟩⟩
  obtain ⟨-, l, h2, rfl⟩ := fromElement_inv h
  exact toLayout_grids d h2 ((C109 hg _).1 h1)

theorem rowGrids_at {r r' : Row} {p : RowIndices} (h : rowGrids r) (hp : rowAt r p = some r') :
    rowGrids r' := by
  induction p generalizing r with
  | nil => simp at hp; subst hp; exact h
  | cons ix p ih =>
    obtain ⟨i, j⟩ := ix
    obtain ⟨v, cells, w, c, hi, hc, hp⟩ := rowAt_cons.1 hp
    have hn := rowGrids_iff.1 h _ (List.mem_of_getElem? hi)
    simp only [Node.Grids] at hn
    exact ih (cellsGrids_iff.1 hn.2.2 c (List.mem_of_getElem? hc)) hp

/-- **C109.** Whenever the parser has a result, it is as stated by C44 to C47: the syntax tree covers the
row without gaps, has its text, and every row of the formula is found in it. -/
theorem C109_tree {g : Grammar} (hg : g.Good) {row : Row} {t : SNode} (h : g.parse row = .ok t) :
    t.lo = 0 ∧ t.hi = row.length ∧ Shaped row t ∧ t.text = rowText row ∧
    ∀ path r, rowAt row path = some r →
      ∃ t', t.walk path = .ok t' ∧ g.parse r = .ok t' ∧ t'.lo = 0 ∧ t'.hi = r.length := by
  have hgr := (C109 hg row).1 ⟨t, h⟩
  obtain ⟨t0, h', hf⟩ := Full.parse_ok hg hgr
  rw [h] at h'
  cases h'
  refine ⟨hf.lo_eq, hf.hi_eq, hf.fills.shaped, ?_, fun path r hr => ?_⟩
  · rw [hf.fills.text, hf.lo_eq, hf.hi_eq]
    simp
  · obtain ⟨t', h1, ⟨f, h2⟩, h3⟩ := walk_ok hf ⟨_, h⟩ hr
    refine ⟨t', h1, ?_, h3.lo_eq, h3.hi_eq⟩
    obtain ⟨t'', h4⟩ := (C109 hg r).2 (rowGrids_at hgr hr)
    rw [h4]
    have h5 := parseWhole_mono (pratt_mono g (Nat.le_add_right f (rowWeight r + 1))) r t' h2
    have h6 := parseWhole_mono (pratt_mono g (Nat.le_add_left (rowWeight r + 1) f)) r t'' h4
    rw [h5] at h6
    exact h6.symm

namespace Component

theorem redraw_dead (hS : S.Ships x) (hf : Fresh S.env c.editor) (h : ¬ rowGrids c.editor.input) :
    c.redraw S G = .dead := by
  obtain ⟨hx, m, hm⟩ := id hS
  have hno : ∀ t, S.env.parse c.editor.input ≠ .ok t :=
    fun t ht => h ((C109 (hm.fits hx).1 _).1 ⟨t, ht⟩)
  simp only [Handled.call, redraw, Editor.getSyntaxTree]
  cases hp : c.editor.parsed with
  | some t => exact absurd (hf t hp) (hno t)
  | none =>
    cases hq : S.env.parse c.editor.input with
    | ok t => exact absurd hq (hno t)
    | error p => simp only [M.error_bind]

theorem mathML_dead (hS : S.Ships x) (hf : Fresh S.env c.editor) {d : Dom} {r : Row}
    {es : List ImportError} (h : fromElement S.browser d = .ok (r, es)) (hr : ¬ rowWf r = true) :
    c.handleMathML S G d = .dead := by
  obtain ⟨hx, m, hm⟩ := id hS
  have hg := (hm.fits hx).1
  unfold handleMathML
  simp only [h, Handled.script]
  cases hs : c.editor.spliceAtRange S.env ⟨[], c.tree.lo, c.tree.hi⟩ r with
  | error p => rfl
  | ok ed' =>
    obtain ⟨⟨row, -, -, -, g4, -⟩, -⟩ := splice_sound hs
    have hin := g4.rowAt_new
    simp only [rowAt, Option.some.injEq] at hin
    have hf' : Fresh S.env ed' := hf.step (op := .spliceAtRange _ _) hs
    refine redraw_dead (c := { c with editor := ed' }) hS hf' fun h1 => ?_
    simp only at h1
    rw [hin, rowGrids_append, rowGrids_append] at h1
    exact hr ((C109_mathml hg h).1 ((C109 hg _).2 h1.1.2))

/-- **C109.** In every state, a document ends the editor if the formula that is read from it is not
well formed, that is if there is a table without cells in it. -/
theorem _root_.Aftermath.C109_import (hS : S.Ships x) (hc : c.Proper S) {d : Dom} {r : Row}
    {es : List ImportError} (h : fromElement S.browser d = .ok (r, es)) (hr : rowWf r = false) :
    c.handle S v (.connect d) = .dead ∧ c.handle S v (.setAttribute d) = .dead := by
  have hf := (hc.formed hS).fresh
  have hr' : ¬ rowWf r = true := by rw [hr]; simp
  exact ⟨mathML_dead (c := { c with connected := true }) hS hf h hr', mathML_dead hS hf h hr'⟩

/-- **C109.** In every state, pasting nodes ends the editor if one of their grids is not full. -/
theorem _root_.Aftermath.C109_paste (hS : S.Ships x) (hc : c.Proper S) {json text : Str}
    {nodes : List Node} (hn : deserializeNodes S.cfg (pasted json text) = some nodes)
    (hr : ¬ rowGrids nodes) : c.handle S v (.paste json text) = .dead := by
  have hf := hc.formed hS
  show Handled.call (c.editor.paste S.env (pasted json text) true) _ = _
  cases hp : c.editor.paste S.env (pasted json text) true with
  | error p => rfl
  | ok y =>
    obtain ⟨ed', ok⟩ := y
    have hs : c.editor.step S.env (.paste (pasted json text) true) = .ok ed' := by
      simp only [Editor.step, hp, M.ok_bind]
    have hok := paste_flag hp
    have hn' : deserializeNodes S.env.cfg (pasted json text) = some nodes := hn
    rw [hn'] at hok
    subst hok
    refine redraw_dead (c := { c with editor := ed' }) hS (hf.fresh.step hs) fun h => hr ?_
    unfold Editor.paste at hp
    obtain ⟨⟨e, ac⟩, h1, hp⟩ := M.bind_eq_ok.1 hp
    simp only [if_true, hn'] at hp
    obtain ⟨ed2, h2, hp⟩ := M.bind_eq_ok.1 hp
    cases hp
    obtain ⟨q, row, l, r, h3⟩ := insertNodes_sound hf.wf h1 h2
    have := rowGrids_at h h3
    rw [rowGrids_append, rowGrids_append] at this
    exact this.1.2

/-- A document that is handled without a panic is one that C76 is about. -/
theorem goodData_of_left (hS : S.Ships x) (hc : c.Proper S) {ev : Event}
    (hd : ∀ json text, ev = .paste json text → ev.GoodData S)
    (h : (c.handle S v ev).left = some c') : ev.GoodData S := by
  cases ev with
  | paste json text => exact hd json text rfl
  | connect d =>
    intro r es h1
    cases hr : rowWf r with
    | true => rfl
    | false => rw [(C109_import hS hc h1 hr).1] at h; cases h
  | setAttribute d =>
    intro r es h1
    cases hr : rowWf r with
    | true => rfl
    | false => rw [(C109_import hS hc h1 hr).2] at h; cases h
  | _ => trivial

/-- **C109**, the states: only pasting can lead to other states than those of C76, whatever documents
are loaded. -/
theorem _root_.Aftermath.C109_proper (hS : S.Ships x) (hchk : S.cfg.checks = true)
    {evs : List (View × Event)} {c : Component} (hc : c.Proper S)
    (hd : ∀ y ∈ evs, ∀ json text, y.2 = .paste json text → y.2.GoodData S)
    (h : c.handleAll S evs = some c') : c'.Proper S := by
  induction evs generalizing c with
  | nil => cases h; exact hc
  | cons y evs ih =>
    obtain ⟨v, ev⟩ := y
    obtain ⟨c1, h1, h2⟩ := Option.bind_eq_some_iff.1 h
    have hg := goodData_of_left hS hc (hd _ List.mem_cons_self) h1
    refine ih (hc.handleAll (evs := [(v, ev)]) hchk (by simpa using hg) ?_)
      (fun y hy => hd y (List.mem_cons_of_mem _ hy)) h2
    simp only [Component.handleAll, h1, Option.bind_some]

end Component

/-- A fraction with three cells in a row is taken, also inside of a square root. -/
def threeCells : Row :=
  [.container .root [[], [.container .fraction [[.symbol ['a']], [.symbol ['b']], [.symbol ['c']]] 3]] 2]

example : rowGrids threeCells ∧ rowWf threeCells = false := by
  constructor
  · simp [threeCells, rowGrids, Node.Grids, cellsGrids]
  · decide +kernel

example : (createParser letterXid).toOption.any
    (fun (g, _) => (g.parse threeCells).toOption.isSome) = true := by
  decide +kernel

/-- A table of three cells in rows of two is not taken. -/
example : ¬ rowGrids [.container .table [[.symbol ['a']], [.symbol ['b']], [.symbol ['c']]] 2] ∧
    (createParser letterXid).toOption.any (fun (g, _) =>
      (g.parse [.container .table [[.symbol ['a']], [.symbol ['b']], [.symbol ['c']]] 2]).toOption.isNone) = true := by
  constructor
  · simp [rowGrids, Node.Grids]
  · decide +kernel

example : (createParser letterXid).toOption.any (fun (g, _) =>
    match g.parse [.symbol ['a'], .container .sup [[.container .table [] 0]] 1] with
    | .error .assertion => true
    | _ => false) = true := by
  decide +kernel

/-- An attribute with an empty table ends an editor that shows a formula. -/
example : afterAll [(powerView, .connect powerDom)] (fun S c =>
    match c.handle S powerView (.setAttribute (.elem .math [] [.elem .mtable [] []])) with
    | .dead => true
    | _ => false) = some true := by
  decide +kernel

/-- Pasting a table without cells ends it as well. -/
example : afterAll [(powerView, .connect powerDom)] (fun S c =>
    match c.handle S powerView (.paste badClipboard []) with
    | .dead => true
    | _ => false) = some true := by
  decide +kernel

end Aftermath
