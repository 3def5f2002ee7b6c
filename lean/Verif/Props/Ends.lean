import Verif.Props.Exceptions
import Verif.Props.Pending

/-! # Property theorem C73: how every event ends -/

namespace Aftermath

/-- The symbols directly left of the caret have one character each. -/
def SingleLeft (root : Row) (m : MinCaret) : Prop :=
  ∀ q o row syms, m = .at ⟨q, o⟩ → rowAt root q = some row → SymbolsLeftOf row o syms →
    ∀ s ∈ syms, s.length = 1

/-- The calls that panic, with or without a completed token left of the caret. -/
def Op.Dies {T : Type} (env : Env T) (ed : Editor T) (op : Op) : Prop :=
  op.Panics env ed ∨
  (∃ rule q o row syms ed0, CompletedToken env ed rule q o row syms ∧ op.Corrects ∧
    ed.step env.plain op = .ok ed0 ∧ LeavePanics ed ed0 q o syms.length) ∨
  ∃ range values, op = .spliceAtRange range values ∧
    (¬ ValidRange ed.input range ∨ range.rowIndices = [] ∧ CaretInElement ed.caret)

theorem anchored_dies {V : Prop} {T : Type} {env : Env T} {ed : Editor T}
    (hanch : Anchored V env ed) (hv : ValidCaret ed.input ed.caret)
    (hfit : env.cfg.checks = false → rowFits env.cfg.bits ed.input = true)
    (hdeep : env.cfg.checks = false → ∀ p, ValidPos ed.input p →
      p.rowIndices.length + 1 < 2 ^ env.cfg.bits)
    (hrules : GoodRules env.rules) (hone : SingleLeft ed.input ed.caret) {op : Op}
    (hgood : op.GoodNodes env.cfg) (hpos : op.GoodPositions ed.input)
    (hlose : ∀ rule q o row syms ed0, CompletedToken env ed rule q o row syms →
      ed.step env.plain op = .ok ed0 → ¬ LosesToken ed ed0 q) :
    (∃ p, ed.step env op = .error p) ↔ op.Dies env ed := by
  by_cases hsp : ∃ r vs, op = .spliceAtRange r vs
  · obtain ⟨r, vs, rfl⟩ := hsp
    rw [splice_panics hanch.wf hv hdeep]
    refine ⟨fun h => .inr (.inr ⟨_, _, rfl, h⟩), ?_⟩
    rintro (h | ⟨rule, q, o, row, syms, ed0, -, h, -⟩ | ⟨r', vs', h, h'⟩)
    · exact h.elim
    · exact h.elim
    · cases h
      exact h'
  have hsp' : ∀ r vs, op ≠ .spliceAtRange r vs := fun r vs h => hsp ⟨r, vs, h⟩
  have hw := hanch.wf
  rcases C71_cases hw hv hrules hone with ⟨e, he⟩ | ⟨rule, q, o, row, syms, -, htok⟩
  · rw [anchored_panics hanch hv hfit he op hsp']
    refine ⟨.inl, ?_⟩
    rintro (h | ⟨rule, q, o, row, syms, ed0, htok, -⟩ | ⟨r, vs, h, -⟩)
    · exact h
    · obtain ⟨-, -, e1, -, -, hs1⟩ := startAutocorrect_of_token hw htok ed.selectionMode
      have hs1 : ed.startAutocorrect env = _ := hs1
      rw [he] at hs1
      cases hs1
    · exact absurd h (hsp' r vs)
  · by_cases hop : op.Corrects
    · rw [anchored_panics_token hanch hv hfit hdeep htok hop hgood hpos
        fun ed0 h => hlose _ _ _ _ _ _ htok h]
      constructor
      · rintro (h | ⟨ed0, h1, h2⟩)
        · exact .inl h
        · exact .inr (.inl ⟨_, _, _, _, _, ed0, htok, hop, h1, h2⟩)
      · rintro (h | ⟨rule', q', o', row', syms', ed0, htok', -, h1, h2⟩ | ⟨r, vs, h, -⟩)
        · exact .inl h
        · refine .inr ⟨ed0, h1, ?_⟩
          obtain ⟨e, res, m, g1, g2, -, -, g5, g6, -⟩ := htok
          obtain ⟨e', res', m', k1, k2, -, -, k5, k6, -⟩ := htok'
          rw [g1] at k1
          cases k1
          rw [g2] at k2
          cases k2
          rw [g6] at k6
          have := congrArg MinCaret.start k6
          simp only [MinCaret.at, MinPos.mk.injEq] at this
          rw [← g5, k5, this.1, this.2]
          exact h2
        · exact absurd h (hsp' r vs)
    · rw [anchored_panics_other hanch hv hfit htok.get hop hsp']
      refine ⟨.inl, ?_⟩
      rintro (h | ⟨rule', q', o', row', syms', ed0, -, h, -⟩ | ⟨r, vs, h, -⟩)
      · exact h
      · exact absurd h hop
      · exact absurd h (hsp' r vs)

/-- **C73.** The exact panics of all calls, in all states in which the caret is not lost. -/
theorem C73_panics {T : Type} {env : Env T} {ed : Editor T} (hrun : CalmRun env ed)
    (hfit : env.cfg.checks = false → rowFits env.cfg.bits ed.input = true)
    (hdeep : env.cfg.checks = false → ∀ p, ValidPos ed.input p →
      p.rowIndices.length + 1 < 2 ^ env.cfg.bits)
    (hrules : GoodRules env.rules) (hone : SingleLeft ed.input ed.caret) {op : Op}
    (hgood : op.GoodNodes env.cfg) (hpos : op.GoodPositions ed.input)
    (hlose : ∀ rule q o row syms ed0, CompletedToken env ed rule q o row syms →
      ed.step env.plain op = .ok ed0 → ¬ LosesToken ed ed0 q) :
    (∃ p, ed.step env op = .error p) ↔ op.Dies env ed :=
  anchored_dies hrun.anchored (hrun.anchored.caret trivial) hfit hdeep hrules hone hgood hpos hlose

theorem Step.over {root row : Row} {q : RowIndices} {o : Nat} {s : Str}
    (h : rowAt root q = some row) (hs : row[o]? = some (.symbol s)) :
    Step root ⟨q, o⟩ ⟨q, o + 1⟩ := by
  induction q generalizing root with
  | nil => cases h; exact .sym hs
  | cons ij q ih =>
    obtain ⟨i, j⟩ := ij
    rw [rowAt] at h
    split at h
    · rename_i v cells w hc
      split at h
      · rename_i c hj
        exact .under (a := ⟨q, o⟩) (b := ⟨q, o + 1⟩) hc hj (ih h)
      · cases h
    · cases h

theorem quiet_no_token {T : Type} {env : Env T} {ed e0 : Editor T}
    (hq : ed.startAutocorrect env = .ok (e0, none)) : ∀ e res m,
    ed.getAutocomplete env = .ok (e, some res) →
      res.matches'[res.selectedIndex]? = some m → m.isComplete = false := by
  intro e res m h1 h2
  unfold Editor.startAutocorrect at hq
  simp only [h1, M.ok_bind, AutocompleteResults.startAutocorrect, AutocompleteResults.getSelected,
    h2, munwrap] at hq
  cases hm : m.isComplete with
  | false => rfl
  | true =>
    rw [hm] at hq
    simp [M.ok_bind] at hq

/-- **C73.** The Right key behind a completed token of `k` symbols that ends at offset `o`, with a
symbol to its right. It panics if the token starts further to the right than it is long, and only
moves the caret if it starts further to the left. In the case in between, the token is replaced,
and the caret is lost if there is not enough left of the row. -/
theorem C73_right {T : Type} {env : Env T} {ed : Editor T} (hrun : CalmRun env ed)
    (hfit : env.cfg.checks = false → rowFits env.cfg.bits ed.input = true)
    {rule : AutocompleteRule} {q : RowIndices} {o : Nat} {row : Row} {syms : List Str} {s : Str}
    (htok : CompletedToken env ed rule q o row syms) (hs : row[o]? = some (.symbol s)) :
    (syms.length < o - syms.length →
      ed.step env (.moveCaret .right .char) = .error .outOfRange) ∧
    (o - syms.length < syms.length → ∃ ed', ed.step env (.moveCaret .right .char) = .ok ed' ∧
      ed'.input = ed.input ∧ ed'.caret = .at ⟨q, o + 1⟩ ∧ ed'.undo = ed.undo) ∧
    (o - syms.length = syms.length → ∃ ed', ed.step env (.moveCaret .right .char) = .ok ed' ∧
      ReplacedAt ed.input q row (row.take (o - syms.length) ++ rule.result ++ row.drop o)
        ed'.input ∧ ed'.caret = .at ⟨q, o + 1⟩ ∧
      (ValidCaret ed'.input ed'.caret ↔
        o + 1 + syms.length ≤ row.length + rule.result.length)) := by
  obtain ⟨hwf, hv⟩ := C26_calm_partial hrun
  have hanch := hrun.anchored
  have hanch' : Anchored True env.plain ed := ⟨hanch.wf, hanch.caret, hanch.undo, hanch.redo⟩
  obtain ⟨-, hne, e1, -, -, hs1⟩ := startAutocorrect_of_token hwf htok ed.selectionMode
  obtain ⟨-, y, hy⟩ := startAutocorrect_plain (show ed.startAutocorrect env = _ from hs1)
  obtain ⟨e, res, m, t1, t2, t3, t4, t5, t6, t7, t8, t9⟩ := id htok
  have hp : ValidPos ed.input ⟨q, o⟩ := ⟨row, t7, t8.1⟩
  have hp1 : ValidPos ed.input ⟨q, o + 1⟩ :=
    ⟨row, t7, (List.getElem?_eq_some_iff.1 hs).1⟩
  have hk : 0 < syms.length := List.length_pos_iff.2 hne
  have hko : syms.length ≤ o := by
    obtain ⟨h1, before, h2⟩ := t8
    have := congrArg List.length h2
    simp only [List.length_take, List.length_append, List.length_map] at this
    omega
  have hsel := selectionOf_at hwf hp
  have hnp : ¬ (Op.moveCaret .right .char).Panics env.plain ed := by
    rintro ⟨rng, -, h | ⟨-, h, -⟩⟩
    · exact h rfl
    · cases h
  have hpl := anchored_panics (env := env.plain) hanch' (hanch'.caret trivial) hfit hy (.moveCaret .right .char)
    (fun _ _ => nofun)
  cases h0 : ed.step env.plain (.moveCaret .right .char) with
  | error x => exact absurd (hpl.1 ⟨x, h0⟩) hnp
  | ok ed0 =>
    have hc0 : ed0.caret = .at ⟨q, o + 1⟩ := by
      have := C51_move h0
      rw [t6, press_right_step hwf _ hp (Step.over t7 hs)] at this
      exact (Except.ok.inj this).symm
    have hin : ed0.input = ed.input ∧ ed0.undo = ed.undo :=
      C25_moves_no_token _ (.inl ⟨_, _, rfl⟩) (quiet_no_token hy) h0
    have hsel0 := selectionOf_at hwf hp1
    rw [← hc0] at hsel0
    have hout : ¬ Stays q o syms.length (.row ⟨q, o + 1, o + 1⟩) := by
      simp only [Stays, OutsideToken, not_not]
      rw [MinPos.le_same, MinPos.le_same]
      omega
    have hm := (C71_move hwf htok (op := .moveCaret .right .char) trivial trivial hfit h0 hin.2
      hsel0).2 hout
    refine ⟨hm.1, fun h => ?_, fun h => ?_⟩
    · have := hm.2.1 h
      cases hst : ed.step env (.moveCaret .right .char) with
      | error x => rw [hst] at this; cases this
      | ok ed' =>
        rw [hst] at this
        have this : ed'.forget = ed0.forget := Except.ok.inj this
        exact ⟨ed', rfl, (congrArg Editor.input this).trans hin.1,
          (congrArg Editor.caret this).trans hc0, (congrArg Editor.undo this).trans hin.2⟩
    · have := hm.2.2 h
      have hval : ValidRange ed0.input ⟨q, o, o - syms.length⟩ := by
        rw [hin.1]
        exact ⟨row, t7, t8.1, Nat.le_trans (Nat.sub_le _ _) t8.1⟩
      obtain ⟨ed', hed'⟩ := splice_ok (env := env) (ed := ed0) (by rw [hin.1]; exact hwf) hval
        (by rw [hc0]; exact .inl rfl) (by rw [hc0]; exact .inl rfl) rule.result
      obtain ⟨⟨row', s1, s2, s3, s4, a, s5⟩, s6⟩ := splice_sound hed'
      rw [hed'] at this
      cases hst : ed.step env (.moveCaret .right .char) with
      | error x => rw [hst] at this; cases this
      | ok ed1 =>
        rw [hst] at this
        have hforget : ed1.forget = ed'.forget := Except.ok.inj this
        have hi1 : ed1.input = ed'.input := by
          have := congrArg (fun e : Editor T => e.input) hforget
          exact this
        have hc1 : ed1.caret = .at ⟨q, o + 1⟩ := by
          have : ed1.caret = ed'.caret := by
            have := congrArg (fun e : Editor T => e.caret) hforget
            exact this
          rw [this, s6, hc0]
        simp only at s1 s2 s3 s4
        rw [hin.1] at s1 s4
        rw [t7] at s1
        cases s1
        have f1 : min o (o - syms.length) = o - syms.length := by omega
        have f2 : max o (o - syms.length) = o := by omega
        rw [f1, f2] at s4
        refine ⟨ed1, rfl, by rw [hi1]; exact s4, hc1, ?_⟩
        rw [hc1, hi1]
        have hnew := s4.rowAt_new
        have hlen : (row.take (o - syms.length) ++ rule.result ++ row.drop o).length =
            o - syms.length + rule.result.length + (row.length - o) := by
          simp only [List.length_append, List.length_take, List.length_drop]
          have := t8.1
          omega
        have h8 := t8.1
        constructor
        · rintro ⟨⟨r, h1, h2⟩, -⟩
          change rowAt _ q = _ at h1
          rw [hnew] at h1
          cases h1
          change o + 1 ≤ _ at h2
          rw [hlen] at h2
          omega
        · intro h
          have hv : ValidPos ed'.input ⟨q, o + 1⟩ := ⟨_, hnew, by simp only; rw [hlen]; omega⟩
          exact ⟨hv, hv⟩

namespace Component

variable {S : Setting} {x : Xid} {c c' : Component} {G : Geom} {v : View}

/-- The caret is drawn, but it is no position of the formula. -/
def CaretLost (c : Component) : Prop :=
  c.connected = true ∧ ¬ ValidCaret c.editor.input c.editor.caret

/-- How showing the formula of `c` ends: with an exception if the formula cannot be shown, with the
end of the editor if it can be shown and the caret is lost, and well otherwise. -/
inductive ShowEnds (S : Setting) (c : Component) (t : SNode) : Handled → Prop
  | thrown : Unshowable S c.editor.input →
      ShowEnds S c t (.thrown { c with editor := { c.editor with parsed := some t }, tree := t })
  | dead : ¬ Unshowable S c.editor.input → c.CaretLost → ShowEnds S c t .dead
  | fine (e : RElem) : ¬ Unshowable S c.editor.input → ¬ c.CaretLost →
      renderAll S.renderers t = .ok e → ShowEnds S c t
        (.fine { c with editor := { c.editor with parsed := some t }, tree := t, result := e })

theorem getCaret_error {T : Type} {ed : Editor T} (hw : rowWf ed.input = true) :
    (∃ p, ed.getCaret = .error p) ↔ ¬ ValidCaret ed.input ed.caret := by
  constructor
  · rintro ⟨p, hp⟩ hv
    obtain ⟨cc, h1, -⟩ := Caret.fromMinimal_valid hw hv
    simp only [Editor.getCaret, h1, M.ok_bind] at hp
    cases hp
  · intro hv
    cases h : ed.getCaret with
    | error p => exact ⟨p, rfl⟩
    | ok sel =>
      simp only [Editor.getCaret] at h
      obtain ⟨cc, h1, -⟩ := M.bind_eq_ok.1 h
      obtain ⟨h2, h3⟩ := Caret.fromMinimal_sound h1
      refine absurd ?_ hv
      rw [← h3]
      exact h2.valid

/-- **C73.** Showing the formula: exactly how it ends, whatever happened before. -/
theorem _root_.Aftermath.C73_show (hS : S.Ships x) (hf : Fresh S.env c.editor)
    (hw : rowWf c.editor.input = true) (hG : ∀ p, 0 < G.fontSize p) :
    ∃ t, S.grammar.parse c.editor.input = .ok t ∧ ShowEnds S c t (c.redraw S G) := by
  obtain ⟨hx, m, hm⟩ := id hS
  obtain ⟨t, ht, hr⟩ := C57_partial hx hm hw
  refine ⟨t, ht, ?_⟩
  have hg : c.editor.getSyntaxTree S.env = .ok ({ c.editor with parsed := some t }, t) :=
    getSyntaxTree_eq hf ht
  unfold redraw
  simp only [hg, Handled.call]
  by_cases hs : SpacedScript S.grammar.builtIn t
  · cases he : renderAll S.renderers t with
    | ok e => exact absurd hs (hr.1 ⟨e, he⟩)
    | error p => exact .thrown ⟨t, ht, hs⟩
  · have hns : ¬ Unshowable S c.editor.input := by
      rintro ⟨t', h1, h2⟩
      rw [ht] at h1
      cases h1
      exact hs h2
    obtain ⟨e, he⟩ := hr.2 hs
    simp only [he, Handled.script]
    by_cases hl : c.CaretLost
    · obtain ⟨p, hp⟩ := (getCaret_error hw).2 hl.2
      have : ({ c with editor := { c.editor with parsed := some t }, tree := t, result := e } :
          Component).drawCarets G = .dead := by
        unfold drawCarets
        have hp' : ({ c.editor with parsed := some t } : Editor SNode).getCaret = .error p := hp
        simp only [hl.1, if_true, hp', Handled.call]
      rw [this]
      exact .dead hns hl
    · have : ({ c with editor := { c.editor with parsed := some t }, tree := t, result := e } :
          Component).drawCarets G =
          .fine { c with editor := { c.editor with parsed := some t }, tree := t, result := e } := by
        unfold drawCarets
        split
        · rename_i hcon
          have hv : ValidCaret c.editor.input c.editor.caret := by
            by_contra hv
            exact hl ⟨hcon, hv⟩
          obtain ⟨sel, h1, h2⟩ := C58_draw (shown_of hS hw ht he) hG hv
          have h1' : ({ c.editor with parsed := some t } : Editor SNode).getCaret = .ok sel := h1
          simp only [h1', Handled.call, h2, Handled.script]
        · rfl
      rw [this]
      exact .fine e hns hl he

theorem shipped_results : GoodResults shippedAutocomplete := by
  unfold GoodResults; decide +kernel

theorem shipped_rules : GoodRules shippedAutocomplete := by
  unfold GoodRules Ascii; decide +kernel

/-- **C73.** A key or a task that calls the editor, in any state reached with well-formed nodes: it
ends the editor when the call panics, and then ends as showing the new formula does. -/
theorem _root_.Aftermath.C73_call (hS : S.Ships x) (hr : FormedRun S.env c.editor)
    (hf : Fresh S.env c.editor) (hfit : S.Fits c.editor.input) (hG : ∀ p, 0 < G.fontSize p) {op : Op}
    (hn : op.GoodNodes S.cfg) :
    (∃ p, c.editor.step S.env op = .error p ∧ c.handleEdit S G op = .dead) ∨
    ∃ ed' t, c.editor.step S.env op = .ok ed' ∧ FormedRun S.env ed' ∧
      S.grammar.parse ed'.input = .ok t ∧
      ShowEnds S { c with editor := ed' } t (c.handleEdit S G op) := by
  cases hs : c.editor.step S.env op with
  | error p =>
    refine .inl ⟨p, rfl, ?_⟩
    unfold handleEdit
    rw [hs]; rfl
  | ok ed' =>
    have hr' : FormedRun S.env ed' := hr.step hs hn hfit
    obtain ⟨t, ht, h⟩ := C73_show (c := { c with editor := ed' }) (G := G) hS (hf.step hs)
      (C63_formed shipped_results hr') hG
    refine .inr ⟨ed', t, rfl, hr', ht, ?_⟩
    unfold handleEdit
    rw [hs]
    exact h

theorem _root_.Aftermath.CalmRun.formed {T : Type} {env : Env T} {ed : Editor T}
    (h : CalmRun env ed) : FormedRun env ed := by
  induction h with
  | new => exact .new
  | @step ed ed' op _ hs hc hfit ih =>
    refine ih.step hs ?_ hfit
    cases op <;> first | trivial | exact hc | exact hc.1

/-- **C73.** The same in one piece, for states in which the caret is not lost: what ends the editor,
and what throws. -/
theorem _root_.Aftermath.C73_ends (hS : S.Ships x) (hrun : CalmRun S.env c.editor)
    (hfit : S.Fits c.editor.input)
    (hdeep : S.cfg.checks = false → ∀ p, ValidPos c.editor.input p →
      p.rowIndices.length + 1 < 2 ^ S.cfg.bits)
    (hone : SingleLeft c.editor.input c.editor.caret) (hG : ∀ p, 0 < G.fontSize p) {op : Op}
    (hgood : op.GoodNodes S.cfg) (hpos : op.GoodPositions c.editor.input)
    (hlose : ∀ rule q o row syms ed0, CompletedToken S.env c.editor rule q o row syms →
      c.editor.step S.env.plain op = .ok ed0 → ¬ LosesToken c.editor ed0 q) :
    (c.handleEdit S G op = .dead ↔ op.Dies S.env c.editor ∨
      ∃ ed', c.editor.step S.env op = .ok ed' ∧ ¬ Unshowable S ed'.input ∧
        CaretLost { c with editor := ed' }) ∧
    ((∃ c', c.handleEdit S G op = .thrown c') ↔
      ∃ ed', c.editor.step S.env op = .ok ed' ∧ Unshowable S ed'.input) ∧
    ((∃ c', c.handleEdit S G op = .fine c') ↔
      ∃ ed', c.editor.step S.env op = .ok ed' ∧ ¬ Unshowable S ed'.input ∧
        ¬ CaretLost { c with editor := ed' }) := by
  have hp := C73_panics hrun hfit hdeep shipped_rules hone hgood hpos hlose
  rcases C73_call hS hrun.formed (CalmRun.fresh hrun) hfit hG hgood with
    ⟨p, h1, h2⟩ | ⟨ed', t, h1, -, -, h2⟩
  · rw [h2, ← hp, h1]
    simp
  · rw [← hp, h1]
    generalize c.handleEdit S G op = o at h2
    have e1 : (∃ p, (Except.ok ed' : M (Editor SNode)) = .error p) ↔ False :=
      ⟨(fun ⟨_, h⟩ => nomatch h), False.elim⟩
    have e2 : ∀ P : Editor SNode → Prop,
        (∃ e, (Except.ok ed' : M (Editor SNode)) = .ok e ∧ P e) ↔ P ed' := fun P =>
      ⟨fun ⟨_, h, h'⟩ => by cases h; exact h', fun h => ⟨_, rfl, h⟩⟩
    rw [e1, e2, e2, e2]
    cases h2 with
    | thrown hu => simp_all
    | dead hu hl => simp_all
    | fine e hu hl he => simp_all

/-- How loading a document ends that is read as a well-formed row. -/
theorem load_ends (hS : S.Ships x) (hf : Fresh S.env c.editor)
    (hw : rowWf c.editor.input = true) (ht : S.grammar.parse c.editor.input = .ok c.tree)
    (hdeep : S.cfg.checks = false → c.editor.caret.start.rowIndices.length < 2 ^ S.cfg.bits ∧
      c.editor.caret.stop.rowIndices.length < 2 ^ S.cfg.bits)
    (hG : ∀ p, 0 < G.fontSize p) {d : Dom} {r : Row} {es : List ImportError}
    (hr : fromElement S.browser d = .ok (r, es)) (hwr : rowWf r = true) :
    (CaretInElement c.editor.caret ∧ c.handleMathML S G d = .dead) ∨
    (¬ CaretInElement c.editor.caret ∧ ∃ ed' t, ed'.input = r ∧ ed'.caret = c.editor.caret ∧
      Fresh S.env ed' ∧ S.grammar.parse r = .ok t ∧
      ShowEnds S { c with editor := ed' } t (c.handleMathML S G d)) := by
  obtain ⟨hx, m, hm⟩ := id hS
  obtain ⟨t', ht', hft⟩ := parse_ok (hm.fits hx).1 hw
  rw [ht] at ht'
  cases ht'
  have hv : ValidRange c.editor.input ⟨[], c.tree.lo, c.tree.hi⟩ := by
    refine ⟨c.editor.input, rfl, ?_, ?_⟩
    · rw [hft.lo_eq]; exact Nat.zero_le _
    · rw [hft.hi_eq]
  have hx := splice_exact (env := S.env) hw hv r hdeep
  unfold handleMathML
  simp only [hr, Handled.script]
  cases hs : c.editor.spliceAtRange S.env ⟨[], c.tree.lo, c.tree.hi⟩ r with
  | error p => exact .inl ⟨(hx.1 ⟨p, hs⟩).2, rfl⟩
  | ok ed' =>
    refine .inr ⟨fun h => ?_, ?_⟩
    · obtain ⟨p, h⟩ := hx.2 ⟨rfl, h⟩
      rw [hs] at h
      cases h
    · obtain ⟨⟨row, g1, g2, g3, g4, -⟩, g5⟩ := splice_sound hs
      cases g1
      have hin : ed'.input = r := by
        simp only [hft.lo_eq, hft.hi_eq] at g4
        have := g4.rowAt_new
        simp only [rowAt, Option.some.injEq] at this
        rw [this]
        simp
      obtain ⟨t, k1, k2⟩ := C73_show (c := { c with editor := ed' }) (G := G) hS
        (hf.step (op := .spliceAtRange _ _) hs) (by simp only; rw [hin]; exact hwr) hG
      exact ⟨ed', t, hin, g5, hf.step (op := .spliceAtRange _ _) hs, by rw [← hin]; exact k1, k2⟩

/-- **C73.** Setting the attribute, wherever the caret is and whatever happened before: nothing
happens but an exception if the document cannot be read; the editor ends if an end of the selection
is inside an element; and else it ends as showing the new formula does, with the caret at the old
place. -/
theorem _root_.Aftermath.C73_set (hS : S.Ships x) (hf : Fresh S.env c.editor)
    (hw : rowWf c.editor.input = true) (ht : S.grammar.parse c.editor.input = .ok c.tree)
    (hdeep : S.cfg.checks = false → c.editor.caret.start.rowIndices.length < 2 ^ S.cfg.bits ∧
      c.editor.caret.stop.rowIndices.length < 2 ^ S.cfg.bits)
    (hG : ∀ p, 0 < G.fontSize p) {d : Dom} (he : ∀ d', d.Reads d' → ¬ d'.EmptyTable) :
    (∀ p, fromElement S.browser d = .error p → c.handleMathML S G d = .thrown c) ∧
    ∀ r es, fromElement S.browser d = .ok (r, es) →
      (CaretInElement c.editor.caret ∧ c.handleMathML S G d = .dead) ∨
      (¬ CaretInElement c.editor.caret ∧ ∃ ed' t, ed'.input = r ∧ ed'.caret = c.editor.caret ∧
        S.grammar.parse r = .ok t ∧
        ShowEnds S { c with editor := ed' } t (c.handleMathML S G d)) := by
  refine ⟨fun p hp => by unfold handleMathML; rw [hp]; rfl, ?_⟩
  intro r es hr
  rcases load_ends hS hf hw ht hdeep hG hr (C54_wf hr he) with h | ⟨h, ed', t, h1, h2, -, h3⟩
  · exact .inl h
  · exact .inr ⟨h, ed', t, h1, h2, h3⟩

/-- **C73.** Pressing the pointer where no token is about to be replaced, also after exceptions:
nothing happens but an exception if no position is found; else the caret is put there, and the
editor ends if that is no position of the formula, which then can be shown. -/
theorem _root_.Aftermath.C73_click (hS : S.Ships x) (hrun : CalmRun S.env c.editor)
    (hfit : S.Fits c.editor.input)
    (hq : ∃ e, c.editor.startAutocorrect S.env = .ok (e, none))
    (hG : ∀ p, 0 < v.after.fontSize p) (pos : Coord) :
    (∀ e, layoutPosition v.before pos c.result = .error e →
      c.handle S v (.pointerDown pos) = .thrown c) ∧
    ∀ p, layoutPosition v.before pos c.result = .ok p →
      ∃ ed' t, ed'.input = c.editor.input ∧ ed'.caret = .at p ∧
        S.grammar.parse c.editor.input = .ok t ∧
        (CaretLost { c with editor := ed', pointerDown := true } ↔
          c.connected = true ∧ ¬ ValidPos c.editor.input p) ∧
        ShowEnds S { c with editor := ed', pointerDown := true } t
          (c.handle S v (.pointerDown pos)) := by
  refine ⟨fun e he => by simp only [handle, he, Handled.script], fun p hp => ?_⟩
  simp only [handle, hp, Handled.script]
  obtain ⟨e0, hq⟩ := hq
  have hx := C27_exact_partial hrun hfit hq (.startSelection p .char) (fun _ _ => nofun)
  rcases C73_call (c := { c with pointerDown := true }) hS hrun.formed (CalmRun.fresh hrun) hfit hG
    (op := .startSelection p .char) trivial with ⟨e, h1, h2⟩ | ⟨ed', t, h1, -, h3, h2⟩
  · exact (hx.1 ⟨e, h1⟩).elim
  · have h4 := C51_start h1
    have h5 := (C25_moves_no_token _ (.inr (.inr (.inl ⟨_, _, rfl⟩))) (quiet_no_token hq) h1).1
    refine ⟨ed', t, h5, h4, by rw [← h5]; exact h3, ?_, h2⟩
    unfold CaretLost
    simp only [h4, h5]
    have : ValidCaret c.editor.input (.at p) ↔ ValidPos c.editor.input p := ⟨And.left, fun h => ⟨h, h⟩⟩
    rw [this]

end Component

/-- `abcsumx` as MathML. -/
def lostDom : Dom := .elem .math [] [.elem .mi ['a', 'b', 'c', 's', 'u', 'm', 'x'] []]

/-- The caret is moved behind `abcsum`. -/
def lostEvents : List (View × Event) :=
  (powerView, .connect lostDom) :: List.replicate 6 (powerView, .arrow .right)

/-- **C73, witness.** Right behind `sum` in `abcsumx` replaces `sum`, the caret is lost, and the
editor ends: nothing panics before the carets are drawn. -/
theorem C73_lost : ∃ (S : Setting) (c : Component) (ed' : Editor SNode), S.Ships letterXid ∧
    c.Alive S ∧ c.editor.caret = .at ⟨[], 6⟩ ∧
    c.editor.step S.env (.moveCaret .right .char) = .ok ed' ∧
    ed'.input = ['a', 'b', 'c', '∑', 'x'].map (fun k => .symbol [k]) ∧ ed'.caret = .at ⟨[], 7⟩ ∧
    c.handle S powerView (.arrow .right) = .dead := by
  have h : afterAll lostEvents (fun S c => (c.editor.caret,
      (c.editor.step S.env (.moveCaret .right .char)).toOption.map fun e => (e.input, e.caret),
      (c.handle S powerView (.arrow .right)).left.isSome)) =
      some (.at ⟨[], 6⟩,
        some (['a', 'b', 'c', '∑', 'x'].map (fun k => .symbol [k]), .at ⟨[], 7⟩), false) := by
    decide +kernel
  obtain ⟨S, c, hS, hc, h1⟩ := afterAll_ok h
  simp only [Prod.mk.injEq] at h1
  obtain ⟨h2, h3, h4⟩ := h1
  obtain ⟨ed', h5, h6⟩ := Option.map_eq_some_iff.1 h3
  simp only [Prod.mk.injEq] at h6
  refine ⟨S, c, ed', hS, hc, h2, M.toOption_eq_some.1 h5, h6.1, h6.2, ?_⟩
  cases hh : c.handle S powerView (.arrow .right) with
  | dead => rfl
  | _ => rw [hh] at h4; cases h4

/-- The same with three more symbols behind the token: the caret stays in the formula, two places
too far to the right, and the editor goes on. -/
example : afterAll ((powerView, .connect (.elem .math []
      [.elem .mi ['a', 'b', 'c', 's', 'u', 'm', 'x', 'y', 'z'] []])) ::
      List.replicate 7 (powerView, .arrow .right)) (fun _ c => (c.editor.input, c.editor.caret)) =
    some (['a', 'b', 'c', '∑', 'x', 'y', 'z'].map (fun k => .symbol [k]), .at ⟨[], 7⟩) := by
  decide +kernel

/-- Setting the attribute with the caret in a cell ends the editor. -/
example : afterAll [(powerView, .connect squareDom), (powerView, .arrow .right),
    (powerView, .arrow .right)]
    (fun S c => (c.editor.caret, (c.handle S powerView (.setAttribute lostDom)).left.isSome)) =
    some (.at ⟨[(1, 0)], 0⟩, false) := by
  decide +kernel

end Aftermath
