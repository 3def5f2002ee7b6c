import Verif.Spec.Endings
import Verif.Proof.AnyEnd

/-! # Property theorem C76: how every event ends, in every state -/

namespace Aftermath

/-- What is known about the component after events with well-formed data. -/
structure Component.Formed (S : Setting) (x : Xid) (c : Component) : Prop where
  run : FormedRun S.env c.editor
  fresh : Fresh S.env c.editor
  roomy : S.Roomy c.editor
  shown : ∃ row, Shown x row c.result
  tree : ∃ row, rowWf row = true ∧ S.grammar.parse row = .ok c.tree

namespace Component

variable {S : Setting} {x : Xid} {c c' : Component} {G : Geom} {v : View} {shown : Row}

theorem Formed.wf (h : c.Formed S x) : rowWf c.editor.input = true :=
  C63_formed shipped_results h.run

theorem Roomy.fits {ed : Editor SNode} (h : S.Roomy ed) : S.Fits ed.input := fun hc => (h hc).1

/-- `C74` for the shipped rules. -/
theorem step_panics (hr : FormedRun S.env c.editor) (hroom : S.Roomy c.editor) {op : Op}
    (hn : op.GoodNodes S.cfg) :
    (∃ p, c.editor.step S.env op = .error p) ↔ op.AllPanics S.env c.editor :=
  C74 hr shipped_results shipped_rules (fun h => (hroom h).1) (fun h => (hroom h).2) hn

/-- The three ends exclude each other. -/
theorem ends_cases {o : Handled} {K T : Prop} (h1 : o = .dead → K ∧ ¬ T)
    (h2 : ∀ c', o = .thrown c' → T ∧ ¬ K) (h3 : ∀ c', o = .fine c' → ¬ K ∧ ¬ T) :
    (o = .dead ↔ K) ∧ ((∃ c', o = .thrown c') ↔ T) := by
  cases o with
  | dead => have := h1 rfl; simp [this.1, this.2]
  | thrown c' => have := h2 c' rfl; simp [this.1, this.2]
  | fine c' => have := h3 c' rfl; simp [this.1, this.2]

theorem draw_ends (hw : rowWf c.editor.input = true) (hs : Shown x shown c.result)
    (hG : ∀ p, 0 < G.fontSize p) :
    (c.drawCarets G = .dead ↔ c.CaretLost) ∧
    ((∃ c', c.drawCarets G = .thrown c') ↔ c.DrawThrows shown) := by
  obtain ⟨g, -, hl⟩ := hs.laid
  unfold drawCarets
  by_cases hc : c.connected = true
  · rw [if_pos hc]
    cases hsel : c.editor.getCaret with
    | error p =>
      have hsel' : selectionOf c.editor.input c.editor.caret = .error p := hsel
      simp only [Handled.call, true_iff]
      refine ⟨⟨hc, (getCaret_error hw).1 ⟨p, hsel⟩⟩, (fun ⟨_, h⟩ => nomatch h), ?_⟩
      rintro ⟨-, sel, h, -⟩
      rw [hsel'] at h
      cases h
    | ok sel =>
      have hsel' : selectionOf c.editor.input c.editor.caret = .ok sel := hsel
      have hv : ¬ c.CaretLost := by
        rintro ⟨-, h⟩
        obtain ⟨p, h⟩ := (getCaret_error hw).2 h
        rw [hsel] at h
        cases h
      simp only [Handled.call]
      cases hr : renderCaret G c.result sel with
      | ok u =>
        cases u
        have := (renderCaret_iff hl hG sel).1 hr
        simp only [Handled.script, reduceCtorEq, hv, exists_false, false_iff, true_and]
        rintro ⟨-, sel', h, h'⟩
        rw [hsel'] at h
        cases h
        exact h' this
      | error p =>
        simp only [Handled.script, reduceCtorEq, hv, Handled.thrown.injEq, exists_eq', true_iff,
          true_and]
        refine ⟨hc, sel, hsel', fun h => ?_⟩
        rw [(renderCaret_iff hl hG sel).2 h] at hr
        cases hr
  · rw [if_neg hc]
    simp only [reduceCtorEq, exists_false, false_iff]
    exact ⟨fun h => hc h.1, fun h => hc h.1⟩

theorem redraw_ends (hS : S.Ships x) (hf : Fresh S.env c.editor)
    (hw : rowWf c.editor.input = true) (hG : ∀ p, 0 < G.fontSize p) :
    (c.redraw S G = .dead ↔ ¬ Unshowable S c.editor.input ∧ c.CaretLost) ∧
    ((∃ c', c.redraw S G = .thrown c') ↔ Unshowable S c.editor.input) := by
  obtain ⟨t, -, h⟩ := C73_show (G := G) hS hf hw hG
  generalize c.redraw S G = o at h
  cases h with
  | thrown hu => simp [hu]
  | dead hu hl => simp [hu, hl]
  | fine e hu hl => simp [hu, hl]

theorem edit_ends (hS : S.Ships x) (hr : FormedRun S.env c.editor) (hf : Fresh S.env c.editor)
    (hroom : S.Roomy c.editor) (hG : ∀ p, 0 < G.fontSize p) {op : Op} (hn : op.GoodNodes S.cfg) :
    (c.handleEdit S G op = .dead ↔ c.EditKills S op) ∧
    ((∃ c', c.handleEdit S G op = .thrown c') ↔ c.EditThrows S op) := by
  have hp := step_panics hr hroom hn
  unfold handleEdit EditKills EditThrows
  rw [← hp]
  cases hs : c.editor.step S.env op with
  | error p => simp [Handled.call]
  | ok ed' =>
    have hr' : FormedRun S.env ed' := hr.step hs hn (Roomy.fits hroom)
    have := redraw_ends (c := { c with editor := ed' }) (G := G) hS (hf.step hs)
      (C63_formed shipped_results hr') hG
    simp only [Handled.call, reduceCtorEq, exists_false, false_or, Except.ok.injEq,
      exists_eq_left']
    exact this

theorem select_ends (hr : FormedRun S.env c.editor) (hroom : S.Roomy c.editor)
    (hs : Shown x shown c.result) (hG : ∀ p, 0 < G.fontSize p) {op : Op} (hn : op.GoodNodes S.cfg) :
    (c.handleSelect S G op = .dead ↔ c.SelectKills S op) ∧
    ((∃ c', c.handleSelect S G op = .thrown c') ↔ c.SelectThrows S shown op) := by
  have hp := step_panics hr hroom hn
  unfold handleSelect SelectKills SelectThrows
  rw [← hp]
  cases hst : c.editor.step S.env op with
  | error p => simp [Handled.call]
  | ok ed' =>
    have hr' : FormedRun S.env ed' := hr.step hst hn (Roomy.fits hroom)
    have := draw_ends (c := { c with editor := ed' }) (G := G) (C63_formed shipped_results hr') hs hG
    simp only [Handled.call, reduceCtorEq, exists_false, false_or, Except.ok.injEq,
      exists_eq_left']
    exact this

theorem copy_panics (hw : rowWf c.editor.input = true) :
    (∃ p, c.editor.copy = .error p) ↔ c.CopyPanics := by
  unfold CopyPanics
  cases h : Caret.fromMinimal c.editor.input c.editor.caret with
  | error p => simp [Editor.copy, selectionOf, h, M.error_bind]
  | ok cc =>
    have hsel : selectionOf c.editor.input c.editor.caret = .ok cc.selection.toMinimal := by
      simp only [selectionOf, h, M.ok_bind]
    rw [hsel]
    cases hcs : cc.selection with
    | grid g => simp [Editor.copy, h, M.ok_bind, hcs, Selection.toMinimal]
    | row r =>
      rw [hcs] at hsel
      obtain ⟨row, -, -, h3⟩ := copy_ok hw hsel
      simp [h3, Selection.toMinimal]

theorem paste_flag {T : Type} {env : Env T} {ed ed' : Editor T} {data : Str} {b : Bool}
    (h : ed.paste env data true = .ok (ed', b)) :
    b = (deserializeNodes env.cfg data).isSome := by
  unfold Editor.paste at h
  obtain ⟨⟨e, ac⟩, -, h⟩ := M.bind_eq_ok.1 h
  simp only [if_true] at h
  cases hd : deserializeNodes env.cfg data with
  | none => rw [hd] at h; cases h; rfl
  | some nodes =>
    rw [hd] at h
    obtain ⟨e', -, h⟩ := M.bind_eq_ok.1 h
    cases h
    rfl

theorem redraw_formed (hS : S.Ships x) (hr : FormedRun S.env c.editor) (hf : Fresh S.env c.editor)
    (hsh : ∃ row, Shown x row c.result) (h : (c.redraw S G).left = some c')
    (hroom : S.Roomy c'.editor) : c'.Formed S x := by
  have hw := C63_formed shipped_results hr
  obtain ⟨hx, m, hm⟩ := id hS
  obtain ⟨t, ht, -⟩ := C57_partial hx hm hw
  have hg : c.editor.getSyntaxTree S.env = .ok ({ c.editor with parsed := some t }, t) :=
    getSyntaxTree_eq hf ht
  obtain ⟨ed, t', h1, h2⟩ := redraw_left h
  rw [hg] at h1
  cases h1
  have hed : c'.editor = { c.editor with parsed := some t } := by
    rcases h2 with ⟨rfl, -⟩ | ⟨e, -, rfl⟩ <;> rfl
  have hst : c.editor.step S.env .getSyntaxTree = .ok c'.editor := by
    simp only [Editor.step, hg, M.ok_bind, hed]
  have hfit : S.Fits c.editor.input := by
    have := Roomy.fits hroom
    rw [hed] at this
    exact this
  refine ⟨hr.step hst trivial hfit, hf.step hst, hroom, ?_, ?_⟩
  · rcases h2 with ⟨rfl, -⟩ | ⟨e, he, rfl⟩
    · exact hsh
    · exact ⟨_, shown_of hS hw ht he⟩
  · refine ⟨_, hw, ?_⟩
    rcases h2 with ⟨rfl, -⟩ | ⟨e, he, rfl⟩ <;> exact ht

theorem edit_formed (hS : S.Ships x) (hc : c.Formed S x) {op : Op} (hn : op.GoodNodes S.cfg)
    (h : (c.handleEdit S G op).left = some c') (hroom : S.Roomy c'.editor) : c'.Formed S x := by
  obtain ⟨ed, h1, h2⟩ := Handled.left_call h
  exact redraw_formed (c := { c with editor := ed }) hS (hc.run.step h1 hn (Roomy.fits hc.roomy))
    (hc.fresh.step h1) hc.shown h2 hroom

theorem select_formed (hc : c.Formed S x) {op : Op} (hn : op.GoodNodes S.cfg)
    (h : (c.handleSelect S G op).left = some c') (hroom : S.Roomy c'.editor) : c'.Formed S x := by
  obtain ⟨h1, h2⟩ := handleSelect_after h
  refine ⟨hc.run.step h1 hn (Roomy.fits hc.roomy), hc.fresh.step h1, hroom, ?_, ?_⟩
  · rw [h2]; exact hc.shown
  · rw [h2]; exact hc.tree

theorem task_eq (t : InputEvent) :
    (∃ op, t.op S = some op ∧ op.GoodNodes S.cfg ∧ c.handleTask S G t = c.handleEdit S G op) ∨
    (t.op S = none ∧ c.handleTask S G t = .fine c) := by
  rcases t with _ | _ | (_ | s) | _
  · exact .inl ⟨_, rfl, trivial, rfl⟩
  · exact .inl ⟨_, rfl, trivial, rfl⟩
  · exact .inr ⟨rfl, rfl⟩
  · exact .inl ⟨_, rfl, trivial, rfl⟩
  · exact .inr ⟨rfl, rfl⟩

theorem Formed.setTasks (hc : c.Formed S x) (ts : List InputEvent) :
    ({ c with tasks := ts } : Component).Formed S x :=
  ⟨hc.run, hc.fresh, hc.roomy, hc.shown, hc.tree⟩

theorem task_formed (hS : S.Ships x) (hc : c.Formed S x) {t : InputEvent}
    (h : (c.handleTask S G t).left = some c') (hroom : S.Roomy c'.editor) : c'.Formed S x := by
  rcases task_eq (S := S) (c := c) (G := G) t with ⟨op, -, hn, h1⟩ | ⟨-, h1⟩
  · rw [h1] at h
    exact edit_formed hS hc hn h hroom
  · rw [h1] at h
    cases h
    exact hc

theorem tasks_formed (hS : S.Ships x) (ts : List InputEvent) : ∀ {c : Component}, c.Formed S x →
    c.TasksRoomy S G ts → (c.handleTasks S G ts).left = some c' → S.Roomy c'.editor →
    c'.Formed S x := by
  induction ts with
  | nil => intro c hc _ h _; cases h; exact hc
  | cons t ts ih =>
    intro c hc hroom h hr'
    simp only [handleTasks] at h
    cases ht : ({ c with tasks := ts } : Component).handleTask S G t with
    | dead => rw [ht] at h; cases h
    | thrown c1 =>
      rw [ht] at h
      cases h
      exact task_formed hS (hc.setTasks ts) (by rw [ht]; rfl) hr'
    | fine c1 =>
      rw [ht] at h
      obtain ⟨h1, h2⟩ := hroom c1 ht
      exact ih (task_formed hS (hc.setTasks ts) (by rw [ht]; rfl) h1) h2 h hr'

theorem release_formed (hc : c.Formed S x) {pos : Coord}
    (h : (c.handleRelease S v pos).left = some c') (hroom : S.Roomy c'.editor) :
    c'.Formed S x := by
  rcases handleRelease_after h with ⟨rfl, -⟩ | ⟨p, ed, -, h1, rfl⟩
  · exact ⟨hc.run, hc.fresh, hc.roomy, hc.shown, hc.tree⟩
  · have hr1 : FormedRun S.env ed := hc.run.step h1 trivial (Roomy.fits hc.roomy)
    have h2 : ed.step S.env .finishSelection = .ok ed.finishSelection := rfl
    exact ⟨hr1.step h2 trivial (Roomy.fits hroom), (hc.fresh.step h1).step h2, hroom, hc.shown,
      hc.tree⟩

theorem mathML_formed (hS : S.Ships x) (hc : c.Formed S x) {d : Dom}
    (hd : ∀ r es, fromElement S.browser d = .ok (r, es) → rowWf r = true)
    (h : (c.handleMathML S G d).left = some c')
    (hroom : S.Roomy c'.editor) : c'.Formed S x := by
  rcases Handled.left_script h with ⟨rfl, -⟩ | ⟨⟨r, es⟩, h1, h2⟩
  · exact hc
  · exact edit_formed (op := .spliceAtRange ⟨[], c.tree.lo, c.tree.hi⟩ r) hS hc (hd r es h1) h2 hroom

/-- Every event with well-formed data keeps what is known. -/
theorem Formed.handle (hS : S.Ships x) (hc : c.Formed S x) {ev : Event} (hd : ev.GoodData S)
    (hr : ev.Roomy S c v) (h : (c.handle S v ev).left = some c') (hr' : S.Roomy c'.editor) :
    c'.Formed S x := by
  cases ev with
  | arrow d => exact edit_formed (op := .moveCaret d .char) hS hc trivial h hr'
  | undoKey => exact edit_formed (op := .undo) hS hc trivial h hr'
  | redoKey => exact edit_formed (op := .redo) hS hc trivial h hr'
  | otherKey => exact redraw_formed hS hc.run hc.fresh hc.shown h hr'
  | beforeInput i => cases h; exact hc.setTasks _
  | timer => exact tasks_formed hS _ hc hr h hr'
  | copy =>
    obtain ⟨data, -, h2⟩ := Handled.left_call h
    cases h2
    exact ⟨hc.run, hc.fresh, hc.roomy, hc.shown, hc.tree⟩
  | cut =>
    obtain ⟨data, -, h2⟩ := Handled.left_call h
    exact edit_formed (c := { c with clipboard := some data }) (op := .removeAtCaret .range) hS
      ⟨hc.run, hc.fresh, hc.roomy, hc.shown, hc.tree⟩ trivial h2 hr'
  | paste json text =>
    obtain ⟨⟨ed, ok⟩, h1, h2⟩ := Handled.left_call h
    have h3 : c.editor.step S.env (.paste (pasted json text) true) = .ok ed := by
      simp only [Editor.step, pasted, h1, M.ok_bind]
    have hr1 := hc.run.step h3 hd (Roomy.fits hc.roomy)
    cases ok with
    | true => exact redraw_formed (c := { c with editor := ed }) hS hr1 (hc.fresh.step h3) hc.shown h2 hr'
    | false => cases h2; exact ⟨hr1, hc.fresh.step h3, hr', hc.shown, hc.tree⟩
  | pointerDown pos =>
    rcases Handled.left_script h with ⟨rfl, -⟩ | ⟨p, -, h2⟩
    · exact hc
    · exact edit_formed (c := { c with pointerDown := true }) (op := .startSelection p .char) hS
        ⟨hc.run, hc.fresh, hc.roomy, hc.shown, hc.tree⟩ trivial h2 hr'
  | pointerUp pos => exact release_formed hc h hr'
  | pointerCancel pos => exact release_formed hc h hr'
  | pointerMove pos =>
    simp only [Component.handle] at h
    split at h
    · rcases Handled.left_script h with ⟨rfl, -⟩ | ⟨p, -, h2⟩
      · exact hc
      · exact select_formed (op := .extendSelection p) hc trivial h2 hr'
    · cases h; exact hc
  | mouseDown pos clicks =>
    simp only [Component.handle] at h
    split at h
    · rcases Handled.left_script h with ⟨rfl, -⟩ | ⟨p, -, h2⟩
      · exact hc
      · split at h2
        · exact select_formed (op := .startSelection p .word) hc trivial h2 hr'
        · split at h2
          · exact select_formed (op := .startSelection p .line) hc trivial h2 hr'
          · cases h2; exact hc
    · cases h; exact hc
  | connect d =>
    exact mathML_formed (c := { c with connected := true }) hS
      ⟨hc.run, hc.fresh, hc.roomy, hc.shown, hc.tree⟩ hd h hr'
  | disconnect => cases h; exact ⟨hc.run, hc.fresh, hc.roomy, hc.shown, hc.tree⟩
  | setAttribute d => exact mathML_formed hS hc hd h hr'

theorem Proper.formed (hS : S.Ships x) (h : c.Proper S) : c.Formed S x := by
  induction h with
  | @new c h hr =>
    unfold Component.new at h
    obtain ⟨⟨ed, t⟩, h1, h2⟩ := M.bind_eq_ok.1 h
    obtain ⟨e, h3, h4⟩ := M.bind_eq_ok.1 h2
    cases h4
    have h5 : (Editor.new : Editor SNode).step S.env .getSyntaxTree = .ok ed := by
      simp only [Editor.step, h1, M.ok_bind]
    have ht : S.grammar.parse [] = .ok t := by
      simp only [Editor.getSyntaxTree, Editor.new] at h1
      obtain ⟨t', h6, h7⟩ := M.bind_eq_ok.1 h1
      cases h7
      exact h6
    have hf : Fresh S.env (Editor.new : Editor SNode) := fun t ht => by cases ht
    exact ⟨FormedRun.new.step h5 trivial (fun _ => rfl), hf.step h5, hr,
      ⟨[], shown_of hS rfl ht h3⟩, ⟨[], rfl, ht⟩⟩
  | step _ hs hd hr hr' ih => exact ih.handle hS hd hr hs hr'

theorem tasks_ends (hS : S.Ships x) (hG : ∀ p, 0 < G.fontSize p) (ts : List InputEvent) :
    ∀ {c : Component}, c.Formed S x → c.TasksRoomy S G ts →
    (c.handleTasks S G ts = .dead ↔ c.TasksKill S G ts) ∧
    ((∃ c', c.handleTasks S G ts = .thrown c') ↔ c.TasksThrow S G ts) := by
  induction ts with
  | nil => intro c _ _; simp [handleTasks, TasksKill, TasksThrow]
  | cons t ts ih =>
    intro c hc hroom
    have hc' := hc.setTasks ts
    have key : (({ c with tasks := ts } : Component).handleTask S G t = .dead ↔
          ∃ op, t.op S = some op ∧ c.EditKills S op) ∧
        ((∃ c', ({ c with tasks := ts } : Component).handleTask S G t = .thrown c') ↔
          ∃ op, t.op S = some op ∧ c.EditThrows S op) := by
      rcases task_eq (S := S) (c := { c with tasks := ts }) (G := G) t with
        ⟨op, h1, hn, h2⟩ | ⟨h1, h2⟩
      · rw [h1, h2]
        have := edit_ends (G := G) hS hc'.run hc'.fresh hc'.roomy hG hn
        simp only [Option.some.injEq, exists_eq_left']
        exact this
      · rw [h1, h2]
        simp
    unfold TasksKill TasksThrow
    rw [← key.1, ← key.2]
    simp only [handleTasks]
    cases ht : ({ c with tasks := ts } : Component).handleTask S G t with
    | dead => simp [Handled.bind]
    | thrown c1 => simp [Handled.bind]
    | fine c1 =>
      obtain ⟨h1, h2⟩ := hroom c1 ht
      have := ih (task_formed hS hc' (by rw [ht]; rfl) h1) h2
      simp only [Handled.bind, reduceCtorEq, exists_false, false_or, Handled.fine.injEq,
        exists_eq_left']
      exact this

theorem release_ends (hc : c.Formed S x) (hs : Shown x shown c.result)
    (hG : ∀ p, 0 < v.after.fontSize p) {pos : Coord} {p : MinPos}
    (hp : layoutPosition v.before pos c.result = .ok p) :
    (c.handleRelease S v pos = .dead ↔ c.SelectKills S (.extendSelection p)) ∧
    ((∃ c', c.handleRelease S v pos = .thrown c') ↔ c.SelectThrows S shown (.extendSelection p)) := by
  have hx := step_panics hc.run hc.roomy (op := .extendSelection p) trivial
  unfold handleRelease SelectKills SelectThrows
  rw [← hx]
  simp only [hp, Handled.script]
  cases hst : c.editor.step S.env (.extendSelection p) with
  | error e =>
    have hst' : c.editor.extendSelection S.env p = .error e := hst
    simp [hst', Handled.call]
  | ok ed' =>
    have hst' : c.editor.extendSelection S.env p = .ok ed' := hst
    have hw : rowWf ed'.input = true := C63_formed shipped_results
      (hc.run.step hst trivial (Roomy.fits hc.roomy) : FormedRun S.env ed')
    have := draw_ends (c := { c with pointerDown := false, editor := ed'.finishSelection })
      (G := v.after) hw hs hG
    simp only [hst', Handled.call, reduceCtorEq, exists_false, false_or, Except.ok.injEq,
      exists_eq_left']
    exact this

theorem mathML_ends (hS : S.Ships x) (hc : c.Formed S x) (hG : ∀ p, 0 < G.fontSize p) {d : Dom}
    (hd : ∀ r es, fromElement S.browser d = .ok (r, es) → rowWf r = true) :
    (c.handleMathML S G d = .dead ↔ ∃ r es, fromElement S.browser d = .ok (r, es) ∧
      c.EditKills S (.spliceAtRange c.wholeRange r)) ∧
    ((∃ c', c.handleMathML S G d = .thrown c') ↔ (∃ e, fromElement S.browser d = .error e) ∨
      ∃ r es, fromElement S.browser d = .ok (r, es) ∧
        c.EditThrows S (.spliceAtRange c.wholeRange r)) := by
  unfold handleMathML
  cases hf : fromElement S.browser d with
  | error e => simp [Handled.script]
  | ok res =>
    obtain ⟨r, es⟩ := res
    have := edit_ends (G := G) (op := .spliceAtRange c.wholeRange r) hS hc.run hc.fresh hc.roomy hG
      (hd r es hf)
    simp only [Handled.script, Except.ok.injEq, Prod.mk.injEq, reduceCtorEq, exists_false, false_or]
    constructor
    · refine this.1.trans ⟨fun h => ⟨r, es, ⟨rfl, rfl⟩, h⟩, ?_⟩
      rintro ⟨_, _, ⟨rfl, rfl⟩, h⟩
      exact h
    · refine this.2.trans ⟨fun h => ⟨r, es, ⟨rfl, rfl⟩, h⟩, ?_⟩
      rintro ⟨_, _, ⟨rfl, rfl⟩, h⟩
      exact h

/-- **C76.** How every event ends in every state reached by events with well-formed data, whatever
exceptions there were and wherever the caret is: it ends the editor exactly if `Event.Kills`, throws
exactly if `Event.Throws`, and ends well otherwise. `shown` is the formula that is drawn. -/
theorem _root_.Aftermath.C76 (hS : S.Ships x) (hc : c.Proper S) (hs : Shown x shown c.result)
    (hG : ∀ p, 0 < v.after.fontSize p) {ev : Event} (hd : ev.GoodData S) (hr : ev.Roomy S c v) :
    (c.handle S v ev = .dead ↔ ev.Kills S c v) ∧
    ((∃ c', c.handle S v ev = .thrown c') ↔ ev.Throws S c v shown) := by
  replace hc := hc.formed hS
  obtain ⟨g, -, hl⟩ := hs.laid
  have edit := fun {op : Op} (hn : op.GoodNodes S.cfg) =>
    edit_ends (G := v.after) hS hc.run hc.fresh hc.roomy hG hn
  have find : ∀ (pos : Coord) (K : MinPos → Prop) {p : MinPos},
      layoutPosition v.before pos c.result = .ok p →
      ((∃ p, layoutPosition v.before pos c.result = .ok p ∧ K p) ↔ K p) := by
    intro pos K p hp
    rw [hp]
    simp
  cases ev with
  | arrow d => exact edit trivial
  | undoKey => exact edit trivial
  | redoKey => exact edit trivial
  | otherKey => exact redraw_ends hS hc.fresh hc.wf hG
  | beforeInput i => simp [handle, Event.Kills, Event.Throws]
  | timer => exact tasks_ends hS hG _ hc hr
  | copy =>
    have := copy_panics hc.wf
    simp only [handle, handleCopy, Event.Kills, Event.Throws]
    rw [← this]
    cases c.editor.copy <;> simp [Handled.call]
  | cut =>
    have h1 := copy_panics hc.wf
    simp only [handle, handleCopy, Event.Kills, Event.Throws]
    rw [← h1]
    cases c.editor.copy with
    | error p => simp [Handled.call]
    | ok data =>
      have := edit_ends (c := { c with clipboard := some data }) (G := v.after)
        (op := .removeAtCaret .range) hS hc.run hc.fresh hc.roomy hG trivial
      simp only [Handled.call, reduceCtorEq, exists_false, false_or, not_false_eq_true, true_and]
      exact this
  | paste json text =>
    have h1 := step_panics hc.run hc.roomy (op := .paste (pasted json text) true) hd
    have hh : c.handle S v (.paste json text) =
        .call (c.editor.paste S.env (pasted json text) true) fun r =>
          if r.2 then ({ c with editor := r.1 } : Component).redraw S v.after
          else .thrown { c with editor := r.1 } := rfl
    simp only [Event.Kills, Event.Throws, EditKills, EditThrows]
    rw [← h1, hh]
    cases hp : c.editor.paste S.env (pasted json text) true with
    | error e =>
      have : c.editor.step S.env (.paste (pasted json text) true) = .error e := by
        simp only [Editor.step, hp, M.error_bind]
      rw [this]
      simp [Handled.call]
    | ok eb =>
      obtain ⟨ed', b⟩ := eb
      have h3 : c.editor.step S.env (.paste (pasted json text) true) = .ok ed' := by
        simp only [Editor.step, hp, M.ok_bind]
      rw [h3]
      have hb := paste_flag hp
      have hr1 := hc.run.step h3 hd (Roomy.fits hc.roomy)
      have h4 := redraw_ends (c := { c with editor := ed' }) (G := v.after) hS (hc.fresh.step h3)
        (C63_formed shipped_results hr1) hG
      have hb' : b = (deserializeNodes S.cfg (pasted json text)).isSome := hb
      cases hd' : deserializeNodes S.cfg (pasted json text) with
      | none =>
        rw [hd'] at hb'
        cases hb'
        simp [Handled.call]
      | some nodes =>
        rw [hd'] at hb'
        cases hb'
        simp only [Handled.call, Option.isSome_some, if_true, reduceCtorEq,
          exists_false, false_or, ne_eq, not_false_eq_true, true_and, Except.ok.injEq,
          exists_eq_left']
        exact h4
  | pointerDown pos =>
    obtain ⟨p, hp⟩ := layoutPosition_total (G := v.before) hl.laid pos
    simp only [handle, Event.Kills, Event.Throws, find pos _ hp]
    simp only [hp, Handled.script]
    exact edit_ends (c := { c with pointerDown := true }) (G := v.after) hS hc.run hc.fresh hc.roomy
      hG trivial
  | pointerUp pos =>
    obtain ⟨p, hp⟩ := layoutPosition_total (G := v.before) hl.laid pos
    simp only [handle, Event.Kills, Event.Throws, find pos _ hp]
    exact release_ends hc hs hG hp
  | pointerCancel pos =>
    obtain ⟨p, hp⟩ := layoutPosition_total (G := v.before) hl.laid pos
    simp only [handle, Event.Kills, Event.Throws, find pos _ hp]
    exact release_ends hc hs hG hp
  | pointerMove pos =>
    obtain ⟨p, hp⟩ := layoutPosition_total (G := v.before) hl.laid pos
    simp only [handle, Event.Kills, Event.Throws, find pos _ hp]
    by_cases hpd : c.pointerDown = true
    · simp only [hpd, if_true, hp, Handled.script, true_and]
      exact select_ends hc.run hc.roomy hs hG trivial
    · simp [hpd]
  | mouseDown pos clicks =>
    obtain ⟨p, hp⟩ := layoutPosition_total (G := v.before) hl.laid pos
    simp only [handle, Event.Kills, Event.Throws, find pos _ hp]
    by_cases hpd : c.pointerDown = true
    · simp only [hpd, if_true, hp, Handled.script, true_and]
      by_cases h2 : clicks = 2
      · subst h2
        simp only [if_true, true_and, Nat.reduceEqDiff, false_and, or_false]
        exact select_ends hc.run hc.roomy hs hG trivial
      · by_cases h3 : clicks = 3
        · subst h3
          simp only [Nat.reduceEqDiff, if_false, if_true, true_and, false_and, false_or]
          exact select_ends hc.run hc.roomy hs hG trivial
        · simp [h2, h3]
    · simp [hpd]
  | connect d =>
    exact mathML_ends (c := { c with connected := true }) hS
      ⟨hc.run, hc.fresh, hc.roomy, hc.shown, hc.tree⟩ hG hd
  | disconnect => simp [handle, Event.Kills, Event.Throws]
  | setAttribute d => exact mathML_ends hS hc hG hd

/-- **C76**, a part of it: some formula is drawn, and wherever the user clicks, and whatever the
browser reports about places, a position is found. -/
theorem _root_.Aftermath.C76_shown (hS : S.Ships x) (hc : c.Proper S) :
    ∃ shown, Shown x shown c.result ∧ ∀ G pos, ∃ p, layoutPosition G pos c.result = .ok p := by
  obtain ⟨row, hs⟩ := (hc.formed hS).shown
  obtain ⟨g, -, hl⟩ := hs.laid
  exact ⟨row, hs, fun G pos => layoutPosition_total hl.laid pos⟩

theorem Proper.handleAll (hchk : S.cfg.checks = true) {evs : List (View × Event)} :
    ∀ {c : Component}, c.Proper S → (∀ y ∈ evs, y.2.GoodData S) → c.handleAll S evs = some c' →
    c'.Proper S := by
  have hroom : ∀ ed, S.Roomy ed := fun ed h => by rw [hchk] at h; cases h
  have htasks : ∀ (G : Geom) (ts : List InputEvent) (c : Component), c.TasksRoomy S G ts := by
    intro G ts
    induction ts with
    | nil => exact fun _ => trivial
    | cons t ts ih => exact fun c c1 _ => ⟨hroom _, ih c1⟩
  induction evs with
  | nil => intro c hc _ h; cases h; exact hc
  | cons y evs ih =>
    intro c hc hd h
    obtain ⟨v, ev⟩ := y
    obtain ⟨c1, h1, h2⟩ := Option.bind_eq_some_iff.1 h
    refine ih (hc.step h1 (hd _ List.mem_cons_self) ?_ (hroom _))
      (fun y hy => hd y (List.mem_cons_of_mem _ hy)) h2
    cases ev <;> first | trivial | exact htasks _ _ _

/-- **C76**, the states: with overflow checks they are all states that events with well-formed data
lead to, after any exceptions. -/
theorem _root_.Aftermath.C76_proper (hchk : S.cfg.checks = true) {c₀ : Component}
    {evs : List (View × Event)} (h₀ : Component.new S = .ok c₀) (hd : ∀ y ∈ evs, y.2.GoodData S)
    (h : c₀.handleAll S evs = some c) : c.Proper S :=
  (Proper.new h₀ fun h => by rw [hchk] at h; cases h).handleAll hchk hd h

end Component

/-- `ab>=` as MathML. -/
def staleDom : Dom := .elem .math [] [.elem .mi ['a', 'b', '>', '='] []]

/-- The pointer is pressed at the end of `ab>=`, and then the other button is pressed twice at the
start. -/
def staleEvents : List (View × Event) := [(powerView, .connect staleDom),
  (powerView, .pointerDown ⟨13, 20⟩), (powerView, .mouseDown ⟨0, 20⟩ 2)]

theorem afterAll_proper {α : Type} {evs : List (View × Event)} {f : Setting → Component → α} {a : α}
    (hd : ∀ S, ∀ y ∈ evs, y.2.GoodData S) (h : afterAll evs f = some a) :
    ∃ S c, S.Ships letterXid ∧ c.Proper S ∧ f S c = a := by
  obtain ⟨S, h1, h2⟩ := Option.bind_eq_some_iff.1 h
  obtain ⟨c0, h3, h4⟩ := Option.bind_eq_some_iff.1 h2
  obtain ⟨c, h5, h6⟩ := Option.map_eq_some_iff.1 h4
  have hchk : S.cfg.checks = true := by
    unfold letterSetting at h1
    split at h1
    · split at h1
      · cases h1; rfl
      · cases h1
    · cases h1
  exact ⟨S, c, letterSetting_ships h1, C76_proper hchk (M.toOption_eq_some.1 h3) (hd S) h5, h6⟩

/-- **C76, witness.** `>=` is replaced by `≥`, but the new formula is not shown and the old syntax tree is
kept. Setting the attribute then ends the editor, because it replaces the range of the old tree; the
caret is at the start of the formula. -/
theorem C76_stale : ∃ (S : Setting) (c : Component), S.Ships letterXid ∧ c.Proper S ∧
    c.editor.input = ['a', 'b', '≥'].map (fun k => .symbol [k]) ∧
    c.editor.caret = .at ⟨[], 0⟩ ∧ c.wholeRange = ⟨[], 0, 4⟩ ∧
    ∀ d r es v, fromElement S.browser d = .ok (r, es) → c.handle S v (.setAttribute d) = .dead := by
  have h : afterAll staleEvents (fun _ c => (c.editor.input, c.editor.caret, c.tree.lo, c.tree.hi)) =
      some (['a', 'b', '≥'].map (fun k => .symbol [k]), .at ⟨[], 0⟩, 0, 4) := by
    decide +kernel
  have hd : ∀ S, ∀ y ∈ staleEvents, y.2.GoodData S := by
    intro S y hy
    simp only [staleEvents, List.mem_cons, List.not_mem_nil, or_false] at hy
    rcases hy with rfl | rfl | rfl
    · refine fun r es hr => C54_wf hr ?_
      rintro d' h1 ⟨h2, -⟩
      cases h1 with
      | refl => cases h2
      | step h3 h4 =>
        have : d' ∈ staleDom.children := by
          cases h3 with
          | group _ h =>
            simp only [staleDom, Dom.children, List.mem_singleton] at h ⊢
            subst h
            cases h4 with
            | refl => rfl
            | step h5 _ => rcases h5 with ⟨h | h | h | h, -⟩ | ⟨h, -⟩ | ⟨h, -, -⟩ | ⟨h | h | h, -⟩ | ⟨h, -, -, -⟩ <;> cases h
          | semantics h => cases h
          | fixed h => cases h
          | base h => rcases h with h | h | h <;> cases h
          | cell h => cases h
        simp only [staleDom, Dom.children, List.mem_singleton] at this
        subst this
        cases h2
    · trivial
    · trivial
  obtain ⟨S, c, hS, hc, h1⟩ := afterAll_proper hd h
  simp only [Prod.mk.injEq] at h1
  obtain ⟨h2, h3, h4, h5⟩ := h1
  have hw : c.wholeRange = ⟨[], 0, 4⟩ := by simp only [Component.wholeRange, h4, h5]
  refine ⟨S, c, hS, hc, h2, h3, hw, fun d r es v hr => ?_⟩
  have : ¬ ValidRange c.editor.input ⟨[], 0, 4⟩ := by
    rintro ⟨row, h6, -, h7⟩
    rw [h2] at h6
    cases h6
    simp at h7
  cases hs : c.editor.spliceAtRange S.env c.wholeRange r with
  | error p =>
    have hs' : c.editor.spliceAtRange S.env ⟨[], c.tree.lo, c.tree.hi⟩ r = .error p := hs
    simp only [Component.handle, Component.handleMathML, hr, Handled.script, hs', Handled.call]
  | ok ed' =>
    obtain ⟨⟨row, g1, g2, g3, -⟩, -⟩ := splice_sound hs
    rw [hw] at g1 g2 g3
    exact absurd ⟨row, g1, Nat.zero_le _, by simpa using g3⟩ this

end Aftermath
