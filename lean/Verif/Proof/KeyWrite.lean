import Verif.Spec.KeyWrite
import Verif.Proof.KeySelect
import Verif.Proof.EndToEnd
import Verif.Props.Writable
import Verif.Props.Delete

/-! # Lemmas about writing with the keyboard -/

namespace Aftermath

variable {S : Setting} {x : Xid}

/-! ## What does not matter -/

theorem Writable.fits {A : Str → Prop} {row : Row} (h : Writable A row) {b : Nat} (hb : 2 ≤ b) :
    rowFits b row = true := by
  have : 2 < 2 ^ b := Nat.lt_of_lt_of_le (by decide : 2 < 2 ^ 2) (Nat.pow_le_pow_right (by decide) hb)
  induction h with
  | nil => rfl
  | symbol _ _ ih => simpa [rowFits, Node.fits] using ih
  | root _ _ _ h1 h2 h3 => simp [Node.root, rowFits, Node.fits, cellsFit, h1, h2, h3, this]
  | table _ _ h1 h3 =>
    have : 1 < 2 ^ b := by omega
    simp [rowFits, Node.fits, cellsFit, h1, h3, this]

theorem Step.at {root row : Row} {q : RowIndices} {a b : MinPos} (hrow : rowAt root q = some row)
    (h : Step row a b) : Step root ⟨q ++ a.rowIndices, a.offset⟩ ⟨q ++ b.rowIndices, b.offset⟩ := by
  induction q generalizing root with
  | nil => cases hrow; exact h
  | cons ix q ih =>
    obtain ⟨i, j⟩ := ix
    obtain ⟨v, cells, w, c, h1, h2, h3⟩ := rowAt_cons.1 hrow
    exact Step.under h1 h2 (ih h3)

theorem textLeft_behind {b rest : Row} (hb : ∀ s, b.getLast? ≠ some (.symbol s)) (u : Str) :
    TextLeft (b ++ u.map (fun c => .symbol [c]) ++ rest) (b.length + u.length) u := by
  refine ⟨by simp, b, ?_, hb⟩
  rw [List.take_append_of_le_length (by simp), List.take_of_length_le (by simp)]

theorem suggested_short {rules : List AutocompleteRule} {w : Str} (h : w.length < 2) :
    suggested rules w = [] := by
  unfold suggested
  simp only [List.flatMap_eq_nil_iff, List.map_eq_nil_iff, List.filter_eq_nil_iff]
  intro k _ r _ hf
  have := fits_iff.1 hf
  omega

theorem suggested_dummies (n : Nat) :
    suggested shippedAutocomplete (List.replicate n 'x') = [] := by
  unfold suggested
  simp only [List.flatMap_eq_nil_iff, List.map_eq_nil_iff, List.filter_eq_nil_iff]
  intro k _ r hr hf
  obtain ⟨h1, h2, h3⟩ := fits_iff.1 hf
  rw [List.drop_replicate, List.length_replicate] at h3
  rw [List.length_replicate] at h2
  have hk : n - (n - k) = (k - 1) + 1 := by omega
  rw [hk, List.replicate_succ] at h3
  have : ∀ r ∈ shippedAutocomplete, r.parser.head? ≠ some 'x' := by decide +kernel
  refine this r hr ?_
  obtain ⟨t, ht⟩ := h3
  rw [← ht]
  rfl

/-- Nothing is suggested, so nothing is corrected. -/
theorem startAutocorrect_text {ed : Editor SNode} {q : RowIndices} {o : Nat} {row : Row} {w : Str}
    (hwf : rowWf ed.input = true) (hc : ed.caret = .at ⟨q, o⟩) (hrow : rowAt ed.input q = some row)
    (ht : TextLeft row o w) (hw : suggested shippedAutocomplete w = []) :
    ed.startAutocorrect S.env = .ok ({ ed with currentAutocomplete := none }, none) := by
  rcases getAutocomplete_text hwf (env := S.env) Component.shipped_rules hc hrow ht with
    ⟨-, h⟩ | ⟨i, y, h, -, -⟩
  · simp only [Editor.startAutocorrect, h, M.ok_bind]
  · rw [show suggested S.env.rules w = [] from hw] at h
    cases h

/-! ## Sequences of events -/

/-- Some keys lead from every editor with `P` to one with `Q`, wherever things are drawn. -/
def Leads (S : Setting) (P Q : Editor SNode → Prop) : Prop :=
  ∃ evs : List Event, (∀ ev ∈ evs, ev.Key) ∧ ∀ (c : Component) (vs : List (View × Event)),
    P c.editor → Fresh S.env c.editor → c.tasks = [] → vs.map Prod.snd = evs →
    ∃ c', c.handleAll S vs = some c' ∧ Q c'.editor ∧ Fresh S.env c'.editor ∧ c'.tasks = []

theorem Leads.refl {P Q : Editor SNode → Prop} (h : ∀ ed, P ed → Q ed) : Leads S P Q := by
  refine ⟨[], by simp, ?_⟩
  intro c vs hp hf ht hv
  rw [List.map_eq_nil_iff] at hv
  subst hv
  exact ⟨c, rfl, h _ hp, hf, ht⟩

theorem Component.handleAll_then {a b : Component} {v1 v2 : List (View × Event)}
    (h : a.handleAll S v1 = some b) : a.handleAll S (v1 ++ v2) = b.handleAll S v2 := by
  induction v1 generalizing a with
  | nil => cases h; rfl
  | cons e v1 ih =>
    obtain ⟨v, ev⟩ := e
    simp only [List.cons_append, Component.handleAll] at h ⊢
    cases hl : (a.handle S v ev).left with
    | none => rw [hl] at h; cases h
    | some c => rw [hl] at h; exact ih h

theorem Leads.trans {P Q R : Editor SNode → Prop} (h : Leads S P Q) (h' : Leads S Q R) :
    Leads S P R := by
  obtain ⟨e1, h1, h2⟩ := h
  obtain ⟨e2, h3, h4⟩ := h'
  refine ⟨e1 ++ e2, ?_, ?_⟩
  · intro ev hev
    rcases List.mem_append.1 hev with h | h
    exacts [h1 ev h, h3 ev h]
  · intro c vs hp hf ht hv
    obtain ⟨v1, v2, rfl, hv1, hv2⟩ := List.map_eq_append_iff.1 hv
    obtain ⟨c1, g1, g2, g3, g4⟩ := h2 c v1 hp hf ht hv1
    obtain ⟨c2, g5, g6⟩ := h4 c1 v2 g2 g3 g4 hv2
    exact ⟨c2, by rw [Component.handleAll_then g1, g5], g6⟩

theorem Leads.mono {P P' Q Q' : Editor SNode → Prop} (h : Leads S P Q) (hp : ∀ ed, P' ed → P ed)
    (hq : ∀ ed, Q ed → Q' ed) : Leads S P' Q' :=
  (Leads.refl hp).trans (h.trans (.refl hq))

/-- After an editor call that works, the component is there, whatever happens when drawing. -/
theorem handleEdit_goes (hS : S.Ships x) {c : Component} {G : Geom} {op : Op} {ed : Editor SNode}
    (hf : Fresh S.env c.editor) (h : c.editor.step S.env op = .ok ed) (hw : rowWf ed.input = true)
    (hv : ValidCaret ed.input ed.caret) :
    ∃ c' t, (c.handleEdit S G op = .fine c' ∨ c.handleEdit S G op = .thrown c') ∧
      c'.editor = { ed with parsed := some t } ∧ Fresh S.env c'.editor ∧ c'.tasks = c.tasks := by
  obtain ⟨hx, m, hm⟩ := id hS
  obtain ⟨t, ht, -⟩ := parse_ok (hm.fits hx).1 hw
  have hfr : Fresh S.env { ed with parsed := some t } := Component.Fresh.some ht
  have hg := Component.getSyntaxTree_eq (env := S.env) (hf.step h) ht
  have hop : c.handleEdit S G op = ({ c with editor := ed } : Component).redraw S G := by
    simp only [Component.handleEdit, h, Handled.call]
  rw [hop]
  simp only [Component.redraw, hg, Handled.call]
  cases renderAll S.renderers t with
  | error p => exact ⟨_, t, .inr rfl, rfl, hfr, rfl⟩
  | ok e =>
    simp only [Handled.script, Component.drawCarets]
    split
    · obtain ⟨cc, h1, -⟩ := Caret.fromMinimal_valid hw hv
      simp only [Editor.getCaret, h1, M.ok_bind, Handled.call]
      split
      · exact ⟨_, t, .inl rfl, rfl, hfr, rfl⟩
      · exact ⟨_, t, .inr rfl, rfl, hfr, rfl⟩
    · exact ⟨_, t, .inl rfl, rfl, hfr, rfl⟩

/-- What an editor call does, and that it leaves a caret that can be drawn. -/
def Does (S : Setting) (op : Op) (P Q : Editor SNode → Prop) : Prop :=
  (∀ ed t, Q ed → Q { ed with parsed := some t }) ∧
  ∀ ed, P ed → ∃ ed', ed.step S.env op = .ok ed' ∧ Q ed' ∧ rowWf ed'.input = true ∧
    ValidCaret ed'.input ed'.caret

theorem Does.arrow (hS : S.Ships x) {P Q : Editor SNode → Prop} {d : Dir}
    (h : Does S (.moveCaret d .char) P Q) : Leads S P Q := by
  refine ⟨[.arrow d], by simp [Event.Key], ?_⟩
  intro c vs hp hf ht hv
  obtain ⟨⟨v, ev⟩, vs', rfl, rfl, hv'⟩ := List.map_eq_cons_iff.1 hv
  rw [List.map_eq_nil_iff] at hv'
  subst hv'
  obtain ⟨ed, h1, h2, h3, h4⟩ := h.2 _ hp
  obtain ⟨c', t, g1, g2, g3, g4⟩ := handleEdit_goes hS (G := v.after) hf h1 h3 h4
  refine ⟨c', ?_, by rw [g2]; exact h.1 _ _ h2, g3, g4.trans ht⟩
  simp only [Component.handleAll, Component.handle]
  rcases g1 with g1 | g1 <;> rw [g1] <;> rfl

theorem Does.task (hS : S.Ships x) {P Q : Editor SNode → Prop} {op : Op} {i : InputEvent}
    (hk : (Event.beforeInput i).Key)
    (hi : ∀ (c : Component) (G : Geom), c.handleTask S G i = c.handleEdit S G op)
    (h : Does S op P Q) : Leads S P Q := by
  refine ⟨[.beforeInput i, .timer], ?_, ?_⟩
  · intro ev hev
    simp only [List.mem_cons, List.not_mem_nil, or_false] at hev
    rcases hev with rfl | rfl
    · exact hk
    · trivial
  intro c vs hp hf ht hv
  obtain ⟨⟨v1, ev1⟩, vs', rfl, rfl, hv'⟩ := List.map_eq_cons_iff.1 hv
  obtain ⟨⟨v, ev⟩, vs'', rfl, rfl, hv''⟩ := List.map_eq_cons_iff.1 hv'
  rw [List.map_eq_nil_iff] at hv''
  subst hv''
  obtain ⟨ed, h1, h2, h3, h4⟩ := h.2 _ hp
  obtain ⟨c', t, g1, g2, g3, g4⟩ := handleEdit_goes hS (c := { c with tasks := [] })
    (G := v.after) hf h1 h3 h4
  refine ⟨c', ?_, by rw [g2]; exact h.1 _ _ h2, g3, g4⟩
  simp only [Component.handleAll, Component.handle, ht, List.nil_append, Handled.left,
    Option.bind_some, Component.handleTasks, hi]
  rcases g1 with g1 | g1 <;> rw [g1] <;> rfl

/-! ## The keys -/

/-- The row `row` at path `q` of `root` has become `new`, and the caret is at `p`. -/
def In (root : Row) (q : RowIndices) (row new : Row) (p : MinPos) (ed : Editor SNode) : Prop :=
  ReplacedAt root q row new ed.input ∧ ed.caret = .at p

/-- And the rule `cur` is remembered. -/
def InC (root : Row) (q : RowIndices) (row new : Row) (p : MinPos) (cur : Option AutocompleteRule)
    (ed : Editor SNode) : Prop :=
  In root q row new p ed ∧ ed.currentAutocomplete = cur

section
variable {root row new : Row} {q : RowIndices}

theorem leads_left (hS : S.Ships x) (hrel : S.cfg.checks = false) (hbits : 2 ≤ S.cfg.bits)
    (hroot : Writable OneChar root) (hnew : Writable OneChar new) {p p' : MinPos} {r : Row} {w : Str}
    (hstep : ∀ root1, ReplacedAt root q row new root1 → Step root1 p' p ∧ ValidPos root1 p' ∧
      rowAt root1 p.rowIndices = some r)
    (ht : TextLeft r p.offset w) (hw : suggested shippedAutocomplete w = []) :
    Leads S (In root q row new p) (In root q row new p') := by
  refine Does.arrow hS (d := .left) ⟨fun _ _ h => h, ?_⟩
  rintro ed ⟨h1, h2⟩
  obtain ⟨g1, g2, g3⟩ := hstep _ h1
  have hwr := hroot.replaced h1 hnew
  have hval : ValidPos ed.input p := ⟨r, g3, ht.1⟩
  obtain ⟨pr, po⟩ := p
  have he := startAutocorrect_text (S := S) hwr.wf h2 g3 ht hw
  have hp : press S.cfg ed.input .left (.at ⟨pr, po⟩) = .ok (.at p') := by
    rcases press_left_step hwr.wf S.cfg (fun _ => hwr.fits hbits) hval g1 with ⟨h, -⟩ | ⟨-, h⟩
    · rw [hrel] at h; cases h
    · exact h
  refine ⟨{ ed with currentAutocomplete := none, caret := .at p' }, ?_, ⟨h1, rfl⟩, hwr.wf, g2, g2⟩
  simp only [press] at hp
  obtain ⟨c, hc, hp1⟩ := M.bind_eq_ok.1 hp
  obtain ⟨c', hc', hp2⟩ := M.bind_eq_ok.1 hp1
  have hp2 := Except.ok.inj hp2
  rw [← h2] at hc
  have hc'' : moveCaret S.env.cfg ed.input c .left .char = .ok c' := hc'
  simp only [Editor.step, Editor.moveCaret, he, M.ok_bind, hc, hc'', finishNone, hp2]

theorem leads_back (hS : S.Ships x) (hroot : Writable OneChar root) (hnew : Writable OneChar new)
    {k : Nat} {s w : Str} (hk : new[k]? = some (.symbol s)) (ht : TextLeft new (k + 1) w)
    (hw : suggested shippedAutocomplete w = []) :
    Leads S (In root q row new ⟨q, k + 1⟩)
      (In root q row (new.take k ++ new.drop (k + 1)) ⟨q, k⟩) := by
  refine Does.task hS (i := .deleteBackward) (op := .removeAtCaret .left) trivial
    (fun _ _ => rfl) ⟨fun _ _ h => h, ?_⟩
  rintro ed ⟨h1, h2⟩
  have hwr := hroot.replaced h1 hnew
  have he := startAutocorrect_text (S := S) hwr.wf h2 h1.rowAt_new ht hw
  obtain ⟨root', g1, g2⟩ := backspace_symbol hwr.wf S.cfg h1.rowAt_new hk
  rw [← h2] at g1
  obtain ⟨ed', b, g3, rfl, g5⟩ := removeAtCaret_calm_ok (env := S.env) he g1
  have hwr' := hwr.replaced g2 (hnew.subset fun n hn => by
    rcases List.mem_append.1 hn with h | h
    exacts [List.mem_of_mem_take h, List.mem_of_mem_drop h])
  have hval : ValidPos ed'.input ⟨q, k⟩ := by
    refine ⟨_, g2.rowAt_new, ?_⟩
    have := (List.getElem?_eq_some_iff.1 hk).1
    simp
    omega
  refine ⟨ed', ?_, ⟨h1.trans g2, g5⟩, hwr'.wf, ?_⟩
  · simp only [Editor.step, g3, M.ok_bind]
  · rw [g5]; exact ⟨hval, hval⟩

theorem leads_type1 (hS : S.Ships x) (hsplit : ∀ ch, S.browser.split [ch] = [[ch]])
    (hroot : Writable OneChar root) (hnew : Writable OneChar new) {o : Nat} {w : Str} (ch : Char)
    {cur : Option AutocompleteRule} (ht : TextLeft new o w)
    {P : Editor SNode → Prop} (hP : ∀ ed, P ed → In root q row new ⟨q, o⟩ ed ∧
      rememberedBy shippedAutocomplete ed.currentAutocomplete w [ch] = cur) :
    Leads S P (InC root q row (new.take o ++ [.symbol [ch]] ++ new.drop o) ⟨q, o + 1⟩ cur) := by
  refine Does.task hS (i := .insertText (some [ch])) (op := .insertAtCaret [[ch]]) trivial
    (fun c G => by simp only [Component.handleTask, hsplit]) ⟨fun _ _ h => h, ?_⟩
  intro ed hp
  obtain ⟨⟨h1, h2⟩, h3⟩ := hP ed hp
  have hwr := hroot.replaced h1 hnew
  obtain ⟨ed', row', g1, g2, rfl, g4, g5, g6, g7⟩ :=
    C75_typed (env := S.env) [ch] hwr.wf Component.shipped_rules h2 h1.rowAt_new ht
  simp only [typing, List.map_cons, List.map_nil, Editor.run] at g1
  obtain ⟨ed1, g1, g1'⟩ := M.bind_eq_ok.1 g1
  cases g1'
  have hval : ValidPos ed'.input ⟨q, o + 1⟩ := ⟨_, g4.rowAt_new, g6.1⟩
  refine ⟨ed', g1, ⟨⟨h1.trans g4, g5⟩, g7.trans h3⟩, g2, ?_⟩
  rw [g5]
  exact ⟨hval, hval⟩

theorem writable_symbols (u : Str) : Writable OneChar (u.map fun c => Node.symbol [c]) := by
  induction u with
  | nil => exact .nil
  | cons c u ih => exact .symbol ⟨c, rfl⟩ ih

theorem leads_typeC (hS : S.Ships x) (hsplit : ∀ ch, S.browser.split [ch] = [[ch]])
    (hroot : Writable OneChar root) (u : Str) {v : Str} (hnew : Writable OneChar new)
    {cur : Option AutocompleteRule} :
    Leads S (InC root q row (v.map (fun c => .symbol [c]) ++ new) ⟨q, v.length⟩ cur)
      (InC root q row ((v ++ u).map (fun c => .symbol [c]) ++ new) ⟨q, (v ++ u).length⟩
        (rememberedBy shippedAutocomplete cur v u)) := by
  induction u generalizing v cur with
  | nil => exact .refl fun ed h => by simpa [rememberedBy] using h
  | cons c u ih =>
    have h1 : Leads S (InC root q row (v.map (fun c => .symbol [c]) ++ new) ⟨q, v.length⟩ cur) _ :=
      leads_type1 hS hsplit hroot ((writable_symbols v).append hnew) c
      (o := v.length) (w := v) (cur := rememberedBy shippedAutocomplete cur v [c])
      (by simpa using textLeft_behind (b := []) (rest := new) (by simp) v)
      (fun ed h => ⟨h.1, by rw [h.2]⟩)
    have h2 := ih (v := v ++ [c]) (cur := rememberedBy shippedAutocomplete cur v [c])
    refine (h1.trans (.refl ?_)).trans (h2.trans (.refl ?_))
    · intro ed h
      simpa [List.take_left', List.drop_left'] using h
    · intro ed h
      simpa [rememberedBy] using h

theorem leads_type (hS : S.Ships x) (hsplit : ∀ ch, S.browser.split [ch] = [[ch]])
    (hroot : Writable OneChar root) {u : Str} (hu : u ≠ []) (hnew : Writable OneChar new) :
    Leads S (In root q row new ⟨q, 0⟩)
      (InC root q row (u.map (fun c => .symbol [c]) ++ new) ⟨q, u.length⟩
        (rememberedBy shippedAutocomplete none [] u)) := by
  cases u with
  | nil => exact absurd rfl hu
  | cons c u =>
    have h1 : Leads S (In root q row new ⟨q, 0⟩) _ := leads_type1 hS hsplit hroot hnew c
      (textLeft_zero new) (cur := rememberedBy shippedAutocomplete none [] [c])
      (fun ed h => ⟨h, remembered_start _ _ (by simp)⟩)
    have h2 := leads_typeC (q := q) (row := row) hS hsplit hroot u (v := [c]) hnew
      (cur := rememberedBy shippedAutocomplete none [] [c])
    refine (h1.trans (.refl ?_)).trans (h2.trans (.refl ?_))
    · intro ed h
      simpa using h
    · intro ed h
      simpa [rememberedBy] using h

/-- A word that is as long as what is left of it in its row is replaced when Right is pressed. -/
theorem leads_right (hS : S.Ships x) (hroot : Writable OneChar root) (hnew : Writable OneChar new)
    {w s : Str} {r : AutocompleteRule} {cur : Option AutocompleteRule}
    (ht : TextLeft new (r.parser.length + r.parser.length) w) (hasc : Ascii w)
    (hr : r ∈ shippedAutocomplete)
    (hch : chosen cur (suggested shippedAutocomplete w) = some (r, r.parser.length))
    (hnext : new[r.parser.length + r.parser.length]? = some (.symbol s))
    (hlong : 3 * r.parser.length ≤ new.length)
    (hres : Writable OneChar r.result) (hne : r.result ≠ []) :
    Leads S (InC root q row new ⟨q, r.parser.length + r.parser.length⟩ cur)
      (In root q row (new.take r.parser.length ++ r.result ++
        new.drop (r.parser.length + r.parser.length))
        ⟨q, r.parser.length + r.parser.length + 1⟩) := by
  refine Does.arrow hS (d := .right) ⟨fun _ _ h => h, ?_⟩
  rintro ed ⟨⟨h1, h2⟩, h3⟩
  subst h3
  have hlt := (List.getElem?_eq_some_iff.1 hnext).1
  have hwr := hroot.replaced h1 hnew
  obtain ⟨syms, htok⟩ := (C75_completed (env := S.env) hwr.wf Component.shipped_rules h2
    h1.rowAt_new ht r).2 hch
  have htok' : CompletedToken S.env ed r q (r.parser.length + r.parser.length) new syms := by
    obtain ⟨e, res, m, t1, t2, t3, t4, t5, t6, t7, t8⟩ := htok
    refine ⟨e, res, m, t1, t2, t3, t4, t5, t6, t7, t8, ?_⟩
    intro s hs
    rw [(ht.symbols t8).2] at hs
    obtain ⟨c, hc, rfl⟩ := List.mem_map.1 hs
    exact ⟨c, rfl, hasc c (List.mem_of_mem_drop hc)⟩
  obtain ⟨hsp, hne', e, hq, hqc, hs⟩ := startAutocorrect_of_token hwr.wf htok' ed.selectionMode
  obtain ⟨-, -, -, -, -, -, -, -, -, -, t8, t9⟩ := htok'
  have hlen : syms.length = r.parser.length := by
    rw [← hsp, List.length_flatten]
    have : syms.map List.length = syms.map fun _ => 1 := by
      refine List.map_congr_left fun s hs => ?_
      obtain ⟨c, rfl, -⟩ := t9 s hs
      rfl
    rw [this]
    simp
  have hLpos := List.length_pos_iff.2 (Component.shipped_rules r hr).1
  generalize hL : r.parser.length = L at *
  have hval : ValidPos ed.input ⟨q, L + L⟩ := ⟨_, h1.rowAt_new, ht.1⟩
  have hval' : ValidPos ed.input ⟨q, L + L + 1⟩ := ⟨_, h1.rowAt_new, hlt⟩
  have hstep : Step ed.input ⟨q, L + L⟩ ⟨q, L + L + 1⟩ := by
    simpa using Step.at h1.rowAt_new (Step.sym hnext)
  have hp := press_right_step hwr.wf S.cfg hval hstep
  have hout : OutsideToken q (L + L) syms.length ⟨q, L + L + 1⟩ := by
    unfold OutsideToken
    rw [MinPos.le_same, MinPos.le_same]
    omega
  rw [← hq.input] at hwr h1 hval' hp
  obtain ⟨-, -, key⟩ := leave_token (env := S.env) hwr.wf h1.rowAt_new t8 t9 hsp hne' hval' hout
  obtain ⟨ed', hed'⟩ := splice_ok (env := S.env) (ed := { e with caret := .at ⟨q, L + L + 1⟩ })
    hwr.wf (range := ⟨q, L + L, L + L - syms.length⟩)
    ⟨_, h1.rowAt_new, t8.1, Nat.le_trans (Nat.sub_le _ _) t8.1⟩ (.inl rfl) (.inl rfl) r.result
  obtain ⟨⟨row', s1, s2, s3, s4, a, s5⟩, s6⟩ := splice_sound hed'
  simp only at s1 s2 s3 s4 s5 s6
  rw [h1.rowAt_new] at s1
  cases s1
  have f1 : min (L + L) (L + L - syms.length) = L := by omega
  have f2 : max (L + L) (L + L - syms.length) = L + L := by omega
  rw [f1, f2] at s4
  have hnew' : Writable OneChar (new.take L ++ r.result ++ new.drop (L + L)) :=
    ((hnew.subset (List.take_subset _ _)).append hres).append (hnew.subset (List.drop_subset _ _))
  have hwr' := hwr.replaced s4 hnew'
  have hv : ValidPos ed'.input ⟨q, L + L + 1⟩ := by
    refine ⟨_, s4.rowAt_new, ?_⟩
    have := List.length_pos_iff.2 hne
    simp only [List.length_append, List.length_take, List.length_drop]
    omega
  refine ⟨ed', ?_, ⟨h1.trans s4, s6⟩, hwr'.wf, by rw [s6]; exact ⟨hv, hv⟩⟩
  simp only [press] at hp
  obtain ⟨c, hc, hp1⟩ := M.bind_eq_ok.1 hp
  obtain ⟨c', hc', hp2⟩ := M.bind_eq_ok.1 hp1
  have hp2 := Except.ok.inj hp2
  rw [← h2, ← hqc] at hc
  have hc'' : moveCaret S.env.cfg e.input c .right .char = .ok c' := hc'
  have hs' : ed.startAutocorrect S.env = .ok (e, _) := hs
  simp only [Editor.step, Editor.moveCaret, hs', M.ok_bind, hc, hc'', hp2]
  exact (key (by omega)).trans hed'

/-- The symbols that keep a word off the start of its row. -/
def dummies (n : Nat) : Row := (List.replicate n 'x').map fun c => .symbol [c]

theorem dummies_length (n : Nat) : (dummies n).length = n := by simp [dummies]

theorem dummies_get {n k : Nat} (h : k < n) : (dummies n)[k]? = some (.symbol ['x']) := by
  simp [dummies, h]

theorem dummies_succ (n : Nat) : dummies (n + 1) = dummies n ++ [.symbol ['x']] := by
  simp [dummies, List.replicate_succ']

theorem dummies_writable (n : Nat) : Writable OneChar (dummies n) := writable_symbols _

theorem textLeft_dummies {b rest : Row} (hb : ∀ s, b.getLast? ≠ some (.symbol s)) (n : Nat) :
    TextLeft (b ++ (dummies n ++ rest)) (b.length + n) (List.replicate n 'x') := by
  have := textLeft_behind (rest := rest) hb (List.replicate n 'x')
  simpa [dummies] using this

theorem textLeft_container {v : Variant} {cells : List Row} {w : Nat} (n : Nat) (rest : Row) :
    TextLeft (dummies n ++ .container v cells w :: rest) (n + 1) [] := by
  have h := textLeft_behind (b := dummies n ++ [.container v cells w]) (rest := rest) (by simp) []
  rw [List.length_append, dummies_length] at h
  simpa using h

/-- Backspace over dummies. -/
theorem leads_backs (hS : S.Ships x) (hroot : Writable OneChar root) {b rest : Row}
    (hb : ∀ s, b.getLast? ≠ some (.symbol s)) (hbw : Writable OneChar b)
    (hrest : Writable OneChar rest) (n : Nat) :
    Leads S (In root q row (b ++ (dummies n ++ rest)) ⟨q, b.length + n⟩)
      (In root q row (b ++ rest) ⟨q, b.length⟩) := by
  induction n with
  | zero => exact .refl fun ed h => by simpa [dummies] using h
  | succ n ih =>
    have hlen : (b ++ dummies n).length = b.length + n := by
      rw [List.length_append, dummies_length]
    have hsplit : b ++ (dummies (n + 1) ++ rest) = (b ++ dummies n) ++ (.symbol ['x'] :: rest) := by
      simp [dummies_succ]
    have h1 := leads_back (q := q) (row := row) hS hroot
      (hbw.append ((dummies_writable (n + 1)).append hrest)) (k := b.length + n) (s := ['x'])
      (by rw [hsplit, ← hlen]; simp) (textLeft_dummies hb (n + 1)) (suggested_dummies _)
    refine (h1.trans (.refl fun ed h => ?_)).trans ih
    rw [hsplit, ← hlen, List.take_left, ← List.drop_drop, List.drop_left, hlen] at h
    simpa using h

/-- Left over dummies at the start. -/
theorem leads_lefts (hS : S.Ships x) (hrel : S.cfg.checks = false) (hbits : 2 ≤ S.cfg.bits)
    (hroot : Writable OneChar root) {rest : Row} (hrest : Writable OneChar rest) (n k : Nat)
    (hk : k ≤ n) :
    Leads S (In root q row (dummies n ++ rest) ⟨q, k⟩)
      (In root q row (dummies n ++ rest) ⟨q, 0⟩) := by
  induction k with
  | zero => exact .refl fun ed h => h
  | succ k ih =>
    refine (leads_left hS hrel hbits hroot ((dummies_writable n).append hrest)
      (p' := ⟨q, k⟩) (r := dummies n ++ rest) (w := List.replicate (k + 1) 'x') ?_ ?_
      (suggested_dummies _)).trans (ih (by omega))
    · intro root1 h
      refine ⟨?_, ⟨_, h.rowAt_new, ?_⟩, h.rowAt_new⟩
      · have : (dummies n ++ rest)[k]? = some (.symbol ['x']) := by
          rw [List.getElem?_append_left (by rw [dummies_length]; omega), dummies_get (by omega)]
        simpa using Step.at h.rowAt_new (Step.sym this)
      · rw [List.length_append, dummies_length]
        simp only
        omega
    · obtain ⟨m, rfl⟩ := Nat.exists_eq_add_of_le hk
      have : dummies (k + 1 + m) ++ rest = [] ++ (dummies (k + 1) ++ (dummies m ++ rest)) := by
        simp [dummies, List.replicate_add]
      rw [this]
      simpa using textLeft_dummies (b := []) (rest := dummies m ++ rest) (by simp) (k + 1)

/-- How to write a container that a word stands for. -/
theorem leads_open (hS : S.Ships x) (hrel : S.cfg.checks = false) (hbits : 2 ≤ S.cfg.bits)
    (hsplit : ∀ ch, S.browser.split [ch] = [[ch]])
    (hroot : Writable OneChar root) {rest : Row} (hrest : Writable OneChar rest)
    {r : AutocompleteRule} {v : Variant} {cells : List Row} {wd : Nat}
    (hr : r ∈ shippedAutocomplete) (hres : r.result = [.container v cells wd])
    (hresw : Writable OneChar r.result) (hasc : Ascii r.parser)
    (hch : chosen (rememberedBy shippedAutocomplete none []
        (List.replicate r.parser.length 'x' ++ r.parser))
      (suggested shippedAutocomplete (List.replicate r.parser.length 'x' ++ r.parser)) =
      some (r, r.parser.length)) :
    Leads S (In root q row rest ⟨q, 0⟩)
      (In root q row (dummies r.parser.length ++ .container v cells wd :: rest)
        ⟨q, r.parser.length + 1⟩) := by
  have hpos := List.length_pos_iff.2 (Component.shipped_rules r hr).1
  have hne : List.replicate r.parser.length 'x' ≠ [] := by
    intro h
    exact (Component.shipped_rules r hr).1 (by simpa using h)
  have h1 := leads_type (q := q) (row := row) hS hsplit hroot hne hrest
  have h2 := leads_lefts (q := q) (row := row) hS hrel hbits hroot hrest r.parser.length
    r.parser.length (Nat.le_refl _)
  have h3 := leads_type (q := q) (row := row) hS hsplit hroot
    (u := List.replicate r.parser.length 'x' ++ r.parser) (by simp [hne])
    ((dummies_writable r.parser.length).append hrest)
  have hw3 : Writable OneChar ((List.replicate r.parser.length 'x' ++ r.parser).map
      (fun c => Node.symbol [c]) ++ (dummies r.parser.length ++ rest)) :=
    (writable_symbols _).append ((dummies_writable _).append hrest)
  have hlen3 : ((List.replicate r.parser.length 'x' ++ r.parser).map
      (fun c => Node.symbol [c])).length = r.parser.length + r.parser.length := by simp
  have h4 := leads_right (q := q) (row := row) hS hroot hw3
    (w := List.replicate r.parser.length 'x' ++ r.parser) (s := ['x']) (r := r)
    (by
      have := textLeft_behind (b := []) (rest := dummies r.parser.length ++ rest) (by simp)
        (List.replicate r.parser.length 'x' ++ r.parser)
      simpa using this)
    (by
      intro c hc
      rcases List.mem_append.1 hc with h | h
      · rw [List.eq_of_mem_replicate h]; rfl
      · exact hasc c h)
    hr hch
    (by
      rw [List.getElem?_append_right (by omega), hlen3, Nat.sub_self,
        List.getElem?_append_left (by rw [dummies_length]; exact hpos), dummies_get hpos])
    (by
      rw [List.length_append, hlen3, List.length_append, dummies_length]
      omega)
    hresw (by rw [hres]; simp)
  have h5 := leads_backs (q := q) (row := row) hS hroot
    (b := dummies r.parser.length ++ [.container v cells wd]) (by simp)
    ((dummies_writable _).append (hres ▸ hresw)) hrest r.parser.length
  refine (h1.trans (.refl ?_)).trans (h2.trans (h3.trans ((Leads.refl ?_).trans
    (h4.trans ((Leads.refl ?_).trans (h5.trans (.refl ?_)))))))
  · intro ed h
    simpa [dummies] using h.1
  · intro ed h
    simpa using h
  · intro ed h
    rw [List.drop_append_of_le_length (by omega), List.drop_of_length_le (by omega),
      List.take_append_of_le_length (by omega), hres] at h
    have e1 : ((List.replicate r.parser.length 'x' ++ r.parser).map
        (fun c => Node.symbol [c])).take r.parser.length = dummies r.parser.length := by
      simp [dummies]
    rw [e1] at h
    have e2 : (dummies r.parser.length ++ [Node.container v cells wd]).length + r.parser.length =
      r.parser.length + r.parser.length + 1 := by
        rw [List.length_append, dummies_length, List.length_singleton]
        omega
    rw [e2]
    simpa using h
  · intro ed h
    simpa [dummies_length] using h

/-- Writing into an empty cell. -/
theorem leads_cell {i j w : Nat} {v : Variant} {cells : List Row} {b : Row}
    (hroot : Writable OneChar root) (hnew : Writable OneChar new)
    (hi : new[i]? = some (.container v cells w)) (hj : cells[j]? = some [])
    (ih : ∀ root1 : Row, Writable OneChar root1 → rowAt root1 (q ++ [(i, j)]) = some [] →
      Leads S (In root1 (q ++ [(i, j)]) [] [] ⟨q ++ [(i, j)], 0⟩)
        (In root1 (q ++ [(i, j)]) [] b ⟨q ++ [(i, j)], 0⟩)) :
    Leads S (In root q row new ⟨q ++ [(i, j)], 0⟩)
      (In root q row (new.set i (.container v (cells.set j b) w)) ⟨q ++ [(i, j)], 0⟩) := by
  by_cases hex : ∃ root1, ReplacedAt root q row new root1
  · obtain ⟨root1, h1⟩ := hex
    have hc : rowAt root1 (q ++ [(i, j)]) = some [] := by
      rw [rowAt_append, h1.rowAt_new]
      exact rowAt_cons.2 ⟨v, cells, w, [], hi, hj, rfl⟩
    refine (ih root1 (hroot.replaced h1 hnew) hc).mono ?_ ?_
    · rintro ed ⟨h2, h3⟩
      exact ⟨h1.unique h2 ▸ .refl hc, h3⟩
    · rintro ed ⟨h2, h3⟩
      exact ⟨h1.trans (h2.inCell h1.rowAt_new hi), h3⟩
  · exact .refl fun ed h => absurd ⟨_, h.1⟩ hex

theorem write_keys (hS : S.Ships x) (hrel : S.cfg.checks = false) (hbits : 2 ≤ S.cfg.bits)
    (hsplit : ∀ ch, S.browser.split [ch] = [[ch]]) {text : Row} (htext : Writable OneChar text) :
    ∀ {root row rest : Row} {q : RowIndices}, Writable OneChar root → Writable OneChar rest →
      Leads S (In root q row rest ⟨q, 0⟩) (In root q row (text ++ rest) ⟨q, 0⟩) := by
  induction htext with
  | nil => exact fun _ _ => .refl fun ed h => h
  | @symbol s text hs htext ih =>
    intro root row rest q hroot hrest
    obtain ⟨c, rfl⟩ := hs
    have h1 := leads_type (q := q) (row := row) hS hsplit hroot (u := [c]) (by simp)
      (htext.append hrest)
    have h2 := leads_left (q := q) (row := row) hS hrel hbits hroot
      (new := .symbol [c] :: (text ++ rest)) (.symbol ⟨c, rfl⟩ (htext.append hrest))
      (p := ⟨q, 1⟩) (p' := ⟨q, 0⟩) (r := .symbol [c] :: (text ++ rest)) (w := [c])
      (fun root1 h => ⟨by simpa using Step.at h.rowAt_new (Step.sym (o := 0) (s := [c]) rfl),
        ⟨_, h.rowAt_new, Nat.zero_le _⟩, h.rowAt_new⟩)
      (by simpa using textLeft_behind (b := []) (rest := text ++ rest) (by simp) [c])
      (suggested_short (by simp))
    exact (ih hroot hrest).trans (h1.trans ((Leads.refl fun ed h => by simpa using h.1).trans h2))
  | @root a b text ha hb htext iha ihb ih =>
    intro root row rest q hroot hrest
    have hR := htext.append hrest
    obtain ⟨r, hr, hp, hres, hch⟩ : ∃ r ∈ shippedAutocomplete, r.parser = "sqrt".toList ∧
        r.result = [.container .root [[], []] 2] ∧
        chosen (rememberedBy shippedAutocomplete none []
            (List.replicate r.parser.length 'x' ++ r.parser))
          (suggested shippedAutocomplete (List.replicate r.parser.length 'x' ++ r.parser)) =
          some (r, r.parser.length) := by decide +kernel
    have h1 := leads_open (q := q) (row := row) hS hrel hbits hsplit hroot hR hr hres
      (by rw [hres]; exact .root .nil .nil .nil)
      (by rw [hp]; unfold Ascii; decide) hch
    generalize hL : r.parser.length = L at h1
    have hget : ∀ C : Node, (dummies L ++ C :: (text ++ rest))[L]? = some C := by
      intro C
      rw [List.getElem?_append_right (by rw [dummies_length])]
      simp [dummies_length]
    have hset : ∀ C C' : Node, (dummies L ++ C :: (text ++ rest)).set L C' =
        dummies L ++ C' :: (text ++ rest) := by
      intro C C'
      rw [List.set_append_right _ _ (by rw [dummies_length])]
      simp [dummies_length]
    have hw : ∀ {a b : Row}, Writable OneChar a → Writable OneChar b →
        Writable OneChar (dummies L ++ .container .root [a, b] 2 :: (text ++ rest)) :=
      fun ha hb => (dummies_writable _).append (.root ha hb hR)
    have h2 := leads_left (q := q) (row := row) hS hrel hbits hroot (hw .nil .nil)
      (p := ⟨q, L + 1⟩) (p' := ⟨q ++ [(L, 1)], 0⟩)
      (r := dummies L ++ .container .root [[], []] 2 :: (text ++ rest)) (w := [])
      (fun root1 h => ⟨by simpa using Step.at h.rowAt_new (Step.leave (j := 1) (c := []) (hget _) rfl rfl),
        ⟨[], by rw [rowAt_append, h.rowAt_new]; exact rowAt_cons.2 ⟨_, _, _, [], hget _, rfl, rfl⟩,
          Nat.le_refl _⟩, h.rowAt_new⟩)
      (textLeft_container _ _)
      (suggested_short (by decide))
    have h3 := leads_cell (S := S) (q := q) (row := row) (b := b) hroot (hw .nil .nil) (hget _) (j := 1) rfl
      (fun root1 g1 _ => by simpa using ihb (root := root1) (row := []) (rest := []) (q := q ++ [(L, 1)]) g1 .nil)
    rw [hset] at h3
    have h4 := leads_left (q := q) (row := row) hS hrel hbits hroot (hw .nil hb)
      (p := ⟨q ++ [(L, 1)], 0⟩) (p' := ⟨q ++ [(L, 0)], 0⟩) (r := b) (w := [])
      (fun root1 h => ⟨by simpa using Step.at h.rowAt_new <|
                        (Step.next (j := 0) (c := []) (hget _) rfl rfl),
        ⟨[], by rw [rowAt_append, h.rowAt_new]; exact rowAt_cons.2 ⟨_, _, _, [], hget _, rfl, rfl⟩,
          Nat.le_refl _⟩,
        by rw [rowAt_append, h.rowAt_new]; exact rowAt_cons.2 ⟨_, _, _, b, hget _, rfl, rfl⟩⟩)
      (textLeft_zero _) (suggested_short (by decide))
    have h5 := leads_cell (S := S) (q := q) (row := row) (b := a) hroot (hw .nil hb) (hget _) (j := 0) rfl
      (fun root1 g1 _ => by simpa using iha (root := root1) (row := []) (rest := []) (q := q ++ [(L, 0)]) g1 .nil)
    rw [hset] at h5
    have h6 := leads_left (q := q) (row := row) hS hrel hbits hroot (hw ha hb)
      (p := ⟨q ++ [(L, 0)], 0⟩) (p' := ⟨q, L⟩) (r := a) (w := [])
      (fun root1 h => ⟨by simpa using Step.at h.rowAt_new (Step.enter (hget _)),
        ⟨_, h.rowAt_new, by simp [dummies_length]⟩,
        by rw [rowAt_append, h.rowAt_new]; exact rowAt_cons.2 ⟨_, _, _, a, hget _, rfl, rfl⟩⟩)
      (textLeft_zero _) (suggested_short (by decide))
    have h7 := leads_backs (q := q) (row := row) hS hroot (b := []) (by simp) .nil
      (rest := .root a b :: (text ++ rest)) (.root ha hb hR) L
    refine (ih hroot hrest).trans (h1.trans (h2.trans (h3.trans (h4.trans (h5.trans (h6.trans
      (h7.mono ?_ ?_)))))))
    · intro ed h
      simpa [Node.root] using h
    · intro ed h
      simpa using h
  | @table a text ha htext iha ih =>
    intro root row rest q hroot hrest
    have hR := htext.append hrest
    obtain ⟨r, hr, hp, hres, hch⟩ : ∃ r ∈ shippedAutocomplete, r.parser = "vector".toList ∧
        r.result = [.container .table [[]] 1] ∧
        chosen (rememberedBy shippedAutocomplete none []
            (List.replicate r.parser.length 'x' ++ r.parser))
          (suggested shippedAutocomplete (List.replicate r.parser.length 'x' ++ r.parser)) =
          some (r, r.parser.length) := by decide +kernel
    have h1 := leads_open (q := q) (row := row) hS hrel hbits hsplit hroot hR hr hres
      (by rw [hres]; exact .table .nil .nil)
      (by rw [hp]; unfold Ascii; decide) hch
    generalize hL : r.parser.length = L at h1
    have hget : ∀ C : Node, (dummies L ++ C :: (text ++ rest))[L]? = some C := by
      intro C
      rw [List.getElem?_append_right (by rw [dummies_length])]
      simp [dummies_length]
    have hset : ∀ C C' : Node, (dummies L ++ C :: (text ++ rest)).set L C' =
        dummies L ++ C' :: (text ++ rest) := by
      intro C C'
      rw [List.set_append_right _ _ (by rw [dummies_length])]
      simp [dummies_length]
    have hw : ∀ {a : Row}, Writable OneChar a →
        Writable OneChar (dummies L ++ .container .table [a] 1 :: (text ++ rest)) :=
      fun ha => (dummies_writable _).append (.table ha hR)
    have h2 := leads_left (q := q) (row := row) hS hrel hbits hroot (hw .nil)
      (p := ⟨q, L + 1⟩) (p' := ⟨q ++ [(L, 0)], 0⟩)
      (r := dummies L ++ .container .table [[]] 1 :: (text ++ rest)) (w := [])
      (fun root1 h => ⟨by simpa using Step.at h.rowAt_new (Step.leave (j := 0) (c := []) (hget _) rfl rfl),
        ⟨[], by rw [rowAt_append, h.rowAt_new]; exact rowAt_cons.2 ⟨_, _, _, [], hget _, rfl, rfl⟩,
          Nat.le_refl _⟩, h.rowAt_new⟩)
      (textLeft_container _ _)
      (suggested_short (by decide))
    have h5 := leads_cell (S := S) (q := q) (row := row) (b := a) hroot (hw .nil) (hget _) (j := 0) rfl
      (fun root1 g1 _ => by simpa using iha (root := root1) (row := []) (rest := []) (q := q ++ [(L, 0)]) g1 .nil)
    rw [hset] at h5
    have h6 := leads_left (q := q) (row := row) hS hrel hbits hroot (hw ha)
      (p := ⟨q ++ [(L, 0)], 0⟩) (p' := ⟨q, L⟩) (r := a) (w := [])
      (fun root1 h => ⟨by simpa using Step.at h.rowAt_new (Step.enter (hget _)),
        ⟨_, h.rowAt_new, by simp [dummies_length]⟩,
        by rw [rowAt_append, h.rowAt_new]; exact rowAt_cons.2 ⟨_, _, _, a, hget _, rfl, rfl⟩⟩)
      (textLeft_zero _) (suggested_short (by decide))
    have h7 := leads_backs (q := q) (row := row) hS hroot (b := []) (by simp) .nil
      (rest := .container .table [a] 1 :: (text ++ rest)) (.table ha hR) L
    refine (ih hroot hrest).trans (h1.trans (h2.trans (h5.trans (h6.trans
      (h7.mono ?_ ?_)))))
    · intro ed h
      simpa using h
    · intro ed h
      simpa using h

end

end Aftermath
