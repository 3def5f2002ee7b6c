import Verif.Proof.EndToEnd

/-! # C77: a formula that is typed or loaded is shown with its meaning -/

namespace Aftermath

namespace Component

variable {x : Xid} {m : NameMap} {S : Setting} {c c' : Component} {v : View}

/-- **C77.** Characters are typed one by one behind a text, with timers firing at any moments: in the
end all of them are in the formula, in order and behind each other, the caret is behind them, nothing
else has changed, and the syntax tree and the page are those of the new formula. The editor never
ends, even if some of the formulas on the way cannot be shown. -/
theorem _root_.Aftermath.C77_typed (hS : S.Ships x) (hsplit : ∀ ch, S.browser.split [ch] = [[ch]])
    {q : RowIndices} {o : Nat} {row : Row} {w u : Str} (hwf : rowWf c.editor.input = true)
    (hf : Fresh S.env c.editor) (hu : c.UpToDate S) (hc : c.editor.caret = .at ⟨q, o⟩)
    (hrow : rowAt c.editor.input q = some row) (htext : TextLeft row o w) (htasks : c.tasks = [])
    {evs : List (View × Event)} (ht : ∀ e ∈ evs, e.2.Typing)
    (hG : ∀ e ∈ evs, ∀ p, 0 < e.1.after.fontSize p) (hin : inputsOf evs = u.map typed)
    (hm : timersLeft 0 evs = some 0) :
    ∃ c', c.handleAll S evs = some c' ∧ c'.tasks = [] ∧ c'.UpToDate S ∧
      ReplacedAt c.editor.input q row (row.take o ++ u.map sy ++ row.drop o) c'.editor.input ∧
      c'.editor.caret = .at ⟨q, o + u.length⟩ := by
  obtain ⟨c', k, h1, h2⟩ := handleAll_typed hS hsplit evs ht hG u ⟨hwf, hf, hc, hrow, htext⟩ hu
    (by rw [htasks, hin]; rfl)
  have h0 : c'.tasks = [] :=
    List.length_eq_zero_iff.1 (Nat.le_zero.1 (C64_left (by rw [htasks]; simp) hm h1))
  have hk : k = u.length := by
    have := h2.tasks
    rw [h0] at this
    have := congrArg List.length this
    simp only [List.length_nil, List.length_map, List.length_drop] at this
    have := h2.le
    omega
  subst hk
  have h3 := h2.replaced
  rw [List.take_length] at h3
  exact ⟨c', h1, h0, h2.upToDate, h3, h2.at_.caret⟩

/-- **C77.** If the formula is then one of the notation without a space after a script, it is
understood and shown. -/
theorem _root_.Aftermath.C77_type (hS : S.Ships x) (hxu : x.Usual)
    (hm : createParser x = .ok (S.grammar, m)) (hsplit : ∀ ch, S.browser.split [ch] = [[ch]])
    {q : RowIndices} {o : Nat} {row : Row} {w u : Str} (hwf : rowWf c.editor.input = true)
    (hf : Fresh S.env c.editor) (hu : c.UpToDate S) (hc : c.editor.caret = .at ⟨q, o⟩)
    (hrow : rowAt c.editor.input q = some row) (htext : TextLeft row o w) (htasks : c.tasks = [])
    {evs : List (View × Event)} (ht : ∀ e ∈ evs, e.2.Typing)
    (hG : ∀ e ∈ evs, ∀ p, 0 < e.1.after.fontSize p) (hin : inputsOf evs = u.map typed)
    (hl : timersLeft 0 evs = some 0) {root : Row} {e : Formula}
    (hroot : ReplacedAt c.editor.input q row (row.take o ++ u.map sy ++ row.drop o) root)
    (he : e.Writes x 0 0 root) (hsp : ¬ ScriptThenSpace root) :
    ∃ c', c.handleAll S evs = some c' ∧ c'.Presents m root e := by
  obtain ⟨c', h1, -, h2, h3, -⟩ :=
    C77_typed hS hsplit hwf hf hu hc hrow htext htasks ht hG hin hl
  exact ⟨c', h1, h2.presents hS hxu hm (h3.unique hroot) he hsp⟩

/-- What loading a document does that is read without errors as a formula, if the caret is in no
element and is a place of the new formula. -/
theorem load_upToDate {G : Geom} (hS : S.Ships x) (hf : Fresh S.env c.editor)
    (hw : rowWf c.editor.input = true) (ht : S.grammar.parse c.editor.input = .ok c.tree)
    (hdeep : S.cfg.checks = false → c.editor.caret.start.rowIndices.length < 2 ^ S.cfg.bits ∧
      c.editor.caret.stop.rowIndices.length < 2 ^ S.cfg.bits)
    (hG : ∀ p, 0 < G.fontSize p) {d : Dom} {r : Row} (hd : d.tag = .math) (hr : Means S.browser d r)
    (hwr : rowWf r = true) (hel : ¬ CaretInElement c.editor.caret)
    (hv : c.connected = true → ValidCaret r c.editor.caret) :
    ∃ c', (c.handleMathML S G d = .fine c' ∨
        c.handleMathML S G d = .thrown c' ∧ Unshowable S r) ∧ c'.UpToDate S ∧
      Fresh S.env c'.editor ∧ c'.editor.input = r ∧ c'.editor.caret = c.editor.caret ∧
      c'.tasks = c.tasks ∧ c'.connected = c.connected := by
  rcases load_ends hS hf hw ht hdeep hG ((C55 d r).2 ⟨hd, hr⟩) hwr with
    ⟨h, -⟩ | ⟨-, ed', t, rfl, h2, h3, h4, hE⟩
  · exact absurd h hel
  · generalize c.handleMathML S G d = res at hE
    cases hE with
    | thrown hu =>
      refine ⟨_, .inr ⟨rfl, hu⟩, ⟨h4, ?_⟩, Fresh.some h4, rfl, h2, rfl, rfl⟩
      rintro ⟨e, he⟩
      obtain ⟨t', h1, h2'⟩ := hu
      change S.grammar.parse ed'.input = _ at h1
      rw [h4] at h1
      cases h1
      obtain ⟨hx, m, hm⟩ := id hS
      obtain ⟨t', k1, k2⟩ := C57_partial hx hm hwr
      rw [h4] at k1
      cases k1
      exact absurd h2' (k2.1 ⟨e, he⟩)
    | dead _ hl => exact absurd (by simpa only [h2] using hv hl.1) hl.2
    | fine e hu hl he => exact ⟨_, .inl rfl, ⟨h4, fun _ => he⟩, Fresh.some h4, rfl, h2, rfl, rfl⟩

/-- **C77.** A document that is read as a formula of the notation without a space after a script is
understood and shown when it is set as the attribute, if the caret is in no element and is a place of the new formula. -/
theorem _root_.Aftermath.C77_load (hS : S.Ships x) (hxu : x.Usual)
    (hm : createParser x = .ok (S.grammar, m)) (hf : Fresh S.env c.editor)
    (hw : rowWf c.editor.input = true) (ht : S.grammar.parse c.editor.input = .ok c.tree)
    (hdeep : S.cfg.checks = false → c.editor.caret.start.rowIndices.length < 2 ^ S.cfg.bits ∧
      c.editor.caret.stop.rowIndices.length < 2 ^ S.cfg.bits)
    (hG : ∀ p, 0 < v.after.fontSize p) {d : Dom} {r : Row} (hd : d.tag = .math)
    (hr : Means S.browser d r) {e : Formula} (he : e.Writes x 0 0 r)
    (hsp : ¬ ScriptThenSpace r)
    (hel : ¬ CaretInElement c.editor.caret) (hv : ValidCaret r c.editor.caret) {ev : Event}
    (hev : ev = .connect d ∨ ev = .setAttribute d) :
    ∃ c', c.handle S v ev = .fine c' ∧ c'.Presents m r e ∧ c'.editor.caret = c.editor.caret := by
  have hns : ¬ Unshowable S r := by
    rintro ⟨t, h1, h2⟩
    obtain ⟨hx, m, hship⟩ := id hS
    obtain ⟨t', el, h3, h4⟩ := writes_shown hxu hship he hsp
    obtain ⟨t'', k1, k2⟩ := C57_partial hx hship (writes_wf he)
    rw [h1] at h3 k1
    cases h3
    cases k1
    exact absurd h2 (k2.1 ⟨el, h4⟩)
  have key : ∀ b, ∃ c', ({ c with connected := b } : Component).handleMathML S v.after d = .fine c' ∧
      c'.Presents m r e ∧ c'.editor.caret = c.editor.caret := by
    intro b
    obtain ⟨c', h1, h2, -, h3, h4, -⟩ := load_upToDate (c := { c with connected := b }) hS hf hw ht
      hdeep hG hd hr (writes_wf he) hel (fun _ => hv)
    rcases h1 with h1 | ⟨-, h1⟩
    · exact ⟨c', h1, h2.presents hS hxu hm h3 he hsp, h4⟩
    · exact absurd h1 hns
  rcases hev with rfl | rfl
  · exact key true
  · exact key c.connected

theorem new_state (h : Component.new S = .ok c) : c.UpToDate S ∧ Fresh S.env c.editor ∧
    c.editor.input = [] ∧ c.editor.caret = .at ⟨[], 0⟩ ∧ c.tasks = [] := by
  unfold Component.new at h
  obtain ⟨⟨ed, t⟩, h1, h2⟩ := M.bind_eq_ok.1 h
  obtain ⟨e, h3, h4⟩ := M.bind_eq_ok.1 h2
  cases h4
  simp only [Editor.getSyntaxTree, Editor.new] at h1
  obtain ⟨t', h6, h7⟩ := M.bind_eq_ok.1 h1
  cases h7
  exact ⟨⟨h6, fun _ => h3⟩, fun t ht => by cases ht; exact h6, rfl, rfl, rfl⟩

/-- **C77.** From the beginning: a new component is put into a document with some content, and then
characters are typed. If the characters and the content together are a formula of the notation without
a space after a script, it is understood and shown. The content alone may be anything that is read without errors, even if it
cannot be shown. -/
theorem _root_.Aftermath.C77_session (hS : S.Ships x) (hxu : x.Usual)
    (hm : createParser x = .ok (S.grammar, m)) (hsplit : ∀ ch, S.browser.split [ch] = [[ch]])
    (h : Component.new S = .ok c) {d : Dom} {r : Row} (hd : d.tag = .math)
    (hr : Means S.browser d r) (hGv : ∀ p, 0 < v.after.fontSize p) {evs : List (View × Event)}
    (ht : ∀ e ∈ evs, e.2.Typing) (hG : ∀ e ∈ evs, ∀ p, 0 < e.1.after.fontSize p) {u : Str}
    (hin : inputsOf evs = u.map typed) (hl : timersLeft 0 evs = some 0) {e : Formula}
    (he : e.Writes x 0 0 (u.map sy ++ r)) (hsp : ¬ ScriptThenSpace (u.map sy ++ r)) :
    ∃ c', c.handleAll S ((v, .connect d) :: evs) = some c' ∧ c'.Presents m (u.map sy ++ r) e := by
  obtain ⟨h1, h2, h3, h4, h5⟩ := new_state h
  have hwr : rowWf r = true := by
    have := writes_wf he
    rw [rowWf_append, Bool.and_eq_true] at this
    exact this.2
  have hv : ValidCaret r c.editor.caret := by
    have : ValidPos r ⟨[], 0⟩ := ⟨r, rfl, Nat.zero_le _⟩
    rw [h4]
    exact ⟨this, this⟩
  obtain ⟨c1, g1, g2, g3, rfl, g5, g6, -⟩ := load_upToDate (c := { c with connected := true })
    (G := v.after) hS h2 (by rw [h3]; rfl) h1.tree
    (fun _ => by rw [h4]; exact ⟨Nat.two_pow_pos _, Nat.two_pow_pos _⟩) hGv hd hr hwr
    (by simp only [h4]; rintro (h | h) <;> exact h rfl) (fun _ => hv)
  have hl1 : (c.handle S v (.connect d)).left = some c1 := by
    rcases g1 with g1 | ⟨g1, -⟩ <;>
    · show (handleMathML S { c with connected := true } v.after d).left = _
      rw [g1]
      rfl
  obtain ⟨c', k1, k2⟩ := C77_type (c := c1) (q := []) (o := 0) (row := c1.editor.input) (w := [])
    (u := u) (root := u.map sy ++ c1.editor.input) hS hxu hm hsplit hwr g3 g2 (g5.trans h4) rfl
    ⟨Nat.zero_le _, [], rfl, nofun⟩ (g6.trans h5) ht hG hin hl (by simpa using ReplacedAt.here _ _) he
    hsp
  refine ⟨c', ?_, k2⟩
  show Option.bind _ _ = _
  rw [hl1]
  exact k1

/-- **C77.** In particular every formula that is written with as few brackets as possible. -/
theorem _root_.Aftermath.C77_few_brackets (hS : S.Ships x) (hxu : x.Usual)
    (hm : createParser x = .ok (S.grammar, m)) (hsplit : ∀ ch, S.browser.split [ch] = [[ch]])
    (h : Component.new S = .ok c) {d : Dom} {r : Row} (hd : d.tag = .math)
    (hr : Means S.browser d r) (hGv : ∀ p, 0 < v.after.fontSize p) {evs : List (View × Event)}
    (ht : ∀ e ∈ evs, e.2.Typing) (hG : ∀ e ∈ evs, ∀ p, 0 < e.1.after.fontSize p) {u : Str}
    (hin : inputsOf evs = u.map typed) (hl : timersLeft 0 evs = some 0) {e : Formula}
    (he : e.Proper x) (hrow : u.map sy ++ r = e.write 0 0) :
    ∃ c', c.handleAll S ((v, .connect d) :: evs) = some c' ∧ c'.Presents m (e.write 0 0) e := by
  rw [← hrow]
  exact C77_session hS hxu hm hsplit h hd hr hGv ht hG hin hl
    (by rw [hrow]; exact write_writes e he 0 0) (by rw [hrow]; exact (write_calm hxu e he 0 0).1)

end Component

/-- Typing `2*x+`, with the first timer firing late and the last three at the end. -/
private def lineEvents : List (View × Event) :=
  [(powerView, .beforeInput (typed '2')), (powerView, .beforeInput (typed '*')), (powerView, .timer),
    (powerView, .beforeInput (typed 'x')), (powerView, .beforeInput (typed '+')),
    (powerView, .timer), (powerView, .timer), (powerView, .timer)]

/-- 2·x + x² -/
private def line : Formula :=
  .bin .add 0 nofun nofun (.bin .multiply 0 nofun nofun (.number ['2']) (.variable ['x']))
    (.script .sup (.variable ['x']) (.number ['2']))

-- The theorem applies to them: `2*x+` is typed in front of `x²`.
example : ∃ S c c' m, S.Ships letterXid ∧ Component.new S = .ok c ∧
    c.handleAll S ((powerView, .connect squareDom) :: lineEvents) = some c' ∧
    c'.Presents m (rowOf "2*x+x" ++ [.container .sup [rowOf "2"] 1]) line := by
  have hs : letterSetting.isSome = true := by decide +kernel
  obtain ⟨S, hS⟩ := Option.isSome_iff_exists.1 hs
  have hb : S.browser = plainBrowser := by
    unfold letterSetting at hS
    split at hS
    · split at hS
      · cases hS; rfl
      · cases hS
    · cases hS
  have hship := letterSetting_ships hS
  obtain ⟨-, m, hm⟩ := id hship
  obtain ⟨c, hc, -⟩ := C62_new hship
  have hp : line.Proper letterXid := by
    simp only [line, Formula.Proper]
    exact ⟨nofun, ⟨nofun, proper_digits (by decide) (by decide), proper_letter (by decide)⟩,
      proper_letter (by decide), proper_digits (by decide) (by decide)⟩
  have hd : Means S.browser squareDom [sy 'x', .container .sup [rowOf "2"] 1] := by
    rw [hb]
    have : fromElement plainBrowser squareDom =
        .ok ([sy 'x', .container .sup [rowOf "2"] 1], []) := by rfl
    exact ((C55 _ _).1 this).2
  have hv : ∀ {p}, 0 < powerView.after.fontSize p := by
    intro p
    show (0 : Rat) < 1
    decide
  have ht : ∀ e ∈ lineEvents, e.2.Typing := by
    simp only [lineEvents, List.mem_cons, List.not_mem_nil, or_false, forall_eq_or_imp, forall_eq]
    exact ⟨trivial, trivial, trivial, trivial, trivial, trivial, trivial, trivial⟩
  have hev : ∀ e ∈ lineEvents, e.1 = powerView := by
    simp only [lineEvents, List.mem_cons, List.not_mem_nil, or_false, forall_eq_or_imp, forall_eq,
      and_self]
  obtain ⟨c', h1, h2⟩ := C77_few_brackets (v := powerView) (d := squareDom) (evs := lineEvents)
    (u := "2*x+".toList) hship letterXid_usual hm.parser (by rw [hb]; intro ch; rfl) hc rfl hd
    (fun _ => hv) ht (fun e he p => by rw [(hev e he)]; exact hv) rfl rfl hp
    (by decide +kernel)
  have hl : line.write 0 0 = rowOf "2*x+x" ++ [.container .sup [rowOf "2"] 1] := by decide +kernel
  rw [hl] at h2
  exact ⟨S, c, c', m, hship, hc, h1, h2⟩

end Aftermath
