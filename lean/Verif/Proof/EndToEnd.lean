import Verif.Spec.EndToEnd
import Verif.Proof.NotationErrors
import Verif.Props.Words
import Verif.Props.Ends
import Verif.Props.Dom
import Verif.Props.Notation

/-! # Typing, task by task -/

namespace Aftermath

variable {x : Xid} {g : Grammar} {m : NameMap}

/-- What is written according to the notation can be shown, if no space follows a script. -/
theorem writes_shown (hx : x.Usual) {R : Renderers} (h : Shipped x g m R) {e : Formula} {r : Row}
    (he : e.Writes x 0 0 r) (hs : ¬ ScriptThenSpace r) :
    ∃ t el, g.parse r = .ok t ∧ renderAll R t = .ok el := by
  obtain ⟨t, ht, hr⟩ := C57_partial hx.toLetters h (writes_wf he)
  obtain ⟨hg, hf⟩ := h.fits hx.toLetters
  have St := createParser_std hx.toLetters h.parser
  obtain ⟨t', ht', hc⟩ := parses_writes St hx he
  rw [ht] at ht'
  cases ht'
  obtain ⟨el, hel⟩ := hr.2 fun hsp => hs
    (((made_clean hf (made_parse hg ht)) (conveys_errorFree St hc)).1 hsp)
  exact ⟨t, el, ht, hel⟩

/-! ## One way to write a formula never has a space after a script -/

theorem calm_symbol {c : Char} : ¬ ScriptThenSpace [sy c] := by
  intro h
  refine not_trig (fun i _ hi => ?_) (trig_of_scriptThenSpace h)
  have : i = 0 := by simpa using hi
  exact ⟨[c], by rw [this]; rfl⟩

theorem calm_nil : ¬ ScriptThenSpace [] := fun h =>
  not_trig (fun _ _ hi => by simp at hi) (trig_of_scriptThenSpace h)

theorem calm_container {v : Variant} {cells : List Row} {w : Nat}
    (h : ∀ c ∈ cells, ¬ ScriptThenSpace c) : ¬ ScriptThenSpace [.container v cells w] := by
  intro hs
  rcases trig_of_scriptThenSpace hs with ⟨i, m, -, hi, -⟩ | ⟨i, v', cells', w', c, -, hi, h1, h2, h3⟩
  · simp at hi
  · have : i = 0 := by simpa using hi
    subst this
    cases h1
    exact h c h2 h3

theorem calm_append {p q : Row} (hp : ¬ ScriptThenSpace p) (hq : ¬ ScriptThenSpace q)
    (h : q[0]? ≠ some (sy ' ')) : ¬ ScriptThenSpace (p ++ q) := by
  rintro ⟨π, row, i, n, h1, h2, h3, h4⟩
  cases π with
  | nil =>
    cases h1
    rcases Nat.lt_trichotomy (i + 1) p.length with hi | hi | hi
    · rw [List.getElem?_append_left (by omega)] at h2 h4
      exact hp ⟨[], p, i, n, rfl, h2, h3, h4⟩
    · rw [List.getElem?_append_right (by omega), hi, Nat.sub_self] at h4
      exact h h4
    · rw [List.getElem?_append_right (by omega)] at h2 h4
      exact hq ⟨[], q, i - p.length, n, rfl, h2, h3, by
        rwa [show i - p.length + 1 = i + 1 - p.length by omega]⟩
  | cons ij π =>
    obtain ⟨a, b⟩ := ij
    rw [rowAt] at h1
    by_cases ha : a < p.length
    · rw [List.getElem?_append_left ha] at h1
      exact hp ⟨(a, b) :: π, row, i, n, by rw [rowAt]; exact h1, h2, h3, h4⟩
    · rw [List.getElem?_append_right (by omega)] at h1
      exact hq ⟨(a - p.length, b) :: π, row, i, n, by rw [rowAt]; exact h1, h2, h3, h4⟩

theorem calm_symbols (s : List Char) : ¬ ScriptThenSpace (s.map sy) := fun h =>
  not_trig (fun i _ hi => by
    obtain ⟨c, hc⟩ : ∃ c, s[i]? = some c := ⟨_, List.getElem?_eq_getElem (by simpa using hi)⟩
    exact ⟨[c], by rw [List.getElem?_map, hc]; rfl⟩) (trig_of_scriptThenSpace h)

/-- No space after a script, and none at the beginning. -/
def Calm (r : Row) : Prop := ¬ ScriptThenSpace r ∧ r ≠ [] ∧ r[0]? ≠ some (sy ' ')

theorem Calm.append {p q : Row} (hp : Calm p) (hq : Calm q) : Calm (p ++ q) := by
  refine ⟨calm_append hp.1 hq.1 hq.2.2, by simp [hp.2.1], ?_⟩
  rw [List.getElem?_append_left (List.length_pos_iff.2 hp.2.1)]
  exact hp.2.2

theorem Calm.symbol {c : Char} (h : c ≠ ' ') : Calm [sy c] :=
  ⟨calm_symbol, nofun, fun he => h (by cases he; rfl)⟩

theorem Calm.container {v : Variant} {cells : List Row} {w : Nat} (h : ∀ c ∈ cells, Calm c) :
    Calm [.container v cells w] := ⟨calm_container fun c hc => (h c hc).1, nofun, nofun⟩

theorem Calm.symbols {s : List Char} (h : s ≠ []) (h' : s[0]? ≠ some ' ') : Calm (s.map sy) := by
  refine ⟨calm_symbols s, by simpa using h, ?_⟩
  rw [List.getElem?_map]
  intro he
  obtain ⟨c, hc, he⟩ := Option.map_eq_some_iff.1 he
  cases he
  exact h' hc

theorem Calm.inBrackets {r : Row} (h : Calm r) : Calm (inBrackets r) :=
  ((Calm.symbol (c := '(') (by decide)).append h).append (.symbol (by decide))

theorem calm_brackets : Calm (inBrackets []) := .symbols (s := ['(', ')']) nofun (by decide)

theorem PreOp.text_calm (o : PreOp) : Calm (o.text.map sy) := by
  cases o <;> exact .symbols (by decide) (by decide)

theorem BinOp.char_calm (o : BinOp) : Calm ([o.char].map sy) := .symbol (by cases o <;> decide)

theorem writeOp_calm {sign : List Char} (h : Calm (sign.map sy)) {ss : List (ScriptKind × Row)}
    (hs : ∀ s ∈ ss, Calm s.2) : Calm (writeOp sign ss) := by
  unfold writeOp
  generalize sign.map sy = r at h
  induction ss generalizing r with
  | nil => simpa using h
  | cons s ss ih =>
    rw [List.map_cons, List.append_cons]
    refine ih (fun s hs' => hs s (.tail _ hs')) _ (h.append (.container ?_))
    simpa using hs s (.head _)

theorem ofFn_calm {n : Nat} {ks : Fin n → ScriptKind} {rows : Fin n → Row} (h : ∀ i, Calm (rows i)) :
    ∀ s ∈ List.ofFn fun i => (ks i, rows i), Calm s.2 := by
  intro s hs
  obtain ⟨i, rfl⟩ := List.mem_ofFn.1 hs
  exact h i

theorem write_calm (hx : x.Usual) (e : Formula) (he : e.Proper x) (l r : Nat) :
    Calm (e.write l r) := by
  induction e generalizing l r with
  | number s =>
    have hd : ∀ {s}, IsDigits s → ∀ t, Calm ((s ++ t).map sy) := by
      intro s hs t
      obtain ⟨h1, h2⟩ := hs
      cases s with
      | nil => exact absurd rfl h1
      | cons c s =>
        refine .symbols nofun fun h => ?_
        cases h
        exact absurd (h2 ' ' (by simp)) (by decide)
    cases he with
    | whole h =>
      have := hd h []
      rwa [List.append_nil] at this
    | decimal h _ => exact hd h _
  | «variable» s =>
    obtain ⟨c, cs, rfl, hc, -⟩ := he
    refine .symbols nofun fun h => ?_
    cases h
    rw [(hx.reserved ' ' (by decide +kernel)).1] at hc
    cases hc
  | constant k => exact .symbol (by cases k <;> decide)
  | string s =>
    rw [Formula.write]
    exact (Calm.symbols (s := '"' :: escape s) nofun (by simp)).append (.symbol (by decide))
  | bin o n ks ss a b ihs iha ihb =>
    have hw := writeOp_calm o.char_calm (ofFn_calm (ks := ks) fun i => ihs i (he.1 i) 0 0)
    rw [Formula.write]
    split
    · exact (iha he.2.1 _ _).append (hw.append (ihb he.2.2 _ _))
    · exact ((iha he.2.1 _ _).append (hw.append (ihb he.2.2 _ _))).inBrackets
  | pre o n ks ss a ihs iha =>
    have hw := writeOp_calm o.text_calm (ofFn_calm (ks := ks) fun i => ihs i (he.1 i) 0 0)
    rw [Formula.write]
    split
    · refine hw.append ?_
      dsimp only
      split
      · exact (iha he.2 _ _).inBrackets
      · exact iha he.2 _ _
    · refine (hw.append ?_).inBrackets
      dsimp only
      split
      · exact (iha he.2 _ _).inBrackets
      · exact iha he.2 _ _
  | post o a iha => exact (iha he _ _).append (.symbol (by cases o <;> decide))
  | script k a b iha ihb => exact (iha he.1 _ _).append (.container (by simpa using ihb he.2 0 0))
  | apply f a ihf iha => exact (ihf he.1 _ _).append (iha he.2 _ _).inBrackets
  | call f ihf => exact (ihf he _ _).append calm_brackets
  | unit => exact calm_brackets
  | fraction a b iha ihb =>
    refine .container ?_
    simp only [List.mem_cons, List.not_mem_nil, or_false, forall_eq_or_imp, forall_eq]
    exact ⟨iha he.1 0 0, ihb he.2 0 0⟩
  | root a b iha ihb =>
    refine .container ?_
    simp only [List.mem_cons, List.not_mem_nil, or_false, forall_eq_or_imp, forall_eq]
    exact ⟨iha he.1 0 0, ihb he.2 0 0⟩
  | table w n cells ih =>
    refine .container fun c hc => ?_
    obtain ⟨i, rfl⟩ := List.mem_ofFn.1 hc
    exact ih i (he.2.2.2 i) 0 0

namespace Component

variable {S : Setting} {c c' : Component} {G : Geom} {v : View}

/-- What is up to date presents the formula it holds. -/
theorem UpToDate.presents (hS : S.Ships x) (hxu : x.Usual) (hm : createParser x = .ok (S.grammar, m))
    (hu : c.UpToDate S) {e : Formula} {row : Row} (hrow : c.editor.input = row)
    (he : e.Writes x 0 0 row) (hsp : ¬ ScriptThenSpace row) : c.Presents m row e := by
  obtain ⟨hx, m', hship⟩ := id hS
  have := hship.parser
  rw [hm] at this
  cases this
  have St := createParser_std hx hm
  obtain ⟨t, ht, hs⟩ := parses_writes St hxu he
  obtain ⟨ht1, hr1⟩ := hu
  rw [hrow, ht] at ht1
  cases ht1
  obtain ⟨t', el, h1, h2⟩ := writes_shown hxu hship he hsp
  rw [ht] at h1
  cases h1
  have hr := hr1 ⟨el, h2⟩
  have hsh := shown_of hS (writes_wf he) ht hr
  obtain ⟨k1, k2⟩ := C67_signs hsh
  obtain ⟨k3, k4⟩ := C67_marks hx hship hr
  have hfree := conveys_errorFree St hs
  have hz : ∀ n ∈ S.grammar.errorNames, c.tree.named n = 0 := by
    intro n hn
    have := mt named_pos.1 (fun h => hfree n h hn)
    omega
  exact ⟨hrow, hs, fun e' h' => conveys_unique St h' hs, k1, k2,
    k3.trans (hz _ (by simp [Grammar.errorNames])), k4.trans (hz _ (by simp [Grammar.errorNames]))⟩

/-! ## Typing -/

/-- The caret is at `o` in the row `row` at the path `q`, behind the text `w`. -/
structure AtText (S : Setting) (c : Component) (q : RowIndices) (o : Nat) (row : Row) (w : Str) :
    Prop where
  wf : rowWf c.editor.input = true
  fresh : Fresh S.env c.editor
  caret : c.editor.caret = .at ⟨q, o⟩
  here : rowAt c.editor.input q = some row
  text : TextLeft row o w

theorem Fresh.some {T : Type} {env : Env T} {ed : Editor T} {t : T} (h : env.parse ed.input = .ok t) :
    Fresh env { ed with parsed := some t } := by
  intro t' ht'
  cases ht'
  exact h

/-- What one typed character does. -/
theorem handleTask_typed (hS : S.Ships x) (hG : ∀ p, 0 < G.fontSize p) {q : RowIndices} {o : Nat}
    {row : Row} {w : Str} (h : c.AtText S q o row w) (ch : Char)
    (hsplit : S.browser.split [ch] = [[ch]]) :
    ∃ c', (c.handleTask S G (typed ch) = .fine c' ∨ c.handleTask S G (typed ch) = .thrown c') ∧
      c'.AtText S q (o + 1) (row.take o ++ [.symbol [ch]] ++ row.drop o) (w ++ [ch]) ∧
      ReplacedAt c.editor.input q row (row.take o ++ [.symbol [ch]] ++ row.drop o) c'.editor.input ∧
      c'.UpToDate S ∧ c'.tasks = c.tasks ∧ c'.connected = c.connected := by
  obtain ⟨ed', row', h1, h2, rfl, h4, h5, h6, -⟩ :=
    C75_typed (env := S.env) [ch] h.wf shipped_rules h.caret h.here h.text
  simp only [typing, List.map_cons, List.map_nil, Editor.run] at h1
  obtain ⟨ed1, h1, h1'⟩ := M.bind_eq_ok.1 h1
  cases h1'
  have hf := h.fresh.step h1
  have hop : c.handleTask S G (typed ch) = ({ c with editor := ed' } : Component).redraw S G := by
    simp only [handleTask, typed, hsplit, handleEdit, h1, Handled.call]
  obtain ⟨t, ht, hE⟩ := C73_show (c := { c with editor := ed' }) (G := G) hS hf h2 hG
  rw [hop]
  simp only [List.map_cons, List.map_nil, List.length_singleton] at h4 h5 h6
  have hat : ∀ (c1 : Component), c1.editor = { ed' with parsed := some t } →
      c1.AtText S q (o + 1) (row.take o ++ [.symbol [ch]] ++ row.drop o) (w ++ [ch]) := by
    intro c1 he
    refine ⟨by rw [he]; exact h2, by rw [he]; exact Fresh.some ht, by rw [he]; exact h5,
      by rw [he]; exact h4.rowAt_new, h6⟩
  have hval : ValidCaret ed'.input ed'.caret := by
    have : ValidPos ed'.input ⟨q, o + 1⟩ := ⟨_, h4.rowAt_new, h6.1⟩
    rw [h5]
    exact ⟨this, this⟩
  generalize ({ c with editor := ed' } : Component).redraw S G = res at hE
  cases hE with
  | thrown hu =>
    refine ⟨_, .inr rfl, hat _ rfl, h4, ⟨ht, ?_⟩, rfl, rfl⟩
    rintro ⟨e, he⟩
    obtain ⟨t', h1, h2'⟩ := hu
    change S.grammar.parse ed'.input = _ at h1 ht
    rw [ht] at h1
    cases h1
    obtain ⟨hx, m, hm⟩ := id hS
    obtain ⟨t', k1, k2⟩ := C57_partial hx hm h2
    rw [ht] at k1
    cases k1
    exact absurd h2' (k2.1 ⟨e, he⟩)
  | dead _ hl => exact absurd hval hl.2
  | fine e hu hl he => exact ⟨_, .inl rfl, hat _ rfl, h4, ⟨ht, fun _ => he⟩, rfl, rfl⟩

/-- What is known after the first characters of `u` were typed. -/
structure SoFar (S : Setting) (c : Component) (q : RowIndices) (o : Nat) (row : Row) (w u : Str)
    (k : Nat) (c' : Component) : Prop where
  le : k ≤ u.length
  at_ : c'.AtText S q (o + k) (row.take o ++ (u.take k).map sy ++ row.drop o) (w ++ u.take k)
  replaced : ReplacedAt c.editor.input q row (row.take o ++ (u.take k).map sy ++ row.drop o)
    c'.editor.input
  upToDate : c'.UpToDate S
  tasks : c'.tasks = (u.drop k).map typed
  connected : c'.connected = c.connected

theorem SoFar.trans {q : RowIndices} {o : Nat} {row : Row} {w u : Str} {k k' : Nat}
    {c1 c2 : Component} (ho : o ≤ row.length) (hk : k ≤ u.length)
    (h : ReplacedAt c.editor.input q row (row.take o ++ (u.take k).map sy ++ row.drop o)
      c1.editor.input) (hc : c1.connected = c.connected)
    (h' : c1.SoFar S q (o + k) (row.take o ++ (u.take k).map sy ++ row.drop o) (w ++ u.take k)
      (u.drop k) k' c2) :
    c.SoFar S q o row w u (k + k') c2 := by
  obtain ⟨a1, a2, a3, a4, a5, a6⟩ := h'
  have hlen : (row.take o ++ (u.take k).map sy).length = o + k := by
    simp only [List.length_append, List.length_take, List.length_map]
    omega
  have e1 : u.take (k + k') = u.take k ++ (u.drop k).take k' := List.take_add
  have e2 : (row.take o ++ (u.take k).map sy ++ row.drop o).take (o + k) =
      row.take o ++ (u.take k).map sy := by
    rw [← hlen, List.take_left]
  have e3 : (row.take o ++ (u.take k).map sy ++ row.drop o).drop (o + k) = row.drop o := by
    rw [← hlen, List.drop_left]
  have e4 : row.take o ++ (u.take (k + k')).map sy ++ row.drop o =
      row.take o ++ (u.take k).map sy ++ ((u.drop k).take k').map sy ++ row.drop o := by
    rw [e1, List.map_append]
    simp only [List.append_assoc]
  rw [e2, e3] at a2 a3
  refine ⟨?_, ?_, ?_, a4, ?_, a6.trans hc⟩
  · rw [List.length_drop] at a1
    omega
  · rw [e4, e1, ← Nat.add_assoc, ← List.append_assoc]
    exact a2
  · rw [e4]
    exact h.trans a3
  · rw [a5, List.drop_drop]

/-- What tasks for typed characters do. -/
theorem handleTasks_typed (hS : S.Ships x) (hG : ∀ p, 0 < G.fontSize p)
    (hsplit : ∀ ch, S.browser.split [ch] = [[ch]]) {q : RowIndices} (u : Str) {o : Nat} {row : Row}
    {w : Str} (h : c.AtText S q o row w) (hne : u ≠ []) :
    ∃ c' k, (c.handleTasks S G (u.map typed)).left = some c' ∧ 0 < k ∧
      c.SoFar S q o row w u k c' := by
  induction u generalizing c o row w with
  | nil => exact absurd rfl hne
  | cons ch u ih =>
    obtain ⟨c1, h1, h2, h3, h4, h5, h6⟩ := handleTask_typed (c := { c with tasks := u.map typed })
      hS hG ⟨h.wf, h.fresh, h.caret, h.here, h.text⟩ ch (hsplit ch)
    have hk1 : c.SoFar S q o row w (ch :: u) 1 c1 :=
      ⟨by simp, by simpa [sy] using h2, by simpa [sy] using h3, h4, by simpa using h5, h6⟩
    rw [List.map_cons, handleTasks]
    rcases h1 with h1 | h1
    · rw [h1]
      cases u with
      | nil => exact ⟨c1, 1, rfl, Nat.one_pos, hk1⟩
      | cons ch' u =>
        obtain ⟨c2, k, g1, g2, g3⟩ := ih hk1.at_ (by simp)
        refine ⟨c2, 1 + k, g1, by omega, ?_⟩
        exact SoFar.trans h.text.1 hk1.le hk1.replaced h6 (by simpa using g3)
    · rw [h1]
      exact ⟨c1, 1, rfl, Nat.one_pos, hk1⟩

/-- What events of typing characters do. -/
theorem handleAll_typed (hS : S.Ships x) (hsplit : ∀ ch, S.browser.split [ch] = [[ch]])
    {q : RowIndices} (evs : List (View × Event)) (ht : ∀ e ∈ evs, e.2.Typing)
    (hG : ∀ e ∈ evs, ∀ p, 0 < e.1.after.fontSize p) (u : Str) {o : Nat} {row : Row} {w : Str}
    (h : c.AtText S q o row w) (hu : c.UpToDate S)
    (hin : c.tasks ++ inputsOf evs = u.map typed) :
    ∃ c' k, c.handleAll S evs = some c' ∧ c.SoFar S q o row w u k c' := by
  induction evs generalizing c u o row w with
  | nil =>
    refine ⟨c, 0, rfl, Nat.zero_le _, ?_, ?_, hu, ?_, rfl⟩
    · simpa using h
    · simpa using ReplacedAt.refl h.here
    · simpa [inputsOf] using hin
  | cons ev evs ih =>
    obtain ⟨v, ev⟩ := ev
    have hev : ev.Typing := ht _ (.head _)
    have ht' : ∀ e ∈ evs, e.2.Typing := fun e he => ht e (.tail _ he)
    have hG' : ∀ e ∈ evs, ∀ p, 0 < e.1.after.fontSize p := fun e he => hG e (.tail _ he)
    cases ev with
    | beforeInput i =>
      obtain ⟨c', k, g1, g2⟩ := ih (c := { c with tasks := c.tasks ++ [i] }) ht' hG' u
        ⟨h.wf, h.fresh, h.caret, h.here, h.text⟩ ⟨hu.tree, hu.result⟩
        (by simpa [inputsOf] using hin)
      exact ⟨c', k, g1, ⟨g2.le, g2.at_, g2.replaced, g2.upToDate, g2.tasks, g2.connected⟩⟩
    | timer =>
      simp only [handleAll, handle]
      obtain ⟨u1, u2, rfl, hu1, hu2⟩ := List.append_eq_map_iff.1 hin
      rw [← hu1]
      cases hu0 : u1 with
      | nil =>
        rw [hu0] at hu1
        obtain ⟨c', k, g1, g2⟩ := ih ht' hG' u2 h hu (by rw [← hu1, List.map_nil, hu2]; rfl)
        exact ⟨c', k, g1, by simpa using g2⟩
      | cons ch us =>
        rw [← hu0]
        obtain ⟨c1, k, h1, h2, h3⟩ := handleTasks_typed (G := v.after) hS (hG _ (.head _)) hsplit u1
          h (by rw [hu0]; simp)
        have hin1 : c1.tasks ++ inputsOf evs = ((u1 ++ u2).drop k).map typed := by
          rw [h3.tasks, List.drop_append_of_le_length h3.le, List.map_append, hu2]; rfl
        have htk : u1.take k = (u1 ++ u2).take k := by
          rw [List.take_append_of_le_length h3.le]
        have hat := h3.at_
        have hre := h3.replaced
        rw [htk] at hat hre
        obtain ⟨c', k', g1, g2⟩ := ih ht' hG' _ hat h3.upToDate hin1
        refine ⟨c', k + k', ?_, SoFar.trans h.text.1 ?_ hre h3.connected g2⟩
        · rw [h1]
          exact g1
        · have := h3.le
          rw [List.length_append]
          omega
    | _ => exact hev.elim

end Component

end Aftermath
