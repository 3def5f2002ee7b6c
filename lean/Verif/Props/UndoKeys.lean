import Verif.Proof.UndoKeys
import Verif.Proof.HandlerLeft
import Verif.Props.Exceptions
import Verif.Props.Calm

/-! # C89: undo and redo on the page -/

namespace Aftermath

theorem UndoChain.oldest {cfg : Cfg} {r : Row} {as : List CaretEdit} {ps : List Row}
    (h : UndoChain cfg r as ps) : (r :: ps).getLast? = some [] := by
  induction as generalizing r ps with
  | nil => cases ps with
    | nil => cases h; rfl
    | cons => exact h.elim
  | cons a as ih => cases ps with
    | nil => exact h.elim
    | cons p ps => rw [List.getLast?_cons_cons]; exact ih h.2.2

/-- **C89.** As many keys for redo as for undo lead back to the formula where they began, unless the
history was too short for the keys for undo. -/
theorem C89_return {h : History} {n : Nat} (hn : n ≤ h.past.length) :
    h.pressAll (List.replicate n .undo ++ List.replicate n .redo) = h :=
  History.press_return n h hn

/-- **C89.** The keys for undo and redo never change the list of formulas. -/
theorem C89_formulas (h : History) (ks : List HistoryKey) :
    (h.pressAll ks).formulas = h.formulas :=
  History.formulas_pressAll h ks

/-- **C89.** `n` keys for undo lead to the formula `n` places back. -/
theorem C89_back {h : History} {n : Nat} (hn : n ≤ h.past.length) :
    some (h.pressAll (List.replicate n .undo)).now = (h.now :: h.past)[n]? :=
  (History.pressAll_undo n h hn).2

namespace Component

variable {S : Setting} {x : Xid} {c c' : Component} {v : View}

theorem handleAll_append (evs evs' : List (View × Event)) :
    c.handleAll S (evs ++ evs') = (c.handleAll S evs).bind fun c' => c'.handleAll S evs' := by
  induction evs generalizing c with
  | nil => rfl
  | cons e evs ih =>
    show Option.bind _ _ = Option.bind (Option.bind _ _) _
    rw [Option.bind_assoc]
    congr 1
    funext c1
    exact ih

/-- The keys walk in the history of the editor. -/
theorem keys_agree {hist : History} (ks : List (View × HistoryKey))
    (ha : Agree S.env c.editor hist) (h : c.handleAll S (keyEvents ks) = some c') :
    Agree S.env c'.editor (hist.pressAll (ks.map Prod.snd)) := by
  induction ks generalizing c hist with
  | nil => cases h; exact ha
  | cons k ks ih =>
    obtain ⟨w, k⟩ := k
    obtain ⟨c1, h1, h2⟩ := Option.bind_eq_some_iff.1 h
    refine ih (c := c1) (hist := hist.press k) ?_ h2
    have key : ∀ {op : Op} {ed1 : Editor SNode} {hist' : History}, c.editor.step S.env op = .ok ed1 →
        Agree S.env ed1 hist' → c.editor.run S.env [op, .getSyntaxTree] = .ok c1.editor →
        Agree S.env c1.editor hist' := by
      intro op ed1 hist' h3 h4 h5
      simp only [Editor.run, h3, M.ok_bind] at h5
      obtain ⟨ed2, h6, h7⟩ := M.bind_eq_ok.1 h5
      cases h7
      simp only [Editor.step, Editor.getSyntaxTree] at h6
      obtain ⟨⟨e', t⟩, he, h7⟩ := M.bind_eq_ok.1 h6
      cases h7
      split at he
      · cases he; exact h4
      · obtain ⟨t', -, h8⟩ := M.bind_eq_ok.1 he
        injection h8 with h8
        injection h8 with h8
        have h9 : c1.editor = { ed1 with parsed := some t' } := h8.symm
        rw [h9]
        exact ⟨h4.now, h4.undo, h4.redo⟩
    cases k with
    | undo =>
      obtain ⟨ed1, h3, h4, -⟩ := undoOp_agree ha
      exact key (op := .undo) (by simp only [Editor.step, h3, M.ok_bind]) h4 (handleEdit_after h1).1.run
    | redo =>
      obtain ⟨ed1, h3, h4, -⟩ := redoOp_agree ha
      exact key (op := .redo) (by simp only [Editor.step, h3, M.ok_bind]) h4 (handleEdit_after h1).1.run

/-- **C89.** Whatever has happened to the component, there is a list of formulas that begins with the
empty formula, with the formula of the editor somewhere in it. As long as no call panics, every key
for undo goes one place back in this list and every key for redo one place forward, and at the ends
they do nothing. A key that does not throw shows the formula. -/
theorem _root_.Aftermath.C89_history (hc : c.Alive S) :
    ∃ h : History, h.now = c.editor.input ∧ h.formulas.getLast? = some [] ∧
      h.past.length = c.editor.undo.undoStack.length ∧
      h.future.length = c.editor.undo.redoStack.length ∧
      (∀ ks c', c.handleAll S (keyEvents ks) = some c' →
        c'.editor.input = (h.pressAll (ks.map Prod.snd)).now) ∧
      ∀ ks c' v k c'', c.handleAll S (keyEvents ks) = some c' → c'.handle S v k.event = .fine c'' →
        c''.editor.input = (h.pressAll (ks.map Prod.snd ++ [k])).now ∧ c''.InSync S := by
  obtain ⟨h, ha⟩ := hc.reachable.agree
  refine ⟨h, ha.now, ?_, ha.undo.length, ha.redo.length, ?_, ?_⟩
  · unfold History.formulas
    have := ha.undo.oldest
    rw [← ha.now] at this
    rw [List.getLast?_append, this]
    rfl
  · intro ks c' hk
    exact (keys_agree ks ha hk).now.symm
  · intro ks c' v k c'' hk hl
    have h2 : c'.handleAll S (keyEvents [(v, k)]) = some c'' := by
      show Option.bind (c'.handle S v k.event).left _ = _
      rw [hl]
      rfl
    have h1 := keys_agree [(v, k)] (keys_agree ks ha hk) h2
    obtain ⟨c₀, evs, g1, g2⟩ := hc
    have hal : c'.Alive S := ⟨c₀, evs ++ keyEvents ks, g1, by rw [handleAll_append, g2]; exact hk⟩
    refine ⟨?_, C66_recover hal ?_ hl⟩
    · rw [History.pressAll_append]
      exact h1.now.symm
    · cases k <;> trivial

/-- **C89.** Unless an abbreviation was completed over formulas, the keys for undo and redo never end
the editor, and each of them shows the formula that it leads to, if it can be shown. -/
theorem _root_.Aftermath.C89_survives (hS : S.Ships x) (hc : CalmRun S.env c.editor)
    (hu : c.UpToDate S) : ∃ h : History, h.now = c.editor.input ∧ h.formulas.getLast? = some [] ∧
      h.past.length = c.editor.undo.undoStack.length ∧
      h.future.length = c.editor.undo.redoStack.length ∧
      ∀ ks : List (View × HistoryKey), (∀ k ∈ ks, ∀ p, 0 < k.1.after.fontSize p) →
        ∃ c', c.handleAll S (keyEvents ks) = some c' ∧
          c'.editor.input = (h.pressAll (ks.map Prod.snd)).now ∧ c'.UpToDate S ∧
          ValidCaret c'.editor.input c'.editor.caret := by
  obtain ⟨h, ha⟩ := (CalmRun.reachable hc).agree
  refine ⟨h, ha.now, ?_, ha.undo.length, ha.redo.length, ?_⟩
  · unfold History.formulas
    have := ha.undo.oldest
    rw [← ha.now] at this
    rw [List.getLast?_append, this]
    rfl
  · intro ks hG
    obtain ⟨c', h1, h2, h3, h4, h5, -⟩ := press_all hS ha hc.anchored (CalmRun.fresh hc) hu ks hG
    exact ⟨c', h1, h2.now.symm, h5, h3.caret trivial⟩

/-- **C89.** Characters are typed one by one behind a text, with timers firing at any moments, and
then undo is pressed as often: the formula, the caret and what can be undone are as before, and the
page shows the old formula, even if formulas on the way could not be shown. -/
theorem _root_.Aftermath.C89_typed (hS : S.Ships x) (hsplit : ∀ ch, S.browser.split [ch] = [[ch]])
    {q : RowIndices} {o : Nat} {row : Row} {w u : Str} (hcalm : CalmRun S.env c.editor)
    (hu : c.UpToDate S) (hc : c.editor.caret = .at ⟨q, o⟩)
    (hrow : rowAt c.editor.input q = some row) (htext : TextLeft row o w) (htasks : c.tasks = [])
    {evs : List (View × Event)} (ht : ∀ e ∈ evs, e.2.Typing)
    (hG : ∀ e ∈ evs, ∀ p, 0 < e.1.after.fontSize p) (hin : inputsOf evs = u.map typed)
    (hm : timersLeft 0 evs = some 0) {ks : List (View × HistoryKey)}
    (hk : ∀ k ∈ ks, k.2 = .undo) (hlen : ks.length = u.length)
    (hG' : ∀ k ∈ ks, ∀ p, 0 < k.1.after.fontSize p) :
    ∃ c', c.handleAll S (evs ++ keyEvents ks) = some c' ∧ c'.UpToDate S ∧
      c'.editor.input = c.editor.input ∧ c'.editor.caret = c.editor.caret ∧
      c'.editor.undo.undoStack = c.editor.undo.undoStack ∧ c'.tasks = [] := by
  have hwf := (C26_calm_partial hcalm).1
  obtain ⟨hist, ha⟩ := (CalmRun.reachable hcalm).agree
  obtain ⟨c1, h1, h2, h3, h4, h5⟩ :=
    C77_typed hS hsplit hwf (CalmRun.fresh hcalm) hu hc hrow htext htasks ht hG hin hm
  obtain ⟨-, h6⟩ := C64_typing htasks ht hm h1
  have hcalls : (u.map typed).flatMap (InputEvent.calls S) =
      u.flatMap fun ch => [Op.insertAtCaret [[ch]], .getSyntaxTree] := by
    rw [List.flatMap_map]
    congr 1
    funext ch
    simp only [typed, InputEvent.calls, hsplit]
  rw [hin, hcalls] at h6
  obtain ⟨g1, ⟨rs, g2, g3⟩, as, g4, g5, g6⟩ :=
    typed_run shipped_rules u ha hcalm.anchored hc hrow htext h6
  obtain ⟨c2, k1, k2, k3, k4, k5, k6, -, k7⟩ :=
    press_all hS g3 g1 (Fresh.run (CalmRun.fresh hcalm) h6) h3 ks hG'
  obtain ⟨k8, k9⟩ := k7 hk as _ g4 (g5.trans hlen.symm)
  have hks : ks.map Prod.snd = List.replicate u.length .undo := by
    rw [List.eq_replicate_iff]
    refine ⟨by simp [hlen], ?_⟩
    intro k hk'
    obtain ⟨k', h7, rfl⟩ := List.mem_map.1 hk'
    exact hk k' h7
  refine ⟨c2, ?_, k5, ?_, ?_, k8, k6.trans h2⟩
  · rw [handleAll_append, h1]
    exact k1
  · have e1 := k2.now
    rw [hks] at e1
    have e2 := History.record_all rs hist
    have hle : u.length ≤ (rs.foldl History.record hist).past.length := by
      have := congrArg List.length e2
      simp only [List.length_cons, List.length_append, List.length_reverse] at this
      omega
    have e3 := (History.pressAll_undo _ _ hle).2
    rw [e2, List.getElem?_append_right (by simp [g2]), e1] at e3
    simp only [List.length_reverse, g2, Nat.sub_self, List.getElem?_cons_zero] at e3
    injection e3 with e3
    exact e3.trans ha.now
  · cases hl : as.getLast? with
    | some a => exact (k9 a hl).trans (g6 a hl)
    | none =>
      obtain rfl := List.getLast?_eq_none_iff.1 hl
      simp only [List.length_nil] at g5
      have : ks = [] := List.length_eq_zero_iff.1 (hlen.trans g5.symm)
      subst this
      obtain rfl := List.length_eq_zero_iff.1 g5.symm
      cases k1
      rw [List.flatMap_nil, Editor.run] at h6
      injection h6 with h6
      rw [h6]

end Component

/-- Typing `2*x`, with timers firing late. -/
private def lineTyped : List (View × Event) :=
  [(powerView, .beforeInput (typed '2')), (powerView, .beforeInput (typed '*')), (powerView, .timer),
    (powerView, .beforeInput (typed 'x')), (powerView, .timer), (powerView, .timer)]

-- Undo and redo pass through `2*`, which is not a complete formula.
example : (letterSetting.bind fun S => (Component.new S).toOption.bind fun c =>
      (c.handleAll S lineTyped).bind fun c1 =>
        ([[.undo], [.undo, .undo], [.undo, .undo, .redo], [.undo, .undo, .undo, .undo],
          [.undo, .redo, .redo]] : List (List HistoryKey)).mapM fun ks =>
        (c1.handleAll S (keyEvents (ks.map (powerView, ·)))).map (·.editor.input)) =
    some [rowOf "2*", rowOf "2", rowOf "2*", [], rowOf "2*x"] := by
  decide +kernel

-- The theorem applies to a new component.
example : ∃ S c c', S.Ships letterXid ∧ Component.new S = .ok c ∧
    c.handleAll S (lineTyped ++ keyEvents (List.replicate 3 (powerView, .undo))) = some c' ∧
    c'.UpToDate S ∧ c'.editor.input = [] ∧ c'.editor.undo.undoStack = [] := by
  have hs : letterSetting.isSome = true := by decide +kernel
  obtain ⟨S, hS⟩ := Option.isSome_iff_exists.1 hs
  have hb : S.browser = plainBrowser := by
    unfold letterSetting at hS
    split at hS
    · split at hS
      · cases hS; rfl
      · cases hS
    · cases hS
  have hship := letterSetting_ships hS
  obtain ⟨c, hc, -⟩ := C62_new hship
  obtain ⟨h1, h2, h3, h4, h5⟩ := Component.new_state hc
  have hv : ∀ p, 0 < powerView.after.fontSize p := by
    intro p
    show (0 : Rat) < 1
    decide
  have hev : ∀ e ∈ lineTyped, e.1 = powerView := by
    simp only [lineTyped, List.mem_cons, List.not_mem_nil, or_false, forall_eq_or_imp, forall_eq,
      and_self]
  have hcalm : CalmRun S.env c.editor ∧ c.editor.undo.undoStack = [] := by
    unfold Component.new at hc
    obtain ⟨⟨ed, t⟩, g1, g2⟩ := M.bind_eq_ok.1 hc
    obtain ⟨e, g3, g4⟩ := M.bind_eq_ok.1 g2
    cases g4
    refine ⟨CalmRun.step (op := .getSyntaxTree) CalmRun.new ?_ ?_ ?_, ?_⟩
    · simp only [Editor.step, g1, M.ok_bind]
    · trivial
    · intro _; rfl
    · simp only [Editor.getSyntaxTree, Editor.new] at g1
      obtain ⟨t', -, g7⟩ := M.bind_eq_ok.1 g1
      cases g7
      rfl
  obtain ⟨c', k1, k2, k3, -, k4, -⟩ := C89_typed (evs := lineTyped) (u := "2*x".toList) (row := [])
    (w := []) (ks := List.replicate 3 (powerView, .undo)) hship (by rw [hb]; intro ch; rfl) hcalm.1 h1 h4
    (by rw [h3]; rfl) ⟨Nat.zero_le _, [], rfl, nofun⟩ h5
    (by
      simp only [lineTyped, List.mem_cons, List.not_mem_nil, or_false, forall_eq_or_imp, forall_eq]
      exact ⟨trivial, trivial, trivial, trivial, trivial, trivial⟩)
    (fun e he => by rw [hev e he]; exact hv) rfl rfl
    (fun k hk => by rw [List.eq_of_mem_replicate hk]) rfl
    (fun k hk => by rw [List.eq_of_mem_replicate hk]; exact hv)
  exact ⟨S, c, c', hship, hc, k1, k2, k3.trans h3, k4.trans hcalm.2⟩

end Aftermath
