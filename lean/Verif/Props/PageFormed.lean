import Verif.Spec.PageFormed
import Verif.Proof.ReadBack
import Verif.Props.Grids
import Verif.Props.Page

/-! # C108: well-formed formulas on the whole page -/

namespace Aftermath

variable {S : Setting} {x : Xid} {p : Page} {c : Component}

/-- **C37**, a part of it that holds without restriction: what is written for nodes is never read as
other nodes. -/
theorem C37_same (cfg : Cfg) {nodes nodes' : List Node}
    (h : deserializeNodes cfg (serializeNodes nodes) = some nodes') : nodes' = nodes := by
  obtain ⟨d, version, values, h1, h2, -, h3⟩ := deserializeNodes_iff.1 h
  have he := h1.unique (serializeNodes_written nodes)
  subst he
  have hv := (record2_obj (by decide) _ _).unique h2
  simp only [JDoc.arr.injEq] at hv
  rw [← hv.2] at h3
  exact areNodes_back nodes h3

/-- What `copy` writes are nodes of a part of a row. -/
theorem copy_nodes {T : Type} {ed : Editor T} (hw : rowWf ed.input = true) {data : Str}
    (h : ed.copy = .ok data) : ∃ nodes, rowWf nodes = true ∧ data = serializeNodes nodes := by
  have hsel : ∃ rng, selectionOf ed.input ed.caret = .ok (.row rng) := by
    unfold Editor.copy at h
    obtain ⟨c, h1, h2⟩ := M.bind_eq_ok.1 h
    cases hs : c.selection with
    | grid g => rw [hs] at h2; cases h2
    | row r => exact ⟨r.toMinimal, by simp only [selectionOf, h1, M.ok_bind, hs]; rfl⟩
  obtain ⟨rng, hsel⟩ := hsel
  obtain ⟨row, h1, -, h3⟩ := copy_ok hw hsel
  rw [h] at h3
  cases h3
  exact ⟨_, selectedNodes_wf (rowAt_wf hw h1) rng, rfl⟩

theorem Clip.Good.after {clip : Clip} (h : clip.Good S) (hw : rowWf c.editor.input = true)
    (ev : Event) : (clip.after c ev).Good S := by
  have key : ∀ data, c.editor.copy = .ok data → (⟨data, []⟩ : Clip).Good S := by
    intro data hd nodes hn
    obtain ⟨nodes', h1, rfl⟩ := copy_nodes hw hd
    simp only [pasted] at hn
    split at hn
    · rename_i he
      rw [List.isEmpty_iff] at he
      rw [← he] at hn
      exact C37_same _ hn ▸ h1
    · exact C37_same _ hn ▸ h1
  cases ev <;> simp only [Clip.after] <;> first
    | exact h
    | (split
       · exact key _ ‹_›
       · exact h)

/-- All editors of the page are in states that events with well-formed data lead to, and so is the
clipboard. -/
structure Page.Formed (S : Setting) (p : Page) : Prop where
  clip : p.clipboard.Good S
  proper : ∀ (i : Nat) (c : Component), p.editors[i]? = some (some c) → c.Proper S

theorem Page.Formed.handleAt (hS : S.Ships x) (hchk : S.cfg.checks = true) (h : p.Formed S) {i : Nat}
    {v : View} {ev : Event} (hd : ∀ json text, ev = .paste json text → ev.GoodData S) :
    (p.handleAt S i v ev).Formed S := by
  refine ⟨?_, fun j c' hj => ?_⟩
  · unfold Page.handleAt
    split
    · rename_i c hc
      exact h.clip.after ((h.proper i c hc).formed hS).wf ev
    · exact h.clip
  · rw [Page.handleAt_editors] at hj
    split at hj
    · rename_i he
      subst he
      obtain ⟨o, h1, h2⟩ := Option.map_eq_some_iff.1 hj
      obtain ⟨c, rfl, h3⟩ := Option.bind_eq_some_iff.1 h2
      exact C109_proper hS hchk (evs := [(v, ev)]) (h.proper _ _ h1) (by simpa using hd)
        (by simp only [Component.handleAll, h3, Option.bind_some])
    · exact h.proper j c' hj

theorem Page.Formed.step (hS : S.Ships x) (hchk : S.cfg.checks = true) (h : p.Formed S)
    {e : PageEvent} (hd : e.GoodData S) : (p.step S e).Formed S := by
  cases e with
  | editor i v ev => exact h.handleAt hS hchk hd
  | paste i v => exact h.handleAt hS hchk (ev := .paste _ _) fun _ _ _ => h.clip
  | copied clip => exact ⟨hd, h.proper⟩

/-- **C108.** Only data from other programs can be ill formed. If they are not, then whatever the
documents of the page are, after any events of any of the editors, with any copying and pasting
between them, any exceptions and panics, the formulas of all editors are well formed, and so is what
is on the clipboard. Everything that is known about the states of a single editor (C76) holds. -/
theorem C108 (hS : S.Ships x) (hchk : S.cfg.checks = true) {clip : Clip}
    {docs : List (View × View × Dom)} {evs : List PageEvent}
    (hclip : clip.Good S) (hevs : ∀ e ∈ evs, e.GoodData S) :
    ((Page.load S clip docs).run S evs).clipboard.Good S ∧
    ∀ (i : Nat) (c : Component), ((Page.load S clip docs).run S evs).editors[i]? = some (some c) →
      c.Proper S ∧ rowWf c.editor.input = true := by
  suffices h : ((Page.load S clip docs).run S evs).Formed S from
    ⟨h.clip, fun i c hc => ⟨h.proper i c hc, ((h.proper i c hc).formed hS).wf⟩⟩
  have h0 : (Page.load S clip docs).Formed S := by
    refine ⟨hclip, fun i c hc => ?_⟩
    simp only [Page.load, List.getElem?_map] at hc
    obtain ⟨⟨v₁, v₂, d⟩, h1, h2⟩ := Option.map_eq_some_iff.1 hc
    simp only [Component.load] at h2
    split at h2
    · cases h2
    · rename_i c₀ h₀
      have hp : c₀.Proper S := .new h₀ fun h => by rw [hchk] at h; cases h
      refine C109_proper hS hchk hp ?_ h2
      intro y hy json text he
      simp only [List.mem_cons, List.not_mem_nil, or_false] at hy
      rcases hy with rfl | rfl <;> cases he
  generalize Page.load S clip docs = p at h0
  induction evs generalizing p with
  | nil => exact h0
  | cons e evs ih =>
    exact ih (fun e he => hevs e (.tail _ he)) _ (h0.step hS hchk (hevs e (.head _)))

/-- **C108.** Pasting into any editor of the page what was copied or cut in another one inserts the
copied nodes, or nothing. -/
theorem C108_paste {i : Nat} {v : View} {ev : Event} (hev : ev = .copy ∨ ev = .cut)
    (hi : p.editors[i]? = some (some c)) (hw : rowWf c.editor.input = true) {rng : MinRange}
    {row : Row} (hsel : selectionOf c.editor.input c.editor.caret = .ok (.row rng))
    (hrow : rowAt c.editor.input rng.rowIndices = some row) {evs : List PageEvent}
    (hevs : ∀ e ∈ evs, ¬ e.Copies) {nodes : List Node}
    (hn : deserializeNodes S.cfg (pasted (p.run S (.editor i v ev :: evs)).clipboard.json
      (p.run S (.editor i v ev :: evs)).clipboard.text) = some nodes) :
    nodes = (row.take (max rng.start rng.stop)).drop (min rng.start rng.stop) := by
  rw [Page.run_cons, Page.run_clipboard hevs, (C82_clipboard hev hi hw).1 rng row hsel hrow] at hn
  simp only [pasted] at hn
  split at hn
  · rename_i he
    rw [List.isEmpty_iff] at he
    rw [← he] at hn
    exact C37_same _ hn
  · exact C37_same _ hn

/-- Nothing on the clipboard. -/
theorem emptyClip_good (S : Setting) : (⟨[], []⟩ : Clip).Good S := by
  intro nodes h
  have : deserializeNodes S.cfg [] = none := rfl
  simp only [pasted, List.isEmpty_nil, if_true, this] at h
  cases h

/-- Two editors; what is selected in the first one is cut, and pasted twice into the second one. -/
def cutPage : List PageEvent :=
  [.editor 0 powerView (.pointerDown ⟨13, 10⟩), .editor 0 powerView (.pointerUp ⟨10, 10⟩),
    .editor 0 powerView .cut, .paste 1 powerView, .paste 1 powerView]

/-- The formulas and the text on the clipboard after `cutPage`. -/
example : (letterSetting.map fun S =>
      let p := (Page.load S ⟨[], []⟩
        [(powerView, powerView, powerDom), (powerView, powerView, powerDom)]).run S cutPage
      (p.clipboard.json, p.editors.map (·.map (·.editor.input)))) =
    some (serializeNodes (rowOf "abc"), [some (rowOf "x" ++ [.sup (rowOf "2")]),
      some (rowOf "abcabcx" ++ [.sup (rowOf "2")] ++ rowOf "abc")]) := by
  decide +kernel

/-- The events need no assumption. -/
example (S : Setting) : ∀ e ∈ cutPage, e.GoodData S := by
  intro e he
  simp only [cutPage, List.mem_cons, List.not_mem_nil, or_false] at he
  rcases he with rfl | rfl | rfl | rfl | rfl <;> first | trivial | (intro _ _ h; cases h)

/-- Data of another program that are not well formed. -/
example : ¬ ∀ S : Setting, (⟨badClipboard, []⟩ : Clip).Good S := by
  intro h
  have h1 : letterSetting.any fun S =>
      match deserializeNodes S.cfg badClipboard with
      | some nodes => !rowWf nodes
      | none => false := by
    decide +kernel
  obtain ⟨S, -, h2⟩ := Option.any_eq_true _ _ |>.1 h1
  split at h2
  · rename_i nodes hn
    have := h S nodes hn
    rw [this] at h2
    cases h2
  · cases h2

end Aftermath
