import Verif.Proof.Clipboard
import Verif.Proof.Calm
import Verif.Props.Autocorrect

/-! # Property theorems C37 to C39: the clipboard -/

namespace Aftermath

variable {T : Type} {env : Env T}

/-! ## C37 -/

/-- C37 (part), for nodes well formed or not: what is written is read back unchanged if at most
20 containers are nested. Widths are `usize` values. Missing: deeper formulas, see
`C37_too_deep`. -/
theorem C37_roundtrip_partial (cfg : Cfg) (nodes : List Node) (hw : widthsFit cfg.bits nodes)
    (hn : nesting nodes ≤ 20) : deserializeNodes cfg (serializeNodes nodes) = some nodes := by
  rw [deserializeNodes_iff]
  exact ⟨_, 1, _, serializeNodes_written nodes, record2_obj (by decide) _ _, by decide,
    rowToJson_areNodes nodes 125 (by omega) hw⟩

/-- C37 fails for formulas that nest 21 containers or more: the text the editor writes is
rejected by its own reader (the recursion limit of serde_json). -/
theorem C37_too_deep (cfg : Cfg) (nodes : List Node) (hwf : rowWf nodes = true)
    (hn : 21 ≤ nesting nodes) : deserializeNodes cfg (serializeNodes nodes) = none := by
  cases hd : deserializeNodes cfg (serializeNodes nodes) with
  | none => rfl
  | some nodes' =>
    obtain ⟨d, version, values, h1, h2, -, h3⟩ := deserializeNodes_iff.1 hd
    have he := h1.unique (serializeNodes_written nodes)
    subst he
    have hv := (record2_obj (by decide) _ _).unique h2
    simp only [JDoc.arr.injEq] at hv
    rw [← hv.2] at h3
    have := room_of_areNodes nodes hwf h3
    omega

/-- C37, second half: distinct lists of nodes are written as distinct texts, without any
restriction. -/
theorem C37_injective {a b : List Node} (h : serializeNodes a = serializeNodes b) : a = b := by
  have := Json.print_inj h
  simp only [Json.obj.injEq, Json.arr.injEq, List.cons.injEq, Prod.mk.injEq,
    and_true, true_and] at this
  exact rowToJson_inj a b this

/-- `n` nested superscripts. -/
def towers : Nat → List Node
  | 0 => []
  | n + 1 => [.container .sup [towers n] 1]

theorem towers_wf (n : Nat) : rowWf (towers n) = true ∧ nesting (towers n) = n := by
  induction n with
  | zero => exact ⟨rfl, rfl⟩
  | succ n ih =>
    simp [towers, rowWf, Node.wf, cellsWf, shapeOk, nesting, Node.nesting, cellsNesting, ih]

/-- C37 is false: some well-formed lists of nodes are not read back. -/
theorem C37_not : ¬ ∀ (nodes : List Node), rowWf nodes = true → widthsFit 32 nodes →
    deserializeNodes .dev (serializeNodes nodes) = some nodes := by
  intro h
  have hw : ∀ n, widthsFit 32 (towers n) := by
    intro n
    induction n with
    | zero => exact trivial
    | succ n ih => exact ⟨⟨by decide, ih, trivial⟩, trivial⟩
  have h1 := h (towers 21) (towers_wf 21).1 (hw 21)
  rw [C37_too_deep _ _ (towers_wf 21).1 (by rw [(towers_wf 21).2])] at h1
  cases h1

/-- Quotes, backslashes, control characters, non-ASCII text and a table. -/
example : nesting [.symbol "\"\\\n\x01∞".toList,
      .container .table [[], [.symbol ['a']], [Node.sup [.symbol ['2']]], []] 2] ≤ 20 ∧
    widthsFit 32 [.symbol "\"\\\n\x01∞".toList,
      .container .table [[], [.symbol ['a']], [Node.sup [.symbol ['2']]], []] 2] := by
  refine ⟨by decide, ?_⟩
  simp [widthsFit, Node.widthsFit, cellsWidthsFit, Node.sup]

example : serializeNodes [.symbol "\"\\\n\x01∞".toList] =
    "{\"version\":1,\"data\":[{\"Symbol\":\"\\\"\\\\\\n\\u0001∞\"}]}".toList := by decide +kernel

/-! ## C38 -/

/-- The nodes of a row selected by a range. -/
def selectedNodes (row : Row) (rng : MinRange) : List Node :=
  (row.take (max rng.start rng.stop)).drop (min rng.start rng.stop)

/-- What `copy` puts on the clipboard: the selected nodes. -/
theorem copy_ok {ed : Editor T} {rng : MinRange} (hwf : rowWf ed.input = true)
    (hsel : selectionOf ed.input ed.caret = .ok (.row rng)) :
    ∃ row, rowAt ed.input rng.rowIndices = some row ∧
      max rng.start rng.stop ≤ row.length ∧
      ed.copy = .ok (serializeNodes (selectedNodes row rng)) := by
  obtain ⟨c, r, hc, hs, rfl, hf, hb⟩ := selectionOf_row hwf hsel
  have hl := r.leftOffset_min
  have hrr := r.rightOffset_max
  have hrl := RowRange.right_le hb
  refine ⟨r.focus.row, hf.rowAt_eq, ?_, ?_⟩
  · rw [hrr] at hrl; exact hrl
  · simp only [Editor.copy, hc, M.ok_bind, hs, RowRange.values, if_pos hrl, selectedNodes]
    rw [hl, hrr]
    rfl

theorem selectedNodes_wf {row : Row} (h : rowWf row = true) (rng : MinRange) :
    rowWf (selectedNodes row rng) = true := rowWf_drop (rowWf_take h _) _

theorem selectedNodes_fits {b : Nat} {row : Row} (h : rowFits b row = true) (rng : MinRange) :
    rowFits b (selectedNodes row rng) = true :=
  rowFits_iff.2 fun n hn =>
    rowFits_iff.1 h n (List.mem_of_mem_take (List.mem_of_mem_drop hn))

theorem selectedNodes_length {row : Row} {rng : MinRange}
    (h : max rng.start rng.stop ≤ row.length) :
    min rng.start rng.stop + (selectedNodes row rng).length = max rng.start rng.stop := by
  unfold selectedNodes; simp; omega

theorem selectedNodes_glue {row : Row} {rng : MinRange} :
    row.take (min rng.start rng.stop) ++ selectedNodes row rng ++
      row.drop (max rng.start rng.stop) = row := by
  unfold selectedNodes
  have h : (row.take (max rng.start rng.stop)).take (min rng.start rng.stop) =
      row.take (min rng.start rng.stop) := by
    rw [List.take_take]; congr 1; omega
  rw [← h, List.take_append_drop, List.take_append_drop]

/-- C38 (part): copying a row selection, collapsed or not, and pasting over it leaves the formula
as it is and puts the caret behind the nodes. The selected nodes nest at most 20 containers
(beyond, see `C38_cut_loses`); asking for autocompletions must not panic. -/
theorem C38_copy_paste_partial {ed e : Editor T} {ac : Option AutocorrectAction} {rng : MinRange}
    {row : Row} (hwf : rowWf ed.input = true) (hfit : rowFits env.cfg.bits ed.input = true)
    (hsel : selectionOf ed.input ed.caret = .ok (.row rng))
    (hrow : rowAt ed.input rng.rowIndices = some row)
    (hdeep : nesting (selectedNodes row rng) ≤ 20)
    (hs : ed.startAutocorrect env = .ok (e, ac)) :
    ∃ data ed', ed.copy = .ok data ∧ ed.paste env data true = .ok (ed', true) ∧
      ed'.input = ed.input ∧ ed'.caret = .at ⟨rng.rowIndices, max rng.start rng.stop⟩ := by
  obtain ⟨row', h1, h2, h3⟩ := copy_ok hwf hsel
  rw [hrow] at h1
  cases h1
  have hrw := rowAt_wf hwf hrow
  have hw := widthsFit_of_fits _ (selectedNodes_wf hrw rng)
    (selectedNodes_fits (rowAt_fits hfit hrow) rng)
  obtain ⟨row', ed', a, g1, g2, g3, g4, -⟩ := C36_paste hwf hsel hs
    (C37_roundtrip_partial env.cfg _ hw hdeep) (selectedNodes_wf hrw rng)
  rw [hrow] at g2
  cases g2
  refine ⟨_, ed', h3, g1, ?_, ?_⟩
  · rw [selectedNodes_glue] at g3
    exact g3.eq_of_same
  · rw [g4, selectedNodes_length h2]

/-- Cutting: what the `cut` handler of `math-editor.ts` 195-201 does, copy and then remove the
selection. -/
theorem cut_ok {ed : Editor T} {rng : MinRange} {row : Row} (hwf : rowWf ed.input = true)
    (hsel : selectionOf ed.input ed.caret = .ok (.row rng)) (hne : rng.start ≠ rng.stop)
    (hrow : rowAt ed.input rng.rowIndices = some row) :
    ∃ ed' b, ed.copy = .ok (serializeNodes (selectedNodes row rng)) ∧
      max rng.start rng.stop ≤ row.length ∧
      ed.removeAtCaret env .range = .ok (ed', b) ∧
      ed'.caret = .at ⟨rng.rowIndices, min rng.start rng.stop⟩ ∧
      ReplacedAt ed.input rng.rowIndices row
        (row.take (min rng.start rng.stop) ++ row.drop (max rng.start rng.stop)) ed'.input ∧
      rowWf ed'.input = true ∧ ValidPos ed'.input ⟨rng.rowIndices, min rng.start rng.stop⟩ := by
  obtain ⟨row', h1, h2, h3⟩ := copy_ok hwf hsel
  rw [hrow] at h1
  cases h1
  obtain ⟨row', root', g1, g2, g3, g4, g5⟩ := C15_delete_selection hwf env.cfg .range hsel hne
  rw [hrow] at g1
  cases g1
  obtain ⟨ed', b, k1, rfl, k3⟩ :=
    removeAtCaret_calm_ok (startAutocorrect_selection (env := env) hsel hne) g2
  exact ⟨ed', b, h3, h2, k1, k3, g3, g4, g5⟩

/-- Nothing left of the cut changes, so no empty symbol appears there. -/
theorem cut_noEmpty {root root' row : Row} {q : RowIndices} {l r : Nat}
    (h : ReplacedAt root q row (row.take l ++ row.drop r) root') (hl : l ≤ row.length)
    (hsym : NoEmptySymbolLeft root (.at ⟨q, l⟩)) : NoEmptySymbolLeft root' (.at ⟨q, l⟩) := by
  intro q' o row' hm hrow' hleft
  cases hm
  rw [h.rowAt_new] at hrow'
  cases hrow'
  obtain ⟨h1, before, h2⟩ := hleft
  refine hsym q l row rfl h.rowAt_old ⟨hl, before, ?_⟩
  rw [← h2, List.take_append_of_le_length (by simp; omega), List.take_take, Nat.min_self]

/-- C38 (part): cutting a selection and pasting it back restores the formula and puts the caret
behind the nodes. The selected nodes nest at most 20 containers; the rules are ASCII and there is
no empty symbol left of the selection. -/
theorem C38_cut_paste_partial {ed : Editor T} {rng : MinRange} {row : Row}
    (hwf : rowWf ed.input = true) (hfit : rowFits env.cfg.bits ed.input = true)
    (hsel : selectionOf ed.input ed.caret = .ok (.row rng)) (hne : rng.start ≠ rng.stop)
    (hrow : rowAt ed.input rng.rowIndices = some row)
    (hdeep : nesting (selectedNodes row rng) ≤ 20) (hr : GoodRules env.rules)
    (hsym : NoEmptySymbolLeft ed.input (.at ⟨rng.rowIndices, min rng.start rng.stop⟩)) :
    ∃ data ed1 b ed2, ed.copy = .ok data ∧ ed.removeAtCaret env .range = .ok (ed1, b) ∧
      ed1.paste env data true = .ok (ed2, true) ∧
      ed2.input = ed.input ∧ ed2.caret = .at ⟨rng.rowIndices, max rng.start rng.stop⟩ := by
  obtain ⟨ed1, b, h1, h2, h3, h4, h5, h6, h7⟩ := cut_ok (env := env) hwf hsel hne hrow
  have hrw := rowAt_wf hwf hrow
  have hw := widthsFit_of_fits _ (selectedNodes_wf hrw rng)
    (selectedNodes_fits (rowAt_fits hfit hrow) rng)
  have hsym1 := cut_noEmpty h5 (by omega) hsym
  have hv : ValidCaret ed1.input ed1.caret := by rw [h4]; exact ⟨h7, h7⟩
  obtain ⟨e, ac, hs⟩ := startAutocorrect_ok (env := env) h6 hv hr (by rw [h4]; exact hsym1)
  have hsel1 := selectionOf_at h6 h7
  rw [← h4] at hsel1
  obtain ⟨row', ed2, a, g1, g2, g3, g4, -⟩ := C36_paste h6 hsel1 hs
    (C37_roundtrip_partial env.cfg _ hw hdeep) (selectedNodes_wf hrw rng)
  rw [h5.rowAt_new] at g2
  cases g2
  simp only [Nat.min_self, Nat.max_self] at g3 g4
  refine ⟨_, ed1, b, ed2, h1, h3, g1, ?_, ?_⟩
  · have hl : (row.take (min rng.start rng.stop)).length = min rng.start rng.stop := by
      simp; omega
    rw [List.take_append_of_le_length (by omega), List.take_take, Nat.min_self,
      List.drop_append_of_le_length (by omega), List.drop_of_length_le (l := List.take _ _)
        (by omega), List.nil_append, selectedNodes_glue] at g3
    exact (h5.trans g3).eq_of_same
  · rw [g4, selectedNodes_length h2]

/-- C38 is false for deeper formulas: cut puts a text on the clipboard that paste rejects, so the
cut nodes are lost from the formula. -/
theorem C38_cut_loses {ed : Editor T} {rng : MinRange} {row : Row}
    (hwf : rowWf ed.input = true)
    (hsel : selectionOf ed.input ed.caret = .ok (.row rng)) (hne : rng.start ≠ rng.stop)
    (hrow : rowAt ed.input rng.rowIndices = some row)
    (hdeep : 21 ≤ nesting (selectedNodes row rng)) (hr : GoodRules env.rules)
    (hsym : NoEmptySymbolLeft ed.input (.at ⟨rng.rowIndices, min rng.start rng.stop⟩)) :
    ∃ data ed1 b ed2, ed.copy = .ok data ∧ ed.removeAtCaret env .range = .ok (ed1, b) ∧
      ed1.paste env data true = .ok (ed2, false) ∧
      ReplacedAt ed.input rng.rowIndices row
        (row.take (min rng.start rng.stop) ++ row.drop (max rng.start rng.stop)) ed2.input := by
  obtain ⟨ed1, b, h1, h2, h3, h4, h5, h6, h7⟩ := cut_ok (env := env) hwf hsel hne hrow
  have hsym1 := cut_noEmpty h5 (by omega) hsym
  have hv : ValidCaret ed1.input ed1.caret := by rw [h4]; exact ⟨h7, h7⟩
  obtain ⟨e, ac, hs⟩ := startAutocorrect_ok (env := env) h6 hv hr (by rw [h4]; exact hsym1)
  refine ⟨_, ed1, b, e, h1, h3, ?_, (startAutocorrect_quiet hs).1.input ▸ h5⟩
  simp only [Editor.paste, hs, M.ok_bind, if_true,
    C37_too_deep env.cfg _ (selectedNodes_wf (rowAt_wf hwf hrow) rng) hdeep]

/-- `x + a/b` with the last two nodes selected, cut and pasted. -/
example : (do
    let ed : Editor Unit := ⟨[.symbol ['x'], .symbol ['+'],
      Node.fraction [.symbol ['a']] [.symbol ['b']]], none, ⟨⟨[], 3⟩, ⟨[], 1⟩⟩, none, none, .empty⟩
    let env : Env Unit := ⟨.dev, fun _ => .ok (), exampleRules⟩
    let data ← ed.copy
    let (ed1, _) ← ed.removeAtCaret env .range
    let (ed2, ok) ← ed1.paste env data true
    .ok (ed1.input, ed2.input, ed2.caret, ok)) =
    .ok ([.symbol ['x']], [.symbol ['x'], .symbol ['+'],
      Node.fraction [.symbol ['a']] [.symbol ['b']]], .at ⟨[], 3⟩, true) := by decide +kernel

/-- The hypotheses of `C38_cut_loses` hold for 21 nested superscripts, all selected. -/
example : rowWf (towers 21) = true ∧
    selectionOf (towers 21) ⟨⟨[], 0⟩, ⟨[], 1⟩⟩ = .ok (.row ⟨[], 0, 1⟩) ∧
    21 ≤ nesting (selectedNodes (towers 21) ⟨[], 0, 1⟩) ∧ GoodRules exampleRules ∧
    NoEmptySymbolLeft (towers 21) (.at ⟨[], 0⟩) := by
  refine ⟨by decide +kernel, by decide +kernel, by decide +kernel,
    by unfold GoodRules Ascii; decide +kernel, ?_⟩
  intro q o row hm hrow ⟨_, before, hb⟩
  cases hm
  simp at hb

/-! ## C39 -/

/-- C39 (part): what `copy` wrote is pasted as well-formed nodes. Missing: texts from elsewhere,
see `C39_any_shape`. -/
theorem C39_own_text_partial (cfg : Cfg) {nodes nodes' : List Node} (hwf : rowWf nodes = true)
    (hw : widthsFit cfg.bits nodes)
    (h : deserializeNodes cfg (serializeNodes nodes) = some nodes') : rowWf nodes' = true := by
  by_cases hn : nesting nodes ≤ 20
  · rw [C37_roundtrip_partial cfg nodes hw hn] at h
    cases h
    exact hwf
  · rw [C37_too_deep cfg nodes hwf (by omega)] at h
    cases h

/-- C39 (part): the only thing checked about grids is that widths are `usize` values. -/
theorem C39_widths_partial (cfg : Cfg) {data : Str} {nodes : List Node}
    (h : deserializeNodes cfg data = some nodes) : widthsFit cfg.bits nodes := by
  obtain ⟨d, version, values, -, -, -, h3⟩ := deserializeNodes_iff.1 h
  exact h3.widths

/-- C39 is false: every list of nodes with `usize` widths, however ill formed its grids are, is
what some text is read as (nesting at most 20). -/
theorem C39_any_shape (cfg : Cfg) (nodes : List Node) (hw : widthsFit cfg.bits nodes)
    (hn : nesting nodes ≤ 20) : ∃ data, deserializeNodes cfg data = some nodes :=
  ⟨_, C37_roundtrip_partial cfg nodes hw hn⟩

/-- A text for a table without cells and of width zero. -/
def badClipboard : Str :=
  "{\"version\":1,\"data\":[{\"Container\":[\"Table\",{\"values\":[],\"width\":0}]}]}".toList

/-- C39 is false, seen from the editor: the new editor accepts the text, the formula is ill
formed, and the next arrow key panics (division by zero). -/
theorem C39_not : ∃ ed : Editor Unit,
    (Editor.new : Editor Unit).paste ⟨.dev, fun _ => .ok (), []⟩ badClipboard true =
      .ok (ed, true) ∧ rowWf ed.input = false ∧
    (ed.moveCaret ⟨.dev, fun _ => .ok (), []⟩ .left .char).toOption.isNone = true := by
  have key : (do
      let (ed, ok) ← (Editor.new : Editor Unit).paste ⟨.dev, fun _ => .ok (), []⟩ badClipboard true
      .ok (ok, rowWf ed.input,
        (ed.moveCaret ⟨.dev, fun _ => .ok (), []⟩ .left .char).toOption.isNone)) =
      (.ok (true, false, true) : M (Bool × Bool × Bool)) := by decide +kernel
  obtain ⟨⟨ed, ok⟩, h1, h2⟩ := M.bind_eq_ok.1 key
  simp only [Except.ok.injEq, Prod.mk.injEq] at h2
  obtain ⟨rfl, h2, h3⟩ := h2
  exact ⟨ed, h1, h2, h3⟩

end Aftermath
