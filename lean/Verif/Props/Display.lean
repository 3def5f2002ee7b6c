import Verif.Proof.DisplayTree
import Verif.Proof.TreeNames
import Verif.Props.Parse
import Verif.Props.Names

/-! # C40, C52 and C53: printed formulas, printed syntax trees, and the names in them

The vocabulary is in `Spec/Display.lean`. -/

namespace Aftermath

/-! ## C40 -/

/-- **C40.** Two rows that print the same are equal. -/
theorem C40 (a b : Row) (s : Str) (ha : rowDisplay a = .ok s) (hb : rowDisplay b = .ok s) : a = b :=
  rowDisplay_inj ha hb

/-- **C40.** A row can be printed exactly if the widths of its grids are positive. -/
theorem C40_total (row : Row) : (∃ s, rowDisplay row = .ok s) ↔ rowWidthsPos row := by
  rw [← nodesDisplay_ok]
  unfold rowDisplay
  constructor
  · rintro ⟨s, h⟩
    obtain ⟨x, hx, -⟩ := M.bind_eq_ok.1 h
    exact ⟨x, hx⟩
  · rintro ⟨x, hx⟩
    simp only [hx, M.ok_bind]
    exact ⟨_, rfl⟩

mutual
theorem Node.widthsPos_of_wf : ∀ (n : Node), n.wf = true → n.widthsPos
  | .symbol _, _ => by simp [Node.widthsPos]
  | .container v cells w, h => by
    simp only [Node.wf, Bool.and_eq_true] at h
    rw [Node.widthsPos]
    refine ⟨?_, cellsWidthsPos_of_wf cells h.2⟩
    have := h.1
    cases v <;> simp [shapeOk] at this <;> omega
theorem rowWidthsPos_of_wf : ∀ (l : List Node), rowWf l = true → rowWidthsPos l
  | [], _ => by simp [rowWidthsPos]
  | n :: ns, h => by
    simp only [rowWf, Bool.and_eq_true] at h
    rw [rowWidthsPos]
    exact ⟨Node.widthsPos_of_wf n h.1, rowWidthsPos_of_wf ns h.2⟩
theorem cellsWidthsPos_of_wf : ∀ (l : List (List Node)), cellsWf l = true → cellsWidthsPos l
  | [], _ => by simp [cellsWidthsPos]
  | n :: ns, h => by
    simp only [cellsWf, Bool.and_eq_true] at h
    rw [cellsWidthsPos]
    exact ⟨rowWidthsPos_of_wf n h.1, cellsWidthsPos_of_wf ns h.2⟩
end

/-- **C40.** Every well-formed formula can be printed, and the text determines it. -/
theorem C40_wf (a b : Row) (ha : rowWf a = true) (hb : rowWf b = true) :
    ∃ s s', rowDisplay a = .ok s ∧ rowDisplay b = .ok s' ∧ (s = s' ↔ a = b) := by
  obtain ⟨s, hs⟩ := (C40_total a).2 (rowWidthsPos_of_wf a ha)
  obtain ⟨s', hs'⟩ := (C40_total b).2 (rowWidthsPos_of_wf b hb)
  refine ⟨s, s', hs, hs', ?_, ?_⟩
  · rintro rfl; exact C40 a b s hs hs'
  · rintro rfl; rw [hs] at hs'; cases hs'; rfl

/-- A formula that imitates the printed form of another one. -/
example : (rowDisplay [.container .fraction [[.symbol ['\\', '"']], []] 1]).toOption =
      some "(row (frac 1x2 (row \"\\\\\\\"\") (row)))".toList ∧
    (rowDisplay [.symbol "\") (frac 1x2 (row)".toList]).toOption =
      some "(row \"\\\") (frac 1x2 (row)\")".toList := by
  constructor <;> decide +kernel

/-- A grid of width zero cannot be printed. -/
example : rowDisplay [.container .table [] 0] = .error .divByZero := by rfl

/-! ## C53 -/

theorem nodeNames_gives (g : Grammar) : g.GivesAll (· ∈ g.nodeNames) where
  builtIn n hn := by
    simp only [Grammar.nodeNames]
    refine List.mem_append_left _ ?_
    simp only [List.mem_cons, List.not_mem_nil, or_false] at hn ⊢
    tauto
  errors n hn := by
    simp only [Grammar.nodeNames]
    refine List.mem_append_left _ ?_
    simp only [Grammar.errorNames, List.mem_cons, List.not_mem_nil, or_false] at hn ⊢
    tauto
  rules r hr hrole := by
    refine List.mem_append_right _ (List.mem_flatMap.2 ⟨r, hr, ?_⟩)
    unfold Rule.role at hrole
    cases hk : r.kind <;> simp [hk] at hrole ⊢ <;> cases r.parser <;> simp
  brackets r hr hrole n o c hp := by
    refine List.mem_append_right _ (List.mem_flatMap.2 ⟨r, hr, ?_⟩)
    unfold Rule.role at hrole
    rcases hp with hp | hp <;> cases hk : r.kind <;> simp [hk, hp] at hrole ⊢

/-- **C53.** Every node of a syntax tree has one of the names that the rule set gives to nodes. -/
theorem C53 (g : Grammar) (row : Row) (t : SNode) (h : g.parse row = .ok t) :
    ∀ n ∈ t.names, n ∈ g.nodeNames :=
  named_parse (nodeNames_gives g) h

/-- `NameMap.Clear` as a test. -/
def clearMap (m : NameMap) : Bool :=
  (m.reverseValues.map (·.2)).Nodup &&
  m.reverseValues.all fun e => !e.2.isEmpty &&
    e.2.all fun s => s.all fun c => c != ':' && c != ' ' && c != ')'

theorem hashGet_mem {α β : Type} [DecidableEq α] {m : List (α × β)} {k : α} {v : β}
    (h : hashGet m k = some v) : (k, v) ∈ m := by
  induction m with
  | nil => cases h
  | cons e es ih =>
    obtain ⟨k', v'⟩ := e
    rw [hashGet] at h
    split at h
    · rename_i hk
      cases h; subst hk; exact List.mem_cons_self ..
    · exact List.mem_cons_of_mem _ (ih h)

theorem clear_of_clearMap {m : NameMap} (h : clearMap m = true) : m.Clear := by
  unfold clearMap at h
  simp only [Bool.and_eq_true, decide_eq_true_eq, List.all_eq_true] at h
  refine ⟨fun id p hp => ?_, fun id id' p hp hp' => ?_⟩
  · have := h.2 _ (hashGet_mem hp)
    refine ⟨by simpa using this.1, fun s hs c hc => ?_⟩
    have := this.2 s hs c hc
    simp at this
    tauto
  · have h1 := hashGet_mem hp
    have h2 := hashGet_mem hp'
    have := List.inj_on_of_nodup_map h.1 h1 h2 rfl
    cases this
    rfl

/-- The shipped rule collections, with all that is known of them: no panic while building, the
hypotheses of C48 to C52 hold, and all names of nodes are registered. -/
theorem createParser_names {x : Xid} (hx : x.Letters) :
    ∃ g m, createParser x = .ok (g, m) ∧ g.Good ∧ m.Clear ∧
      ∀ n ∈ g.nodeNames, m.getReverse n ≠ none := by
  have h : (match createParser letterXid with
      | .ok r => goodRules r.1.rules && (clearMap r.2 &&
          r.1.nodeNames.all fun n => (r.2.getReverse n).isSome)
      | .error _ => false) = true := by decide +kernel
  rw [createParser_eq hx]
  cases hc : createParser letterXid with
  | error e => rw [hc] at h; cases h
  | ok r =>
    rw [hc] at h
    simp only [Bool.and_eq_true, List.all_eq_true] at h
    refine ⟨_, _, rfl,
      good_of_goodRules (g := ⟨r.1.builtIn, r.1.modules, x.start, x.continue_⟩) h.1,
      clear_of_clearMap h.2.1, fun n hn => ?_⟩
    exact Option.isSome_iff_ne_none.1 (h.2.2 n hn)

/-- **C53** for the shipped rule collections: the name of every node of a syntax tree is
registered, so that the printed tree has no unknown names. -/
theorem C53_shipped (x : Xid) (hx : x.Letters) :
    ∃ g m, createParser x = .ok (g, m) ∧
      ∀ row t, g.parse row = .ok t → ∀ n ∈ t.names, ∃ p, m.getReverse n = some p := by
  obtain ⟨g, m, h, -, -, hn⟩ := createParser_names hx
  exact ⟨g, m, h, fun row t ht n hnt =>
    Option.ne_none_iff_exists'.1 (hn n (C53 g row t ht n hnt))⟩

/-! ## C52 -/

/-- **C52.** Two syntax trees print the same exactly if they are the same up to ranges, leaf types
and the division of leaves into symbols. -/
theorem C52 (m : NameMap) (hm : m.Clear) (t t' : SNode) (hp : Printable m t) (hp' : Printable m t')
    (s s' : Str) (h : t.display m = .ok s) (h' : t'.display m = .ok s') : s = s' ↔ SameTree t t' := by
  constructor
  · rintro rfl
    exact (display_inj hm hp hp' h h' (r := []) (r' := []) rfl).1
  · intro hs
    rw [hs.display, h'] at h
    cases h
    rfl

mutual
theorem printable_of_fills {Q : Row → SNode → Prop} {m : NameMap} {row : Row} (hw : rowWf row = true) :
    ∀ {t : SNode}, Fills Q row t → Named (fun n => m.getReverse n ≠ none) t → Printable m t
  | .leaf n _ _ _ _, _, hn => by
    rw [Printable]; exact hn n (by simp [SNode.names])
  | .newRows n lo hi ts w, h, hn => by
    simp only [Fills] at h
    obtain ⟨-, v, cells, hr, hc⟩ := h
    have hwf := rowWf_get hw hr
    simp only [Node.wf, Bool.and_eq_true] at hwf
    rw [Printable]
    refine ⟨hn n (by simp [SNode.names]), ?_, printable_of_cells hwf.2 hc fun c hc k hk => hn k ?_⟩
    · rintro rfl
      cases cells with
      | nil => have := hwf.1; cases v <;> simp [shapeOk] at this
      | cons => simp [FillsCells] at hc
    · simp only [SNode.names, List.mem_cons, mem_treesNames]
      exact .inr ⟨c, hc, hk⟩
  | .children n lo hi cs, h, hn => by
    simp only [Fills] at h
    rw [Printable]
    refine ⟨hn n (by simp [SNode.names]), printable_of_list hw h fun c hc k hk => hn k ?_⟩
    simp only [SNode.names, List.mem_cons, mem_treesNames]
    exact .inr ⟨c, hc, hk⟩
theorem printable_of_cells {Q : Row → SNode → Prop} {m : NameMap} : ∀ {cells : List Row}
    {ts : List SNode}, cellsWf cells = true → FillsCells Q cells ts →
    (∀ t ∈ ts, Named (fun n => m.getReverse n ≠ none) t) → PrintableAll m ts
  | [], [], _, _, _ => by simp [PrintableAll]
  | [], _ :: _, _, h, _ => by simp [FillsCells] at h
  | _ :: _, [], _, _, _ => by simp [PrintableAll]
  | r :: rs, t :: ts, hw, h, hn => by
    simp only [FillsCells] at h
    simp only [cellsWf, Bool.and_eq_true] at hw
    rw [PrintableAll]
    exact ⟨printable_of_fills hw.1 h.2.2.2.1 (hn t (List.mem_cons_self ..)),
      printable_of_cells hw.2 h.2.2.2.2 fun t ht => hn t (List.mem_cons_of_mem _ ht)⟩
theorem printable_of_list {Q : Row → SNode → Prop} {m : NameMap} {row : Row} (hw : rowWf row = true) :
    ∀ {cs : List SNode} {lo hi : Nat}, FillsList Q row lo hi cs →
    (∀ t ∈ cs, Named (fun n => m.getReverse n ≠ none) t) → PrintableAll m cs
  | [], _, _, _, _ => by simp [PrintableAll]
  | c :: cs, lo, hi, h, hn => by
    simp only [FillsList] at h
    rw [PrintableAll]
    exact ⟨printable_of_fills hw h.2.1 (hn c (List.mem_cons_self ..)),
      printable_of_list hw h.2.2 fun t ht => hn t (List.mem_cons_of_mem _ ht)⟩
end

mutual
theorem display_of_fills {Q : Row → SNode → Prop} {m : NameMap} {row : Row} (hw : rowWf row = true) :
    ∀ {t : SNode}, Fills Q row t → ∃ s, t.display m = .ok s
  | .leaf .., _ => by rw [SNode.display]; exact ⟨_, rfl⟩
  | .newRows n lo hi ts w, h => by
    simp only [Fills] at h
    obtain ⟨-, v, cells, hr, hc⟩ := h
    have hwf := rowWf_get hw hr
    simp only [Node.wf, Bool.and_eq_true] at hwf
    obtain ⟨s, hs⟩ := display_of_cells (m := m) hwf.2 hc
    have hw0 : w ≠ 0 := by have := hwf.1; cases v <;> simp [shapeOk] at this <;> omega
    rw [SNode.display]
    split
    · exact ⟨_, rfl⟩
    · simp only [printSize, if_neg hw0, M.ok_bind, hs]
      exact ⟨_, rfl⟩
  | .children n lo hi cs, h => by
    simp only [Fills] at h
    obtain ⟨s, hs⟩ := display_of_list (m := m) hw h
    simp only [SNode.display, hs, M.ok_bind]
    exact ⟨_, rfl⟩
theorem display_of_cells {Q : Row → SNode → Prop} {m : NameMap} : ∀ {cells : List Row}
    {ts : List SNode}, cellsWf cells = true → FillsCells Q cells ts → ∃ s, treesDisplay m ts = .ok s
  | [], [], _, _ => by simp [treesDisplay]
  | [], _ :: _, _, h => by simp [FillsCells] at h
  | _ :: _, [], _, _ => by simp [treesDisplay]
  | r :: rs, t :: ts, hw, h => by
    simp only [FillsCells] at h
    simp only [cellsWf, Bool.and_eq_true] at hw
    obtain ⟨a, ha⟩ := display_of_fills (m := m) hw.1 h.2.2.2.1
    obtain ⟨b, hb⟩ := display_of_cells (m := m) hw.2 h.2.2.2.2
    simp only [treesDisplay, ha, hb, M.ok_bind]
    exact ⟨_, rfl⟩
theorem display_of_list {Q : Row → SNode → Prop} {m : NameMap} {row : Row} (hw : rowWf row = true) :
    ∀ {cs : List SNode} {lo hi : Nat}, FillsList Q row lo hi cs → ∃ s, treesDisplay m cs = .ok s
  | [], _, _, _ => by simp [treesDisplay]
  | c :: cs, lo, hi, h => by
    simp only [FillsList] at h
    obtain ⟨a, ha⟩ := display_of_fills (m := m) hw h.2.1
    obtain ⟨b, hb⟩ := display_of_list (m := m) hw h.2.2
    simp only [treesDisplay, ha, hb, M.ok_bind]
    exact ⟨_, rfl⟩
end

/-- **C52** for the shipped rule collections. The syntax trees of two well-formed rows can be
printed. They print the same exactly if they are the same up to ranges, leaf types and the division
of leaves into symbols, and then the rows have the same text. -/
theorem C52_shipped (x : Xid) (hx : x.Letters) :
    ∃ g m, createParser x = .ok (g, m) ∧ ∀ row row', rowWf row = true → rowWf row' = true →
      ∃ t t' s s', g.parse row = .ok t ∧ g.parse row' = .ok t' ∧
        t.display m = .ok s ∧ t'.display m = .ok s' ∧ (s = s' ↔ SameTree t t') ∧
        (s = s' → rowText row = rowText row') := by
  obtain ⟨g, m, h, hg, hm, hn⟩ := createParser_names hx
  refine ⟨g, m, h, fun row row' hw hw' => ?_⟩
  obtain ⟨t, ht, hf⟩ := parse_ok hg hw
  obtain ⟨t', ht', hf'⟩ := parse_ok hg hw'
  obtain ⟨s, hs⟩ := display_of_fills (m := m) hw hf.fills
  obtain ⟨s', hs'⟩ := display_of_fills (m := m) hw' hf'.fills
  have hp := printable_of_fills (m := m) hw hf.fills fun n hnt => hn n (C53 g row t ht n hnt)
  have hp' := printable_of_fills (m := m) hw' hf'.fills fun n hnt => hn n (C53 g row' t' ht' n hnt)
  have hiff := C52 m hm t t' hp hp' s s' hs hs'
  refine ⟨t, t', s, s', ht, ht', hs, hs', hiff, fun he => ?_⟩
  rw [← C46 g hg row hw t ht, ← C46 g hg row' hw' t' ht', (hiff.1 he).text]

end Aftermath
