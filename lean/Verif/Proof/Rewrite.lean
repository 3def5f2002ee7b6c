import Verif.Proof.KeyWrite
import Verif.Proof.EraseAll
import Verif.Proof.EraseKeys

/-! # Lemmas about erasing a formula with Right and Backspace -/

namespace Aftermath

variable {S : Setting} {x : Xid}

/-- The formula and the caret. -/
def At (root : Row) (p : MinPos) (ed : Editor SNode) : Prop := ed.input = root ∧ ed.caret = .at p

/-- One press of Backspace. -/
theorem leads_backspace (hS : S.Ships x) {root root' : Row} {p p' : MinPos}
    (hwf : rowWf root = true) (hsym : [] ∉ rowSymbols root) (hp : ValidPos root p)
    (hd : deleteKey S.cfg .left (root, .at p) = .ok (root', .at p')) (hwf' : rowWf root' = true)
    (hp' : ValidPos root' p') : Leads S (At root p) (At root' p') := by
  refine Does.task hS (i := .deleteBackward) (op := .removeAtCaret .left) trivial
    (fun _ _ => rfl) ⟨fun _ _ h => h, ?_⟩
  rintro ed ⟨rfl, h2⟩
  rw [← h2] at hd
  obtain ⟨ed', b, g1, g2, g3⟩ := backspace_editor (env := S.env) Component.shipped_rules hwf
    (by rw [h2]; exact ⟨hp, hp⟩) hsym hd
  refine ⟨ed', ?_, ⟨g2, g3⟩, by rw [g2]; exact hwf', by rw [g2, g3]; exact ⟨hp', hp'⟩⟩
  simp only [Editor.step, g1, M.ok_bind]

/-- Many presses of Backspace. -/
theorem leads_backspaces (hS : S.Ships x) {root0 : Row} (hsym : [] ∉ rowSymbols root0) (k : Nat) :
    ∀ {root root' : Row} {p p' : MinPos},
      deleteKeyN S.cfg .left k (root, .at p) = .ok (root', .at p') →
      (∀ i < k, ∀ st, deleteKeyN S.cfg .left i (root, .at p) = .ok st → Tidy root0 st) →
      rowWf root' = true → ValidPos root' p' → Leads S (At root p) (At root' p') := by
  induction k with
  | zero =>
    intro root root' p p' h _ _ _
    cases h
    exact .refl fun _ h => h
  | succ k ih =>
    intro root root' p p' h ht hwf' hp'
    simp only [deleteKeyN] at h
    obtain ⟨⟨root1, m1⟩, h1, h2⟩ := M.bind_eq_ok.1 h
    obtain ⟨a1, a2, m, a3, a4⟩ := ht 0 (Nat.succ_pos _) _ rfl
    simp only at a1 a2 a3 a4
    have hm : m = p := by
      have := congrArg MinCaret.start a3
      exact this.symm
    subst hm
    have htidy : ∀ i < k, ∀ st, deleteKeyN S.cfg .left i (root1, m1) = .ok st → Tidy root0 st := by
      intro i hi st hst
      refine ht (i + 1) (by omega) st ?_
      simp only [deleteKeyN, h1, M.ok_bind]
      exact hst
    have hmid : rowWf root1 = true ∧ ∃ m2, m1 = .at m2 ∧ ValidPos root1 m2 := by
      cases k with
      | zero => cases h2; exact ⟨hwf', p', rfl, hp'⟩
      | succ k =>
        obtain ⟨b1, -, m2, b3, b4⟩ := htidy 0 (Nat.succ_pos _) _ rfl
        exact ⟨b1, m2, b3, b4⟩
    obtain ⟨b1, m2, rfl, b2⟩ := hmid
    exact (leads_backspace hS a1 (fun hs => hsym (a2 hs)) a4 h1 b1 b2).trans (ih h2 htidy hwf' hp')

/-- Right at the start of a row, where there is nothing to correct. -/
theorem leads_onward (hS : S.Ships x) {root row : Row} (hwf : rowWf root = true) {q : RowIndices}
    (hrow : rowAt root q = some row) {p' : MinPos} (hs : Step root ⟨q, 0⟩ p')
    (hp' : ValidPos root p') : Leads S (At root ⟨q, 0⟩) (At root p') := by
  refine Does.arrow hS (d := .right) ⟨fun _ _ h => h, ?_⟩
  rintro ed ⟨rfl, h2⟩
  have he := startAutocorrect_text (S := S) hwf h2 hrow (textLeft_zero row)
    (suggested_short (by decide))
  have hp := press_right_step hwf S.cfg ⟨row, hrow, Nat.zero_le _⟩ hs
  refine ⟨{ ed with currentAutocomplete := none, caret := .at p' }, ?_, ⟨rfl, rfl⟩, hwf, hp', hp'⟩
  simp only [press] at hp
  obtain ⟨c, hc, hp1⟩ := M.bind_eq_ok.1 hp
  obtain ⟨c', hc', hp2⟩ := M.bind_eq_ok.1 hp1
  have hp2 := Except.ok.inj hp2
  rw [← h2] at hc
  have hc'' : moveCaret S.env.cfg ed.input c .right .char = .ok c' := hc'
  simp only [Editor.step, Editor.moveCaret, he, M.ok_bind, hc, hc'', finishNone, hp2]

/-- There are keys that replace a row, with the caret somewhere in it, by another one. -/
def Goes (S : Setting) (row : Row) (p : MinPos) (row' : Row) (p' : MinPos) : Prop :=
  ∀ root q, rowWf root = true → [] ∉ rowSymbols root → rowAt root q = some row →
    ∃ root', ReplacedAt root q row row' root' ∧ rowWf root' = true ∧ [] ∉ rowSymbols root' ∧
      Leads S (At root ⟨q ++ p.rowIndices, p.offset⟩) (At root' ⟨q ++ p'.rowIndices, p'.offset⟩)

theorem Goes.refl (row : Row) (p : MinPos) : Goes S row p row p :=
  fun root _ hwf hsym hrow => ⟨root, .refl hrow, hwf, hsym, .refl fun _ h => h⟩

theorem Goes.trans {a b c : Row} {p1 p2 p3 : MinPos} (h : Goes S a p1 b p2)
    (h' : Goes S b p2 c p3) : Goes S a p1 c p3 := by
  intro root q hwf hsym hrow
  obtain ⟨root1, h1, h2, h3, h4⟩ := h root q hwf hsym hrow
  obtain ⟨root2, g1, g2, g3, g4⟩ := h' root1 q h2 h3 h1.rowAt_new
  exact ⟨root2, h1.trans g1, g2, g3, h4.trans g4⟩

theorem Goes.inCell {row c c' : Row} {i j : Nat} {v : Variant} {cells : List Row} {w : Nat}
    {p p' : MinPos} (h : Goes S c p c' p') (hi : row[i]? = some (.container v cells w))
    (hj : cells[j]? = some c) :
    Goes S row (p.under (i, j)) (row.set i (.container v (cells.set j c') w)) (p'.under (i, j)) := by
  intro root q hwf hsym hrow
  have hc : rowAt root (q ++ [(i, j)]) = some c := by
    rw [rowAt_append, hrow]
    exact rowAt_cons.2 ⟨v, cells, w, c, hi, hj, rfl⟩
  obtain ⟨root1, h1, h2, h3, h4⟩ := h root _ hwf hsym hc
  refine ⟨root1, h1.lift hrow hi, h2, h3, ?_⟩
  simpa [MinPos.under] using h4

theorem Goes.step (hS : S.Ships x) {row : Row} {q' : RowIndices} {c : Row}
    (hc : rowAt row q' = some c) {p' : MinPos} (hs : Step row ⟨q', 0⟩ p')
    (hp' : ValidPos row p') : Goes S row ⟨q', 0⟩ row p' := by
  intro root q hwf hsym hrow
  refine ⟨root, .refl hrow, hwf, hsym, ?_⟩
  refine leads_onward hS (row := c) hwf (by rw [rowAt_append, hrow]; exact hc) (Step.at hrow hs) ?_
  obtain ⟨r, h1, h2⟩ := hp'
  exact ⟨r, by rw [rowAt_append, hrow]; exact h1, h2⟩

theorem Goes.presses (hS : S.Ships x) {row row' : Row} {p p' : MinPos} {k : Nat}
    (h : Presses S.cfg .left k row p row' p') (hp' : ValidPos row' p') : Goes S row p row' p' := by
  intro root q hwf hsym hrow
  obtain ⟨root', h1, h2, h3, h4, h5⟩ := h root q hwf hrow
  have hwf' := h2.wf hwf h3
  refine ⟨root', h2, hwf', fun hs => hsym (h2.symbols_subset h4 hs), ?_⟩
  refine leads_backspaces hS hsym k h1 h5 hwf' ?_
  obtain ⟨r, g1, g2⟩ := hp'
  exact ⟨r, by rw [rowAt_append, h2.rowAt_new]; exact g1, g2⟩

/-- A row can be erased from its start. -/
def Cleared (S : Setting) (y : Row) : Prop :=
  rowWf y = true → ∀ rest, Goes S (y ++ rest) ⟨[], 0⟩ rest ⟨[], 0⟩

theorem Cleared.append {y z : Row} (hy : Cleared S y) (hz : Cleared S z) : Cleared S (y ++ z) := by
  intro hwf rest
  rw [rowWf_append, Bool.and_eq_true] at hwf
  rw [List.append_assoc]
  exact (hy hwf.1 (z ++ rest)).trans (hz hwf.2 rest)

/-- What the caret is behind is erased with Backspace. -/
theorem Goes.eraseFirst (hS : S.Ships x) {n : Node} (hn : rowWf [n] = true) (rest : Row) :
    Goes S (n :: rest) ⟨[], 1⟩ rest ⟨[], 0⟩ := by
  have h := erased_row (cfg := S.cfg) (dir := .left) [n] hn [] rest
  exact Goes.presses hS h ⟨rest, rfl, Nat.zero_le _⟩

theorem Goes.cells (hS : S.Ships x) {v : Variant} {w : Nat} {rest : Row} : ∀ {cs pre : List Row}
    {c : Row}, (∀ d ∈ c :: cs, Cleared S d ∧ rowWf d = true) →
    Goes S (.container v (pre ++ c :: cs) w :: rest) ⟨[(0, pre.length)], 0⟩
      (.container v (pre ++ (c :: cs).map fun _ => []) w :: rest)
      ⟨[(0, pre.length + cs.length)], 0⟩ := by
  intro cs
  induction cs with
  | nil =>
    intro pre c h
    obtain ⟨h1, h2⟩ := h c (List.mem_cons_self ..)
    have := (h1 h2 []).inCell (row := .container v (pre ++ [c]) w :: rest) (i := 0) (j := pre.length)
      rfl (by simp)
    simpa [MinPos.under] using this
  | cons d cs ih =>
    intro pre c h
    obtain ⟨h1, h2⟩ := h c (List.mem_cons_self ..)
    have g1 := (h1 h2 []).inCell (row := .container v (pre ++ c :: d :: cs) w :: rest) (i := 0)
      (j := pre.length) rfl (by simp)
    have g2 := Goes.step hS (row := .container v (pre ++ [] :: d :: cs) w :: rest)
      (q' := [(0, pre.length)]) (c := []) (p' := ⟨[(0, pre.length + 1)], 0⟩)
      (rowAt_cons.2 ⟨v, _, w, [], rfl, by simp, rfl⟩)
      (Step.next (i := 0) (j := pre.length) (c := []) (c' := d) rfl (by simp)
        (by rw [List.getElem?_append_right (by omega)]; simp))
      ⟨d, rowAt_cons.2 ⟨v, _, w, d, rfl, by rw [List.getElem?_append_right (by omega)]; simp, rfl⟩,
        Nat.zero_le _⟩
    have g3 := ih (pre := pre ++ [[]]) (c := d) fun e he => h e (List.mem_cons_of_mem _ he)
    have g1' : Goes S (.container v (pre ++ c :: d :: cs) w :: rest) ⟨[(0, pre.length)], 0⟩
        (.container v (pre ++ [] :: d :: cs) w :: rest) ⟨[(0, pre.length)], 0⟩ := by
      simpa [MinPos.under] using g1
    have e : pre.length + 1 + cs.length = pre.length + (d :: cs).length := by
      rw [List.length_cons]; omega
    have g3' : Goes S (.container v (pre ++ [] :: d :: cs) w :: rest) ⟨[(0, pre.length + 1)], 0⟩
        (.container v (pre ++ (c :: d :: cs).map fun _ => []) w :: rest)
        ⟨[(0, pre.length + (d :: cs).length)], 0⟩ := by
      rw [← e]
      simpa using g3
    exact g1'.trans (g2.trans g3')

theorem emptied_wf {v : Variant} {cells : List Row} {w : Nat}
    (h : rowWf [.container v cells w] = true) :
    rowWf [.container v (cells.map fun _ => []) w] = true := by
  simp only [rowWf, Bool.and_true] at h ⊢
  have h := wf_container.1 h
  refine wf_container.2 ⟨by simpa using h.1, ?_⟩
  intro c hc
  obtain ⟨_, -, rfl⟩ := List.mem_map.1 hc
  rfl

theorem Cleared.container (hS : S.Ships x) {v : Variant} {cells : List Row} {w : Nat}
    (h : ∀ c ∈ cells, Cleared S c) : Cleared S [.container v cells w] := by
  intro hwf rest
  have hn : rowWf [.container v cells w] = true := hwf
  simp only [rowWf, Bool.and_true] at hn
  have hn := wf_container.1 hn
  cases cells with
  | nil =>
    have := (shapeOk_pos hn.1).2
    simp at this
  | cons c cs =>
    have g1 : Goes S (.container v (c :: cs) w :: rest) ⟨[], 0⟩ (.container v (c :: cs) w :: rest)
        ⟨[(0, 0)], 0⟩ :=
      Goes.step hS (c := .container v (c :: cs) w :: rest) rfl (Step.enter (o := 0) rfl)
        ⟨c, rowAt_cons.2 ⟨v, _, w, c, rfl, rfl, rfl⟩, Nat.zero_le _⟩
    have g2 := Goes.cells hS (v := v) (w := w) (rest := rest) (pre := []) (cs := cs) (c := c)
      (fun d hd => ⟨h d hd, hn.2 d hd⟩)
    simp only [List.nil_append, List.length_nil, Nat.zero_add] at g2
    have hget : ((c :: cs).map fun _ => ([] : Row))[cs.length]? = some [] := by
      rw [List.getElem?_map, List.getElem?_eq_getElem (by simp)]
      rfl
    have g3 : Goes S (.container v ((c :: cs).map fun _ => []) w :: rest) ⟨[(0, cs.length)], 0⟩
        (.container v ((c :: cs).map fun _ => []) w :: rest) ⟨[], 1⟩ :=
      Goes.step hS (c := []) (rowAt_cons.2 ⟨v, _, w, [], rfl, hget, rfl⟩)
        (Step.leave (i := 0) (c := []) rfl hget (by simp)) ⟨_, rfl, by simp⟩
    exact g1.trans (g2.trans (g3.trans (Goes.eraseFirst hS (emptied_wf hwf) rest)))

mutual

theorem cleared_node (hS : S.Ships x) : ∀ n : Node, Cleared S [n]
  | .symbol s => fun hwf rest =>
    (Goes.step hS (row := .symbol s :: rest) (q' := []) (c := .symbol s :: rest)
      (p' := ⟨[], 1⟩) rfl (Step.sym (o := 0) rfl) ⟨_, rfl, by simp⟩).trans
      (Goes.eraseFirst hS hwf rest)
  | .container _ cells _ => Cleared.container hS (cleared_cells hS cells)

theorem cleared_row (hS : S.Ships x) : ∀ y : Row, Cleared S y
  | [] => fun _ rest => Goes.refl rest _
  | n :: ns => Cleared.append (y := [n]) (cleared_node hS n) (cleared_row hS ns)

theorem cleared_cells (hS : S.Ships x) : ∀ cells : List Row, ∀ c ∈ cells, Cleared S c
  | [], _, h => nomatch h
  | c :: cs, d, h => (List.mem_cons.1 h).elim (fun e => e ▸ cleared_row hS c) (cleared_cells hS cs d)

end

/-- From anywhere, Backspace and then Right and Backspace empty the formula. -/
theorem leads_empty (hS : S.Ships x) (hrel : S.cfg.checks = false) {root : Row}
    (hwf : rowWf root = true) (hfit : rowFits S.cfg.bits root = true) (hsym : [] ∉ rowSymbols root)
    {m : MinPos} (hm : ValidPos root m) : Leads S (At root m) (At [] ⟨[], 0⟩) := by
  obtain ⟨k, row', h1, -⟩ := Clears.any (cfg := S.cfg) (dir := .left) hwf (fun _ => ⟨hrel, hfit⟩) hm
  obtain ⟨root', g1, g2, g3, g4⟩ := Goes.presses hS h1 ⟨row', rfl, Nat.zero_le _⟩ root [] hwf hsym rfl
  have e := g1.rowAt_new
  simp only [rowAt, Option.some.injEq] at e
  subst e
  obtain ⟨root2, f1, -, -, f4⟩ := cleared_row hS root' g2 [] root' [] g2 g3 (by simp [rowAt])
  have e := f1.rowAt_new
  simp only [rowAt, Option.some.injEq] at e
  subst e
  have : exitEnd .left root' = 0 := rfl
  simp only [this] at g4
  exact g4.trans f4

end Aftermath
