import Verif.Proof.Notation

/-! # What is read without errors is written in the usual notation -/

namespace Aftermath

variable {x : Xid} {g : Grammar} {m : NameMap}

/-! ## Parts of rows -/

/-- The part of the row from `pos` to `p` is `w`. -/
structure Cut (row : Row) (pos : Nat) (w : Row) (p : Nat) : Prop where
  eq : row.drop pos = w ++ row.drop p
  len : p = pos + w.length

theorem Cut.of_prefix {row w : Row} {pos : Nat} (h : w <+: row.drop pos) :
    Cut row pos w (pos + w.length) := by
  obtain ⟨rest, hr⟩ := h
  exact ⟨by rw [drop_append hr.symm, hr], rfl⟩

theorem Cut.nil (row : Row) (pos : Nat) : Cut row pos [] pos := ⟨rfl, rfl⟩

theorem Cut.append {row w w' : Row} {pos p q : Nat} (h : Cut row pos w p) (h' : Cut row p w' q) :
    Cut row pos (w ++ w') q :=
  ⟨by rw [h.eq, h'.eq, List.append_assoc], by rw [h'.len, h.len, List.length_append, Nat.add_assoc]⟩

theorem Cut.one {row : Row} {pos : Nat} {n : Node} (h : row[pos]? = some n) :
    Cut row pos [n] (pos + 1) := by
  refine ⟨?_, rfl⟩
  obtain ⟨hl, hn⟩ := List.getElem?_eq_some_iff.1 h
  rw [List.drop_eq_getElem_cons hl, hn]
  rfl

theorem Cut.prefix {row w : Row} {pos p : Nat} (h : Cut row pos w p) : w <+: row.drop pos :=
  ⟨_, h.eq.symm⟩

/-! ## Single characters -/

/-- Every symbol of the row is a single character. -/
def Plain (row : Row) : Prop := ∀ s, Node.symbol s ∈ row → ∃ c, s = [c]

theorem PlainRow.here {row : Row} (h : PlainRow row) : Plain row := fun s hs => h [] row s rfl hs

theorem PlainRow.cell {row : Row} (h : PlainRow row) {i w : Nat} {v : Variant} {cells : List Row}
    (hi : row[i]? = some (Node.container v cells w)) {c : Row} (hc : c ∈ cells) : PlainRow c := by
  intro p r s hp hs
  obtain ⟨j, hj⟩ := List.mem_iff_getElem?.1 hc
  exact h ((i, j) :: p) r s (by rw [rowAt, hi]; simp only [hj, hp]) hs

theorem Plain.drop {row : Row} (h : Plain row) (n : Nat) : Plain (row.drop n) :=
  fun s hs => h s (List.mem_of_mem_drop hs)

theorem Plain.tail {n : Node} {row : Row} (h : Plain (n :: row)) : Plain row :=
  fun s hs => h s (List.mem_cons_of_mem _ hs)

theorem symRun_plain {f : Str → Bool} : ∀ {l : Row}, Plain l →
    ∃ s : List Char, symRun f l = s.map (fun c => [c]) ∧ s.map sy <+: l ∧ ∀ c ∈ s, f [c] = true
  | [], _ => ⟨[], rfl, List.nil_prefix, nofun⟩
  | .container _ _ _ :: _, _ => ⟨[], rfl, List.nil_prefix, nofun⟩
  | .symbol t :: rest, h => by
    obtain ⟨c, rfl⟩ := h t (List.mem_cons_self ..)
    rw [symRun]
    cases hf : f [c] with
    | false => exact ⟨[], rfl, List.nil_prefix, nofun⟩
    | true =>
      obtain ⟨s, h1, h2, h3⟩ := symRun_plain (f := f) h.tail
      refine ⟨c :: s, by rw [h1]; rfl, ?_, List.forall_mem_cons.2 ⟨hf, h3⟩⟩
      rw [List.map_cons, sy, List.cons_prefix_cons]
      exact ⟨rfl, h2⟩

theorem stringBody_plain : ∀ (n : Nat) {l : Row}, l.length ≤ n → Plain l →
    ∃ s t : List Char, Escapes s t ∧ stringBody l = t.map (fun c => [c]) ∧ t.map sy <+: l
  | _, [], _, _ => ⟨[], [], .nil, by rw [stringBody]; rfl; nofun, List.nil_prefix⟩
  | _, .container _ _ _ :: _, _, _ => ⟨[], [], .nil, by rw [stringBody]; rfl; nofun, List.nil_prefix⟩
  | n, .symbol a :: rest, hn, h => by
    obtain ⟨c, rfl⟩ := h a (List.mem_cons_self ..)
    rw [stringBody_cons]
    by_cases h1 : c = '\\'
    · subst h1
      rw [if_pos (by decide)]
      rcases rest with _ | ⟨b | _, rest⟩
      · exact ⟨[], [], .nil, rfl, List.nil_prefix⟩
      · obtain ⟨d, rfl⟩ := h.tail b (List.mem_cons_self ..)
        match n, hn with
        | n + 1, hn =>
          obtain ⟨s, t, h2, h3, h4⟩ := stringBody_plain n (l := rest)
            (by simp only [List.length_cons] at hn; omega) h.tail.tail
          refine ⟨d :: s, '\\' :: d :: t, .escaped h2, by simp only [h3]; rfl, ?_⟩
          rw [List.map_cons, List.map_cons, sy, sy, List.cons_prefix_cons, List.cons_prefix_cons]
          exact ⟨rfl, rfl, h4⟩
      · exact ⟨[], [], .nil, rfl, List.nil_prefix⟩
    · rw [if_neg (by simpa using h1)]
      by_cases h2 : c = '"'
      · rw [if_pos (by simpa using h2)]
        exact ⟨[], [], .nil, rfl, List.nil_prefix⟩
      · rw [if_neg (by simpa using h2)]
        match n, hn with
        | n + 1, hn =>
          obtain ⟨s, t, h3, h4, h5⟩ := stringBody_plain n (l := rest)
            (by simp only [List.length_cons] at hn; omega) h.tail
          refine ⟨c :: s, c :: t, .plain h2 h1 h3, by simp only [h4]; rfl, ?_⟩
          rw [List.map_cons, sy, List.cons_prefix_cons]
          exact ⟨rfl, h5⟩

/-! ## Tokens -/

theorem selectSym_some {f : Str → Bool} {row : Row} {pos p : Nat} {s : Str}
    (h : selectSym f row pos = some (s, p)) :
    row[pos]? = some (.symbol s) ∧ f s = true ∧ p = pos + 1 := by
  unfold selectSym at h
  split at h
  · rename_i t ht
    split at h
    · rename_i hf
      cases h
      exact ⟨ht, hf, rfl⟩
    · cases h
  · cases h

theorem parseSpaces_cut {row : Row} {pos p : Nat} {o : Option SNode}
    (h : parseSpaces g row pos = .ok (o, p)) :
    ∃ i, Cut row pos (sp i) p ∧ i = leadingSpaces (row.drop pos) := by
  obtain rfl := parseSpaces_pos h
  refine ⟨_, ?_, rfl⟩
  have key : ∀ l : Row, sp (leadingSpaces l) <+: l := by
    intro l
    induction l with
    | nil => exact List.nil_prefix
    | cons n l ih =>
      rw [leadingSpaces.eq_def]
      split
      · rename_i heq
        cases heq
        rw [sp_succ, sy, List.cons_prefix_cons]
        exact ⟨rfl, ih⟩
      · exact List.nil_prefix
  have := Cut.of_prefix (key (row.drop pos))
  rwa [sp_length] at this

theorem ruleParse_inv {call : Rec} {r : Rule} {row : Row} {pos p : Nat} {t : SNode}
    (h : ruleParse call g r row pos = .ok (some (t, p))) :
    ∃ i c p2 k p3 node, Cut row pos (sp i) (pos + i) ∧ i = leadingSpaces (row.drop pos) ∧
      tokenParse call g r.parser row (pos + i) = .ok (some (c, p2)) ∧ Cut row p2 (sp k) p3 ∧
      (r.kind.takesScripts = false → p = p3) ∧
      (r.kind.takesScripts = true →
        parseScripts call g row (row.length + 1) node p3 = .ok (t, p)) := by
  unfold ruleParse at h
  obtain ⟨⟨before, p1⟩, h1, h⟩ := M.bind_eq_ok.1 h
  obtain ⟨i, hi, hi'⟩ := parseSpaces_cut h1
  have hp1 : p1 = pos + i := by rw [hi.len, sp_length]
  subst hp1
  obtain ⟨o, h2, h⟩ := M.bind_eq_ok.1 h
  cases o with
  | none => cases h
  | some cp =>
    obtain ⟨c, p2⟩ := cp
    obtain ⟨node, h3, h⟩ := M.bind_eq_ok.1 h
    obtain ⟨⟨after, p3⟩, h4, h⟩ := M.bind_eq_ok.1 h
    obtain ⟨node', h5, h⟩ := M.bind_eq_ok.1 h
    obtain ⟨k, hk, -⟩ := parseSpaces_cut h4
    refine ⟨i, c, p2, k, p3, node', hi, hi', h2, hk, fun hs => ?_, fun hs => ?_⟩
    · simp only [hs, Bool.false_eq_true, if_false] at h
      cases h
      rfl
    · simp only [hs, if_true] at h
      obtain ⟨res, h6, h⟩ := M.bind_eq_ok.1 h
      cases h
      exact h6

theorem ruleFails_symbols {r : Rule} {row : Row} {pos : Nat} (h : RuleFails g r row pos)
    {ss : List Str} {ty : LeafType} (hr : r.parser = .symbols ss ty) :
    ¬ ss.map Node.symbol <+: row.drop (pos + leadingSpaces (row.drop pos)) := by
  intro hp
  obtain ⟨f, h⟩ := h
  unfold ruleParse at h
  obtain ⟨⟨before, p1⟩, h1, h⟩ := M.bind_eq_ok.1 h
  obtain rfl := parseSpaces_pos h1
  have ht : tokenParse (pratt g f) g r.parser row (pos + leadingSpaces (row.drop pos)) =
      .ok (some (.leaf ty [ss.flatten], pos + leadingSpaces (row.drop pos) + ss.length)) := by
    rw [hr]
    simp only [tokenParse, justSymbols, List.isPrefixOf_iff_prefix.2 hp, if_true, Option.map_some]
  simp only [ht, M.ok_bind, leaf_new] at h
  obtain ⟨⟨after, p3⟩, h4, h⟩ := M.bind_eq_ok.1 h
  obtain ⟨node', h5, h⟩ := M.bind_eq_ok.1 h
  simp only at h
  split at h
  · obtain ⟨res, -, h⟩ := M.bind_eq_ok.1 h
    cases h
  · cases h

theorem symbols_inv {call : Rec} {ss : List Str} {ty : LeafType} {row : Row} {pos p : Nat}
    {c : SChildren} (h : tokenParse call g (.symbols ss ty) row pos = .ok (some (c, p))) :
    Cut row pos (ss.map Node.symbol) p := by
  simp only [tokenParse, justSymbols] at h
  split at h
  · rename_i hp
    cases h
    have := Cut.of_prefix (List.isPrefixOf_iff_prefix.1 hp)
    rwa [List.length_map] at this
  · cases h

theorem container_inv {call : Rec} {v : Variant} {row : Row} {pos p : Nat} {c : SChildren}
    (h : parseContainer call v row pos = .ok (some (c, p))) :
    ∃ cells w, row[pos]? = some (Node.container v cells w) ∧ p = pos + 1 := by
  unfold parseContainer at h
  split at h
  · rename_i v' cells w hv
    split at h
    · rename_i he
      subst he
      obtain ⟨ts, -, h⟩ := M.bind_eq_ok.1 h
      obtain ⟨gr, -, h⟩ := M.bind_eq_ok.1 h
      cases h
      exact ⟨cells, w, hv, rfl⟩
    · cases h
  · cases h

theorem eq_of_beq_sym {o s : Str} (h : (s == o) = true) : s = o := by simpa using h

theorem brackets_inv {call : Rec} {n : Nat} {o cl : Str} {row : Row} {pos p : Nat} {c : SChildren}
    (h : parseBrackets call n o cl row pos = .ok (some (c, p))) :
    ∃ child q, row[pos]? = some (.symbol o) ∧
      call row (pos + 1) (0, .weak) (.sym cl) = .ok (child, q) ∧
      row[q]? = some (.symbol cl) ∧ p = q + 1 := by
  unfold parseBrackets at h
  split at h
  · cases h
  · rename_i l p1 hl
    obtain ⟨h1, h2, rfl⟩ := selectSym_some hl
    obtain rfl := eq_of_beq_sym h2
    obtain ⟨⟨child, q⟩, h3, k⟩ := M.bind_eq_ok.1 h
    clear h
    dsimp only at k
    cases hr : selectSym (· == cl) row q with
    | none => rw [hr] at k; cases k
    | some rp =>
      obtain ⟨r, p3⟩ := rp
      rw [hr] at k
      obtain ⟨_, -, k⟩ := M.bind_eq_ok.1 k
      obtain ⟨_, -, k⟩ := M.bind_eq_ok.1 k
      cases k
      obtain ⟨h4, h5, rfl⟩ := selectSym_some hr
      obtain rfl := eq_of_beq_sym h5
      exact ⟨child, q, h1, h3, h4, rfl⟩

theorem emptyBrackets_inv {n : Nat} {o cl : Str} {row : Row} {pos p : Nat} {c : SChildren}
    (h : parseEmptyBrackets n o cl row pos = .ok (some (c, p))) :
    row[pos]? = some (.symbol o) ∧ row[pos + 1]? = some (.symbol cl) ∧ p = pos + 2 := by
  unfold parseEmptyBrackets at h
  split at h
  · cases h
  · rename_i l p1 hl
    obtain ⟨h1, h2, rfl⟩ := selectSym_some hl
    obtain rfl := eq_of_beq_sym h2
    split at h
    · cases h
    · rename_i r p3 hr
      obtain ⟨h4, h5, rfl⟩ := selectSym_some hr
      obtain rfl := eq_of_beq_sym h5
      obtain ⟨_, -, h⟩ := M.bind_eq_ok.1 h
      obtain ⟨_, -, h⟩ := M.bind_eq_ok.1 h
      cases h
      exact ⟨h1, h4, rfl⟩

/-! ## Operands -/

/-- What is known about the cells of the containers in the row. -/
def CellsWritten (x : Xid) (row : Row) : Prop :=
  ∀ (i : Nat) v cells w, row[i]? = some (Node.container v cells w) → ∀ c ∈ cells,
    ∃ e : Formula, e.Writes x 0 0 c

/-- What is known about the expression after an opening bracket. -/
def InnerWritten (x : Xid) (g : Grammar) (row : Row) (pos : Nat) (e : Ending) : Prop :=
  pos ≤ row.length → ∃ (f : Formula) (w : Row) (q F : Nat) (res : PResult), Cut row pos w q ∧
    f.Writes x 0 0 w ∧ pratt g F row pos (0, .weak) e = .ok (res, q)

theorem writes_before {e : Formula} {l r : Nat} {w : Row} (h : e.Writes x l r w) : ∀ i,
    e.Writes x l r (sp i ++ w)
  | 0 => h
  | i + 1 => .before (writes_before h i)

theorem writes_after {e : Formula} {l r : Nat} {w : Row} (h : e.Writes x l r w) : ∀ k,
    e.Writes x l r (w ++ sp k)
  | 0 => by simpa [sp] using h
  | k + 1 => by
    have := Formula.Writes.after (writes_after h k)
    rwa [List.append_assoc, show sp k ++ [sy ' '] = sp (k + 1) from (sp_add k 1).symm] at this

theorem chosen_split {role : Role} {row : Row} {pos p : Nat} {t : SNode} {r : Rule} (hg : g.Good)
    (hw : rowWf row = true) (hp : pos ≤ row.length) (h : Chosen g role row pos t r p) :
    t.lo = pos ∧ p ≤ row.length ∧ ∃ F a b, g.ofRole role = a ++ r :: b ∧
      (∀ r' ∈ a, ruleParse (pratt g F) g r' row pos = .ok none) ∧
      ruleParse (pratt g F) g r row pos = .ok (some (t, p)) := by
  have hd : Deep g row pos (restWeight row pos) := ⟨hg, hw, hp, Nat.le_refl _⟩
  obtain ⟨hf, -⟩ := h.fills hd
  have := parseIter_some.1 (h.at hd)
  exact ⟨hf.lo_eq, hf.le.2, _, this⟩

theorem shape_two {cells : List Row} (h : cells.length = 2) :
    ∃ a b, cells = [a, b] := by
  rcases cells with _ | ⟨a, _ | ⟨b, _ | _⟩⟩ <;> simp at h
  exact ⟨a, b, rfl⟩

theorem isDigits_one {c : Char} (h : isDigits [c] = true) : c.isDigit = true := by
  simpa [isDigits, Char.isDigit, Char.le_def] using h

theorem numberDigits_inv {row : Row} (hpl : Plain row) {pos p : Nat} {ss : List Str}
    (h : numberDigits row pos = some (ss, p)) :
    ∃ s, IsDigits s ∧ Cut row pos (s.map sy) p := by
  unfold numberDigits at h
  obtain ⟨s, h1, h2, h3⟩ := symRun_plain (f := isDigits) (hpl.drop pos)
  simp only [h1] at h
  split at h
  · cases h
  · rename_i he
    cases h
    refine ⟨s, ⟨by rintro rfl; exact he rfl, fun c hc => isDigits_one (h3 c hc)⟩, ?_⟩
    have := Cut.of_prefix h2
    rwa [List.length_map] at this ⊢

theorem parseNumber_inv {row : Row} (hpl : Plain row) {pos p : Nat} {c : SChildren}
    (h : parseNumber row pos = some (c, p)) : ∃ s, IsNumber s ∧ Cut row pos (s.map sy) p := by
  unfold parseNumber at h
  obtain ⟨⟨a, p1⟩, h1, h⟩ := Option.bind_eq_some_iff.1 h
  obtain ⟨s, hs, hc⟩ := numberDigits_inv hpl h1
  simp only at h
  cases hf : parseFractional row p1 with
  | none =>
    rw [hf] at h
    cases h
    exact ⟨s, .whole hs, hc⟩
  | some dp =>
    obtain ⟨d, p2⟩ := dp
    rw [hf] at h
    cases h
    unfold parseFractional at hf
    obtain ⟨⟨dot, p3⟩, h3, hf⟩ := Option.bind_eq_some_iff.1 hf
    obtain ⟨⟨e, p4⟩, h4, hf⟩ := Option.bind_eq_some_iff.1 hf
    cases hf
    obtain ⟨k1, k2, rfl⟩ := selectSym_some h3
    obtain rfl := eq_of_beq_sym k2
    obtain ⟨u, hu, hcu⟩ := numberDigits_inv hpl h4
    refine ⟨s ++ '.' :: u, .decimal hs hu, ?_⟩
    rw [List.map_append, List.map_cons]
    exact hc.append ((Cut.one k1).append hcu)

theorem atom_token (S : Std x g m) {row : Row} (hpl : Plain row) (hw : rowWf row = true)
    (hcells : CellsWritten x row) {F pos p : Nat} {r : Rule} {c : SChildren}
    (hr : r ∈ shippedAtoms)
    (hb : ∀ n o c, r.parser = .brackets n o c → InnerWritten x g row (pos + 1) (.sym c))
    (hlim : ¬ [['l'], ['i'], ['m']].map Node.symbol <+: row.drop pos)
    (h : tokenParse (pratt g F) g r.parser row pos = .ok (some (c, p))) :
    ∃ (e : Formula) (w : Row), Cut row pos w p ∧ ∀ l r, e.Writes x l r w := by
  simp only [shippedAtoms, List.mem_cons, List.not_mem_nil, or_false] at hr
  rcases hr with rfl | rfl | rfl | rfl | rfl | rfl | rfl | rfl | rfl | rfl | rfl
  · -- string
    simp only [tokenParse, parseString, Except.ok.injEq] at h
    obtain ⟨⟨a, p1⟩, h1, h⟩ := Option.bind_eq_some_iff.1 h
    obtain ⟨⟨b, p2⟩, h2, h⟩ := Option.bind_eq_some_iff.1 h
    cases h
    obtain ⟨k1, k2, rfl⟩ := selectSym_some h1
    obtain rfl := eq_of_beq_sym k2
    obtain ⟨s, t, h3, h4, h5⟩ := stringBody_plain _ (Nat.le_refl _) (hpl.drop (pos + 1))
    obtain ⟨k3, k4, rfl⟩ := selectSym_some h2
    obtain rfl := eq_of_beq_sym k4
    have h6 := Cut.of_prefix h5
    rw [h4, List.length_map] at k3 ⊢
    rw [List.length_map] at h6
    exact ⟨.string s, _, (Cut.one k1).append (h6.append (Cut.one k3)), fun l r => .string h3⟩
  · exact ⟨.constant .false, _, symbols_inv h, fun l r => .constant⟩
  · exact ⟨.constant .true, _, symbols_inv h, fun l r => .constant⟩
  · exact ⟨.constant .infinity, _, symbols_inv h, fun l r => .constant⟩
  · simp only [tokenParse, Except.ok.injEq] at h
    obtain ⟨s, h1, h2⟩ := parseNumber_inv hpl h
    exact ⟨.number s, _, h2, fun l r => .number h1⟩
  · obtain ⟨h1, h2, rfl⟩ := emptyBrackets_inv h
    exact ⟨.unit, _, (Cut.one h1).append (Cut.one h2), fun l r => .unit⟩
  · obtain ⟨child, q, h1, h2, h3, rfl⟩ := brackets_inv h
    obtain ⟨f, w, q', F', res, h4, h5, h6⟩ := hb _ _ _ rfl (List.getElem?_eq_some_iff.1 h1).1
    cases pratt_unique h2 h6
    exact ⟨f, _, (Cut.one h1).append (h4.append (Cut.one h3)), fun l r => .brackets h5⟩
  · simp only [tokenParse, parseVariable, Except.ok.injEq] at h
    obtain ⟨⟨a, p1⟩, h1, h⟩ := Option.bind_eq_some_iff.1 h
    cases h
    obtain ⟨k1, k2, rfl⟩ := selectSym_some h1
    obtain ⟨d, rfl⟩ := hpl a (List.mem_of_getElem? k1)
    obtain ⟨s, h3, h4, h5⟩ := symRun_plain (f := isIdentifierContinue g) (hpl.drop (pos + 1))
    have h6 := Cut.of_prefix h4
    rw [List.length_map] at h6
    rw [h3, List.length_map]
    have hcut := (Cut.one k1).append h6
    refine ⟨.variable (d :: s), _, hcut, fun l r => .variable ⟨d, s, rfl, ?_, ?_, ?_⟩⟩
    · simpa [isIdentifierStart, S.start] using k2
    · intro e he
      simpa [isIdentifierContinue, S.continue_] using h5 e he
    · intro hl
      refine hlim (List.IsPrefix.trans ?_ hcut.prefix)
      have := hl.map sy
      rw [map_sy] at this
      exact this
  · obtain ⟨cells, w, h1, rfl⟩ := container_inv h
    have hs := rowWf_get hw h1
    simp only [Node.wf, shapeOk, Bool.and_eq_true, decide_eq_true_eq, beq_iff_eq] at hs
    have key : ∀ j : Fin cells.length, ∃ e : Formula, e.Writes x 0 0 cells[j] := fun j =>
      hcells _ _ _ _ h1 _ (List.getElem_mem ..)
    obtain ⟨es, hes⟩ := Classical.axiomOfChoice key
    refine ⟨.table w cells.length es, _, Cut.one h1, fun l r => ?_⟩
    have := Formula.Writes.table (x := x) (l := l) (r := r) (w := w) (cells := es)
      (rows := fun j => cells[j]) hs.1.1.2 hs.1.1.1 hs.1.2 hes
    have he : List.ofFn (fun j : Fin cells.length => cells[j]) = cells := List.ofFn_getElem
    rwa [he] at this
  · obtain ⟨cells, w, h1, rfl⟩ := container_inv h
    have hs := rowWf_get hw h1
    simp only [Node.wf, shapeOk, Bool.and_eq_true, beq_iff_eq] at hs
    obtain ⟨a, b, rfl⟩ := shape_two hs.1.1
    obtain rfl := hs.1.2
    obtain ⟨e, he⟩ := hcells _ _ _ _ h1 a (by simp)
    obtain ⟨f, hf⟩ := hcells _ _ _ _ h1 b (by simp)
    exact ⟨.root e f, _, Cut.one h1, fun l r => .root he hf⟩
  · obtain ⟨cells, w, h1, rfl⟩ := container_inv h
    have hs := rowWf_get hw h1
    simp only [Node.wf, shapeOk, Bool.and_eq_true, beq_iff_eq] at hs
    obtain ⟨a, b, rfl⟩ := shape_two hs.1.1
    obtain rfl := hs.1.2
    obtain ⟨e, he⟩ := hcells _ _ _ _ h1 a (by simp)
    obtain ⟨f, hf⟩ := hcells _ _ _ _ h1 b (by simp)
    exact ⟨.fraction e f, _, Cut.one h1, fun l r => .fraction he hf⟩

theorem atom_writes (S : Std x g m) {row : Row} (hpl : Plain row) (hw : rowWf row = true)
    (hcells : CellsWritten x row) {pos p : Nat} {r : Rule} {t : SNode} (hp : pos ≤ row.length)
    (hb : ∀ n o c, r.parser = .brackets n o c →
      InnerWritten x g row (t.lo + leadingSpaces (row.drop t.lo) + 1) (.sym c))
    (hn : NoneOf g .prefix row pos) (hc : Chosen g .atom row pos t r p) :
    p ≤ row.length ∧ ∃ (e : Formula) (w : Row), Cut row pos w p ∧ ∀ l r, e.Writes x l r w := by
  obtain ⟨hlo, hle, F, a, b, hs, -, h⟩ := chosen_split S.good hw hp hc
  refine ⟨hle, ?_⟩
  obtain ⟨i, c, p2, k, p3, node, h1, rfl, h2, h3, h4, -⟩ := ruleParse_inv h
  have hr : r ∈ shippedAtoms := by
    rw [← S.atoms]
    show r ∈ g.ofRole .atom
    rw [hs]; simp
  have hlim : ¬ [['l'], ['i'], ['m']].map Node.symbol <+:
      row.drop (pos + leadingSpaces (row.drop pos)) := by
    have hmem : PreOp.lim.rule ∈ g.ofRole .prefix := by
      show _ ∈ g.prefixes
      rw [S.prefixes]; decide
    obtain ⟨k1, k2⟩ := mem_ofRole.1 hmem
    exact ruleFails_symbols (hn _ k1 k2) rfl
  rw [hlo] at hb
  obtain ⟨e, w, k1, k2⟩ := atom_token S hpl hw hcells hr hb hlim h2
  have hk : r.kind.takesScripts = false := by
    clear * - hr
    revert r; decide
  obtain rfl := h4 hk
  exact ⟨e, _, h1.append (k1.append h3), fun l r => writes_before (writes_after (k2 l r) _) _⟩

/-! ## Operators -/

theorem script_inv {call : Rec} {k : ScriptKind} {row : Row} (hw : rowWf row = true) {pos p : Nat}
    {t : SNode} (h : parseScript call g k.variant row pos = .ok (some (t, p))) :
    ∃ q j, row[pos]? = some (Node.container k.variant [q] 1) ∧
      Cut row pos (.container k.variant [q] 1 :: sp j) p := by
  unfold parseScript at h
  obtain ⟨o, h1, h⟩ := M.bind_eq_ok.1 h
  cases o with
  | none => cases h
  | some cp =>
    obtain ⟨c, p1⟩ := cp
    obtain ⟨cells, w, h2, rfl⟩ := container_inv h1
    obtain ⟨_, -, h⟩ := M.bind_eq_ok.1 h
    obtain ⟨⟨after, p2⟩, h3, h⟩ := M.bind_eq_ok.1 h
    obtain ⟨_, -, h⟩ := M.bind_eq_ok.1 h
    cases h
    obtain ⟨j, hj, -⟩ := parseSpaces_cut h3
    have hs := rowWf_get hw h2
    obtain ⟨q, rfl, rfl⟩ : ∃ q, cells = [q] ∧ w = 1 := by
      have : cells.length = 1 ∧ w = 1 := by
        cases k <;>
          · simp only [Node.wf, ScriptKind.variant, shapeOk, Bool.and_eq_true, beq_iff_eq] at hs
            exact hs.1
      obtain ⟨q, hq⟩ := List.length_eq_one_iff.1 this.1
      exact ⟨q, hq, this.2⟩
    exact ⟨q, j, h2, (Cut.one h2).append hj⟩

theorem parseScripts_inv {call : Rec} {row : Row} (hw : rowWf row = true) {sign : List Char}
    {start : Nat} : ∀ (n : Nat) {node t : SNode} {pos p : Nat} {ss : List (ScriptKind × Row)} {w : Row},
      parseScripts call g row n node pos = .ok (t, p) → Cut row start w pos → WritesOp sign ss w →
      (∀ s ∈ ss, ∃ i : Nat, row[i]? = some (Node.container s.1.variant [s.2] 1)) →
      ∃ ss' w', Cut row start w' p ∧ WritesOp sign ss' w' ∧
        ∀ s ∈ ss', ∃ i : Nat, row[i]? = some (Node.container s.1.variant [s.2] 1)
  | 0, _, _, _, _, _, _, h, _, _, _ => by cases h
  | n + 1, node, t, pos, p, ss, w, h, hc, hop, hss => by
    have step : ∀ (k : ScriptKind) s p1, parseScript call g k.variant row pos = .ok (some (s, p1)) →
        ∃ ss1 w1, Cut row start w1 p1 ∧ WritesOp sign ss1 w1 ∧
          ∀ s ∈ ss1, ∃ i : Nat, row[i]? = some (Node.container s.1.variant [s.2] 1) := by
      intro k s p1 hk
      obtain ⟨q, j, h1, h2⟩ := script_inv hw hk
      refine ⟨_, _, hc.append h2, .script j hop, fun s hs => ?_⟩
      rcases List.mem_append.1 hs with hs | hs
      · exact hss s hs
      · rw [List.mem_singleton.1 hs]
        exact ⟨pos, h1⟩
    rw [parseScripts] at h
    obtain ⟨o, h1, h⟩ := M.bind_eq_ok.1 h
    cases o with
    | some sp1 =>
      obtain ⟨s, p1⟩ := sp1
      obtain ⟨node', -, h⟩ := M.bind_eq_ok.1 h
      obtain ⟨ss1, w1, a1, a2, a3⟩ := step .sub s p1 h1
      exact parseScripts_inv hw n h a1 a2 a3
    | none =>
      obtain ⟨o, h2, h⟩ := M.bind_eq_ok.1 h
      cases o with
      | some sp1 =>
        obtain ⟨s, p1⟩ := sp1
        obtain ⟨node', -, h⟩ := M.bind_eq_ok.1 h
        obtain ⟨ss1, w1, a1, a2, a3⟩ := step .sup s p1 h2
        exact parseScripts_inv hw n h a1 a2 a3
      | none =>
        cases h
        exact ⟨ss, w, hc, hop, hss⟩

/-- The scripts of an operator as functions. -/
theorem scripts_written {row : Row} (hcells : CellsWritten x row) {sign : List Char}
    {ss : List (ScriptKind × Row)} {w : Row} (h : WritesOp sign ss w)
    (hss : ∀ s ∈ ss, ∃ i : Nat, row[i]? = some (Node.container s.1.variant [s.2] 1)) :
    ∃ (n : Nat) (ks : Fin n → ScriptKind) (fs : Fin n → Formula) (rows : Fin n → Row),
      WritesOp sign (List.ofFn fun i => (ks i, rows i)) w ∧ ∀ i, (fs i).Writes x 0 0 (rows i) := by
  have key : ∀ j : Fin ss.length, ∃ e : Formula, e.Writes x 0 0 ss[j].2 := by
    intro j
    obtain ⟨i, hi⟩ := hss ss[j] (List.getElem_mem ..)
    exact hcells _ _ _ _ hi _ (by simp)
  obtain ⟨fs, hfs⟩ := Classical.axiomOfChoice key
  refine ⟨ss.length, fun j => ss[j].1, fs, fun j => ss[j].2, ?_, hfs⟩
  have : (List.ofFn fun j : Fin ss.length => (ss[j].1, ss[j].2)) = ss := List.ofFn_getElem
  rwa [this]

/-- An operator with its scripts and spaces. -/
theorem op_writes (S : Std x g m) {row : Row} (hw : rowWf row = true) {role : Role} {pos p : Nat}
    {r : Rule} {t : SNode} (hp : pos ≤ row.length) (hc : Chosen g role row pos t r p)
    {sign : List Char} (hr : r.parser = .symbols (sign.map fun c => [c]) .operator)
    (hk : r.kind.takesScripts = true) :
    p ≤ row.length ∧ ∃ i ss w, Cut row pos (sp i ++ w) p ∧ i = leadingSpaces (row.drop pos) ∧
      WritesOp sign ss w ∧
      ∀ s ∈ ss, ∃ i : Nat, row[i]? = some (Node.container s.1.variant [s.2] 1) := by
  obtain ⟨hlo, hle, F, a, b, hs, -, h⟩ := chosen_split S.good hw hp hc
  refine ⟨hle, ?_⟩
  obtain ⟨i, c, p2, k, p3, node, h1, hi, h2, h3, -, h5⟩ := ruleParse_inv h
  rw [hr] at h2
  have h6 := symbols_inv h2
  rw [← map_sy] at h6
  obtain ⟨ss, w, k1, k2, k3⟩ := parseScripts_inv hw _ (h5 hk) (h6.append h3) (.sign k) nofun
  exact ⟨i, ss, w, h1.append k1, hi, k2, k3⟩

theorem infix_op {r : Rule} (hr : r ∈ shippedInfixes) : ∃ o : BinOp, r = o.rule := by
  simp only [shippedInfixes, List.mem_cons, List.not_mem_nil, or_false] at hr
  rcases hr with rfl | rfl | rfl | rfl | rfl | rfl | rfl | rfl | rfl | rfl | rfl | rfl | rfl | rfl | rfl
  · exact ⟨.implies, rfl⟩
  · exact ⟨.equivalent, rfl⟩
  · exact ⟨.not, rfl⟩
  · exact ⟨.or, rfl⟩
  · exact ⟨.and, rfl⟩
  · exact ⟨.lessEq, rfl⟩
  · exact ⟨.greaterEq, rfl⟩
  · exact ⟨.less, rfl⟩
  · exact ⟨.greater, rfl⟩
  · exact ⟨.equals, rfl⟩
  · exact ⟨.tuple, rfl⟩
  · exact ⟨.divide, rfl⟩
  · exact ⟨.multiply, rfl⟩
  · exact ⟨.subtract, rfl⟩
  · exact ⟨.add, rfl⟩

theorem prefix_op {r : Rule} (hr : r ∈ shippedPrefixes) : ∃ o : PreOp, r = o.rule := by
  simp only [shippedPrefixes, List.mem_cons, List.not_mem_nil, or_false] at hr
  rcases hr with rfl | rfl | rfl | rfl | rfl | rfl | rfl
  · exact ⟨.integral, rfl⟩
  · exact ⟨.sum, rfl⟩
  · exact ⟨.limInf, rfl⟩
  · exact ⟨.limSup, rfl⟩
  · exact ⟨.lim, rfl⟩
  · exact ⟨.minus, rfl⟩
  · exact ⟨.plus, rfl⟩

/-- A longer sign would have been read. -/
theorem prefix_joins (S : Std x g m) {row w : Row} {pos p : Nat} {t : SNode} {o : PreOp}
    (hw : rowWf row = true) (hp : pos ≤ row.length) (hc : Chosen g .prefix row pos t o.rule p)
    (hcut : w <+: row.drop (pos + leadingSpaces (row.drop pos))) : o.joins w = false := by
  cases o with
  | lim =>
    obtain ⟨-, -, F, a, b, hs, hf, -⟩ := chosen_split S.good hw hp hc
    have hs : shippedPrefixes = a ++ PreOp.lim.rule :: b := by rw [← S.prefixes]; exact hs
    have hpw : shippedPrefixes.Pairwise fun a b => b.name < a.name := by decide
    have key : ∀ o : PreOp, o.rule ∈ shippedPrefixes → PreOp.lim.rule.name < o.rule.name →
        ¬ o.text.map sy <+: w := by
      intro o ho hlt hpre
      have hmem : o.rule ∈ a := by
        rw [hs] at ho hpw
        rcases List.mem_append.1 ho with ho | ho
        · exact ho
        · rcases List.mem_cons.1 ho with ho | ho
          · rw [ho] at hlt; omega
          · have := (List.pairwise_cons.1 (List.pairwise_append.1 hpw).2.1).1 _ ho
            omega
      refine ruleFails_symbols ⟨F, hf _ hmem⟩ rfl (List.IsPrefix.trans ?_ hcut)
      rw [map_sy] at hpre
      exact hpre
    simp only [PreOp.joins, Bool.or_eq_false_iff]
    constructor
    · rw [Bool.eq_false_iff]
      exact fun h => key .limSup (by decide) (by decide) (List.isPrefixOf_iff_prefix.1 h)
    · rw [Bool.eq_false_iff]
      exact fun h => key .limInf (by decide) (by decide) (List.isPrefixOf_iff_prefix.1 h)
  | _ => rfl

theorem post_writes (S : Std x g m) {row : Row} (hw : rowWf row = true)
    (hcells : CellsWritten x row) {pos p : Nat} {r : Rule} {t : SNode} (hp : pos ≤ row.length)
    (hb : ∀ n o c, r.parser = .brackets n o c →
      InnerWritten x g row (t.lo + leadingSpaces (row.drop t.lo) + 1) (.sym c))
    (hc : Chosen g .postfix row pos t r p) (f : Formula) :
    p ≤ row.length ∧ ∃ (e : Formula) (w : Row), Cut row pos w p ∧
      ∀ l r v, f.Writes x l 6 v → e.Writes x l r (v ++ w) := by
  obtain ⟨hlo, hle, F, a, b, hs, -, h⟩ := chosen_split S.good hw hp hc
  refine ⟨hle, ?_⟩
  obtain ⟨i, c, p2, k, p3, node, h1, hi, h2, h3, h4, -⟩ := ruleParse_inv h
  have hr : r ∈ shippedPostfixes := by
    rw [← S.postfixes]
    show r ∈ g.ofRole .postfix
    rw [hs]; simp
  rw [hlo, ← hi] at hb
  suffices hsuff : ∃ (e : Formula) (w : Row), Cut row (pos + i) w p2 ∧
      ∀ l r v, f.Writes x l 6 v → e.Writes x l r (v ++ w) by
    obtain ⟨e, w, k1, k2⟩ := hsuff
    have hk : r.kind.takesScripts = false := by
      clear * - hr
      revert r; decide
    obtain rfl := h4 hk
    refine ⟨e, _, h1.append (k1.append h3), fun l r v hv => ?_⟩
    have := writes_after (k2 l r _ (writes_after hv i)) k
    simpa only [List.append_assoc] using this
  simp only [shippedPostfixes, List.mem_cons, List.not_mem_nil, or_false] at hr
  have script : ∀ k : ScriptKind, parseContainer (pratt g F) k.variant row (pos + i) = .ok (some (c, p2)) →
      ∃ (e : Formula) (w : Row), Cut row (pos + i) w p2 ∧
        ∀ l r v, f.Writes x l 6 v → e.Writes x l r (v ++ w) := by
    intro k hk
    obtain ⟨cells, w, k1, rfl⟩ := container_inv hk
    have hs := rowWf_get hw k1
    obtain ⟨q, rfl, rfl⟩ : ∃ q, cells = [q] ∧ w = 1 := by
      have : cells.length = 1 ∧ w = 1 := by
        cases k <;>
          · simp only [Node.wf, ScriptKind.variant, shapeOk, Bool.and_eq_true, beq_iff_eq] at hs
            exact hs.1
      obtain ⟨q, hq⟩ := List.length_eq_one_iff.1 this.1
      exact ⟨q, hq, this.2⟩
    obtain ⟨e, he⟩ := hcells _ _ _ _ k1 q (by simp)
    exact ⟨.script k f e, _, Cut.one k1, fun l r v hv => .script hv he⟩
  rcases hr with rfl | rfl | rfl | rfl | rfl | rfl
  · obtain ⟨k1, k2, rfl⟩ := emptyBrackets_inv h2
    exact ⟨.call f, _, (Cut.one k1).append (Cut.one k2), fun l r v hv => .call hv⟩
  · obtain ⟨child, q, k1, k2, k3, rfl⟩ := brackets_inv h2
    obtain ⟨e, w, q', F', res, h4, h5, h6⟩ := hb _ _ _ rfl (List.getElem?_eq_some_iff.1 k1).1
    cases pratt_unique k2 h6
    exact ⟨.apply f e, _, (Cut.one k1).append (h4.append (Cut.one k3)), fun l r v hv => .apply hv h5⟩
  · exact ⟨.post .factorial f, _, symbols_inv h2, fun l r v hv => .post hv⟩
  · exact ⟨.post .exponent f, _, symbols_inv h2, fun l r v hv => .post hv⟩
  · exact script .sub h2
  · exact script .sup h2

/-! ## Expressions -/

theorem takes_strict {o r : Rule} (ho : o ∈ shippedPrefixes ++ shippedInfixes)
    (hr : r ∈ shippedInfixes ++ shippedPostfixes) (h : Takes o r) : o.power < r.power := by
  rcases h with h | ⟨h, h'⟩
  · exact h
  · exfalso
    have h1 : ∀ o ∈ shippedPrefixes ++ shippedInfixes, o.kind ≠ .rightInfix o.power ∧ o.power < 600 := by
      decide
    have h2 : ∀ r ∈ shippedInfixes, r.kind = .leftInfix r.power := by decide
    have h3 : ∀ r ∈ shippedPostfixes, 600 ≤ r.power := by decide
    rcases h' with h' | ⟨v, h'⟩
    · rcases List.mem_append.1 hr with hr | hr
      · exact h' _ (h2 r hr)
      · have := (h1 o ho).2
        have := h3 r hr
        omega
    · refine (h1 o ho).1 ?_
      rw [h']
      simp only [Rule.power, h']

theorem level_of_lt {l l' : Nat} (h6 : l ≤ 6) (h : pw l < pw l') : l < l' := by
  by_contra hc
  have := pw_mono (Nat.le_of_not_lt hc) h6
  omega

theorem level_of_le {l l' : Nat} (h6 : l ≤ 6) (h : pw l ≤ pw l') (h' : l' ≤ 6) : l ≤ l' := by
  by_contra hc
  have := pw_strict (Nat.lt_of_not_le hc) h6
  omega

/-- The tokens of a nested tree are a formula. -/
structure Segment (x : Xid) (row : Row) (T : PTree) (f : Formula) (pos : Nat) (w : Row) (p : Nat) :
    Prop where
  le : p ≤ row.length
  cut : Cut row pos w p
  left : ∀ o ∈ T.leftOps, o ∈ shippedInfixes ++ shippedPostfixes
  right : ∀ o ∈ T.rightOps, o ∈ shippedPrefixes ++ shippedInfixes
  writes : ∀ l r, l ≤ 6 → r ≤ 6 → (∀ o ∈ T.leftOps, pw l < o.power) →
    (∀ o ∈ T.rightOps, pw r ≤ o.power) → f.Writes x l r w

theorem chosen_mem {role : Role} {row : Row} {pos p : Nat} {t : SNode} {r : Rule}
    (h : Chosen g role row pos t r p) : r ∈ g.ofRole role := by
  obtain ⟨before, after, hs, hrole, -⟩ := h
  exact mem_ofRole.2 ⟨by rw [hs]; simp, hrole⟩

theorem tree_segment (S : Std x g m) {row : Row} (hpl : Plain row) (hw : rowWf row = true)
    (hcells : CellsWritten x row) {e : Ending} {q : Nat} : ∀ {T : PTree} {ts : List Tok} {pos : Nat},
    T.Nested → pos ≤ row.length → Reads g row e .operand pos (T.tokens ++ ts) q →
    (∀ tk ∈ T.tokens, ∀ n o c, tk.rule.parser = .brackets n o c →
      InnerWritten x g row (tk.node.lo + leadingSpaces (row.drop tk.node.lo) + 1) (.sym c)) →
    ∃ p f w, Reads g row e .operator p ts q ∧ Segment x row T f pos w p
  | .operand r t, ts, pos, _, hp, h, hb => by
    cases h with
    | operand hn hc h =>
      obtain ⟨hle, f, w, k1, k2⟩ := atom_writes S hpl hw hcells hp
        (hb (.operand r t) (by simp [PTree.tokens])) hn hc
      exact ⟨_, f, w, h, hle, k1, nofun, nofun, fun l r _ _ _ _ => k2 l r⟩
  | .pre r op T, ts, pos, hN, hp, h, hb => by
    cases h with
    | pre hc h =>
      have hr : r ∈ shippedPrefixes := by rw [← S.prefixes]; exact chosen_mem hc
      obtain ⟨o, rfl⟩ := prefix_op hr
      obtain ⟨hle, i, ss, w, k1, rfl, k3, k4⟩ := op_writes S hw hp hc (sign := o.text) rfl rfl
      obtain ⟨n, ks, fs, rows, k5, k6⟩ := scripts_written hcells k3 k4
      obtain ⟨p, f, v, h1, h2⟩ := tree_segment S hpl hw hcells hN.1 hle h
        (fun tk htk => hb tk (by simp [PTree.tokens, htk]))
      have hcut := k1.append h2.cut
      refine ⟨p, .pre o n ks fs f, _, h1, h2.le, hcut, nofun, ?_, ?_⟩
      · refine List.forall_mem_cons.2 ⟨List.mem_append_left _ hr, h2.right⟩
      · intro l r hl hr6 hlo hro
        obtain ⟨hro1, hro2⟩ := List.forall_mem_cons.1 hro
        have hlev : o.level ≤ 6 := by cases o <;> decide
        have hpow : o.rule.power = pw o.level := rfl
        rw [List.append_assoc]
        refine writes_before (.pre (level_of_le hr6 hro1 hlev) k5 k6
          (h2.writes _ _ hlev hr6 (fun o' ho' => ?_) hro2) ?_) _
        · exact takes_strict (List.mem_append_left _ hr) (h2.left _ ho') (hN.2 _ ho')
        · refine prefix_joins S hw hp hc ?_
          rw [List.append_assoc] at hcut
          have := hcut.eq
          rw [List.append_assoc] at this
          rw [drop_sp this]
          exact ⟨_, rfl⟩
  | .inf r op T U, ts, pos, hN, hp, h, hb => by
    rw [PTree.tokens, List.append_assoc] at h
    obtain ⟨p, f, v, h1, h2⟩ := tree_segment S hpl hw hcells hN.1 hp h
      (fun tk htk => hb tk (by simp [PTree.tokens, htk]))
    cases h1 with
    | inf hc h1 =>
      have hr : r ∈ shippedInfixes := by rw [← S.infixes]; exact chosen_mem hc
      obtain ⟨o, rfl⟩ := infix_op hr
      obtain ⟨hle, i, ss, w, k1, rfl, k3, k4⟩ := op_writes S hw h2.le hc (sign := [o.char]) rfl rfl
      obtain ⟨n, ks, fs, rows, k5, k6⟩ := scripts_written hcells k3 k4
      obtain ⟨p', f', v', h3, h4⟩ := tree_segment S hpl hw hcells hN.2.1 hle h1
        (fun tk htk => hb tk (by simp [PTree.tokens, htk]))
      refine ⟨p', .bin o n ks fs f f', _, h3, h4.le, h2.cut.append (k1.append h4.cut), ?_, ?_, ?_⟩
      · exact List.forall_mem_cons.2 ⟨List.mem_append_left _ hr, h2.left⟩
      · exact List.forall_mem_cons.2 ⟨List.mem_append_right _ hr, h4.right⟩
      · intro l r hl hr6 hlo hro
        obtain ⟨hlo1, hlo2⟩ := List.forall_mem_cons.1 hlo
        obtain ⟨hro1, hro2⟩ := List.forall_mem_cons.1 hro
        have hlev : o.level ≤ 6 := by cases o <;> decide
        have := Formula.Writes.bin (level_of_lt hl hlo1) (level_of_le hr6 hro1 hlev)
          (writes_after (h2.writes _ _ hl hlev hlo2 fun o' ho' => Takes.not_le (hN.2.2.2 _ ho'))
            (leadingSpaces (row.drop p))) k5 k6
          (h4.writes _ _ hlev hr6
            (fun o' ho' => takes_strict (List.mem_append_right _ hr) (h4.left _ ho') (hN.2.2.1 _ ho'))
            hro2)
        simpa only [List.append_assoc] using this
  | .post r op T, ts, pos, hN, hp, h, hb => by
    rw [PTree.tokens, List.append_assoc] at h
    obtain ⟨p, f, v, h1, h2⟩ := tree_segment S hpl hw hcells hN.1 hp h
      (fun tk htk => hb tk (by simp [PTree.tokens, htk]))
    cases h1 with
    | post hn hc h1 =>
      have hr : r ∈ shippedPostfixes := by rw [← S.postfixes]; exact chosen_mem hc
      obtain ⟨hle, f', w, k1, k2⟩ := post_writes S hw hcells h2.le
        (hb (.post r op) (by simp [PTree.tokens])) hc f
      refine ⟨_, f', _, h1, hle, h2.cut.append k1, ?_, nofun, ?_⟩
      · exact List.forall_mem_cons.2 ⟨List.mem_append_right _ hr, h2.left⟩
      · intro l r' hl hr6 hlo hro
        obtain ⟨hlo1, hlo2⟩ := List.forall_mem_cons.1 hlo
        have h3 : ∀ r ∈ shippedPostfixes, pw 6 ≤ r.power := by decide
        exact k2 _ _ _ (h2.writes _ _ hl (Nat.le_refl _) hlo2 fun o' ho' =>
          Nat.le_trans (h3 r hr) (Takes.not_le (hN.2 _ ho')))

theorem powers_pos : (∀ r ∈ shippedInfixes ++ shippedPostfixes, pw 0 < r.power) := by decide

theorem cleanFrom_written (S : Std x g m) {row : Row} (hpl : Plain row) (hw : rowWf row = true)
    (hcells : CellsWritten x row) {pos : Nat} {e : Ending} (h : CleanFrom g row pos e)
    (hp : pos ≤ row.length) : ∃ (f : Formula) (w : Row) (q F : Nat) (res : PResult),
      Cut row pos w q ∧ f.Writes x 0 0 w ∧ pratt g F row pos (0, .weak) e = .ok (res, q) ∧
      (e = .eof → q = row.length) := by
  induction h with
  | @mk pos e toks q h _ ih =>
    obtain ⟨T, rfl, hN, hT⟩ := pratt_reads S.good hw hp h
    obtain ⟨p, f, w, h1, h2⟩ := tree_segment (ts := []) S hpl hw hcells hN hp (by simpa using h)
      (fun tk htk n o c ht hp' => by
        obtain ⟨f, w, q, F, res, k1, k2, k3, -⟩ := ih tk htk n o c ht hp'
        exact ⟨f, w, q, F, res, k1, k2, k3⟩)
    have hq : p = q ∧ (e = .eof → q = row.length) := by
      cases h1 with
      | endOfRow => exact ⟨rfl, fun _ => rfl⟩
      | closing he _ _ => exact ⟨rfl, fun h => by rw [h] at he; cases he⟩
    obtain ⟨rfl, hq⟩ := hq
    exact ⟨f, w, p, _, _, h2.cut, h2.writes 0 0 (by decide) (by decide)
      (fun o ho => powers_pos o (h2.left o ho)) (fun o _ => Nat.zero_le _), hT _ (Nat.lt_succ_self _), hq⟩

theorem cleanRow_written (S : Std x g m) {row : Row} (h : CleanRow g row) (hpl : PlainRow row)
    (hw : rowWf row = true) : ∃ f : Formula, f.Writes x 0 0 row := by
  induction h with
  | @mk row h _ ih =>
    have hcells : CellsWritten x row := by
      intro i v cells w hi c hc
      have hwf := rowWf_get hw hi
      simp only [Node.wf, Bool.and_eq_true] at hwf
      exact ih i v cells w hi c hc (hpl.cell hi hc) (cellsWf_iff.1 hwf.2 c hc)
    obtain ⟨f, w, q, F, res, h1, h2, -, h4⟩ :=
      cleanFrom_written S hpl.here hw hcells h (Nat.zero_le _)
    obtain rfl := h4 rfl
    have := h1.eq
    simp only [List.drop_zero, List.drop_length, List.append_nil] at this
    exact ⟨f, this ▸ h2⟩

end Aftermath
