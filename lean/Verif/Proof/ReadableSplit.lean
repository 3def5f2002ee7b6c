import Verif.Proof.Readable

/-! # Lemmas for C112: taking formulas apart at an operator -/

namespace Aftermath

variable {x : Xid}

/-- There are not more brackets to be closed in the first part of a row than in all of it. -/
theorem Balanced.le {e : Nat} {r X : Row} (h : Balanced e r) : ∀ {b : Nat}, Balanced b (r ++ X) → e ≤ b := by
  induction h with
  | nil => exact fun _ => Nat.zero_le _
  | container _ ih => exact fun hb => ih hb.container_tail
  | opening _ ih => exact fun hb => Nat.le_of_succ_le_succ (ih hb.open)
  | closing _ ih =>
    intro b hb
    obtain ⟨d', rfl, hr⟩ := hb.close
    exact Nat.succ_le_succ (ih hr)
  | @quotes d l r hl _ ih =>
    intro b hb
    have : Node.symbol ['"'] :: (l.map Node.symbol ++ .symbol ['"'] :: r) ++ X =
        .symbol ['"'] :: (l.map Node.symbol ++ .symbol ['"'] :: (r ++ X)) := by simp
    rw [this] at hb
    exact ih (hb.unquote hl)
  | other h1 h2 h3 _ ih => exact fun hb => ih (hb.of_ordinary ⟨h1, h2, h3⟩)

/-- The row does not have `c` outside of brackets and quotes. -/
def Without (c : Char) (t : Row) : Prop := ∀ a q, t = a ++ sy c :: q → ¬ Balanced 0 a

theorem without_of_not_mem {c : Char} {t : Row} (h : sy c ∉ t) : Without c t := by
  rintro a q rfl
  exact absurd (by simp) h

theorem without_text {c : Char} {s : List Char} (h : c ∉ s) : Without c (s.map sy) := by
  refine without_of_not_mem fun hm => ?_
  obtain ⟨d, hd, he⟩ := List.mem_map.1 hm
  simp [sy] at he
  exact h (he ▸ hd)

theorem without_brackets {c : Char} (hc : c ≠ '(') {r : Row} (hr : Balanced 0 r) : Without c (inBrackets r) := by
  intro a q h hb
  unfold inBrackets at h
  cases a with
  | nil =>
    simp [sy] at h
    exact hc h.1.symm
  | cons n a =>
    rw [List.cons_append, List.cons_append, List.cons.injEq] at h
    obtain ⟨rfl, h⟩ := h
    have h1 := Balanced.open hb
    rcases List.append_eq_append_iff.1 h with ⟨b, rfl, h3⟩ | ⟨b, rfl, h3⟩
    · cases b with
      | nil =>
        rw [List.append_nil] at h1
        have := balanced_unique h1 hr
        omega
      | cons m b => simp at h3
    · have := h1.le hr
      omega

theorem without_string {c : Char} (hc : c ≠ '"') {s t : List Char} (hs : Escapes s t) :
    Without c (sy '"' :: t.map sy ++ [sy '"']) := by
  intro a q h hb
  cases a with
  | nil =>
    simp [sy] at h
    exact hc h.1.symm
  | cons n a =>
    rw [List.cons_append, List.cons_append, List.cons.injEq] at h
    obtain ⟨rfl, h⟩ := h
    obtain ⟨l, r', hl, rfl, -⟩ := Balanced.quote hb
    have h1 := congrArg stringBody h
    have h2 : t.map sy = (t.map fun c => [c]).map Node.symbol := by rw [List.map_map]; rfl
    rw [h2, List.append_assoc] at h1
    have h3 := stringBody_quoted (escapes_inQuotes hs) []
    have h4 := stringBody_quoted hl (r' ++ sy c :: q)
    rw [show [sy '"'] = Node.symbol ['"'] :: [] from rfl, h3, List.cons_append, h4] at h1
    rw [h2, h1, List.append_assoc] at h
    have := List.append_cancel_left h
    simp at this

theorem readable_balanced (hx : x.Usual) {row : Row} (h : Readable x row) : Balanced 0 row := by
  obtain ⟨e, he⟩ := writes_of_readable h
  exact writes_all hx balanced_concat he [] row rfl

/-- The row starts with the sign of an infix operator, maybe with scripts, and then it is a formula. -/
def StartsWith (x : Xid) (c : Char) (s : Row) : Prop :=
  ∃ (n : Nat) (ks : Fin n → ScriptKind) (rows : Fin n → Row) (w q : Row), s = w ++ q ∧
    WritesOp [c] (List.ofFn fun i => (ks i, rows i)) w ∧ (∀ i, Readable x (rows i)) ∧ Readable x q

theorem StartsWith.append {c : Char} {s t : Row} (h : StartsWith x c s)
    (ht : ∀ q, Readable x q → Readable x (q ++ t)) : StartsWith x c (s ++ t) := by
  obtain ⟨n, ks, rows, w, q, rfl, h1, h2, h3⟩ := h
  exact ⟨n, ks, rows, w, q ++ t, List.append_assoc _ _ _, h1, h2, ht q h3⟩

/-- The row can be taken apart at each `c` that is not in brackets or in quotes. -/
def Divides (x : Xid) (c : Char) (row : Row) : Prop :=
  ∀ p q, row = p ++ sy c :: q → Balanced 0 p → Readable x p ∧ StartsWith x c (sy c :: q)

theorem Without.divides {c : Char} {t : Row} (h : Without c t) : Divides x c t :=
  fun p q he hb => absurd hb (h p q he)

theorem Divides.append {c : Char} {p t : Row} (hb : Balanced 0 p) (h : Divides x c p) (ht : Without c t)
    (hr : ∀ q, Readable x q → Readable x (q ++ t)) : Divides x c (p ++ t) := by
  intro p' q he hp'
  have key : ∀ b, p = p' ++ sy c :: b → q = b ++ t → Readable x p' ∧ StartsWith x c (sy c :: q) := by
    rintro b h1 rfl
    obtain ⟨h2, h3⟩ := h p' b h1 hp'
    exact ⟨h2, h3.append hr⟩
  rcases List.append_eq_append_iff.1 he with ⟨a, rfl, h2⟩ | ⟨b, h1, h2⟩
  · exact absurd (hb.rest (b := 0) hp') (ht a q h2)
  · cases b with
    | nil => exact absurd .nil (ht [] q h2.symm)
    | cons n b =>
      rw [List.cons_append, List.cons.injEq] at h2
      obtain ⟨rfl, h2⟩ := h2
      exact key b h1 h2

theorem writesOp_mem {s : List Char} {ss : List (ScriptKind × Row)} {w : Row} (h : WritesOp s ss w) :
    ∃ w', w = s.map sy ++ w' ∧ Balanced 0 w' ∧ ∀ c, sy c ∈ w' → c = ' ' := by
  have hsp : ∀ j, Balanced 0 (sp j) ∧ ∀ c, sy c ∈ sp j → c = ' ' := by
    intro j
    refine ⟨?_, fun c hc => ?_⟩
    · induction j with
      | zero => exact .nil
      | succ j ih => exact .other (by simp) (by simp) (by simp) ih
    · have := List.eq_of_mem_replicate hc
      simpa [sy] using this
  induction h with
  | sign j => exact ⟨sp j, rfl, hsp j⟩
  | script j _ ih =>
    obtain ⟨w', rfl, h1, h2⟩ := ih
    refine ⟨_, List.append_assoc _ _ _, ?_, fun c hc => ?_⟩
    · exact h1.append (.container (hsp j).1)
    · rcases List.mem_append.1 hc with hc | hc
      · exact h2 c hc
      · rcases List.mem_cons.1 hc with hc | hc
        · simp [sy] at hc
        · exact (hsp j).2 c hc

/-- The infix operators that are not prefix operators as well. -/
def BinOp.Only (o : BinOp) : Prop := o ≠ .add ∧ o ≠ .subtract

theorem BinOp.char_reserved (o : BinOp) : o.char ∈ reservedChars := by cases o <;> decide

theorem BinOp.char_apart (o : BinOp) : o.char ≠ '(' ∧ o.char ≠ ')' ∧ o.char ≠ '"' ∧ o.char ≠ ' ' ∧ o.char ≠ '.' ∧
    o.char.isDigit = false ∧ (∀ k : Constant, k.char ≠ o.char) ∧ ∀ k : PostOp, k.char ≠ o.char := by
  refine ⟨?_, ?_, ?_, ?_, ?_, ?_, fun k => ?_, fun k => ?_⟩ <;> revert o
  · intro o; cases o <;> decide
  · intro o; cases o <;> decide
  · intro o; cases o <;> decide
  · intro o; cases o <;> decide
  · intro o; cases o <;> decide
  · intro o; cases o <;> decide
  · intro o; cases o <;> cases k <;> decide
  · intro o; cases o <;> cases k <;> decide

theorem BinOp.Only.prefix_apart {o : BinOp} (h : o.Only) (k : PreOp) : o.char ∉ k.text := by
  revert h
  cases o <;> cases k <;> simp [BinOp.Only, BinOp.char, PreOp.text] <;> decide

theorem text_balanced {s : List Char} (h : '(' ∉ s) (h' : ')' ∉ s) (h'' : '"' ∉ s) : Balanced 0 (s.map sy) := by
  induction s with
  | nil => exact .nil
  | cons c s ih =>
    simp only [List.mem_cons, not_or] at h h' h''
    exact .other (by simpa using fun h1 => h.1 h1.symm) (by simpa using fun h1 => h'.1 h1.symm)
      (by simpa using fun h1 => h''.1 h1.symm) (ih h.2 h'.2 h''.2)

theorem readable_divides (hx : x.Usual) {o : BinOp} (ho : o.Only) {row : Row} (h : Readable x row) :
    Divides x o.char row := by
  obtain ⟨c1, c2, c3, c4, c5, c6, c7, c8⟩ := o.char_apart
  have hletter : ∀ {c}, (x.start c = true ∨ x.continue_ c = true) → c ≠ o.char := by
    rintro c h rfl
    obtain ⟨h1, h2⟩ := hx.reserved _ o.char_reserved
    rw [h1, h2] at h
    simp at h
  induction h with
  | number hs =>
    refine (without_text fun hm => ?_).divides
    have hd : ∀ {s}, IsDigits s → o.char ∉ s := fun h1 h2 => by
      have := h1.2 _ h2
      rw [c6] at this
      cases this
    cases hs with
    | whole h1 => exact hd h1 hm
    | decimal h1 h2 =>
      rcases List.mem_append.1 hm with hm | hm
      · exact hd h1 hm
      · rcases List.mem_cons.1 hm with hm | hm
        · exact c5 hm
        · exact hd h2 hm
  | «variable» hs =>
    obtain ⟨c, cs, rfl, h1, h2, -⟩ := hs
    refine (without_text fun hm => ?_).divides
    rcases List.mem_cons.1 hm with hm | hm
    · exact hletter (.inl h1) hm.symm
    · exact hletter (.inr (h2 _ hm)) rfl
  | @constant k => exact (without_text (s := [k.char]) (by simpa using fun h => c7 k h.symm)).divides
  | string hs => exact (without_string c3 hs).divides
  | @bin p w q o' n ks rows hp hw hs hq ihp ihs ihq =>
    intro p' s he hb
    obtain ⟨w', rfl, hw1, hw2⟩ := writesOp_mem hw
    have hsign : Balanced 0 ([o'.char].map sy) := by
      obtain ⟨d1, d2, d3, -⟩ := o'.char_apart
      exact text_balanced (by simpa using fun h => d1 h.symm) (by simpa using fun h => d2 h.symm)
        (by simpa using fun h => d3 h.symm)
    have hbw := hsign.append hw1
    rcases List.append_eq_append_iff.1 he with ⟨a, rfl, h2⟩ | ⟨b, h1, h2⟩
    · have ha := (readable_balanced hx hp).rest (b := 0) hb
      rcases List.append_eq_append_iff.1 h2 with ⟨a', rfl, h4⟩ | ⟨b, h3, h4⟩
      · obtain ⟨h5, h6⟩ := ihq a' s h4 (Balanced.rest (b := 0) hbw ha)
        exact ⟨.bin hp hw hs h5, h6⟩
      · cases b with
        | nil =>
          obtain ⟨h5, h6⟩ := ihq [] s (by simpa using h4.symm) .nil
          rw [List.append_nil] at h3
          rw [← h3]
          exact ⟨by simpa using Readable.bin hp hw hs h5, h6⟩
        | cons n' b =>
          rw [List.cons_append, List.cons.injEq] at h4
          obtain ⟨rfl, rfl⟩ := h4
          cases a with
          | nil =>
            simp only [List.map_cons, List.map_nil, List.cons_append, List.nil_append, List.cons.injEq] at h3
            obtain ⟨h5, rfl⟩ := h3
            have h6 : o'.char = o.char := by simpa [sy] using h5
            rw [h6] at hw
            refine ⟨by simpa using hp, n, ks, rows, _, q, ?_, hw, hs, hq⟩
            simp
          | cons m a =>
            simp only [List.map_cons, List.map_nil, List.cons_append, List.nil_append, List.cons.injEq] at h3
            exact absurd (hw2 o.char (by rw [h3.2]; simp)) c4
    · cases b with
      | nil =>
        simp only [List.map_cons, List.map_nil, List.cons_append, List.nil_append, List.cons.injEq] at h2
        obtain ⟨h5, rfl⟩ := h2
        have h6 : o'.char = o.char := by simpa [sy] using h5.symm
        rw [h6] at hw
        rw [List.append_nil] at h1
        exact ⟨h1 ▸ hp, n, ks, rows, _, q, rfl, hw, hs, hq⟩
      | cons n' b =>
        rw [List.cons_append, List.cons.injEq] at h2
        obtain ⟨rfl, rfl⟩ := h2
        obtain ⟨h5, h6⟩ := ihp p' b h1 hb
        exact ⟨h5, h6.append fun q' hq' => .bin hq' hw hs hq⟩
  | @pre w q o' n ks rows hw hs hq hj ihs ihq =>
    intro p' s he hb
    have hbw : Balanced 0 w := by
      obtain ⟨w', rfl, hw1, -⟩ := writesOp_mem hw
      have : Balanced 0 (o'.text.map sy) := text_balanced (by cases o' <;> decide) (by cases o' <;> decide)
        (by cases o' <;> decide)
      exact this.append hw1
    have hn : sy o.char ∉ w := by
      obtain ⟨w', rfl, -, hw2⟩ := writesOp_mem hw
      intro hm
      rcases List.mem_append.1 hm with hm | hm
      · obtain ⟨d, hd, hd'⟩ := List.mem_map.1 hm
        have : d = o.char := by simpa [sy] using hd'
        exact ho.prefix_apart o' (this ▸ hd)
      · exact c4 (hw2 _ hm)
    rcases List.append_eq_append_iff.1 he with ⟨a, rfl, h2⟩ | ⟨b, h1, h2⟩
    · obtain ⟨h5, h6⟩ := ihq a s h2 (hbw.rest (b := 0) hb)
      refine ⟨.pre hw hs h5 ?_, h6⟩
      rw [h2, ← List.append_assoc] at hj
      exact joins_left hj
    · cases b with
      | nil =>
        rw [List.append_nil] at h1
        obtain ⟨h5, h6⟩ := ihq [] s (by simpa using h2.symm) .nil
        rw [← h1]
        refine ⟨?_, h6⟩
        have := Readable.pre hw hs h5 (joins_left (q := q) (by simpa using hj))
        simpa using this
      | cons n' b =>
        rw [List.cons_append, List.cons.injEq] at h2
        obtain ⟨rfl, rfl⟩ := h2
        exact absurd (by rw [h1]; simp) hn
  | @post p k hp ih =>
    exact Divides.append (readable_balanced hx hp) ih
      (without_text (s := [k.char]) (by simpa using fun h => c8 k h.symm)) fun q hq => .post hq
  | script hp hq ihp _ =>
    exact Divides.append (readable_balanced hx hp) ihp (without_of_not_mem (by simp [sy]))
      fun q' hq' => .script hq' hq
  | apply hp hq ihp _ =>
    exact Divides.append (readable_balanced hx hp) ihp (without_brackets c1 (readable_balanced hx hq))
      fun q' hq' => .apply hq' hq
  | call hp ihp =>
    exact Divides.append (readable_balanced hx hp) ihp (without_brackets c1 .nil) fun q' hq' => .call hq'
  | unit => exact (without_brackets c1 .nil).divides
  | fraction => exact (without_of_not_mem (by simp [sy])).divides
  | root => exact (without_of_not_mem (by simp [sy])).divides
  | table => exact (without_of_not_mem (by simp [sy])).divides
  | brackets hp => exact (without_brackets c1 (readable_balanced hx hp)).divides
  | @before p hp ih =>
    intro p' q he hb
    cases p' with
    | nil =>
      simp [sy] at he
      exact absurd he.1.symm c4
    | cons n p' =>
      rw [List.cons_append, List.cons.injEq] at he
      obtain ⟨rfl, he⟩ := he
      obtain ⟨h1, h2⟩ := ih p' q he (hb.of_ordinary ⟨by decide, by decide, by decide⟩)
      exact ⟨.before h1, h2⟩
  | after hp ih =>
    exact Divides.append (readable_balanced hx hp) ih
      (without_text (s := [' ']) (by simpa using c4)) fun q hq => .after hq

theorem writesOp_start {c : Char} {ss : List (ScriptKind × Row)} {w : Row} (h : WritesOp [c] ss w) :
    (∃ j, w = sy c :: sp j) ∨
      ∃ (j : Nat) (k : ScriptKind) (cell r : Row), w = sy c :: (sp j ++ .container k.variant [cell] 1 :: r) := by
  induction h with
  | sign j => exact .inl ⟨j, rfl⟩
  | @script ss r k q j _ ih =>
    rcases ih with ⟨i, rfl⟩ | ⟨i, k', cell, r', rfl⟩
    · exact .inr ⟨i, k, q, sp j, rfl⟩
    · exact .inr ⟨i, k', cell, _, by simp; rfl⟩

theorem readable_spaces {q : Row} (h : Readable x q) (j : Nat) : Readable x (sp j ++ q) := by
  induction j with
  | zero => exact h
  | succ j ih => exact .before ih

/-- The operator has no scripts. -/
theorem StartsWith.plain {c : Char} {q : Row} (h : StartsWith x c (sy c :: q))
    (hs : ∀ (j : Nat) (k : ScriptKind) (cell r : Row), q ≠ sp j ++ .container k.variant [cell] 1 :: r) :
    Readable x q := by
  obtain ⟨n, ks, rows, w, q', he, hw, -, hq⟩ := h
  rcases writesOp_start hw with ⟨j, rfl⟩ | ⟨j, k, cell, r, rfl⟩
  · rw [List.cons_append, List.cons.injEq] at he
    rw [he.2]
    exact readable_spaces hq j
  · rw [List.cons_append, List.cons.injEq, List.append_assoc, List.cons_append] at he
    exact absurd he.2 (hs j k cell (r ++ q'))

theorem Readable.ne_nil {row : Row} (h : Readable x row) : row ≠ [] := by
  induction h with
  | number hs =>
    cases hs with
    | whole h1 => simpa using h1.1
    | decimal _ _ => simp
  | «variable» hs =>
    obtain ⟨c, cs, rfl, -⟩ := hs
    simp
  | bin _ _ _ _ ih => simp [ih]
  | pre _ _ _ _ _ ih => simp [ih]
  | _ => simp [inBrackets]

end Aftermath
