import Verif.Spec.Spaces

/-! # Lemmas about spaces in the notation -/

namespace Aftermath

variable {x : Xid}

/-! ## Quotes -/

theorem quoteAfter_append {p q : Row} (h : quoteAfter p = .out) : quoteAfter (p ++ q) = quoteAfter q := by
  simp only [quoteAfter, List.foldl_append]
  rw [show p.foldl Quote.next .out = .out from h]

theorem quoteAfter_out {row : Row} (h : ∀ n ∈ row, n ≠ sy '"') : quoteAfter row = .out := by
  unfold quoteAfter
  induction row with
  | nil => rfl
  | cons n row ih =>
    have h1 : Quote.next .out n = .out := by
      simp only [Quote.next, h n List.mem_cons_self, if_false]
    rw [List.foldl_cons, h1]
    exact ih fun k hk => h k (List.mem_cons_of_mem _ hk)

theorem quoteAfter_join {p q : Row} (h : quoteAfter p = .out) (h' : quoteAfter q = .out) :
    quoteAfter (p ++ q) = .out := (quoteAfter_append h).trans h'

theorem sy_inj {c d : Char} : sy c = sy d ↔ c = d := by
  simp [sy]

/-- Between the quotes of a string. -/
theorem escapes_inside {s t : List Char} (h : Escapes s t) : ∀ p q : Row, t.map sy = p ++ q →
    p.foldl Quote.next .inside ≠ .out := by
  have key : ∀ {s t : List Char}, Escapes s t → ∀ p q : Row, t.map sy = p ++ q →
      p.foldl Quote.next .inside ≠ .out := by
    intro s t h
    induction h with
    | nil =>
      intro p q hp
      simp only [List.map_nil, List.nil_eq, List.append_eq_nil_iff] at hp
      rw [hp.1]
      nofun
    | @plain c s t h1 h2 h3 ih =>
      intro p q hp
      cases p with
      | nil => nofun
      | cons n p =>
        simp only [List.map_cons, List.cons_append, List.cons.injEq] at hp
        obtain ⟨rfl, hp⟩ := hp
        have : Quote.next .inside (sy c) = .inside := by
          simp only [Quote.next, sy_inj, h1, h2, if_false]
        rw [List.foldl_cons, this]
        exact ih p q hp
    | @escaped c s t h3 ih =>
      intro p q hp
      cases p with
      | nil => nofun
      | cons n p =>
        simp only [List.map_cons, List.cons_append, List.cons.injEq] at hp
        obtain ⟨rfl, hp⟩ := hp
        have : Quote.next .inside (sy '\\') = .escaped := by decide
        rw [List.foldl_cons, this]
        cases p with
        | nil => nofun
        | cons n p =>
          simp only [List.cons_append, List.cons.injEq] at hp
          exact ih p q hp.2
  exact key h

theorem escapes_end {s t : List Char} (h : Escapes s t) :
    (t.map sy).foldl Quote.next .inside = .inside := by
  induction h with
  | nil => rfl
  | @plain c s t h1 h2 h3 ih =>
    have : Quote.next .inside (sy c) = .inside := by
      simp only [Quote.next, sy_inj, h1, h2, if_false]
    rw [List.map_cons, List.foldl_cons, this, ih]
  | @escaped c s t h3 ih =>
    have : Quote.next .inside (sy '\\') = .escaped := by decide
    rw [List.map_cons, List.map_cons, List.foldl_cons, List.foldl_cons, this]
    exact ih

theorem map_sy_no_quote {s : List Char} (h : '"' ∉ s) : ∀ n ∈ s.map sy, n ≠ sy '"' := by
  intro n hn
  obtain ⟨c, hc, rfl⟩ := List.mem_map.1 hn
  intro e
  rw [sy_inj.1 e] at hc
  exact h hc

theorem quoteAfter_op {sign : List Char} (hs : '"' ∉ sign) {ss : List (ScriptKind × Row)} {w : Row}
    (h : WritesOp sign ss w) : quoteAfter w = .out := by
  have hsp : ∀ j, quoteAfter (sp j) = .out := by
    intro j
    refine quoteAfter_out fun n hn => ?_
    rw [List.eq_of_mem_replicate hn]
    decide
  induction h with
  | sign j => exact quoteAfter_join (quoteAfter_out (map_sy_no_quote hs)) (hsp j)
  | script j _ ih =>
    refine quoteAfter_join ih ?_
    refine quoteAfter_out fun n hn => ?_
    rcases List.mem_cons.1 hn with rfl | hn
    · nofun
    · rw [List.eq_of_mem_replicate hn]
      decide

theorem binChar_ne (o : BinOp) : '"' ∉ [o.char] ∧ ' ' ∉ [o.char] := by cases o <;> decide

theorem preText_ne (o : PreOp) : '"' ∉ o.text ∧ ' ' ∉ o.text := by cases o <;> decide

theorem postChar_ne (o : PostOp) : sy o.char ≠ sy '"' ∧ sy o.char ≠ sy ' ' := by cases o <;> decide

theorem constChar_ne (k : Constant) : sy k.char ≠ sy '"' ∧ sy k.char ≠ sy ' ' := by cases k <;> decide

theorem isDigit_ne {c d : Char} (hc : c.isDigit = true) (hd : d.isDigit = false) : c ≠ d := by
  rintro rfl
  rw [hc] at hd
  cases hd

/-- The characters of a number. -/
theorem isNumber_chars {s : List Char} (h : IsNumber s) : ∀ c ∈ s, c.isDigit = true ∨ c = '.' := by
  cases h with
  | whole h => exact fun c hc => .inl (h.2 c hc)
  | decimal h1 h2 =>
    intro c hc
    rcases List.mem_append.1 hc with hc | hc
    · exact .inl (h1.2 c hc)
    · rcases List.mem_cons.1 hc with rfl | hc
      · exact .inr rfl
      · exact .inl (h2.2 c hc)

/-- The characters of a name. -/
theorem isName_chars {s : List Char} (h : IsName x s) : ∀ c ∈ s, x.start c = true ∨ x.continue_ c = true := by
  obtain ⟨c, cs, rfl, h1, h2, -⟩ := h
  intro d hd
  rcases List.mem_cons.1 hd with rfl | hd
  · exact .inl h1
  · exact .inr (h2 d hd)

theorem isNumber_not {s : List Char} (h : IsNumber s) {d : Char} (hd : d.isDigit = false) (hp : d ≠ '.') :
    d ∉ s := by
  intro hm
  rcases isNumber_chars h d hm with h | h
  · rw [h] at hd; cases hd
  · exact hp h

theorem isName_not (hx : x.Usual) {s : List Char} (h : IsName x s) {d : Char} (hd : d ∈ reservedChars) : d ∉ s := by
  intro hm
  have := hx.reserved d hd
  rcases isName_chars h d hm with h | h
  · rw [this.1] at h; cases h
  · rw [this.2] at h; cases h

/-- A row that is written ends outside of strings. -/
theorem quoteAfter_writes (hx : x.Usual) {e : Formula} {l r : Nat} {row : Row} (h : e.Writes x l r row) :
    quoteAfter row = .out := by
  have one : ∀ n : Node, n ≠ sy '"' → quoteAfter [n] = .out := by
    intro n hn
    exact quoteAfter_out fun k hk => by rw [List.mem_singleton.1 hk]; exact hn
  have br : ∀ q : Row, quoteAfter q = .out → quoteAfter (inBrackets q) = .out := by
    intro q hq
    exact quoteAfter_join (p := sy '(' :: q) (quoteAfter_join (p := [sy '(']) (by decide) hq) (by decide)
  induction h with
  | number h => exact quoteAfter_out (map_sy_no_quote (isNumber_not h (by decide) (by decide)))
  | «variable» h => exact quoteAfter_out (map_sy_no_quote (isName_not hx h (by decide)))
  | constant => exact one _ (constChar_ne _).1
  | string h =>
    unfold quoteAfter
    rw [List.foldl_append]
    have h1 : Quote.next .out (sy '"') = .inside := by decide
    have h2 := escapes_end h
    simp only [List.foldl_cons, List.foldl_nil, h1, h2]
    decide
  | bin _ _ _ hw _ _ ih1 _ ih2 => exact quoteAfter_join ih1 (quoteAfter_join (quoteAfter_op (binChar_ne _).1 hw) ih2)
  | pre _ hw _ _ _ _ ih => exact quoteAfter_join (quoteAfter_op (preText_ne _).1 hw) ih
  | post _ ih => exact quoteAfter_join ih (one _ (postChar_ne _).1)
  | script _ _ ih => exact quoteAfter_join ih (one _ nofun)
  | apply _ _ ih1 ih2 => exact quoteAfter_join ih1 (br _ ih2)
  | call _ ih => exact quoteAfter_join ih (br _ rfl)
  | unit => exact br _ rfl
  | fraction => exact one _ nofun
  | root => exact one _ nofun
  | table => exact one _ nofun
  | brackets _ ih => exact br _ ih
  | before _ ih => exact quoteAfter_join (p := [sy ' ']) (by decide) ih
  | after _ ih => exact quoteAfter_join ih (by decide)

/-! ## Places -/

theorem Neutral.sub {pre p q post : Row} (h : Neutral x (pre ++ p) (q ++ post)) (hq : quoteAfter pre = .out) :
    Neutral x p q := by
  refine ⟨?_, ?_, ?_⟩
  · rw [← quoteAfter_append hq]
    exact h.quote
  · intro a b ha hb
    refine h.word a b ?_ ?_
    · rw [List.getLast?_append, ha]; rfl
    · rw [List.head?_append, hb]; rfl
  · rintro ⟨ha, hb⟩
    refine h.brackets ⟨?_, ?_⟩
    · rw [List.getLast?_append, ha]; rfl
    · rw [List.head?_append, hb]; rfl

/-- Within a word there is no such place. -/
theorem Neutral.words {p q row : Row} (h : Neutral x p q) (hr : row = p ++ q) (hw : ∀ n ∈ row, IsWordNode x n) :
    p = [] ∨ q = [] := by
  by_cases hp : p = []
  · exact .inl hp
  refine .inr ?_
  obtain ⟨a, ha⟩ : ∃ a, p.getLast? = some a := ⟨_, List.getLast?_eq_some_getLast hp⟩
  cases q with
  | nil => rfl
  | cons b q =>
    refine absurd ?_ (h.word a b ha rfl)
    refine ⟨hw a ?_, hw b ?_⟩
    · rw [hr]; exact List.mem_append_left _ (List.mem_of_getLast? ha)
    · rw [hr]; exact List.mem_append_right _ List.mem_cons_self

theorem single_split {n : Node} {p q : Row} (h : [n] = p ++ q) : p = [] ∨ q = [] := by
  cases p with
  | nil => exact .inl rfl
  | cons a p =>
    simp only [List.cons_append, List.cons.injEq] at h
    exact .inr (List.append_eq_nil_iff.1 h.2.symm).2

/-- At the edges of a row. -/
theorem writes_edge {e : Formula} {l r : Nat} {p q : Row} (h : e.Writes x l r (p ++ q)) (hpq : p = [] ∨ q = []) :
    e.Writes x l r (p ++ sy ' ' :: q) := by
  rcases hpq with rfl | rfl
  · exact .before h
  · rw [List.append_nil] at h
    exact .after h

/-- Within brackets. -/
theorem brackets_split {q p' q' : Row} (h : inBrackets q = p' ++ q') :
    p' = [] ∨ q' = [] ∨ ∃ a b, q = a ++ b ∧ p' = sy '(' :: a ∧ q' = b ++ [sy ')'] := by
  cases p' with
  | nil => exact .inl rfl
  | cons n p' =>
    simp only [inBrackets, List.cons_append, List.cons.injEq] at h
    obtain ⟨rfl, h⟩ := h
    rcases List.append_eq_append_iff.1 h with ⟨a, h1, h2⟩ | ⟨c, h1, h2⟩
    · cases a with
      | nil =>
        refine .inr (.inr ⟨q, [], (List.append_nil _).symm, ?_, ?_⟩)
        · rw [h1, List.append_nil]
        · exact h2.symm
      | cons b a =>
        simp only [List.cons_append, List.cons.injEq] at h2
        exact .inr (.inl (List.append_eq_nil_iff.1 h2.2.symm).2)
    · exact .inr (.inr ⟨p', c, h1, rfl, h2⟩)

theorem brackets_insert (a b : Row) : sy '(' :: a ++ sy ' ' :: (b ++ [sy ')']) = inBrackets (a ++ sy ' ' :: b) := by
  simp only [inBrackets, List.cons_append, List.append_assoc]

/-- What does not occur in a list cannot complete it. -/
theorem prefix_skip {α : Type} {l p q : List α} {n : α} (h : n ∉ l) (hp : l <+: p ++ n :: q) : l <+: p := by
  rcases List.prefix_or_prefix_of_prefix hp (List.prefix_append p (n :: q)) with h1 | ⟨l', rfl⟩
  · exact h1
  · rw [List.prefix_append_right_inj] at hp
    cases l' with
    | nil => rw [List.append_nil]; exact List.prefix_rfl
    | cons b l' =>
      rw [List.cons_prefix_cons] at hp
      rw [hp.1] at h
      exact absurd (List.mem_append_right _ List.mem_cons_self) h

theorem joins_false {o : PreOp} {row : Row} : o.joins row = false ↔ (o = .lim →
    ¬ PreOp.limSup.text.map sy <+: row ∧ ¬ PreOp.limInf.text.map sy <+: row) := by
  cases o <;> simp [PreOp.joins, ← Bool.not_eq_true, List.isPrefixOf_iff_prefix]

/-- A node that is not a letter does not make a longer sign. -/
theorem joins_skip {o : PreOp} {p q q' : Row} {n : Node} (hn : n ∉ PreOp.limSup.text.map sy ∧ n ∉ PreOp.limInf.text.map sy)
    (h : o.joins (p ++ q) = false) : o.joins (p ++ n :: q') = false := by
  rw [joins_false] at h ⊢
  intro ho
  obtain ⟨h1, h2⟩ := h ho
  exact ⟨fun hc => h1 ((prefix_skip hn.1 hc).trans (List.prefix_append _ _)),
    fun hc => h2 ((prefix_skip hn.2 hc).trans (List.prefix_append _ _))⟩

/-- The parts of a sign are parts of a word. -/
theorem op_insert (hx : x.Usual) {sign : List Char}
    (hs : sign.length = 1 ∨ ∀ c ∈ sign, c.isAlpha = true) {ss : List (ScriptKind × Row)}
    {w : Row} (h : WritesOp sign ss w) : ∀ p q : Row, w = p ++ q → Neutral x p q →
      p = [] ∨ WritesOp sign ss (p ++ sy ' ' :: q) := by
  have hsp : ∀ (j : Nat) (p q : Row), sp j = p ++ q → p ++ sy ' ' :: q = sp (j + 1) := by
    intro j p q hj
    have hp : ∀ n ∈ p, n = sy ' ' := fun n hn =>
      List.eq_of_mem_replicate (n := j) (by rw [show List.replicate j (sy ' ') = p ++ q from hj]; exact List.mem_append_left _ hn)
    have hq : ∀ n ∈ q, n = sy ' ' := fun n hn =>
      List.eq_of_mem_replicate (n := j) (by rw [show List.replicate j (sy ' ') = p ++ q from hj]; exact List.mem_append_right _ hn)
    have hl : p.length + q.length = j := by
      have := congrArg List.length hj
      simp only [sp, List.length_replicate, List.length_append] at this
      omega
    rw [List.eq_replicate_of_mem hp, List.eq_replicate_of_mem hq, ← List.replicate_succ, List.replicate_append_replicate]
    unfold sp
    congr 1
    omega
  have hword : ∀ p q : Row, sign.map sy = p ++ q → Neutral x p q → p = [] ∨ q = [] := by
    intro p q h1 h2
    rcases hs with hs | hs
    · obtain ⟨c, rfl⟩ := List.length_eq_one_iff.1 hs
      exact single_split h1
    · refine h2.words h1 fun n hn => ?_
      obtain ⟨c, hc, rfl⟩ := List.mem_map.1 hn
      exact ⟨c, rfl, .inl (hx.letters c (hs c hc)).1⟩
  induction h with
  | sign j =>
    intro p q h1 h2
    rcases List.append_eq_append_iff.1 h1 with ⟨a, rfl, h4⟩ | ⟨c, h3, rfl⟩
    · refine .inr ?_
      rw [List.append_assoc, hsp j a q h4]
      exact .sign _
    · rcases hword p c h3 (Neutral.sub (pre := []) h2 rfl) with rfl | rfl
      · exact .inl rfl
      · refine .inr ?_
        rw [List.append_nil] at h3
        rw [← h3, List.nil_append]
        exact .sign (j + 1)
  | @script ss r k cell j hw ih =>
    intro p q h1 h2
    rcases List.append_eq_append_iff.1 h1 with ⟨a, rfl, h4⟩ | ⟨c, h3, rfl⟩
    · cases a with
      | nil =>
        rcases ih r [] (List.append_nil _).symm (Neutral.sub (pre := []) (post := q) (by simpa using h2) rfl) with h5 | h5
        · exact .inl (by rw [h5]; rfl)
        · refine .inr ?_
          have := WritesOp.script (k := k) (q := cell) j h5
          rw [List.nil_append] at h4
          rw [← h4]
          simpa using this
      | cons n a =>
        simp only [List.cons_append, List.cons.injEq] at h4
        obtain ⟨rfl, h4⟩ := h4
        refine .inr ?_
        have := WritesOp.script (k := k) (q := cell) (j + 1) hw
        rw [← hsp j a q h4] at this
        simpa using this
    · rcases ih p c h3 (Neutral.sub (pre := []) h2 rfl) with h5 | h5
      · exact .inl h5
      · refine .inr ?_
        have := WritesOp.script (k := k) (q := cell) j h5
        simpa using this

theorem op_remove {sign : List Char} (hs : ' ' ∉ sign) {ss : List (ScriptKind × Row)} {w : Row}
    (h : WritesOp sign ss w) : ∀ p q : Row, w = p ++ sy ' ' :: q → WritesOp sign ss (p ++ q) := by
  have hsp : ∀ (j : Nat) (p q : Row), sp j = p ++ sy ' ' :: q → p ++ q = sp (j - 1) := by
    intro j p q hj
    have hp : ∀ n ∈ p, n = sy ' ' := fun n hn =>
      List.eq_of_mem_replicate (n := j) (by
        rw [show List.replicate j (sy ' ') = p ++ sy ' ' :: q from hj]; exact List.mem_append_left _ hn)
    have hq : ∀ n ∈ q, n = sy ' ' := fun n hn =>
      List.eq_of_mem_replicate (n := j) (by
        rw [show List.replicate j (sy ' ') = p ++ sy ' ' :: q from hj]
        exact List.mem_append_right _ (List.mem_cons_of_mem _ hn))
    have hl : p.length + (q.length + 1) = j := by
      have := congrArg List.length hj
      simp only [sp, List.length_replicate, List.length_append, List.length_cons] at this
      omega
    rw [List.eq_replicate_of_mem hp, List.eq_replicate_of_mem hq, List.replicate_append_replicate]
    unfold sp
    congr 1
    omega
  have hno : ∀ p q : Row, sign.map sy = p ++ sy ' ' :: q → False := by
    intro p q h1
    have : sy ' ' ∈ sign.map sy := by rw [h1]; exact List.mem_append_right _ List.mem_cons_self
    obtain ⟨c, hc, he⟩ := List.mem_map.1 this
    rw [sy_inj.1 he] at hc
    exact hs hc
  induction h with
  | sign j =>
    intro p q h1
    rcases List.append_eq_append_iff.1 h1 with ⟨a, rfl, h4⟩ | ⟨c, h3, h4⟩
    · rw [List.append_assoc, hsp j a q h4]
      exact .sign _
    · cases c with
      | nil =>
        rw [List.append_nil] at h3
        rw [← h3, ← List.nil_append q, hsp j [] q h4.symm]
        exact .sign _
      | cons n c =>
        simp only [List.cons_append, List.cons.injEq] at h4
        obtain ⟨rfl, -⟩ := h4
        exact absurd h3 (hno p c)
  | @script ss r k cell j hw ih =>
    intro p q h1
    rcases List.append_eq_append_iff.1 h1 with ⟨a, rfl, h4⟩ | ⟨c, h3, h4⟩
    · cases a with
      | nil => cases h4
      | cons n a =>
        simp only [List.cons_append, List.cons.injEq] at h4
        obtain ⟨rfl, h4⟩ := h4
        have := WritesOp.script (k := k) (q := cell) (j - 1) hw
        rw [← hsp j a q h4] at this
        simpa using this
    · cases c with
      | nil => cases h4
      | cons n c =>
        simp only [List.cons_append, List.cons.injEq] at h4
        obtain ⟨rfl, rfl⟩ := h4
        have := WritesOp.script (k := k) (q := cell) j (ih p c h3)
        simpa using this

theorem preText_sort (o : PreOp) : o.text.length = 1 ∨ ∀ c ∈ o.text, c.isAlpha = true := by
  cases o <;> decide

theorem space_letters : sy ' ' ∉ PreOp.limSup.text.map sy ∧ sy ' ' ∉ PreOp.limInf.text.map sy := by decide

/-- Another space does not change what is written. -/
theorem writes_insert (hx : x.Usual) {e : Formula} {l r : Nat} {row : Row} (h : e.Writes x l r row) :
    ∀ p q : Row, row = p ++ q → Neutral x p q → e.Writes x l r (p ++ sy ' ' :: q) := by
  have br : ∀ {e : Formula} {l r : Nat} {w p q : Row}, e.Writes x l r (w ++ inBrackets []) → inBrackets [] = p ++ q →
      Neutral x (w ++ p) q → p = [] ∨ q = [] := by
    intro e l r w p q _ h2 h3
    rcases brackets_split h2 with h | h | ⟨a, b, h4, rfl, rfl⟩
    · exact .inl h
    · exact .inr h
    · obtain ⟨rfl, rfl⟩ := List.append_eq_nil_iff.1 h4.symm
      refine absurd ⟨?_, rfl⟩ h3.brackets
      rw [List.getLast?_append]
      rfl
  induction h with
  | @number l r s h =>
    intro p q h1 h2
    refine writes_edge (h1 ▸ .number h) (h2.words h1 fun n hn => ?_)
    obtain ⟨c, hc, rfl⟩ := List.mem_map.1 hn
    exact ⟨c, rfl, .inr (.inr (isNumber_chars h c hc))⟩
  | @«variable» l r s h =>
    intro p q h1 h2
    refine writes_edge (h1 ▸ .variable h) (h2.words h1 fun n hn => ?_)
    obtain ⟨c, hc, rfl⟩ := List.mem_map.1 hn
    refine ⟨c, rfl, ?_⟩
    rcases isName_chars h c hc with h | h
    · exact .inl h
    · exact .inr (.inl h)
  | constant => exact fun p q h1 _ => writes_edge (h1 ▸ .constant) (single_split h1)
  | @string l r s t h =>
    intro p q h1 h2
    refine writes_edge (h1 ▸ .string h) ?_
    cases p with
    | nil => exact .inl rfl
    | cons n p =>
      simp only [List.cons_append, List.cons.injEq] at h1
      obtain ⟨rfl, h1⟩ := h1
      refine .inr ?_
      rcases List.append_eq_append_iff.1 h1 with ⟨a, rfl, h4⟩ | ⟨c, h3, rfl⟩
      · cases a with
        | nil => 
          refine absurd h2.quote ?_
          exact escapes_inside h _ [] (by simp)
        | cons b a =>
          simp only [List.cons_append, List.cons.injEq] at h4
          exact (List.append_eq_nil_iff.1 h4.2.symm).2
      · exact absurd h2.quote (escapes_inside h p c h3)
  | @bin l r a b p w q o n ks ss rows hl hr ha hw hs hb ih1 ih2 ih3 =>
    intro P Q h1 h2
    rcases List.append_eq_append_iff.1 h1 with ⟨a', rfl, h4⟩ | ⟨c, h3, rfl⟩
    · have hq := quoteAfter_writes hx ha
      rcases List.append_eq_append_iff.1 h4 with ⟨a'', rfl, h5⟩ | ⟨c, h5, rfl⟩
      · have := ih3 a'' Q h5 (Neutral.sub (pre := p ++ w) (post := []) (by simpa using h2)
          (quoteAfter_join hq (quoteAfter_op (binChar_ne _).1 hw)))
        have := Formula.Writes.bin hl hr ha hw hs this
        simpa using this
      · rcases op_insert hx (.inl rfl) hw a' c h5 (Neutral.sub (pre := p) h2 hq) with h6 | h6
        · subst h6
          have := Formula.Writes.bin hl hr (.after ha) hw hs hb
          rw [List.nil_append] at h5
          subst h5
          simpa using this
        · have := Formula.Writes.bin hl hr ha h6 hs hb
          simpa using this
    · have := Formula.Writes.bin hl hr (ih1 P c h3 (Neutral.sub (pre := []) h2 rfl)) hw hs hb
      simpa using this
  | @pre l r a w q o n ks ss rows hr hw hs ha hj ih1 ih2 =>
    intro P Q h1 h2
    rcases List.append_eq_append_iff.1 h1 with ⟨a', rfl, h4⟩ | ⟨c, h3, rfl⟩
    · have := ih2 a' Q h4 (Neutral.sub (pre := w) (post := []) (by simpa using h2)
          (quoteAfter_op (preText_ne _).1 hw))
      have := Formula.Writes.pre (l := l) hr hw hs this (by
        rw [h4] at hj
        rw [← List.append_assoc] at hj ⊢
        exact joins_skip space_letters hj)
      simpa using this
    · rcases op_insert hx (preText_sort o) hw P c h3 (Neutral.sub (pre := []) h2 rfl) with rfl | h6
      · rw [List.nil_append] at h1 ⊢
        rw [← h1]
        exact .before (.pre hr hw hs ha hj)
      · have := Formula.Writes.pre (l := l) hr h6 hs ha (by
          rw [h1] at hj
          rw [List.append_assoc]
          exact joins_skip space_letters hj)
        simpa using this
  | @post l r a p o ha ih =>
    intro P Q h1 h2
    rcases List.append_eq_append_iff.1 h1 with ⟨a', rfl, h4⟩ | ⟨c, h3, rfl⟩
    · rcases single_split h4 with rfl | rfl
      · have := Formula.Writes.post (r := r) (o := o) (.after ha)
        rw [List.nil_append] at h4
        subst h4
        simpa using this
      · exact writes_edge (h1 ▸ .post ha) (.inr rfl)
    · have := Formula.Writes.post (r := r) (o := o) (ih P c h3 (Neutral.sub (pre := []) h2 rfl))
      simpa using this
  | @script l r a b p q k ha hb ih1 ih2 =>
    intro P Q h1 h2
    rcases List.append_eq_append_iff.1 h1 with ⟨a', rfl, h4⟩ | ⟨c, h3, rfl⟩
    · rcases single_split h4 with rfl | rfl
      · have := Formula.Writes.script (r := r) (k := k) (.after ha) hb
        rw [List.nil_append] at h4
        subst h4
        simpa using this
      · exact writes_edge (h1 ▸ .script ha hb) (.inr rfl)
    · have := Formula.Writes.script (r := r) (k := k) (ih1 P c h3 (Neutral.sub (pre := []) h2 rfl)) hb
      simpa using this
  | @apply l r a b p q ha hb ih1 ih2 =>
    intro P Q h1 h2
    rcases List.append_eq_append_iff.1 h1 with ⟨a', rfl, h4⟩ | ⟨c, h3, rfl⟩
    · rcases brackets_split h4 with rfl | rfl | ⟨a1, b1, h5, rfl, rfl⟩
      · have := Formula.Writes.apply (r := r) (.after ha) hb
        rw [List.nil_append] at h4
        rw [← h4]
        simpa using this
      · exact writes_edge (h1 ▸ .apply ha hb) (.inr rfl)
      · have := Formula.Writes.apply (r := r) ha (ih2 a1 b1 h5 (Neutral.sub (pre := p ++ [sy '(']) (post := [sy ')'])
          (by simpa using h2) (quoteAfter_join (quoteAfter_writes hx ha) (by decide))))
        rw [List.append_assoc, brackets_insert]
        exact this
    · have := Formula.Writes.apply (r := r) (ih1 P c h3 (Neutral.sub (pre := []) h2 rfl)) hb
      simpa using this
  | @call l r a p ha ih =>
    intro P Q h1 h2
    rcases List.append_eq_append_iff.1 h1 with ⟨a', rfl, h4⟩ | ⟨c, h3, rfl⟩
    · rcases br (.call (r := r) ha) h4 h2 with rfl | rfl
      · have := Formula.Writes.call (r := r) (.after ha)
        rw [List.nil_append] at h4
        rw [← h4]
        simpa using this
      · exact writes_edge (h1 ▸ .call ha) (.inr rfl)
    · have := Formula.Writes.call (r := r) (ih P c h3 (Neutral.sub (pre := []) h2 rfl))
      simpa using this
  | @unit l r =>
    intro P Q h1 h2
    exact writes_edge (h1 ▸ .unit) (br (w := []) (.unit (l := l) (r := r)) h1 h2)
  | fraction ha hb => exact fun p q h1 _ => writes_edge (h1 ▸ .fraction ha hb) (single_split h1)
  | root ha hb => exact fun p q h1 _ => writes_edge (h1 ▸ .root ha hb) (single_split h1)
  | table h1 h2 h3 h4 => exact fun p q h5 _ => writes_edge (h5 ▸ .table h1 h2 h3 h4) (single_split h5)
  | @brackets l r e p he ih =>
    intro P Q h1 h2
    rcases brackets_split h1 with h | h | ⟨a1, b1, h5, rfl, rfl⟩
    · exact writes_edge (h1 ▸ .brackets he) (.inl h)
    · exact writes_edge (h1 ▸ .brackets he) (.inr h)
    · rw [brackets_insert]
      exact .brackets (ih a1 b1 h5 (Neutral.sub (pre := [sy '(']) (post := [sy ')']) (by simpa using h2) (by decide)))
  | @before l r e p he ih =>
    intro P Q h1 h2
    cases P with
    | nil => exact writes_edge (h1 ▸ .before he) (.inl rfl)
    | cons n P =>
      simp only [List.cons_append, List.cons.injEq] at h1
      obtain ⟨rfl, h1⟩ := h1
      exact .before (ih P Q h1 (Neutral.sub (pre := [sy ' ']) (post := []) (by simpa using h2) (by decide)))
  | @after l r e p he ih =>
    intro P Q h1 h2
    rcases List.append_eq_append_iff.1 h1 with ⟨a', rfl, h4⟩ | ⟨c, h3, rfl⟩
    · rcases single_split h4 with rfl | rfl
      · have := Formula.Writes.after (.after he)
        rw [List.nil_append] at h4
        subst h4
        simpa using this
      · exact writes_edge (h1 ▸ .after he) (.inr rfl)
    · have := Formula.Writes.after (ih P c h3 (Neutral.sub (pre := []) h2 rfl))
      simpa using this

/-! ## Taking a space away -/

theorem no_space_map {t : List Char} (ht : ' ' ∉ t) {p q : Row} (h : t.map sy = p ++ sy ' ' :: q) : False := by
  have : sy ' ' ∈ t.map sy := by rw [h]; exact List.mem_append_right _ List.mem_cons_self
  obtain ⟨c, hc, he⟩ := List.mem_map.1 this
  rw [sy_inj.1 he] at hc
  exact ht hc

theorem no_space_single {n : Node} (hn : n ≠ sy ' ') {p q : Row} (h : [n] = p ++ sy ' ' :: q) : False := by
  have : sy ' ' ∈ [n] := by rw [h]; exact List.mem_append_right _ List.mem_cons_self
  exact hn (List.mem_singleton.1 this).symm

/-- A node in one of the two parts of a row. -/
theorem append_node {a b p q : Row} {n : Node} (h : a ++ b = p ++ n :: q) :
    (∃ c, a = p ++ n :: c ∧ q = c ++ b) ∨ ∃ c, p = a ++ c ∧ b = c ++ n :: q := by
  rcases List.append_eq_append_iff.1 h with ⟨c, h1, h2⟩ | ⟨c, h1, h2⟩
  · exact .inr ⟨c, h1, h2⟩
  · cases c with
    | nil =>
      refine .inr ⟨[], ?_, h2.symm⟩
      rw [h1, List.append_nil, List.append_nil]
    | cons n c =>
      simp only [List.cons_append, List.cons.injEq] at h2
      obtain ⟨rfl, h2⟩ := h2
      exact .inl ⟨c, h1, h2⟩

theorem brackets_space {w p q : Row} (h : inBrackets w = p ++ sy ' ' :: q) :
    ∃ a b, w = a ++ sy ' ' :: b ∧ p = sy '(' :: a ∧ q = b ++ [sy ')'] := by
  cases p with
  | nil =>
    simp only [inBrackets, List.nil_append, List.cons_append, List.cons.injEq] at h
    exact absurd h.1 (by decide)
  | cons n p =>
    simp only [inBrackets, List.cons_append, List.cons.injEq] at h
    obtain ⟨rfl, h⟩ := h
    rcases append_node h with ⟨c, h1, h2⟩ | ⟨c, -, h2⟩
    · exact ⟨p, c, h1, rfl, h2⟩
    · exact (no_space_single (by decide) h2).elim

/-- The sign of the operator is at the start. -/
theorem op_starts {sign : List Char} {ss : List (ScriptKind × Row)} {w : Row} (h : WritesOp sign ss w) :
    sign.map sy <+: w := by
  induction h with
  | sign j => exact List.prefix_append _ _
  | script _ _ ih => exact ih.trans (List.prefix_append _ _)

/-- Without a space at such a place no longer sign comes about. -/
theorem joins_remove (hx : x.Usual) {o : PreOp} {p q : Row} (hp : o = .lim → p ≠ []) (hn : Neutral x p q)
    (h : o.joins (p ++ sy ' ' :: q) = false) : o.joins (p ++ q) = false := by
  rw [joins_false] at h ⊢
  intro ho
  have key : ∀ t : List Char, (∀ c ∈ t, c.isAlpha = true) → ¬ t.map sy <+: p ++ sy ' ' :: q →
      ¬ t.map sy <+: p ++ q := by
    intro t ht h1 h2
    have hw : ∀ n ∈ t.map sy, IsWordNode x n := by
      intro n hn
      obtain ⟨c, hc, rfl⟩ := List.mem_map.1 hn
      exact ⟨c, rfl, .inl (hx.letters c (ht c hc)).1⟩
    rcases List.prefix_or_prefix_of_prefix h2 (List.prefix_append p q) with h3 | ⟨t', h3⟩
    · exact h1 (h3.trans (List.prefix_append _ _))
    · rw [← h3, List.prefix_append_right_inj] at h2
      obtain ⟨a, ha⟩ : ∃ a, p.getLast? = some a := ⟨_, List.getLast?_eq_some_getLast (hp ho)⟩
      cases t' with
      | nil =>
        rw [List.append_nil] at h3
        exact h1 (h3 ▸ List.prefix_append _ _)
      | cons b t' =>
        obtain ⟨q', rfl⟩ := h2
        refine hn.word a b ha rfl ⟨hw a ?_, hw b ?_⟩
        · rw [← h3]; exact List.mem_append_left _ (List.mem_of_getLast? ha)
        · rw [← h3]; exact List.mem_append_right _ List.mem_cons_self
  obtain ⟨h1, h2⟩ := h ho
  exact ⟨key _ (by decide) h1, key _ (by decide) h2⟩

/-- A space less does not change what is written. -/
theorem writes_remove (hx : x.Usual) {e : Formula} {l r : Nat} {row : Row} (h : e.Writes x l r row) :
    ∀ p q : Row, row = p ++ sy ' ' :: q → Neutral x p q → e.Writes x l r (p ++ q) := by
  induction h with
  | number h => exact fun p q h1 _ => (no_space_map (isNumber_not h (by decide) (by decide)) h1).elim
  | «variable» h => exact fun p q h1 _ => (no_space_map (isName_not hx h (by decide)) h1).elim
  | constant => exact fun p q h1 _ => (no_space_single (constChar_ne _).2 h1).elim
  | @string l r s t h =>
    intro p q h1 h2
    cases p with
    | nil =>
      simp only [List.nil_append, List.cons_append, List.cons.injEq] at h1
      exact absurd h1.1 (by decide)
    | cons n p =>
      simp only [List.cons_append, List.cons.injEq] at h1
      obtain ⟨rfl, h1⟩ := h1
      rcases append_node h1 with ⟨c, h3, -⟩ | ⟨c, -, h3⟩
      · exact absurd h2.quote (escapes_inside h p _ h3)
      · exact (no_space_single (by decide) h3).elim
  | @bin l r a b p w q o n ks ss rows hl hr ha hw hs hb ih1 ih2 ih3 =>
    intro P Q h1 h2
    rcases append_node h1 with ⟨c, h3, rfl⟩ | ⟨c, rfl, h4⟩
    · have := Formula.Writes.bin hl hr (ih1 P c h3 (Neutral.sub (pre := []) h2 rfl)) hw hs hb
      simpa using this
    · have hq := quoteAfter_writes hx ha
      rcases append_node h4 with ⟨c', h3, rfl⟩ | ⟨c', rfl, h6⟩
      · have := Formula.Writes.bin hl hr ha (op_remove (binChar_ne _).2 hw c c' h3) hs hb
        simpa using this
      · have := ih3 c' Q h6 (Neutral.sub (pre := p ++ w) (post := []) (by simpa using h2)
          (quoteAfter_join hq (quoteAfter_op (binChar_ne _).1 hw)))
        have := Formula.Writes.bin hl hr ha hw hs this
        simpa using this
  | @pre l r a w q o n ks ss rows hr hw hs ha hj ih1 ih2 =>
    intro P Q h1 h2
    have hP : o = .lim → P ≠ [] := by
      rintro rfl rfl
      obtain ⟨w', hw'⟩ := op_starts hw
      rw [← hw'] at h1
      simp only [PreOp.text, List.map_cons, List.cons_append, List.nil_append, List.cons.injEq] at h1
      exact absurd h1.1 (by decide)
    rw [h1] at hj
    have hj' := joins_remove hx hP h2 hj
    rcases append_node h1 with ⟨c, h3, rfl⟩ | ⟨c, rfl, h4⟩
    · have := Formula.Writes.pre (l := l) hr (op_remove (preText_ne _).2 hw P c h3) hs ha
        (by rw [List.append_assoc]; exact hj')
      simpa using this
    · have := ih2 c Q h4 (Neutral.sub (pre := w) (post := []) (by simpa using h2)
          (quoteAfter_op (preText_ne _).1 hw))
      have := Formula.Writes.pre (l := l) hr hw hs this (by rw [← List.append_assoc]; exact hj')
      simpa using this
  | @post l r a p o ha ih =>
    intro P Q h1 h2
    rcases append_node h1 with ⟨c, h3, rfl⟩ | ⟨c, rfl, h4⟩
    · have := Formula.Writes.post (r := r) (o := o) (ih P c h3 (Neutral.sub (pre := []) h2 rfl))
      simpa using this
    · exact (no_space_single (postChar_ne _).2 h4).elim
  | @script l r a b p q k ha hb ih1 ih2 =>
    intro P Q h1 h2
    rcases append_node h1 with ⟨c, h3, rfl⟩ | ⟨c, rfl, h4⟩
    · have := Formula.Writes.script (r := r) (k := k) (ih1 P c h3 (Neutral.sub (pre := []) h2 rfl)) hb
      simpa using this
    · exact (no_space_single (by simp [sy]) h4).elim
  | @apply l r a b p q ha hb ih1 ih2 =>
    intro P Q h1 h2
    rcases append_node h1 with ⟨c, h3, rfl⟩ | ⟨c, rfl, h4⟩
    · have := Formula.Writes.apply (r := r) (ih1 P c h3 (Neutral.sub (pre := []) h2 rfl)) hb
      simpa using this
    · obtain ⟨a1, b1, h5, rfl, rfl⟩ := brackets_space h4
      have := Formula.Writes.apply (r := r) ha (ih2 a1 b1 h5 (Neutral.sub (pre := p ++ [sy '(']) (post := [sy ')'])
          (by simpa using h2) (quoteAfter_join (quoteAfter_writes hx ha) (by decide))))
      simpa [inBrackets] using this
  | @call l r a p ha ih =>
    intro P Q h1 h2
    rcases append_node h1 with ⟨c, h3, rfl⟩ | ⟨c, rfl, h4⟩
    · have := Formula.Writes.call (r := r) (ih P c h3 (Neutral.sub (pre := []) h2 rfl))
      simpa using this
    · obtain ⟨a1, b1, h5, -⟩ := brackets_space h4
      simp at h5
  | unit =>
    intro P Q h1 _
    obtain ⟨a1, b1, h5, -⟩ := brackets_space h1
    simp at h5
  | fraction => exact fun p q h1 _ => (no_space_single (by simp [sy]) h1).elim
  | root => exact fun p q h1 _ => (no_space_single (by simp [sy]) h1).elim
  | table => exact fun p q h1 _ => (no_space_single (by simp [sy]) h1).elim
  | @brackets l r e p he ih =>
    intro P Q h1 h2
    obtain ⟨a1, b1, h5, rfl, rfl⟩ := brackets_space h1
    have := Formula.Writes.brackets (l := l) (r := r)
      (ih a1 b1 h5 (Neutral.sub (pre := [sy '(']) (post := [sy ')']) (by simpa using h2) (by decide)))
    simpa [inBrackets] using this
  | @before l r e p he ih =>
    intro P Q h1 h2
    cases P with
    | nil =>
      simp only [List.nil_append, List.cons.injEq, true_and] at h1
      exact h1 ▸ he
    | cons n P =>
      simp only [List.cons_append, List.cons.injEq] at h1
      obtain ⟨rfl, h1⟩ := h1
      exact .before (ih P Q h1 (Neutral.sub (pre := [sy ' ']) (post := []) (by simpa using h2) (by decide)))
  | @after l r e p he ih =>
    intro P Q h1 h2
    rcases append_node h1 with ⟨c, h3, rfl⟩ | ⟨c, rfl, h4⟩
    · have := Formula.Writes.after (ih P c h3 (Neutral.sub (pre := []) h2 rfl))
      simpa using this
    · cases c with
      | nil =>
        simp only [List.nil_append, List.cons.injEq, true_and] at h4
        subst h4
        simpa using he
      | cons n c => simp at h4

/-! ## Within cells -/

theorem ofFn_split {α : Type} {n : Nat} {f : Fin n → α} {l₁ l₂ : List α} {a : α} (b : α)
    (h : List.ofFn f = l₁ ++ a :: l₂) : ∃ i : Fin n, f i = a ∧
      List.ofFn (fun j => if j = i then b else f j) = l₁ ++ b :: l₂ := by
  have hl : n = l₁.length + (l₂.length + 1) := by
    have := congrArg List.length h
    simpa using this
  have hi : l₁.length < n := by omega
  have hget : ∀ (j : Nat) (hj : j < n), some (f ⟨j, hj⟩) = (l₁ ++ a :: l₂)[j]? := by
    intro j hj
    rw [← h, List.getElem?_ofFn, dif_pos hj]
  refine ⟨⟨l₁.length, hi⟩, ?_, ?_⟩
  · have := hget l₁.length hi
    rw [List.getElem?_append_right (Nat.le_refl _), Nat.sub_self] at this
    exact Option.some.inj this
  · apply List.ext_getElem?
    intro j
    rw [List.getElem?_ofFn]
    by_cases hj : j < n
    · rw [dif_pos hj]
      by_cases he : j = l₁.length
      · subst he
        rw [List.getElem?_append_right (Nat.le_refl _), Nat.sub_self]
        simp
      · have h1 : (⟨j, hj⟩ : Fin n) ≠ ⟨l₁.length, hi⟩ := fun h => he (by simpa using h)
        rw [if_neg h1, hget j hj]
        rcases Nat.lt_or_gt_of_ne he with hlt | hgt
        · rw [List.getElem?_append_left hlt, List.getElem?_append_left hlt]
        · rw [List.getElem?_append_right (by omega), List.getElem?_append_right (by omega)]
          obtain ⟨k, hk⟩ : ∃ k, j - l₁.length = k + 1 := ⟨j - l₁.length - 1, by omega⟩
          rw [hk, List.getElem?_cons_succ, List.getElem?_cons_succ]
    · rw [dif_neg hj]
      symm
      rw [List.getElem?_eq_none_iff]
      simp only [List.length_append, List.length_cons]
      omega

theorem no_container_map {t : List Char} {p q : Row} {v : Variant} {cells : List Row} {w : Nat}
    (h : t.map sy = p ++ .container v cells w :: q) : False := by
  have : Node.container v cells w ∈ t.map sy := by rw [h]; exact List.mem_append_right _ List.mem_cons_self
  obtain ⟨c, -, he⟩ := List.mem_map.1 this
  cases he

theorem single_node {a n : Node} {p q : Row} (h : [a] = p ++ n :: q) : a = n ∧ p = [] ∧ q = [] := by
  cases p with
  | nil =>
    simp only [List.nil_append, List.cons.injEq] at h
    exact ⟨h.1, rfl, h.2.symm⟩
  | cons b p => simp at h

theorem sp_node {j : Nat} {n : Node} {p q : Row} (h : sp j = p ++ n :: q) : n = sy ' ' :=
  List.eq_of_mem_replicate (n := j) (by
    rw [show List.replicate j (sy ' ') = p ++ n :: q from h]; exact List.mem_append_right _ List.mem_cons_self)

theorem op_cell {sign : List Char} {ss : List (ScriptKind × Row)} {w : Row} (h : WritesOp sign ss w) :
    ∀ (p q : Row) (v : Variant) (cells : List Row) (wd : Nat), w = p ++ .container v cells wd :: q →
      ∃ k c ss₁ ss₂, ss = ss₁ ++ (k, c) :: ss₂ ∧ v = k.variant ∧ cells = [c] ∧ wd = 1 ∧
        ∀ c', WritesOp sign (ss₁ ++ (k, c') :: ss₂) (p ++ .container k.variant [c'] 1 :: q) := by
  induction h with
  | sign j =>
    intro p q v cells wd h1
    rcases append_node h1 with ⟨c, h3, -⟩ | ⟨c, -, h4⟩
    · exact (no_container_map h3).elim
    · cases sp_node h4
  | @script ss r k cell j hw ih =>
    intro p q v cells wd h1
    rcases append_node h1 with ⟨c, h3, rfl⟩ | ⟨c, rfl, h4⟩
    · obtain ⟨k', c', ss₁, ss₂, rfl, h5, h6, h7, h8⟩ := ih p c v cells wd h3
      refine ⟨k', c', ss₁, ss₂ ++ [(k, cell)], by simp, h5, h6, h7, fun c'' => ?_⟩
      have := WritesOp.script (k := k) (q := cell) j (h8 c'')
      simpa using this
    · cases c with
      | nil =>
        simp only [List.nil_append, List.cons.injEq, Node.container.injEq] at h4
        obtain ⟨⟨rfl, rfl, rfl⟩, rfl⟩ := h4
        refine ⟨k, cell, ss, [], rfl, rfl, rfl, rfl, fun c'' => ?_⟩
        have := WritesOp.script (k := k) (q := c'') j hw
        simpa using this
      | cons n c =>
        simp only [List.cons_append, List.cons.injEq] at h4
        cases sp_node h4.2

theorem container_letters (v : Variant) (cells : List Row) (w : Nat) :
    Node.container v cells w ∉ PreOp.limSup.text.map sy ∧ Node.container v cells w ∉ PreOp.limInf.text.map sy := by
  constructor <;> (intro h; obtain ⟨c, -, he⟩ := List.mem_map.1 h; cases he)

/-- A row of a cell is replaced by another one for the same formulas. -/
theorem writes_cell {c c' : Row} (hc : ∀ e : Formula, e.Writes x 0 0 c → e.Writes x 0 0 c') {e : Formula}
    {l r : Nat} {row : Row} (h : e.Writes x l r row) : ∀ (p q : Row) (v : Variant) (cells : List Row) (w i : Nat),
      row = p ++ .container v cells w :: q → cells[i]? = some c →
      e.Writes x l r (p ++ .container v (cells.set i c') w :: q) := by
  have one : ∀ {d : Row} {i : Nat}, [d][i]? = some c → d = c ∧ [d].set i c' = [c'] := by
    intro d i hi
    match i with
    | 0 => exact ⟨by simpa using hi, rfl⟩
    | i + 1 => simp at hi
  have two : ∀ {d d' : Row} {i : Nat} {a b : Formula}, [d, d'][i]? = some c → a.Writes x 0 0 d → b.Writes x 0 0 d' →
      ∃ u u', [d, d'].set i c' = [u, u'] ∧ a.Writes x 0 0 u ∧ b.Writes x 0 0 u' := by
    intro d d' i a b hi ha hb
    match i with
    | 0 =>
      simp only [List.getElem?_cons_zero, Option.some.injEq] at hi
      exact ⟨c', d', rfl, hc a (hi ▸ ha), hb⟩
    | 1 =>
      simp only [List.getElem?_cons_succ, List.getElem?_cons_zero, Option.some.injEq] at hi
      exact ⟨d, c', rfl, ha, hc b (hi ▸ hb)⟩
    | i + 2 => simp at hi
  have brk : ∀ {q' p q : Row} {v cells w}, inBrackets q' = p ++ Node.container v cells w :: q →
      ∃ a b, q' = a ++ Node.container v cells w :: b ∧ p = sy '(' :: a ∧ q = b ++ [sy ')'] := by
    intro q' p q v cells w h
    cases p with
    | nil => cases h
    | cons n p =>
      simp only [inBrackets, List.cons_append, List.cons.injEq] at h
      obtain ⟨rfl, h⟩ := h
      rcases append_node h with ⟨b, h1, h2⟩ | ⟨b, -, h2⟩
      · exact ⟨p, b, h1, rfl, h2⟩
      · cases (single_node h2).1
  have ops : ∀ {sign : List Char} {n : Nat} {ks : Fin n → ScriptKind} {ss : Fin n → Formula} {rows : Fin n → Row}
      {w : Row} {p q : Row} {v : Variant} {cells : List Row} {wd i : Nat},
      WritesOp sign (List.ofFn fun i => (ks i, rows i)) w → (∀ i, (ss i).Writes x 0 0 (rows i)) →
      w = p ++ .container v cells wd :: q → cells[i]? = some c →
      ∃ rows' : Fin n → Row, WritesOp sign (List.ofFn fun i => (ks i, rows' i)) (p ++ .container v (cells.set i c') wd :: q) ∧
        ∀ i, (ss i).Writes x 0 0 (rows' i) := by
    intro sign n ks ss rows w p q v cells wd i hw hs h1 h2
    obtain ⟨k, d, ss₁, ss₂, h3, rfl, rfl, rfl, h4⟩ := op_cell hw p q v cells wd h1
    obtain ⟨rfl, h5⟩ := one h2
    obtain ⟨i', h6, h7⟩ := ofFn_split (k, c') h3
    simp only [Prod.mk.injEq] at h6
    refine ⟨fun j => if j = i' then c' else rows j, ?_, fun j => ?_⟩
    · rw [h5]
      have := h4 c'
      rw [← h7] at this
      have he : (fun j => (ks j, if j = i' then c' else rows j)) =
          fun j => if j = i' then (k, c') else (ks j, rows j) := by
        funext j
        by_cases hj : j = i'
        · subst hj
          simp only [if_true, h6.1]
        · simp only [if_neg hj]
      rw [he]
      exact this
    · by_cases hj : j = i'
      · subst hj
        simp only [if_true]
        exact hc _ (h6.2 ▸ hs j)
      · simp only [if_neg hj]
        exact hs j
  induction h with
  | number h => exact fun p q v cells w i h1 _ => (no_container_map h1).elim
  | «variable» h => exact fun p q v cells w i h1 _ => (no_container_map h1).elim
  | constant => exact fun p q v cells w i h1 _ => by cases (single_node h1).1
  | @string l r s t h =>
    intro p q v cells w i h1 _
    have e : sy '"' :: t.map sy ++ [sy '"'] = ('"' :: t ++ ['"']).map sy := by simp
    rw [e] at h1
    exact (no_container_map h1).elim
  | @bin l r a b p w q o n ks ss rows hl hr ha hw hs hb ih1 ih2 ih3 =>
    intro P Q v cells wd i h1 h2
    rcases append_node h1 with ⟨d, h3, rfl⟩ | ⟨d, rfl, h4⟩
    · have := Formula.Writes.bin hl hr (ih1 P d v cells wd i h3 h2) hw hs hb
      simpa using this
    · rcases append_node h4 with ⟨d', h3, rfl⟩ | ⟨d', rfl, h7⟩
      · obtain ⟨rows', h5, h6⟩ := ops hw hs h3 h2
        have := Formula.Writes.bin hl hr ha h5 h6 hb
        simpa using this
      · have := Formula.Writes.bin hl hr ha hw hs (ih3 d' Q v cells wd i h7 h2)
        simpa using this
  | @pre l r a w q o n ks ss rows hr hw hs ha hj ih1 ih2 =>
    intro P Q v cells wd i h1 h2
    rw [h1] at hj
    have hj' : o.joins (P ++ .container v (cells.set i c') wd :: Q) = false := joins_skip (container_letters _ _ _) hj
    rcases append_node h1 with ⟨d, h3, rfl⟩ | ⟨d, rfl, h4⟩
    · obtain ⟨rows', h5, h6⟩ := ops hw hs h3 h2
      have := Formula.Writes.pre (l := l) hr h5 h6 ha (by simpa using hj')
      simpa using this
    · have := Formula.Writes.pre (l := l) hr hw hs (ih2 d Q v cells wd i h4 h2) (by simpa using hj')
      simpa using this
  | @post l r a p o ha ih =>
    intro P Q v cells wd i h1 h2
    rcases append_node h1 with ⟨d, h3, rfl⟩ | ⟨d, rfl, h4⟩
    · have := Formula.Writes.post (r := r) (o := o) (ih P d v cells wd i h3 h2)
      simpa using this
    · cases (single_node h4).1
  | @script l r a b p q k ha hb ih1 ih2 =>
    intro P Q v cells wd i h1 h2
    rcases append_node h1 with ⟨d, h3, rfl⟩ | ⟨d, rfl, h4⟩
    · have := Formula.Writes.script (r := r) (k := k) (ih1 P d v cells wd i h3 h2) hb
      simpa using this
    · obtain ⟨h5, rfl, rfl⟩ := single_node h4
      cases h5
      obtain ⟨rfl, h6⟩ := one h2
      rw [h6, List.append_nil]
      exact .script ha (hc _ hb)
  | @apply l r a b p q ha hb ih1 ih2 =>
    intro P Q v cells wd i h1 h2
    rcases append_node h1 with ⟨d, h3, rfl⟩ | ⟨d, rfl, h4⟩
    · have := Formula.Writes.apply (r := r) (ih1 P d v cells wd i h3 h2) hb
      simpa using this
    · obtain ⟨a1, b1, h5, rfl, rfl⟩ := brk h4
      have := Formula.Writes.apply (r := r) ha (ih2 a1 b1 v cells wd i h5 h2)
      simpa [inBrackets] using this
  | @call l r a p ha ih =>
    intro P Q v cells wd i h1 h2
    rcases append_node h1 with ⟨d, h3, rfl⟩ | ⟨d, rfl, h4⟩
    · have := Formula.Writes.call (r := r) (ih P d v cells wd i h3 h2)
      simpa using this
    · obtain ⟨a1, b1, h5, -⟩ := brk h4
      simp at h5
  | unit =>
    intro P Q v cells wd i h1 h2
    obtain ⟨a1, b1, h5, -⟩ := brk h1
    simp at h5
  | fraction ha hb =>
    intro P Q v cells wd i h1 h2
    obtain ⟨h5, rfl, rfl⟩ := single_node h1
    cases h5
    obtain ⟨u, u', h6, h7, h8⟩ := two h2 ha hb
    rw [h6]
    exact .fraction h7 h8
  | root ha hb =>
    intro P Q v cells wd i h1 h2
    obtain ⟨h5, rfl, rfl⟩ := single_node h1
    cases h5
    obtain ⟨u, u', h6, h7, h8⟩ := two h2 ha hb
    rw [h6]
    exact .root h7 h8
  | @table l r w n cells rows h1 h2 h3 h4 =>
    intro P Q v cells' wd i h5 h6
    obtain ⟨h5, rfl, rfl⟩ := single_node h5
    cases h5
    obtain ⟨hi, he⟩ := List.getElem?_eq_some_iff.1 h6
    have hsplit := List.set_eq_take_append_cons_drop (a := c') (l := List.ofFn rows) (i := i)
    have h7 : List.ofFn rows = (List.ofFn rows).take i ++ c :: (List.ofFn rows).drop (i + 1) := by
      rw [← he, ← List.drop_eq_getElem_cons hi, List.take_append_drop]
    obtain ⟨j, h8, h9⟩ := ofFn_split c' h7
    rw [if_pos hi] at hsplit
    rw [hsplit, ← h9]
    refine .table h1 h2 h3 fun k => ?_
    by_cases hk : k = j
    · subst hk
      simp only [if_true]
      exact hc _ (h8 ▸ h4 k)
    · simp only [if_neg hk]
      exact h4 k
  | @brackets l r e p he ih =>
    intro P Q v cells wd i h1 h2
    obtain ⟨a1, b1, h5, rfl, rfl⟩ := brk h1
    have := Formula.Writes.brackets (l := l) (r := r) (ih a1 b1 v cells wd i h5 h2)
    simpa [inBrackets] using this
  | @before l r e p he ih =>
    intro P Q v cells wd i h1 h2
    cases P with
    | nil => cases h1
    | cons n P =>
      simp only [List.cons_append, List.cons.injEq] at h1
      obtain ⟨rfl, h1⟩ := h1
      exact .before (ih P Q v cells wd i h1 h2)
  | @after l r e p he ih =>
    intro P Q v cells wd i h1 h2
    rcases append_node h1 with ⟨d, h3, rfl⟩ | ⟨d, rfl, h4⟩
    · have := Formula.Writes.after (ih P d v cells wd i h3 h2)
      simpa using this
    · cases (single_node h4).1

theorem addSpace_writes (hx : x.Usual) {row row' : Row} (h : AddSpace x row row') :
    ∀ (e : Formula) (l r : Nat), e.Writes x l r row ↔ e.Writes x l r row' := by
  induction h with
  | here hn => exact fun e l r => ⟨fun h => writes_insert hx h _ _ rfl hn, fun h => writes_remove hx h _ _ rfl hn⟩
  | @cell p q v cells w c c' i hi _ ih =>
    intro e l r
    refine ⟨fun h => writes_cell (fun e he => (ih e 0 0).1 he) h p q v cells w i rfl hi, fun h => ?_⟩
    obtain ⟨hlt, hg⟩ := List.getElem?_eq_some_iff.1 hi
    have := writes_cell (c := c') (c' := c) (fun e he => (ih e 0 0).2 he) h p q v (cells.set i c') w i rfl
      (by rw [List.getElem?_set_self hlt])
    rw [List.set_set] at this
    rw [← hg, List.set_getElem_self] at this
    exact this

end Aftermath
