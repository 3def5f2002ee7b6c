import Verif.Proof.Loosest
import Verif.Proof.Edit

/-! # Lemmas for C114 -/

namespace Aftermath

variable {x : Xid}

/-! ## Places outside of quotes -/

theorem inQuotes_inside {l : List Str} (h : InQuotes l) : ∀ p q : Row, l.map Node.symbol = p ++ q →
    p.foldl Quote.next .inside ≠ .out := by
  induction h with
  | nil =>
    intro p q hp
    simp only [List.map_nil, List.nil_eq, List.append_eq_nil_iff] at hp
    rw [hp.1]
    nofun
  | @plain s l h1 h2 _ ih =>
    intro p q hp
    cases p with
    | nil => nofun
    | cons n p =>
      simp only [List.map_cons, List.cons_append, List.cons.injEq] at hp
      obtain ⟨rfl, hp⟩ := hp
      have : Quote.next .inside (.symbol s) = .inside := by
        simp only [Quote.next, sy, Node.symbol.injEq, h1, h2, if_false]
      rw [List.foldl_cons, this]
      exact ih p q hp
  | @escaped s l _ ih =>
    intro p q hp
    cases p with
    | nil => nofun
    | cons n p =>
      simp only [List.map_cons, List.cons_append, List.cons.injEq] at hp
      obtain ⟨rfl, hp⟩ := hp
      have : Quote.next .inside (.symbol ['\\']) = .escaped := by decide
      rw [List.foldl_cons, this]
      cases p with
      | nil => nofun
      | cons n p =>
        simp only [List.cons_append, List.cons.injEq] at hp
        exact ih p q hp.2

theorem inQuotes_end {l : List Str} (h : InQuotes l) :
    (l.map Node.symbol).foldl Quote.next .inside = .inside := by
  induction h with
  | nil => rfl
  | @plain s l h1 h2 _ ih =>
    have : Quote.next .inside (.symbol s) = .inside := by
      simp only [Quote.next, sy, Node.symbol.injEq, h1, h2, if_false]
    rw [List.map_cons, List.foldl_cons, this, ih]
  | @escaped s l _ ih =>
    have : Quote.next .inside (.symbol ['\\']) = .escaped := by decide
    rw [List.map_cons, List.map_cons, List.foldl_cons, List.foldl_cons, this]
    exact ih

/-- A row can be taken apart outside of quotes. -/
theorem balanced_cut {Y : Row} : ∀ (len : Nat) (p : Row) (b : Nat), p.length = len → quoteAfter p = .out →
    Balanced b (p ++ Y) → ∃ n, Balanced n Y := by
  intro len
  induction len using Nat.strongRecOn with
  | _ len ih =>
    intro p b hlen hq hb
    cases p with
    | nil => exact ⟨b, hb⟩
    | cons n p =>
      rw [List.length_cons] at hlen
      have step : n ≠ sy '"' → quoteAfter p = .out := fun hn => by
        rw [← hq, ← List.singleton_append, quoteAfter_append (p := [n])]
        exact quoteAfter_out fun k hk => by rw [List.mem_singleton.1 hk]; exact hn
      cases n with
      | container v c w => exact ih _ (by omega) p b rfl (step nofun) hb.container_tail
      | symbol s =>
        by_cases h3 : s = ['"']
        · subst h3
          obtain ⟨l, r', hl, he, hr⟩ := Balanced.quote hb
          have hq' : p.foldl Quote.next .inside = .out := hq
          rcases List.append_eq_append_iff.1 he with ⟨a, h1, -⟩ | ⟨a, rfl, h2⟩
          · exact absurd hq' (inQuotes_inside hl p a h1)
          · cases a with
            | nil => exact absurd hq' (inQuotes_inside hl _ [] (by simp))
            | cons m a =>
              rw [List.cons_append, List.cons.injEq] at h2
              obtain ⟨rfl, rfl⟩ := h2
              rw [List.foldl_append, inQuotes_end hl, List.foldl_cons] at hq'
              have : Quote.next .inside (.symbol ['"']) = .out := by decide
              rw [this] at hq'
              rw [List.length_append, List.length_cons] at hlen
              exact ih _ (by omega) a b rfl hq' hr
        have hq' := step (by simpa [sy] using h3)
        by_cases h1 : s = ['(']
        · subst h1
          exact ih _ (by omega) p (b + 1) rfl hq' hb.open
        by_cases h2 : s = [')']
        · subst h2
          obtain ⟨d, -, hd⟩ := hb.close
          exact ih _ (by omega) p d rfl hq' hd
        · exact ih _ (by omega) p b rfl hq' (hb.of_ordinary ⟨h1, h2, h3⟩)

theorem balanced_out {row : Row} {d : Nat} (h : Balanced d row) : quoteAfter row = .out := by
  induction h with
  | nil => rfl
  | container _ ih => exact (quoteAfter_append (p := [_]) (quoteAfter_out (by simp [sy]))).trans ih
  | opening _ ih => exact (quoteAfter_append (p := [sy '(']) (by decide)).trans ih
  | closing _ ih => exact (quoteAfter_append (p := [sy ')']) (by decide)).trans ih
  | @quotes d l r hl _ ih =>
    have : quoteAfter (.symbol ['"'] :: (l.map Node.symbol ++ [.symbol ['"']])) = .out := by
      have h1 : Quote.next .out (.symbol ['"']) = .inside := by decide
      have h2 : Quote.next .inside (.symbol ['"']) = .out := by decide
      rw [quoteAfter, List.foldl_cons, List.foldl_append, h1, inQuotes_end hl, List.foldl_cons, h2]
      rfl
    have h3 := (quoteAfter_append (q := r) this).trans ih
    simpa using h3
  | @other d s r _ _ h3 _ ih =>
    exact (quoteAfter_append (p := [.symbol s]) (quoteAfter_out (by simpa [sy] using h3))).trans ih

/-! ## Brackets in parts of a row -/

theorem brackets_balanced {u : Row} (hu : Balanced 0 u) : Balanced 0 (inBrackets u) :=
  (balanced_concat (x := ⟨fun _ => false, fun _ => false⟩)).brackets hu

/-- Brackets with their contents are in one of the two parts of a row. -/
theorem group_append {A B P Q u : Row} (h : A ++ B = P ++ (inBrackets u ++ Q)) (hA : Balanced 0 A)
    (hu : Balanced 0 u) (hP : quoteAfter P = .out) :
    (∃ c, A = P ++ (inBrackets u ++ c) ∧ Q = c ++ B) ∨ ∃ c, P = A ++ c ∧ B = c ++ (inBrackets u ++ Q) := by
  rcases List.append_eq_append_iff.1 h with ⟨c, h1, h2⟩ | ⟨c, rfl, h2⟩
  · exact .inr ⟨c, h1, h2⟩
  rcases List.append_eq_append_iff.1 h2 with ⟨d, rfl, h4⟩ | ⟨d, h3, rfl⟩
  · exact .inl ⟨d, rfl, h4⟩
  cases c with
  | nil => exact .inr ⟨[], by simp, by rw [← List.append_assoc, h3]; simp⟩
  | cons n c =>
    by_cases hd : d = []
    · subst hd
      rw [List.append_nil] at h3
      exact .inl ⟨[], by rw [h3]; simp, by simp⟩
    exfalso
    obtain ⟨k, hk⟩ := balanced_cut _ P 0 rfl hP hA
    have hg := brackets_balanced hu
    rw [h3] at hg
    obtain rfl : k = 0 := Nat.le_zero.1 (hk.le hg)
    simp only [inBrackets, List.cons_append, List.cons.injEq] at h3
    obtain ⟨rfl, h3⟩ := h3
    have h5 := Balanced.open hk
    rcases List.append_eq_append_iff.1 h3 with ⟨a, rfl, h6⟩ | ⟨a, rfl, h6⟩
    · cases a with
      | nil =>
        rw [List.append_nil] at h5
        have := balanced_unique h5 hu
        omega
      | cons m a =>
        simp only [List.cons_append, List.cons.injEq] at h6
        exact hd (List.append_eq_nil_iff.1 h6.2.symm).2
    · have := h5.le hu
      omega

/-- Brackets with their contents are brackets, or they are within them. -/
theorem group_brackets {q P Q u : Row} (h : inBrackets q = P ++ (inBrackets u ++ Q)) (hq : Balanced 0 q)
    (hu : Balanced 0 u) (hP : quoteAfter P = .out) :
    (P = [] ∧ Q = [] ∧ q = u) ∨
      ∃ a b, P = sy '(' :: a ∧ Q = b ++ [sy ')'] ∧ q = a ++ (inBrackets u ++ b) ∧ quoteAfter a = .out := by
  cases P with
  | nil =>
    refine .inl ⟨rfl, ?_⟩
    simp only [inBrackets, List.nil_append, List.cons_append, List.cons.injEq, true_and,
      List.append_assoc] at h
    rcases List.append_eq_append_iff.1 h with ⟨a, rfl, h2⟩ | ⟨a, rfl, h2⟩
    · cases a with
      | nil => exact ⟨by simpa using h2, by simp⟩
      | cons m a => simp at h2
    · cases a with
      | nil => exact ⟨by simpa using h2, by simp⟩
      | cons m a =>
        rw [List.cons_append, List.cons.injEq] at h2
        rw [← h2.1] at hq
        obtain ⟨d, hd, -⟩ := Balanced.close (hu.rest (b := 0) hq)
        omega
  | cons n a =>
    right
    have hn : n = sy '(' := by
      simp only [inBrackets, List.cons_append, List.cons.injEq] at h
      exact h.1.symm
    subst hn
    have ha : quoteAfter a = .out := by
      rw [← hP, ← List.singleton_append, quoteAfter_append (p := [sy '(']) (by decide)]
    rw [← List.append_assoc] at h
    rcases brackets_split h with h1 | rfl | ⟨a1, b1, rfl, h2, rfl⟩
    · simp at h1
    · exfalso
      simp only [inBrackets, List.append_nil, List.cons_append, List.cons.injEq, true_and] at h
      have h3 : q = a ++ sy '(' :: u := by
        have : q ++ [sy ')'] = (a ++ sy '(' :: u) ++ [sy ')'] := by simpa using h
        exact List.append_cancel_right this
      rw [h3] at hq
      obtain ⟨k, hk⟩ := balanced_cut _ a 0 rfl ha hq
      have := balanced_unique (Balanced.open hk) hu
      omega
    · rw [List.cons_append, List.cons.injEq] at h2
      refine ⟨a, b1, rfl, rfl, ?_, ha⟩
      rw [← h2.2, List.append_assoc]

theorem no_group {row P Q u : Row} (hn : sy '(' ∉ row) : row ≠ P ++ (inBrackets u ++ Q) := by
  rintro rfl
  exact hn (by simp [inBrackets])

/-- What stands in brackets is replaced by something for the same formulas. -/
theorem writes_group (hx : x.Usual) {u v : Row} (hu : Balanced 0 u) (hne : u ≠ [])
    (huv : ∀ e : Formula, e.Writes x 0 0 u → e.Writes x 0 0 v) {e : Formula} {l r : Nat} {row : Row}
    (h : e.Writes x l r row) : ∀ P Q : Row, row = P ++ (inBrackets u ++ Q) → quoteAfter P = .out →
      e.Writes x l r (P ++ (inBrackets v ++ Q)) := by
  have bal : ∀ {e : Formula} {l r : Nat} {row : Row}, e.Writes x l r row → Balanced 0 row := fun h =>
    readable_balanced hx (readable_of_writes h)
  have sub : ∀ {A c : Row}, Balanced 0 A → quoteAfter (A ++ c) = .out → quoteAfter c = .out :=
    fun hA h => by rwa [quoteAfter_append (balanced_out hA)] at h
  have text : ∀ {s : List Char}, '(' ∉ s → sy '(' ∉ s.map sy := fun hs hm => by
    obtain ⟨c, hc, he⟩ := List.mem_map.1 hm
    rw [sy_inj.1 he] at hc
    exact hs hc
  -- behind a formula there is something that is not in question
  have tail : ∀ {A t P Q : Row}, A ++ t = P ++ (inBrackets u ++ Q) → Balanced 0 A → quoteAfter P = .out →
      sy '(' ∉ t → ∃ c, A = P ++ (inBrackets u ++ c) ∧ Q = c ++ t := by
    intro A t P Q h hA hP ht
    rcases group_append h hA hu hP with h1 | ⟨c, -, h2⟩
    · exact h1
    · exact absurd h2 (no_group ht)
  induction h with
  | number h => exact fun P Q h1 _ => absurd h1 (no_group (text (isNumber_not h (by decide) (by decide))))
  | «variable» h => exact fun P Q h1 _ => absurd h1 (no_group (text (isName_not hx h (by decide))))
  | @constant l r k => exact fun P Q h1 _ => absurd h1 (no_group (by cases k <;> decide))
  | @string l r s t h =>
    intro P Q h1 h2
    exfalso
    cases P with
    | nil => simp [inBrackets, sy] at h1
    | cons n P =>
      simp only [List.cons_append, List.cons.injEq] at h1
      obtain ⟨rfl, h1⟩ := h1
      simp only [inBrackets, List.cons_append] at h1
      rcases append_node h1 with ⟨c, h3, -⟩ | ⟨c, -, h3⟩
      · exact absurd h2 (escapes_inside h P _ h3)
      · exact absurd (single_node h3).1 (by decide)
  | @bin l r a b p w q o n ks ss rows hl hr ha hw hs hb ih1 ih2 ih3 =>
    intro P Q h1 h2
    rcases group_append h1 (bal ha) hu h2 with ⟨c, h3, rfl⟩ | ⟨c, rfl, h4⟩
    · have := Formula.Writes.bin hl hr (ih1 P c h3 h2) hw hs hb
      simpa using this
    · have h5 := sub (bal ha) h2
      rcases group_append h4 (binOp_balanced hw) hu h5 with ⟨d, h6, -⟩ | ⟨d, rfl, h6⟩
      · refine absurd h6 (no_group fun hm => ?_)
        obtain ⟨w', rfl, -, hw2⟩ := writesOp_mem hw
        rcases List.mem_append.1 hm with hm | hm
        · have := List.mem_singleton.1 hm
          exact o.char_apart.1 (sy_inj.1 this).symm
        · exact absurd (hw2 _ hm) (by decide)
      · have := Formula.Writes.bin hl hr ha hw hs (ih3 d Q h6 (sub (binOp_balanced hw) h5))
        simpa using this
  | @pre l r a w q o n ks ss rows hr hw hs ha hj ih1 ih2 =>
    intro P Q h1 h2
    rcases group_append h1 (preOp_balanced hw) hu h2 with ⟨d, h6, -⟩ | ⟨d, rfl, h6⟩
    · refine absurd h6 (no_group fun hm => ?_)
      obtain ⟨w', rfl, -, hw2⟩ := writesOp_mem hw
      rcases List.mem_append.1 hm with hm | hm
      · exact text (by cases o <;> decide) hm
      · exact absurd (hw2 _ hm) (by decide)
    · have := Formula.Writes.pre (l := l) hr hw hs (ih2 d Q h6 (sub (preOp_balanced hw) h2)) (by
        rw [h6, ← List.append_assoc] at hj
        rw [← List.append_assoc]
        exact joins_skip (q' := v ++ [sy ')'] ++ Q) (n := sy '(') ⟨by decide +kernel, by decide +kernel⟩ hj)
      simpa using this
  | @post l r a p o ha ih =>
    intro P Q h1 h2
    obtain ⟨c, h3, rfl⟩ := tail h1 (bal ha) h2 (by cases o <;> decide)
    have := Formula.Writes.post (r := r) (o := o) (ih P c h3 h2)
    simpa using this
  | @script l r a b p q k ha hb ih1 ih2 =>
    intro P Q h1 h2
    obtain ⟨c, h3, rfl⟩ := tail h1 (bal ha) h2 (by simp [sy])
    have := Formula.Writes.script (r := r) (k := k) (ih1 P c h3 h2) hb
    simpa using this
  | @apply l r a b p q ha hb ih1 ih2 =>
    intro P Q h1 h2
    rcases group_append h1 (bal ha) hu h2 with ⟨c, h3, rfl⟩ | ⟨c, rfl, h4⟩
    · have := Formula.Writes.apply (r := r) (ih1 P c h3 h2) hb
      simpa using this
    · rcases group_brackets h4 (bal hb) hu (sub (bal ha) h2) with ⟨rfl, rfl, rfl⟩ | ⟨a1, b1, rfl, rfl, h5, h6⟩
      · have := Formula.Writes.apply (r := r) ha (huv _ hb)
        simpa using this
      · have := Formula.Writes.apply (r := r) ha (ih2 a1 b1 h5 h6)
        simpa [inBrackets] using this
  | @call l r a p ha ih =>
    intro P Q h1 h2
    rcases group_append h1 (bal ha) hu h2 with ⟨c, h3, rfl⟩ | ⟨c, rfl, h4⟩
    · have := Formula.Writes.call (r := r) (ih P c h3 h2)
      simpa using this
    · rcases group_brackets h4 .nil hu (sub (bal ha) h2) with ⟨-, -, rfl⟩ | ⟨a1, b1, -, -, h5, -⟩
      · exact absurd rfl hne
      · simp [inBrackets] at h5
  | unit =>
    intro P Q h1 h2
    rcases group_brackets h1 .nil hu h2 with ⟨-, -, rfl⟩ | ⟨a1, b1, -, -, h5, -⟩
    · exact absurd rfl hne
    · simp [inBrackets] at h5
  | fraction => exact fun P Q h1 _ => absurd h1 (no_group (by simp [sy]))
  | root => exact fun P Q h1 _ => absurd h1 (no_group (by simp [sy]))
  | table => exact fun P Q h1 _ => absurd h1 (no_group (by simp [sy]))
  | @brackets l r e p he ih =>
    intro P Q h1 h2
    rcases group_brackets h1 (bal he) hu h2 with ⟨rfl, rfl, rfl⟩ | ⟨a1, b1, rfl, rfl, h5, h6⟩
    · have := Formula.Writes.brackets (l := l) (r := r) (huv _ he)
      simpa using this
    · have := Formula.Writes.brackets (l := l) (r := r) (ih a1 b1 h5 h6)
      simpa [inBrackets] using this
  | @before l r e p he ih =>
    intro P Q h1 h2
    cases P with
    | nil => simp [inBrackets, sy] at h1
    | cons n P =>
      simp only [List.cons_append, List.cons.injEq] at h1
      obtain ⟨rfl, h1⟩ := h1
      refine .before (ih P Q h1 ?_)
      rw [← h2, ← List.singleton_append, quoteAfter_append (p := [sy ' ']) (by decide)]
  | @after l r e p he ih =>
    intro P Q h1 h2
    obtain ⟨c, h3, rfl⟩ := tail h1 (bal he) h2 (by decide)
    have := Formula.Writes.after (ih P c h3 h2)
    simpa using this

/-- What is written in brackets is what stands in them. -/
theorem writes_contents (hx : x.Usual) {u : Row} (hu : Balanced 0 u) (hne : u ≠ []) {e : Formula} {l r : Nat}
    {row : Row} (h : e.Writes x l r row) (hr : row = inBrackets u) : e.Writes x 0 0 u := by
  have text : ∀ {s : List Char}, '(' ∉ s → sy '(' ∉ s.map sy := fun hs hm => by
    obtain ⟨c, hc, he⟩ := List.mem_map.1 hm
    rw [sy_inj.1 he] at hc
    exact hs hc
  have no : ∀ {row : Row}, sy '(' ∉ row → row ≠ inBrackets u := by
    rintro row hn rfl
    exact hn (by simp [inBrackets])
  have two : ∀ {A B : Row}, Balanced 0 A → A ≠ [] → B ≠ [] → A ++ B ≠ inBrackets u := by
    intro A B hA h1 h2 h3
    rcases group_append (P := []) (Q := []) (by simpa using h3) hA hu rfl with ⟨c, -, h4⟩ | ⟨c, h4, -⟩
    · exact h2 (List.append_eq_nil_iff.1 h4.symm).2
    · exact h1 (List.append_eq_nil_iff.1 h4.symm).1
  have ne : ∀ {e : Formula} {l r : Nat} {row : Row}, e.Writes x l r row → Balanced 0 row ∧ row ≠ [] :=
    fun h => ⟨readable_balanced hx (readable_of_writes h), (readable_of_writes h).ne_nil⟩
  cases h with
  | number h => exact absurd hr (no (text (isNumber_not h (by decide) (by decide))))
  | «variable» h => exact absurd hr (no (text (isName_not hx h (by decide))))
  | constant =>
    rename_i k
    exact absurd hr (no (by cases k <;> decide))
  | string h => simp [inBrackets, sy] at hr
  | bin _ _ ha _ _ hb => exact absurd hr (two (ne ha).1 (ne ha).2 (by simp [(ne hb).2]))
  | pre _ hw _ ha _ =>
    refine absurd hr (two (preOp_balanced hw) ?_ (ne ha).2)
    obtain ⟨w', rfl, -⟩ := writesOp_mem hw
    have text_ne : ∀ o : PreOp, o.text ≠ [] := fun o => by cases o <;> simp [PreOp.text]
    simp [text_ne]
  | post ha => exact absurd hr (two (ne ha).1 (ne ha).2 (by simp))
  | script ha _ => exact absurd hr (two (ne ha).1 (ne ha).2 (by simp))
  | apply ha _ => exact absurd hr (two (ne ha).1 (ne ha).2 (by simp [inBrackets]))
  | call ha => exact absurd hr (two (ne ha).1 (ne ha).2 (by simp [inBrackets]))
  | unit =>
    simp only [inBrackets, List.cons_append, List.cons.injEq, true_and, List.nil_append] at hr
    have : ([] : Row) ++ [sy ')'] = u ++ [sy ')'] := hr
    exact absurd (List.append_cancel_right this).symm hne
  | fraction => exact absurd hr (no (by simp [sy]))
  | root => exact absurd hr (no (by simp [sy]))
  | table => exact absurd hr (no (by simp [sy]))
  | brackets h =>
    simp only [inBrackets, List.cons_append, List.cons.injEq, true_and] at hr
    rwa [← List.append_cancel_right hr]
  | before h => simp [inBrackets, sy] at hr
  | after h => exact absurd hr (two (ne h).1 (ne h).2 (by simp))

theorem ReplacedAt.symm {root root' old new : Row} {p : RowIndices} (h : ReplacedAt root p old new root') :
    ReplacedAt root' p new old root := by
  induction h with
  | here => exact .here _ _
  | under hlen hn hn' ho hcl hc hc' hco _ ih =>
    exact .under hlen.symm hn' hn (fun k hk => (ho k hk).symm) hcl.symm hc' hc (fun k hk => (hco k hk).symm) ih

/-- A row somewhere is replaced by another one for the same formulas. -/
theorem writes_replacedAt {root root' old new : Row} {p : RowIndices} (hr : ReplacedAt root p old new root')
    (hon : ∀ e : Formula, e.Writes x 0 0 old → e.Writes x 0 0 new) :
    ∀ e : Formula, e.Writes x 0 0 root → e.Writes x 0 0 root' := by
  induction hr with
  | here => exact hon
  | @under r r' i j p old new v cells cells' w c c' hlen hnode hnode' hother hclen hcell hcell' hcother _ ih =>
    intro e he
    obtain ⟨hi, hi'⟩ := List.getElem?_eq_some_iff.1 hnode
    have hr : r = r.take i ++ .container v cells w :: r.drop (i + 1) := by
      rw [← hi', ← List.drop_eq_getElem_cons hi, List.take_append_drop]
    have hj : j < cells.length := (List.getElem?_eq_some_iff.1 hcell).1
    have hcells : cells' = cells.set j c' := by
      apply List.ext_getElem?
      intro k
      by_cases hk : k = j
      · subst hk
        rw [hcell', List.getElem?_set_self hj]
      · rw [hcother k hk, List.getElem?_set_ne (fun h => hk h.symm)]
    have hr' : r' = r.take i ++ .container v (cells.set j c') w :: r.drop (i + 1) := by
      have hset : r' = r.set i (.container v (cells.set j c') w) := by
        apply List.ext_getElem?
        intro k
        by_cases hk : k = i
        · subst hk
          rw [hnode', List.getElem?_set_self hi, hcells]
        · rw [hother k hk, List.getElem?_set_ne (fun h => hk h.symm)]
      rw [hset, List.set_eq_take_append_cons_drop, if_pos hi]
    rw [hr']
    exact writes_cell (ih hon) he _ _ v cells w j hr hcell

end Aftermath
